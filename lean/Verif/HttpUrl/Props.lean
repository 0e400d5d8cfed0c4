import Verif.HttpUrl.Lemmas

set_option linter.unusedSimpArgs false

/-!
# C14, C15: the query string of upstream URLs
-/

namespace Verif.HttpUrl
open Verif.Mustache (Text Template Seg)

/-! ## Specification -/

/-- A parameter name without characters that are special in a query string. -/
def CleanKey (k : Text) : Prop := ∀ c ∈ k, c ∉ ['&', '=', '%', '+', '\t', '\n', '\r']

/-- A value without characters that are special in a query string (`=` is fine). -/
def CleanVal (v : Text) : Prop := ∀ c ∈ v, c ∉ ['&', '%', '+', '\t', '\n', '\r']

/-- The text of a scalar; null, lists and objects have none. -/
def scalarText : GVal → Text
  | .str s | .enum s | .float s => s
  | .int n => (toString n).toList
  | .bool true => "true".toList
  | .bool false => "false".toList
  | _ => []

/-- Is it a scalar (something with a text)? -/
def isScalar : GVal → Bool
  | .null | .list _ | .obj _ => false
  | _ => true

mutual
/-- All leaves of nested lists, left to right; an empty list is a leaf. -/
def leaves : GVal → List GVal
  | .list (x :: xs) => leaves x ++ leavesAll xs
  | v => [v]

/-- The leaves of all items of a list. -/
def leavesAll : List GVal → List GVal
  | [] => []
  | x :: xs => leaves x ++ leavesAll xs
end

/-- The values a parameter is sent with. -/
def sentValues (e : Encoder) : VS → List Text
  | .string s => [s]
  | .value _ v =>
      match e with
      | .repeatedKey => (leaves v).map scalarText
      | .commaSeparated =>
          match v with
          | .list l => [[','].intercalate ((l.filter isScalar).map scalarText)]
          | v => [scalarText v]

/-- The value of a template with at most one segment. -/
def singleValue (ctx : RCtx) : Template → Option VS
  | [.lit l] => some (.string l)
  | [.expr ps] => ctx.raw ps
  | _ => none

/-- The parameters a configured query entry stands for. -/
def specParams (e : Encoder) (ctx : RCtx) (q : Query) : List (Text × Text) :=
  match singleValue ctx q.value with
  | some v => (sentValues e v).map (fun w => (q.key, w))
  | none => if q.skipEmpty then [] else [(q.key, [])]

/-- The value of a query entry is absent: it refers only to things that have no value. -/
def Absent (ctx : RCtx) (t : Template) : Prop :=
  ∀ s ∈ t, ∃ ps, s = .expr ps ∧ ctx.raw ps = none

/-! ## Bridges between specification and model -/

theorem cleanKey_iff {k : Text} (h : CleanKey k) :
    (∀ c ∈ k, c ≠ '%' ∧ c ≠ '+' ∧ isTabNl c = false) ∧ '=' ∉ k ∧ '&' ∉ k := by
  refine ⟨fun c hc => ?_, fun hc => ?_, fun hc => ?_⟩
  · have := h c hc
    simp at this
    simp [isTabNl, this]
  · exact absurd (h _ hc) (by simp)
  · exact absurd (h _ hc) (by simp)

theorem cleanVal_iff {v : Text} (h : CleanVal v) :
    (∀ c ∈ v, c ≠ '%' ∧ c ≠ '+' ∧ isTabNl c = false) ∧ '&' ∉ v := by
  refine ⟨fun c hc => ?_, fun hc => ?_⟩
  · have := h c hc
    simp at this
    simp [isTabNl, this]
  · exact absurd (h _ hc) (by simp)

theorem convert_scalar (v : GVal) :
    convert v = if isScalar v then some (scalarText v) else none := by
  cases v with
  | bool b => cases b <;> rfl
  | _ => simp [convert, isScalar, scalarText, intText]

theorem not_scalar_text {v : GVal} (h : isScalar v = false) : scalarText v = [] := by
  cases v <;> simp_all [isScalar, scalarText]

theorem pairs_encodeScalar (k : Text) (v : GVal) (hne : k ≠ []) (hk : CleanKey k)
    (hv : CleanVal (scalarText v)) :
    pairsOf (encodeQuery (encodeScalar k v)) = [(k, scalarText v)] := by
  obtain ⟨h1, h2, h3⟩ := cleanKey_iff hk
  obtain ⟨h4, h5⟩ := cleanVal_iff hv
  unfold encodeScalar
  rw [convert_scalar]
  by_cases hs : isScalar v = true
  · simp only [hs, if_true]
    exact pairs_kv k _ h1 h2 h3 h4 h5
  · simp only [hs, Bool.false_eq_true, if_false]
    rw [pairs_bare k hne h1 h2 h3, not_scalar_text (by simpa using hs)]

mutual
theorem pairs_encodeRepeated (k : Text) (hne : k ≠ []) (hk : CleanKey k) :
    ∀ v : GVal, (∀ w ∈ leaves v, CleanVal (scalarText w)) →
      pairsOf (encodeQuery (encodeRepeated k v)) = (leaves v).map (fun w => (k, scalarText w))
  | .list (x :: xs), h => by
      rw [leaves] at h
      rw [encodeRepeated, pairs_joinWith, leaves]
      simp only [List.flatMap_cons, List.map_append]
      rw [pairs_encodeRepeated k hne hk x (fun w hw => h w (List.mem_append_left _ hw)),
        pairs_encodeRepeatedAll k hne hk xs (fun w hw => h w (List.mem_append_right _ hw))]
  | .list [], h => by
      rw [encodeRepeated, pairs_encodeScalar k _ hne hk (by simp [scalarText, CleanVal])]
      · simp [leaves]
      · simp
  | .null, h | .bool _, h | .int _, h | .float _, h | .str _, h | .enum _, h | .obj _, h => by
      rw [encodeRepeated, pairs_encodeScalar k _ hne hk (h _ (by simp [leaves]))]
      · simp [leaves]
      · simp

theorem pairs_encodeRepeatedAll (k : Text) (hne : k ≠ []) (hk : CleanKey k) :
    ∀ xs : List GVal, (∀ w ∈ leavesAll xs, CleanVal (scalarText w)) →
      (encodeRepeatedAll k xs).flatMap (fun i => pairsOf (encodeQuery i)) =
        (leavesAll xs).map (fun w => (k, scalarText w))
  | [], _ => by simp [encodeRepeatedAll, leavesAll]
  | x :: xs, h => by
      rw [leavesAll] at h
      rw [encodeRepeatedAll, leavesAll]
      simp only [List.flatMap_cons, List.map_append]
      rw [pairs_encodeRepeated k hne hk x (fun w hw => h w (List.mem_append_left _ hw)),
        pairs_encodeRepeatedAll k hne hk xs (fun w hw => h w (List.mem_append_right _ hw))]
end

theorem joinWith_eq (ts : List Text) : joinWith ',' ts = [','].intercalate ts := by
  match ts with
  | [] => simp [joinWith, List.intercalate]
  | [x] => simp [joinWith, List.intercalate]
  | x :: y :: r =>
    rw [joinWith, joinWith_eq (y :: r)]
    simp [List.intercalate, List.intersperse]

theorem filterMap_convert (l : List GVal) :
    l.filterMap convert = (l.filter isScalar).map scalarText := by
  induction l with
  | nil => rfl
  | cons x r ih =>
    rw [List.filterMap_cons, convert_scalar]
    by_cases h : isScalar x = true
    · simp [h, ih]
    · simp [h, ih]

theorem pairs_encodeComma (k : Text) (hne : k ≠ []) (hk : CleanKey k) (v : GVal)
    (h : ∀ w ∈ sentValues .commaSeparated (.value true v), CleanVal w) :
    pairsOf (encodeQuery (encodeComma k v)) =
      (sentValues .commaSeparated (.value true v)).map (fun w => (k, w)) := by
  obtain ⟨h1, h2, h3⟩ := cleanKey_iff hk
  cases v with
  | list l =>
    cases l with
    | nil =>
      simp only [encodeComma]
      rw [pairs_encodeScalar k _ hne hk (by simp [scalarText, CleanVal])]
      simp [sentValues, scalarText, List.intercalate]
    | cons x xs =>
      simp only [encodeComma, sentValues]
      rw [filterMap_convert]
      simp only [sentValues, List.mem_singleton, forall_eq] at h
      split
      · rename_i he
        rw [he, pairs_bare k hne h1 h2 h3]
        simp [List.intercalate]
      · rw [joinWith_eq]
        obtain ⟨h4, h5⟩ := cleanVal_iff h
        rw [pairs_kv k _ h1 h2 h3 h4 h5]
        simp
  | _ =>
    simp only [encodeComma, sentValues, List.mem_singleton, forall_eq] at h ⊢
    rw [pairs_encodeScalar k _ hne hk h]
    simp

theorem pairs_encode (e : Encoder) (k : Text) (hne : k ≠ []) (hk : CleanKey k) (v : VS)
    (h : ∀ w ∈ sentValues e v, CleanVal w) :
    pairsOf (encodeQuery (encode e k (some v))) = (sentValues e v).map (fun w => (k, w)) := by
  obtain ⟨h1, h2, h3⟩ := cleanKey_iff hk
  cases v with
  | string s =>
    simp only [sentValues, List.mem_singleton, forall_eq] at h
    obtain ⟨h4, h5⟩ := cleanVal_iff h
    simp only [encode, sentValues]
    rw [pairs_kv k _ h1 h2 h3 h4 h5]; simp
  | value o v =>
    cases e with
    | repeatedKey =>
      simp only [encode, encodeConst, sentValues] at h ⊢
      rw [pairs_encodeRepeated k hne hk v (fun w hw => h _ (List.mem_map.mpr ⟨w, hw, rfl⟩))]
      simp
    | commaSeparated =>
      simp only [encode, encodeConst]
      exact pairs_encodeComma k hne hk v h

/-- Parameters of one configured entry. -/
theorem pairs_query (e : Encoder) (ctx : RCtx) (q : Query) (hlen : q.value.length ≤ 1)
    (hne : q.key ≠ []) (hk : CleanKey q.key)
    (hv : ∀ kv ∈ specParams e ctx q, CleanVal kv.2) :
    (extraItems e ctx [q]).flatMap (fun i => pairsOf (encodeQuery i)) = specParams e ctx q := by
  obtain ⟨h1, h2, h3⟩ := cleanKey_iff hk
  have habs : valueEval ctx q.value = none → singleValue ctx q.value = none →
      (extraItems e ctx [q]).flatMap (fun i => pairsOf (encodeQuery i)) = specParams e ctx q := by
    intro he hs
    simp only [extraItems, List.filterMap_cons, List.filterMap_nil, specParams, he, hs]
    cases q.skipEmpty
    · simp [encode, pairs_bare q.key hne h1 h2 h3]
    · simp
  have hpres : ∀ v, valueEval ctx q.value = some v → singleValue ctx q.value = some v →
      (extraItems e ctx [q]).flatMap (fun i => pairsOf (encodeQuery i)) = specParams e ctx q := by
    intro v he hs
    have hv' : ∀ w ∈ sentValues e v, CleanVal w := by
      intro w hw
      refine hv (q.key, w) ?_
      simp only [specParams, hs]
      exact List.mem_map.mpr ⟨w, hw, rfl⟩
    simp only [extraItems, List.filterMap_cons, List.filterMap_nil, specParams, he, hs]
    cases q.skipEmpty <;> simp [pairs_encode e q.key hne hk v hv']
  match hq : q.value with
  | [] => rw [hq] at habs; exact habs (by simp [valueEval]) rfl
  | [.expr ps] =>
    rw [hq] at habs hpres
    cases hr : ctx.raw ps with
    | none => exact habs (by simp [valueEval, hr]) (by simp [singleValue, hr])
    | some v => exact hpres v (by simp [valueEval, hr]) (by simp [singleValue, hr])
  | [.lit l] =>
    have hv' : CleanVal l := by
      refine hv (q.key, l) ?_
      simp [specParams, hq, singleValue, sentValues]
    obtain ⟨h4, h5⟩ := cleanVal_iff hv'
    have : valueEval ctx q.value = some (.value true (.str l)) := by simp [hq, valueEval]
    have hs : singleValue ctx q.value = some (.string l) := by simp [hq, singleValue]
    simp only [extraItems, List.filterMap_cons, List.filterMap_nil, specParams, this, hs]
    cases e <;> cases q.skipEmpty <;>
      simp [encode, encodeConst, encodeRepeated, encodeComma, encodeScalar, convert, sentValues,
        pairs_kv q.key l h1 h2 h3 h4 h5]
  | _ :: _ :: _ => rw [hq] at hlen; simp at hlen

theorem extraItems_cons (e : Encoder) (ctx : RCtx) (q : Query) (qs : List Query) :
    extraItems e ctx (q :: qs) = extraItems e ctx [q] ++ extraItems e ctx qs := by
  simp only [extraItems, List.filterMap_cons, List.filterMap_nil]
  split <;> simp

theorem pairs_queries (e : Encoder) (ctx : RCtx) (qs : List Query)
    (hlen : ∀ q ∈ qs, q.value.length ≤ 1)
    (hk : ∀ q ∈ qs, q.key ≠ [] ∧ CleanKey q.key)
    (hv : ∀ q ∈ qs, ∀ kv ∈ specParams e ctx q, CleanVal kv.2) :
    (extraItems e ctx qs).flatMap (fun i => pairsOf (encodeQuery i)) =
      qs.flatMap (specParams e ctx) := by
  induction qs with
  | nil => simp [extraItems]
  | cons q qs ih =>
    rw [extraItems_cons, List.flatMap_append, List.flatMap_cons]
    rw [pairs_query e ctx q (hlen q List.mem_cons_self) (hk q List.mem_cons_self).1
      (hk q List.mem_cons_self).2 (hv q List.mem_cons_self)]
    rw [ih (fun x hx => hlen x (List.mem_cons_of_mem _ hx))
      (fun x hx => hk x (List.mem_cons_of_mem _ hx)) (fun x hx => hv x (List.mem_cons_of_mem _ hx))]

theorem pairs_base (u : Url)
    (h : ∀ kv ∈ u.pairs, CleanKey kv.1 ∧ CleanVal kv.2 ∧ kv.2 ≠ []) :
    (baseItems u).flatMap (fun i => pairsOf (encodeQuery i)) = u.pairs := by
  have aux : ∀ l : List (Text × Text), (∀ kv ∈ l, CleanKey kv.1 ∧ CleanVal kv.2 ∧ kv.2 ≠ []) →
      (((l.filter (fun kv => !kv.2.isEmpty)).map (fun kv => kv.1 ++ '=' :: kv.2)).flatMap
        (fun i => pairsOf (encodeQuery i))) = l := by
    intro l
    induction l with
    | nil => simp
    | cons kv r ih =>
      intro h
      obtain ⟨a, b, c⟩ := h kv List.mem_cons_self
      obtain ⟨h1, h2, h3⟩ := cleanKey_iff a
      obtain ⟨h4, h5⟩ := cleanVal_iff b
      have he : kv.2.isEmpty = false := by
        cases hh : kv.2 with
        | nil => exact absurd hh c
        | cons => rfl
      rw [List.filter_cons]
      simp only [he, Bool.not_false, if_true, List.map_cons, List.flatMap_cons]
      rw [pairs_kv kv.1 kv.2 h1 h2 h3 h4 h5, ih (fun x hx => h x (List.mem_cons_of_mem _ hx))]
      simp
  exact aux u.pairs h

/-! ## C14 -/

/-- **C14 (partial).** The query string of the upstream URL parses back to exactly the parameters of
the base URL followed by the configured parameters with their values.

Missing from the full statement: it only holds when names and values contain none of
`& % + TAB CR LF`, base parameters have non-empty values, and each query template is one literal
or one expression; the theorems `C14_violated_by_*` show that each restriction is needed. -/
theorem C14_pairs_exact_partial (norm : Text → Option Text) (t : ReqTemplate) (ctx : RCtx) (url u : Url)
    (hp : parseUrl norm (Verif.Mustache.render t.root ctx.str) = some url)
    (hu : createUrl norm t ctx = some u)
    (hlen : ∀ q ∈ t.query, q.value.length ≤ 1)
    (hk : ∀ q ∈ t.query, q.key ≠ [] ∧ CleanKey q.key)
    (hv : ∀ q ∈ t.query, ∀ kv ∈ specParams t.encoder ctx q, CleanVal kv.2)
    (hb : ∀ kv ∈ url.pairs, CleanKey kv.1 ∧ CleanVal kv.2 ∧ kv.2 ≠ []) :
    u.pairs = url.pairs ++ t.query.flatMap (specParams t.encoder ctx) := by
  by_cases hc : (t.query.isEmpty && Verif.Mustache.isConst t.root) = true
  · unfold createUrl at hu
    rw [hp] at hu
    simp only [hc, if_true] at hu
    injection hu with hu
    subst hu
    have : t.query = [] := by
      rw [Bool.and_eq_true] at hc
      exact List.isEmpty_iff.mp hc.1
    simp [this]
  · rw [createUrl_pairs hp (by simpa using hc) hu, List.flatMap_append, pairs_base url hb,
      pairs_queries t.encoder ctx t.query hlen hk hv]

/-- **C14.** Whatever the query templates render to, they cannot change scheme, host, path or fragment. -/
theorem C14_rest_unchanged (norm : Text → Option Text) (t : ReqTemplate) (ctx : RCtx) (url u : Url)
    (hp : parseUrl norm (Verif.Mustache.render t.root ctx.str) = some url)
    (hu : createUrl norm t ctx = some u) : u.base = url.base ∧ u.frag = url.frag := by
  unfold createUrl at hu
  rw [hp] at hu
  simp only [] at hu
  split at hu
  · injection hu with hu; subst hu; exact ⟨rfl, rfl⟩
  · split at hu <;> (injection hu with hu; subst hu; exact ⟨rfl, rfl⟩)

section examples

/-- Accept every scheme/host/path text. -/
def normAll : Text → Option Text := some

/-- Example data for the concrete cases below. -/
def argsId : List Text := ["args".toList, "id".toList]

/-- A context in which `{{.args.id}}` is the string `s` and nothing else has a value. -/
def ctxId (s : String) : RCtx :=
  { raw := fun p => if p = argsId then some (.value false (.str s.toList)) else none
    json := fun _ => []
    headers := [] }

/-- Example data for the concrete cases below. -/
def tmpl (root : Template) (qs : List Query) : ReqTemplate :=
  { root := root, query := qs, method := "GET".toList, headers := [], body := none, encoding := .json,
    encoder := .repeatedKey }

/-- Example data for the concrete cases below. -/
def qId : Query := ⟨"id".toList, [.expr argsId], false⟩
/-- Example data for the concrete cases below. -/
def qOpt : Query := ⟨"opt".toList, [.expr ["args".toList, "opt".toList]], true⟩

/-- The hypotheses of `C14_pairs_exact_partial` are met by a URL with a base parameter, a literal
parameter, a rendered one and a skipped one. -/
example : createUrl normAll (tmpl [.lit "http://u/p?a=1".toList]
      [⟨"k".toList, [.lit "v w".toList], false⟩, qId, qOpt]) (ctxId "x=y#z") =
    some ⟨"http://u/p".toList,
      some (encodeQuery "a=1&k=v w&id=x=y#z".toList), none⟩ ∧
    pairsOf (encodeQuery "a=1&k=v w&id=x=y#z".toList) =
      [("a".toList, "1".toList), ("k".toList, "v w".toList), ("id".toList, "x=y#z".toList)] := by
  decide

/-- A client that sends the id `1&admin=true` adds a parameter `admin=true` to the upstream call. -/
theorem C14_violated_by_ampersand_in_value :
    ∃ u, createUrl normAll (tmpl [.lit "http://u/p".toList] [qId]) (ctxId "1&admin=true") = some u ∧
      u.pairs = [("id".toList, "1".toList), ("admin".toList, "true".toList)] :=
  ⟨_, rfl, by decide⟩

/-- A value in the path part of the URL that contains `?` adds parameters as well. -/
theorem C14_violated_by_question_mark_in_path :
    ∃ u, createUrl normAll (tmpl [.lit "http://u/p/".toList, .expr argsId] []) (ctxId "7?admin=true")
        = some u ∧ u.base = "http://u/p/7".toList ∧ u.pairs = [("admin".toList, "true".toList)] :=
  ⟨_, rfl, by decide, by decide⟩

/-- A `+` in a value reaches the upstream as a space. -/
theorem C14_violated_by_plus :
    ∃ u, createUrl normAll (tmpl [.lit "http://u/p".toList] [qId]) (ctxId "a+b") = some u ∧
      u.pairs = [("id".toList, "a b".toList)] :=
  ⟨_, rfl, by decide⟩

/-- Of a query template with a literal and an expression only the first segment is sent. -/
theorem C14_violated_by_mixed_template :
    ∃ u, createUrl normAll (tmpl [.lit "http://u/p".toList]
        [⟨"q".toList, [.lit "post-".toList, .expr argsId], false⟩]) (ctxId "7") = some u ∧
      u.pairs = [("q".toList, "post-".toList)] :=
  ⟨_, rfl, by decide⟩

/-- A base parameter with an empty value is lost as soon as one query template is configured. -/
theorem C14_violated_by_empty_base_value :
    ∃ u, createUrl normAll (tmpl [.lit "http://u/p?flag=&a=1".toList] [qId]) (ctxId "7") = some u ∧
      u.pairs = [("a".toList, "1".toList), ("id".toList, "7".toList)] :=
  ⟨_, rfl, by decide⟩

/-- A correctly percent-encoded base parameter (`q` = `a&b=1`) is split into two. -/
theorem C14_violated_by_encoded_base_value :
    pairsOf (encodeQuery "q=a%26b=1".toList) = [("q".toList, "a&b=1".toList)] ∧
    ∃ u, createUrl normAll (tmpl [.lit "http://u/p?q=a%26b=1".toList] [qId]) (ctxId "7") = some u ∧
      u.pairs = [("q".toList, "a".toList), ("b".toList, "1".toList), ("id".toList, "7".toList)] :=
  ⟨by decide, _, rfl, by decide⟩

end examples

/-! ## C15 -/

theorem valueEval_none {ctx : RCtx} {t : Template} : valueEval ctx t = none ↔ Absent ctx t := by
  unfold valueEval Absent
  induction t with
  | nil => simp
  | cons s r ih =>
    cases s with
    | lit l => simp
    | expr ps =>
      rw [List.filterMap_cons]
      cases h : ctx.raw ps with
      | none =>
        simp only [h, List.mem_cons, forall_eq_or_imp]
        rw [ih]
        constructor
        · exact fun hr => ⟨⟨ps, rfl, h⟩, hr⟩
        · exact fun hr => hr.2
      | some v =>
        simp only [h, List.head?_cons, List.mem_cons, forall_eq_or_imp]
        constructor
        · intro hh; cases hh
        · rintro ⟨⟨ps', h1, h2⟩, _⟩
          cases h1
          rw [h] at h2
          cases h2

/-- **C15.** An entry marked `skipEmpty` whose value is absent leaves no trace: the URL is the one of
the template without that entry.  (At least one other entry or a templated root URL is assumed,
because without any entry `create_url` returns the root URL unprocessed.) -/
theorem C15_absent_is_omitted (norm : Text → Option Text) (t : ReqTemplate) (ctx : RCtx) (q : Query)
    (qs₁ qs₂ : List Query) (hq : t.query = qs₁ ++ q :: qs₂) (hskip : q.skipEmpty = true)
    (habs : Absent ctx q.value)
    (hne : qs₁ ++ qs₂ ≠ [] ∨ Verif.Mustache.isConst t.root = false) :
    createUrl norm t ctx = createUrl norm { t with query := qs₁ ++ qs₂ } ctx := by
  have hx : extraItems t.encoder ctx t.query = extraItems t.encoder ctx (qs₁ ++ qs₂) := by
    rw [hq]
    simp only [extraItems, List.filterMap_append, List.filterMap_cons, hskip,
      valueEval_none.mpr habs]
  have h1 : (t.query.isEmpty && Verif.Mustache.isConst t.root) = false := by simp [hq]
  have h2 : ((qs₁ ++ qs₂).isEmpty && Verif.Mustache.isConst t.root) = false := by
    rcases hne with h | h
    · cases hh : qs₁ ++ qs₂ with
      | nil => exact absurd hh h
      | cons => rfl
    · simp [h]
  unfold createUrl
  simp only [hx, h1, h2]

theorem item_key (e : Encoder) (k : Text) (v : Option VS) (hne : k ≠ []) (hk : CleanKey k) :
    ∃ w r, pairsOf (encodeQuery (encode e k v)) = (k, w) :: r := by
  obtain ⟨h1, h2, h3⟩ := cleanKey_iff hk
  have hs : ∀ g : GVal, ∃ w r, pairsOf (encodeQuery (encodeScalar k g)) = (k, w) :: r := by
    intro g
    unfold encodeScalar
    split
    · exact key_survives k _ h1 h2 h3
    · exact ⟨_, _, pairs_bare k hne h1 h2 h3⟩
  have hr : ∀ g : GVal, ∃ w r, pairsOf (encodeQuery (encodeRepeated k g)) = (k, w) :: r := by
    intro g
    suffices ∀ n (g : GVal), sizeOf g ≤ n →
        ∃ w r, pairsOf (encodeQuery (encodeRepeated k g)) = (k, w) :: r from this _ g (Nat.le_refl _)
    intro n
    induction n with
    | zero => intro g hg; cases g <;> simp at hg
    | succ n ih =>
      intro g hg
      match g with
      | .list (x :: xs) =>
        rw [encodeRepeated, pairs_joinWith]
        have : sizeOf x ≤ n := by simp at hg; omega
        obtain ⟨w, r, h⟩ := ih x this
        simp only [List.flatMap_cons, h]
        exact ⟨w, _, rfl⟩
      | .list [] => rw [encodeRepeated]; exact hs _; simp
      | .null | .bool _ | .int _ | .float _ | .str _ | .enum _ | .obj _ =>
        rw [encodeRepeated]; exact hs _; simp
  match e, v with
  | _, none => exact ⟨_, _, pairs_bare k hne h1 h2 h3⟩
  | _, some (.string s) => exact key_survives k s h1 h2 h3
  | .repeatedKey, some (.value _ g) => exact hr g
  | .commaSeparated, some (.value _ g) =>
    simp only [encode, encodeConst]
    match g with
    | .list (x :: xs) =>
      simp only [encodeComma]
      split
      · exact ⟨_, _, pairs_bare k hne h1 h2 h3⟩
      · exact key_survives k _ h1 h2 h3
    | .list [] => simp only [encodeComma]; exact hs _
    | .null | .bool _ | .int _ | .float _ | .str _ | .enum _ | .obj _ => simp only [encodeComma]; exact hs _

open Classical in
/-- **C15.** Whatever the values contain, every entry that is not marked, or has a value, is sent, and
the entries that are sent keep their order: the names of the kept entries are a subsequence of the
names the upstream sees. -/
theorem C15_others_appear_in_order (norm : Text → Option Text) (t : ReqTemplate) (ctx : RCtx) (u : Url)
    (hu : createUrl norm t ctx = some u)
    (hk : ∀ q ∈ t.query, q.key ≠ [] ∧ CleanKey q.key) :
    ((t.query.filter (fun q => decide (¬ (q.skipEmpty = true ∧ Absent ctx q.value)))).map
        Query.key).Sublist (u.pairs.map Prod.fst) := by
  cases hp : parseUrl norm (Verif.Mustache.render t.root ctx.str) with
  | none => unfold createUrl at hu; rw [hp] at hu; cases hu
  | some url =>
    by_cases hc : (t.query.isEmpty && Verif.Mustache.isConst t.root) = true
    · have : t.query = [] := by
        rw [Bool.and_eq_true] at hc
        exact List.isEmpty_iff.mp hc.1
      simp [this]
    · rw [createUrl_pairs hp (by simpa using hc) hu, List.flatMap_append, List.map_append]
      apply List.Sublist.trans _ (List.sublist_append_right _ _)
      clear hu hp hc
      generalize t.query = qs at hk
      induction qs with
      | nil => simp
      | cons q qs ih =>
        have ih := ih (fun x hx => hk x (List.mem_cons_of_mem _ hx))
        rw [extraItems_cons, List.flatMap_append, List.map_append, List.filter_cons]
        obtain ⟨hne, hck⟩ := hk q List.mem_cons_self
        by_cases hd : q.skipEmpty = true ∧ Absent ctx q.value
        · simp only [hd, not_true_eq_false, and_self, decide_false, Bool.false_eq_true, if_false]
          exact List.Sublist.trans ih (List.sublist_append_right _ _)
        · have hx : extraItems t.encoder ctx [q] = [encode t.encoder q.key (valueEval ctx q.value)] := by
            simp only [extraItems, List.filterMap_cons, List.filterMap_nil]
            cases hs : q.skipEmpty with
            | false => simp
            | true =>
              cases hv : valueEval ctx q.value with
              | none => exact absurd ⟨hs, valueEval_none.mp hv⟩ hd
              | some v => simp
          obtain ⟨w, r, h⟩ := item_key t.encoder q.key (valueEval ctx q.value) hne hck
          simp only [hd, not_false_eq_true, decide_true, if_true, hx, List.flatMap_cons,
            List.flatMap_nil, h, List.map_cons, List.append_nil, List.cons_append]
          exact List.Sublist.cons₂ _ (List.Sublist.trans ih (List.sublist_append_right _ _))

/-- **C15 (what counts as a value).** An explicit `null` is a value: the parameter is sent, without
value, even when it is marked `skipEmpty`. -/
theorem C15_null_is_sent (norm : Text → Option Text) (t : ReqTemplate) (ctx : RCtx) (u : Url)
    (hu : createUrl norm t ctx = some u)
    (q : Query) (hq : q ∈ t.query) (hk : ∀ q ∈ t.query, q.key ≠ [] ∧ CleanKey q.key)
    (ps : List Text) (hv : q.value = [.expr ps]) (o : Bool)
    (hn : ctx.raw ps = some (.value o .null)) : q.key ∈ u.pairs.map Prod.fst := by
  classical
  have h := C15_others_appear_in_order norm t ctx u hu hk
  refine h.subset (List.mem_map.mpr ⟨q, List.mem_filter.mpr ⟨hq, ?_⟩, rfl⟩)
  simp only [decide_eq_true_eq, not_and]
  intro _ ha
  obtain ⟨ps', h1, h2⟩ := ha (.expr ps) (by simp [hv])
  cases h1
  rw [hn] at h2
  cases h2

/-- `opt` is dropped, the unmarked `id` of a context without values is sent bare, after `k`. -/
example : (createUrl normAll (tmpl [.lit "http://u/p".toList]
      [⟨"k".toList, [.lit "v".toList], true⟩, qOpt, qId])
      { raw := fun _ => none, json := fun _ => [], headers := [] }).map Url.pairs =
    some [("k".toList, "v".toList), ("id".toList, [])] := by decide

/-- The hypotheses of `C15_absent_is_omitted` hold for `qOpt` next to `qId`. -/
example : createUrl normAll (tmpl [.lit "http://u/p".toList] [qId, qOpt]) (ctxId "7") =
    createUrl normAll (tmpl [.lit "http://u/p".toList] [qId]) (ctxId "7") :=
  C15_absent_is_omitted normAll _ _ qOpt [qId] [] rfl rfl
    (by intro s hs; simp [qOpt] at hs; exact ⟨_, hs, by simp [ctxId, argsId]⟩) (Or.inl (by simp))

end Verif.HttpUrl
