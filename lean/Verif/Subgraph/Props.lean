import Verif.Subgraph.Extract

/-!
# C97, C98: keys of entities

C97: the `@key` declared for a type names the paths of the representation that its resolver reads, and only
these; a resolver that needs arguments is refused.  C98: a representation with the fields of the key, and
nothing else, is enough: what is asked is the same as with the whole entity.
-/

namespace Verif.Subgraph

open Verif.Mustache (Text Seg Template parse render)
open Verif.Tmpl (exprs)
open Verif.HttpUrl (GVal VS RCtx valueEval ReqTemplate createUrl Encoder)
open Verif.Merge (get)
open Verif.Ir (getPath)

set_option linter.unusedSimpArgs false

/-! ## C97 -/

/-- C97: every path that the resolver reads is named by the key.  (Partial: no later step of a call reads the
representation, see `C97_covers_violated_by_second_step`; a template with the whole representation, the empty
path, asks for no field.) -/
theorem C97_covers_partial {r : Resolver} {o : Option Text} {p : List Text} (hl : LaterStepsSilent r)
    (h : extractKeys r = some o) (hr : Reads r p) (hp : p ≠ []) : ∃ fields, o = some fields ∧ p ∈ keyPaths fields := by
  obtain ⟨s, hs, hm⟩ := hr
  have hu : Used (Parsed r) p := by
    rcases parsed_of_rendered hs with h' | ⟨step, steps, rfl, h'⟩
    · exact ⟨s, p, h', hm, List.prefix_refl p⟩
    · exact absurd ⟨s, h', hm⟩ (hl p)
  obtain ⟨_, h2, h3⟩ := extract_spec r
  cases o with
  | none => exact absurd hu (h2 h p hp)
  | some fields => exact ⟨fields, rfl, ((h3 fields h).2.2 p).2 ⟨hp, hu⟩⟩

/-- C97: the key names nothing but paths that are read and the fields on the way to them.  (Partial: no name of a
header, parameter or argument looks like a template, see `C97_minimal_violated_by_name`.) -/
theorem C97_minimal_partial {r : Resolver} {fields : Text} {q : List Text}
    (hn : ∀ s p, NameText r s → ¬ Mentions s "value".toList p)
    (h : extractKeys r = some (some fields)) (hq : q ∈ keyPaths fields) : q ≠ [] ∧ ∃ p, Reads r p ∧ q <+: p := by
  obtain ⟨h1, s, p, hs, hm, hpre⟩ := (((extract_spec r).2.2 fields h).2.2 q).1 hq
  refine ⟨h1, p, ?_, hpre⟩
  rcases parsed_split hs with h' | h'
  · exact ⟨s, h', hm⟩
  · exact absurd hm (hn s p h')

/-- C97: the key names at least one field and no path twice. -/
theorem C97_key_once {r : Resolver} {fields : Text} (h : extractKeys r = some (some fields)) :
    (keyPaths fields).Nodup ∧ keyPaths fields ≠ [] :=
  ⟨((extract_spec r).2.2 fields h).1, ((extract_spec r).2.2 fields h).2.1⟩

/-- C97: a resolver that is refused has an argument in some text, or is a call without steps. -/
theorem C97_refused {r : Resolver} (h : extractKeys r = none) :
    r = .call [] ∨ ∃ s p, (Rendered r s ∨ NameText r s) ∧ Mentions s "args".toList p := by
  rcases (extract_spec r).1.1 h with h | ⟨s, p, hs, hm⟩
  · exact .inl h
  · exact .inr ⟨s, p, parsed_split hs, hm⟩

/-- C97: a template with an argument is refused, in all that is rendered before the answer of another step is
there. -/
theorem C97_args_refused {r : Resolver} {s : Text} {p : List Text} (hs : Rendered r s)
    (hl : ∀ steps, r = .call steps → ∀ st rest, steps = st :: rest → ¬ Rendered (.call rest) s)
    (hm : Mentions s "args".toList p) : extractKeys r = none := by
  refine (extract_spec r).1.2 (.inr ⟨s, p, ?_, hm⟩)
  rcases parsed_of_rendered hs with h | ⟨step, steps, rfl, h⟩
  · exact h
  · exact absurd h (hl _ rfl step steps rfl)

theorem validateIter_iff (types : List (Text × TypeDef)) : ∀ (ks : List Text) (t : Text) (i : Nat),
    validateIter types t i ks = [] ↔ Chain types t ks
  | [], t, i => ⟨fun _ => .nil t, fun _ => rfl⟩
  | k :: ks, t, i => by
    rw [validateIter]
    cases ht : get t types with
    | none =>
      simp only []
      refine ⟨fun h => (by cases h), fun h => ?_⟩
      cases h with
      | cons h1 _ _ => rw [ht] at h1; cases h1
    | some td =>
      simp only []
      cases hf : get k td.fields with
      | none =>
        simp only []
        refine ⟨fun h => (by cases h), fun h => ?_⟩
        cases h with
        | cons h1 h2 _ => rw [ht] at h1; cases h1; rw [hf] at h2; cases h2
      | some f =>
        simp only []
        rw [validateIter_iff types ks]
        refine ⟨fun h => .cons ht hf h, fun h => ?_⟩
        cases h with
        | cons h1 h2 h3 => rw [ht] at h1; cases h1; rw [hf] at h2; cases h2; exact h3

theorem validateExpressions_iff (types : List (Text × TypeDef)) (t s : Text) :
    validateExpressions types t s = [] ↔ ∀ p, Mentions s "value".toList p → Chain types t p := by
  rw [validateExpressions, List.flatMap_eq_nil_iff]
  constructor
  · intro h p hm
    have := h _ hm
    cases p with
    | nil => exact .nil t
    | cons x p =>
      simp only [if_true] at this
      exact (validateIter_iff types _ t 0).1 this
  · intro h e he
    match e, he with
    | [], _ => rfl
    | [_], _ => rfl
    | x :: y :: p, he =>
      simp only []
      split
      · next hx => subst hx; exact (validateIter_iff types _ t 0).2 (h _ he)
      · rfl

/-- C97: a resolver with `@http` is taken if, and only if, every path of the representation in its URL and the
values of its parameters goes through fields of the types. -/
theorem C97_fields_exist (types : List (Text × TypeDef)) (t url : Text) (body : Option Text)
    (headers query : List (Text × Text)) :
    validate types (.http url body headers query) t = [] ↔
      ∀ s p, (s = url ∨ ∃ k, (k, s) ∈ query) → Mentions s "value".toList p → Chain types t p := by
  rw [validate, List.append_eq_nil_iff, List.flatMap_eq_nil_iff, validateExpressions_iff]
  constructor
  · rintro ⟨h1, h2⟩ s p (rfl | ⟨k, hk⟩) hm
    · exact h2 p hm
    · exact (validateExpressions_iff types t s).1 (h1 _ hk) p hm
  · intro h
    exact ⟨fun kv hkv => (validateExpressions_iff types t kv.2).2 (fun p hm => h _ p (.inr ⟨kv.1, hkv⟩) hm),
      fun p hm => h _ p (.inl rfl) hm⟩

/-! ### Cases and negations -/

/-- The resolver of the cases. -/
def exHttp : Resolver := .http "http://x/{{.value.id}}".toList (some "{\"c\":\"{{.value.owner.name}}\"}".toList)
  [("x-org".toList, "{{.value.owner.org}}".toList)] [("q".toList, "{{.value.id}}".toList)]

theorem exHttp_key : extractKeys exHttp = some (some "id owner { name org }".toList) := by decide +kernel

example : keyPaths "id owner { name org }".toList =
    [["id".toList], ["owner".toList], ["owner".toList, "name".toList], ["owner".toList, "org".toList]] := by
  decide +kernel

theorem exHttp_reads : Reads exHttp ["owner".toList, "org".toList] :=
  ⟨_, .httpHeader List.mem_cons_self, by unfold Mentions; decide +kernel⟩

/-- A case of `C97_covers_partial`. -/
example : ["owner".toList, "org".toList] ∈ keyPaths "id owner { name org }".toList := by
  obtain ⟨f, hf, h⟩ := C97_covers_partial (r := exHttp) trivial exHttp_key exHttp_reads (by simp)
  cases hf; exact h

/-- A case of `C97_minimal_partial` and `C97_key_once`. -/
example : ∃ p, Reads exHttp p ∧ ["owner".toList] <+: p :=
  (C97_minimal_partial (r := exHttp) (q := ["owner".toList]) (by
    intro s p h
    cases h with
    | httpHeader h => cases h with
      | head => unfold Mentions; rw [show exprs (parse "x-org".toList) = [] from by decide +kernel]; simp
      | tail _ h => cases h
    | httpQuery h => cases h with
      | head => unfold Mentions; rw [show exprs (parse "q".toList) = [] from by decide +kernel]; simp
      | tail _ h => cases h) exHttp_key (by decide +kernel)).2

example : (keyPaths "id owner { name org }".toList).Nodup := (C97_key_once exHttp_key).1

/-- Cases of `C97_refused` and `C97_args_refused`. -/
example : extractKeys (.expr (.obj [("a".toList, .list [.str "{{.args.id}}".toList])])) = none :=
  C97_args_refused (s := "{{.args.id}}".toList) (p := ["id".toList])
    (.expr (.entry List.mem_cons_self (.item List.mem_cons_self (.str _)))) (by intro steps h; cases h)
    (by unfold Mentions; decide +kernel)

example : ∃ s p, (Rendered (.graphql [] (some [("id".toList, "{{.args.id}}".toList)])) s ∨
    NameText (.graphql [] (some [("id".toList, "{{.args.id}}".toList)])) s) ∧ Mentions s "args".toList p :=
  (C97_refused (r := .graphql [] (some [("id".toList, "{{.args.id}}".toList)])) (by decide +kernel)).resolve_left
    (by intro h; cases h)

/-- The types of the cases. -/
def exTypes : List (Text × TypeDef) :=
  [("Owner".toList, { TypeDef.empty with fields := [("name".toList, ⟨.named "String".toList false, [], .other 0⟩)] }),
   ("Repo".toList, { TypeDef.empty with fields :=
      [("id".toList, ⟨.named "ID".toList true, [], .other 0⟩), ("owner".toList, ⟨.named "Owner".toList false, [], .other 0⟩)] })]

/-- A case of `C97_fields_exist`: the URL names a field, a header does not. -/
example : validate exTypes (.http "http://x/{{.value.owner.name}}".toList none [] []) "Repo".toList = [] ∧
    validate exTypes (.http "http://x/{{.value.owner.nick}}".toList none [] []) "Repo".toList =
      [.noField 1 "nick".toList "Owner".toList] := by decide +kernel

/-- C97 for calls does not hold: a path that the second step reads is not named by the key. -/
theorem C97_covers_violated_by_second_step : ∃ (r : Resolver) (fields : Text) (p : List Text),
    extractKeys r = some (some fields) ∧ Reads r p ∧ p ≠ [] ∧ p ∉ keyPaths fields :=
  ⟨.call [[("id".toList, .str "{{.value.id}}".toList)], [("org".toList, .str "{{.value.org}}".toList)]],
   "id".toList, ["org".toList], by decide +kernel,
   ⟨"{{.value.org}}".toList, .callArg (List.mem_cons_of_mem _ List.mem_cons_self) List.mem_cons_self (.str _),
     by unfold Mentions; decide +kernel⟩, by simp, by decide +kernel⟩

/-- C97 on names does not hold: the name of a query parameter is no template, but its path is in the key. -/
theorem C97_minimal_violated_by_name : ∃ (r : Resolver) (fields : Text) (q : List Text),
    extractKeys r = some (some fields) ∧ q ∈ keyPaths fields ∧ ¬ ∃ p, Reads r p := by
  refine ⟨.http "http://x".toList none [] [("{{.value.id}}".toList, "1".toList)], "id".toList, ["id".toList],
    by decide +kernel, by decide +kernel, ?_⟩
  rintro ⟨p, s, h, hm⟩
  cases h with
  | httpUrl => rw [Mentions, show exprs (parse "http://x".toList) = [] from by decide +kernel] at hm; cases hm
  | httpHeader h => cases h
  | httpQuery h =>
    cases h with
    | head => rw [Mentions, show exprs (parse "1".toList) = [] from by decide +kernel] at hm; cases hm
    | tail _ h => cases h

/-- The key of a type need not name fields of the type: headers and bodies are not looked at by `validate`. -/
theorem C97_fields_exist_violated_by_header : ∃ (types : List (Text × TypeDef)) (t : Text) (r : Resolver) (fields : Text),
    validate types r t = [] ∧ extractKeys r = some (some fields) ∧ ∃ p ∈ keyPaths fields, ¬ Chain types t p := by
  refine ⟨exTypes, "Repo".toList, .http "http://x".toList none [("a".toList, "{{.value.nick}}".toList)] [],
    "nick".toList, by decide +kernel, by decide +kernel, ["nick".toList], by decide +kernel, ?_⟩
  intro h
  exact absurd ((validateIter_iff exTypes ["nick".toList] "Repo".toList 0).2 h) (by decide +kernel)

/-- The key of a type need not be a valid selection: a field whose type has fields is named without any of them. -/
theorem C97_key_violated_by_object_leaf : ∃ (types : List (Text × TypeDef)) (t : Text) (r : Resolver) (fields : Text),
    validate types r t = [] ∧ extractKeys r = some (some fields) ∧
    ∃ td f td' k f', get t types = some td ∧ get k td.fields = some f ∧ get f.ty.name types = some td' ∧
      f' ∈ td'.fields ∧ IsLeaf fields [k] := by
  refine ⟨exTypes, "Repo".toList, .http "http://x/{{.value.owner}}".toList none [] [], "owner".toList,
    by decide +kernel, by decide +kernel, _, _, _, "owner".toList, _, rfl, rfl, rfl, List.mem_cons_self, ?_⟩
  rw [IsLeaf, show keyPaths "owner".toList = [["owner".toList]] from by decide +kernel]
  exact ⟨List.mem_cons_self, fun q hq _ => List.mem_singleton.1 hq⟩

/-! ## C98 -/

theorem mem_exprs {t : Template} {e : List Text} (h : Seg.expr e ∈ t) : e ∈ exprs t :=
  List.mem_filterMap.2 ⟨_, h, rfl⟩

theorem render_congr {t : Template} {c d : Verif.Mustache.Ctx} (h : ∀ e ∈ exprs t, c e = d e) :
    render t c = render t d := by
  rw [render, render]
  refine congrArg List.flatten (List.map_congr_left (fun s hs => ?_))
  cases s with
  | lit l => rfl
  | expr e => simp only []; rw [h e (mem_exprs hs)]

theorem valueEval_congr {t : Template} {c d : RCtx} (h : ∀ e ∈ exprs t, c.raw e = d.raw e) :
    valueEval c t = valueEval d t := by
  rw [valueEval, valueEval]
  refine congrArg List.head? ?_
  induction t with
  | nil => rfl
  | cons s t ih =>
    cases s with
    | lit l =>
      have ht := ih h
      rw [List.filterMap_cons, List.filterMap_cons]
      simp only [ht]
    | expr e =>
      have he := h e List.mem_cons_self
      have ht := ih (fun e' he' => h e' (List.mem_cons_of_mem _ he'))
      rw [List.filterMap_cons, List.filterMap_cons]
      simp only [he]
      cases d.raw e with
      | none => exact ht
      | some x => simp only [ht]

/-- The two representations have the same values at the paths that the text mentions. -/
def SameOn (v w : GVal) (s : Text) : Prop := ∀ p, Mentions s "value".toList p → getPath v p = getPath w p

theorem raw_congr {c : RCtx} {v w : GVal} {s : Text} (h : SameOn v w s) (e : List Text) (he : e ∈ exprs (parse s)) :
    (valueCtx c v).raw e = (valueCtx c w).raw e := by
  cases e with
  | nil => rfl
  | cons x p =>
    simp only [valueCtx]
    split
    · next hx => subst hx; rw [h p he]
    · rfl

theorem str_congr {c : RCtx} {v w : GVal} {s : Text} (h : SameOn v w s) :
    render (parse s) (valueCtx c v).str = render (parse s) (valueCtx c w).str :=
  render_congr (fun e he => by
    rw [RCtx.str, RCtx.str, raw_congr h e he]
    rfl)

theorem gql_congr {gql : VS → Text} {c : RCtx} {v w : GVal} {s : Text} (h : SameOn v w s) :
    render (parse s) (gqlStr gql (valueCtx c v)) = render (parse s) (gqlStr gql (valueCtx c w)) :=
  render_congr (fun e he => by rw [gqlStr, gqlStr, raw_congr h e he])

mutual
theorem renderVal_congr (reparse : Text → GVal) (c : RCtx) (v w : GVal) : ∀ (x : GVal), (∀ s, ValText x s → SameOn v w s) →
    renderVal reparse (valueCtx c v) x = renderVal reparse (valueCtx c w) x
  | .str s, h => by rw [renderVal, renderVal, str_congr (h s (.str s))]
  | .list l, h => by
    rw [renderVal, renderVal, renderVals_congr reparse c v w l (fun x hx s hs => h s (.item hx hs))]
  | .obj l, h => by
    rw [renderVal, renderVal, renderKvs_congr reparse c v w l (fun x hx s hs => h s (.entry (k := x.1) hx hs))]
  | .null, _ => by simp [renderVal]
  | .bool _, _ => by simp [renderVal]
  | .int _, _ => by simp [renderVal]
  | .float _, _ => by simp [renderVal]
  | .enum _, _ => by simp [renderVal]
theorem renderVals_congr (reparse : Text → GVal) (c : RCtx) (v w : GVal) : ∀ (l : List GVal),
    (∀ x ∈ l, ∀ s, ValText x s → SameOn v w s) →
    renderVals reparse (valueCtx c v) l = renderVals reparse (valueCtx c w) l
  | [], _ => rfl
  | x :: r, h => by
    rw [renderVals, renderVals, renderVal_congr reparse c v w x (h x List.mem_cons_self),
      renderVals_congr reparse c v w r (fun y hy => h y (List.mem_cons_of_mem _ hy))]
theorem renderKvs_congr (reparse : Text → GVal) (c : RCtx) (v w : GVal) : ∀ (l : List (Text × GVal)),
    (∀ x ∈ l, ∀ s, ValText x.2 s → SameOn v w s) →
    renderKvs reparse (valueCtx c v) l = renderKvs reparse (valueCtx c w) l
  | [], _ => rfl
  | x :: r, h => by
    rw [renderKvs, renderKvs, renderKv_congr reparse c v w x (h x List.mem_cons_self),
      renderKvs_congr reparse c v w r (fun y hy => h y (List.mem_cons_of_mem _ hy))]
theorem renderKv_congr (reparse : Text → GVal) (c : RCtx) (v w : GVal) : ∀ (x : Text × GVal),
    (∀ s, ValText x.2 s → SameOn v w s) →
    renderKv reparse (valueCtx c v) x = renderKv reparse (valueCtx c w) x
  | (k, x), h => by rw [renderKv, renderKv, renderVal_congr reparse c v w x h]
end

mutual
theorem strs_any : ∀ (v : GVal) (s : Text), s ∈ strs v → AnyText v s
  | .str t, s, h => by rw [strs, List.mem_singleton] at h; subst h; exact .str s
  | .list l, s, h => by
    rw [strs] at h
    obtain ⟨x, hx, h⟩ := strsList_any l s h
    exact .item hx h
  | .obj l, s, h => by
    rw [strs] at h
    obtain ⟨x, hx, h⟩ := strsObj_any l s h
    rcases h with h | h
    · subst h; exact .name (x := x.2) hx
    · exact .entry (k := x.1) hx h
  | .null, s, h => by simp [strs] at h
  | .bool _, s, h => by simp [strs] at h
  | .int _, s, h => by simp [strs] at h
  | .float _, s, h => by simp [strs] at h
  | .enum _, s, h => by simp [strs] at h
theorem strsList_any : ∀ (l : List GVal) (s : Text), s ∈ strsList l → ∃ x ∈ l, AnyText x s
  | [], s, h => by cases h
  | x :: r, s, h => by
    rw [strsList, List.mem_append] at h
    rcases h with h | h
    · exact ⟨x, List.mem_cons_self, strs_any x s h⟩
    · obtain ⟨y, hy, h⟩ := strsList_any r s h
      exact ⟨y, List.mem_cons_of_mem _ hy, h⟩
theorem strsObj_any : ∀ (l : List (Text × GVal)) (s : Text), s ∈ strsObj l → ∃ x ∈ l, s = x.1 ∨ AnyText x.2 s
  | [], s, h => by cases h
  | x :: r, s, h => by
    rw [strsObj, List.mem_append] at h
    rcases h with h | h
    · exact ⟨x, List.mem_cons_self, strsEntry_any x s h⟩
    · obtain ⟨y, hy, h⟩ := strsObj_any r s h
      exact ⟨y, List.mem_cons_of_mem _ hy, h⟩
theorem strsEntry_any : ∀ (x : Text × GVal) (s : Text), s ∈ strsEntry x → s = x.1 ∨ AnyText x.2 s
  | (k, v), s, h => by
    rw [strsEntry] at h
    rcases List.mem_cons.1 h with h | h
    · exact .inl h
    · exact .inr (strs_any v s h)
end

theorem parts_congr (reparse : Text → GVal) (gql : VS → Text) (c : RCtx) (v w : GVal) (r : Resolver)
    (h : ∀ s, Rendered r s → Parsed r s → SameOn v w s) :
    parts reparse gql (valueCtx c v) r = parts reparse gql (valueCtx c w) r := by
  cases r with
  | http u b hh q =>
    have h1 := str_congr (c := c) (h u .httpUrl (.inl rfl))
    have h2 : ∀ x ∈ b.toList, (fun b => Part.text (render (parse b) (valueCtx c v).str)) x =
        (fun b => Part.text (render (parse b) (valueCtx c w).str)) x := by
      intro x hx
      have : b = some x := by cases b with
        | none => cases hx
        | some y => rw [Option.toList_some, List.mem_singleton] at hx; rw [hx]
      subst this
      simp only []
      rw [str_congr (h x .httpBody (.inr (.inl rfl)))]
    have h3 : ∀ x ∈ hh, (fun kv : Text × Text => Part.header kv.1 (render (parse kv.2) (valueCtx c v).str)) x =
        (fun kv : Text × Text => Part.header kv.1 (render (parse kv.2) (valueCtx c w).str)) x := by
      intro x hx
      simp only []
      rw [str_congr (h x.2 (.httpHeader (k := x.1) hx) (.inr (.inr (.inl ⟨x, hx, .inr rfl⟩))))]
    have h4 : ∀ x ∈ q, (fun kv : Text × Text => Part.query kv.1 (valueEval (valueCtx c v) (parse kv.2))) x =
        (fun kv : Text × Text => Part.query kv.1 (valueEval (valueCtx c w) (parse kv.2))) x := by
      intro x hx
      simp only []
      rw [valueEval_congr (raw_congr (h x.2 (.httpQuery (k := x.1) hx) (.inr (.inr (.inr ⟨x, hx, .inr rfl⟩)))))]
    rw [parts, parts, h1, List.map_congr_left h2, List.map_congr_left h3, List.map_congr_left h4]
  | grpc u m b hh =>
    have h1 := str_congr (c := c) (h u .grpcUrl (.inl rfl))
    have h3 : ∀ x ∈ hh, (fun kv : Text × Text => Part.header kv.1 (render (parse kv.2) (valueCtx c v).str)) x =
        (fun kv : Text × Text => Part.header kv.1 (render (parse kv.2) (valueCtx c w).str)) x := by
      intro x hx
      simp only []
      rw [str_congr (h x.2 (.grpcHeader (k := x.1) hx) (.inr (.inr (.inr ⟨x, hx, .inr rfl⟩))))]
    cases b with
    | none => rw [parts.eq_def, parts.eq_def]; simp only []; rw [h1, List.map_congr_left h3]
    | some b =>
      have h2 : ∀ x ∈ strs b, (fun s => Part.text (render (parse s) (valueCtx c v).str)) x =
          (fun s => Part.text (render (parse s) (valueCtx c w).str)) x := by
        intro x hx
        have ha := strs_any b x hx
        simp only []
        rw [str_congr (h x (.grpcBody ha) (.inr (.inr (.inl ⟨b, rfl, ha⟩))))]
      rw [parts.eq_def, parts.eq_def]
      simp only []
      rw [h1, List.map_congr_left h3, List.map_congr_left h2]
  | graphql hh a =>
    have h3 : ∀ x ∈ hh, (fun kv : Text × Text => Part.header kv.1 (render (parse kv.2) (gqlStr gql (valueCtx c v)))) x =
        (fun kv : Text × Text => Part.header kv.1 (render (parse kv.2) (gqlStr gql (valueCtx c w)))) x := by
      intro x hx
      simp only []
      rw [gql_congr (h x.2 (.gqlHeader (k := x.1) hx) (.inl ⟨x, hx, .inr rfl⟩))]
    have h4 : ∀ x ∈ a.getD [], (fun kv : Text × Text => Part.arg kv.1 (render (parse kv.2) (gqlStr gql (valueCtx c v)))) x =
        (fun kv : Text × Text => Part.arg kv.1 (render (parse kv.2) (gqlStr gql (valueCtx c w)))) x := by
      intro x hx
      cases a with
      | none => cases hx
      | some l =>
        simp only []
        rw [gql_congr (h x.2 (.gqlArg (k := x.1) hx) (.inr ⟨l, rfl, x, hx, .inr rfl⟩))]
    rw [parts, parts, List.map_congr_left h3, List.map_congr_left h4]
  | call steps =>
    cases steps with
    | nil => rfl
    | cons step steps =>
      rw [parts, parts, renderKvs_congr reparse c v w step (fun x hx s hs =>
        h s (.callArg List.mem_cons_self (k := x.1) hx hs) ⟨x, hx, .inr (anyText_of_val hs)⟩)]
  | expr b =>
    rw [parts, parts, renderVal_congr reparse c v w b (fun s hs => h s (.expr hs) (anyText_of_val hs))]
  | other n => rfl

/-- No path read is inside another, and the representation is not read as a whole. -/
def Apart (r : Resolver) : Prop :=
  (∀ p, Reads r p → p ≠ []) ∧ ∀ p q, Reads r p → Reads r q → p <+: q → p = q

/-- The names of headers, parameters and arguments do not look like templates of the representation. -/
def NamesSilent (r : Resolver) : Prop := ∀ s p, NameText r s → ¬ Mentions s "value".toList p

theorem leaf_of_read {r : Resolver} {fields s : Text} {p : List Text} (ha : Apart r) (hn : NamesSilent r)
    (h : extractKeys r = some (some fields)) (hs : Rendered r s) (hp : Parsed r s)
    (hm : Mentions s "value".toList p) : IsLeaf fields p := by
  have hr : Reads r p := ⟨s, hs, hm⟩
  have h3 := ((extract_spec r).2.2 fields h).2.2
  refine ⟨(h3 p).2 ⟨ha.1 p hr, s, p, hp, hm, List.prefix_refl p⟩, fun q hq hpq => ?_⟩
  obtain ⟨_, p', hr', hpre⟩ := C97_minimal_partial hn h hq
  have e := ha.2 p p' hr hr' (hpq.trans hpre)
  subst e
  exact (hpre.eq_of_length (Nat.le_antisymm hpre.length_le hpq.length_le))

/-- C98: two representations with the same values at the leaves of the key make the resolver ask for the same.
So it is enough for the gateway to send the fields of the key.  (Partial: `Apart` and `NamesSilent`, see
`C98_violated_by_inner_path` and `C98_violated_by_whole`.) -/
theorem C98_key_enough_partial {r : Resolver} {fields : Text} (ha : Apart r) (hn : NamesSilent r)
    (h : extractKeys r = some (some fields)) (reparse : Text → GVal) (gql : VS → Text) (c : RCtx) {v w : GVal}
    (hvw : ∀ p, IsLeaf fields p → getPath v p = getPath w p) :
    parts reparse gql (valueCtx c v) r = parts reparse gql (valueCtx c w) r :=
  parts_congr reparse gql c v w r (fun _ hs hp p hm => hvw p (leaf_of_read ha hn h hs hp hm))

/-- C98: without a key the resolver asks for the same whatever the representation is. -/
theorem C98_no_key_partial {r : Resolver} (hw : ¬ Reads r []) (h : extractKeys r = some none)
    (reparse : Text → GVal) (gql : VS → Text) (c : RCtx) (v w : GVal) :
    parts reparse gql (valueCtx c v) r = parts reparse gql (valueCtx c w) r := by
  refine parts_congr reparse gql c v w r (fun s hs hp p hm => ?_)
  have hne : p ≠ [] := by rintro rfl; exact hw ⟨s, hs, hm⟩
  exact absurd ⟨s, p, hp, hm, List.prefix_refl p⟩ ((extract_spec r).2.1 h p hne)

/-- C98: the URL that `@http` asks for, query included, is the same. -/
theorem C98_http_url_partial {url : Text} {body : Option Text} {headers query : List (Text × Text)} {fields : Text}
    (ha : Apart (.http url body headers query)) (hn : NamesSilent (.http url body headers query))
    (h : extractKeys (.http url body headers query) = some (some fields)) (norm : Text → Option Text) (t : ReqTemplate)
    (hroot : t.root = parse url) (hq : ∀ x ∈ t.query, ∃ s, (x.key, s) ∈ query ∧ x.value = parse s) (c : RCtx) {v w : GVal}
    (hvw : ∀ p, IsLeaf fields p → getPath v p = getPath w p) :
    createUrl norm t (valueCtx c v) = createUrl norm t (valueCtx c w) := by
  have hs : ∀ s, Rendered (.http url body headers query) s → Parsed (.http url body headers query) s → SameOn v w s :=
    fun s hs hp p hm => hvw p (leaf_of_read ha hn h hs hp hm)
  have h1 : render t.root (valueCtx c v).str = render t.root (valueCtx c w).str := by
    rw [hroot]; exact str_congr (hs url .httpUrl (.inl rfl))
  have h2 : Verif.HttpUrl.extraItems t.encoder (valueCtx c v) t.query =
      Verif.HttpUrl.extraItems t.encoder (valueCtx c w) t.query := by
    rw [Verif.HttpUrl.extraItems, Verif.HttpUrl.extraItems]
    have hall : ∀ x ∈ t.query, valueEval (valueCtx c v) x.value = valueEval (valueCtx c w) x.value := by
      intro x hx
      obtain ⟨s, hm, e⟩ := hq x hx
      rw [e]
      exact valueEval_congr (raw_congr (hs s (.httpQuery hm) (.inr (.inr (.inr ⟨_, hm, .inr rfl⟩)))))
    generalize t.query = qs at hall
    induction qs with
    | nil => rfl
    | cons x qs ih =>
      rw [List.filterMap_cons, List.filterMap_cons, hall x List.mem_cons_self,
        ih (fun y hy => hall y (List.mem_cons_of_mem _ hy))]
  rw [createUrl, createUrl, h1, h2]

/-! ### Cases and negations -/

theorem exHttp_only {s : Text} (h : Rendered exHttp s) : s = "http://x/{{.value.id}}".toList ∨
    s = "{\"c\":\"{{.value.owner.name}}\"}".toList ∨ s = "{{.value.owner.org}}".toList ∨ s = "{{.value.id}}".toList := by
  cases h with
  | httpUrl => exact .inl rfl
  | httpBody => exact .inr (.inl rfl)
  | httpHeader h => cases h with
    | head => exact .inr (.inr (.inl rfl))
    | tail _ h => cases h
  | httpQuery h => cases h with
    | head => exact .inr (.inr (.inr rfl))
    | tail _ h => cases h

theorem exHttp_paths {p : List Text} (h : Reads exHttp p) :
    p ∈ [["id".toList], ["owner".toList, "name".toList], ["owner".toList, "org".toList]] := by
  obtain ⟨s, hs, hm⟩ := h
  rw [Mentions] at hm
  rcases exHttp_only hs with rfl | rfl | rfl | rfl
  · rw [show exprs (parse "http://x/{{.value.id}}".toList) = [["value".toList, "id".toList]] from by decide +kernel,
      List.mem_singleton] at hm
    rw [(List.cons.inj hm).2]; exact List.mem_cons_self
  · rw [show exprs (parse "{\"c\":\"{{.value.owner.name}}\"}".toList) = [["value".toList, "owner".toList, "name".toList]]
      from by decide +kernel, List.mem_singleton] at hm
    rw [(List.cons.inj hm).2]; exact List.mem_cons_of_mem _ List.mem_cons_self
  · rw [show exprs (parse "{{.value.owner.org}}".toList) = [["value".toList, "owner".toList, "org".toList]]
      from by decide +kernel, List.mem_singleton] at hm
    rw [(List.cons.inj hm).2]; exact List.mem_cons_of_mem _ (List.mem_cons_of_mem _ List.mem_cons_self)
  · rw [show exprs (parse "{{.value.id}}".toList) = [["value".toList, "id".toList]] from by decide +kernel,
      List.mem_singleton] at hm
    rw [(List.cons.inj hm).2]; exact List.mem_cons_self

theorem exHttp_apart : Apart exHttp := by
  refine ⟨fun p hp => ?_, fun p q hp hq => ?_⟩
  · have h := exHttp_paths hp
    have : ∀ p ∈ [["id".toList], ["owner".toList, "name".toList], ["owner".toList, "org".toList]], p ≠ [] := by
      decide +kernel
    exact this p h
  · have h1 := exHttp_paths hp
    have h2 := exHttp_paths hq
    have : ∀ p ∈ [["id".toList], ["owner".toList, "name".toList], ["owner".toList, "org".toList]],
        ∀ q ∈ [["id".toList], ["owner".toList, "name".toList], ["owner".toList, "org".toList]],
        p <+: q → p = q := by decide +kernel
    exact this p h1 q h2

theorem exHttp_names : NamesSilent exHttp := by
  intro s p h
  cases h with
  | httpHeader h => cases h with
    | head => unfold Mentions; rw [show exprs (parse "x-org".toList) = [] from by decide +kernel]; simp
    | tail _ h => cases h
  | httpQuery h => cases h with
    | head => unfold Mentions; rw [show exprs (parse "q".toList) = [] from by decide +kernel]; simp
    | tail _ h => cases h

/-- The whole entity of the cases. -/
def exWhole : GVal := .obj [("id".toList, .int 7), ("size".toList, .int 3),
  ("owner".toList, .obj [("name".toList, .str "a".toList), ("org".toList, .str "b".toList), ("age".toList, .int 9)])]
/-- What the gateway sends of it. -/
def exSent : GVal := .obj [("__typename".toList, .str "Repo".toList), ("id".toList, .int 7),
  ("owner".toList, .obj [("name".toList, .str "a".toList), ("org".toList, .str "b".toList)])]

theorem exAgree (p : List Text) (h : IsLeaf "id owner { name org }".toList p) : getPath exWhole p = getPath exSent p := by
  have hp := h.1
  have hl := h.2
  have e : keyPaths "id owner { name org }".toList = [["id".toList], ["owner".toList],
    ["owner".toList, "name".toList], ["owner".toList, "org".toList]] := by decide +kernel
  rw [e] at hp hl
  rcases List.mem_cons.1 hp with rfl | hp
  · rfl
  rcases List.mem_cons.1 hp with rfl | hp
  · have := hl ["owner".toList, "name".toList] (by simp) ⟨["name".toList], rfl⟩
    exact absurd this (by decide)
  rcases List.mem_cons.1 hp with rfl | hp
  · rfl
  rcases List.mem_cons.1 hp with rfl | hp
  · rfl
  · cases hp

/-- A case of `C98_key_enough_partial`. -/
example (reparse : Text → GVal) (gql : VS → Text) (c : RCtx) :
    parts reparse gql (valueCtx c exWhole) exHttp = parts reparse gql (valueCtx c exSent) exHttp :=
  C98_key_enough_partial exHttp_apart exHttp_names exHttp_key reparse gql c exAgree

/-- A case of `C98_http_url_partial`. -/
example (norm : Text → Option Text) (c : RCtx) (e : Encoder) :
    let t : ReqTemplate := ⟨parse "http://x/{{.value.id}}".toList, [⟨"q".toList, parse "{{.value.id}}".toList, false⟩],
      "GET".toList, [], none, .json, e⟩
    createUrl norm t (valueCtx c exWhole) = createUrl norm t (valueCtx c exSent) := by
  intro t
  exact C98_http_url_partial exHttp_apart exHttp_names exHttp_key norm t rfl
    (fun x hx => by
      rw [List.mem_singleton] at hx
      subst hx
      exact ⟨"{{.value.id}}".toList, List.mem_singleton.2 rfl, rfl⟩) c exAgree

/-- A case of `C98_no_key_partial`. -/
example (reparse : Text → GVal) (gql : VS → Text) (c : RCtx) :
    parts reparse gql (valueCtx c exWhole) (.expr (.str "{{.headers.a}}".toList)) =
    parts reparse gql (valueCtx c exSent) (.expr (.str "{{.headers.a}}".toList)) :=
  C98_no_key_partial (by
    rintro ⟨s, hs, hm⟩
    cases hs with
    | expr h => cases h with
      | str => rw [Mentions, show exprs (parse "{{.headers.a}}".toList) = [["headers".toList, "a".toList]] from by
          decide +kernel] at hm; revert hm; decide) (by decide +kernel) reparse gql c exWhole exSent

/-- The context of the negations. -/
def exCtx : RCtx := ⟨fun _ => none, fun v => match v with
  | .obj [] => "{}".toList
  | .obj (_ :: _) => "{..}".toList
  | _ => [], []⟩

/-- C98 does not hold when a field is read as a whole and through one of its fields: the key names the inner field
only, and the whole field is not the same. -/
theorem C98_violated_by_inner_path : ∃ (r : Resolver) (fields : Text) (reparse : Text → GVal) (gql : VS → Text)
    (c : RCtx) (v w : GVal), extractKeys r = some (some fields) ∧
    (∀ p, IsLeaf fields p → getPath v p = getPath w p) ∧
    parts reparse gql (valueCtx c v) r ≠ parts reparse gql (valueCtx c w) r := by
  refine ⟨.http "http://x/{{.value.a.b}}".toList (some "{{.value.a}}".toList) [] [], "a { b }".toList,
    fun t => .str t, fun _ => [], ⟨fun _ => none, fun v => match v with
      | .obj l => (l.map (·.1)).flatten
      | _ => [], []⟩,
    .obj [("a".toList, .obj [("b".toList, .int 1), ("c".toList, .int 1)])],
    .obj [("a".toList, .obj [("b".toList, .int 1)])], by decide +kernel, ?_, ?_⟩
  · rintro p ⟨hp, hl⟩
    rw [show keyPaths "a { b }".toList = [["a".toList], ["a".toList, "b".toList]] from by decide +kernel] at hp hl
    rcases List.mem_cons.1 hp with rfl | hp
    · have := hl ["a".toList, "b".toList] (by simp) ⟨["b".toList], rfl⟩
      exact absurd this (by decide)
    rcases List.mem_cons.1 hp with rfl | hp
    · rfl
    · cases hp
  · intro h
    have h2 := (List.cons.inj (List.cons.inj h).2).1
    have h3 := Part.text.inj h2
    revert h3
    decide +kernel

/-- C98 does not hold when the representation is read as a whole: there is no key at all, and what is asked depends
on the representation. -/
theorem C98_violated_by_whole : ∃ (r : Resolver) (reparse : Text → GVal) (gql : VS → Text) (c : RCtx) (v w : GVal),
    extractKeys r = some none ∧ parts reparse gql (valueCtx c v) r ≠ parts reparse gql (valueCtx c w) r := by
  refine ⟨.http "http://x/{{.value}}".toList none [] [], fun t => .str t, fun _ => [], exCtx, .obj [],
    .obj [("a".toList, .int 1)], by decide +kernel, ?_⟩
  intro h
  have h3 := Part.text.inj (List.cons.inj h).1
  revert h3
  decide +kernel

end Verif.Subgraph
