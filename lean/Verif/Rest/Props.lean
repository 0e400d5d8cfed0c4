import Verif.Rest.Lemmas

set_option linter.unusedSimpArgs false

/-!
# Properties of REST endpoints and routing (C28, C29, C30, C65)
-/

namespace Verif.Rest
open Verif.Mustache (Text)
open Verif.Merge (get)
open Verif.HttpUrl (GVal QC splitAll pairsOf)

/-! ## Specification of matching -/

/-- A decimal integer with an optional sign. -/
inductive Decimal : Text → Int → Prop where
  | plain {ds : List Nat} : ds ≠ [] → (∀ d ∈ ds, d < 10) → Decimal (ds.map dchar) (decVal ds : Nat)
  | plus {ds : List Nat} : ds ≠ [] → (∀ d ∈ ds, d < 10) → Decimal ('+' :: ds.map dchar) (decVal ds : Nat)
  | minus {ds : List Nat} : ds ≠ [] → (∀ d ∈ ds, d < 10) → Decimal ('-' :: ds.map dchar) (-(decVal ds : Nat))

/-- The text denotes the value in the type. Floats are read by the standard library (`pf`). -/
inductive Denotes (pf : Text → Option GVal) : ParamTy → Text → GVal → Prop where
  | string (s) : Denotes pf .string s (.str s)
  | int {s n} : Decimal s n → -9223372036854775808 ≤ n → n ≤ 9223372036854775807 → Denotes pf .int s (.int n)
  | float {s v} : pf s = some v → Denotes pf .float s v
  | true : Denotes pf .boolean "true".toList (.bool Bool.true)
  | false : Denotes pf .boolean "false".toList (.bool Bool.false)

/-- The request segments fit the pattern, one by one, and bind the variables. -/
inductive Fits (pf : Text → Option GVal) : List Segment → List Text → List (Text × GVal) → Prop where
  | nil : Fits pf [] [] []
  | lit {s ps rs vs} : Fits pf ps rs vs → Fits pf (.lit s :: ps) (s :: rs) vs
  | param {tv r ps rs vs v} : Denotes pf tv.ty r v → Fits pf ps rs vs →
      Fits pf (.param tv :: ps) (r :: rs) (vs ++ [(tv.name, v)])

theorem parseI64_iff {s : Text} {n : Int} : parseI64 s = some n ↔
    Decimal s n ∧ -9223372036854775808 ≤ n ∧ n ≤ 9223372036854775807 := by
  have range : ∀ x : Option Int, inI64 x = some n ↔ x = some n ∧ -9223372036854775808 ≤ n ∧ n ≤ 9223372036854775807 := by
    intro x
    cases x with
    | none => simp [inI64]
    | some m =>
      simp only [inI64, Option.some.injEq]
      constructor
      · intro h
        split at h
        · rename_i hm
          simp at h; subst h
          exact ⟨rfl, by omega, by omega⟩
        · cases h
      · rintro ⟨rfl, h1, h2⟩
        rw [if_pos ⟨by omega, by omega⟩]
  unfold parseI64
  rw [range]
  refine and_congr_left (fun _ => ?_)
  constructor
  · intro h
    split at h
    · rename_i r
      simp only [Option.map_eq_some_iff, parseDigits_iff] at h
      obtain ⟨m, ⟨ds, h1, h2, rfl, rfl⟩, rfl⟩ := h
      exact .plus h1 h2
    · rename_i r
      simp only [Option.map_eq_some_iff, parseDigits_iff] at h
      obtain ⟨m, ⟨ds, h1, h2, rfl, rfl⟩, rfl⟩ := h
      exact .minus h1 h2
    · simp only [Option.map_eq_some_iff, parseDigits_iff] at h
      obtain ⟨m, ⟨ds, h1, h2, rfl, rfl⟩, rfl⟩ := h
      exact .plain h1 h2
  · intro h
    have first : ∀ (ds : List Nat) (c : Char) (r : Text), (∀ d ∈ ds, d < 10) → ds.map dchar = c :: r →
        c ≠ '+' ∧ c ≠ '-' := by
      intro ds c r h1 h2
      cases ds with
      | nil => simp at h2
      | cons d ds =>
        simp at h2
        have hd : ∀ d : Fin 10, dchar d.val ≠ '+' ∧ dchar d.val ≠ '-' := by decide
        have := hd ⟨d, h1 d (by simp)⟩
        rw [← h2.1]; exact this
    cases h with
    | @plain ds h1 h2 =>
      split
      · rename_i r e; exact absurd rfl (first ds _ _ h2 e).1
      · rename_i r e; exact absurd rfl (first ds _ _ h2 e).2
      · rw [parseDigits_iff.mpr ⟨ds, h1, h2, rfl, rfl⟩]; rfl
    | @plus ds h1 h2 => simp only [parseDigits_iff.mpr ⟨ds, h1, h2, rfl, rfl⟩]; rfl
    | @minus ds h1 h2 => simp only [parseDigits_iff.mpr ⟨ds, h1, h2, rfl, rfl⟩]; rfl

theorem toValue_iff {pf : Text → Option GVal} {t : ParamTy} {s : Text} {v : GVal} :
    toValue pf t s = some v ↔ Denotes pf t s v := by
  cases t with
  | string =>
    simp only [toValue, Option.some.injEq]
    exact ⟨by rintro rfl; exact .string _, by intro h; cases h; rfl⟩
  | int =>
    simp only [toValue, Option.map_eq_some_iff, parseI64_iff]
    exact ⟨by rintro ⟨n, ⟨h1, h2, h3⟩, rfl⟩; exact .int h1 h2 h3,
      by intro h; cases h with | int h1 h2 h3 => exact ⟨_, ⟨h1, h2, h3⟩, rfl⟩⟩
  | float =>
    simp only [toValue]
    exact ⟨.float, by intro h; cases h with | float h => exact h⟩
  | boolean =>
    simp only [toValue]
    constructor
    · intro h
      split at h
      · rename_i e; subst e; simp at h; subst h; exact .true
      · split at h
        · rename_i e; subst e; simp at h; subst h; exact .false
        · cases h
    · intro h; cases h <;> rfl

theorem zipSegs_iff {pf : Text → Option GVal} {ps : List Segment} {rs : List Text} {vars : Vars}
    (hl : ps.length ≤ rs.length) : zipSegs pf ps rs [] = some (vars, []) ↔ Fits pf ps rs vars := by
  induction ps generalizing rs vars with
  | nil =>
    simp only [zipSegs, Option.some.injEq, Prod.mk.injEq]
    constructor
    · rintro ⟨rfl, rfl⟩; exact .nil
    · intro h; cases h; exact ⟨rfl, rfl⟩
  | cons p ps ih =>
    cases rs with
    | nil => simp at hl
    | cons r rs =>
      have hl2 : ps.length ≤ rs.length := by simpa using hl
      cases p with
      | lit s =>
        simp only [zipSegs]
        constructor
        · intro h
          split at h
          · cases h
          · rename_i e
            have e : s = r := by simpa using e
            subst e
            exact .lit ((ih hl2).mp h)
        · intro h
          cases h with
          | lit h => simp; exact (ih hl2).mpr h
      | param v =>
        simp only [zipSegs]
        constructor
        · intro h
          cases e : toValue pf v.ty r with
          | none => rw [e] at h; cases h
          | some x =>
            rw [e] at h
            simp only at h
            rw [zipSegs_acc] at h
            simp only [Option.map_eq_some_iff] at h
            obtain ⟨⟨vs, rest⟩, h1, h2⟩ := h
            simp only [Prod.mk.injEq] at h2
            obtain ⟨rfl, rfl⟩ := h2
            exact .param (toValue_iff.mp e) ((ih hl2).mp h1)
        · intro h
          cases h with
          | param h1 h2 =>
            rw [toValue_iff.mpr h1]
            simp only
            rw [zipSegs_acc, (ih hl2).mpr h2]
            rfl

/-- **C28 (partial)** A request path with at least as many segments as the pattern matches exactly if it has
the same number of segments, literals are equal and every parameter is bound to the segment in its position,
read with the declared type. Missing: shorter paths, which always match (below), and decoding of percent
signs (below). -/
theorem C28_path_matching_partial (pf : Text → Option GVal) (pattern : List Segment) (path : Text) (vars : Vars)
    (hl : pattern.length ≤ (segsOf path).length) :
    pathMatches pf pattern path = some vars ↔ Fits pf pattern (segsOf path) vars := by
  rw [← zipSegs_iff hl]
  unfold pathMatches
  split
  · rename_i vs h; rw [h]; simp
  · rename_i h
    simp only [reduceCtorEq, false_iff]
    intro h'; exact h _ h'

/-- The segments of a path are the texts between slashes. -/
theorem C28_segments (ss : List Text) (h : ∀ s ∈ ss, s ≠ [] ∧ '/' ∉ s) :
    segsOf (joinSegs ss) = ss ∧ segsOf (joinSegs ss ++ ['/']) = ss := by
  refine ⟨segsOf_joinSegs ss h, ?_⟩
  induction ss with
  | nil => decide
  | cons s r ih =>
    have ih := ih (fun x hx => h x (by simp [hx]))
    have hs : ∀ c ∈ s, (c == '/') = false := by
      intro c hc
      simp only [beq_eq_false_iff_ne]
      rintro rfl
      exact (h s (by simp)).2 hc
    have hne := (h s (by simp)).1
    unfold segsOf at ih ⊢
    unfold joinSegs
    obtain ⟨t, ht⟩ : ∃ t, joinSegs r ++ ['/'] = '/' :: t := by
      rcases joinSegs_head r with h0 | ⟨t, h0⟩ <;> rw [h0] <;> simp
    have e : '/' :: s ++ joinSegs r ++ ['/'] = '/' :: (s ++ '/' :: t) := by
      rw [List.append_assoc, ht]; rfl
    rw [ht] at ih
    rw [e]
    simp only [splitAll, beq_self_eq_true, if_true] at ih ⊢
    rw [splitAll_append hs (by decide)]
    simp only [List.filter_cons, List.isEmpty_nil, Bool.not_true] at ih ⊢
    simp only [Bool.false_eq_true, if_false] at ih ⊢
    simp [hne, ih]

example : segsOf "/users//7/".toList = ["users".toList, "7".toList] := by decide

/-- `/users/$id`. -/
def userPattern : List Segment := [.lit "users".toList, .param { ty := .int, name := "id".toList }]

example : pathMatches (fun _ => none) userPattern "/users/+42".toList = some [("id".toList, .int 42)] ∧
    (pathMatches (fun _ => none) userPattern "/users/x".toList).isNone ∧
    (pathMatches (fun _ => none) userPattern "/posts/42".toList).isNone ∧
    (pathMatches (fun _ => none) userPattern "/users/42/posts".toList).isNone := ⟨rfl, rfl, rfl, rfl⟩

example : userPattern.length ≤ (segsOf "/users/42".toList).length ∧
    Fits (fun _ => none) userPattern (segsOf "/users/42".toList) [("id".toList, .int 42)] := by
  refine ⟨by decide, .lit (.param (v := .int 42) (vs := []) ?_ .nil)⟩
  exact .int (.plain (ds := [4, 2]) (by simp) (by simp)) (by decide) (by decide)

/-- Bound of what a path needs to match: a prefix of the pattern. -/
theorem C28_shorter_paths_match_prefix (pf : Text → Option GVal) (pattern : List Segment) (path : Text)
    (vars : Vars) (hl : (segsOf path).length ≤ pattern.length) :
    pathMatches pf pattern path = some vars ↔ Fits pf (pattern.take (segsOf path).length) (segsOf path) vars := by
  have key : ∀ (ps : List Segment) (rs : List Text), rs.length ≤ ps.length →
      zipSegs pf ps rs [] = zipSegs pf (ps.take rs.length) rs [] := by
    have gen : ∀ (ps : List Segment) (rs : List Text) (vars : Vars), rs.length ≤ ps.length →
        zipSegs pf ps rs vars = zipSegs pf (ps.take rs.length) rs vars := by
      intro ps
      induction ps with
      | nil => intro rs vars h; cases rs <;> simp_all
      | cons p ps ih =>
        intro rs vars h
        cases rs with
        | nil => cases p <;> simp [zipSegs]
        | cons r rs =>
          have h2 : rs.length ≤ ps.length := by simpa using h
          cases p with
          | lit s => simp only [zipSegs, List.length_cons, List.take_succ_cons]; rw [ih rs vars h2]
          | param v =>
            simp only [zipSegs, List.length_cons, List.take_succ_cons]
            cases toValue pf v.ty r <;> simp only
            rw [ih rs _ h2]
    intro ps rs h; exact gen ps rs [] h
  have hl' : (pattern.take (segsOf path).length).length ≤ (segsOf path).length := by
    simp [List.length_take]; omega
  rw [← C28_path_matching_partial pf _ path vars hl']
  unfold pathMatches
  rw [key _ _ hl]

/-- **C28, violated** The root path matches every pattern and binds nothing: a request without the parameters of
an endpoint is served by it. -/
theorem C28_violated_by_short_paths (pf : Text → Option GVal) (pattern : List Segment) :
    pathMatches pf pattern "/".toList = some [] := by
  have : segsOf "/".toList = [] := by decide
  unfold pathMatches
  rw [this]
  cases pattern with
  | nil => rfl
  | cons p ps => cases p <;> rfl

/-- Percent-decoding of a path segment. -/
def pctDecode : Text → Text
  | '%' :: a :: b :: r =>
    match Verif.HttpUrl.hexVal a, Verif.HttpUrl.hexVal b with
    | some x, some y => Char.ofNat (16 * x + y) :: pctDecode r
    | _, _ => '%' :: pctDecode (a :: b :: r)
  | c :: r => c :: pctDecode r
  | [] => []
  termination_by s => s.length

/-- **C28, violated** Parameters are bound to the raw segment: the client's `a b`, sent as `a%20b`, reaches the
operation as `a%20b`. -/
theorem C28_violated_by_percent_encoding : ∃ path seg : Text, segsOf path = [seg] ∧
    pctDecode seg = "a b".toList ∧
    ∀ pf, pathMatches pf [.param { ty := .string, name := "name".toList }] path =
      some [("name".toList, .str "a%20b".toList)] :=
  ⟨"/a%20b".toList, "a%20b".toList, by decide, by decide +kernel, fun _ => rfl⟩

/-- What a pattern means: `$name` is a parameter of the declared type, anything else a literal. -/
inductive PatternOf (q : TypeMap) : List Text → List Segment → Prop where
  | nil : PatternOf q [] []
  | lit {s ss ps} : s.head? ≠ some '$' → PatternOf q ss ps → PatternOf q (s :: ss) (.lit s :: ps)
  | param {key n t ss ps} : get key q = some (.named n) →
      (n, t) ∈ [("String".toList, ParamTy.string), ("Int".toList, .int), ("Float".toList, .float),
        ("Boolean".toList, .boolean)] →
      PatternOf q ss ps → PatternOf q (('$' :: key) :: ss) (.param { ty := t, name := key } :: ps)

theorem paramTy_iff {v : VarTy} {t : ParamTy} : paramTy v = some t ↔
    ∃ n, v = .named n ∧ (n, t) ∈ [("String".toList, ParamTy.string), ("Int".toList, .int),
      ("Float".toList, .float), ("Boolean".toList, .boolean)] := by
  cases v with
  | list => simp [paramTy]
  | named n =>
    simp only [paramTy, VarTy.named.injEq, exists_eq_left', List.mem_cons, Prod.mk.injEq, List.not_mem_nil, or_false]
    constructor
    · intro h
      repeat' split at h
      all_goals simp_all
    · rintro (⟨rfl, rfl⟩ | ⟨rfl, rfl⟩ | ⟨rfl, rfl⟩ | ⟨rfl, rfl⟩) <;> rfl

/-- **C28** The pattern of an endpoint is read as documented: parameters have the types of the operation's
variables, and an undeclared or unsupported one is rejected. -/
theorem C28_pattern_parsed (q : TypeMap) (input : Text) (ps : List Segment) :
    parsePath q input = some ps ↔ PatternOf q (segsOf input) ps := by
  unfold parsePath
  generalize segsOf input = ss
  induction ss generalizing ps with
  | nil =>
    simp only [parseSegs, Option.some.injEq]
    exact ⟨by rintro rfl; exact .nil, by intro h; cases h; rfl⟩
  | cons s ss ih =>
    unfold parseSegs
    split
    · rename_i key
      cases e : get key q with
      | none =>
        simp only [reduceCtorEq, false_iff]
        intro h
        cases h with
        | lit h _ => simp at h
        | param h _ _ => rw [e] at h; cases h
      | some t =>
        simp only [tvar]
        constructor
        · intro h
          cases e1 : paramTy t with
          | none => rw [e1] at h; simp at h
          | some p =>
            cases e2 : parseSegs q ss with
            | none => rw [e1, e2] at h; simp at h
            | some r =>
              rw [e1, e2] at h
              simp at h; subst h
              obtain ⟨n, rfl, hn⟩ := paramTy_iff.mp e1
              exact .param e hn ((ih r).mp e2)
        · intro h
          cases h with
          | lit h _ => simp at h
          | param h1 h2 h3 =>
            rw [e] at h1
            simp at h1; subst h1
            rw [paramTy_iff.mpr ⟨_, rfl, h2⟩, (ih _).mpr h3]
            rfl
    · rename_i hne
      simp only [Option.map_eq_some_iff]
      constructor
      · rintro ⟨r, h, rfl⟩
        refine .lit ?_ ((ih r).mp h)
        intro h
        cases s with
        | nil => simp at h
        | cons c s' => simp at h; subst h; exact hne s' rfl
      · intro h
        cases h with
        | lit _ h => exact ⟨_, (ih _).mpr h, rfl⟩
        | param _ _ _ => exact absurd rfl (hne _)

example : parsePath [("id".toList, .named "Int".toList)] "/users/$id".toList = some userPattern ∧
    parsePath [] "/users/$id".toList = none ∧
    parsePath [("id".toList, .named "ID".toList)] "/users/$id".toList = none := by decide

/-- **C28** An endpoint only serves requests with its method. -/
theorem C28_method_must_match (pf : Text → Option GVal) (e : Endpoint) (r : Req) (v : Vars)
    (h : e.matches pf r = some v) : e.method = r.method := by
  unfold Endpoint.matches at h
  simp only at h
  split at h
  · cases h
  · rename_i hm; simpa using hm

/-! ## C29 -/

/-- **C29 (partial)** The endpoint that serves a request is the first of the set that matches it, and the request
is rejected iff none does. Missing: the order of the set need not be the order of declaration (below). -/
theorem C29_first_match_wins_partial (pf : Text → Option GVal) (es : List Endpoint) (r : Req) :
    (∀ e v, select pf es r = some (e, v) ↔
      ∃ before after, es = before ++ e :: after ∧ e.matches pf r = some v ∧
        ∀ e' ∈ before, e'.matches pf r = none) ∧
    (select pf es r = none ↔ ∀ e ∈ es, e.matches pf r = none) := by
  induction es with
  | nil => simp [select]
  | cons x rest ih =>
    constructor
    · intro e v
      unfold select
      cases hx : x.matches pf r with
      | some w =>
        simp only [Option.some.injEq, Prod.mk.injEq]
        constructor
        · rintro ⟨rfl, rfl⟩; exact ⟨[], rest, rfl, hx, by simp⟩
        · rintro ⟨before, after, h1, h2, h3⟩
          cases before with
          | nil => simp at h1; obtain ⟨rfl, rfl⟩ := h1; rw [hx] at h2; simp at h2; exact ⟨rfl, h2⟩
          | cons y ys =>
            simp at h1
            have := h3 y (by simp)
            rw [← h1.1, hx] at this; cases this
      | none =>
        simp only
        rw [ih.1 e v]
        constructor
        · rintro ⟨before, after, rfl, h2, h3⟩
          exact ⟨x :: before, after, rfl, h2, by simp [hx]; exact h3⟩
        · rintro ⟨before, after, h1, h2, h3⟩
          cases before with
          | nil => simp at h1; obtain ⟨rfl, rfl⟩ := h1; rw [hx] at h2; cases h2
          | cons y ys =>
            simp at h1
            exact ⟨ys, after, h1.2, h2, fun e' he' => h3 e' (by simp [he'])⟩
    · unfold select
      cases hx : x.matches pf r with
      | some w =>
        simp only [reduceCtorEq, false_iff]
        intro h
        have := h x (by simp)
        rw [hx] at this; cases this
      | none => simp [hx, ih.2]

/-- `GET /users/$id` of operation `byId` and `GET /users/me` of operation `me`. -/
def opById : Op := { name := "byId".toList, vars := [("id".toList, .named "String".toList)],
                     rest := some { method := "GET".toList, path := "/users/$id".toList } }
/-- See `opById`. -/
def opMe : Op := { name := "me".toList, vars := [], rest := some { method := "GET".toList, path := "/users/me".toList } }

/-- Example data for the concrete cases below. -/
def reqMe : Req := { method := "GET".toList, path := "/users/me".toList, query := none }

example : ((tryNew [opMe, opById]).bind (fun es => select (fun _ => none) es reqMe)).map (fun p => p.1.op) =
    some "me".toList := by decide

/-- **C29** Endpoints are built one per `@rest` operation, in the order in which the operations are visited. -/
theorem C29_endpoints_in_visiting_order (ops : List Op) (es : List Endpoint) (h : tryNew ops = some es) :
    es.map Endpoint.op = (ops.filter (fun o => o.rest.isSome)).map Op.name := by
  induction ops generalizing es with
  | nil => simp [tryNew] at h; subst h; rfl
  | cons o rest ih =>
    unfold tryNew at h
    cases e : o.rest with
    | none => rw [e] at h; simp [List.filter_cons, e, ih es h]
    | some d =>
      rw [e] at h
      simp only at h
      cases e1 : endpointOf o d with
      | none => rw [e1] at h; simp at h
      | some x =>
        cases e2 : tryNew rest with
        | none => rw [e1, e2] at h; simp at h
        | some xs =>
          rw [e1, e2] at h
          simp at h; subst h
          have hop : x.op = o.name := by
            unfold endpointOf at e1
            split at e1
            · simp at e1; subst e1; rfl
            · cases e1
          simp [List.filter_cons, e, hop, ih xs e2]

/-- **C29, violated** Which endpoint answers depends on the order in which the hash map of operations is visited:
for the same document, `/users/me` is served by `me` or by `byId`. -/
theorem C29_violated_by_operation_order : ∃ (ops ops' : List Op) (r : Req), ops.Perm ops' ∧
    ∀ pf, ((tryNew ops).bind (fun es => select pf es r)).map (fun p => p.1.op) = some "me".toList ∧
      ((tryNew ops').bind (fun es => select pf es r)).map (fun p => p.1.op) = some "byId".toList :=
  ⟨[opMe, opById], [opById, opMe], reqMe, .swap _ _ _, fun _ => ⟨rfl, rfl⟩⟩

/-- **C29, violated** Endpoints of all linked documents but the last are lost: a request that matches a declared
endpoint is rejected. -/
theorem C29_violated_by_several_documents (first last : List Op) (es es' : List Endpoint)
    (h : tryNew first = some es) (h' : tryNew last = some es') : readLinks [first, last] [] = some es' := by
  simp [readLinks, h, h']

example : ∃ es, readLinks [[opMe], [opById]] [] = some es ∧
    (select (fun _ => none) es reqMe).map (fun p => p.1.op) = some "byId".toList :=
  ⟨_, rfl, rfl⟩

/-! ## C30 -/

theorem queryMatches_lastOf (pf : Text → Option GVal) (params : List (Text × TVar))
    (given : List (Text × Text)) (hn : (params.map (fun p => p.2.name)).Nodup) :
    (queryMatches pf params given = none ↔
      ∃ k tv x, (k, tv) ∈ params ∧ lastOf k given = some x ∧ ∀ v, ¬ Denotes pf tv.ty x v) ∧
    (∀ vars, queryMatches pf params given = some vars → ∀ k tv, (k, tv) ∈ params →
      match lastOf k given with
      | some x => ∃ v, get tv.name vars = some v ∧ Denotes pf tv.ty x v
      | none => get tv.name vars = none) := by
  have gen : ∀ (params : List (Text × TVar)) (vars0 : Vars), (params.map (fun p => p.2.name)).Nodup →
      (queryLoop pf given params vars0 = none ↔
        ∃ k tv x, (k, tv) ∈ params ∧ lastOf k given = some x ∧ ∀ v, ¬ Denotes pf tv.ty x v) ∧
      (∀ vars, queryLoop pf given params vars0 = some vars →
        (∀ n, n ∉ params.map (fun p => p.2.name) → get n vars = get n vars0) ∧
        ∀ k tv, (k, tv) ∈ params → match lastOf k given with
          | some x => ∃ v, get tv.name vars = some v ∧ Denotes pf tv.ty x v
          | none => get tv.name vars = get tv.name vars0) := by
    intro params
    induction params with
    | nil =>
      intro vars0 _
      refine ⟨by simp [queryLoop], ?_⟩
      intro vars h
      simp [queryLoop] at h
      subst h; simp
    | cons p rest ih =>
      intro vars0 hn
      obtain ⟨k, tv⟩ := p
      have hn' : tv.name ∉ rest.map (fun p => p.2.name) ∧ (rest.map (fun p => p.2.name)).Nodup := by
        simpa using hn
      have skip : lastOf k given = none → queryLoop pf given ((k, tv) :: rest) vars0 = queryLoop pf given rest vars0 := by
        intro e; simp [queryLoop, e]
      cases e : lastOf k given with
      | none =>
        rw [skip e]
        obtain ⟨i1, i2⟩ := ih vars0 hn'.2
        refine ⟨?_, ?_⟩
        · rw [i1]
          constructor
          · rintro ⟨k', tv', x, h1, h2, h3⟩; exact ⟨k', tv', x, by simp [h1], h2, h3⟩
          · rintro ⟨k', tv', x, h1, h2, h3⟩
            rcases List.mem_cons.mp h1 with h1 | h1
            · simp at h1; obtain ⟨rfl, rfl⟩ := h1; rw [e] at h2; cases h2
            · exact ⟨k', tv', x, h1, h2, h3⟩
        · intro vars h
          obtain ⟨j1, j2⟩ := i2 vars h
          refine ⟨fun n hn => j1 n (fun hm => hn (by simp [List.mem_cons] at hm ⊢; exact .inr hm)), ?_⟩
          intro k' tv' hm
          rcases List.mem_cons.mp hm with hm | hm
          · simp at hm; obtain ⟨rfl, rfl⟩ := hm
            rw [e]; exact j1 _ hn'.1
          · exact j2 k' tv' hm
      | some x =>
        cases ev : toValue pf tv.ty x with
        | none =>
          have : queryLoop pf given ((k, tv) :: rest) vars0 = none := by simp [queryLoop, e, ev]
          rw [this]
          refine ⟨⟨fun _ => ⟨k, tv, x, by simp, e, ?_⟩, fun _ => rfl⟩, by simp⟩
          intro v hv
          rw [← toValue_iff, ev] at hv; cases hv
        | some v =>
          have : queryLoop pf given ((k, tv) :: rest) vars0 = queryLoop pf given rest ((tv.name, v) :: vars0) := by
            simp [queryLoop, e, ev]
          rw [this]
          obtain ⟨i1, i2⟩ := ih ((tv.name, v) :: vars0) hn'.2
          refine ⟨?_, ?_⟩
          · rw [i1]
            constructor
            · rintro ⟨k', tv', x, h1, h2, h3⟩; exact ⟨k', tv', x, by simp [h1], h2, h3⟩
            · rintro ⟨k', tv', x', h1, h2, h3⟩
              rcases List.mem_cons.mp h1 with h1 | h1
              · simp at h1; obtain ⟨rfl, rfl⟩ := h1
                rw [e] at h2; simp at h2; subst h2
                exact absurd (toValue_iff.mp ev) (h3 v)
              · exact ⟨k', tv', x', h1, h2, h3⟩
          · intro vars h
            obtain ⟨j1, j2⟩ := i2 vars h
            refine ⟨?_, ?_⟩
            · intro n hn
              simp only [List.map_cons, List.mem_cons, not_or] at hn
              rw [j1 n hn.2]
              simp [Verif.Merge.get, Ne.symm hn.1]
            · intro k' tv' hm
              rcases List.mem_cons.mp hm with hm | hm
              · simp at hm; obtain ⟨rfl, rfl⟩ := hm
                rw [e]
                refine ⟨v, ?_, toValue_iff.mp ev⟩
                rw [j1 _ hn'.1]; simp [Verif.Merge.get]
              · have := j2 k' tv' hm
                cases e' : lastOf k' given with
                | some x' => rw [e'] at this; exact this
                | none =>
                  rw [e'] at this
                  simp only at this ⊢
                  rw [this]
                  have hne : tv.name ≠ tv'.name := by
                    intro h; apply hn'.1; rw [h]; exact List.mem_map.mpr ⟨(k', tv'), hm, rfl⟩
                  simp [Verif.Merge.get, hne]
  obtain ⟨g1, g2⟩ := gen params [] hn
  refine ⟨g1, fun vars h k tv hm => ?_⟩
  have := (g2 vars h).2 k tv hm
  cases e : lastOf k given with
  | some x => rw [e] at this; exact this
  | none => rw [e] at this; simpa [Verif.Merge.get] using this

/-- The last value the client gave for a key. -/
def LastGiven (k x : Text) (given : List (Text × Text)) : Prop :=
  ∃ a b, given = a ++ (k, x) :: b ∧ ∀ p ∈ b, p.1 ≠ k

theorem lastOf_none_iff {k : Text} {given : List (Text × Text)} : lastOf k given = none ↔ ∀ x, (k, x) ∉ given := by
  unfold lastOf
  rw [Merge.get_none_iff]
  simp [Merge.keysOf]

theorem lastOf_iff {k x : Text} {given : List (Text × Text)} : lastOf k given = some x ↔ LastGiven k x given := by
  unfold lastOf
  have fwd : ∀ (l : List (Text × Text)), get k l = some x ↔ ∃ a b, l = a ++ (k, x) :: b ∧ ∀ p ∈ a, p.1 ≠ k := by
    intro l
    induction l with
    | nil => simp [Verif.Merge.get]
    | cons p r ih =>
      obtain ⟨k', x'⟩ := p
      simp only [Verif.Merge.get]
      split
      · rename_i e
        subst e
        simp only [Option.some.injEq]
        constructor
        · rintro rfl; exact ⟨[], r, rfl, by simp⟩
        · rintro ⟨a, b, h1, h2⟩
          cases a with
          | nil => simp at h1; exact h1.1
          | cons y ys => simp at h1; exact absurd rfl (by have := h2 y (by simp); rw [← h1.1] at this; exact this)
      · rename_i e
        rw [ih]
        constructor
        · rintro ⟨a, b, rfl, h2⟩
          exact ⟨(k', x') :: a, b, rfl, by simp; exact ⟨e, fun a' b' h => h2 _ h⟩⟩
        · rintro ⟨a, b, h1, h2⟩
          cases a with
          | nil => simp at h1; exact absurd h1.1.1 e
          | cons y ys => simp at h1; exact ⟨ys, b, h1.2, fun p hp => h2 p (by simp [hp])⟩
  rw [fwd]
  constructor
  · rintro ⟨a, b, h1, h2⟩
    refine ⟨b.reverse, a.reverse, ?_, by simpa using h2⟩
    have := congrArg List.reverse h1
    simpa using this
  · rintro ⟨a, b, h1, h2⟩
    refine ⟨b.reverse, a.reverse, ?_, by simpa using h2⟩
    rw [h1]; simp

/-- **C30 (partial)** Matching an endpoint binds the variable of each query parameter to the last value the client
gave for it, read with the declared type; a parameter that is not given binds nothing and one that cannot be
read makes the endpoint not match. Missing: requests do not reach this point with their query (below). -/
theorem C30_query_parameters_bound_partial (pf : Text → Option GVal) (params : List (Text × TVar))
    (given : List (Text × Text)) (hn : (params.map (fun p => p.2.name)).Nodup) :
    (queryMatches pf params given = none ↔
      ∃ k tv x, (k, tv) ∈ params ∧ LastGiven k x given ∧ ∀ v, ¬ Denotes pf tv.ty x v) ∧
    (∀ vars, queryMatches pf params given = some vars → ∀ k tv, (k, tv) ∈ params →
      (∀ x, LastGiven k x given → ∃ v, get tv.name vars = some v ∧ Denotes pf tv.ty x v) ∧
      ((∀ x, (k, x) ∉ given) → get tv.name vars = none)) := by
  obtain ⟨g1, g2⟩ := queryMatches_lastOf pf params given hn
  refine ⟨by simpa only [lastOf_iff] using g1, fun vars h k tv hm => ?_⟩
  have := g2 vars h k tv hm
  refine ⟨fun x hx => ?_, fun hx => ?_⟩
  · rw [lastOf_iff.mpr hx] at this; exact this
  · rw [lastOf_none_iff.mpr hx] at this; exact this

/-- `?page=2&page=3` binds the variable `p` to 3. -/
example : queryMatches (fun _ => none) [("page".toList, { ty := .int, name := "p".toList })]
    [("page".toList, "2".toList), ("page".toList, "3".toList)] = some [("p".toList, .int 3)] := rfl

/-- **C30** The variables of a matched request: those of the query, and those of the path not also bound by the
query. -/
theorem C30_variables_of_request (pf : Text → Option GVal) (e : Endpoint) (r : Req) (vars : Vars)
    (h : e.matches pf r = some vars) : ∃ pv qv, pathMatches pf e.path r.path = some pv ∧
      queryMatches pf e.query ((r.query.map pairsOf).getD []) = some qv ∧
      ∀ n, get n vars = (get n qv).or (get n pv) := by
  unfold Endpoint.matches at h
  simp only at h
  split at h
  · cases h
  · cases e1 : pathMatches pf e.path r.path with
    | none => rw [e1] at h; cases h
    | some pv =>
      rw [e1] at h
      simp only at h
      cases e2 : queryMatches pf e.query ((r.query.map pairsOf).getD []) with
      | none => rw [e2] at h; cases h
      | some qv =>
        rw [e2] at h
        simp only [Option.some.injEq] at h
        subst h
        refine ⟨pv, qv, rfl, rfl, ?_⟩
        intro n
        have app : ∀ a b : Vars, get n (a ++ b) = (get n a).or (get n b) := by
          intro a b
          induction a with
          | nil => simp [Verif.Merge.get]
          | cons p r ih =>
            obtain ⟨k, v⟩ := p
            simp only [List.cons_append, Verif.Merge.get]
            split <;> simp [ih]
        simp [mergeVars, app, Verif.Merge.get]

/-- **C30, violated** The query string of a REST request is dropped before matching: whatever the client sends,
the outcome is the same, and no variable is bound from it. -/
theorem C30_violated_by_dropped_query (pf : Text → Option GVal) (po : Text → Option Text) (es : List Endpoint)
    (r : Req) (q : Option (List QC)) :
    handleRest pf po es { r with query := q } = handleRest pf po es r ∧
    ∀ e vars, handleRest pf po es r = .rest e vars →
      ∃ p, pathMatches pf e.path p = some vars := by
  refine ⟨rfl, ?_⟩
  intro e vars h
  unfold handleRest at h
  cases e1 : reparse po (dropApi r.path) with
  | none => rw [e1] at h; cases h
  | some p =>
    rw [e1] at h
    simp only at h
    cases e2 : select pf es { method := r.method, path := p, query := none } with
    | none => rw [e2] at h; cases h
    | some ev =>
      obtain ⟨e', v'⟩ := ev
      rw [e2] at h
      simp only [Outcome.rest.injEq] at h
      obtain ⟨rfl, rfl⟩ := h
      obtain ⟨before, after, _, hm, _⟩ := ((C29_first_match_wins_partial pf es _).1 _ _).mp e2
      refine ⟨p, ?_⟩
      unfold Endpoint.matches at hm
      simp only at hm
      split at hm
      · cases hm
      · cases e3 : pathMatches pf e'.path p with
        | none => rw [e3] at hm; cases hm
        | some pv =>
          rw [e3] at hm
          have hq : queryMatches pf e'.query [] = some [] := by
            unfold queryMatches
            generalize e'.query = qs
            induction qs with
            | nil => rfl
            | cons x xs ih => obtain ⟨k, tv⟩ := x; simpa [queryLoop, lastOf, Verif.Merge.get] using ih
          simp only [Option.map_none, Option.getD_none, hq, Option.some.injEq] at hm
          simp [mergeVars] at hm
          rw [hm]

/-- A concrete loss: `GET /api/posts?page=2` runs the operation without `page`, although the same request matches
with `page = 2` before the rewriting of the URI. -/
example : ∃ e : Endpoint, ∀ pf po,
    e.matches pf { method := "GET".toList, path := "/posts".toList, query := some ("page=2".toList.map .raw) } =
      some [("page".toList, .int 2)] ∧
    handleRest pf po [e] { method := "GET".toList, path := "/api/posts".toList, query := some ("page=2".toList.map .raw) } =
      .rest e [] :=
  ⟨{ method := "GET".toList, path := [.lit "posts".toList], query := [("page".toList, { ty := .int, name := "page".toList })],
     body := none, op := "posts".toList }, fun _ _ => ⟨rfl, rfl⟩⟩

/-- **C30, violated** The type of a query parameter is looked up under the name of the parameter, not of the
variable it is mapped to: `query: {page: $p}` is rejected if only `$p` is declared, and takes the type of an
unrelated variable `$page` if there is one. -/
theorem C30_violated_by_parameter_name : ∃ q q' : TypeMap, get "p".toList q = some (.named "Int".toList) ∧
    parseQueryParams q [("page".toList, "p".toList)] = none ∧ get "p".toList q' = some (.named "Int".toList) ∧
    parseQueryParams q' [("page".toList, "p".toList)] =
      some [("page".toList, { ty := .string, name := "p".toList })] :=
  ⟨[("p".toList, .named "Int".toList)],
   [("p".toList, .named "Int".toList), ("page".toList, .named "String".toList)], by decide, by decide, by decide,
   by decide⟩

/-- **C30** If the names agree, each declared parameter gets the type of its variable, and declarations with
undeclared or unsupported variables are rejected. -/
theorem C30_parameters_parsed_partial (q : TypeMap) (ks : List Text) (ps : List (Text × TVar))
    (h : parseQueryParams q (ks.map (fun k => (k, k))) = some ps) :
    ps.map (fun p => (p.1, p.2.name)) = ks.map (fun k => (k, k)) ∧
    ∀ k tv, (k, tv) ∈ ps → ∃ n, get k q = some (.named n) ∧
      (n, tv.ty) ∈ [("String".toList, ParamTy.string), ("Int".toList, .int), ("Float".toList, .float),
        ("Boolean".toList, .boolean)] := by
  induction ks generalizing ps with
  | nil => simp [parseQueryParams] at h; subst h; simp
  | cons k ks ih =>
    simp only [List.map_cons, parseQueryParams] at h
    cases e : get k q with
    | none => rw [e] at h; cases h
    | some t =>
      rw [e] at h
      simp only [tvar] at h
      cases e1 : paramTy t with
      | none => rw [e1] at h; simp at h
      | some p =>
        cases e2 : parseQueryParams q (ks.map (fun k => (k, k))) with
        | none => rw [e1, e2] at h; simp at h
        | some r =>
          rw [e1, e2] at h
          simp at h; subst h
          obtain ⟨i1, i2⟩ := ih r e2
          refine ⟨by simp [i1], ?_⟩
          intro k' tv hm
          rcases List.mem_cons.mp hm with hm | hm
          · simp at hm; obtain ⟨rfl, rfl⟩ := hm
            obtain ⟨n, rfl, hn⟩ := paramTy_iff.mp e1
            exact ⟨n, e, hn⟩
          · exact i2 k' tv hm

example : parseQueryParams [("page".toList, .named "Int".toList)] (["page".toList].map (fun k => (k, k))) =
    some [("page".toList, { ty := .int, name := "page".toList })] := by decide

/-- The body of the request becomes the variable named by the endpoint; without one it is not read. -/
theorem C30_body_bound (e : Endpoint) (vars : Vars) (body : Option GVal) :
    (e.body = none → intoRequest e vars body = some vars) ∧
    (∀ key, e.body = some key → body = none → intoRequest e vars body = none) ∧
    (∀ key b vs, e.body = some key → body = some b → intoRequest e vars body = some vs →
      get key vs = some b ∧ ∀ n, n ≠ key → get n vs = get n vars) := by
  refine ⟨?_, ?_, ?_⟩
  · intro h; simp [intoRequest, h]
  · intro key h hb; simp [intoRequest, h, hb]
  · intro key b vs h hb hv
    simp only [intoRequest, h, hb, Option.map_some, Option.some.injEq] at hv
    subst hv
    exact ⟨by simp [Verif.Merge.get], fun n hn => by simp [Verif.Merge.get, Ne.symm hn]⟩

/-! ## Routing: C28 end to end and C65 -/

/-- `/api` does not occur in the text. -/
def NoApi (s : Text) : Prop := ∀ a b, s ≠ a ++ "/api".toList ++ b

theorem dropApi_noApi {s : Text} (h : NoApi s) : dropApi s = s := by
  induction s with
  | nil => rfl
  | cons c r ih =>
    have hr : NoApi r := by
      intro a b e
      exact h (c :: a) b (by rw [e]; rfl)
    unfold dropApi
    split
    · rename_i r' e
      cases e
      exact absurd rfl (h [] r')
    · rename_i c' r' hne e
      cases e
      rw [ih hr]
    · rename_i e; cases e

/-- **C28 (partial)** A client request for `/api` followed by a path is served like that path by the endpoints,
as long as the path does not contain `/api` again. -/
theorem C28_request_served_partial (pf : Text → Option GVal) (po : Text → Option Text) (c : RouteCfg)
    (es : List Endpoint) (method : Method) (p : Text) (q : Option (List QC)) (h : NoApi ('/' :: p)) :
    route pf po c es { method := method, path := "/api".toList ++ '/' :: p, query := q } =
      match select pf es { method := method, path := '/' :: p, query := none } with
      | some (e, v) => .rest e v
      | none => .notFound := by
  have h1 : "/api".toList.isPrefixOf ("/api".toList ++ '/' :: p) = true := by simp
  unfold route
  simp only [h1, if_true]
  unfold handleRest
  have h2 : dropApi ("/api".toList ++ '/' :: p) = '/' :: p := by
    have : "/api".toList ++ '/' :: p = '/' :: 'a' :: 'p' :: 'i' :: '/' :: p := rfl
    rw [this, dropApi, dropApi_noApi h]
  simp only [h2, reparse]
  rfl

example : NoApi "/users/7".toList := by
  intro a b h
  have h1 : a.length ≤ 8 := by
    have := congrArg List.length h
    simp at this; omega
  have h2 := congrArg (fun l => (l.drop a.length).take 4) h
  simp at h2
  have : ∀ n : Fin 9, ("/users/7".toList.drop n.val).take 4 ≠ "/api".toList := by decide
  exact this ⟨a.length, by omega⟩ (by simpa using h2)

/-- **C28, violated** Every `/api` in the path is removed, not only the prefix: an endpoint `/v1/api-keys` is not
served under its own path, but under another one. -/
theorem C28_violated_by_replaced_prefix : ∃ e : Endpoint,
    parsePath [] "/v1/api-keys".toList = some e.path ∧ ∀ pf po,
    handleRest pf po [e] { method := "GET".toList, path := "/api/v1/api-keys".toList, query := none } = .notFound ∧
    handleRest pf po [e] { method := "GET".toList, path := "/api/v1/a/apipi-keys".toList, query := none } = .rest e [] :=
  ⟨{ method := "GET".toList, path := [.lit "v1".toList, .lit "api-keys".toList], query := [], body := none,
     op := "keys".toList }, by decide, fun _ _ => ⟨rfl, rfl⟩⟩

/-- **C65 (partial)** The GraphQL route and the status route are served at the configured paths. Missing: routes
that start with `/api` (below). -/
theorem C65_configured_routes_served_partial (pf : Text → Option GVal) (po : Text → Option Text) (c : RouteCfg)
    (es : List Endpoint) (q : Option (List QC)) :
    (¬ (∃ r, c.graphql = "/api".toList ++ r) →
      route pf po c es { method := "POST".toList, path := c.graphql, query := q } = .graphql) ∧
    (¬ (∃ r, c.status = "/api".toList ++ r) →
      route pf po c es { method := "GET".toList, path := c.status, query := q } = .status) := by
  have pre : ∀ s : Text, ¬ (∃ r, s = "/api".toList ++ r) → "/api".toList.isPrefixOf s = false := by
    intro s h
    cases e : "/api".toList.isPrefixOf s with
    | false => rfl
    | true =>
      rw [List.isPrefixOf_iff_prefix] at e
      obtain ⟨r, hr⟩ := e
      exact absurd ⟨r, hr.symm⟩ h
  constructor
  · intro h
    have := pre _ h
    unfold route
    simp only [this, Bool.false_eq_true, if_false, and_self, if_true]
  · intro h
    have hne : ("GET".toList : Text) ≠ "POST".toList := by decide
    have := pre _ h
    unfold route
    simp only [this, Bool.false_eq_true, if_false, hne, false_and, and_self, if_true]

example : ¬ ∃ r, ({} : RouteCfg).graphql = "/api".toList ++ r := by
  rintro ⟨r, h⟩
  exact absurd (congrArg (fun l => l.take 4) h) (by simp)

/-- **C65, violated** A GraphQL route under `/api`, such as `/api/graphql`, never serves a GraphQL request:
everything under `/api` goes to the REST endpoints. -/
theorem C65_violated_by_api_routes (pf : Text → Option GVal) (po : Text → Option Text) (c : RouteCfg)
    (es : List Endpoint) (r : Req) (p : Text) (h : r.path = "/api".toList ++ p) :
    route pf po c es r = handleRest pf po es r ∧ route pf po c es r ≠ .graphql := by
  have : route pf po c es r = handleRest pf po es r := by
    unfold route; rw [h]; simp
  refine ⟨this, ?_⟩
  rw [this]
  unfold handleRest
  split
  · intro h; cases h
  · split <;> (intro h; cases h)

example : ∀ pf po, route pf po { graphql := "/api/graphql".toList } []
    { method := "POST".toList, path := "/api/graphql".toList, query := none } = .notFound := fun _ _ => rfl

/-- **C65** Nothing else is served: a request that reaches the GraphQL engine was a POST to the configured
route. -/
theorem C65_only_configured_route (pf : Text → Option GVal) (po : Text → Option Text) (c : RouteCfg)
    (es : List Endpoint) (r : Req) (h : route pf po c es r = .graphql) :
    r.method = "POST".toList ∧ r.path = c.graphql := by
  by_cases ha : "/api".toList.isPrefixOf r.path = true
  · rw [List.isPrefixOf_iff_prefix] at ha
    obtain ⟨p, hp⟩ := ha
    exact absurd h (C65_violated_by_api_routes pf po c es r p hp.symm).2
  · unfold route at h
    rw [if_neg ha] at h
    split at h
    · rename_i hh; exact hh
    · repeat' split at h
      all_goals cases h

end Verif.Rest
