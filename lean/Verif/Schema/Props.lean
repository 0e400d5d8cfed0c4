import Verif.Schema.Types

set_option linter.unusedSimpArgs false

/-!
# Properties of the JSON schema checks (C49, C78, C79)
-/

namespace Verif.Schema

open Verif.Mustache (Text)
open Verif.HttpUrl (GVal intText)
open Verif.Exec (Ty)

/-! ## C49: structural subtyping -/

/-- `is_a` is reflexive. -/
theorem C49_reflexive (a : JS) (name : Text) (hd : Distinct a) : isA a a name = [] :=
  (isA_name _ _ _ _).1 (sub_refl hd)

/-- `is_a` is transitive. -/
theorem C49_transitive (a b c : JS) (m n o : Text) (hab : isA a b m = []) (hbc : isA b c n = []) :
    isA a c o = [] :=
  (isA_name _ _ _ _).1 (sub_trans c ((isA_name _ _ _ _).1 hab) ((isA_name _ _ _ _).1 hbc))

/-- Missing for the full property: supertypes with a member that is declared `Any`, for which it is
false (`C49_violated_by_any_member`).  Otherwise every value that is valid for the subtype is valid
for the supertype. -/
theorem C49_sound_partial (a b : JS) (name : Text) (v : GVal) (hb : NoAnyField b)
    (hab : isA a b name = []) (hv : validate a v = []) : validate b v = [] :=
  (validate_iff b v).2 (sub_sound b hb ((isA_name _ _ _ _).1 hab) ((validate_iff a v).1 hv))

/-- For all supertypes: a value that is valid for the subtype can only fail the supertype by lacking
members that are declared `Any`. -/
theorem C49_failures_partial (a b : JS) (name : Text) (v : GVal)
    (hab : isA a b name = []) (hv : validate a v = []) :
    ∀ e ∈ validate b v, e.msg = .missing ∧ Part b e.trace .any :=
  sub_errors b ((isA_name _ _ _ _).1 hab) ((validate_iff a v).1 hv)

/-- A required member of a supertype must be a required member of the subtype, unless it is `Any`. -/
theorem C49_required_partial (a b : List (Text × JS)) (name k : Text) (s : JS)
    (hab : isA (.obj a) (.obj b) name = []) (hk : (k, s) ∈ b) (hs : s ≠ .any) (ho : ∀ t, s ≠ .opt t) :
    ∃ r, (k, r) ∈ a ∧ (∀ t, r ≠ .opt t) ∧ isA r s k = [] := by
  obtain ⟨r, hr, hrs⟩ := sub_obj.1 ((isA_name _ _ _ _).1 hab) (k, s) hk
  refine ⟨r, getField_mem hr, fun t ht => ?_, (isA_name _ _ _ _).1 hrs⟩
  subst ht
  rcases sub_inv hrs with h | ⟨y, h⟩ | ⟨_, _, h, _⟩ | ⟨_, _, h, _⟩ | ⟨h, _⟩
  · exact hs h
  · exact ho y h
  · cases h
  · cases h
  · exact ho t h.symm

/-- What is accepted for a type is accepted where the type is optional. -/
theorem C49_required_for_optional (a b : JS) (m n : Text) (ha : ∀ x, a ≠ .opt x)
    (hab : isA a b m = []) : isA a (.opt b) n = [] ∧ isA (.opt a) (.opt b) n = [] :=
  ⟨(isA_name _ _ _ _).1 ((sub_opt ha).2 ((isA_name _ _ _ _).1 hab)),
    (isA_name _ _ _ _).1 (sub_opt_opt.2 ((isA_name _ _ _ _).1 hab))⟩

/-- `{id: Option<String>}` is accepted as a `{id: Any}`, but the value `{}` of the first is not a value
of the second.  (`Any` is the schema of `ID!`, `Float!` and `JSON!`.) -/
theorem C49_violated_by_any_member :
    ∃ (a b : JS) (v : GVal), isA a b [] = [] ∧ validate a v = [] ∧ validate b v ≠ [] :=
  ⟨.obj [(['i','d'], .opt .str)], .obj [(['i','d'], .any)], .obj [], by rfl, by rfl, by
    simp [validate, validateFields, getKey, JS.isRequired, vfail]⟩

/-- A user with posts. -/
def demoSub : JS :=
  .obj [(['i','d'], .str), (['n'], .num), (['p'], .arr (.obj [(['t'], .str), (['u'], .opt .str)]))]

/-- The same, less demanding. -/
def demoSup : JS :=
  .obj [(['i','d'], .opt .str), (['p'], .opt (.arr (.obj [(['t'], .str)])))]

/-- A user with one post. -/
def demoUser : GVal :=
  .obj [(['i','d'], .str ['1']), (['n'], .int 3), (['p'], .list [.obj [(['t'], .str ['x'])]])]

example : Distinct demoSub :=
  .obj _ (by decide) (by
    intro p hp
    simp only [demoSub, List.mem_cons, List.not_mem_nil, or_false] at hp
    rcases hp with rfl | rfl | rfl
    · exact .str
    · exact .num
    · refine .arr _ (.obj _ (by decide) (fun p hp => ?_))
      simp only [List.mem_cons, List.not_mem_nil, or_false] at hp
      rcases hp with rfl | rfl
      · exact .str
      · exact .opt _ .str)

theorem demoSup_noAny : NoAnyField demoSup :=
  .obj _ (by
    intro p hp
    simp only [List.mem_cons, List.not_mem_nil, or_false] at hp
    rcases hp with rfl | rfl
    · exact .opt _ .str
    · refine .opt _ (.arr _ (.obj _ (fun p hp => ?_) (fun p hp => ?_)))
      · simp only [List.mem_cons, List.not_mem_nil, or_false] at hp; subst hp; exact .str
      · simp only [List.mem_cons, List.not_mem_nil, or_false] at hp; subst hp; simp) (by
    intro p hp
    simp only [List.mem_cons, List.not_mem_nil, or_false] at hp
    rcases hp with rfl | rfl <;> simp)

example : NoAnyField demoSup ∧ isA demoSub demoSup ['U'] = [] ∧ validate demoSub demoUser = []
    ∧ validate demoSup demoUser = [] := ⟨demoSup_noAny, by rfl, by rfl, by rfl⟩

example : isA demoSub (.opt demoSup) ['U'] = [] := by rfl

/-- Two steps of subtyping, and a refusal with its trace. -/
example : isA demoSup (.obj [(['p'], .opt .any)]) [] = []
    ∧ (isA demoSup demoSub ['U']).map (·.trace) = [[['U'], ['i','d']], [['U']], [['U'], ['p']]] :=
  ⟨by rfl, by rfl⟩

/-! ## C78: constants are values of their type -/

/-- The faults of a value with respect to a schema: where it is and what is expected there. -/
inductive Fault : JS → GVal → List Text → VMsg → Prop
  | str (v) : (∀ s, v ≠ .str s) → Fault .str v [] .string
  | num (v) : (∀ i, v ≠ .int i) → (∀ t, v ≠ .float t) → Fault .num v [] .number
  | bool (v) : (∀ b, v ≠ .bool b) → Fault .bool v [] .boolean
  | empty (v) : v ≠ .null → v ≠ .obj [] → Fault .empty v [] .empty
  | array (s v) : (∀ l, v ≠ .list l) → Fault (.arr s) v [] .array
  | object (fs v) : (∀ kvs, v ≠ .obj kvs) → Fault (.obj fs) v [] .object
  | opt (s v p m) : v ≠ .null → Fault s v p m → Fault (.opt s) v p m
  | item (s l) (i : Nat) (x p m) : l[i]? = some x → Fault s x p m → Fault (.arr s) (.list l) (intText i :: p) m
  | field (fs kvs k s x p m) : (k, s) ∈ fs → At kvs k x → Fault s x p m →
      Fault (.obj fs) (.obj kvs) (k :: p) m
  | missing (fs kvs k s) : (k, s) ∈ fs → Lacks kvs k → (∀ t, s ≠ .opt t) →
      Fault (.obj fs) (.obj kvs) [k] .missing

/-- The errors of `validate` are exactly the faults of the value, with their places. -/
theorem C78_errors_exact (s : JS) : ∀ (v : GVal) (e : VErr),
    e ∈ validate s v ↔ Fault s v e.trace e.msg := by
  induction s using JS.induct with
  | hstr =>
    intro v e
    obtain ⟨tr, m⟩ := e
    constructor
    · intro h; cases v <;> simp [validate, vfail] at h <;> (obtain ⟨rfl, rfl⟩ := h; exact .str _ (by simp))
    · intro h
      simp only at h
      cases h with
      | str _ h => cases v <;> simp [validate, vfail] at h ⊢
  | hnum =>
    intro v e
    obtain ⟨tr, m⟩ := e
    constructor
    · intro h
      cases v <;> simp [validate, vfail] at h <;> (obtain ⟨rfl, rfl⟩ := h; exact .num _ (by simp) (by simp))
    · intro h
      simp only at h
      cases h with
      | num _ h h' => cases v <;> simp [validate, vfail] at h h' ⊢
  | hbool =>
    intro v e
    obtain ⟨tr, m⟩ := e
    constructor
    · intro h; cases v <;> simp [validate, vfail] at h <;> (obtain ⟨rfl, rfl⟩ := h; exact .bool _ (by simp))
    · intro h
      simp only at h
      cases h with
      | bool _ h => cases v <;> simp [validate, vfail] at h ⊢
  | hempty =>
    intro v e
    obtain ⟨tr, m⟩ := e
    constructor
    · intro h
      cases v with
      | obj kvs =>
        cases kvs with
        | nil => simp [validate] at h
        | cons a r => simp [validate, vfail] at h; obtain ⟨rfl, rfl⟩ := h; exact .empty _ (by simp) (by simp)
      | _ => simp [validate, vfail] at h <;> (obtain ⟨rfl, rfl⟩ := h; exact .empty _ (by simp) (by simp))
    · intro h
      simp only at h
      cases h with
      | empty _ h h' =>
        cases v with
        | obj kvs =>
          cases kvs with
          | nil => exact absurd rfl h'
          | cons a r => simp [validate, vfail]
        | _ => simp [validate, vfail] at h ⊢
  | hany =>
    intro v e
    constructor
    · intro h; simp [validate] at h
    · intro h; cases h
  | henum ns =>
    intro v e
    constructor
    · intro h; simp [validate] at h
    · intro h; cases h
  | harr s ih =>
    intro v e
    obtain ⟨tr, m⟩ := e
    constructor
    · intro h
      cases v with
      | list l =>
        simp only [validate, List.mem_flatMap, List.mem_map] at h
        obtain ⟨p, hp, e', he', heq⟩ := h
        cases heq
        refine .item _ _ p.2 p.1 _ _ (List.mem_zipIdx_iff_getElem?.1 hp) ((ih _ _).1 he')
      | _ => simp [validate, vfail] at h; obtain ⟨rfl, rfl⟩ := h; exact .array _ _ (by simp)
    · intro h
      simp only at h
      cases h with
      | array _ _ h => cases v <;> simp [validate, vfail] at h ⊢
      | item _ l i x p m hi hf =>
        simp only [validate, List.mem_flatMap, List.mem_map]
        exact ⟨(x, i), List.mem_zipIdx_iff_getElem?.2 hi, ⟨p, m⟩, (ih x ⟨p, m⟩).2 hf, rfl⟩
  | hopt s ih =>
    intro v e
    constructor
    · intro h
      have hv : v ≠ .null := by rintro rfl; simp [validate] at h
      refine .opt _ _ _ _ hv ((ih v e).1 ?_)
      cases v <;> simp_all [validate]
    · intro h
      cases h with
      | opt _ _ _ _ hv hf =>
        have := (ih v e).2 hf
        cases v <;> simp_all [validate]
  | hobj fs ih =>
    intro v e
    obtain ⟨tr, m⟩ := e
    constructor
    · intro h
      cases v with
      | obj kvs =>
        simp only [validate] at h
        obtain ⟨p, hp, hh⟩ := validateFields_mem.1 h
        rcases hh with ⟨x, hx, hh⟩ | ⟨hl, hno, heq⟩
        · obtain ⟨e', he', heq⟩ := List.mem_map.1 hh
          cases heq
          exact .field _ _ p.1 p.2 x _ _ hp hx ((ih p hp x e').1 he')
        · cases heq
          exact .missing _ _ _ p.2 hp hl hno
      | _ => simp [validate, vfail] at h; obtain ⟨rfl, rfl⟩ := h; exact .object _ _ (by simp)
    · intro h
      simp only at h
      cases h with
      | object _ _ h => cases v <;> simp [validate, vfail] at h ⊢
      | field _ kvs k s x p m hk hx hf =>
        simp only [validate]
        refine validateFields_mem.2 ⟨(k, s), hk, .inl ⟨x, hx, List.mem_map.2 ⟨⟨p, m⟩, ?_, rfl⟩⟩⟩
        exact (ih (k, s) hk x ⟨p, m⟩).2 hf
      | missing _ kvs k s hk hl hno =>
        simp only [validate]
        exact validateFields_mem.2 ⟨(k, s), hk, .inr ⟨hl, hno, rfl⟩⟩

/-- Missing for the full property: configurations that declare scalars (types without fields), whose
values are refused (`C78_violated_by_declared_scalar`), and types that lead back to themselves, whose
check does not finish (`C78_violated_by_recursive_type`).  Otherwise a constant that is a value of the
field's type is accepted. -/
theorem C78_values_accepted_partial (c : Cfg) (n : Nat) (t : Ty) (v : GVal) (r : Except (List VErr) GVal)
    (hc : NoScalarTypes c) (hv : ValueOf c t v) (h : compileConst c n t v = some r) : r = .ok v := by
  simp only [compileConst, Option.map_eq_some_iff] at h
  obtain ⟨s, hs, rfl⟩ := h
  rw [(validate_iff s v).2 (value_has hc hv hs)]

/-- Missing for the full property: types that use enums, unions, `Int`, `Float`, `ID` or non-null
scalars of the user, for which it is false (see the `C78_violated_by_…` theorems).  Otherwise a constant
that is accepted is a value of the field's type. -/
theorem C78_accepted_partial (c : Cfg) (n : Nat) (t : Ty) (v w : GVal)
    (hp : ∀ u, Uses c t u → Precise c u) (h : compileConst c n t v = some (.ok w)) :
    w = v ∧ ValueOf c t v := by
  simp only [compileConst, Option.map_eq_some_iff] at h
  obtain ⟨s, hs, h⟩ := h
  split at h
  · rename_i hv
    cases h
    exact ⟨rfl, has_value n hp hs ((validate_iff s v).1 hv)⟩
  · cases h

/-- The check finishes exactly when the type does not lead to itself without passing a resolver. -/
theorem C78_terminates_partial (c : Cfg) (t : Ty) (v : GVal) :
    (∃ n r, compileConst c n t v = some r) ↔ Acc (Step c) t := by
  constructor
  · rintro ⟨n, r, h⟩
    simp only [compileConst, Option.map_eq_some_iff] at h
    obtain ⟨s, hs, _⟩ := h
    exact acc_of_toSchema n hs
  · intro h
    obtain ⟨n, s, hs⟩ := toSchema_of_acc h
    exact ⟨n, _, by simp only [compileConst, hs, Option.map_some]; rfl⟩

/-- The verdict does not depend on the depth allowed. -/
theorem C78_deterministic (c : Cfg) (n m : Nat) (t : Ty) (v : GVal) (r r' : Except (List VErr) GVal)
    (h : compileConst c n t v = some r) (h' : compileConst c m t v = some r') : r = r' := by
  simp only [compileConst, Option.map_eq_some_iff] at h h'
  obtain ⟨s, hs, rfl⟩ := h
  obtain ⟨s', hs', rfl⟩ := h'
  have e1 := toSchema_mono_le hs (Nat.le_max_left n m)
  have e2 := toSchema_mono_le hs' (Nat.le_max_right n m)
  rw [e1] at e2
  cases e2
  rfl

/-- A configuration with a recursive type `N`, an object type `U`, a declared scalar `S`, an enum `E`
and a union `V`. -/
def demoCfg : Cfg where
  types := [
    (['N'], [(['n'], ⟨.named ['N'] false, false⟩)]),
    (['S'], []),
    (['U'], [(['a'], ⟨.named ['S','t','r','i','n','g'] true, false⟩),
             (['b'], ⟨.list (.named ['B','o','o','l','e','a','n'] true) false, false⟩),
             (['c'], ⟨.named ['N'] true, true⟩)])]
  enums := [(['E'], [['X'], ['Y']])]
  unions := [(['V'], [['U']])]

/-- A constant of a type that refers to itself is never accepted or refused: the check does not end. -/
theorem C78_violated_by_recursive_type :
    ∃ (c : Cfg) (t : Ty) (v : GVal), ValueOf c t v ∧ ∀ n, compileConst c n t v = none := by
  have hat : At demoCfg.types ['N'] [(['n'], ⟨.named ['N'] false, false⟩)] := by rfl
  refine ⟨demoCfg, .named ['N'] false, .obj [], ?_, fun n => ?_⟩
  · refine .obj _ _ _ _ hat (by simp) (fun p hp hr x hx => ?_) (fun p hp hr _ => ?_)
    · simp [At] at hx
    · simp only [List.mem_cons, List.not_mem_nil, or_false] at hp; subst hp; rfl
  · have : toSchema demoCfg n (.named ['N'] false) = none := by
      induction n with
      | zero => rfl
      | succ n ih =>
        have hl : look demoCfg.types ['N'] = some [(['n'], ⟨.named ['N'] false, false⟩)] := by rfl
        simp only [toSchema, hl, fieldsWith, ih, Bool.false_eq_true, if_false, Option.map_none]
    simp [compileConst, this]

/-- The value of a declared scalar (`scalar S`) is refused unless it is an object. -/
theorem C78_violated_by_declared_scalar :
    ∃ (c : Cfg) (t : Ty) (v : GVal) (n : Nat) (e : VErr), ValueOf c t v ∧
      compileConst c n t v = some (.error [e]) :=
  ⟨demoCfg, .named ['S'] true, .str ['x'], 1, ⟨[], .object⟩,
    .declared _ _ _ (by rfl) (by simp), by rfl⟩

/-- Any constant is accepted for an enum. -/
theorem C78_violated_by_enum :
    ∃ (c : Cfg) (t : Ty) (v : GVal) (n : Nat), compileConst c n t v = some (.ok v) ∧ ¬ ValueOf c t v := by
  refine ⟨demoCfg, .named ['E'] true, .str ['Z'], 1, by rfl, fun h => ?_⟩
  have hE : At demoCfg.enums ['E'] [['X'], ['Y']] := by rfl
  cases h with
  | declared _ _ _ hat _ => cases hat
  | enumStr _ _ vs _ _ hat hm =>
    rw [at_unique hat hE] at hm
    revert hm
    decide
  | union _ _ _ _ _ _ hlk => exact at_not_lacks hE hlk
  | scalar _ _ _ _ hlk => exact at_not_lacks hE hlk

/-- Any constant is accepted for a union. -/
theorem C78_violated_by_union :
    ∃ (c : Cfg) (t : Ty) (v : GVal) (n : Nat), compileConst c n t v = some (.ok v) ∧ ¬ ValueOf c t v := by
  refine ⟨demoCfg, .named ['V'] true, .str ['Z'], 1, by rfl, fun h => ?_⟩
  have hV : At demoCfg.unions ['V'] [['U']] := by rfl
  have hU : ∃ fs, fs ≠ [] ∧ At demoCfg.types ['U'] fs := ⟨_, by simp, rfl⟩
  cases h with
  | declared _ _ _ hat _ => cases hat
  | enumStr _ _ vs _ _ hat hm => cases hat
  | union _ _ ms m _ _ _ hat hm hv =>
    rw [at_unique hat hV] at hm
    simp only [List.mem_cons, List.not_mem_nil, or_false] at hm
    subst hm
    obtain ⟨fs, hne, hU⟩ := hU
    cases hv with
    | declared _ _ _ hat' _ => exact hne (at_unique hU hat')
    | enumStr _ _ _ _ hlk => exact at_not_lacks hU hlk
    | union _ _ _ _ _ hlk => exact at_not_lacks hU hlk
    | scalar _ _ _ hlk => exact at_not_lacks hU hlk
  | scalar _ _ _ _ _ hlk => exact at_not_lacks hV hlk

/-- Fractions and numbers beyond 32 bits are accepted for `Int`; anything is accepted for `Float` and
`ID`; `null` is accepted for a non-null custom scalar. -/
theorem C78_violated_by_scalars :
    (∃ v n, compileConst demoCfg n (.named ['I','n','t'] true) v = some (.ok v)
      ∧ (∃ t, v = .float t) ∧ ¬ ValueOf demoCfg (.named ['I','n','t'] true) v) ∧
    (∃ i n, 2147483647 < i ∧ compileConst demoCfg n (.named ['I','n','t'] true) (.int i) = some (.ok (.int i))
      ∧ ¬ ValueOf demoCfg (.named ['I','n','t'] true) (.int i)) ∧
    (∃ s n, compileConst demoCfg n (.named ['F','l','o','a','t'] true) (.str s) = some (.ok (.str s))
      ∧ ¬ ValueOf demoCfg (.named ['F','l','o','a','t'] true) (.str s)) ∧
    (∃ b n, compileConst demoCfg n (.named ['I','D'] true) (.bool b) = some (.ok (.bool b))
      ∧ ¬ ValueOf demoCfg (.named ['I','D'] true) (.bool b)) ∧
    (∃ n, compileConst demoCfg n (.named ['J','S','O','N'] true) .null = some (.ok .null)
      ∧ ¬ ValueOf demoCfg (.named ['J','S','O','N'] true) .null) := by
  have key : ∀ {name : Text} {v : GVal}, look demoCfg.types name = none → look demoCfg.enums name = none →
      look demoCfg.unions name = none → v ≠ .null → ValueOf demoCfg (.named name true) v → ScalarOf name v := by
    intro name v h1 h2 h3 hv h
    cases h with
    | null _ hn => exact absurd rfl hv
    | obj _ _ _ _ hat => exact absurd (look_none.1 h1) (at_not_lacks hat)
    | declared _ _ _ hat => exact absurd (look_none.1 h1) (at_not_lacks hat)
    | enumStr _ _ _ _ _ hat => exact absurd (look_none.1 h2) (at_not_lacks hat)
    | enum _ _ _ _ _ hat => exact absurd (look_none.1 h2) (at_not_lacks hat)
    | union _ _ _ _ _ _ _ hat => exact absurd (look_none.1 h3) (at_not_lacks hat)
    | scalar _ _ _ _ _ _ h => exact h
  refine ⟨⟨.float ['1','.','5'], 1, by rfl, ⟨_, rfl⟩, fun h => ?_⟩, ⟨2147483648, 1, by decide, by rfl, fun h => ?_⟩,
    ⟨['x'], 1, by rfl, fun h => ?_⟩, ⟨true, 1, by rfl, fun h => ?_⟩, ⟨1, by rfl, fun h => ?_⟩⟩
  · cases key rfl rfl rfl (by simp) h with
    | other _ _ hn => exact hn .int
  · cases key rfl rfl rfl (by simp) h with
    | int _ _ hle => exact absurd hle (by decide)
    | other _ _ hn => exact hn .int
  · cases key rfl rfl rfl (by simp) h with
    | other _ _ hn => exact hn .float
  · cases key rfl rfl rfl (by simp) h with
    | other _ _ hn => exact hn .id
  · cases h with
    | null _ hn => cases hn
    | declared _ _ _ hat h => exact h rfl
    | union _ _ _ _ _ _ _ hat => cases hat
    | scalar _ _ _ _ _ _ h =>
      cases h with
      | other _ _ _ h => exact h rfl

/-- A constant for `U` with one flag missing, one wrong. -/
def demoU : GVal := .obj [(['a'], .str ['x']), (['b'], .list [.bool true, .bool false])]

theorem demoU_uses : ∀ u, Uses demoCfg (.named ['U'] true) u → Precise demoCfg u := by
  have hat : At demoCfg.types ['U'] [(['a'], ⟨.named ['S','t','r','i','n','g'] true, false⟩),
             (['b'], ⟨.list (.named ['B','o','o','l','e','a','n'] true) false, false⟩),
             (['c'], ⟨.named ['N'] true, true⟩)] := by rfl
  have hS : ∀ u nn, Uses demoCfg (.named ['S','t','r','i','n','g'] nn) u → Precise demoCfg u := by
    intro u nn h
    cases h with
    | refl => exact .string _ (by simp [Lacks, demoCfg]) (by simp [Lacks, demoCfg]) (by simp [Lacks, demoCfg])
    | field _ _ _ _ _ _ h => cases h
  have hB : ∀ u nn, Uses demoCfg (.named ['B','o','o','l','e','a','n'] nn) u → Precise demoCfg u := by
    intro u nn h
    cases h with
    | refl => exact .boolean _ (by simp [Lacks, demoCfg]) (by simp [Lacks, demoCfg]) (by simp [Lacks, demoCfg])
    | field _ _ _ _ _ _ h => cases h
  intro u h
  cases h with
  | refl => exact .obj _ _ _ hat (by simp)
  | field _ _ fs k f _ h hm hr hu =>
    cases at_unique hat h
    simp only [List.mem_cons, List.not_mem_nil, or_false, Prod.mk.injEq] at hm
    rcases hm with ⟨_, rfl⟩ | ⟨_, rfl⟩ | ⟨_, rfl⟩
    · exact hS _ _ hu
    · cases hu with
      | refl => exact .list _ _
      | item _ _ _ hu => exact hB _ _ hu
    · cases hr

example : (∀ u, Uses demoCfg (.named ['U'] true) u → Precise demoCfg u)
    ∧ compileConst demoCfg 3 (.named ['U'] true) demoU = some (.ok demoU) := ⟨demoU_uses, by rfl⟩

example : compileConst demoCfg 3 (.named ['U'] true) (.obj [(['b'], .list [.bool true, .int 1])])
    = some (.error [⟨[['a']], .missing⟩, ⟨[['b'], ['1']], .boolean⟩]) := by rfl

/-- The hypotheses of `C78_values_accepted_partial`. -/
def plainCfg : Cfg := { demoCfg with types := [(['E','2'], [(['e'], ⟨.named ['E'] true, false⟩)])] }

example : NoScalarTypes plainCfg ∧ ValueOf plainCfg (.named ['E','2'] true) (.obj [(['e'], .str ['X'])])
    ∧ compileConst plainCfg 2 (.named ['E','2'] true) (.obj [(['e'], .str ['X'])])
        = some (.ok (.obj [(['e'], .str ['X'])])) := by
  refine ⟨⟨fun name h => ?_, fun name ms h hs => ?_⟩, ?_, by rfl⟩
  · rw [← look_some] at h
    simp only [plainCfg, look] at h
    split at h <;> cases h
  · rw [← look_some] at h
    simp only [plainCfg, demoCfg, look] at h
    split at h
    · rename_i he; subst he; cases hs
    · cases h
  · refine .obj _ _ [(['e'], ⟨.named ['E'] true, false⟩)] _ (by rfl) (by simp) (fun p hp _ x hx => ?_)
      (fun p hp _ hl => ?_)
    · simp only [List.mem_cons, List.not_mem_nil, or_false] at hp
      subst hp
      simp only [At, List.find?_cons, decide_true, Option.map_some, Option.some.injEq] at hx
      subst hx
      exact .enumStr _ _ [['X'], ['Y']] _ (by simp [Lacks, plainCfg]) (by rfl) (by simp)
    · simp only [List.mem_cons, List.not_mem_nil, or_false] at hp
      subst hp
      simp [Lacks] at hl

/-! ## C79: gRPC operations fit the type of their field -/

/-- Missing for the full property: 64 bit numbers, and types as in `C78_accepted_partial`.  Otherwise,
when the operation passes the check, every response is a value of the field's type. -/
theorem C79_response_partial (c : Cfg) (p : Pool) (n : Nat) (t : Ty) (input output : Text) (v : GVal)
    (h64 : No64 p) (hp : ∀ u, Uses c t u → Precise c u)
    (h : validateGrpc c p n t input output = some []) (hv : PVal p (.message output) v) :
    ValueOf c t v := by
  simp only [validateGrpc] at h
  split at h
  · rename_i sup _ sub h1 h2 h3
    have hsub : Has sub v := pval_has h64 hv (n := n) (by simp) (by simpa [kindSchema] using h3)
    have hsup := sub_sound sup (precise_noAny n hp h1).1 ((isA_name _ _ _ _).1 (Option.some.inj h)) hsub
    exact has_value n hp h1 hsup
  · cases h

/-- For all types: a response can only fail the schema of the field by lacking members declared `Any`. -/
theorem C79_failures_partial (c : Cfg) (p : Pool) (n : Nat) (t : Ty) (input output : Text) (v : GVal)
    (s : JS) (h64 : No64 p) (hs : toSchema c n t = some s)
    (h : validateGrpc c p n t input output = some []) (hv : PVal p (.message output) v) :
    ∀ e ∈ validate s v, e.msg = .missing ∧ Part s e.trace .any := by
  simp only [validateGrpc, hs] at h
  split at h
  · rename_i sup _ sub h1 h2 h3
    cases h1
    have hsub : Has sub v := pval_has h64 hv (n := n) (by simp) (by simpa [kindSchema] using h3)
    exact sub_errors _ ((isA_name _ _ _ _).1 (Option.some.inj h)) hsub
  · cases h

/-- Messages: `R` with a nested list, `L` with a 64 bit number, `T` referring to itself, `O` with an
optional string. -/
def demoPool : Pool where
  msgs := [
    (['R'], ⟨false, [⟨['a'], .string, .required, false⟩, ⟨['b'], .bool, .repeated, true⟩,
      ⟨['m'], .message ['M'], .repeated, false⟩]⟩),
    (['M'], ⟨true, []⟩),
    (['O'], ⟨false, [⟨['i'], .string, .optional, false⟩]⟩),
    (['T'], ⟨false, [⟨['t'], .message ['T'], .optional, false⟩]⟩)]
  enums := []

/-- A pool with a 64 bit number. -/
def longPool : Pool where
  msgs := [(['L'], ⟨false, [⟨['l'], .number64, .optional, false⟩]⟩)]
  enums := []

/-- The types `G { l: Int }` and `H { i: ID! }`. -/
def grpcCfg : Cfg where
  types := [(['G'], [(['l'], ⟨.named ['I','n','t'] false, false⟩)]),
            (['H'], [(['i'], ⟨.named ['I','D'] true, false⟩)]),
            (['T'], [(['t'], ⟨.named ['S','t','r','i','n','g'] false, false⟩)])]
  enums := []
  unions := []

/-- An `int64` field passes for an `Int`, but its values arrive as strings. -/
theorem C79_violated_by_int64 :
    ∃ (c : Cfg) (p : Pool) (n : Nat) (t : Ty) (i o : Text) (v : GVal),
      validateGrpc c p n t i o = some [] ∧ PVal p (.message o) v ∧ ¬ ValueOf c t v := by
  refine ⟨grpcCfg, longPool, 3, .named ['G'] true, ['L'], ['L'], .obj [(['l'], .str (intText 5))], by rfl, ?_, fun h => ?_⟩
  · refine .msg _ ⟨false, [⟨['l'], .number64, .optional, false⟩]⟩ _ (by rfl) rfl ?_ ?_ ?_ ?_ ?_
    all_goals intro f hf
    all_goals simp only [List.mem_cons, List.not_mem_nil, or_false] at hf
    all_goals subst hf
    · intro h; cases h
    · intro h; cases h
    · intro _ _ x hx
      simp only [At, List.find?_cons, decide_true, Option.map_some, Option.some.injEq] at hx
      subst hx
      exact .int64 5
    · intro _; exact .inl rfl
    · exact ⟨_, List.mem_cons_self, rfl⟩
  · have hG : At grpcCfg.types ['G'] [(['l'], ⟨.named ['I','n','t'] false, false⟩)] := by rfl
    cases h with
    | obj _ _ fs _ hat _ hx _ =>
      cases at_unique hat hG
      have := hx (['l'], ⟨.named ['I','n','t'] false, false⟩) (by simp) rfl (.str (intText 5)) (by rfl)
      cases this with
      | declared _ _ _ hat => cases hat
      | enumStr _ _ _ _ _ hat => cases hat
      | union _ _ _ _ _ _ _ hat => cases hat
      | scalar _ _ _ _ _ _ h =>
        cases h with
        | other _ _ hn => exact hn .int
    | declared _ _ _ hat => exact absurd (at_unique hat hG) (by simp)
    | union _ _ _ _ _ _ _ hat => cases hat
    | scalar _ _ _ hlk => exact at_not_lacks hG hlk

/-- An optional string passes for an `ID!`, so the member can be missing. -/
theorem C79_violated_by_optional_id :
    ∃ (c : Cfg) (p : Pool) (n : Nat) (t : Ty) (i o : Text) (v : GVal),
      validateGrpc c p n t i o = some [] ∧ PVal p (.message o) v ∧ ¬ ValueOf c t v := by
  refine ⟨grpcCfg, demoPool, 3, .named ['H'] true, ['O'], ['O'], .obj [], by rfl, ?_, fun h => ?_⟩
  · refine .msg _ ⟨false, [⟨['i'], .string, .optional, false⟩]⟩ _ (by rfl) rfl ?_ ?_ ?_ ?_ ?_
    all_goals intro f hf
    · intro _ x hx; cases hx
    · intro _ l hx; cases hx
    · intro _ _ x hx; cases hx
    · simp only [List.mem_cons, List.not_mem_nil, or_false] at hf; subst hf; intro _; exact .inl rfl
    · cases hf
  · have hG : At grpcCfg.types ['H'] [(['i'], ⟨.named ['I','D'] true, false⟩)] := by rfl
    cases h with
    | obj _ _ fs _ hat _ _ hreq =>
      cases at_unique hat hG
      have := hreq (['i'], ⟨.named ['I','D'] true, false⟩) (by simp) rfl (by simp [Lacks])
      cases this
    | declared _ _ _ hat => exact absurd (at_unique hat hG) (by simp)
    | union _ _ _ _ _ _ _ hat => cases hat
    | scalar _ _ _ hlk => exact at_not_lacks hG hlk

/-- For a message type that refers to itself the check never ends, whatever the field's type. -/
theorem C79_violated_by_recursive_message :
    ∃ (c : Cfg) (p : Pool) (t : Ty) (m : Text), ∀ n, validateGrpc c p n t m m = none := by
  refine ⟨grpcCfg, demoPool, .named ['T'] true, ['T'], fun n => ?_⟩
  have : msgSchema demoPool n ['T'] = none := by
    induction n with
    | zero => rfl
    | succ n ih =>
      have hl : look demoPool.msgs ['T'] = some ⟨false, [⟨['t'], .message ['T'], .optional, false⟩]⟩ := by rfl
      simp only [msgSchema, hl, msgFields, kindSchema, ih, Bool.false_eq_true, if_false, Option.map_none]
  simp only [validateGrpc, this]
  cases toSchema grpcCfg n (.named ['T'] true) <;> rfl

/-- The type `U` of `demoCfg` against the message `R`. -/
example : No64 demoPool ∧ validateGrpc demoCfg demoPool 4 (.named ['U'] true) ['R'] ['R'] = some []
    ∧ (validateGrpc demoCfg demoPool 4 (.named ['U'] true) ['R'] ['O']).map (·.length) = some 2 := by
  refine ⟨fun m d h f hf => ?_, by rfl, by rfl⟩
  rw [← look_some] at h
  simp only [demoPool, look] at h
  repeat' split at h
  all_goals cases h
  all_goals simp only [List.mem_cons, List.not_mem_nil, or_false] at hf
  all_goals (try rcases hf with rfl | rfl | rfl)
  all_goals (try subst hf)
  all_goals simp

example : PVal demoPool (.message ['R']) (.obj [(['a'], .str ['x']), (['b'], .list [.bool true]), (['m'], .obj [])]) := by
  refine .msg _ ⟨false, [⟨['a'], .string, .required, false⟩, ⟨['b'], .bool, .repeated, true⟩,
      ⟨['m'], .message ['M'], .repeated, false⟩]⟩ _ (by rfl) rfl ?_ ?_ ?_ ?_ ?_
  all_goals intro f hf
  all_goals simp only [List.mem_cons, List.not_mem_nil, or_false] at hf
  all_goals rcases hf with rfl | rfl | rfl
  · intro h; cases h
  · intro _ x hx; cases hx; exact ⟨_, rfl⟩
  · intro h; cases h
  · intro h; cases h
  · intro _ l hx y hy
    cases hx
    simp only [List.mem_cons, List.not_mem_nil, or_false] at hy
    subst hy
    exact .bool true
  · intro h; cases h
  · intro _ _ x hx; cases hx; exact .string _
  · intro h; cases h
  · intro _ hm; exact absurd ⟨['M'], ⟨true, []⟩, rfl, by rfl, rfl⟩ hm
  · intro h; simp [Lacks] at h
  · intro h; simp [Lacks] at h
  · intro h; simp [Lacks] at h
  · exact ⟨_, List.mem_cons_self, rfl⟩
  · exact ⟨_, List.mem_cons_of_mem _ List.mem_cons_self, rfl⟩
  · exact ⟨_, List.mem_cons_of_mem _ (List.mem_cons_of_mem _ List.mem_cons_self), rfl⟩

end Verif.Schema
