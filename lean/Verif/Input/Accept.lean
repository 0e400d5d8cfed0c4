import Verif.Input.Props

/-! # Property C39: operations that are accepted, and where the code does not follow the rules -/

set_option linter.unusedSimpArgs false
set_option linter.unusedVariables false

namespace Verif.Input

open Verif.Mustache (Text)
open Verif.HttpUrl (GVal intText)
open Verif.Exec (Ty)

theorem substList_complete {vars : Vars} : ∀ {qs : List QVal} {vs : List GVal}, qs.length = vs.length →
    (∀ p ∈ qs.zip vs, subst vars p.1 = .ok p.2) → substList vars qs = .ok vs
  | [], [], _, _ => rfl
  | q :: qs, v :: vs, hl, h => by
    unfold substList
    rw [h (q, v) (by simp), substList_complete (vs := vs) (by simpa using hl)
      (fun p hp => h p (by rw [List.zip_cons_cons]; exact List.mem_cons_of_mem _ hp))]

theorem substObj_complete {vars : Vars} : ∀ {qs : List (Text × QVal)} {vs : List (Text × GVal)},
    qs.map (·.1) = vs.map (·.1) → (∀ p ∈ qs.zip vs, subst vars p.1.2 = .ok p.2.2) → substObj vars qs = .ok vs
  | [], [], _, _ => rfl
  | [], _ :: _, hl, _ => by simp at hl
  | _ :: _, [], hl, _ => by simp at hl
  | (k, q) :: qs, (k', v) :: vs, hl, h => by
    simp only [List.map_cons, List.cons.injEq] at hl
    unfold substObj
    rw [h ((k, q), (k', v)) (by simp), substObj_complete hl.2
      (fun p hp => h p (by rw [List.zip_cons_cons]; exact List.mem_cons_of_mem _ hp)), hl.1]

theorem subst_complete {vars : Vars} {q : QVal} {v : GVal} (h : SubstR vars q v) : subst vars q = .ok v := by
  induction h with
  | var h => simp [subst, h]
  | null => rfl
  | bool b => rfl
  | int b => rfl
  | float b => rfl
  | str b => rfl
  | enum b => rfl
  | list hl _ ih => unfold subst; rw [substList_complete hl ih]
  | obj hk _ ih => unfold subst; rw [substObj_complete hk ih]

theorem substOpt_complete {vars : Vars} {q : Option QVal} {v : Option GVal} (h : SubstOptR vars q v) :
    substOpt vars q = .ok v := by
  cases q with
  | none => unfold SubstOptR at h; rw [h]; rfl
  | some q =>
    obtain ⟨w, rfl, hw⟩ := h
    simp [substOpt, subst_complete hw]

/-- An argument of a resolved operation does not fail. -/
theorem resolved_not_fails {ix : Index} {vars : Vars} {a : Arg QVal} {b : Arg GVal} {e : Err}
    (h : ArgResolved ix vars a b) : ¬ ArgFails ix vars a e := by
  obtain ⟨_, _, hd, g, hg, hspec⟩ := h
  rintro (⟨x, q, he, hq, hu, hv⟩ | ⟨g', d', hg', hd', hno⟩)
  · have key : ∀ {q v}, SubstR vars q v → Uses x q → False := by
      intro q v hs
      induction hs with
      | var h => intro hu; cases hu; rw [hv] at h; cases h
      | null => intro hu; cases hu
      | bool b => intro hu; cases hu
      | int b => intro hu; cases hu
      | float b => intro hu; cases hu
      | str b => intro hu; cases hu
      | enum b => intro hu; cases hu
      | list hl _ ih =>
        rename_i qs vs _
        intro hu
        cases hu with
        | list hm hq =>
          obtain ⟨j, hj, rfl⟩ := List.mem_iff_getElem.mp hm
          refine ih (qs[j], vs[j]'(hl ▸ hj)) ?_ hq
          rw [List.mem_iff_getElem]
          exact ⟨j, (by rw [List.length_zip, ← hl]; omega), (by simp)⟩
      | obj hk _ ih =>
        rename_i qs vs _
        intro hu
        cases hu with
        | obj hm hq =>
          have hl : qs.length = vs.length := by simpa using congrArg List.length hk
          obtain ⟨j, hj, hjq⟩ := List.mem_iff_getElem.mp hm
          refine ih (qs[j], vs[j]'(hl ▸ hj)) ?_ (by rw [hjq]; exact hq)
          rw [List.mem_iff_getElem]
          exact ⟨j, (by rw [List.length_zip, ← hl]; omega), (by simp)⟩
    rcases hq with hq | hq
    · rw [hq] at hg; obtain ⟨w, _, hw⟩ := hg; exact key hw hu
    · rw [hq] at hd; obtain ⟨w, _, hw⟩ := hd; exact key hw hu
  · have e1 : g = g' := by
      have := (substOpt_complete hg).symm.trans (substOpt_complete hg')
      injection this
    have e2 : b.dflt = d' := by
      have := (substOpt_complete hd).symm.trans (substOpt_complete hd')
      injection this
    subst e1; subst e2
    exact hno ⟨_, hspec⟩

theorem zip_left {α β : Type} {as : List α} {bs : List β} (hl : as.length = bs.length) {a : α} (ha : a ∈ as) :
    ∃ b, (a, b) ∈ as.zip bs := by
  obtain ⟨j, hj, rfl⟩ := List.mem_iff_getElem.mp ha
  refine ⟨bs[j]'(hl ▸ hj), ?_⟩
  rw [List.mem_iff_getElem]
  exact ⟨j, (by rw [List.length_zip, ← hl]; omega), (by simp)⟩

mutual
theorem resolved_args {ix : Index} {vars : Vars} (f : Field QVal) {g : Field GVal} (h : Resolved ix vars f g) :
    ∀ a ∈ allArgs f, ∃ b, ArgResolved ix vars a b := by
  match f, h with
  | .mk name args sub, .mk ha h1 hs h2 =>
    intro a hm
    simp only [allArgs, List.mem_append] at hm
    rcases hm with hm | hm
    · obtain ⟨b, hb⟩ := zip_left ha hm
      exact ⟨b, h1 _ hb⟩
    · exact resolved_argsL sub hs h2 a hm
theorem resolved_argsL {ix : Index} {vars : Vars} (l : List (Field QVal)) {g : List (Field GVal)}
    (hl : l.length = g.length) (h : ∀ p ∈ l.zip g, Resolved ix vars p.1 p.2) :
    ∀ a ∈ allArgsL l, ∃ b, ArgResolved ix vars a b := by
  match l, g, hl, h with
  | [], _, _, _ => intro a ha; simp [allArgsL] at ha
  | f :: r, g :: gs, hl, h =>
    intro a hm
    simp only [allArgsL, List.mem_append] at hm
    rcases hm with hm | hm
    · exact resolved_args f (h (f, g) (by simp)) a hm
    · exact resolved_argsL r (g := gs) (by simpa using hl)
        (fun p hp => h p (by rw [List.zip_cons_cons]; exact List.mem_cons_of_mem _ hp)) a hm
end

theorem resolveArgs_none {ix : Index} {n : Nat} {field : Text} : ∀ {bs : List (Arg GVal)},
    resolveArgs n ix field bs = none → ∃ b ∈ bs, parse n ix field b.name b.ty b.dflt b.value = none
  | [], h => by cases h
  | b :: bs, h => by
    unfold resolveArgs at h
    split at h
    · rename_i hb; exact ⟨b, List.mem_cons_self .., hb⟩
    · cases h
    · split at h
      · rename_i hb
        obtain ⟨c, hc, h1⟩ := resolveArgs_none hb
        exact ⟨c, List.mem_cons_of_mem _ hc, h1⟩
      · cases h
      · cases h

mutual
theorem resolveField_none {ix : Index} {n : Nat} (g : Field GVal) (h : resolveField n ix g = none) :
    ∃ b ∈ allArgs g, ∃ field, parse n ix field b.name b.ty b.dflt b.value = none := by
  match g with
  | .mk name args sub =>
    unfold resolveField at h
    split at h
    · rename_i ha
      obtain ⟨b, hb, h1⟩ := resolveArgs_none ha
      exact ⟨b, by simp [allArgs, hb], name, h1⟩
    · cases h
    · split at h
      · rename_i hs
        obtain ⟨b, hb, h1⟩ := resolveFields_none sub hs
        exact ⟨b, by simp [allArgs, hb], h1⟩
      · cases h
      · cases h
theorem resolveFields_none {ix : Index} {n : Nat} (l : List (Field GVal)) (h : resolveFields n ix l = none) :
    ∃ b ∈ allArgsL l, ∃ field, parse n ix field b.name b.ty b.dflt b.value = none := by
  match l with
  | [] => cases h
  | g :: r =>
    unfold resolveFields at h
    split at h
    · rename_i ha
      obtain ⟨b, hb, h1⟩ := resolveField_none g ha
      exact ⟨b, by simp [allArgsL, hb], h1⟩
    · cases h
    · split at h
      · rename_i hs
        obtain ⟨b, hb, h1⟩ := resolveFields_none r hs
        exact ⟨b, by simp [allArgsL, hb], h1⟩
      · cases h
      · cases h
end

theorem substArgs_from {vars : Vars} {as : List (Arg QVal)} {bs : List (Arg GVal)}
    (h : substArgs vars as = .ok bs) : ∀ b ∈ bs, ∃ a ∈ as, ArgSubst vars a b := by
  obtain ⟨hl, hz⟩ := substArgs_ok h
  intro b hb
  obtain ⟨j, hj, rfl⟩ := List.mem_iff_getElem.mp hb
  have hj' : j < as.length := hl ▸ hj
  refine ⟨as[j], List.getElem_mem .., hz (as[j], bs[j]) ?_⟩
  rw [List.mem_iff_getElem]
  exact ⟨j, (by rw [List.length_zip]; omega), (by simp)⟩

mutual
theorem substField_from {vars : Vars} (f : Field QVal) {g : Field GVal} (h : substField vars f = .ok g) :
    ∀ b ∈ allArgs g, ∃ a ∈ allArgs f, ArgSubst vars a b := by
  match f with
  | .mk name args sub =>
    unfold substField at h
    split at h
    · cases h
    · rename_i s hs
      split at h
      · cases h
      · rename_i as has
        injection h with h; subst h
        intro b hb
        simp only [allArgs, List.mem_append] at hb ⊢
        rcases hb with hb | hb
        · obtain ⟨a, ha, h1⟩ := substArgs_from has b hb
          exact ⟨a, .inl ha, h1⟩
        · obtain ⟨a, ha, h1⟩ := substFields_from sub hs b hb
          exact ⟨a, .inr ha, h1⟩
theorem substFields_from {vars : Vars} (l : List (Field QVal)) {g : List (Field GVal)}
    (h : substFields vars l = .ok g) : ∀ b ∈ allArgsL g, ∃ a ∈ allArgsL l, ArgSubst vars a b := by
  match l with
  | [] => injection h with h; subst h; intro b hb; simp [allArgsL] at hb
  | f :: r =>
    unfold substFields at h
    split at h
    · cases h
    · rename_i f' hf
      split at h
      · cases h
      · rename_i r' hr
        injection h with h; subst h
        intro b hb
        simp only [allArgsL, List.mem_append] at hb ⊢
        rcases hb with hb | hb
        · obtain ⟨a, ha, h1⟩ := substField_from f hf b hb
          exact ⟨a, .inl ha, h1⟩
        · obtain ⟨a, ha, h1⟩ := substFields_from r hr b hb
          exact ⟨a, .inr ha, h1⟩
end

/-- The depth for one root field. -/
theorem field_fin {ix : Index} (hs : Sane ix) {vars : Vars} (f : Field QVal) {g0 : Field GVal}
    (hsh : ∀ a ∈ allArgs f, ArgShaped ix vars a) (hr : Resolved ix vars f g0) :
    ∃ n, ∀ m, n ≤ m → ∀ g, substField vars f = .ok g → resolveField m ix g ≠ none := by
  obtain ⟨n, hn⟩ := bound_list (fun (a : Arg QVal) m => ∀ v d, SubstOptR vars a.value v → SubstOptR vars a.dflt d →
    ∀ p q, parse m ix p q a.ty d v ≠ none) (allArgs f) (by
      intro a ha
      obtain ⟨b, _, _, hd, v, hv, hspec⟩ := resolved_args f hr a ha
      have hshd := (hsh a ha).2
      obtain ⟨n, hn⟩ := fin_of_argSpec hs (fun x hx => hshd x (hx ▸ hd)) hspec
      refine ⟨n, fun m hm v' d' hv' hd' p q => ?_⟩
      have e1 : v = v' := by
        have := (substOpt_complete hv).symm.trans (substOpt_complete hv'); injection this
      have e2 : b.dflt = d' := by
        have := (substOpt_complete hd).symm.trans (substOpt_complete hd'); injection this
      subst e1; subst e2
      exact hn m hm p q)
  refine ⟨n, fun m hm g hg hnone => ?_⟩
  obtain ⟨b, hb, field, h1⟩ := resolveField_none g hnone
  obtain ⟨a, ha, _, h2, h3, h4⟩ := substField_from f hg b hb
  rw [h2] at h1
  exact hn a ha m hm _ _ h3 h4 _ _ h1

/-- **C39** for operations, the other direction: an operation whose arguments all have a value by the rules
is accepted. -/
theorem C39_operation_accepted_partial {ix : Index} (hs : Sane ix) (vars : Vars) (fields : List (Field QVal))
    (hsh : ∀ a ∈ allArgsL fields, ArgShaped ix vars a) (out : List (Field GVal))
    (hl : fields.length = out.length) (h : ∀ p ∈ fields.zip out, Resolved ix vars p.1 p.2) :
    ∃ n out', resolveInput n ix vars fields = some (.ok out')
      ∧ ∀ p ∈ fields.zip out', Resolved ix vars p.1 p.2 := by
  have hfin : ∃ n, ∀ m, n ≤ m → resolveInput m ix vars fields ≠ none := by
    induction fields generalizing out with
    | nil => exact ⟨0, fun m _ h => by cases h⟩
    | cons f r ih =>
      cases out with
      | nil => simp at hl
      | cons o os =>
        obtain ⟨n1, h1⟩ := ih (fun a ha => hsh a (by simp [allArgsL, ha])) os (by simpa using hl)
          (fun p hp => h p (by rw [List.zip_cons_cons]; exact List.mem_cons_of_mem _ hp))
        obtain ⟨n2, h2⟩ := field_fin hs f (fun a ha => hsh a (by simp [allArgsL, ha])) (h (f, o) (by simp))
        refine ⟨max n1 n2, fun m hm hnone => ?_⟩
        unfold resolveInput at hnone
        split at hnone
        · cases hnone
        · rename_i g hg
          split at hnone
          · rename_i hr; exact h2 m (by omega) g hg hr
          · cases hnone
          · split at hnone
            · rename_i hr; exact h1 m (by omega) hr
            · cases hnone
            · cases hnone
  obtain ⟨n, hn⟩ := hfin
  have hne := hn n (Nat.le_refl _)
  cases hp : resolveInput n ix vars fields with
  | none => exact absurd hp hne
  | some x =>
    cases x with
    | error e =>
      obtain ⟨a, ha, hf⟩ := C39_operation_rejected_partial hs vars n fields hsh e hp
      obtain ⟨b, hb⟩ := resolved_argsL fields hl h a ha
      exact absurd hf (resolved_not_fails hb)
    | ok out' => exact ⟨n, out', hp, (C39_operation_partial hs vars n fields hsh out' hp).2⟩

/-- The plan has each argument of the schema once, with the value that the document gives. -/
theorem C39_plan_arguments (schema : List InField) (toQ : GVal → Option QVal) (given : List (Text × QVal))
    (hg : (given.map (·.1)).Nodup) :
    (planArgs schema toQ given).map (·.name) = schema.map (·.name)
    ∧ ∀ a ∈ planArgs schema toQ given,
        (∃ f ∈ schema, f.name = a.name ∧ f.ty = a.ty ∧ a.dflt = f.dflt.bind toQ)
        ∧ ∀ q, a.value = some q ↔ (a.name, q) ∈ given := by
  constructor
  · unfold planArgs; rw [List.map_map]; rfl
  · intro a ha
    unfold planArgs at ha
    obtain ⟨f, hf, rfl⟩ := List.mem_map.mp ha
    refine ⟨⟨f, hf, rfl, rfl, rfl⟩, fun q => ?_⟩
    simp only [Option.map_eq_some_iff]
    constructor
    · rintro ⟨⟨k, q'⟩, h1, h2⟩
      have h3 := List.find?_some h1
      have h4 := List.mem_of_find?_eq_some h1
      simp at h2 h3
      rw [h2, h3] at h4
      exact List.mem_reverse.mp h4
    · intro hq
      cases hf' : given.reverse.find? (fun p => p.1 == f.name) with
      | none =>
        rw [List.find?_eq_none] at hf'
        exact absurd (hf' _ (List.mem_reverse.mpr hq)) (by simp)
      | some p =>
        obtain ⟨k, q'⟩ := p
        have h3 := List.find?_some hf'
        have h4 := List.mem_reverse.mp (List.mem_of_find?_eq_some hf')
        simp at h3
        rw [h3] at h4
        have : ∀ (l : List (Text × QVal)), (l.map (·.1)).Nodup → ∀ {k q q'}, (k, q) ∈ l → (k, q') ∈ l → q = q' := by
          intro l hl
          induction l with
          | nil => intro k q q' h; cases h
          | cons p l ih =>
            intro k q q' h h'
            have hl' := List.nodup_cons.mp hl
            rcases List.mem_cons.mp h with h | h <;> rcases List.mem_cons.mp h' with h' | h'
            · rw [← h] at h'; injection h' with _ h'; exact h'.symm
            · exact absurd (List.mem_map.mpr ⟨_, h', rfl⟩) (by rw [← h] at hl'; exact hl'.1)
            · exact absurd (List.mem_map.mpr ⟨_, h, rfl⟩) (by rw [← h'] at hl'; exact hl'.1)
            · exact ih hl'.2 h h'
        exact ⟨_, rfl, this given hg h4 hq⟩

/-! ## Where the code does not follow the rules -/

/-- `input A { a: A = {} }`. -/
def selfIx : Index := fun n =>
  if n = ['A'] then some [⟨['a'], .named ['A'] false, some (.obj [])⟩] else none

/-- **C39 is violated** by an input type whose default contains itself: resolving an argument of this type
never ends (in the code, until the stack overflows). -/
theorem C39_violated_by_recursive_default (n : Nat) :
    parse n selfIx ['f'] ['x'] (.named ['A'] false) none (some (.obj [])) = none := by
  have key : ∀ (n : Nat) (p a : Text) (d : Option GVal),
      parse n selfIx p a (.named ['A'] false) d (some (.obj [])) = none := by
    intro n
    induction n with
    | zero => intros; rfl
    | succ n ih =>
      intro p a d
      unfold parse
      simp [choose, Ty.isNullable, selfIx, Ty.name, fieldsLoop, getKey]
      rw [parse_default (by intro h; cases h), ih]
      rfl
  exact key n _ _ _

/-- `input B { n: Int!, s: String = "d", c: C = {} }` and `input C { k: Int = 7 }`. -/
def demoIx : Index := fun n =>
  if n = ['B'] then some [⟨['n'], .named ['I'] true, none⟩, ⟨['s'], .named ['S'] false, some (.str ['d'])⟩,
    ⟨['c'], .named ['C'] false, some (.obj [])⟩]
  else if n = ['C'] then some [⟨['k'], .named ['I'] false, some (.int 7)⟩]
  else none

/-- **C39 is violated** by a variable that was not provided: the operation is rejected although the argument
has a default and is nullable, and the rules take it for absent. -/
theorem C39_violated_by_omitted_variable :
    ∃ a : Arg QVal, a.value = some (.var ['v'])
      ∧ resolveInput 5 demoIx (fun _ => none) [.mk ['f'] [a] []] = some (.error (.variableIsNotFound ['v']))
      ∧ ArgSpec demoIx a.ty (some (.int 3)) none (some (.int 3)) :=
  ⟨⟨['x'], .named ['I'] false, some (.var ['v']), some (.int 3)⟩, rfl, rfl, .int 3, rfl, .leaf rfl (by simp)⟩

/-- **C39 is violated** by null in a list of non-null scalars: it is accepted. -/
theorem C39_violated_by_null_scalar_item :
    parse 5 demoIx ['f'] ['x'] (.list (.named ['I'] true) true) none (some (.list [.null]))
      = some (.ok (some (.list [.null])))
    ∧ ¬ ∃ out, ArgSpec demoIx (.list (.named ['I'] true) true) none (some (.list [.null])) out := by
  refine ⟨rfl, ?_⟩
  rintro ⟨o, r, _, hr⟩
  cases hr with
  | list hl hz =>
    rename_i rs _
    match rs, hl with
    | [r], _ =>
      have := hz (.null, r) (by simp)
      cases this with
      | null h => exact h rfl
      | leaf _ h => exact h rfl

/-- **C39 is violated** by null in a nullable list of non-null input objects: it is accepted. -/
theorem C39_violated_by_null_object_item :
    parse 5 demoIx ['f'] ['x'] (.list (.named ['C'] true) false) none (some (.list [.null]))
      = some (.ok (some (.list [.null])))
    ∧ ¬ ∃ out, ArgSpec demoIx (.list (.named ['C'] true) false) none (some (.list [.null])) out := by
  refine ⟨rfl, ?_⟩
  rintro ⟨o, r, _, hr⟩
  cases hr with
  | list hl hz =>
    rename_i rs _
    match rs, hl with
    | [r], _ =>
      have := hz (.null, r) (by simp)
      cases this with
      | null h => exact h rfl
      | leaf _ h => exact h rfl

/-- **C39 is violated** by null in a non-null list of nullable input objects: it is rejected. -/
theorem C39_violated_by_nullable_object_item :
    parse 5 demoIx ['f'] ['x'] (.list (.named ['C'] false) true) none (some (.list [.null]))
      = some (.error (.argumentIsRequired ['0'] ['f', '.', 'x', '.', '0']))
    ∧ ArgSpec demoIx (.list (.named ['C'] false) true) none (some (.list [.null])) (some (.list [.null])) := by
  refine ⟨by rfl, _, rfl, .list rfl ?_⟩
  intro p hp
  simp at hp; subst hp
  exact .null (by simp [NonNull])

/-- **C39 is violated** by a null default of a non-null argument: the argument is null. -/
theorem C39_violated_by_null_default :
    parse 5 demoIx ['f'] ['x'] (.named ['I'] true) (some .null) none = some (.ok (some .null))
    ∧ ¬ ∃ out, ArgSpec demoIx (.named ['I'] true) (some .null) none out := by
  refine ⟨rfl, ?_⟩
  rintro ⟨o, r, _, hr⟩
  cases hr with
  | null h => exact h rfl
  | leaf _ h => exact h rfl

/-- **C39 is violated** by a scalar given for an input object: it is accepted, and its required fields are
missing. -/
theorem C39_violated_by_scalar_for_object :
    parse 5 demoIx ['f'] ['x'] (.named ['B'] true) none (some (.int 1)) = some (.ok (some (.int 1)))
    ∧ ¬ ∃ out, ArgSpec demoIx (.named ['B'] true) none (some (.int 1)) out := by
  refine ⟨rfl, ?_⟩
  rintro ⟨o, r, _, hr⟩
  cases hr with
  | leaf h _ => cases h

/-- **C39 is violated** by an argument that the schema does not have: it is dropped without an error. -/
theorem C39_violated_by_unknown_argument (schema : List InField) (toQ : GVal → Option QVal)
    (given : List (Text × QVal)) (k : Text) (q : QVal) (hk : ∀ f ∈ schema, f.name ≠ k) :
    planArgs schema toQ ((k, q) :: given) = planArgs schema toQ given := by
  unfold planArgs
  refine List.map_congr_left (fun f hf => ?_)
  have : (k == f.name) = false := by simpa using fun h => hk f hf h.symm
  rw [List.reverse_cons, List.find?_append]
  simp [this]

/-! ## Concrete cases -/

theorem demo_sane : Sane demoIx := by
  intro name fs h
  unfold demoIx at h
  split at h
  · injection h with h; subst h
    refine ⟨by decide, ?_⟩
    intro f hf d hd
    simp only [List.mem_cons, List.not_mem_nil, or_false] at hf
    rcases hf with rfl | rfl | rfl
    · cases hd
    · injection hd with hd; subst hd
      exact ⟨.leaf rfl (by simp), by simp⟩
    · injection hd with hd; subst hd
      refine ⟨.obj (fs := [⟨['k'], .named ['I'] false, some (.int 7)⟩]) rfl ?_, by simp⟩
      intro f hf w hw
      simp [At] at hw
  · split at h
    · injection h with h; subst h
      refine ⟨by decide, ?_⟩
      intro f hf d hd
      simp only [List.mem_cons, List.not_mem_nil, or_false] at hf
      subst hf
      injection hd with hd; subst hd
      exact ⟨.leaf rfl (by simp), by simp⟩
    · cases h

/-- A list of input objects, one of them with an unset field of its own. -/
def demoVal : GVal := .list [.obj [(['n'], .int 1)], .obj [(['n'], .int 2), (['c'], .null), (['z'], .int 0)]]

theorem demo_shaped : ShapedArg demoIx (.list (.named ['B'] true) true) demoVal := by
  refine .list ?_
  intro v hv
  simp only [demoVal, List.mem_cons, List.not_mem_nil, or_false] at hv
  rcases hv with rfl | rfl
  · refine .obj rfl ?_
    intro f hf w hw
    simp only [List.mem_cons, List.not_mem_nil, or_false] at hf
    rcases hf with rfl | rfl | rfl
    · simp [At] at hw; subst hw; exact .leaf rfl (by simp)
    · simp [At] at hw
    · simp [At] at hw
  · refine .obj rfl ?_
    intro f hf w hw
    simp only [List.mem_cons, List.not_mem_nil, or_false] at hf
    rcases hf with rfl | rfl | rfl
    · simp [At] at hw; subst hw; exact .leaf rfl (by simp)
    · simp [At] at hw
    · simp [At] at hw; subst hw; exact .null (by simp [NonNull, Ty.isNullable])

/-- Defaults are filled in at every depth, also in defaults. -/
example : parse 9 demoIx ['f'] ['x'] (.list (.named ['B'] true) true) none (some demoVal)
    = some (.ok (some (.list [
        .obj [(['n'], .int 1), (['s'], .str ['d']), (['c'], .obj [(['k'], .int 7)])],
        .obj [(['n'], .int 2), (['c'], .null), (['z'], .int 0), (['s'], .str ['d'])]]))) := by rfl

example : ∃ out, ArgSpec demoIx (.list (.named ['B'] true) true) none (some demoVal) out :=
  ⟨_, C39_argument_partial demo_sane 9 ['f'] ['x'] _ none (some demoVal) _ (by simp)
    (fun x hx => by injection hx with hx; subst hx; exact demo_shaped) rfl⟩

/-- A required field deep inside is missing. -/
example : parse 9 demoIx ['f'] ['x'] (.named ['B'] true) none (some (.obj [(['s'], .int 1)]))
    = some (.error (.argumentIsRequired ['n'] ['f', '.', 'x'])) := by rfl

/-- An operation with a variable inside an input object, below a field without arguments. -/
def demoField : Field QVal :=
  .mk ['r'] [] [.mk ['f'] [⟨['x'], .named ['B'] true, some (.obj [(['n'], .var ['v'])]), none⟩] []]

theorem demoField_shaped : ∀ a ∈ allArgsL [demoField], ArgShaped demoIx (fun _ => some (.int 4)) a := by
  intro a ha
  simp [allArgsL, allArgs, demoField] at ha
  subst ha
  refine ⟨fun v hv => ?_, fun d hd => by simp [SubstOptR] at hd⟩
  obtain ⟨w, hw, hr⟩ := hv
  injection hw with hw; subst hw
  have hr := subst_complete hr
  simp [subst, substObj] at hr
  subst hr
  refine .obj rfl ?_
  intro f hf w hw
  simp only [List.mem_cons, List.not_mem_nil, or_false] at hf
  rcases hf with rfl | rfl | rfl
  · simp [At] at hw; subst hw; exact .leaf rfl (by simp)
  · simp [At] at hw
  · simp [At] at hw

example : ∃ out, resolveInput 9 demoIx (fun _ => some (.int 4)) [demoField] = some (.ok out)
    ∧ ∀ p ∈ [demoField].zip out, Resolved demoIx (fun _ => some (.int 4)) p.1 p.2 :=
  ⟨_, rfl, (C39_operation_partial demo_sane _ 9 [demoField] demoField_shaped _ rfl).2⟩

example : ∃ e, resolveInput 9 demoIx (fun _ => none) [demoField] = some (.error e) := ⟨_, rfl⟩

example : ∃ n out', resolveInput n demoIx (fun _ => some (.int 4)) [demoField] = some (.ok out')
    ∧ ∀ p ∈ [demoField].zip out', Resolved demoIx (fun _ => some (.int 4)) p.1 p.2 :=
  C39_operation_accepted_partial demo_sane _ [demoField] demoField_shaped _ rfl
    (C39_operation_partial demo_sane _ 9 [demoField] demoField_shaped _ rfl).2

/-- `input T { t: T, k: [Int] = [7] }`: a recursive type, but no recursive default. -/
def treeIx : Index := fun n =>
  if n = ['T'] then some [⟨['t'], .named ['T'] false, none⟩, ⟨['k'], .list (.named ['I'] false) false, some (.list [.int 7])⟩]
  else none

example (v : GVal) : ∃ n x, ∀ m, n ≤ m →
    parse m treeIx ['f'] ['x'] (.named ['T'] true) none (some v) = some x := by
  refine C39_terminates_partial ?_ ?_ _ _ _ _ _ (by simp)
  · intro name fs h
    unfold treeIx at h
    split at h
    · injection h with h; subst h; decide
    · cases h
  · intro name fs h f hf d hd
    unfold treeIx at h
    split at h
    · injection h with h; subst h
      simp only [List.mem_cons, List.not_mem_nil, or_false] at hf
      rcases hf with rfl | rfl
      · cases hd
      · injection hd with hd; subst hd
        refine ⟨.list ?_, by simp⟩
        intro v hv
        simp at hv; subst hv
        exact .plain (by simp) (by simp)
    · cases h

end Verif.Input
