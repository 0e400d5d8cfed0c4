import Verif.Input.Term

/-! # Property C39: argument resolution follows the GraphQL input rules -/

set_option linter.unusedSimpArgs false
set_option linter.unusedVariables false

namespace Verif.Input

open Verif.Mustache (Text)
open Verif.HttpUrl (GVal intText)
open Verif.Exec (Ty)

/-! ## One argument -/

theorem shapedDefault_arg {ix : Index} {ty : Ty} {d : GVal} (h : ShapedDefault ix ty d) : ShapedArg ix ty d := h.1

theorem arg_both {ix : Index} (hs : Sane ix) (n : Nat) (p a : Text) (ty : Ty) (d v : Option GVal)
    (hd : ∀ x, d = some x → ShapedDefault ix ty x) (hv : ∀ x, v = some x → ShapedArg ix ty x) :
    (∀ o, parse n ix p a ty d v = some (.ok o) → ArgSpec ix ty d v o)
    ∧ (∀ e, parse n ix p a ty d v = some (.error e) → ∀ o, ¬ ArgSpec ix ty d v o) := by
  cases v with
  | some w =>
    obtain ⟨h1, h2⟩ := parse_spec hs n p a ty ty d w rfl (hv w rfl)
    refine ⟨fun o ho => ?_, fun e he o ho => ?_⟩
    · unfold ArgSpec; exact h1 o ho
    · unfold ArgSpec at ho
      obtain ⟨r, _, hr⟩ := ho
      exact h2 e he r hr
  | none =>
    cases d with
    | some x =>
      obtain ⟨hd1, hd2⟩ := hd x rfl
      rw [parse_default hd2]
      obtain ⟨h1, h2⟩ := parse_spec hs n p a ty ty (some x) x rfl hd1
      refine ⟨fun o ho => ?_, fun e he o ho => ?_⟩
      · unfold ArgSpec; exact h1 o ho
      · unfold ArgSpec at ho
        obtain ⟨r, _, hr⟩ := ho
        exact h2 e he r hr
    | none =>
      cases n with
      | zero => simp [parse]
      | succ n =>
        unfold parse choose
        simp only []
        by_cases hn : ty.isNullable = true
        · simp [hn]
          exact ⟨(fun hc => by rw [nonNull_iff, hn] at hc; cases hc), rfl⟩
        · simp [hn]
          intro o ho
          exact ho.1 ((nonNull_iff _).mpr (by simpa using hn))

/-- **C39**, one argument: a resolved argument is the given value, or the default if it is absent, with the
defaults of input objects filled in at every depth.  Partial: for values as in `Shaped`, see the
violations below. -/
theorem C39_argument_partial {ix : Index} (hs : Sane ix) (n : Nat) (field arg : Text) (ty : Ty)
    (dflt given out : Option GVal) (hd : ∀ x, dflt = some x → ShapedDefault ix ty x)
    (hv : ∀ x, given = some x → ShapedArg ix ty x)
    (h : parse n ix field arg ty dflt given = some (.ok out)) : ArgSpec ix ty dflt given out :=
  (arg_both hs n field arg ty dflt given hd hv).1 out h

/-- **C39**, rejection: an argument is rejected only if the rules give no value for it, such as for a missing
or null non-null argument or field.  Partial: as above. -/
theorem C39_rejected_partial {ix : Index} (hs : Sane ix) (n : Nat) (field arg : Text) (ty : Ty)
    (dflt given : Option GVal) (hd : ∀ x, dflt = some x → ShapedDefault ix ty x)
    (hv : ∀ x, given = some x → ShapedArg ix ty x) (e : Err)
    (h : parse n ix field arg ty dflt given = some (.error e)) : ¬ ∃ out, ArgSpec ix ty dflt given out :=
  fun ⟨o, ho⟩ => (arg_both hs n field arg ty dflt given hd hv).2 e h o ho

/-- The depth that an argument needs. -/
theorem parse_fin {ix : Index} {ty : Ty} {d v : Option GVal} (hd : ∀ x, d = some x → x = .null → ¬ NonNull ty)
    (hv : ∀ x, v = some x → Fin ix ty.name x) (hdf : v = none → ∀ x, d = some x → Fin ix ty.name x) :
    ∃ n, ∀ m, n ≤ m → ∀ p a, parse m ix p a ty d v ≠ none := by
  cases v with
  | some w =>
    obtain ⟨n, hn⟩ := hv w rfl
    exact ⟨n, fun m hm p a => hn m hm p a ty d rfl⟩
  | none =>
    cases d with
    | some x =>
      obtain ⟨n, hn⟩ := hdf rfl x rfl
      exact ⟨n, fun m hm p a => by rw [parse_default (hd x rfl)]; exact hn m hm p a ty _ rfl⟩
    | none =>
      refine ⟨1, fun m hm p a hp => ?_⟩
      obtain ⟨k, rfl⟩ : ∃ k, m = k + 1 := ⟨m - 1, by omega⟩
      unfold parse choose at hp
      simp only [] at hp
      by_cases hnl : ty.isNullable = true
      · simp [hnl] at hp
      · simp [hnl] at hp

theorem fin_of_argSpec {ix : Index} (hs : Sane ix) {ty : Ty} {d v o : Option GVal}
    (hd : ∀ x, d = some x → ShapedDefault ix ty x) (h : ArgSpec ix ty d v o) :
    ∃ n, ∀ m, n ≤ m → ∀ p a, parse m ix p a ty d v ≠ none := by
  refine parse_fin (fun x hx => (hd x hx).2) ?_ ?_
  · intro x hx; subst hx
    unfold ArgSpec at h
    obtain ⟨r, _, hr⟩ := h
    exact fin_of_good hs hr
  · intro hv x hx; subst hv; subst hx
    unfold ArgSpec at h
    obtain ⟨r, _, hr⟩ := h
    exact fin_of_good hs hr

/-- **C39**, the other direction: an argument that the rules accept is accepted, and resolved within finitely
many steps. -/
theorem C39_accepted_partial {ix : Index} (hs : Sane ix) (field arg : Text) (ty : Ty)
    (dflt given : Option GVal) (hd : ∀ x, dflt = some x → ShapedDefault ix ty x)
    (hv : ∀ x, given = some x → ShapedArg ix ty x) (h : ∃ out, ArgSpec ix ty dflt given out) :
    ∃ n out, parse n ix field arg ty dflt given = some (.ok out) ∧ ArgSpec ix ty dflt given out := by
  obtain ⟨o, ho⟩ := h
  obtain ⟨n, hn⟩ := fin_of_argSpec hs hd ho
  have hne := hn n (Nat.le_refl _) field arg
  obtain ⟨h1, h2⟩ := arg_both hs n field arg ty dflt given hd hv
  cases hp : parse n ix field arg ty dflt given with
  | none => exact absurd hp hne
  | some x =>
    cases x with
    | error e => exact absurd ho (h2 e hp o)
    | ok out => exact ⟨n, out, hp, h1 out hp⟩

/-- **C39**, termination: if no default of an input type contains an object, every argument is resolved or
rejected within finitely many steps, whatever was given. -/
theorem C39_terminates_partial {ix : Index}
    (hn : ∀ name fs, ix name = some fs → (fs.map (·.name)).Nodup)
    (hd : ∀ name fs, ix name = some fs → ∀ f ∈ fs, ∀ d, f.dflt = some d →
      Flat d ∧ (d = .null → ¬ NonNull f.ty))
    (field arg : Text) (ty : Ty) (dflt given : Option GVal)
    (hdn : ∀ x, dflt = some x → x = .null → ¬ NonNull ty) :
    ∃ n x, ∀ m, n ≤ m → parse m ix field arg ty dflt given = some x := by
  obtain ⟨n, h⟩ := parse_fin (ix := ix) (ty := ty) (d := dflt) (v := given) hdn
    (fun x _ => fin_all hn hd _ x _ (Nat.lt_succ_self _)) (fun _ x _ => fin_all hn hd _ x _ (Nat.lt_succ_self _))
  have := h n (Nat.le_refl _) field arg
  cases hp : parse n ix field arg ty dflt given with
  | none => exact absurd hp this
  | some x => exact ⟨n, x, fun m hm => parse_mono_le hm hp⟩

/-! ## Whole operations -/

/-- `SubstR vars q v`: `v` is the value `q` of the document with every variable replaced by its value. -/
inductive SubstR (vars : Vars) : QVal → GVal → Prop
  | var {n v} (h : vars n = some v) : SubstR vars (.var n) v
  | null : SubstR vars .null .null
  | bool (b) : SubstR vars (.bool b) (.bool b)
  | int (b) : SubstR vars (.int b) (.int b)
  | float (b) : SubstR vars (.float b) (.float b)
  | str (b) : SubstR vars (.str b) (.str b)
  | enum (b) : SubstR vars (.enum b) (.enum b)
  | list {qs vs} (hl : qs.length = vs.length) (h : ∀ p ∈ qs.zip vs, SubstR vars p.1 p.2) :
      SubstR vars (.list qs) (.list vs)
  | obj {qs vs} (hk : qs.map (·.1) = vs.map (·.1))
      (h : ∀ p ∈ qs.zip vs, SubstR vars p.1.2 p.2.2) : SubstR vars (.obj qs) (.obj vs)

/-- A variable occurs in a value. -/
inductive Uses (x : Text) : QVal → Prop
  | var : Uses x (.var x)
  | list {qs q} (h : q ∈ qs) (hq : Uses x q) : Uses x (.list qs)
  | obj {qs k q} (h : (k, q) ∈ qs) (hq : Uses x q) : Uses x (.obj qs)

mutual
theorem subst_spec (vars : Vars) (q : QVal) :
    (∀ v, subst vars q = .ok v → SubstR vars q v)
    ∧ (∀ e, subst vars q = .error e → ∃ x, e = .variableIsNotFound x ∧ Uses x q ∧ vars x = none) := by
  match q with
  | .var n =>
    unfold subst
    cases hv : vars n with
    | some v => exact ⟨fun w hw => by injection hw with hw; subst hw; exact .var hv, fun e he => by cases he⟩
    | none =>
      refine ⟨(fun w hw => by cases hw), fun e he => ?_⟩
      injection he with he
      exact ⟨n, he.symm, .var, hv⟩
  | .null => exact ⟨fun w hw => by injection hw with hw; subst hw; exact .null, fun e he => by cases he⟩
  | .bool b => exact ⟨fun w hw => by injection hw with hw; subst hw; exact .bool b, fun e he => by cases he⟩
  | .int b => exact ⟨fun w hw => by injection hw with hw; subst hw; exact .int b, fun e he => by cases he⟩
  | .float b => exact ⟨fun w hw => by injection hw with hw; subst hw; exact .float b, fun e he => by cases he⟩
  | .str b => exact ⟨fun w hw => by injection hw with hw; subst hw; exact .str b, fun e he => by cases he⟩
  | .enum b => exact ⟨fun w hw => by injection hw with hw; subst hw; exact .enum b, fun e he => by cases he⟩
  | .list l =>
    obtain ⟨h1, h2⟩ := substList_spec vars l
    unfold subst
    cases hl : substList vars l with
    | ok vs =>
      refine ⟨fun w hw => ?_, fun e he => by cases he⟩
      injection hw with hw; subst hw
      obtain ⟨h3, h4⟩ := h1 vs hl
      exact .list h3 h4
    | error e =>
      refine ⟨(fun w hw => by cases hw), fun e' he => ?_⟩
      injection he with he; subst he
      obtain ⟨x, hx, ⟨q, hq, hu⟩, hv⟩ := h2 e hl
      exact ⟨x, hx, .list hq hu, hv⟩
  | .obj l =>
    obtain ⟨h1, h2⟩ := substObj_spec vars l
    unfold subst
    cases hl : substObj vars l with
    | ok vs =>
      refine ⟨fun w hw => ?_, fun e he => by cases he⟩
      injection hw with hw; subst hw
      obtain ⟨h3, h4⟩ := h1 vs hl
      exact .obj h3 h4
    | error e =>
      refine ⟨(fun w hw => by cases hw), fun e' he => ?_⟩
      injection he with he; subst he
      obtain ⟨x, hx, ⟨k, q, hq, hu⟩, hv⟩ := h2 e hl
      exact ⟨x, hx, .obj hq hu, hv⟩

theorem substList_spec (vars : Vars) (l : List QVal) :
    (∀ vs, substList vars l = .ok vs → l.length = vs.length ∧ ∀ p ∈ l.zip vs, SubstR vars p.1 p.2)
    ∧ (∀ e, substList vars l = .error e →
        ∃ x, e = .variableIsNotFound x ∧ (∃ q ∈ l, Uses x q) ∧ vars x = none) := by
  match l with
  | [] =>
    refine ⟨fun vs h => ?_, fun e he => by cases he⟩
    injection h with h; subst h; simp
  | q :: r =>
    obtain ⟨h1, h2⟩ := subst_spec vars q
    obtain ⟨h3, h4⟩ := substList_spec vars r
    unfold substList
    cases hq : subst vars q with
    | error e =>
      refine ⟨(fun vs h => by cases h), fun e' he => ?_⟩
      injection he with he; subst he
      obtain ⟨x, hx, hu, hv⟩ := h2 e hq
      exact ⟨x, hx, ⟨q, List.mem_cons_self .., hu⟩, hv⟩
    | ok v =>
      simp only []
      cases hr : substList vars r with
      | error e =>
        refine ⟨(fun vs h => by cases h), fun e' he => ?_⟩
        injection he with he; subst he
        obtain ⟨x, hx, ⟨q', hq', hu⟩, hv⟩ := h4 e hr
        exact ⟨x, hx, ⟨q', List.mem_cons_of_mem _ hq', hu⟩, hv⟩
      | ok vs =>
        refine ⟨fun ws h => ?_, fun e' he => by cases he⟩
        injection h with h; subst h
        obtain ⟨h5, h6⟩ := h3 vs hr
        refine ⟨by simp [h5], ?_⟩
        intro p hp
        rw [List.zip_cons_cons] at hp
        rcases List.mem_cons.mp hp with rfl | hp
        · exact h1 v hq
        · exact h6 p hp

theorem substObj_spec (vars : Vars) (l : List (Text × QVal)) :
    (∀ vs, substObj vars l = .ok vs → l.map (·.1) = vs.map (·.1) ∧ ∀ p ∈ l.zip vs, SubstR vars p.1.2 p.2.2)
    ∧ (∀ e, substObj vars l = .error e →
        ∃ x, e = .variableIsNotFound x ∧ (∃ k q, (k, q) ∈ l ∧ Uses x q) ∧ vars x = none) := by
  match l with
  | [] =>
    refine ⟨fun vs h => ?_, fun e he => by cases he⟩
    injection h with h; subst h; simp
  | (k, q) :: r =>
    obtain ⟨h1, h2⟩ := subst_spec vars q
    obtain ⟨h3, h4⟩ := substObj_spec vars r
    unfold substObj
    cases hq : subst vars q with
    | error e =>
      refine ⟨(fun vs h => by cases h), fun e' he => ?_⟩
      injection he with he; subst he
      obtain ⟨x, hx, hu, hv⟩ := h2 e hq
      exact ⟨x, hx, ⟨k, q, List.mem_cons_self .., hu⟩, hv⟩
    | ok v =>
      simp only []
      cases hr : substObj vars r with
      | error e =>
        refine ⟨(fun vs h => by cases h), fun e' he => ?_⟩
        injection he with he; subst he
        obtain ⟨x, hx, ⟨k', q', hq', hu⟩, hv⟩ := h4 e hr
        exact ⟨x, hx, ⟨k', q', List.mem_cons_of_mem _ hq', hu⟩, hv⟩
      | ok vs =>
        refine ⟨fun ws h => ?_, fun e' he => by cases he⟩
        injection h with h; subst h
        obtain ⟨h5, h6⟩ := h3 vs hr
        refine ⟨by simp [h5], ?_⟩
        intro p hp
        rw [List.zip_cons_cons] at hp
        rcases List.mem_cons.mp hp with rfl | hp
        · exact h1 v hq
        · exact h6 p hp
end

/-- An argument value of the document with its variables replaced; an argument without a value has none. -/
def SubstOptR (vars : Vars) : Option QVal → Option GVal → Prop
  | none, o => o = none
  | some q, o => ∃ v, o = some v ∧ SubstR vars q v

/-- A resolved argument: its name and type, and the value that the rules give. -/
def ArgResolved (ix : Index) (vars : Vars) (a : Arg QVal) (b : Arg GVal) : Prop :=
  b.name = a.name ∧ b.ty = a.ty ∧ SubstOptR vars a.dflt b.dflt
    ∧ ∃ given, SubstOptR vars a.value given ∧ ArgSpec ix a.ty b.dflt given b.value

/-- A field of the plan and the same field with all its arguments, and those of the fields below it,
resolved. -/
inductive Resolved (ix : Index) (vars : Vars) : Field QVal → Field GVal → Prop
  | mk {name args args' sub sub'} (ha : args.length = args'.length)
      (h : ∀ p ∈ args.zip args', ArgResolved ix vars p.1 p.2) (hs : sub.length = sub'.length)
      (h' : ∀ p ∈ sub.zip sub', Resolved ix vars p.1 p.2) :
      Resolved ix vars (.mk name args sub) (.mk name args' sub')

mutual
/-- All arguments of a field and the fields below it. -/
def allArgs {V : Type} : Field V → List (Arg V)
  | .mk _ args sub => args ++ allArgsL sub
/-- All arguments of some fields and the fields below them. -/
def allArgsL {V : Type} : List (Field V) → List (Arg V)
  | [] => []
  | f :: r => allArgs f ++ allArgsL r
end

/-- An argument of the document whose values are as in `Shaped`. -/
def ArgShaped (ix : Index) (vars : Vars) (a : Arg QVal) : Prop :=
  (∀ v, SubstOptR vars a.value (some v) → ShapedArg ix a.ty v)
    ∧ ∀ d, SubstOptR vars a.dflt (some d) → ShapedDefault ix a.ty d

/-- An error of an argument: an unknown variable is used, or the rules give no value. -/
def ArgFails (ix : Index) (vars : Vars) (a : Arg QVal) (e : Err) : Prop :=
  (∃ x q, e = .variableIsNotFound x ∧ (a.value = some q ∨ a.dflt = some q) ∧ Uses x q ∧ vars x = none)
    ∨ ∃ given dflt, SubstOptR vars a.value given ∧ SubstOptR vars a.dflt dflt
        ∧ ¬ ∃ out, ArgSpec ix a.ty dflt given out

theorem substOpt_ok {vars : Vars} {q : Option QVal} {v : Option GVal} (h : substOpt vars q = .ok v) :
    SubstOptR vars q v := by
  cases q with
  | none => injection h with h; exact h.symm
  | some q =>
    unfold substOpt at h
    cases hq : subst vars q with
    | error e => simp only [hq] at h; cases h
    | ok w => simp only [hq] at h; injection h with h; exact ⟨w, h.symm, (subst_spec vars q).1 w hq⟩

theorem substOpt_err {vars : Vars} {q : Option QVal} {e : Err} (h : substOpt vars q = .error e) :
    ∃ x q', e = .variableIsNotFound x ∧ q = some q' ∧ Uses x q' ∧ vars x = none := by
  cases q with
  | none => cases h
  | some q =>
    unfold substOpt at h
    cases hq : subst vars q with
    | error e' =>
      simp only [hq] at h; injection h with h; subst h
      obtain ⟨x, hx, hu, hv⟩ := (subst_spec vars q).2 e' hq
      exact ⟨x, q, hx, rfl, hu, hv⟩
    | ok w => simp only [hq] at h; cases h

/-- The first stage for an argument. -/
def ArgSubst (vars : Vars) (a : Arg QVal) (b : Arg GVal) : Prop :=
  b.name = a.name ∧ b.ty = a.ty ∧ SubstOptR vars a.value b.value ∧ SubstOptR vars a.dflt b.dflt

theorem substArg_ok {vars : Vars} {a : Arg QVal} {b : Arg GVal} (h : substArg vars a = .ok b) :
    ArgSubst vars a b := by
  unfold substArg at h
  split at h
  · cases h
  · rename_i v hv
    split at h
    · cases h
    · rename_i d hd
      injection h with h; subst h
      exact ⟨rfl, rfl, substOpt_ok hv, substOpt_ok hd⟩

theorem substArg_err {ix : Index} {vars : Vars} {a : Arg QVal} {e : Err} (h : substArg vars a = .error e) :
    ArgFails ix vars a e := by
  unfold substArg at h
  split at h
  · rename_i e' he
    injection h with h; subst h
    obtain ⟨x, q, h1, h2, h3, h4⟩ := substOpt_err he
    exact .inl ⟨x, q, h1, .inl h2, h3, h4⟩
  · split at h
    · rename_i e' he
      injection h with h; subst h
      obtain ⟨x, q, h1, h2, h3, h4⟩ := substOpt_err he
      exact .inl ⟨x, q, h1, .inr h2, h3, h4⟩
    · cases h

theorem substArgs_ok {vars : Vars} : ∀ {as : List (Arg QVal)} {bs : List (Arg GVal)},
    substArgs vars as = .ok bs → as.length = bs.length ∧ ∀ p ∈ as.zip bs, ArgSubst vars p.1 p.2
  | [], bs, h => by injection h with h; subst h; simp
  | a :: as, bs, h => by
    unfold substArgs at h
    split at h
    · cases h
    · rename_i b hb
      split at h
      · cases h
      · rename_i bs' hbs
        injection h with h; subst h
        obtain ⟨h1, h2⟩ := substArgs_ok hbs
        refine ⟨by simp [h1], ?_⟩
        intro p hp
        rw [List.zip_cons_cons] at hp
        rcases List.mem_cons.mp hp with rfl | hp
        · exact substArg_ok hb
        · exact h2 p hp

theorem substArgs_err {ix : Index} {vars : Vars} : ∀ {as : List (Arg QVal)} {e : Err},
    substArgs vars as = .error e → ∃ a ∈ as, ArgFails ix vars a e
  | [], e, h => by cases h
  | a :: as, e, h => by
    unfold substArgs at h
    split at h
    · rename_i e' he
      injection h with h; subst h
      exact ⟨a, List.mem_cons_self .., substArg_err he⟩
    · split at h
      · rename_i e' he
        injection h with h; subst h
        obtain ⟨b, hb, h1⟩ := substArgs_err (ix := ix) he
        exact ⟨b, List.mem_cons_of_mem _ hb, h1⟩
      · cases h

theorem resolveArgs_ok {ix : Index} (hs : Sane ix) {vars : Vars} {n : Nat} {field : Text} :
    ∀ {as : List (Arg QVal)} {bs cs : List (Arg GVal)}, (∀ a ∈ as, ArgShaped ix vars a) →
    as.length = bs.length → (∀ p ∈ as.zip bs, ArgSubst vars p.1 p.2) →
    resolveArgs n ix field bs = some (.ok cs) →
    as.length = cs.length ∧ ∀ p ∈ as.zip cs, ArgResolved ix vars p.1 p.2
  | [], [], cs, _, _, _, h => by injection h with h; injection h with h; subst h; simp
  | a :: as, b :: bs, cs, hsh, hl, hz, h => by
    unfold resolveArgs at h
    obtain ⟨s1, s2, s3, s4⟩ := hz (a, b) (by simp)
    split at h
    · cases h
    · cases h
    · rename_i v hv
      split at h
      · cases h
      · cases h
      · rename_i cs' hcs
        injection h with h; injection h with h; subst h
        obtain ⟨h1, h2⟩ := resolveArgs_ok hs (as := as) (fun a ha => hsh a (List.mem_cons_of_mem _ ha))
          (by simpa using hl) (fun p hp => hz p (by rw [List.zip_cons_cons]; exact List.mem_cons_of_mem _ hp)) hcs
        refine ⟨by simp [h1], ?_⟩
        intro p hp
        rw [List.zip_cons_cons] at hp
        rcases List.mem_cons.mp hp with rfl | hp
        · obtain ⟨q1, q2⟩ := hsh a (List.mem_cons_self ..)
          simp only [] at s1 s2 s3 s4
          rw [s2] at hv
          refine ⟨s1, s2, s4, b.value, s3, ?_⟩
          exact (arg_both hs n _ _ a.ty b.dflt b.value (fun x hx => q2 x (hx ▸ s4)) (fun x hx => q1 x (hx ▸ s3))).1 _ hv
        · exact h2 p hp

theorem resolveArgs_err {ix : Index} (hs : Sane ix) {vars : Vars} {n : Nat} {field : Text} :
    ∀ {as : List (Arg QVal)} {bs : List (Arg GVal)} {e : Err}, (∀ a ∈ as, ArgShaped ix vars a) →
    as.length = bs.length → (∀ p ∈ as.zip bs, ArgSubst vars p.1 p.2) →
    resolveArgs n ix field bs = some (.error e) → ∃ a ∈ as, ArgFails ix vars a e
  | [], [], e, _, _, _, h => by cases h
  | a :: as, b :: bs, e, hsh, hl, hz, h => by
    unfold resolveArgs at h
    obtain ⟨s1, s2, s3, s4⟩ := hz (a, b) (by simp)
    obtain ⟨q1, q2⟩ := hsh a (List.mem_cons_self ..)
    split at h
    · cases h
    · rename_i e' he
      injection h with h; injection h with h; subst h
      simp only [] at s1 s2 s3 s4
      rw [s2] at he
      refine ⟨a, List.mem_cons_self .., .inr ⟨b.value, b.dflt, s3, s4, ?_⟩⟩
      rintro ⟨o, ho⟩
      exact (arg_both hs n _ _ a.ty b.dflt b.value (fun x hx => q2 x (hx ▸ s4)) (fun x hx => q1 x (hx ▸ s3))).2 _ he o ho
    · split at h
      · cases h
      · rename_i e' he
        injection h with h; injection h with h; subst h
        obtain ⟨c, hc, h1⟩ := resolveArgs_err hs (as := as) (fun a ha => hsh a (List.mem_cons_of_mem _ ha))
          (by simpa using hl) (fun p hp => hz p (by rw [List.zip_cons_cons]; exact List.mem_cons_of_mem _ hp)) he
        exact ⟨c, List.mem_cons_of_mem _ hc, h1⟩
      · cases h

mutual
theorem field_spec {ix : Index} (hs : Sane ix) {vars : Vars} {n : Nat} (f : Field QVal)
    (hsh : ∀ a ∈ allArgs f, ArgShaped ix vars a) :
    (∀ e, substField vars f = .error e → ∃ a ∈ allArgs f, ArgFails ix vars a e)
    ∧ (∀ g, substField vars f = .ok g →
        (∀ e, resolveField n ix g = some (.error e) → ∃ a ∈ allArgs f, ArgFails ix vars a e)
        ∧ ∀ h, resolveField n ix g = some (.ok h) → Resolved ix vars f h) := by
  match f with
  | .mk name args sub =>
    have hargs : ∀ a ∈ args, ArgShaped ix vars a := fun a ha => hsh a (by simp [allArgs, ha])
    obtain ⟨h1, h2⟩ := fields_spec hs (n := n) sub (fun a ha => hsh a (by simp [allArgs, ha]))
    have hleft : ∀ {e}, (∃ a ∈ args, ArgFails ix vars a e) →
        ∃ a ∈ allArgs (Field.mk name args sub), ArgFails ix vars a e :=
      fun ⟨a, ha, h⟩ => ⟨a, by simp [allArgs, ha], h⟩
    have hright : ∀ {e}, (∃ a ∈ allArgsL sub, ArgFails ix vars a e) →
        ∃ a ∈ allArgs (Field.mk name args sub), ArgFails ix vars a e :=
      fun ⟨a, ha, h⟩ => ⟨a, by simp [allArgs, ha], h⟩
    refine ⟨fun e he => ?_, fun g hg => ?_⟩
    · unfold substField at he
      split at he
      · rename_i e' he'
        injection he with he; subst he
        exact hright (h1 _ he')
      · split at he
        · rename_i e' he'
          injection he with he; subst he
          exact hleft (substArgs_err he')
        · cases he
    · unfold substField at hg
      split at hg
      · cases hg
      · rename_i s hsub
        split at hg
        · cases hg
        · rename_i a ha
          injection hg with hg; subst hg
          obtain ⟨h3, h4⟩ := h2 s hsub
          obtain ⟨h5, h6⟩ := substArgs_ok ha
          refine ⟨fun e he => ?_, fun h hh => ?_⟩
          · unfold resolveField at he
            split at he
            · cases he
            · rename_i e' he'
              injection he with he; injection he with he; subst he
              exact hleft (resolveArgs_err hs hargs h5 h6 he')
            · split at he
              · cases he
              · rename_i e' he'
                injection he with he; injection he with he; subst he
                exact hright (h3 _ he')
              · cases he
          · unfold resolveField at hh
            split at hh
            · cases hh
            · cases hh
            · rename_i a' ha'
              split at hh
              · cases hh
              · cases hh
              · rename_i s' hs'
                injection hh with hh; injection hh with hh; subst hh
                obtain ⟨r1, r2⟩ := resolveArgs_ok hs hargs h5 h6 ha'
                obtain ⟨r3, r4⟩ := h4 s' hs'
                exact .mk r1 r2 r3 r4

theorem fields_spec {ix : Index} (hs : Sane ix) {vars : Vars} {n : Nat} (l : List (Field QVal))
    (hsh : ∀ a ∈ allArgsL l, ArgShaped ix vars a) :
    (∀ e, substFields vars l = .error e → ∃ a ∈ allArgsL l, ArgFails ix vars a e)
    ∧ (∀ g, substFields vars l = .ok g →
        (∀ e, resolveFields n ix g = some (.error e) → ∃ a ∈ allArgsL l, ArgFails ix vars a e)
        ∧ ∀ h, resolveFields n ix g = some (.ok h) →
          l.length = h.length ∧ ∀ p ∈ l.zip h, Resolved ix vars p.1 p.2) := by
  match l with
  | [] =>
    refine ⟨(fun e he => by cases he), fun g hg => ?_⟩
    injection hg with hg; subst hg
    refine ⟨(fun e he => by cases he), fun h hh => ?_⟩
    injection hh with hh; injection hh with hh; subst hh; simp
  | f :: r =>
    obtain ⟨h1, h2⟩ := field_spec hs (n := n) f (fun a ha => hsh a (by simp [allArgsL, ha]))
    obtain ⟨h3, h4⟩ := fields_spec hs (n := n) r (fun a ha => hsh a (by simp [allArgsL, ha]))
    have hleft : ∀ {e}, (∃ a ∈ allArgs f, ArgFails ix vars a e) →
        ∃ a ∈ allArgsL (f :: r), ArgFails ix vars a e :=
      fun ⟨a, ha, h⟩ => ⟨a, by simp [allArgsL, ha], h⟩
    have hright : ∀ {e}, (∃ a ∈ allArgsL r, ArgFails ix vars a e) →
        ∃ a ∈ allArgsL (f :: r), ArgFails ix vars a e :=
      fun ⟨a, ha, h⟩ => ⟨a, by simp [allArgsL, ha], h⟩
    refine ⟨fun e he => ?_, fun g hg => ?_⟩
    · unfold substFields at he
      split at he
      · rename_i e' he'
        injection he with he; subst he
        exact hleft (h1 _ he')
      · split at he
        · rename_i e' he'
          injection he with he; subst he
          exact hright (h3 _ he')
        · cases he
    · unfold substFields at hg
      split at hg
      · cases hg
      · rename_i g1 hg1
        split at hg
        · cases hg
        · rename_i gs hgs
          injection hg with hg; subst hg
          obtain ⟨h5, h6⟩ := h2 g1 hg1
          obtain ⟨h7, h8⟩ := h4 gs hgs
          refine ⟨fun e he => ?_, fun h hh => ?_⟩
          · unfold resolveFields at he
            split at he
            · cases he
            · rename_i e' he'
              injection he with he; injection he with he; subst he
              exact hleft (h5 _ he')
            · split at he
              · cases he
              · rename_i e' he'
                injection he with he; injection he with he; subst he
                exact hright (h7 _ he')
              · cases he
          · unfold resolveFields at hh
            split at hh
            · cases hh
            · cases hh
            · rename_i f' hf'
              split at hh
              · cases hh
              · cases hh
              · rename_i s' hs'
                injection hh with hh; injection hh with hh; subst hh
                obtain ⟨r3, r4⟩ := h8 s' hs'
                refine ⟨by simp [r3], ?_⟩
                intro p hp
                rw [List.zip_cons_cons] at hp
                rcases List.mem_cons.mp hp with rfl | hp
                · exact h6 _ hf'
                · exact r4 p hp
end

/-- **C39** for operations: if the arguments of an operation are resolved, every argument at every depth of
the selection has the value that the rules give for what the document says, with the variables replaced by
their values.  So no variable is left.  Partial: for values as in `Shaped`. -/
theorem C39_operation_partial {ix : Index} (hs : Sane ix) (vars : Vars) (n : Nat) (fields : List (Field QVal))
    (hsh : ∀ a ∈ allArgsL fields, ArgShaped ix vars a) (out : List (Field GVal))
    (h : resolveInput n ix vars fields = some (.ok out)) :
    fields.length = out.length ∧ ∀ p ∈ fields.zip out, Resolved ix vars p.1 p.2 := by
  induction fields generalizing out with
  | nil => injection h with h; injection h with h; subst h; simp
  | cons f r ih =>
    unfold resolveInput at h
    split at h
    · cases h
    · rename_i g hg
      split at h
      · cases h
      · cases h
      · rename_i f' hf'
        split at h
        · cases h
        · cases h
        · rename_i hs' hhs
          injection h with h; injection h with h; subst h
          obtain ⟨h1, h2⟩ := ih (fun a ha => hsh a (by simp [allArgsL, ha])) hs' hhs
          refine ⟨by simp [h1], ?_⟩
          intro p hp
          rw [List.zip_cons_cons] at hp
          rcases List.mem_cons.mp hp with rfl | hp
          · exact ((field_spec hs (n := n) f (fun a ha => hsh a (by simp [allArgsL, ha]))).2 g hg).2 _ hf'
          · exact h2 p hp

/-- **C39** for operations, rejection: an operation is rejected only if one of its arguments uses a variable
that was not provided, or has no value by the rules. -/
theorem C39_operation_rejected_partial {ix : Index} (hs : Sane ix) (vars : Vars) (n : Nat)
    (fields : List (Field QVal)) (hsh : ∀ a ∈ allArgsL fields, ArgShaped ix vars a) (e : Err)
    (h : resolveInput n ix vars fields = some (.error e)) : ∃ a ∈ allArgsL fields, ArgFails ix vars a e := by
  induction fields with
  | nil => cases h
  | cons f r ih =>
    have hf := field_spec hs (n := n) f (fun a ha => hsh a (by simp [allArgsL, ha]))
    have hleft : ∀ {e}, (∃ a ∈ allArgs f, ArgFails ix vars a e) →
        ∃ a ∈ allArgsL (f :: r), ArgFails ix vars a e :=
      fun ⟨a, ha, h⟩ => ⟨a, by simp [allArgsL, ha], h⟩
    unfold resolveInput at h
    split at h
    · rename_i e' he'
      injection h with h; injection h with h; subst h
      exact hleft (hf.1 _ he')
    · rename_i g hg
      split at h
      · cases h
      · rename_i e' he'
        injection h with h; injection h with h; subst h
        exact hleft ((hf.2 g hg).1 _ he')
      · split at h
        · cases h
        · rename_i e' he'
          injection h with h; injection h with h; subst h
          obtain ⟨a, ha, h1⟩ := ih (fun a ha => hsh a (by simp [allArgsL, ha])) he'
          exact ⟨a, by simp [allArgsL, ha], h1⟩
        · cases h

end Verif.Input
