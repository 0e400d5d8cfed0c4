import Verif.Plan.Lemmas

set_option linter.unusedSimpArgs false

/-!
# Properties of query planning (C31, C66)
-/

namespace Verif.Plan
open Verif.Mustache (Text)
open Verif.Merge (get)

/-! ## Specification -/

/-- The argument of a directive has the given value. -/
def Is (env : Vars) (a : IfArg) (b : Bool) : Prop := a = .bool b ∨ ∃ n, a = .var n ∧ env n = some b

/-- GraphQL: a selection is included iff `@skip` is not true and `@include` is not false. -/
def Allowed (env : Vars) (ds : List Dir) : Prop :=
  (∀ d ∈ ds, d.name = "skip".toList → ∀ a, d.ifArg = some a → ¬ Is env a true) ∧
  (∀ d ∈ ds, d.name = "include".toList → ∀ a, d.ifArg = some a → ¬ Is env a false)

/-- Each of the two directives is given at most once. -/
def Once (ds : List Dir) : Prop :=
  (ds.filter (fun d => d.name = "skip".toList)).length ≤ 1 ∧
  (ds.filter (fun d => d.name = "include".toList)).length ≤ 1

/-- Not both a variable `@skip` and an `@include` that is false. -/
def Safe (env : Vars) (ds : List Dir) : Prop := Once ds ∧
  ((∀ d ∈ ds, d.name = "include".toList → ∀ a, d.ifArg = some a → ¬ Is env a false) ∨
   (∀ d ∈ ds, d.name = "skip".toList → ∀ n, d.ifArg ≠ some (.var n)))

/-- Whether the code keeps a field with the given directives. -/
def kept (env : Vars) (ds : List Dir) : Bool :=
  !isConstSkip (skipCond ds) (includeCond ds) &&
    !skipField env (condVar (skipCond ds)) (condVar (includeCond ds))

theorem cond_val_iff (env : Vars) (n : Text) (ds : List Dir) (c : Cond) (b : Bool)
    (hu : (ds.filter (fun d => d.name = n)).length ≤ 1) (hc : condVal env c ≠ some b) :
    condVal env (((findDir n ds).bind getCondition).getD c) ≠ some b ↔
      ∀ d ∈ ds, d.name = n → ∀ a, d.ifArg = some a → ¬ Is env a b := by
  cases e : findDir n ds with
  | none =>
    have := findDir_none e
    simp only [Option.bind_none, Option.getD_none]
    exact ⟨fun _ d hd hn => absurd hn (this d hd), fun _ => hc⟩
  | some d =>
    obtain ⟨hd, hn⟩ := findDir_some e
    simp only [Option.bind_some]
    have all : (∀ d' ∈ ds, d'.name = n → ∀ a, d'.ifArg = some a → ¬ Is env a b) ↔
        ∀ a, d.ifArg = some a → ¬ Is env a b := by
      constructor
      · intro h; exact h d hd hn
      · intro h d' hd' hn'
        rw [unique_dir hu hd' hn' hd hn]; exact h
    rw [all]
    unfold getCondition Is
    cases d.ifArg with
    | none => simp [hc]
    | some a =>
      cases a with
      | bool x => cases x <;> cases b <;> simp [condVal]
      | var x => simp [condVal]
      | other => simp [hc]

/-- **C31 (partial)** A field is kept iff `@skip` is not true and `@include` is not false, for literal and
variable conditions alike. Missing: fields with a variable `@skip` and an `@include` that is false (below). -/
theorem C31_kept_iff_allowed_partial (env : Vars) (ds : List Dir) (h : Safe env ds) :
    kept env ds = true ↔ Allowed env ds := by
  obtain ⟨⟨hs, hi⟩, hor⟩ := h
  have e1 := cond_val_iff env "skip".toList ds .ff true hs (by simp [condVal])
  have e2 := cond_val_iff env "include".toList ds .tt false hi (by simp [condVal])
  unfold Allowed
  rw [← e1, ← e2]
  have hor' : condVal env (includeCond ds) ≠ some false ∨ ∀ n, skipCond ds ≠ .var n := by
    rcases hor with h | h
    · exact .inl (e2.mpr h)
    · refine .inr (fun n hn => ?_)
      unfold skipCond at hn
      cases e : findDir "skip".toList ds with
      | none => rw [e] at hn; simp at hn
      | some d =>
        obtain ⟨hd, hname⟩ := findDir_some e
        rw [e] at hn
        have := h d hd hname
        simp only [Option.bind_some, getCondition] at hn
        cases ea : d.ifArg with
        | none => rw [ea] at hn; simp at hn
        | some a =>
          rw [ea] at hn
          cases a with
          | bool b => cases b <;> simp at hn
          | var m => exact this m ea
          | other => simp at hn
  show kept env ds = true ↔ condVal env (skipCond ds) ≠ some true ∧ condVal env (includeCond ds) ≠ some false
  unfold kept skipField evalVar
  generalize skipCond ds = s at *
  generalize includeCond ds = i at *
  cases s with
  | tt => simp [isConstSkip, condVal]
  | ff =>
    cases i with
    | tt => simp [isConstSkip, condVar, condVal]
    | ff => simp [isConstSkip, condVal]
    | var n =>
      simp only [isConstSkip, condVar, condVal]
      cases e : env n with
      | none => simp [e]
      | some b => cases b <;> simp [e]
  | var m =>
    have hi : condVal env i ≠ some false := by
      rcases hor' with h | h
      · exact h
      · exact absurd rfl (h m)
    cases i with
    | tt =>
      simp only [isConstSkip, condVar, condVal]
      cases e : env m with
      | none => simp [e]
      | some b => cases b <;> simp [e]
    | ff => simp [condVal] at hi
    | var n =>
      simp only [isConstSkip, condVar, condVal] at hi ⊢
      have : (env n).getD true = true := by
        cases e : env n with
        | none => rfl
        | some b => rw [e] at hi; cases b <;> simp_all
      simp only [Option.bind_some, this]
      cases env m with
      | none => simpa using hi
      | some b => cases b <;> simp [hi]

/-- Example data for the concrete cases below. -/
def skipVar (n : String) : Dir := { name := "skip".toList, ifArg := some (.var n.toList) }
/-- Example data for the concrete cases below. -/
def includeVar (n : String) : Dir := { name := "include".toList, ifArg := some (.var n.toList) }

/-- `@skip(if: $s) @include(if: $i)` with `$s = true` and `$i` not given. -/
example : Safe (fun n => if n = "s".toList then some true else none) [skipVar "s", includeVar "i"] ∧
    kept (fun n => if n = "s".toList then some true else none) [skipVar "s", includeVar "i"] = false := by
  refine ⟨⟨⟨by decide, by decide⟩, .inl ?_⟩, by decide⟩
  intro d hd hn a ha hi
  simp only [List.mem_cons, List.not_mem_nil, or_false] at hd
  rcases hd with rfl | rfl
  · exact absurd hn (by decide)
  · simp only [includeVar, Option.some.injEq] at ha
    subst ha
    rcases hi with h | ⟨n, h, h2⟩
    · cases h
    · cases h; exact absurd h2 (by decide)

/-- **C31, violated** `@skip(if: $s) @include(if: $i)` with `$s = true` and `$i = false` is excluded twice over, and
yet included. -/
theorem C31_violated_by_skip_and_include : ∃ (env : Vars) (ds : List Dir), Once ds ∧ ¬ Allowed env ds ∧
    kept env ds = true := by
  refine ⟨fun n => if n = "s".toList then some true else some false, [skipVar "s", includeVar "i"],
    ⟨by decide, by decide⟩, ?_, by decide⟩
  intro h
  exact h.1 (skipVar "s") (by simp) rfl _ rfl (.inr ⟨_, rfl, rfl⟩)

/-- **C31, violated** `@skip(if: $s) @include(if: false)` is included whenever `$s` is not true. -/
theorem C31_violated_by_literal_include (env : Vars) (n : String) (h : env n.toList ≠ some true) :
    let ds := [skipVar n, { name := "include".toList, ifArg := some (.bool false) }]
    Once ds ∧ ¬ Allowed env ds ∧ kept env ds = true := by
  refine ⟨⟨by simp [skipVar], by simp [skipVar]⟩, ?_, ?_⟩
  · intro ha
    exact ha.2 { name := "include".toList, ifArg := some (.bool false) } (by simp) rfl _ rfl (.inl rfl)
  · have e1 : skipCond [skipVar n, { name := "include".toList, ifArg := some (.bool false) }] = .var n.toList := by
      simp [skipCond, findDir, skipVar, getCondition]
    have e2 : includeCond [skipVar n, { name := "include".toList, ifArg := some (.bool false) }] = .ff := by
      simp [includeCond, findDir, skipVar, getCondition]
    unfold kept
    rw [e1, e2]
    simp only [isConstSkip, condVar, skipField, evalVar, Option.bind_some, Option.bind_none, Option.getD_none]
    cases e : env n.toList with
    | none => simp
    | some b => cases b <;> simp_all

/-! ## The whole selection set -/

/-- Response names of the fields written directly in a selection set. -/
def directNames : List Sel → List Text
  | [] => []
  | .field name alias _ _ :: r => alias.getD name :: directNames r
  | _ :: r => directNames r

/-- GraphQL's field collection for selection sets in which no response name is repeated (other than between
fragments): fields in the order of the document, fragments expanded in place, a selection is dropped iff it is not
`Allowed`. -/
inductive Collect (env : Vars) (idx : Text → Text → Option Text) (frags : List (Text × Frag)) :
    Text → List Sel → List Shape → Prop where
  | nil {tc} : Collect env idx frags tc [] []
  | field {tc name alias ds sub rest ty s1 s2 r} : idx tc name = some ty → Safe env ds →
      Collect env idx frags ty sub s1 → Collect env idx frags tc rest s2 →
      alias.getD name ∉ s2.map Shape.out →
      (Allowed env ds ∧ r = .mk (alias.getD name) name tc s1 :: s2) ∨ (¬ Allowed env ds ∧ r = s2) →
      Collect env idx frags tc (.field name alias ds sub :: rest) r
  | typename {tc alias ds rest s2 r} : idx tc "__typename".toList = none → Safe env ds →
      Collect env idx frags tc rest s2 →
      alias.getD "__typename".toList ∉ s2.map Shape.out →
      (Allowed env ds ∧ r = .mk (alias.getD "__typename".toList) "__typename".toList tc [] :: s2) ∨
        (¬ Allowed env ds ∧ r = s2) →
      Collect env idx frags tc (.field "__typename".toList alias ds [] :: rest) r
  | spread {tc name ds f rest s1 s2} : get name frags = some f → Allowed env ds →
      Collect env idx frags f.on f.sub s1 → Collect env idx frags tc rest s2 →
      (∀ s ∈ s1, s.out ∉ directNames rest) →
      Collect env idx frags tc (.spread name ds :: rest) (s1 ++ s2)
  | inline {tc on ds sub rest s1 s2} : Allowed env ds →
      Collect env idx frags (on.getD tc) sub s1 → Collect env idx frags tc rest s2 →
      (∀ s ∈ s1, s.out ∉ directNames rest) →
      Collect env idx frags tc (.inline on ds sub :: rest) (s1 ++ s2)

/-- What the loop does with the rest of a selection set. -/
def LoopOk (env : Vars) (idx : Text → Text → Option Text) (frags : List (Text × Frag)) (tc : Text)
    (sels : List Sel) (shapes : List Shape) : Prop :=
  ∃ f0, ∀ fuel, f0 ≤ fuel → ∀ st : St, (∀ s ∈ shapes, s.out ∉ st.visited) →
    ∃ (l : List (Bool × PField)) (st' : St), loop idx frags (iter idx frags fuel) tc sels st = some st' ∧
      st'.fields = st.fields ++ direct l ∧ st'.frags = st.frags ++ fromFrag l ∧
      (∀ n, n ∈ st'.visited ↔ n ∈ directNames sels ∨ n ∈ st.visited) ∧
      IdsIn st.next st'.next (l.map Prod.snd) ∧ execShapes env (l.map Prod.snd) = shapes ∧
      ∀ e ∈ l, e.1 = true → skipField env e.2.skip e.2.incl = false → e.2.out ∉ directNames sels

/-- What a nested selection set is built to. -/
def IterOk (env : Vars) (idx : Text → Text → Option Text) (frags : List (Text × Frag)) (tc : Text)
    (sels : List Sel) (shapes : List Shape) : Prop :=
  ∃ f0, ∀ fuel, f0 ≤ fuel → ∀ n, ∃ fs n', iter idx frags fuel tc sels n = some (fs, n') ∧
    IdsIn n n' fs ∧ execShapes env fs = shapes

theorem iter_of_loop {env idx frags tc sels shapes} (h : LoopOk env idx frags tc sels shapes) :
    IterOk env idx frags tc sels shapes := by
  obtain ⟨f0, h⟩ := h
  refine ⟨f0 + 1, fun fuel hf n => ?_⟩
  cases fuel with
  | zero => omega
  | succ fuel =>
    obtain ⟨l, st', h1, h2, h3, h4, h5, h6, h7⟩ := h fuel (by omega) { next := n } (by simp)
    have hids := h5.filter (fun e => !e.1 || !st'.visited.contains e.2.out)
    refine ⟨(l.filter (fun e => !e.1 || !st'.visited.contains e.2.out)).map Prod.snd, st'.next, ?_, hids, ?_⟩
    · simp only [iter, h1]
      rw [h2, h3]
      simp only [List.nil_append]
      rw [sortById_eq _ _ hids.2.1 (split_perm l (fun f => !st'.visited.contains f.out))]
    · rw [execShapes_filter, h6]
      intro e he hk
      cases hb : e.1 with
      | false => rfl
      | true =>
        have := h7 e he hb hk
        have hv : e.2.out ∉ st'.visited := by
          intro hm
          rcases (h4 _).mp hm with h | h
          · exact this h
          · simp at h
        simpa using hv

theorem loop_frag {env idx frags tc rest s1 s2} {tc' : Text} {sub : List Sel} (sel : Sel)
    (hstep : ∀ fuel st, step idx frags (iter idx frags fuel) tc st sel = stepFrag (iter idx frags fuel) tc' sub st)
    (hdn : directNames (sel :: rest) = directNames rest)
    (h1 : IterOk env idx frags tc' sub s1) (h2 : LoopOk env idx frags tc rest s2)
    (hd : ∀ s ∈ s1, s.out ∉ directNames rest) : LoopOk env idx frags tc (sel :: rest) (s1 ++ s2) := by
  obtain ⟨f1, h1⟩ := h1
  obtain ⟨f2, h2⟩ := h2
  refine ⟨max f1 f2, fun fuel hf st hv => ?_⟩
  obtain ⟨fs, n', e1, e2, e3⟩ := h1 fuel (by omega) st.next
  obtain ⟨l, st', a1, a2, a3, a4, a5, a6, a7⟩ := h2 fuel (by omega)
    { st with frags := st.frags ++ fs, next := n' } (fun s hs => hv s (by simp [hs]))
  have hmap : (fs.map (fun f => (true, f))).map Prod.snd = fs := by
    simp [Function.comp_def]
  have hdir : direct (fs.map (fun f => (true, f))) = [] := by
    simp [direct, List.filter_map, Function.comp_def]
  have hfr : fromFrag (fs.map (fun f => (true, f))) = fs := by
    simp [fromFrag, List.filter_map, Function.comp_def]
  refine ⟨fs.map (fun f => (true, f)) ++ l, st', ?_, ?_, ?_, ?_, ?_, ?_, ?_⟩
  · simp only [loop, hstep, stepFrag, e1]
    exact a1
  · rw [a2, direct_append, hdir]; rfl
  · rw [a3, fromFrag_append, hfr]; simp
  · intro n; rw [a4 n, hdn]
  · rw [List.map_append, hmap]
    exact e2.append a5
  · rw [List.map_append, hmap, execShapes_append, e3, a6]
  · intro e he ht hk
    rw [hdn]
    rcases List.mem_append.mp he with he | he
    · simp only [List.mem_map] at he
      obtain ⟨f, hf', rfl⟩ := he
      have := out_mem_execShapes env fs f hf' hk
      rw [e3] at this
      simp only [List.mem_map] at this
      obtain ⟨s, hs, hso⟩ := this
      show f.out ∉ _
      rw [← hso]
      exact hd s hs
    · exact a7 e he ht hk

/-- A field that is put into the plan, or is left out by its directives. -/
theorem loop_field {env idx frags tc rest s1 s2 r} {name : Text} {alias : Option Text} {ds : List Dir}
    {sub : List Sel} (hsafe : Safe env ds)
    (hbuild : ∃ f0, ∀ fuel, f0 ≤ fuel → ∀ st : St, st.visited.contains (alias.getD name) = false →
      isConstSkip (skipCond ds) (includeCond ds) = false → ∃ cs n',
        stepField idx (iter idx frags fuel) tc name alias ds sub st =
          some { st with
            fields := st.fields ++ [.mk st.next name (alias.getD name) tc (condVar (skipCond ds)) (condVar (includeCond ds)) cs]
            visited := alias.getD name :: st.visited
            next := n' } ∧ st.next < n' ∧ execShapes env cs = s1)
    (h2 : LoopOk env idx frags tc rest s2) (hn : alias.getD name ∉ s2.map Shape.out)
    (hr : (Allowed env ds ∧ r = .mk (alias.getD name) name tc s1 :: s2) ∨ (¬ Allowed env ds ∧ r = s2)) :
    LoopOk env idx frags tc (.field name alias ds sub :: rest) r := by
  obtain ⟨f1, hbuild⟩ := hbuild
  obtain ⟨f2, h2⟩ := h2
  refine ⟨max f1 f2, fun fuel hf st hv => ?_⟩
  have hkey := C31_kept_iff_allowed_partial env ds hsafe
  have hsub : ∀ s ∈ s2, s ∈ r := by
    rcases hr with ⟨_, rfl⟩ | ⟨_, rfl⟩
    · intro s hs; simp [hs]
    · exact fun s hs => hs
  have hs2 : ∀ s ∈ s2, s.out ≠ alias.getD name := by
    intro s hs e
    exact hn (List.mem_map.mpr ⟨s, hs, e⟩)
  -- the part of the claim about the rest, from any state reached
  have rest_ok : ∀ st1 : St, (∀ n, n ∈ st1.visited ↔ n = alias.getD name ∨ n ∈ st.visited) →
      ∃ (l : List (Bool × PField)) (st' : St), loop idx frags (iter idx frags fuel) tc rest st1 = some st' ∧
      st'.fields = st1.fields ++ direct l ∧ st'.frags = st1.frags ++ fromFrag l ∧
      (∀ n, n ∈ st'.visited ↔ n ∈ directNames (.field name alias ds sub :: rest) ∨ n ∈ st.visited) ∧
      IdsIn st1.next st'.next (l.map Prod.snd) ∧ execShapes env (l.map Prod.snd) = s2 ∧
      ∀ e ∈ l, e.1 = true → skipField env e.2.skip e.2.incl = false →
        e.2.out ∉ directNames (.field name alias ds sub :: rest) := by
    intro st1 hst1
    obtain ⟨l, st', a1, a2, a3, a4, a5, a6, a7⟩ := h2 fuel (by omega) st1 (by
      intro s hs hm
      rcases (hst1 _).mp hm with h | h
      · exact hs2 s hs h
      · exact hv s (hsub s hs) h)
    refine ⟨l, st', a1, a2, a3, ?_, a5, a6, ?_⟩
    · intro n
      rw [a4 n, hst1 n]
      simp only [directNames, List.mem_cons]
      constructor
      · rintro (h | h | h)
        · exact .inl (.inr h)
        · exact .inl (.inl h)
        · exact .inr h
      · rintro ((h | h) | h)
        · exact .inr (.inl h)
        · exact .inl h
        · exact .inr (.inr h)
    · intro e he ht hk hm
      simp only [directNames, List.mem_cons] at hm
      rcases hm with hm | hm
      · have := out_mem_execShapes env (l.map Prod.snd) e.2 (List.mem_map.mpr ⟨e, he, rfl⟩) hk
        rw [a6, hm] at this
        exact hn this
      · exact a7 e he ht hk hm
  -- a field that leaves no trace but its name
  have dropped : ¬ Allowed env ds → ∀ st1 : St, stepField idx (iter idx frags fuel) tc name alias ds sub st = some st1 →
      st1.fields = st.fields → st1.frags = st.frags → st1.next = st.next →
      (∀ n, n ∈ st1.visited ↔ n = alias.getD name ∨ n ∈ st.visited) →
      ∃ (l : List (Bool × PField)) (st' : St),
      loop idx frags (iter idx frags fuel) tc (.field name alias ds sub :: rest) st = some st' ∧
      st'.fields = st.fields ++ direct l ∧ st'.frags = st.frags ++ fromFrag l ∧
      (∀ n, n ∈ st'.visited ↔ n ∈ directNames (.field name alias ds sub :: rest) ∨ n ∈ st.visited) ∧
      IdsIn st.next st'.next (l.map Prod.snd) ∧ execShapes env (l.map Prod.snd) = r ∧
      ∀ e ∈ l, e.1 = true → skipField env e.2.skip e.2.incl = false →
        e.2.out ∉ directNames (.field name alias ds sub :: rest) := by
    intro hna st1 hstep hfe hfr hnx hvis
    obtain ⟨l, st', a1, a2, a3, a4, a5, a6, a7⟩ := rest_ok st1 hvis
    have hr' : r = s2 := by
      rcases hr with ⟨h, _⟩ | ⟨_, h⟩
      · exact absurd h hna
      · exact h
    refine ⟨l, st', ?_, by rw [a2, hfe], by rw [a3, hfr], a4, by rw [← hnx]; exact a5, by rw [a6, hr'], a7⟩
    simp only [loop, step, hstep]
    exact a1
  by_cases hvis : st.visited.contains (alias.getD name) = true
  · -- the name has been used: possible only if the field is dropped
    have hmem : alias.getD name ∈ st.visited := by simpa using hvis
    have hna : ¬ Allowed env ds := by
      intro ha
      rcases hr with ⟨_, h⟩ | ⟨h, _⟩
      · exact hv (.mk (alias.getD name) name tc s1) (by simp [h]) hmem
      · exact h ha
    refine dropped hna st ?_ rfl rfl rfl ?_
    · unfold stepField; simp [hmem]
    · intro n
      exact ⟨.inr, fun h => h.elim (fun e => e ▸ hmem) id⟩
  · have hvis : st.visited.contains (alias.getD name) = false := by simpa using hvis
    cases hcs : isConstSkip (skipCond ds) (includeCond ds) with
    | true =>
      have hna : ¬ Allowed env ds := by
        rw [← hkey]; simp [kept, hcs]
      refine dropped hna { st with visited := alias.getD name :: st.visited } ?_ rfl rfl rfl ?_
      · unfold stepField; simp only [hvis, hcs]; rfl
      · intro n; simp
    | false =>
      obtain ⟨cs, n', hstep, hlt, hcs'⟩ := hbuild fuel (by omega) st hvis hcs
      obtain ⟨l, st', a1, a2, a3, a4, a5, a6, a7⟩ := rest_ok
        { st with
          fields := st.fields ++ [.mk st.next name (alias.getD name) tc (condVar (skipCond ds)) (condVar (includeCond ds)) cs]
          visited := alias.getD name :: st.visited
          next := n' } (by intro n; simp)
      refine ⟨(false, .mk st.next name (alias.getD name) tc (condVar (skipCond ds)) (condVar (includeCond ds)) cs) :: l,
        st', ?_, ?_, ?_, a4, ?_, ?_, ?_⟩
      · simp only [loop, step, hstep]; exact a1
      · rw [a2]; simp [direct]
      · rw [a3]; simp [fromFrag]
      · have one : IdsIn st.next n' [.mk st.next name (alias.getD name) tc (condVar (skipCond ds)) (condVar (includeCond ds)) cs] := by
          refine ⟨by omega, by simp, ?_⟩
          intro f hf
          simp only [List.mem_singleton] at hf
          subst hf
          exact ⟨Nat.le_refl _, hlt⟩
        exact one.append a5
      · simp only [List.map_cons, execShapes_cons, PField.skip, PField.incl, PField.out, PField.name, PField.tc,
          PField.sub]
        rw [a6]
        have hk : kept env ds = !skipField env (condVar (skipCond ds)) (condVar (includeCond ds)) := by
          simp [kept, hcs]
        rcases hr with ⟨ha, rfl⟩ | ⟨ha, rfl⟩
        · have : skipField env (condVar (skipCond ds)) (condVar (includeCond ds)) = false := by
            have := hkey.mpr ha; rw [hk] at this; simpa using this
          simp [this, hcs']
        · have : skipField env (condVar (skipCond ds)) (condVar (includeCond ds)) = true := by
            have h := mt hkey.mp ha; rw [hk] at h; simpa using h
          simp [this]
      · intro e he ht hk
        rcases List.mem_cons.mp he with rfl | he
        · cases ht
        · exact a7 e he ht hk

theorem collect_loop {env idx frags tc sels shapes} (h : Collect env idx frags tc sels shapes) :
    LoopOk env idx frags tc sels shapes := by
  induction h with
  | nil =>
    refine ⟨0, fun fuel _ st _ => ⟨[], st, rfl, by simp [direct], by simp [fromFrag], ?_, ?_, execShapes_nil _, by simp⟩⟩
    · intro n; simp [directNames]
    · exact ⟨Nat.le_refl _, by simp, by simp⟩
  | @field tc name alias ds sub rest ty s1 s2 r hidx hsafe _ _ hn hr ih1 ih2 =>
    refine loop_field hsafe ?_ ih2 hn hr
    obtain ⟨f0, h⟩ := iter_of_loop ih1
    refine ⟨f0, fun fuel hf st hv hc => ?_⟩
    obtain ⟨fs, n', e1, e2, e3⟩ := h fuel hf (st.next + 1)
    refine ⟨fs, n', ?_, e2.1, e3⟩
    unfold stepField
    simp only [hv, hc, hidx, e1]
    rfl
  | @typename tc alias ds rest s2 r hidx hsafe _ hn hr ih2 =>
    refine loop_field hsafe ?_ ih2 hn hr
    refine ⟨0, fun fuel hf st hv hc => ⟨[], st.next + 1, ?_, by omega, execShapes_nil _⟩⟩
    unfold stepField
    simp only [hv, hc, hidx]
    rfl
  | @spread tc name ds f rest s1 s2 hg _ _ _ hd ih1 ih2 =>
    exact loop_frag _ (fun fuel st => by simp [step, hg]) rfl (iter_of_loop ih1) ih2 hd
  | @inline tc on ds sub rest s1 s2 _ _ _ hd ih1 ih2 =>
    exact loop_frag _ (fun fuel st => rfl) rfl (iter_of_loop ih1) ih2 hd

/-- **C31, C66 (partial)** For every operation without repeated response names, the fields that are executed are
exactly those GraphQL's field collection selects, at every level and in the order of the document, fragments
included. Missing: repeated response names, directives on fragments, declared defaults, and the combination of
`@skip` and `@include` excluded by `Safe` (below). -/
theorem C31_executed_fields_partial (idx : Text → Text → Option Text) (frags : List (Text × Frag)) (op : Operation)
    (env : Vars) (shapes : List Shape) (h : Collect env idx frags op.root op.sub shapes) :
    ∃ f0, ∀ fuel, f0 ≤ fuel → ∃ fs, planned idx frags fuel op env = some fs ∧ toShapes fs = shapes := by
  obtain ⟨f0, h⟩ := iter_of_loop (collect_loop h)
  refine ⟨f0, fun fuel hf => ?_⟩
  obtain ⟨fs, n', e1, _, e3⟩ := h fuel hf 0
  refine ⟨skipAll env fs, by simp [planned, e1], e3⟩

/-! ### A concrete case

`{ a @skip(if: $s) ...F b { c } }` with `fragment F on Query { x: a @include(if: $s) }` and `$s = true`. -/

/-- Example data for the concrete cases below. -/
def exIdx : Text → Text → Option Text := fun t f =>
  if t = "Query".toList then
    if f = "a".toList then some "Int".toList else if f = "b".toList then some "B".toList else none
  else if t = "B".toList then if f = "c".toList then some "Int".toList else none
  else none

/-- Example data for the concrete cases below. -/
def exFrags : List (Text × Frag) :=
  [("F".toList, { on := "Query".toList, sub := [.field "a".toList (some "x".toList) [includeVar "s"] []] })]

/-- Example data for the concrete cases below. -/
def exOp : Operation :=
  { root := "Query".toList
    sub := [.field "a".toList none [skipVar "s"] [], .spread "F".toList [],
            .field "b".toList none [] [.field "c".toList none [] []]] }

/-- Example data for the concrete cases below. -/
def exEnv : Vars := fun _ => some true

theorem safe_nil (env : Vars) : Safe env [] := ⟨⟨by simp, by simp⟩, .inl (by simp)⟩
theorem allowed_nil (env : Vars) : Allowed env [] := ⟨by simp, by simp⟩

example : Collect exEnv exIdx exFrags exOp.root exOp.sub
    [.mk "x".toList "a".toList "Query".toList [],
     .mk "b".toList "b".toList "Query".toList [.mk "c".toList "c".toList "B".toList []]] := by
  refine .field (ty := "Int".toList) (s1 := []) (s2 := [_, _]) (by decide) ⟨⟨by decide, by decide⟩, .inl ?_⟩ .nil ?_ ?_
    (.inr ⟨?_, rfl⟩)
  · intro d hd hn
    simp only [List.mem_singleton] at hd
    subst hd
    exact absurd hn (by decide)
  · refine .spread (s1 := [_]) (s2 := [_]) (f := { on := "Query".toList, sub := [.field "a".toList (some "x".toList) [includeVar "s"] []] })
      rfl (allowed_nil _) ?_ ?_ ?_
    · refine .field (ty := "Int".toList) (s1 := []) (s2 := []) (by decide) ⟨⟨by decide, by decide⟩, .inr ?_⟩ .nil .nil
        (by simp) (.inl ⟨⟨?_, ?_⟩, rfl⟩)
      · intro d hd hn
        simp only [List.mem_singleton] at hd
        subst hd
        exact absurd hn (by decide)
      · intro d hd hn
        simp only [List.mem_singleton] at hd
        subst hd
        exact absurd hn (by decide)
      · intro d hd _ a ha hi
        simp only [List.mem_singleton] at hd
        subst hd
        simp only [includeVar, Option.some.injEq] at ha
        subst ha
        rcases hi with h | ⟨n, h, h2⟩
        · cases h
        · cases h2
    · exact .field (ty := "B".toList) (s1 := [_]) (s2 := []) (by decide) (safe_nil _)
        (.field (ty := "Int".toList) (s1 := []) (s2 := []) (by decide) (safe_nil _) .nil .nil (by simp)
          (.inl ⟨allowed_nil _, rfl⟩))
        .nil (by simp) (.inl ⟨allowed_nil _, rfl⟩)
    · intro s hs
      simp only [List.mem_singleton] at hs
      subst hs
      decide
  · decide
  · intro h
    exact h.1 (skipVar "s") (by simp) rfl _ rfl (.inr ⟨_, rfl, rfl⟩)

/-! ### Violations -/

/-- **C31, violated** The directives of fragments are ignored: `... @skip(if: true) { a }` and `...F @skip(if: true)`
are executed like `... { a }` and `...F`, for every selection. -/
theorem C31_violated_by_fragment_directives (idx : Text → Text → Option Text) (frags : List (Text × Frag))
    (rec : Text → List Sel → Nat → Option (List PField × Nat)) (tc : Text) (st : St) (ds : List Dir) :
    (∀ n, step idx frags rec tc st (.spread n ds) = step idx frags rec tc st (.spread n [])) ∧
    (∀ on sub, step idx frags rec tc st (.inline on ds sub) = step idx frags rec tc st (.inline on [] sub)) :=
  ⟨fun _ => rfl, fun _ _ => rfl⟩

example : ((planned exIdx [] 5 { root := "Query".toList, sub := [.inline none [{ name := "skip".toList, ifArg := some (.bool true) }]
    [.field "a".toList none [] []]] } exEnv).map (fun fs => fs.map PField.out)) = some ["a".toList] := by decide

/-- The value of a variable: as given, or else the declared default. -/
def withDefaults (op : Operation) (vars : Vars) : Vars := fun n => (vars n).or (get n op.defaults)

/-- **C31, violated** Declared defaults of variables are ignored: for `query ($s: Boolean = true) { a @skip(if: $s) }`
without variables, `a` is executed. -/
theorem C31_violated_by_defaults : ∃ (op : Operation) (vars : Vars),
    Collect (withDefaults op vars) exIdx [] op.root op.sub [] ∧
    (planned exIdx [] 2 op vars).map (fun fs => fs.map PField.out) = some ["a".toList] := by
  refine ⟨{ defaults := [("s".toList, true)], root := "Query".toList,
            sub := [.field "a".toList none [skipVar "s"] []] }, fun _ => none, ?_, by decide⟩
  refine .field (ty := "Int".toList) (s1 := []) (s2 := []) (by decide) ⟨⟨by decide, by decide⟩, .inl ?_⟩ .nil .nil (by simp)
    (.inr ⟨?_, rfl⟩)
  · intro d hd hn
    simp only [List.mem_singleton] at hd
    subst hd
    exact absurd hn (by decide)
  · intro h
    exact h.1 (skipVar "s") (by simp) rfl _ rfl (.inr ⟨_, rfl, by decide⟩)

/-- Names of the fields below the field with the given name. -/
def subNames (n : Text) (fs : List PField) : List (List Text) :=
  (fs.filter (fun f => f.out = n)).map (fun f => f.sub.map PField.out)

/-- Example data for the concrete cases below. -/
def exIdx2 : Text → Text → Option Text := fun t f =>
  if t = "Query".toList then if f = "b".toList then some "B".toList else none
  else if f = "c".toList ∨ f = "d".toList then some "Int".toList else none

/-- **C66, violated** The selections of a repeated field are not merged: for `{ b { c } b { d } }`, `d` is never
executed. -/
theorem C66_violated_by_repeated_field :
    (planned exIdx2 [] 5 { root := "Query".toList, sub :=
      [.field "b".toList none [] [.field "c".toList none [] []],
       .field "b".toList none [] [.field "d".toList none [] []]] } exEnv).map (subNames "b".toList) =
      some [["c".toList]] := by decide

/-- **C66, violated** The same for a field that is also selected by a fragment: for `{ b { c } ... { b { d } } }`, `d`
is never executed, and for `{ ... { b { c } } ... { b { d } } }` the field is executed twice. -/
theorem C66_violated_by_fragment_field :
    (planned exIdx2 [] 5 { root := "Query".toList, sub :=
      [.field "b".toList none [] [.field "c".toList none [] []],
       .inline none [] [.field "b".toList none [] [.field "d".toList none [] []]]] } exEnv).map (subNames "b".toList) =
      some [["c".toList]] ∧
    (planned exIdx2 [] 5 { root := "Query".toList, sub :=
      [.inline none [] [.field "b".toList none [] [.field "c".toList none [] []]],
       .inline none [] [.field "b".toList none [] [.field "d".toList none [] []]]] } exEnv).map (subNames "b".toList) =
      some [["c".toList], ["d".toList]] := by decide

/-- **C66, violated** A skipped field hides a later selection of the same field: `{ a @skip(if: true) a }` executes
nothing. -/
theorem C66_violated_by_skipped_field :
    (planned exIdx [] 5 { root := "Query".toList, sub :=
      [.field "a".toList none [{ name := "skip".toList, ifArg := some (.bool true) }] [],
       .field "a".toList none [] []] } exEnv).map (fun fs => fs.map PField.out) = some [] := by decide

/-- **C66, violated** A fragment that spreads itself is never rejected: whatever the recursion limit, planning does
not end. -/
theorem C66_violated_by_recursive_fragment (idx : Text → Text → Option Text) (fuel : Nat) (vars : Vars) :
    planned idx [("F".toList, { on := "Query".toList, sub := [.spread "F".toList []] })] fuel
      { root := "Query".toList, sub := [.spread "F".toList []] } vars = none := by
  have h : ∀ fuel n, iter idx [("F".toList, { on := "Query".toList, sub := [.spread "F".toList []] })] fuel
      "Query".toList [.spread "F".toList []] n = none := by
    intro fuel
    induction fuel with
    | zero => intro n; rfl
    | succ fuel ih =>
      intro n
      simp only [iter, loop, step]
      have : get "F".toList [("F".toList, ({ on := "Query".toList, sub := [.spread "F".toList []] } : Frag))] =
          some { on := "Query".toList, sub := [.spread "F".toList []] } := by simp [Verif.Merge.get]
      rw [this]
      simp only [stepFrag, ih]
  unfold planned
  rw [h]
  rfl

end Verif.Plan
