import Verif.Call.Model

/-!
# Properties of `@call`
-/

namespace Verif.Call

open Verif.Mustache (Text)
open Verif.HttpUrl (GVal)
open Verif.Exec (Ty)
open Verif.Ir (IR Dyn World Ctx St Err eval renderDyn)

set_option linter.unusedSimpArgs false

/-! ## Specification -/

/-- The field a step names: of the type `Query`, or of `Mutation` when no query is given. -/
inductive Names (c : Conf) (s : Step) : Text → Text → Field → Prop
  | query {q fs f} : s.query = some q → Verif.Merge.get "Query".toList c.types = some fs →
      Verif.Merge.get q fs = some f → Names c s "Query".toList q f
  | mutation {m fs f} : s.query = none → s.mutation = some m → Verif.Merge.get "Mutation".toList c.types = some fs →
      Verif.Merge.get m fs = some f → Names c s "Mutation".toList m f

/-- Every argument of the field that must not be null is given. -/
def Given (f : Field) (s : Step) : Prop :=
  ∀ a ∈ f.args, a.ty.isNullable = false → ∃ d, (a.name, d) ∈ s.args

/-- One step: the arguments are filled in where the step stands, and the field `y` is run with them. -/
inductive RunsStep (w : World) (args : List (Text × Dyn)) (y : IR) (c : Ctx) (st : St) :
    St × Except Err GVal → Prop
  | plain : args = [] → RunsStep w args y c st (eval w y c st)
  | filled : args ≠ [] → RunsStep w args y c st (eval w y (c.withArgs (renderDyn w c (.object args))) st)

/-- The steps one after the other: each is run with the result of the one before as its arguments, the
first failure ends the call, and the result is that of the last step.  `c` is where the call stands. -/
inductive Runs (w : World) (c : Ctx) : List (List (Text × Dyn) × IR) → Ctx → St → St × Except Err GVal → Prop
  | last {p at_ st r} : RunsStep w p.1 p.2 at_ st r → Runs w c [p] at_ st r
  | fails {p q l at_ st st' e} : RunsStep w p.1 p.2 at_ st (st', .error e) → Runs w c (p :: q :: l) at_ st (st', .error e)
  | next {p q l at_ st st' v r} : RunsStep w p.1 p.2 at_ st (st', .ok v) → Runs w c (q :: l) (c.withArgs v) st' r →
      Runs w c (p :: q :: l) at_ st r

/-! ## Helpers -/

theorem seqAll_some {A : Type} {l : List (Option A)} {r : List A} (h : seqAll l = some r) : l = r.map some := by
  induction l generalizing r with
  | nil => simp [seqAll] at h; subst h; rfl
  | cons o l ih =>
    cases o with
    | none => simp [seqAll] at h
    | some a =>
      simp only [seqAll, Option.map_eq_some_iff] at h
      obtain ⟨r', h1, rfl⟩ := h
      rw [ih h1]; rfl

theorem seqAll_map {A : Type} (r : List A) : seqAll (r.map some) = some r := by
  induction r with
  | nil => rfl
  | cons a r ih => simp [seqAll, ih]

theorem seqAll_none {A : Type} {l : List (Option A)} (h : none ∈ l) : seqAll l = none := by
  induction l with
  | nil => simp at h
  | cons o l ih =>
    cases o with
    | none => rfl
    | some a =>
      simp only [List.mem_cons, reduceCtorEq, false_or] at h
      simp [seqAll, ih h]

theorem seqAll_isSome {A : Type} {l : List (Option A)} (h : ∀ o ∈ l, o.isSome = true) : (seqAll l).isSome = true := by
  induction l with
  | nil => rfl
  | cons o l ih =>
    cases o with
    | none => simpa using h none List.mem_cons_self
    | some a =>
      have := ih (fun o ho => h o (List.mem_cons_of_mem _ ho))
      simp [seqAll, this]

theorem collect_ok {A : Type} {l : List (V A)} {r : List A} (h : collect l = .ok r) : l = r.map .ok := by
  induction l generalizing r with
  | nil => simp [collect] at h; subst h; rfl
  | cons o l ih =>
    cases o with
    | error es =>
      unfold collect at h
      split at h <;> simp at h
    | ok a =>
      unfold collect at h
      split at h
      · rename_i as has
        simp only [Except.ok.injEq] at h
        subst h
        rw [ih has]; rfl
      · simp at h

theorem map_eq_map_zip {A B C : Type} {g : A → C} {k : B → C} : ∀ {l : List A} {r : List B}, l.map g = r.map k →
    l.length = r.length ∧ ∀ p ∈ l.zip r, g p.1 = k p.2 := by
  intro l
  induction l with
  | nil => intro r h; cases r with
    | nil => simp
    | cons => simp at h
  | cons a l ih =>
    intro r h
    cases r with
    | nil => simp at h
    | cons b r =>
      simp only [List.map_cons, List.cons.injEq] at h
      have := ih h.2
      refine ⟨by simp [this.1], ?_⟩
      intro p hp
      simp only [List.zip_cons_cons, List.mem_cons] at hp
      rcases hp with rfl | hp
      · exact h.1
      · exact this.2 p hp

theorem findField_ok {c : Conf} {s : Step} {f : Field} {n t : Text} (h : findField c s = .ok (f, n, t)) : Names c s t n f := by
  unfold findField typeAndField at h
  cases hq : s.query with
  | some q =>
    simp only [hq] at h
    cases h1 : Verif.Merge.get "Query".toList c.types with
    | none => simp only [h1, reduceCtorEq] at h
    | some fs =>
      simp only [h1] at h
      cases h2 : Verif.Merge.get q fs with
      | none => simp [h2] at h
      | some f' =>
        simp only [h2, Except.ok.injEq, Prod.mk.injEq] at h
        obtain ⟨rfl, rfl, rfl⟩ := h
        exact .query hq h1 h2
  | none =>
    cases hm : s.mutation with
    | none => simp [hq, hm] at h
    | some m =>
      simp only [hq, hm, Option.map_some] at h
      cases h1 : Verif.Merge.get "Mutation".toList c.types with
      | none => simp only [h1, reduceCtorEq] at h
      | some fs =>
        simp only [h1] at h
        cases h2 : Verif.Merge.get m fs with
        | none => simp [h2] at h
        | some f' =>
          simp only [h2, Except.ok.injEq, Prod.mk.injEq] at h
          obtain ⟨rfl, rfl, rfl⟩ := h
          exact .mutation hq hm h1 h2

theorem findField_of {c : Conf} {s : Step} {f : Field} {n t : Text} (h : Names c s t n f) : findField c s = .ok (f, n, t) := by
  cases h with
  | query h1 h2 h3 => simp only [findField, typeAndField, h1, h2, h3]
  | mutation h1 h2 h3 h4 => simp only [findField, typeAndField, h1, h2, h3, h4, Option.map_some]

theorem missing_nil {f : Field} {s : Step} : missing f s = [] ↔ Given f s := by
  unfold missing Given
  simp only [List.map_eq_nil_iff, List.filter_eq_nil_iff, Bool.and_eq_true, Bool.not_eq_true', not_and,
    Bool.not_eq_false, List.any_eq_true, beq_iff_eq, Prod.exists]
  constructor
  · intro h a ha hn
    obtain ⟨k, d, hm, rfl⟩ := h a ha hn
    exact ⟨d, hm⟩
  · intro h a ha hn
    obtain ⟨d, hm⟩ := h a ha hn
    exact ⟨a.name, d, hm, rfl⟩

/-- An accepted step. -/
theorem step_ok {c : Conf} {d : Nat} {s : Step} {x : IR} (h : compileStep c (d + 1) s = some (.ok x)) :
    ∃ t n f y, Names c s t n f ∧ Given f s ∧ compileField c d t n f = some (.ok (some y)) ∧ x = withArgs s y := by
  unfold compileStep at h
  cases hf : findField c s with
  | error es => simp [hf] at h
  | ok p =>
    obtain ⟨f, n, t⟩ := p
    simp only [hf] at h
    cases hm : missing f s with
    | cons a l => simp [hm] at h
    | nil =>
      simp only [hm] at h
      cases hc : compileField c d t n f with
      | none => simp [hc] at h
      | some r =>
        cases r with
        | error es => simp [hc] at h
        | ok o =>
          cases o with
          | none => simp [hc] at h
          | some y =>
            simp only [hc, Option.some.injEq, Except.ok.injEq] at h
            exact ⟨t, n, f, y, findField_ok hf, missing_nil.mp hm, hc, h.symm⟩

theorem withArgs_runs (w : World) (s : Step) (y : IR) (c : Ctx) (st : St) :
    RunsStep w s.args y c st (eval w (withArgs s y) c st) := by
  unfold withArgs
  cases hs : s.args with
  | nil => exact .plain rfl
  | cons a l =>
    simp only [List.isEmpty_cons, Bool.false_eq_true, if_false]
    have : eval w (.pipe (.dynamic (.object (a :: l))) y) c st =
        eval w y (c.withArgs (renderDyn w c (.object (a :: l)))) st := by simp [eval]
    rw [this]
    exact .filled (by simp)


theorem foldl_error (w : World) (c : Ctx) (st st' : St) (e : Err) : ∀ (l : List IR) (x : IR),
    eval w x c st = (st', .error e) → eval w (l.foldl IR.pipe x) c st = (st', .error e)
  | [], _, h => h
  | y :: l, x, h => foldl_error w c st st' e l (.pipe x y) (by simp [eval, h])

/-- After a prefix `x` that gives `v`, the rest runs with `v` as arguments. -/
theorem foldl_runs (w : World) (c : Ctx) (st : St) : ∀ (l : List (Step × IR)) (p : Step × IR) (x : IR) (st' : St) (v : GVal),
    eval w x c st = (st', .ok v) →
    Runs w c ((p :: l).map (fun q => (q.1.args, q.2))) (c.withArgs v) st'
      (eval w (((p :: l).map (fun q => withArgs q.1 q.2)).foldl IR.pipe x) c st)
  | [], p, x, st', v, h => by
    have : eval w (.pipe x (withArgs p.1 p.2)) c st = eval w (withArgs p.1 p.2) (c.withArgs v) st' := by simp [eval, h]
    simp only [List.map_cons, List.map_nil, List.foldl_cons, List.foldl_nil]
    rw [this]
    exact .last (withArgs_runs w p.1 p.2 _ _)
  | q :: l, p, x, st', v, h => by
    have hp : eval w (.pipe x (withArgs p.1 p.2)) c st = eval w (withArgs p.1 p.2) (c.withArgs v) st' := by simp [eval, h]
    have hr := withArgs_runs w p.1 p.2 (c.withArgs v) st'
    rw [← hp] at hr
    rw [List.map_cons (a := p), List.map_cons (a := p), List.foldl_cons]
    cases he : eval w (.pipe x (withArgs p.1 p.2)) c st with
    | mk st2 r =>
      rw [he] at hr
      cases r with
      | error e =>
        rw [foldl_error w c st st2 e _ _ he]
        exact .fails hr
      | ok u =>
        have := foldl_runs w c st l q _ st2 u he
        exact .next hr this

theorem runs_all (w : World) (c : Ctx) (st : St) (p : Step × IR) (l : List (Step × IR)) :
    Runs w c ((p :: l).map (fun q => (q.1.args, q.2))) c st
      (eval w ((l.map (fun q => withArgs q.1 q.2)).foldl IR.pipe (withArgs p.1 p.2)) c st) := by
  have hr := withArgs_runs w p.1 p.2 c st
  cases l with
  | nil => exact .last hr
  | cons q l =>
    cases he : eval w (withArgs p.1 p.2) c st with
    | mk st2 r =>
      rw [he] at hr
      cases r with
      | error e =>
        rw [foldl_error w c st st2 e _ _ he]
        exact .fails hr
      | ok u => exact .next hr (foldl_runs w c st l q _ st2 u he)

/-! ## C84: a call runs its steps -/

/-- How the resolvers of a field are combined: none, the only one, or all of them merged in order. -/
inductive Combined : List IR → Option IR → Prop
  | none : Combined [] none
  | one {x} : Combined [x] (some x)
  | several {x y l} : Combined (x :: y :: l) (some (.merge (x :: y :: l)))

mutual
/-- What a field means: its resolvers in order, combined and finished. -/
inductive FieldMeans (c : Conf) : Text → Text → Field → Option IR → Prop
  | mk {t n f o} (ps : List (Res × IR)) : ps.map (·.1) = f.resolvers → (∀ p ∈ ps, ResMeans c p.1 p.2) →
      Combined (ps.map (·.2)) o → FieldMeans c t n f (c.finish t n o)
/-- What a resolver means: for a call, to run the fields of its steps in order. -/
inductive ResMeans (c : Conf) : Res → IR → Prop
  | other {x} : ResMeans c (.other x) x
  | call {steps x} (ps : List (Step × IR)) : ps.map (·.1) = steps → ps ≠ [] → (∀ p ∈ ps, StepMeans c p.1 p.2) →
      (∀ w ctx st, Runs w ctx (ps.map (fun p => (p.1.args, p.2))) ctx st (eval w x ctx st)) → ResMeans c (.call steps) x
/-- What a step means: the field it names, which gets every argument that must not be null and has a
resolver. -/
inductive StepMeans (c : Conf) : Step → IR → Prop
  | mk {s t n f y} : Names c s t n f → Given f s → FieldMeans c t n f (some y) → StepMeans c s y
end

/-- Each step names a field with a resolver that compiles to `y`, and gives its arguments. -/
def Resolves (c : Conf) (d : Nat) (s : Step) (y : IR) : Prop :=
  ∃ t n f, Names c s t n f ∧ Given f s ∧ compileField c d t n f = some (.ok (some y))


/-- The compiled steps. -/
theorem steps_ok {c : Conf} {d : Nat} : ∀ {steps : List Step} {xs : List IR},
    steps.map (compileStep c (d + 1)) = xs.map (fun x => some (.ok x)) →
    ∃ ps : List (Step × IR), ps.map (·.1) = steps ∧ xs = ps.map (fun p => withArgs p.1 p.2) ∧
      ∀ p ∈ ps, Resolves c d p.1 p.2
  | [], [], _ => ⟨[], rfl, rfl, by simp⟩
  | s :: l, [], h => by simp at h
  | [], x :: xs, h => by simp at h
  | s :: l, x :: xs, h => by
    simp only [List.map_cons, List.cons.injEq] at h
    obtain ⟨t, n, f, y, h1, h2, h3, h4⟩ := step_ok h.1
    obtain ⟨ps, e1, e2, e3⟩ := steps_ok h.2
    refine ⟨(s, y) :: ps, by simp [e1], by simp [e2, h4], ?_⟩
    intro p hp
    simp only [List.mem_cons] at hp
    rcases hp with rfl | hp
    · exact ⟨t, n, f, h1, h2, h3⟩
    · exact e3 p hp

theorem call_ok (c : Conf) (d : Nat) (steps : List Step) (x : IR) (h : compileCall c d steps = some (.ok x)) :
    ∃ (d' : Nat) (ps : List (Step × IR)), d = d' + 2 ∧ ps.map (·.1) = steps ∧ ps ≠ [] ∧ (∀ p ∈ ps, Resolves c d' p.1 p.2) ∧
      ∀ w ctx st, Runs w ctx (ps.map (fun p => (p.1.args, p.2))) ctx st (eval w x ctx st) := by
  cases d with
  | zero => simp [compileCall] at h
  | succ d =>
    unfold compileCall at h
    cases hs : seqAll (steps.map (compileStep c d)) with
    | none => simp [hs] at h
    | some rs =>
      simp only [hs] at h
      cases hc : collect rs with
      | error es => simp [hc] at h
      | ok xs =>
        simp only [hc, Option.some.injEq] at h
        have e1 := seqAll_some hs
        rw [collect_ok hc, List.map_map] at e1
        cases xs with
        | nil => simp [chain] at h
        | cons x0 xs =>
          simp only [chain, Except.ok.injEq] at h
          cases d with
          | zero =>
            cases steps with
            | nil => simp at e1
            | cons => simp [compileStep] at e1
          | succ d =>
            obtain ⟨ps, p1, p2, p3⟩ := steps_ok e1
            cases ps with
            | nil => simp at p2
            | cons p ps =>
              simp only [List.map_cons, List.cons.injEq] at p2
              refine ⟨d, p :: ps, rfl, p1, by simp, p3, ?_⟩
              intro w ctx st
              rw [← h, p2.1, p2.2]
              exact runs_all w ctx st p ps

theorem join_combined (xs : List IR) : Combined xs (join xs) := by
  match xs with
  | [] => exact .none
  | [_] => exact .one
  | _ :: _ :: _ => exact .several

theorem zip_fst {A B : Type} : ∀ {l : List A} {r : List B}, l.length = r.length → (l.zip r).map (·.1) = l
  | [], [], _ => rfl
  | [], _ :: _, h => by simp at h
  | _ :: _, [], h => by simp at h
  | a :: l, b :: r, h => by simp [zip_fst (l := l) (r := r) (by simpa using h)]

theorem zip_snd {A B : Type} : ∀ {l : List A} {r : List B}, l.length = r.length → (l.zip r).map (·.2) = r
  | [], [], _ => rfl
  | [], _ :: _, h => by simp at h
  | _ :: _, [], h => by simp at h
  | a :: l, b :: r, h => by simp [zip_snd (l := l) (r := r) (by simpa using h)]

/-- C84: what an accepted field does is what its directives say: a call runs the fields its steps name, one
after the other, each with the arguments of its step filled in from the result before, at every depth of
calls; every step names a field that exists, has a resolver and gets all arguments that must not be null.

Missing from the full statement: acceptance of configurations that are fine (violations below). -/
theorem C84_meaning_partial (c : Conf) (d : Nat) : ∀ (t n : Text) (f : Field) (o : Option IR),
    compileField c d t n f = some (.ok o) → FieldMeans c t n f o := by
  induction d using Nat.strongRecOn with
  | _ d ih =>
    intro t n f o h
    cases d with
    | zero => simp [compileField] at h
    | succ d =>
      unfold compileField at h
      cases hs : seqAll (f.resolvers.map (compileRes c d)) with
      | none => simp [hs] at h
      | some rs =>
        simp only [hs] at h
        cases hc : collect rs with
        | error es => simp [hc] at h
        | ok xs =>
          simp only [hc, Option.some.injEq, Except.ok.injEq] at h
          have e1 := seqAll_some hs
          rw [collect_ok hc, List.map_map] at e1
          have e2 := map_eq_map_zip e1
          rw [← h]
          refine .mk (f.resolvers.zip xs) (zip_fst e2.1) ?_ (by rw [zip_snd e2.1]; exact join_combined xs)
          intro p hp
          have hp' := e2.2 p hp
          obtain ⟨r, x⟩ := p
          simp only [Function.comp] at hp'
          cases d with
          | zero => simp [compileRes] at hp'
          | succ d =>
            cases r with
            | other y =>
              simp only [compileRes, Option.some.injEq, Except.ok.injEq] at hp'
              rw [hp']
              exact .other
            | call steps =>
              simp only [compileRes] at hp'
              obtain ⟨d', ps, hd, p1, p2, p3, p4⟩ := call_ok c d steps x hp'
              refine .call ps p1 p2 ?_ p4
              intro q hq
              obtain ⟨t', n', f', q1, q2, q3⟩ := p3 q hq
              exact .mk q1 q2 (ih d' (by omega) t' n' f' _ q3)

/-- What a run means is determined: two runs of the same steps give the same. -/
theorem runsStep_det {w : World} {args : List (Text × Dyn)} {y : IR} {c : Ctx} {st : St} {r r' : St × Except Err GVal}
    (h : RunsStep w args y c st r) (h' : RunsStep w args y c st r') : r = r' := by
  cases h with
  | plain h1 => cases h' with
    | plain => rfl
    | filled h2 => exact absurd h1 h2
  | filled h1 => cases h' with
    | plain h2 => exact absurd h2 h1
    | filled => rfl

theorem runs_det {w : World} {c : Ctx} {l : List (List (Text × Dyn) × IR)} {a : Ctx} {st : St} {r r' : St × Except Err GVal}
    (h : Runs w c l a st r) (h' : Runs w c l a st r') : r = r' := by
  induction h with
  | last h1 => cases h' with
    | last h2 => exact runsStep_det h1 h2
  | fails h1 => cases h' with
    | fails h2 => exact runsStep_det h1 h2
    | next h2 => have := runsStep_det h1 h2; simp at this
  | next h1 _ ih => cases h' with
    | fails h2 => have := runsStep_det h1 h2; simp at this
    | next h2 h3 =>
      have := runsStep_det h1 h2
      simp only [Prod.mk.injEq, Except.ok.injEq] at this
      obtain ⟨rfl, rfl⟩ := this
      exact ih h3

/-! ## C85: every configuration is accepted or refused -/

/-- The field calls the other one with all arguments it must have. -/
def Calls (c : Conf) (f g : Field) : Prop :=
  ∃ steps s t n, Res.call steps ∈ f.resolvers ∧ s ∈ steps ∧ Names c s t n g ∧ Given g s

theorem mono (c : Conf) : ∀ d,
    (∀ t n f r, compileField c d t n f = some r → compileField c (d + 1) t n f = some r) ∧
    (∀ x r, compileRes c d x = some r → compileRes c (d + 1) x = some r) ∧
    (∀ l r, compileCall c d l = some r → compileCall c (d + 1) l = some r) ∧
    (∀ s r, compileStep c d s = some r → compileStep c (d + 1) s = some r) := by
  intro d
  induction d with
  | zero =>
    refine ⟨?_, ?_, ?_, ?_⟩ <;> (intros; rename_i h; simp [compileField, compileRes, compileCall, compileStep] at h)
  | succ d ih =>
    obtain ⟨i1, i2, i3, i4⟩ := ih
    have lift : ∀ {A B : Type} (g g' : A → Option B) (l : List A) (r : List B), (∀ a b, g a = some b → g' a = some b) →
        seqAll (l.map g) = some r → seqAll (l.map g') = some r := by
      intro A B g g' l r hg h
      have e := seqAll_some h
      rw [← seqAll_map r, ← e]
      congr 1
      apply List.map_congr_left
      intro a ha
      have hm : g a ∈ r.map some := e ▸ List.mem_map.mpr ⟨a, ha, rfl⟩
      obtain ⟨b, _, hb⟩ := List.mem_map.mp hm
      rw [← hb]
      exact hg a b hb.symm
    refine ⟨?_, ?_, ?_, ?_⟩
    · intro t n f r h
      unfold compileField at h ⊢
      cases hs : seqAll (f.resolvers.map (compileRes c d)) with
      | none => simp [hs] at h
      | some rs =>
        rw [lift _ _ _ _ i2 hs]
        simpa only [hs] using h
    · intro x r h
      cases x with
      | other y => exact h
      | call steps =>
        simp only [compileRes] at h ⊢
        exact i3 _ _ h
    · intro l r h
      unfold compileCall at h ⊢
      cases hs : seqAll (l.map (compileStep c d)) with
      | none => simp [hs] at h
      | some rs =>
        rw [lift _ _ _ _ i4 hs]
        simpa only [hs] using h
    · intro s r h
      unfold compileStep at h ⊢
      cases hf : findField c s with
      | error es => simpa only [hf] using h
      | ok p =>
        obtain ⟨f, n, t⟩ := p
        simp only [hf] at h ⊢
        cases hm : missing f s with
        | cons a l => simpa only [hm] using h
        | nil =>
          simp only [hm] at h ⊢
          cases hc : compileField c d t n f with
          | none => simp [hc] at h
          | some v =>
            rw [i1 _ _ _ _ hc]
            simpa only [hc] using h

theorem mono_field {c : Conf} {t n : Text} {f : Field} {r : V (Option IR)} {d e : Nat} (hde : d ≤ e)
    (h : compileField c d t n f = some r) : compileField c e t n f = some r := by
  induction hde with
  | refl => exact h
  | step _ ih => exact (mono c _).1 _ _ _ _ ih

/-- A bound that serves all elements. -/
theorem bound {A : Type} (P : A → Nat → Prop) (hm : ∀ a d e, d ≤ e → P a d → P a e) :
    ∀ l : List A, (∀ a ∈ l, ∃ d, P a d) → ∃ d, ∀ a ∈ l, P a d
  | [], _ => ⟨0, by simp⟩
  | a :: l, h => by
    obtain ⟨d1, h1⟩ := h a List.mem_cons_self
    obtain ⟨d2, h2⟩ := bound P hm l (fun b hb => h b (List.mem_cons_of_mem _ hb))
    refine ⟨max d1 d2, ?_⟩
    intro b hb
    simp only [List.mem_cons] at hb
    rcases hb with rfl | hb
    · exact hm _ _ _ (Nat.le_max_left _ _) h1
    · exact hm _ _ _ (Nat.le_max_right _ _) (h2 b hb)

theorem step_mono {c : Conf} (s : Step) (d e : Nat) (hde : d ≤ e) (h : (compileStep c d s).isSome = true) :
    (compileStep c e s).isSome = true := by
  induction hde with
  | refl => exact h
  | step _ ih =>
    obtain ⟨r, hr⟩ := Option.isSome_iff_exists.mp ih
    rw [(mono c _).2.2.2 _ _ hr]; rfl

theorem res_mono {c : Conf} (s : Res) (d e : Nat) (hde : d ≤ e) (h : (compileRes c d s).isSome = true) :
    (compileRes c e s).isSome = true := by
  induction hde with
  | refl => exact h
  | step _ ih =>
    obtain ⟨r, hr⟩ := Option.isSome_iff_exists.mp ih
    rw [(mono c _).2.1 _ _ hr]; rfl

theorem field_isSome {c : Conf} {t n : Text} {f : Field} {d : Nat}
    (h : ∀ r ∈ f.resolvers, (compileRes c d r).isSome = true) : (compileField c (d + 1) t n f).isSome = true := by
  unfold compileField
  have hs : (seqAll (f.resolvers.map (compileRes c d))).isSome = true := by
    apply seqAll_isSome
    intro o ho
    obtain ⟨r, hr, rfl⟩ := List.mem_map.mp ho
    exact h r hr
  obtain ⟨rs, hrs⟩ := Option.isSome_iff_exists.mp hs
  simp only [hrs]
  cases collect rs <;> rfl

theorem call_isSome {c : Conf} {steps : List Step} {d : Nat}
    (h : ∀ s ∈ steps, (compileStep c d s).isSome = true) : (compileCall c (d + 1) steps).isSome = true := by
  unfold compileCall
  have hs : (seqAll (steps.map (compileStep c d))).isSome = true := by
    apply seqAll_isSome
    intro o ho
    obtain ⟨r, hr, rfl⟩ := List.mem_map.mp ho
    exact h r hr
  obtain ⟨rs, hrs⟩ := Option.isSome_iff_exists.mp hs
  simp only [hrs]
  cases collect rs <;> rfl

theorem ends_of_acc {c : Conf} {f : Field} (h : Acc (fun g f => Calls c f g) f) :
    ∀ t n, ∃ d, (compileField c d t n f).isSome = true := by
  induction h with
  | intro f _ ih =>
    intro t n
    have hres : ∀ r ∈ f.resolvers, ∃ d, (compileRes c d r).isSome = true := by
      intro r hr
      cases r with
      | other x => exact ⟨1, rfl⟩
      | call steps =>
        have hst : ∀ s ∈ steps, ∃ d, (compileStep c d s).isSome = true := by
          intro s hs
          cases hf : findField c s with
          | error es => exact ⟨1, by simp [compileStep, hf]⟩
          | ok p =>
            obtain ⟨g, n', t'⟩ := p
            cases hm : missing g s with
            | cons a l => exact ⟨1, by simp [compileStep, hf, hm]⟩
            | nil =>
              obtain ⟨d, hd⟩ := ih g ⟨steps, s, t', n', hr, hs, findField_ok hf, missing_nil.mp hm⟩ t' n'
              refine ⟨d + 1, ?_⟩
              unfold compileStep
              simp only [hf, hm]
              cases hc : compileField c d t' n' g with
              | none => simp [hc] at hd
              | some v =>
                cases v with
                | error es => rfl
                | ok o => cases o <;> rfl
        obtain ⟨d, hd⟩ := bound _ (fun s d e h => step_mono s d e h) steps hst
        exact ⟨d + 2, by simp only [compileRes]; exact call_isSome hd⟩
    obtain ⟨d, hd⟩ := bound _ (fun s d e h => res_mono s d e h) f.resolvers hres
    exact ⟨d + 1, field_isSome hd⟩

theorem none_of_calls {c : Conf} (P : Field → Prop) (hP : ∀ f, P f → ∃ g, Calls c f g ∧ P g) (d : Nat) :
    ∀ f, P f → ∀ t n, compileField c d t n f = none := by
  induction d using Nat.strongRecOn with
  | _ d ih =>
    intro f hf t n
    obtain ⟨g, ⟨steps, s, t', n', h1, h2, h3, h4⟩, hg⟩ := hP f hf
    cases d with
    | zero => rfl
    | succ d =>
      have hres : compileRes c d (.call steps) = none := by
        cases d with
        | zero => rfl
        | succ d =>
          simp only [compileRes]
          cases d with
          | zero => rfl
          | succ d =>
            have hst : compileStep c d s = none := by
              cases d with
              | zero => rfl
              | succ d =>
                unfold compileStep
                simp only [findField_of h3, missing_nil.mpr h4, ih d (by omega) g hg t' n']
            unfold compileCall
            rw [seqAll_none (List.mem_map.mpr ⟨s, h2, hst⟩)]
      unfold compileField
      rw [seqAll_none (List.mem_map.mpr ⟨_, h1, hres⟩)]

/-- C85, the part that holds: reading the configuration ends for a field if and only if there is no endless
chain of calls from it.

Missing from the full statement: fields with an endless chain (`C85_violated_by_cycle`). -/
theorem C85_ends_iff_partial (c : Conf) (t n : Text) (f : Field) :
    (∃ d, compileField c d t n f ≠ none) ↔ Acc (fun g f => Calls c f g) f := by
  constructor
  · rintro ⟨d, hd⟩
    apply Classical.byContradiction
    intro hacc
    apply hd
    refine none_of_calls (fun f => ¬ Acc (fun g f => Calls c f g) f) ?_ d f hacc t n
    intro f hf
    apply Classical.byContradiction
    intro hno
    apply hf
    constructor
    intro g hg
    apply Classical.byContradiction
    intro hg'
    exact hno ⟨g, hg, hg'⟩
  · intro h
    obtain ⟨d, hd⟩ := ends_of_acc h t n
    refine ⟨d, ?_⟩
    intro hn
    simp [hn] at hd

/-- The result does not depend on how much stack there is, once it suffices. -/
theorem C85_depth_irrelevant (c : Conf) (t n : Text) (f : Field) (d e : Nat) (r r' : V (Option IR))
    (h : compileField c d t n f = some r) (h' : compileField c e t n f = some r') : r = r' := by
  have h1 := mono_field (Nat.le_max_left d e) h
  have h2 := mono_field (Nat.le_max_right d e) h'
  rw [h1] at h2
  exact Option.some.inj h2

theorem collect_map_ok {A : Type} (r : List A) : collect (r.map .ok) = .ok r := by
  induction r with
  | nil => rfl
  | cons a r ih => simp [collect, ih]

/-- C84: a call is accepted if every step names a field that has a resolver and gets all arguments that must
not be null. -/
theorem C84_accepts_partial (c : Conf) (ps : List (Step × IR)) (hne : ps ≠ []) (d : Nat)
    (h : ∀ p ∈ ps, ∃ t n f, Names c p.1 t n f ∧ Given f p.1 ∧ compileField c d t n f = some (.ok (some p.2))) :
    ∃ x, compileCall c (d + 2) (ps.map (·.1)) = some (.ok x) := by
  have hs : (ps.map (·.1)).map (compileStep c (d + 1)) = (ps.map (fun p => (.ok (withArgs p.1 p.2) : V IR))).map some := by
    rw [List.map_map, List.map_map]
    apply List.map_congr_left
    intro p hp
    obtain ⟨t, n, f, h1, h2, h3⟩ := h p hp
    simp only [Function.comp, compileStep, findField_of h1, missing_nil.mpr h2, h3]
  have hc : collect (ps.map (fun p => (.ok (withArgs p.1 p.2) : V IR))) = .ok (ps.map (fun p => withArgs p.1 p.2)) := by
    have := collect_map_ok (ps.map (fun p => withArgs p.1 p.2))
    rwa [List.map_map] at this
  cases ps with
  | nil => exact absurd rfl hne
  | cons p ps =>
    refine ⟨(ps.map (fun p => withArgs p.1 p.2)).foldl IR.pipe (withArgs p.1 p.2), ?_⟩
    unfold compileCall
    rw [hs, seqAll_map]
    simp only [hc]
    rfl

/-! ## C86: calling a protected field -/

/-- The result of a step is an error when the field always gives one. -/
theorem runs_error {w : World} {c : Ctx} (y : IR) (hy : ∀ v st, ∃ e, eval w y (c.withArgs v) st = (st, .error e))
    (hy0 : ∀ st, ∃ e, eval w y c st = (st, .error e)) :
    ∀ {l : List (List (Text × Dyn) × IR)} {a : Ctx} {st : St} {r : St × Except Err GVal}, Runs w c l a st r →
    (a = c ∨ ∃ v, a = c.withArgs v) → (∃ p ∈ l, p.2 = y) → ∃ e, r.2 = .error e := by
  have hstep : ∀ {args : List (Text × Dyn)} {a : Ctx} {st : St} {r : St × Except Err GVal}, RunsStep w args y a st r →
      (a = c ∨ ∃ v, a = c.withArgs v) → ∃ e, r.2 = .error e := by
    intro args a st r h ha
    cases h with
    | plain =>
      rcases ha with rfl | ⟨v, rfl⟩
      · obtain ⟨e, he⟩ := hy0 st; exact ⟨e, by rw [he]⟩
      · obtain ⟨e, he⟩ := hy v st; exact ⟨e, by rw [he]⟩
    | filled =>
      rcases ha with rfl | ⟨v, rfl⟩
      · obtain ⟨e, he⟩ := hy _ st; exact ⟨e, by rw [he]⟩
      · obtain ⟨e, he⟩ := hy (renderDyn w (c.withArgs v) (.object args)) st
        exact ⟨e, by rw [show (c.withArgs v).withArgs (renderDyn w (c.withArgs v) (.object args)) =
          c.withArgs (renderDyn w (c.withArgs v) (.object args)) from rfl, he]⟩
  intro l a st r h
  induction h with
  | last h1 =>
    intro ha ⟨p, hp, hpy⟩
    simp only [List.mem_cons, List.not_mem_nil, or_false] at hp
    subst hp
    rw [hpy] at h1
    exact hstep h1 ha
  | fails => intro _ _; exact ⟨_, rfl⟩
  | next h1 _ ih =>
    intro ha ⟨p, hp, hpy⟩
    simp only [List.mem_cons] at hp
    rcases hp with rfl | hp
    · rw [hpy] at h1
      obtain ⟨e, he⟩ := hstep h1 ha
      simp at he
    · exact ih (.inr ⟨_, rfl⟩) ⟨p, List.mem_cons.mpr hp, hpy⟩

/-- The expression of a protected field: protected, and perhaps finished by the stages that follow (enum
aliases, unions and interfaces), or a pipe that begins with one. -/
inductive Guarded (a : Verif.Auth.Auth) : IR → Prop
  | protect {x} : Guarded a (.protect a x)
  | map {x m} : Guarded a x → Guarded a (.map x m)
  | discriminate {x k} : Guarded a x → Guarded a (.discriminate k x)
  | pipe {x y} : Guarded a x → Guarded a (.pipe x y)

theorem guarded_fails {w : World} {c : Ctx} {a : Verif.Auth.Auth} {x : IR} {e : Verif.Auth.Err}
    (h : Verif.Auth.verify c.auth a = .fail e) (hx : Guarded a x) (st : St) : eval w x c st = (st, .error (.auth e)) := by
  induction hx with
  | protect => simp only [eval, h]
  | map _ ih => simp only [eval, ih]
  | discriminate _ ih => simp only [eval, ih]
  | pipe _ ih => simp only [eval, ih]

/-- C86: a call with a step to a protected field never gives a value to a client that may not have that
field, and if it is the first step nothing is sent to any upstream. -/
theorem C86_protection_kept (c : Conf) (d : Nat) (steps : List Step) (x : IR)
    (h : compileCall c d steps = some (.ok x)) (s : Step) (hs : s ∈ steps) (t n : Text) (f : Field) (hn : Names c s t n f)
    (a : Verif.Auth.Auth) (hp : ∀ o y, c.finish t n o = some y → Guarded a y)
    (w : World) (ctx : Ctx) (st : St) (e : Verif.Auth.Err) (he : Verif.Auth.verify ctx.auth a = .fail e) :
    (∃ e', (eval w x ctx st).2 = .error e') ∧ (steps.head? = some s → (eval w x ctx st).1 = st) := by
  obtain ⟨d', ps, _, p1, p2, p3, p4⟩ := call_ok c d steps x h
  have names_det : ∀ {s t n f t' n' f'}, Names c s t n f → Names c s t' n' f' → t = t' ∧ n = n' ∧ f = f' := by
    intro s t n f t' n' f' h1 h2
    have e1 := findField_of h1
    rw [findField_of h2] at e1
    simp only [Except.ok.injEq, Prod.mk.injEq] at e1
    exact ⟨e1.2.2.symm, e1.2.1.symm, e1.1.symm⟩
  have key : ∀ p ∈ ps, p.1 = s → Guarded a p.2 := by
    intro p hm hps
    obtain ⟨t', n', f', q1, _, q3⟩ := p3 p hm
    rw [hps] at q1
    obtain ⟨rfl, rfl, rfl⟩ := names_det hn q1
    have hm := C84_meaning_partial c d' _ _ _ _ q3
    generalize ho : some p.2 = o at hm
    cases hm with
    | mk => exact hp _ _ ho.symm
  constructor
  · rw [← p1] at hs
    obtain ⟨p, hm, hps⟩ := List.mem_map.mp hs
    have hg := key p hm hps
    exact runs_error p.2 (fun v st => ⟨_, guarded_fails (c := ctx.withArgs v) he hg st⟩)
      (fun st => ⟨_, guarded_fails he hg st⟩) (p4 w ctx st) (.inl rfl)
      ⟨(p.1.args, p.2), List.mem_map.mpr ⟨p, hm, rfl⟩, rfl⟩
  · intro hh
    cases ps with
    | nil => exact absurd rfl p2
    | cons p ps =>
      have hps : p.1 = s := by
        rw [← p1] at hh
        simpa using hh
      have hg := key p List.mem_cons_self hps
      have hrun := p4 w ctx st
      have hstep : ∀ r, RunsStep w p.1.args p.2 ctx st r → r = (st, .error (.auth e)) := by
        intro r hr
        cases hr with
        | plain => exact guarded_fails he hg st
        | filled => exact guarded_fails (c := ctx.withArgs _) he hg st
      generalize hl : (p :: ps).map (fun p => (p.1.args, p.2)) = l at hrun
      generalize eval w x ctx st = res at hrun
      cases hrun with
      | last h1 =>
        simp only [List.map_cons, List.cons.injEq] at hl
        rw [← hl.1] at h1
        rw [hstep _ h1]
      | fails h1 =>
        simp only [List.map_cons, List.cons.injEq] at hl
        rw [← hl.1] at h1
        have := hstep _ h1
        simp only [Prod.mk.injEq] at this
        exact this.1
      | next h1 =>
        simp only [List.map_cons, List.cons.injEq] at hl
        rw [← hl.1] at h1
        have := hstep _ h1
        simp at this

/-! ## Cases that meet the hypotheses -/

/-- A template with one expression. -/
def expr (l : List String) : Dyn := .mustache [.expr (l.map String.toList)]

/-- An argument of type `Int` or `Int!`. -/
def intArg (n : String) (nn dflt : Bool) : Arg := ⟨n.toList, .named "Int".toList nn, dflt⟩

/-- A step to a query. -/
def toQuery (n : String) (args : List (String × Dyn)) : Step := ⟨some n.toList, none, args.map (fun p => (p.1.toList, p.2))⟩

/-- `user(id: Int!)` and `post(id: Int!, n: Int = 5)` with one call each, and `last` that calls both. -/
def steps : List Step := [toQuery "user" [("id", expr ["value", "uid"])], toQuery "post" [("id", expr ["args", "post"])]]

/-- The fields of `Query`. -/
def fields : List (Text × Field) :=
  [("user".toList, ⟨[intArg "id" true false], [.other (.io ⟨0, false, false⟩)]⟩),
   ("post".toList, ⟨[intArg "id" true false, intArg "n" false true], [.other (.io ⟨1, false, false⟩)]⟩),
   ("last".toList, ⟨[], [.call steps]⟩)]

/-- A configuration without further directives. -/
def conf : Conf := ⟨[("Query".toList, fields)], fun _ _ o => o⟩

/-- The field `last`. -/
def last : Field := ⟨[], [.call steps]⟩

theorem last_compiles : compileField conf 9 "Query".toList "last".toList last = some (.ok (some
    (.pipe (.pipe (.dynamic (.object [("id".toList, expr ["value", "uid"])])) (.io ⟨0, false, false⟩))
      (.pipe (.dynamic (.object [("id".toList, expr ["args", "post"])])) (.io ⟨1, false, false⟩))))) := rfl

example : ∃ x, FieldMeans conf "Query".toList "last".toList last (some x) :=
  ⟨_, C84_meaning_partial conf 9 _ _ _ _ last_compiles⟩

example : Acc (fun g f => Calls conf f g) last :=
  (C85_ends_iff_partial conf "Query".toList "last".toList last).mp ⟨9, by rw [last_compiles]; simp⟩

example : ∃ x, compileCall conf 9 steps = some (.ok x) :=
  C84_accepts_partial conf [(toQuery "user" [("id", expr ["value", "uid"])], .io ⟨0, false, false⟩),
    (toQuery "post" [("id", expr ["args", "post"])], .io ⟨1, false, false⟩)] (by simp) 7 (by
      intro p hp
      simp only [List.mem_cons, List.not_mem_nil, or_false] at hp
      rcases hp with rfl | rfl
      · exact ⟨"Query".toList, "user".toList, _, .query rfl rfl rfl, missing_nil.mp rfl, rfl⟩
      · exact ⟨"Query".toList, "post".toList, _, .query rfl rfl rfl, missing_nil.mp rfl, rfl⟩)

/-- The same configuration with `post` protected. -/
def guarded (a : Verif.Auth.Auth) : Conf :=
  ⟨[("Query".toList, fields)], fun _ n o => if n = "post".toList then o.map (.protect a) else o⟩

/-- Some provider. -/
def provider : Verif.Auth.Auth := .provider (.basic "u:p".toList)

/-- An anonymous request. -/
def anon : Ctx where
  value := some (.obj [("uid".toList, .int 1)])
  args := some []
  valueO := none
  argsO := none
  isQuery := true
  header := fun _ => none
  vars := []
  env := fun _ => none
  auth := ⟨.absent, fun _ _ _ => false, fun _ => none, fun _ _ => none⟩

theorem guarded_compiles : compileCall (guarded provider) 9 steps = some (.ok
    (.pipe (.pipe (.dynamic (.object [("id".toList, expr ["value", "uid"])])) (.io ⟨0, false, false⟩))
      (.pipe (.dynamic (.object [("id".toList, expr ["args", "post"])])) (.protect provider (.io ⟨1, false, false⟩))))) := rfl

example (w : World) (st : St) : ∃ x, compileCall (guarded provider) 9 steps = some (.ok x) ∧
    ∃ e, (eval w x anon st).2 = .error e := by
  refine ⟨_, guarded_compiles, ?_⟩
  refine (C86_protection_kept (guarded provider) 9 steps _ guarded_compiles (toQuery "post" [("id", expr ["args", "post"])])
    (List.mem_cons_of_mem _ List.mem_cons_self) "Query".toList "post".toList
    ⟨[intArg "id" true false, intArg "n" false true], [.other (.io ⟨1, false, false⟩)]⟩
    (.query rfl rfl rfl) provider ?_ w anon st .missing rfl).1
  intro o y h
  have h' : o.map (IR.protect provider) = some y := h
  obtain ⟨z, _, rfl⟩ := Option.map_eq_some_iff.mp h'
  exact .protect

/-! ## Violations -/

/-- A field that calls itself, which is a valid schema, overflows the stack. -/
theorem C85_violated_by_cycle :
    ∃ (c : Conf) (f : Field), Verif.Merge.get "Query".toList c.types = some [("loop".toList, f)] ∧
      ∀ d, compileField c d "Query".toList "loop".toList f = none := by
  let f : Field := ⟨[], [.call [toQuery "loop" []]]⟩
  refine ⟨⟨[("Query".toList, [("loop".toList, f)])], fun _ _ o => o⟩, f, rfl, fun d => ?_⟩
  refine none_of_calls (fun g => g = f) ?_ d f rfl _ _
  rintro g rfl
  refine ⟨f, ⟨[toQuery "loop" []], toQuery "loop" [], _, _, List.mem_cons_self, List.mem_cons_self,
    .query rfl rfl rfl, ?_⟩, rfl⟩
  intro a ha
  simp [f] at ha

/-- An argument that has a default must be given although the field could be queried without it. -/
theorem C84_violated_by_default :
    ∃ (c : Conf) (s : Step) (f : Field), Names c s "Query".toList "post".toList f ∧ (∀ a ∈ f.args, a.hasDefault = true) ∧
      f.resolvers ≠ [] ∧ compileCall c 9 [s] = some (.error [.argumentNotFound "post".toList ["n".toList]]) := by
  let f : Field := ⟨[intArg "n" true true], [.other (.io ⟨1, false, false⟩)]⟩
  refine ⟨⟨[("Query".toList, [("post".toList, f)])], fun _ _ o => o⟩, toQuery "post" [], f, .query rfl rfl rfl, ?_, ?_, rfl⟩
  · intro a ha
    simp only [f, List.mem_cons, List.not_mem_nil, or_false] at ha
    subst ha; rfl
  · simp [f]

/-- The default of an argument that is not given is not filled in: the field runs without a value for it. -/
theorem C84_violated_by_default_not_filled (w : World) (ctx : Ctx) (st : St) :
    ∃ (c : Conf) (s : Step) (f : Field) (x y : IR) (v : GVal), Names c s "Query".toList "post".toList f ∧
      intArg "n" false true ∈ f.args ∧ f.resolvers = [.other y] ∧
      compileCall c 9 [s] = some (.ok x) ∧ eval w x ctx st = eval w y (ctx.withArgs v) st ∧
      (ctx.withArgs v).pathArg ["n".toList] = none := by
  refine ⟨conf, toQuery "post" [("id", .value (.int 1))], _, _, .io ⟨1, false, false⟩, .obj [("id".toList, .int 1)],
    .query rfl rfl rfl, List.mem_cons_of_mem _ List.mem_cons_self, rfl, rfl, ?_, rfl⟩
  simp [eval, renderDyn, Verif.Ir.renderKvs, Verif.Ir.renderKv, toQuery, withArgs]

/-- The names of the types are fixed: with a query type of another name no query can be called. -/
theorem C84_violated_by_query_type :
    ∃ (c : Conf) (s : Step), (∃ f, Verif.Merge.get "Root".toList c.types = some [("user".toList, f)] ∧ f.args = [] ∧ f.resolvers ≠ []) ∧
      s.query = some "user".toList ∧ compileCall c 9 [s] = some (.error [.typeNotFoundInConfig "Query".toList]) :=
  ⟨⟨[("Root".toList, [("user".toList, ⟨[], [.other (.io ⟨1, false, false⟩)]⟩)])], fun _ _ o => o⟩, toQuery "user" [],
    ⟨_, rfl, rfl, by simp⟩, rfl, rfl⟩

/-- A mutation that is called from a query is deduplicated as if it were a query: two fields that call it
run it once. -/
theorem C84_violated_by_mutation_in_query :
    ∃ (c : Conf) (s : Step) (x : IR) (i : Verif.Ir.Io), s.mutation = some "add".toList ∧ compileCall c 9 [s] = some (.ok x) ∧ x = .io i ∧
      ∀ (w : World) (ctx : Ctx) (st : St) (k : Nat), ctx.isQuery = true → w.key i ctx = some k → w.join st.log.length k = none →
        Verif.Ir.doneGet k st.done = none →
        (eval w x ctx st).1.log = st.log ++ [.call i ctx] ∧
        (eval w x ctx (eval w x ctx st).1).1.log = st.log ++ [.call i ctx] := by
  refine ⟨⟨[("Mutation".toList, [("add".toList, ⟨[], [.other (.io ⟨1, false, true⟩)]⟩)])], fun _ _ o => o⟩,
    ⟨none, some "add".toList, []⟩, .io ⟨1, false, true⟩, ⟨1, false, true⟩, rfl, rfl, rfl, ?_⟩
  intro w ctx st k hq hk hj hd
  have h1 : eval w (.io ⟨1, false, true⟩) ctx st =
      ({ (Verif.Ir.callIo w ⟨1, false, true⟩ ctx st).1 with
          done := (k, (Verif.Ir.callIo w ⟨1, false, true⟩ ctx st).2) :: (Verif.Ir.callIo w ⟨1, false, true⟩ ctx st).1.done },
        (Verif.Ir.callIo w ⟨1, false, true⟩ ctx st).2) := by
    simp [eval, Verif.Ir.evalIo, Verif.Ir.Io.canDedupe, hq, hk, hj, hd]
  rw [h1]
  refine ⟨by simp [Verif.Ir.callIo], ?_⟩
  simp [eval, Verif.Ir.evalIo, Verif.Ir.Io.canDedupe, hq, hk, Verif.Ir.doneGet, Verif.Ir.callIo]

end Verif.Call
