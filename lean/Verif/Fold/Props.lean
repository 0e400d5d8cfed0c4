import Verif.Fold.Model

set_option linter.unusedSimpArgs false

/-!
# Errors of composed validations (C56)
-/

namespace Verif.Fold

open Verif.Mustache (Text)

/-! ## Specification -/

/-- A pipeline passes: every check succeeds on the state left by the checks before it. -/
inductive Passes {I O : Type} (i : I) : Line I O → O → O → Prop
  | check (f s s') : f i s = .ok s' → Passes i (.check f) s s'
  | empty (s) : Passes i .empty s s
  | and (a b s s1 s2) : Passes i a s s1 → Passes i b s1 s2 → Passes i (.and a b) s s2
  | trace (a m s s') : Passes i a s s' → Passes i (.trace a m) s s'
  | update (a g s s') : Passes i a s s' → Passes i (.update a g) s (g s')

/-- The errors of a check do not depend on the state. -/
def Independent {I O : Type} (i : I) (f : TryFold I O) (es : List Err) : Prop :=
  ∀ s, (es = [] ∧ ∃ s', f i s = .ok s') ∨ (es ≠ [] ∧ f i s = .error es)

/-- The errors of all checks of a pipeline, in order, with the traces around each check. -/
inductive AllErrors {I O : Type} (i : I) : Line I O → List Err → Prop
  | check (f es) : Independent i f es → AllErrors i (.check f) es
  | empty : AllErrors i .empty []
  | and (a b es es') : AllErrors i a es → AllErrors i b es' → AllErrors i (.and a b) (es ++ es')
  | trace (a m es) : AllErrors i a es → AllErrors i (.trace a m) (es.map (fun e => ⟨e.message, m :: e.trace⟩))
  | update (a g es) : AllErrors i a es → AllErrors i (.update a g) es

/-- The errors of the first check that fails, each check run on the state left by the checks before it. -/
inductive FirstErrors {I O : Type} (i : I) : Line I O → O → List Err → Prop
  | check (f s es) : f i s = .error es → FirstErrors i (.check f) s es
  | left (a b s es) : FirstErrors i a s es → FirstErrors i (.and a b) s es
  | right (a b s s1 es) : Passes i a s s1 → FirstErrors i b s1 es → FirstErrors i (.and a b) s es
  | trace (a m s es) : FirstErrors i a s es → FirstErrors i (.trace a m) s (es.map (fun e => ⟨e.message, m :: e.trace⟩))
  | update (a g s es) : FirstErrors i a s es → FirstErrors i (.update a g) s es

/-! ## Lemmas -/

theorem and_ok {I O : Type} {a b : TryFold I O} {i : I} {s s2 : O} :
    (a.and b) i s = .ok s2 ↔ ∃ s1, a i s = .ok s1 ∧ b i s1 = .ok s2 := by
  unfold TryFold.and Valid.fold
  cases ha : a i s with
  | ok s1 => simp
  | error es => cases hb : b i s <;> simp [hb]

theorem trace_ok {A : Type} {m : Text} {v : Valid A} {a : A} : Valid.trace m v = .ok a ↔ v = .ok a := by
  cases v <;> simp [Valid.trace]

theorem update_eq {I O : Type} {a : TryFold I O} {g : O → O} {i : I} {s : O} :
    (a.update g) i s = (match a i s with | .ok s' => .ok (g s') | .error es => .error es) := by
  simp only [TryFold.update, TryFold.transform, TryFold.transformValid, Valid.andThen]
  cases a i s <;> rfl

/-! ## C56 -/

/-- A pipeline succeeds, with a given result, exactly when every check succeeds in turn. -/
theorem C56_succeeds_iff {I O : Type} (i : I) (p : Line I O) (s s' : O) :
    p.run i s = .ok s' ↔ Passes i p s s' := by
  induction p generalizing s s' with
  | check f =>
    constructor
    · intro h; exact .check f s s' h
    · intro h; cases h with | check _ _ _ h => exact h
  | empty =>
    simp only [Line.run, TryFold.empty]
    constructor
    · intro h; cases h; exact .empty _
    · intro h; cases h; rfl
  | and a b iha ihb =>
    simp only [Line.run, and_ok]
    constructor
    · rintro ⟨s1, h1, h2⟩; exact .and a b s s1 s' ((iha _ _).1 h1) ((ihb _ _).1 h2)
    · intro h
      cases h with
      | and _ _ _ s1 _ h1 h2 => exact ⟨s1, (iha _ _).2 h1, (ihb _ _).2 h2⟩
  | trace a m iha =>
    simp only [Line.run, TryFold.trace, trace_ok, iha]
    constructor
    · intro h; exact .trace a m s s' h
    · intro h; cases h with | trace _ _ _ _ h => exact h
  | update a g iha =>
    simp only [Line.run, update_eq]
    constructor
    · intro h
      cases ha : a.run i s with
      | error es => simp [ha] at h
      | ok s1 =>
        simp only [ha, Except.ok.injEq] at h
        subst h
        exact .update a g s s1 ((iha _ _).1 ha)
    · intro h
      cases h with
      | update _ _ _ s1 h => rw [(iha _ _).2 h]

/-- When the errors of the checks do not depend on the state, a pipeline reports the errors of all checks, in
order, whatever the nesting. -/
theorem C56_all_errors_partial {I O : Type} (i : I) (p : Line I O) (es : List Err) (h : AllErrors i p es) (s : O) :
    (es = [] ∧ ∃ s', p.run i s = .ok s') ∨ (es ≠ [] ∧ p.run i s = .error es) := by
  induction h generalizing s with
  | check f es hf => exact hf s
  | empty => exact .inl ⟨rfl, s, rfl⟩
  | and a b es es' _ _ iha ihb =>
    simp only [Line.run, TryFold.and]
    rcases iha s with ⟨rfl, s1, h1⟩ | ⟨hne, h1⟩
    · simp only [h1, Valid.fold, List.nil_append]
      exact ihb s1
    · refine .inr ⟨by simp [hne], ?_⟩
      simp only [h1, Valid.fold]
      rcases ihb s with ⟨rfl, s2, h2⟩ | ⟨_, h2⟩
      · simp [h2]
      · simp [h2]
  | trace a m es _ iha =>
    simp only [Line.run, TryFold.trace]
    rcases iha s with ⟨rfl, s1, h1⟩ | ⟨hne, h1⟩
    · exact .inl ⟨rfl, s1, by rw [h1]; rfl⟩
    · exact .inr ⟨by simpa using hne, by rw [h1]; rfl⟩
  | update a g es _ iha =>
    simp only [Line.run, update_eq]
    rcases iha s with ⟨rfl, s1, h1⟩ | ⟨hne, h1⟩
    · exact .inl ⟨rfl, g s1, by rw [h1]⟩
    · exact .inr ⟨hne, by rw [h1]⟩

/-- A pipeline that fails reports first the errors of the first check that fails. -/
theorem C56_first_errors {I O : Type} (i : I) (p : Line I O) (s : O) (E : List Err) (h : p.run i s = .error E) :
    ∃ es rest, FirstErrors i p s es ∧ E = es ++ rest := by
  induction p generalizing s E with
  | check f => exact ⟨E, [], .check f s E h, by simp⟩
  | empty => simp [Line.run, TryFold.empty] at h
  | and a b iha ihb =>
    simp only [Line.run, TryFold.and] at h
    cases ha : a.run i s with
    | ok s1 =>
      simp only [ha, Valid.fold] at h
      obtain ⟨es, r, h1, h2⟩ := ihb s1 E h
      exact ⟨es, r, .right a b s s1 es ((C56_succeeds_iff i a s s1).1 ha) h1, h2⟩
    | error ea =>
      obtain ⟨es, r, h1, h2⟩ := iha s ea ha
      simp only [ha, Valid.fold] at h
      cases hb : b.run i s with
      | ok s2 =>
        simp only [hb, Except.error.injEq] at h
        exact ⟨es, r, .left a b s es h1, by rw [← h, h2]⟩
      | error eb =>
        simp only [hb, Except.error.injEq] at h
        exact ⟨es, r ++ eb, .left a b s es h1, by rw [← h, h2, List.append_assoc]⟩
  | trace a m iha =>
    simp only [Line.run, TryFold.trace] at h
    cases ha : a.run i s with
    | ok s1 => simp [ha, Valid.trace] at h
    | error ea =>
      obtain ⟨es, r, h1, h2⟩ := iha s ea ha
      simp only [ha, Valid.trace, Except.error.injEq] at h
      exact ⟨_, r.map (fun e => { e with trace := m :: e.trace }), .trace a m s es h1,
        by rw [← h, h2, List.map_append]⟩
  | update a g iha =>
    simp only [Line.run, update_eq] at h
    cases ha : a.run i s with
    | ok s1 => simp [ha] at h
    | error ea =>
      obtain ⟨es, r, h1, h2⟩ := iha s ea ha
      simp only [ha, Except.error.injEq] at h
      exact ⟨es, r, .update a g s es h1, by rw [← h, h2]⟩

/-- The pipeline of a list of checks. -/
def lineOf {I O : Type} : List (TryFold I O) → Line I O
  | [] => .empty
  | f :: r => .and (.check f) (lineOf r)

theorem fromIter_run {I O : Type} : ∀ l : List (TryFold I O), TryFold.fromIter l = (lineOf l).run
  | [] => rfl
  | f :: r => by simp only [TryFold.fromIter, lineOf, Line.run, fromIter_run r]

/-- A list of checks whose errors do not depend on the state reports the errors of all of them. -/
theorem C56_list_errors_partial {I O : Type} (i : I) (l : List (TryFold I O × List Err))
    (h : ∀ p ∈ l, Independent i p.1 p.2) (s : O) :
    (l.flatMap (·.2) = [] ∧ ∃ s', TryFold.fromIter (l.map (·.1)) i s = .ok s') ∨
    (l.flatMap (·.2) ≠ [] ∧ TryFold.fromIter (l.map (·.1)) i s = .error (l.flatMap (·.2))) := by
  rw [fromIter_run]
  refine C56_all_errors_partial i _ _ ?_ s
  induction l with
  | nil => exact .empty
  | cons p r ih =>
    simp only [List.map_cons, lineOf, List.flatMap_cons]
    exact .and _ _ _ _ (.check _ _ (h p List.mem_cons_self)) (ih (fun q hq => h q (List.mem_cons_of_mem _ hq)))

/-- A check on a part of the state fails exactly as on the part alone, and on success changes only that part. -/
theorem C56_part {I O O1 : Type} (f : TryFold I O) (up : O → O1 → O1) (down : O1 → O) (i : I) (s : O1) :
    (∀ o, f i (down s) = .ok o → (f.transform up down) i s = .ok (up o s)) ∧
    (∀ es, f i (down s) = .error es → (f.transform up down) i s = .error es) := by
  simp only [TryFold.transform, TryFold.transformValid, Valid.andThen]
  exact ⟨fun o h => by rw [h], fun es h => by rw [h]⟩

/-! ### Transformers -/

/-- A chain of transformers applied one after the other. -/
inductive Chained {A : Type} : Trans A → A → A → Prop
  | step (f v v') : f v = .ok v' → Chained (.step f) v v'
  | default (v) : Chained .default v v
  | pipe (a b v v1 v2) : Chained a v v1 → Chained b v1 v2 → Chained (.pipe a b) v v2
  | on (a v v') : Chained a v v' → Chained (.when a true) v v'
  | off (a v) : Chained (.when a false) v v

/-- The errors of the first transformer that fails. -/
inductive Stopped {A : Type} : Trans A → A → List Err → Prop
  | step (f v es) : f v = .error es → Stopped (.step f) v es
  | left (a b v es) : Stopped a v es → Stopped (.pipe a b) v es
  | right (a b v v1 es) : Chained a v v1 → Stopped b v1 es → Stopped (.pipe a b) v es
  | on (a v es) : Stopped a v es → Stopped (.when a true) v es

/-- Transformers succeed exactly when all succeed in turn, and otherwise report exactly the errors of the first
that fails. -/
theorem C56_transformers {A : Type} (t : Trans A) (v : A) :
    (∀ v', t.run v = .ok v' ↔ Chained t v v') ∧ (∀ es, t.run v = .error es ↔ Stopped t v es) := by
  induction t generalizing v with
  | step f =>
    constructor
    · intro v'
      exact ⟨fun h => .step f v v' h, fun h => by cases h with | step _ _ _ h => exact h⟩
    · intro es
      exact ⟨fun h => .step f v es h, fun h => by cases h with | step _ _ _ h => exact h⟩
  | default =>
    constructor
    · intro v'
      simp only [Trans.run]
      exact ⟨fun h => by cases h; exact .default v, fun h => by cases h; rfl⟩
    · intro es
      simp only [Trans.run]
      exact ⟨(fun h => by cases h), (fun h => by cases h)⟩
  | pipe a b iha ihb =>
    constructor
    · intro v'
      simp only [Trans.run, Valid.andThen]
      constructor
      · intro h
        cases ha : a.run v with
        | ok v1 =>
          simp only [ha] at h
          exact .pipe a b v v1 v' (((iha v).1 v1).1 ha) (((ihb v1).1 v').1 h)
        | error es => simp [ha] at h
      · intro h
        cases h with
        | pipe _ _ _ v1 _ h1 h2 =>
          rw [((iha v).1 v1).2 h1]
          exact ((ihb v1).1 v').2 h2
    · intro es
      simp only [Trans.run, Valid.andThen]
      constructor
      · intro h
        cases ha : a.run v with
        | ok v1 =>
          simp only [ha] at h
          exact .right a b v v1 es (((iha v).1 v1).1 ha) (((ihb v1).2 es).1 h)
        | error ea =>
          simp only [ha, Except.error.injEq] at h
          subst h
          exact .left a b v ea (((iha v).2 ea).1 ha)
      · intro h
        cases h with
        | left _ _ _ _ h => rw [((iha v).2 es).2 h]
        | right _ _ _ v1 _ h1 h2 =>
          rw [((iha v).1 v1).2 h1]
          exact ((ihb v1).2 es).2 h2
  | when a c iha =>
    cases c with
    | true =>
      simp only [Trans.run, if_true]
      constructor
      · intro v'
        rw [(iha v).1 v']
        exact ⟨fun h => .on a v v' h, fun h => by cases h with | on _ _ _ h => exact h⟩
      · intro es
        rw [(iha v).2 es]
        exact ⟨fun h => .on a v es h, fun h => by cases h with | on _ _ _ h => exact h⟩
    | false =>
      simp only [Trans.run, Bool.false_eq_true, if_false]
      constructor
      · intro v'
        exact ⟨fun h => by cases h; exact .off a v, fun h => by cases h; rfl⟩
      · intro es
        exact ⟨(fun h => by cases h), (fun h => by cases h)⟩

/-! ## Examples and violations -/

/-- A check that fails with a message when the condition on the input holds, and adds to the state. -/
def demo (bad : Nat → Bool) (m : Char) : TryFold Nat Nat :=
  fun i s => if bad i then .error [⟨[m], []⟩] else .ok (s + i)

theorem demo_independent (bad : Nat → Bool) (m : Char) (i : Nat) :
    Independent i (demo bad m) (if bad i then [⟨[m], []⟩] else []) := by
  intro s
  unfold demo
  cases bad i
  · exact .inl ⟨rfl, _, rfl⟩
  · exact .inr ⟨by simp, rfl⟩

/-- A nested pipeline of which the first and the last check fail. -/
def demoLine : Line Nat Nat :=
  .update (.and (.and (.check (demo (fun i => i > 1) 'a')) (.check (demo (fun _ => false) 'b')))
    (.trace (.and .empty (.check (demo (fun i => i > 0) 'c'))) ['t'])) (· + 1)

example : AllErrors 3 demoLine [⟨['a'], []⟩, ⟨['c'], [['t']]⟩] ∧
    demoLine.run 3 0 = .error [⟨['a'], []⟩, ⟨['c'], [['t']]⟩] ∧ demoLine.run 0 5 = .ok 6 := by
  refine ⟨?_, rfl, rfl⟩
  have ha := demo_independent (fun i => i > 1) 'a' 3
  have hb := demo_independent (fun _ => false) 'b' 3
  have hc := demo_independent (fun i => i > 0) 'c' 3
  exact .update _ _ _ (.and _ _ _ _ (.and _ _ _ _ (.check _ _ ha) (.check _ _ hb))
    (.trace _ _ _ (.and _ _ _ _ .empty (.check _ _ hc))))

example : FirstErrors 3 demoLine 0 [⟨['a'], []⟩] ∧ Passes 0 demoLine 5 6 := by
  refine ⟨?_, (C56_succeeds_iff 0 demoLine 5 6).1 rfl⟩
  exact .update _ _ _ _ (.left _ _ _ _ (.left _ _ _ _ (.check _ _ _ rfl)))

/-- A check that needs what an earlier check has put into the state. -/
def needs : TryFold Unit Bool := fun _ s => if s then .ok s else .error [⟨['n'], []⟩]

/-- A check that puts it there. -/
def sets : TryFold Unit Bool := fun _ _ => .ok true

/-- A check that always fails. -/
def fails : TryFold Unit Bool := fun _ _ => .error [⟨['f'], []⟩]

/-- In a chain of `and`s a failing check makes the later ones start from the initial state again: a check that
succeeds on the state the first check leaves is reported as failing. -/
theorem C56_violated_by_reset_state :
    ∃ (a b c : TryFold Unit Bool) (s s1 : Bool) (es : List Err), a () s = .ok s1 ∧ (∀ s, b () s = .error [⟨['f'], []⟩]) ∧
      (∃ s2, c () s1 = .ok s2) ∧ ((a.and b).and c) () s = .error es ∧ ∃ e ∈ es, e ≠ ⟨['f'], []⟩ :=
  ⟨sets, fails, needs, false, true, [⟨['f'], []⟩, ⟨['n'], []⟩], rfl, fun _ => rfl, ⟨true, rfl⟩, rfl,
    ⟨['n'], []⟩, by simp, by decide⟩

/-- The nesting of `and`s changes what is reported: a list of the same checks reports one error less. -/
theorem C56_violated_by_nesting :
    ∃ (a b c : TryFold Unit Bool) (s : Bool), ((a.and b).and c) () s ≠ (a.and (b.and c)) () s :=
  ⟨sets, fails, needs, false, by
    simp [TryFold.and, Valid.fold, sets, fails, needs]⟩

/-- Of two transformers that both fail on the configuration only the first is reported. -/
theorem C56_violated_by_transformers :
    ∃ (a b : Nat → Valid Nat) (v : Nat) (ea eb : List Err), a v = .error ea ∧ b v = .error eb ∧ eb ≠ [] ∧
      (Trans.pipe (.step a) (.step b)).run v = .error ea ∧ ∀ e ∈ eb, e ∉ ea :=
  ⟨fun _ => .error [⟨['a'], []⟩], fun _ => .error [⟨['b'], []⟩], 0, _, _, rfl, rfl, by simp, rfl, by simp⟩

end Verif.Fold
