import Verif.Dedupe.Lemmas

/-!
# Properties C01-C05 of `Dedupe`

All statements quantify over *every* history `es` (a list of atomic actions of any
number of tasks over any keys) that is possible from the empty cache.
-/

set_option linter.unusedSectionVars false

namespace Verif.Dedupe

variable {K V : Type} [DecidableEq K]

/-- `s` is reachable through history `es` from `Dedupe::new(_, persist)`. -/
def Reaches (persist : Bool) (es : List (Event K V)) (s : State K V) : Prop :=
  run persist (init K V) es = some s

/-- Task `t` is currently running its computation for `k`. -/
def Running (s : State K V) (t : Nat) (k : K) : Prop := ∃ ch, s.tasks t = .exec k ch

/-- **C01.** At most one computation per key is running, in every reachable state. -/
theorem C01_single_flight {p : Bool} {es : List (Event K V)} {s : State K V}
    (hr : Reaches p es s) {t t' : Nat} {k : K} (h : Running s t k) (h' : Running s t' k) : t = t' := by
  have hi := inv_run (inv_init p) hr
  obtain ⟨ch, h⟩ := h
  obtain ⟨ch', h'⟩ := h'
  have e1 := (hi.execSlot _ _ _ h).1
  have e2 := (hi.execSlot _ _ _ h').1
  rw [e1] at e2; simp at e2; subst e2
  exact hi.execUniq _ _ _ _ _ h h'

/-- **C01**, second half: a caller that arrives while a computation for its key is running
does not start one, it waits for (exactly) the running one. -/
theorem C01_others_wait {p : Bool} {es : List (Event K V)} {s : State K V}
    (hr : Reaches p es s) {t t' : Nat} {k : K} {ch : Nat}
    (hrun : s.tasks t' = .exec k ch) (ht : s.tasks t = .start k) :
    ∃ s', apply p s (.step t) = some s' ∧ s'.tasks t = .wait k ch ∧
      ∀ y, y ≠ t → s'.tasks y = s.tasks y := by
  have hi := inv_run (inv_init p) hr
  have h1 := hi.execSlot _ _ _ hrun
  refine ⟨stepFn s t k, by simp [apply, ht], ?_, fun y hy => stepFn_other _ _ _ hy⟩
  simp [stepFn, h1.1, h1.2.1]

/-- **C02.** A returned value was produced by a computation that was started for the same
key.  Stated on the history only: the caller called with `k`, and some task that called
with the same `k` completed its computation with `v`. -/
theorem C02_genuine_result {p : Bool} {es : List (Event K V)} {s : State K V}
    (hr : Reaches p es s) {t : Nat} {k : K} {v : V} (h : s.tasks t = .done k v) :
    Event.call t k ∈ es ∧ ∃ t', Event.call t' k ∈ es ∧ Event.complete t' v ∈ es := by
  have hp := prov_run (inv_init p) (prov_base (by simp [init])) hr
  simp only [List.nil_append] at hp
  constructor
  · rcases hp.key t k (by simp [h, keyOf]) with h | h
    · simp [init, keyOf] at h
    · exact h
  · obtain ⟨t', h1, h2⟩ := hp.doneP t k v rfl h
    refine ⟨t', ?_, h1⟩
    rcases h2 with h2 | h2
    · simp [init, keyOf] at h2
    · exact h2

/-- **C03.** A waiting caller is never stranded: the result is already there for it
(`recvOk` enabled), or the task it waits for is still running its computation for the same key,
or the waiter is woken up to retry (`recvErr` enabled). -/
theorem C03_no_lost_wakeup {p : Bool} {es : List (Event K V)} {s : State K V}
    (hr : Reaches p es s) {t : Nat} {k : K} {ch : Nat} (h : s.tasks t = .wait k ch) :
    (∃ s', apply p s (.recvOk t) = some s') ∨ (∃ t', s.tasks t' = .exec k ch) ∨
      (∃ s', apply p s (.recvErr t) = some s' ∧ s'.tasks t = .start k) := by
  have hi := inv_run (inv_init p) hr
  cases hm : (s.chans ch).msg with
  | some v => left; simp [apply, h, hm]
  | none =>
    right
    cases ha : (s.chans ch).alive with
    | true =>
      left
      obtain ⟨t', k', ht'⟩ := hi.aliveExec _ ha
      have := (hi.waitKey _ _ _ h).2 _ _ ht'
      subst this; exact ⟨t', ht'⟩
    | false => right; simp [apply, h, hm, ha]

/-- A list of actions without cancellations and without new calls. -/
def noCancel (es : List (Event K V)) : Prop :=
  ∀ e ∈ es, (∀ t, e ≠ .cancel t) ∧ (∀ t k, e ≠ .call t k)

/-- **C03**, progress form: from every reachable state, every caller that has not been
dropped can be brought to return within four further actions, none of which is a cancellation
or a new call; the only thing needed is that a running computation yields some value. -/
theorem C03_can_always_finish {p : Bool} {es : List (Event K V)} {s : State K V}
    (hr : Reaches p es s) {t : Nat} {k : K}
    (h : s.tasks t = .start k ∨ (∃ ch, s.tasks t = .exec k ch) ∨ (∃ ch, s.tasks t = .wait k ch)) (v : V) :
    ∃ es' s', es'.length ≤ 4 ∧ noCancel es' ∧ run p s es' = some s' ∧ ∃ v', s'.tasks t = .done k v' := by
  have hi := inv_run (inv_init p) hr
  -- the waiting case with a live executor
  have hwait : ∀ (s : State K V) ch t', Inv p s → s.tasks t = .wait k ch → s.tasks t' = .exec k ch →
      ∃ s', run p s [.complete t' v, .recvOk t] = some s' ∧ ∃ v', s'.tasks t = .done k v' := by
    intro s ch t' _ hw hx
    have hne : t ≠ t' := by rintro rfl; rw [hw] at hx; cases hx
    simp [run, apply, hx, completeFn, upd_other _ _ hne, hw]
  -- the start case
  have hstart : ∀ (s : State K V), Inv p s → s.tasks t = .start k →
      ∃ es' s', es'.length ≤ 3 ∧ noCancel es' ∧ run p s es' = some s' ∧ ∃ v', s'.tasks t = .done k v' := by
    intro s hi hs
    have hstep : apply p s (.step t) = some (stepFn s t k) := by simp [apply, hs]
    have hi' := inv_stepFn hi hs
    cases hc : s.cache k with
    | none =>
      refine ⟨[.step t, .complete t v], ?_⟩
      simp [run, hs, stepFn, hc, initArm, apply, completeFn, noCancel]
    | some sl =>
      cases sl with
      | ready v0 =>
        refine ⟨[.step t], ?_⟩
        simp [run, hstep, stepFn, hc, noCancel]
      | pending ch =>
        cases ha : (s.chans ch).alive with
        | false =>
          refine ⟨[.step t, .complete t v], ?_⟩
          simp [run, hs, stepFn, hc, ha, initArm, apply, completeFn, noCancel]
        | true =>
          obtain ⟨t', k', ht'⟩ := hi.aliveExec _ ha
          have := hi.slotKey _ _ hc _ _ ht'
          subst this
          have hne : t' ≠ t := by rintro rfl; rw [hs] at ht'; cases ht'
          have hw : (stepFn s t k').tasks t = .wait k' ch := by simp [stepFn, hc, ha]
          have hx : (stepFn s t k').tasks t' = .exec k' ch := by rw [stepFn_other _ _ _ hne]; exact ht'
          obtain ⟨s', h1, h2⟩ := hwait _ ch t' hi' hw hx
          refine ⟨[.step t, .complete t' v, .recvOk t], s', by simp, by simp [noCancel], ?_, h2⟩
          simp only [run, hstep]; exact h1
  rcases h with h | ⟨ch, h⟩ | ⟨ch, h⟩
  · obtain ⟨es', s', h1, h2⟩ := hstart s hi h
    exact ⟨es', s', Nat.le_succ_of_le h1, h2⟩
  · refine ⟨[.complete t v], completeFn p s t k ch v, by simp, by simp [noCancel], by simp [run, apply, h], v, by simp [completeFn]⟩
  · rcases C03_no_lost_wakeup hr h with ⟨s', hs'⟩ | ⟨t', ht'⟩ | ⟨s', hs', hst⟩
    · refine ⟨[.recvOk t], s', by simp, by simp [noCancel], by simp [run, hs'], ?_⟩
      simp only [apply, h] at hs'
      split at hs'
      · cases hs'; simp
      · cases hs'
    · obtain ⟨s', h1, h2⟩ := hwait s ch t' hi h ht'
      exact ⟨_, s', by simp, by simp [noCancel], h1, h2⟩
    · obtain ⟨es', s2, h1, h2, h3, h4⟩ := hstart s' (inv_apply hi hs') hst
      exact ⟨.recvErr t :: es', s2, by simp; omega, by simpa [noCancel] using h2, by simp [run, hs', h3], h4⟩

/-- **C04.** With persistence, all callers of a key return the same value. -/
theorem C04_persist_same_value {es : List (Event K V)} {s : State K V}
    (hr : Reaches true es s) {t t' : Nat} {k : K} {v v' : V}
    (h : s.tasks t = .done k v) (h' : s.tasks t' = .done k v') : v = v' := by
  have hi := inv_run (inv_init true) hr
  have h1 := hi.persistDone rfl _ _ _ h
  have h2 := hi.persistDone rfl _ _ _ h'
  rw [h1] at h2; simpa using h2

/-- **C04.** With persistence, over the whole history at most one computation per key
ever completes: two completed computations of callers of the same key are the same one. -/
theorem C04_persist_computes_once {es : List (Event K V)} {s : State K V}
    (hr : Reaches true es s) {t t' : Nat} {k : K} {v v' : V}
    (hc : Event.call t k ∈ es) (hv : Event.complete t v ∈ es)
    (hc' : Event.call t' k ∈ es) (hv' : Event.complete t' v' ∈ es) : t = t' := by
  -- general fact: whoever completes second finds the key stored already
  have main : ∀ (a b : List (Event K V)) (t t' : Nat) (v v' : V), es = a ++ Event.complete t v :: b →
      Event.complete t' v' ∈ b → Event.call t k ∈ es → Event.call t' k ∈ es → False := by
    intro a b t t' v v' he hb hc hc'
    obtain ⟨b1, b2, rfl⟩ := List.append_of_mem hb
    have hrun := hr
    unfold Reaches at hrun
    have he' : es = (a ++ Event.complete t v :: b1) ++ (Event.complete t' v' :: b2) := by simp [he]
    rw [he', run_append] at hrun
    cases h1 : run true (init K V) (a ++ Event.complete t v :: b1) with
    | none => simp [h1] at hrun
    | some s1 =>
      simp only [h1, Option.bind_some] at hrun
      have hi1 := inv_run (inv_init true) h1
      obtain ⟨k1, hd⟩ := run_complete h1 (t := t) (v := v) (by simp)
      -- the key of `t` is `k`
      have hk1 : k1 = k := by
        have hd' := run_done hrun hd
        rcases run_call hr hc with h | h
        · rw [hd'] at h; simpa [keyOf] using h
        · rw [hd'] at h; cases h
      subst hk1
      simp only [run, apply] at hrun
      split at hrun
      · rename_i s2 h2
        split at h2
        · rename_i k2 ch2 ht2
          cases h2
          have hd2 : s.tasks t' = .done k2 v' := run_done hrun (by simp [completeFn])
          have hk2 : k2 = k1 := by
            rcases run_call hr hc' with h | h
            · rw [hd2] at h; simpa [keyOf] using h
            · rw [hd2] at h; cases h
          subst hk2
          have e1 := (hi1.execSlot _ _ _ ht2).1
          have e2 := hi1.persistDone rfl _ _ _ hd
          rw [e1] at e2; simp at e2
        · cases h2
      · cases hrun
  apply Classical.byContradiction
  intro hne
  obtain ⟨a, b, he⟩ := List.append_of_mem hv
  rw [he] at hv'
  rcases List.mem_append.mp hv' with h | h
  · -- t' completed first
    obtain ⟨a1, a2, rfl⟩ := List.append_of_mem h
    exact main a1 (a2 ++ Event.complete t v :: b) t' t v' v (by simp [he]) (by simp) hc' hc
  · rcases List.mem_cons.mp h with h | h
    · cases h; exact hne rfl
    · exact main a b t t' v v' he h hc hc'

/-- **C04.** With persistence, once somebody has returned for a key, nothing is running for
that key, and any caller that looks the key up returns that same value immediately. -/
theorem C04_persist_immediate {es : List (Event K V)} {s : State K V}
    (hr : Reaches true es s) {t : Nat} {k : K} {v : V} (h : s.tasks t = .done k v) :
    (∀ t', ¬ Running s t' k) ∧
    ∀ t', s.tasks t' = .start k → ∃ s', apply true s (.step t') = some s' ∧ s'.tasks t' = .done k v := by
  have hi := inv_run (inv_init true) hr
  have hc := hi.persistDone rfl _ _ _ h
  constructor
  · rintro t' ⟨ch, hx⟩
    have e1 := (hi.execSlot _ _ _ hx).1
    rw [hc] at e1; simp at e1
  · intro t' ht'
    refine ⟨stepFn s t' k, by simp [apply, ht'], by simp [stepFn, hc]⟩

/-- **C05.** Without persistence, a caller that looks its key up while no computation for it
is running starts a fresh one. -/
theorem C05_fresh_when_idle {es : List (Event K V)} {s : State K V}
    (hr : Reaches false es s) {t : Nat} {k : K} (ht : s.tasks t = .start k)
    (hidle : ∀ t', ¬ Running s t' k) :
    ∃ s', apply false s (.step t) = some s' ∧ Running s' t k := by
  have hi := inv_run (inv_init false) hr
  refine ⟨stepFn s t k, by simp [apply, ht], ?_⟩
  cases hc : s.cache k with
  | none => exact ⟨s.nextCh, by simp [stepFn, hc, initArm]⟩
  | some sl =>
    cases sl with
    | ready v => exact absurd hc (hi.noReady rfl _ _)
    | pending ch =>
      cases ha : (s.chans ch).alive with
      | false => exact ⟨s.nextCh, by simp [stepFn, hc, ha, initArm]⟩
      | true =>
        obtain ⟨t', k', ht'⟩ := hi.aliveExec _ ha
        have := hi.slotKey _ _ hc _ _ ht'
        subst this; exact absurd ⟨ch, ht'⟩ (hidle t')

/-- **C05.** Without persistence, a caller that had not started when history `es₁` ended only
returns values whose computation completed after that: results finished earlier are never
served to later callers. -/
theorem C05_no_stale_result {es₁ es₂ : List (Event K V)} {s₁ s : State K V}
    (hr₁ : Reaches false es₁ s₁) (hr₂ : run false s₁ es₂ = some s) {t : Nat} {k : K} {v : V}
    (hnew : s₁.tasks t = .idle) (h : s.tasks t = .done k v) :
    ∃ t', Event.complete t' v ∈ es₂ ∧ Event.call t' k ∈ es₁ ++ es₂ := by
  have hi := inv_run (inv_init false) hr₁
  have hp := prov_run hi (prov_base (hi.noReady rfl)) hr₂
  simp only [List.nil_append] at hp
  obtain ⟨t', h1, h2⟩ := hp.doneP t k v hnew h
  refine ⟨t', h1, ?_⟩
  rcases h2 with h2 | h2
  · have hp0 := prov_run (inv_init false) (prov_base (by simp [init])) hr₁
    simp only [List.nil_append] at hp0
    rcases hp0.key t' k h2 with h3 | h3
    · simp [init, keyOf] at h3
    · simp [h3]
  · simp [h2]

/-! ### Concrete histories meeting the hypotheses -/

/-- two callers of key 7 (one executes, one waits), the executor is dropped, the
waiter retries and becomes the executor while a third caller joins it. -/
def demo : List (Event Nat String) :=
  [.call 0 7, .step 0, .call 1 7, .step 1, .cancel 0, .recvErr 1, .step 1, .call 2 7, .step 2]

/-- `demo` is a possible history in both modes, and in its last state task 1 is running
and task 2 waits for it (hypotheses of C01, C03). -/
example (p : Bool) : ∃ s, Reaches p demo s ∧ s.tasks 1 = .exec 7 1 ∧ s.tasks 2 = .wait 7 1 ∧
    s.tasks 0 = .dropped := by
  refine ⟨_, rfl, ?_, ?_, ?_⟩ <;> cases p <;> rfl

/-- completion and delivery (hypotheses of C02 and C04). -/
example : ∃ s, Reaches true (demo ++ [.complete 1 "v", .recvOk 2, .call 3 7, .step 3]) s ∧
    s.tasks 1 = .done 7 "v" ∧ s.tasks 2 = .done 7 "v" ∧ s.tasks 3 = .done 7 "v" := by
  exact ⟨_, rfl, rfl, rfl, rfl⟩

/-- without persistence a caller that comes later runs its own computation (hypotheses of C05). -/
example : ∃ s₁ s, Reaches false (demo ++ [.complete 1 "v", .recvOk 2]) s₁ ∧
    s₁.tasks 3 = .idle ∧ run false s₁ [.call 3 7, .step 3, .complete 3 "w"] = some s ∧
    s.tasks 3 = .done 7 "w" := by
  exact ⟨_, _, rfl, rfl, rfl, rfl⟩

end Verif.Dedupe
