import Verif.Dedupe.Model

/-! Helper lemmas for the dedupe model: the inductive invariant. -/

set_option linter.unusedSectionVars false

namespace Verif.Dedupe

variable {K V : Type} [DecidableEq K]

@[simp] theorem upd_same {α β : Type} [DecidableEq α] (f : α → β) (a : α) (b : β) :
    upd f a b a = b := by simp [upd]

theorem upd_other {α β : Type} [DecidableEq α] (f : α → β) {a x : α} (b : β) (h : x ≠ a) :
    upd f a b x = f x := by simp [upd, h]

/-- The state invariant. -/
structure Inv (persist : Bool) (s : State K V) : Prop where
  execSlot : ∀ t k ch, s.tasks t = .exec k ch →
    s.cache k = some (.pending ch) ∧ (s.chans ch).alive = true ∧ (s.chans ch).msg = none ∧ ch < s.nextCh
  execUniq : ∀ t t' k k' ch, s.tasks t = .exec k ch → s.tasks t' = .exec k' ch → t = t'
  aliveExec : ∀ ch, (s.chans ch).alive = true → ∃ t k, s.tasks t = .exec k ch
  waitKey : ∀ t k ch, s.tasks t = .wait k ch →
    ch < s.nextCh ∧ ∀ t' k', s.tasks t' = .exec k' ch → k' = k
  slotLt : ∀ k ch, s.cache k = some (.pending ch) → ch < s.nextCh
  slotKey : ∀ k ch, s.cache k = some (.pending ch) → ∀ t k', s.tasks t = .exec k' ch → k' = k
  noReady : persist = false → ∀ k v, s.cache k ≠ some (.ready v)
  persistDone : persist = true → ∀ t k v, s.tasks t = .done k v → s.cache k = some (.ready v)
  persistMsg : persist = true → ∀ t k ch v, s.tasks t = .wait k ch → (s.chans ch).msg = some v →
    s.cache k = some (.ready v)

theorem inv_init (persist : Bool) : Inv persist (init K V) := by
  constructor <;> simp [init]

theorem inv_call {p : Bool} {s : State K V} (h : Inv p s) {t : Nat} {k : K}
    (ht : s.tasks t = .idle) : Inv p { s with tasks := upd s.tasks t (.start k) } := by
  have key : ∀ x y, upd s.tasks t (.start k) x = y → (x = t ∧ y = .start k) ∨ (x ≠ t ∧ s.tasks x = y) := by
    intro x y hx
    by_cases e : x = t
    · subst e; left; simp at hx; exact ⟨rfl, hx.symm⟩
    · right; rw [upd_other _ _ e] at hx; exact ⟨e, hx⟩
  have key2 : ∀ x k' ch, upd s.tasks t (.start k) x = .exec k' ch ↔ s.tasks x = .exec k' ch := by
    intro x k' ch
    by_cases e : x = t
    · subst e; simp [ht]
    · rw [upd_other _ _ e]
  have key3 : ∀ x k' ch, upd s.tasks t (.start k) x = .wait k' ch ↔ s.tasks x = .wait k' ch := by
    intro x k' ch
    by_cases e : x = t
    · subst e; simp [ht]
    · rw [upd_other _ _ e]
  have key4 : ∀ x k' v, upd s.tasks t (.start k) x = .done k' v ↔ s.tasks x = .done k' v := by
    intro x k' v
    by_cases e : x = t
    · subst e; simp [ht]
    · rw [upd_other _ _ e]
  constructor <;> simp only [key2, key3, key4]
  · exact h.execSlot
  · exact h.execUniq
  · exact h.aliveExec
  · exact h.waitKey
  · exact h.slotLt
  · exact h.slotKey
  · exact h.noReady
  · exact h.persistDone
  · exact h.persistMsg

/-- Replacing the state of a task that is not executing by a state that is neither
executing nor waiting nor done keeps the invariant. -/
theorem inv_neutral {p : Bool} {s : State K V} (h : Inv p s) {t : Nat} {x : TState K V}
    (ht : ∀ k ch, s.tasks t ≠ .exec k ch)
    (hx1 : ∀ k ch, x ≠ .exec k ch) (hx2 : ∀ k ch, x ≠ .wait k ch) (hx3 : ∀ k v, x ≠ .done k v) :
    Inv p { s with tasks := upd s.tasks t x } := by
  have key2 : ∀ y k' ch, upd s.tasks t x y = .exec k' ch ↔ s.tasks y = .exec k' ch := by
    intro y k' ch
    by_cases e : y = t
    · subst e; simp [ht, hx1]
    · rw [upd_other _ _ e]
  have key3 : ∀ y k' ch, upd s.tasks t x y = .wait k' ch → s.tasks y = .wait k' ch := by
    intro y k' ch
    by_cases e : y = t
    · subst e; simp [hx2]
    · rw [upd_other _ _ e]; exact id
  have key4 : ∀ y k' ch, upd s.tasks t x y = .done k' ch → s.tasks y = .done k' ch := by
    intro y k' ch
    by_cases e : y = t
    · subst e; simp [hx3]
    · rw [upd_other _ _ e]; exact id
  constructor <;> simp only [key2]
  · exact h.execSlot
  · exact h.execUniq
  · exact h.aliveExec
  · intro y k ch hy; exact h.waitKey y k ch (key3 _ _ _ hy)
  · exact h.slotLt
  · exact h.slotKey
  · exact h.noReady
  · intro hp y k v hy; exact h.persistDone hp y k v (key4 _ _ _ hy)
  · intro hp y k ch v hy; exact h.persistMsg hp y k ch v (key3 _ _ _ hy)

theorem inv_done {p : Bool} {s : State K V} (h : Inv p s) {t : Nat} {k : K} {v : V}
    (ht : ∀ k ch, s.tasks t ≠ .exec k ch)
    (hp : p = true → s.cache k = some (.ready v)) :
    Inv p { s with tasks := upd s.tasks t (.done k v) } := by
  have key2 : ∀ y k' ch, upd s.tasks t (.done k v) y = .exec k' ch ↔ s.tasks y = .exec k' ch := by
    intro y k' ch
    by_cases e : y = t
    · subst e; simp [ht]
    · rw [upd_other _ _ e]
  have key3 : ∀ y k' ch, upd s.tasks t (.done k v) y = .wait k' ch → s.tasks y = .wait k' ch := by
    intro y k' ch
    by_cases e : y = t
    · subst e; simp
    · rw [upd_other _ _ e]; exact id
  constructor <;> simp only [key2]
  · exact h.execSlot
  · exact h.execUniq
  · exact h.aliveExec
  · intro y k ch hy; exact h.waitKey y k ch (key3 _ _ _ hy)
  · exact h.slotLt
  · exact h.slotKey
  · exact h.noReady
  · intro hpt y k' v' hy
    by_cases e : y = t
    · subst e; simp at hy; obtain ⟨rfl, rfl⟩ := hy; exact hp hpt
    · rw [upd_other _ _ e] at hy; exact h.persistDone hpt y k' v' hy
  · intro hpt y k ch v hy; exact h.persistMsg hpt y k ch v (key3 _ _ _ hy)

theorem inv_initArm {p : Bool} {s : State K V} (h : Inv p s) {t : Nat} {k : K}
    (ht : s.tasks t = .start k)
    (hdead : ∀ ch, s.cache k = some (.pending ch) → (s.chans ch).alive = false)
    (hnr : ∀ v, s.cache k ≠ some (.ready v)) :
    Inv p (initArm s t k) := by
  -- no task executes for `k`
  have noexec : ∀ t' ch, s.tasks t' ≠ .exec k ch := by
    intro t' ch he
    obtain ⟨h1, h2, _⟩ := h.execSlot _ _ _ he
    rw [hdead _ h1] at h2; cases h2
  have execCases : ∀ y k' ch, upd s.tasks t (.exec k s.nextCh) y = .exec k' ch →
      (y = t ∧ k' = k ∧ ch = s.nextCh) ∨ (y ≠ t ∧ s.tasks y = .exec k' ch ∧ k' ≠ k ∧ ch < s.nextCh) := by
    intro y k' ch hy
    by_cases e : y = t
    · subst e; simp at hy; left; exact ⟨rfl, hy.1.symm, hy.2.symm⟩
    · rw [upd_other _ _ e] at hy
      right; refine ⟨e, hy, ?_, (h.execSlot _ _ _ hy).2.2.2⟩
      rintro rfl; exact noexec _ _ hy
  have waitCases : ∀ y k' ch, upd s.tasks t (.exec k s.nextCh) y = .wait k' ch → s.tasks y = .wait k' ch := by
    intro y k' ch hy
    by_cases e : y = t
    · subst e; simp at hy
    · rw [upd_other _ _ e] at hy; exact hy
  have doneCases : ∀ y k' v, upd s.tasks t (.exec k s.nextCh) y = .done k' v → s.tasks y = .done k' v := by
    intro y k' ch hy
    by_cases e : y = t
    · subst e; simp at hy
    · rw [upd_other _ _ e] at hy; exact hy
  constructor <;> simp only [initArm]
  · intro y k' ch hy
    rcases execCases y k' ch hy with ⟨rfl, rfl, rfl⟩ | ⟨hne, hy, hk, hlt⟩
    · simp
    · have hx := h.execSlot _ _ _ hy
      rw [upd_other _ _ hk, upd_other _ _ (Nat.ne_of_lt hlt)]
      exact ⟨hx.1, hx.2.1, hx.2.2.1, Nat.lt_succ_of_lt hlt⟩
  · intro y y' k1 k2 ch hy hy'
    rcases execCases _ _ _ hy with ⟨rfl, rfl, rfl⟩ | ⟨hne, hy, hk, hlt⟩
    · rcases execCases _ _ _ hy' with ⟨rfl, rfl, _⟩ | ⟨hne', hy', hk', hlt'⟩
      · rfl
      · exact absurd hlt' (Nat.lt_irrefl _)
    · rcases execCases _ _ _ hy' with ⟨rfl, rfl, rfl⟩ | ⟨hne', hy', hk', hlt'⟩
      · exact absurd hlt (Nat.lt_irrefl _)
      · exact h.execUniq _ _ _ _ _ hy hy'
  · intro ch hch
    by_cases e : ch = s.nextCh
    · subst e; exact ⟨t, k, by simp⟩
    · rw [upd_other _ _ e] at hch
      obtain ⟨t', k', ht'⟩ := h.aliveExec ch hch
      refine ⟨t', k', ?_⟩
      rw [upd_other]
      · exact ht'
      · rintro rfl; rw [ht] at ht'; cases ht'
  · intro y k' ch hy
    have hw := h.waitKey _ _ _ (waitCases _ _ _ hy)
    refine ⟨Nat.lt_succ_of_lt hw.1, ?_⟩
    intro t' k'' ht'
    rcases execCases _ _ _ ht' with ⟨_, _, rfl⟩ | ⟨_, h2, _, _⟩
    · exact absurd hw.1 (Nat.lt_irrefl _)
    · exact hw.2 _ _ h2
  · intro k' ch hc
    by_cases e : k' = k
    · subst e; simp at hc; subst hc; exact Nat.lt_succ_self _
    · rw [upd_other _ _ e] at hc; exact Nat.lt_succ_of_lt (h.slotLt _ _ hc)
  · intro k' ch hc t' k'' ht'
    rcases execCases _ _ _ ht' with ⟨_, rfl, rfl⟩ | ⟨_, h2, hk, hlt⟩
    · by_cases e : k' = k''
      · exact e.symm
      · rw [upd_other _ _ e] at hc; exact absurd (h.slotLt _ _ hc) (Nat.lt_irrefl _)
    · by_cases e : k' = k
      · subst e; simp at hc; subst hc; exact absurd hlt (Nat.lt_irrefl _)
      · rw [upd_other _ _ e] at hc; exact h.slotKey _ _ hc _ _ h2
  · intro hp k' v hc
    by_cases e : k' = k
    · subst e; simp at hc
    · rw [upd_other _ _ e] at hc; exact h.noReady hp _ _ hc
  · intro hp y k' v hy
    have hd := h.persistDone hp _ _ _ (doneCases _ _ _ hy)
    by_cases e : k' = k
    · subst e; exact absurd hd (hnr v)
    · rw [upd_other _ _ e]; exact hd
  · intro hp y k' ch v hy hm
    have hw := waitCases _ _ _ hy
    have hlt := (h.waitKey _ _ _ hw).1
    rw [upd_other _ _ (Nat.ne_of_lt hlt)] at hm
    have hd := h.persistMsg hp _ _ _ _ hw hm
    by_cases e : k' = k
    · subst e; exact absurd hd (hnr v)
    · rw [upd_other _ _ e]; exact hd

theorem inv_wait {p : Bool} {s : State K V} (h : Inv p s) {t : Nat} {k : K} {ch : Nat}
    (ht : s.tasks t = .start k) (hc : s.cache k = some (.pending ch))
    (ha : (s.chans ch).alive = true) :
    Inv p { s with tasks := upd s.tasks t (.wait k ch) } := by
  have key2 : ∀ y k' ch', upd s.tasks t (.wait k ch) y = .exec k' ch' ↔ s.tasks y = .exec k' ch' := by
    intro y k' ch'
    by_cases e : y = t
    · subst e; simp [ht]
    · rw [upd_other _ _ e]
  have key4 : ∀ y k' v, upd s.tasks t (.wait k ch) y = .done k' v ↔ s.tasks y = .done k' v := by
    intro y k' v
    by_cases e : y = t
    · subst e; simp [ht]
    · rw [upd_other _ _ e]
  have key3 : ∀ y k' ch', upd s.tasks t (.wait k ch) y = .wait k' ch' →
      (k' = k ∧ ch' = ch) ∨ s.tasks y = .wait k' ch' := by
    intro y k' ch' hy
    by_cases e : y = t
    · subst e; simp at hy; left; exact ⟨hy.1.symm, hy.2.symm⟩
    · rw [upd_other _ _ e] at hy; right; exact hy
  constructor <;> simp only [key2, key4]
  · exact h.execSlot
  · exact h.execUniq
  · exact h.aliveExec
  · intro y k' ch' hy
    rcases key3 _ _ _ hy with ⟨rfl, rfl⟩ | hy
    · exact ⟨h.slotLt _ _ hc, h.slotKey _ _ hc⟩
    · exact h.waitKey _ _ _ hy
  · exact h.slotLt
  · exact h.slotKey
  · exact h.noReady
  · exact h.persistDone
  · intro hp y k' ch' v hy hm
    rcases key3 _ _ _ hy with ⟨rfl, rfl⟩ | hy
    · obtain ⟨t', k'', he⟩ := h.aliveExec _ ha
      have := (h.execSlot _ _ _ he).2.2.1
      simp [this] at hm
    · exact h.persistMsg hp _ _ _ _ hy hm

theorem inv_complete {p : Bool} {s : State K V} (h : Inv p s) {t : Nat} {k : K} {ch : Nat} {v : V}
    (ht : s.tasks t = .exec k ch) : Inv p (completeFn p s t k ch v) := by
  have hs := h.execSlot _ _ _ ht
  have execCases : ∀ y k' ch', upd s.tasks t (.done k v) y = .exec k' ch' →
      y ≠ t ∧ s.tasks y = .exec k' ch' ∧ ch' ≠ ch ∧ k' ≠ k := by
    intro y k' ch' hy
    by_cases e : y = t
    · subst e; simp at hy
    · rw [upd_other _ _ e] at hy
      refine ⟨e, hy, ?_, ?_⟩
      · rintro rfl; exact e (h.execUniq _ _ _ _ _ hy ht)
      · rintro rfl
        have h2 := (h.execSlot _ _ _ hy).1
        rw [hs.1] at h2; simp at h2; subst h2
        exact e (h.execUniq _ _ _ _ _ hy ht)
  have waitCases : ∀ y k' ch', upd s.tasks t (.done k v) y = .wait k' ch' → s.tasks y = .wait k' ch' := by
    intro y k' ch' hy
    by_cases e : y = t
    · subst e; simp at hy
    · rw [upd_other _ _ e] at hy; exact hy
  have cacheP : ∀ k' ch', upd s.cache k (if p then some (.ready v) else none) k' = some (.pending ch') →
      k' ≠ k ∧ s.cache k' = some (.pending ch') := by
    intro k' ch' hc
    by_cases e : k' = k
    · subst e; cases p <;> simp at hc
    · rw [upd_other _ _ e] at hc; exact ⟨e, hc⟩
  constructor <;> simp only [completeFn]
  · intro y k' ch' hy
    obtain ⟨_, hy, hch, hk⟩ := execCases _ _ _ hy
    rw [upd_other _ _ hk, upd_other _ _ hch]
    exact h.execSlot _ _ _ hy
  · intro y y' k1 k2 ch' hy hy'
    exact h.execUniq _ _ _ _ _ (execCases _ _ _ hy).2.1 (execCases _ _ _ hy').2.1
  · intro ch' hch
    by_cases e : ch' = ch
    · subst e; simp at hch
    · rw [upd_other _ _ e] at hch
      obtain ⟨t', k', ht'⟩ := h.aliveExec ch' hch
      refine ⟨t', k', ?_⟩
      rw [upd_other]
      · exact ht'
      · rintro rfl; rw [ht] at ht'; simp at ht'; exact e ht'.2.symm
  · intro y k' ch' hy
    have hw := h.waitKey _ _ _ (waitCases _ _ _ hy)
    exact ⟨hw.1, fun t' k'' ht' => hw.2 _ _ (execCases _ _ _ ht').2.1⟩
  · intro k' ch' hc; exact h.slotLt _ _ (cacheP _ _ hc).2
  · intro k' ch' hc t' k'' ht'
    exact h.slotKey _ _ (cacheP _ _ hc).2 _ _ (execCases _ _ _ ht').2.1
  · intro hp k' v' hc
    subst hp
    by_cases e : k' = k
    · subst e; simp at hc
    · rw [upd_other _ _ e] at hc; exact h.noReady rfl _ _ hc
  · intro hp y k' v' hy
    subst hp
    by_cases e : y = t
    · subst e; simp at hy; obtain ⟨rfl, rfl⟩ := hy; simp
    · rw [upd_other _ _ e] at hy
      have hd := h.persistDone rfl _ _ _ hy
      by_cases e2 : k' = k
      · subst e2; rw [hs.1] at hd; simp at hd
      · rw [upd_other _ _ e2]; exact hd
  · intro hp y k' ch' v' hy hm
    subst hp
    have hw := waitCases _ _ _ hy
    by_cases e : ch' = ch
    · subst e
      have hk := (h.waitKey _ _ _ hw).2 _ _ ht
      subst hk
      simp at hm; subst hm; simp
    · rw [upd_other _ _ e] at hm
      have hd := h.persistMsg rfl _ _ _ _ hw hm
      by_cases e2 : k' = k
      · subst e2; rw [hs.1] at hd; simp at hd
      · rw [upd_other _ _ e2]; exact hd

theorem inv_cancelExec {p : Bool} {s : State K V} (h : Inv p s) {t : Nat} {k : K} {ch : Nat}
    (ht : s.tasks t = .exec k ch) :
    Inv p { s with
      chans := upd s.chans ch { s.chans ch with alive := false }
      tasks := upd s.tasks t .dropped } := by
  have execCases : ∀ y k' ch', upd s.tasks t .dropped y = .exec k' ch' →
      y ≠ t ∧ s.tasks y = .exec k' ch' ∧ ch' ≠ ch := by
    intro y k' ch' hy
    by_cases e : y = t
    · subst e; simp at hy
    · rw [upd_other _ _ e] at hy
      refine ⟨e, hy, ?_⟩
      rintro rfl; exact e (h.execUniq _ _ _ _ _ hy ht)
  have waitCases : ∀ y k' ch', upd s.tasks t .dropped y = .wait k' ch' → s.tasks y = .wait k' ch' := by
    intro y k' ch' hy
    by_cases e : y = t
    · subst e; simp at hy
    · rw [upd_other _ _ e] at hy; exact hy
  have doneCases : ∀ y k' v', upd s.tasks t .dropped y = .done k' v' → s.tasks y = .done k' v' := by
    intro y k' ch' hy
    by_cases e : y = t
    · subst e; simp at hy
    · rw [upd_other _ _ e] at hy; exact hy
  constructor <;> simp only
  · intro y k' ch' hy
    obtain ⟨_, hy, hch⟩ := execCases _ _ _ hy
    rw [upd_other _ _ hch]
    exact h.execSlot _ _ _ hy
  · intro y y' k1 k2 ch' hy hy'
    exact h.execUniq _ _ _ _ _ (execCases _ _ _ hy).2.1 (execCases _ _ _ hy').2.1
  · intro ch' hch
    by_cases e : ch' = ch
    · subst e; simp at hch
    · rw [upd_other _ _ e] at hch
      obtain ⟨t', k', ht'⟩ := h.aliveExec ch' hch
      refine ⟨t', k', ?_⟩
      rw [upd_other]
      · exact ht'
      · rintro rfl; rw [ht] at ht'; simp at ht'; exact e ht'.2.symm
  · intro y k' ch' hy
    have hw := h.waitKey _ _ _ (waitCases _ _ _ hy)
    exact ⟨hw.1, fun t' k'' ht' => hw.2 _ _ (execCases _ _ _ ht').2.1⟩
  · exact h.slotLt
  · intro k' ch' hc t' k'' ht'
    exact h.slotKey _ _ hc _ _ (execCases _ _ _ ht').2.1
  · exact h.noReady
  · intro hp y k' v' hy; exact h.persistDone hp _ _ _ (doneCases _ _ _ hy)
  · intro hp y k' ch' v' hy hm
    refine h.persistMsg hp _ _ _ _ (waitCases _ _ _ hy) ?_
    by_cases e : ch' = ch
    · subst e; simpa using hm
    · rw [upd_other _ _ e] at hm; exact hm

theorem inv_stepFn {p : Bool} {s : State K V} (h : Inv p s) {t : Nat} {k : K}
    (ht : s.tasks t = .start k) : Inv p (stepFn s t k) := by
  unfold stepFn
  split
  · rename_i v hc
    refine inv_done h (by simp [ht]) (fun _ => hc)
  · rename_i ch hc
    split
    · rename_i ha; exact inv_wait h ht hc ha
    · rename_i ha
      refine inv_initArm h ht ?_ (by simp [hc])
      intro ch' hc'; rw [hc] at hc'; simp at hc'; subst hc'; simpa using ha
  · rename_i hc
    exact inv_initArm h ht (by simp [hc]) (by simp [hc])

theorem inv_apply {p : Bool} {s s' : State K V} {e : Event K V} (h : Inv p s)
    (he : apply p s e = some s') : Inv p s' := by
  cases e with
  | call t k =>
    simp only [apply] at he
    split at he
    · rename_i ht; cases he; exact inv_call h ht
    · cases he
  | step t =>
    simp only [apply] at he
    split at he
    · rename_i k ht; cases he; exact inv_stepFn h ht
    · cases he
  | complete t v =>
    simp only [apply] at he
    split at he
    · rename_i k ch ht; cases he; exact inv_complete h ht
    · cases he
  | cancel t =>
    simp only [apply] at he
    split at he
    · rename_i k ch ht; cases he; exact inv_cancelExec h ht
    · rename_i k ht; cases he; exact inv_neutral h (by simp [ht]) (by simp) (by simp) (by simp)
    · rename_i k ch ht; cases he; exact inv_neutral h (by simp [ht]) (by simp) (by simp) (by simp)
    · cases he
  | recvOk t =>
    simp only [apply] at he
    split at he
    · rename_i k ch ht
      split at he
      · rename_i v hm; cases he
        exact inv_done h (by simp [ht]) (fun hp => h.persistMsg hp _ _ _ _ ht hm)
      · cases he
    · cases he
  | recvErr t =>
    simp only [apply] at he
    split at he
    · rename_i k ch ht
      split at he
      · cases he; exact inv_neutral h (by simp [ht]) (by simp) (by simp) (by simp)
      · cases he
    · cases he

theorem inv_run {p : Bool} {es : List (Event K V)} {s s' : State K V} (h : Inv p s)
    (hr : run p s es = some s') : Inv p s' := by
  induction es generalizing s with
  | nil => simp [run] at hr; subst hr; exact h
  | cons e es ih =>
    simp only [run] at hr
    split at hr
    · rename_i s1 h1; exact ih (inv_apply h h1) hr
    · cases hr

theorem run_append {p : Bool} (es es' : List (Event K V)) (s : State K V) :
    run p s (es ++ es') = (run p s es).bind (fun s1 => run p s1 es') := by
  induction es generalizing s with
  | nil => simp [run]
  | cons e es ih =>
    simp only [List.cons_append, run]
    cases apply p s e with
    | none => simp
    | some s1 => simp [ih]

/-- A task that has been called keeps its key until dropped. -/
def keyOf : TState K V → Option K
  | .start k | .exec k _ | .wait k _ | .done k _ => some k
  | .idle | .dropped => none

theorem stepFn_tasks (s : State K V) (t : Nat) (k : K) :
    ∃ x, keyOf x = some k ∧ (stepFn s t k).tasks = upd s.tasks t x := by
  unfold stepFn
  split
  · exact ⟨_, rfl, rfl⟩
  · split
    · exact ⟨_, rfl, rfl⟩
    · exact ⟨_, rfl, rfl⟩
  · exact ⟨_, rfl, rfl⟩

theorem stepFn_task (s : State K V) (t : Nat) (k : K) : keyOf ((stepFn s t k).tasks t) = some k := by
  obtain ⟨x, h1, h2⟩ := stepFn_tasks s t k
  rw [h2]; simp [h1]

theorem stepFn_other (s : State K V) (t : Nat) (k : K) {y : Nat} (h : y ≠ t) :
    (stepFn s t k).tasks y = s.tasks y := by
  obtain ⟨x, _, h2⟩ := stepFn_tasks s t k
  rw [h2, upd_other _ _ h]

/-- Evolution of one task over one action: keys never change, `done` is final. -/
theorem apply_task {p : Bool} {s s' : State K V} {e : Event K V} (he : apply p s e = some s') (t : Nat) :
    (∀ k, keyOf (s'.tasks t) = some k → keyOf (s.tasks t) = some k ∨ e = .call t k) ∧
    (∀ k, keyOf (s.tasks t) = some k → keyOf (s'.tasks t) = some k ∨ s'.tasks t = .dropped) ∧
    (∀ k v, s.tasks t = .done k v → s'.tasks t = .done k v) ∧
    (s.tasks t = .dropped → s'.tasks t = .dropped) ∧
    (∀ k, e = .call t k → s'.tasks t = .start k) ∧
    (∀ v, e = .complete t v → ∃ k, s'.tasks t = .done k v) := by
  cases e with
  | call t0 k0 =>
    simp only [apply] at he
    split at he
    · rename_i ht; cases he
      by_cases h : t = t0
      · subst h; simp [ht, keyOf]
      · simp only [upd_other _ _ h]
        refine ⟨fun _ h => .inl h, fun _ h => .inl h, fun _ _ h => h, id, ?_, ?_⟩
        · intro k hk; cases hk; exact absurd rfl h
        · intro v hv; cases hv
    · cases he
  | step t0 =>
    simp only [apply] at he
    split at he
    · rename_i k0 ht; cases he
      by_cases h : t = t0
      · subst h; simp [ht, keyOf]
        simp [← keyOf.eq_def, stepFn_task]
      · simp only [stepFn_other _ _ _ h]
        refine ⟨fun _ h => .inl h, fun _ h => .inl h, fun _ _ h => h, id, ?_, ?_⟩
        · intro k hk; cases hk
        · intro v hv; cases hv
    · cases he
  | complete t0 v0 =>
    simp only [apply] at he
    split at he
    · rename_i k0 ch0 ht; cases he
      by_cases h : t = t0
      · subst h; simp [ht, keyOf, completeFn]
      · simp only [completeFn, upd_other _ _ h]
        refine ⟨fun _ h => .inl h, fun _ h => .inl h, fun _ _ h => h, id, ?_, ?_⟩
        · intro k hk; cases hk
        · intro v hv; cases hv; exact absurd rfl h
    · cases he
  | cancel t0 =>
    simp only [apply] at he
    split at he
    all_goals try (cases he)
    all_goals
      rename_i ht
      by_cases h : t = t0
      · subst h; simp [ht, keyOf]
      · simp only [upd_other _ _ h]
        refine ⟨fun _ h => .inl h, fun _ h => .inl h, fun _ _ h => h, id, ?_, ?_⟩
        · intro k hk; cases hk
        · intro v hv; cases hv
  | recvOk t0 =>
    simp only [apply] at he
    split at he
    · rename_i k0 ch0 ht
      split at he
      · cases he
        by_cases h : t = t0
        · subst h; simp [ht, keyOf]
        · simp only [upd_other _ _ h]
          refine ⟨fun _ h => .inl h, fun _ h => .inl h, fun _ _ h => h, id, ?_, ?_⟩
          · intro k hk; cases hk
          · intro v hv; cases hv
      · cases he
    · cases he
  | recvErr t0 =>
    simp only [apply] at he
    split at he
    · rename_i k0 ch0 ht
      split at he
      · cases he
        by_cases h : t = t0
        · subst h; simp [ht, keyOf]
        · simp only [upd_other _ _ h]
          refine ⟨fun _ h => .inl h, fun _ h => .inl h, fun _ _ h => h, id, ?_, ?_⟩
          · intro k hk; cases hk
          · intro v hv; cases hv
      · cases he
    · cases he

theorem run_done {p : Bool} {es : List (Event K V)} {s s' : State K V} (hr : run p s es = some s')
    {t : Nat} {k : K} {v : V} (h : s.tasks t = .done k v) : s'.tasks t = .done k v := by
  induction es generalizing s with
  | nil => simp [run] at hr; subst hr; exact h
  | cons e es ih =>
    simp only [run] at hr
    split at hr
    · rename_i s1 h1; exact ih hr ((apply_task h1 t).2.2.1 _ _ h)
    · cases hr

theorem run_key {p : Bool} {es : List (Event K V)} {s s' : State K V} (hr : run p s es = some s')
    {t : Nat} {k : K} (h : keyOf (s.tasks t) = some k ∨ s.tasks t = .dropped) :
    keyOf (s'.tasks t) = some k ∨ s'.tasks t = .dropped := by
  induction es generalizing s with
  | nil => simp [run] at hr; subst hr; exact h
  | cons e es ih =>
    simp only [run] at hr
    split at hr
    · rename_i s1 h1
      refine ih hr ?_
      rcases h with h | h
      · exact (apply_task h1 t).2.1 _ h
      · exact .inr ((apply_task h1 t).2.2.2.1 h)
    · cases hr

theorem run_call {p : Bool} {es : List (Event K V)} {s s' : State K V} (hr : run p s es = some s')
    {t : Nat} {k : K} (h : Event.call t k ∈ es) :
    keyOf (s'.tasks t) = some k ∨ s'.tasks t = .dropped := by
  induction es generalizing s with
  | nil => cases h
  | cons e es ih =>
    simp only [run] at hr
    split at hr
    · rename_i s1 h1
      rcases List.mem_cons.mp h with h | h
      · have := (apply_task h1 t).2.2.2.2.1 k h.symm
        exact run_key hr (.inl (by simp [this, keyOf]))
      · exact ih hr h
    · cases hr

theorem run_complete {p : Bool} {es : List (Event K V)} {s s' : State K V} (hr : run p s es = some s')
    {t : Nat} {v : V} (h : Event.complete t v ∈ es) : ∃ k, s'.tasks t = .done k v := by
  induction es generalizing s with
  | nil => cases h
  | cons e es ih =>
    simp only [run] at hr
    split at hr
    · rename_i s1 h1
      rcases List.mem_cons.mp h with h | h
      · obtain ⟨k, hk⟩ := (apply_task h1 t).2.2.2.2.2 v h.symm
        exact ⟨k, run_done hr hk⟩
      · exact ih hr h
    · cases hr

/-- Value `v` was produced by a computation for key `k` during `es` (started from `s1`). -/
def Prod (s1 : State K V) (es : List (Event K V)) (k : K) (v : V) : Prop :=
  ∃ t', Event.complete t' v ∈ es ∧ (keyOf (s1.tasks t') = some k ∨ Event.call t' k ∈ es)

theorem Prod.mono {s1 : State K V} {es : List (Event K V)} {e : Event K V} {k : K} {v : V}
    (h : Prod s1 es k v) : Prod s1 (es ++ [e]) k v := by
  obtain ⟨t', h1, h2⟩ := h
  refine ⟨t', by simp [h1], ?_⟩
  rcases h2 with h2 | h2
  · exact .inl h2
  · exact .inr (by simp [h2])

/-- Provenance invariant relative to a base state `s1`. -/
structure Prov (s1 : State K V) (es : List (Event K V)) (s : State K V) : Prop where
  key : ∀ t k, keyOf (s.tasks t) = some k → keyOf (s1.tasks t) = some k ∨ Event.call t k ∈ es
  waitP : ∀ t k ch v, s1.tasks t = .idle → s.tasks t = .wait k ch → (s.chans ch).msg = some v →
    Prod s1 es k v
  cacheP : ∀ k v, s.cache k = some (.ready v) → Prod s1 es k v
  doneP : ∀ t k v, s1.tasks t = .idle → s.tasks t = .done k v → Prod s1 es k v

theorem prov_key {p : Bool} {s1 s s' : State K V} {es : List (Event K V)} {e : Event K V}
    (hp : Prov s1 es s) (he : apply p s e = some s') :
    ∀ t k, keyOf (s'.tasks t) = some k → keyOf (s1.tasks t) = some k ∨ Event.call t k ∈ es ++ [e] := by
  intro t k hk
  rcases (apply_task he t).1 k hk with h | h
  · rcases hp.key t k h with h | h
    · exact .inl h
    · exact .inr (by simp [h])
  · exact .inr (by simp [h])

theorem prov_apply {p : Bool} {s1 s s' : State K V} {es : List (Event K V)} {e : Event K V}
    (hi : Inv p s) (hp : Prov s1 es s) (he : apply p s e = some s') : Prov s1 (es ++ [e]) s' := by
  refine ⟨prov_key hp he, ?_, ?_, ?_⟩
  · -- waiting tasks
    intro t k ch v hidle hw hm
    cases e with
    | call t0 k0 =>
      simp only [apply] at he; split at he
      · cases he
        by_cases h : t = t0
        · subst h; simp at hw
        · simp only [upd_other _ _ h] at hw; exact (hp.waitP _ _ _ _ hidle hw hm).mono
      · cases he
    | step t0 =>
      simp only [apply] at he; split at he
      · rename_i k0 ht; cases he
        by_cases h : t = t0
        · subst h
          unfold stepFn at hw hm
          split at hw
          · simp at hw
          · rename_i ch0 hc
            split at hw
            · rename_i ha
              simp at hw; obtain ⟨rfl, rfl⟩ := hw
              simp [hc, ha] at hm
              obtain ⟨t', k', hx⟩ := hi.aliveExec _ ha
              have := (hi.execSlot _ _ _ hx).2.2.1
              rw [this] at hm; cases hm
            · simp [initArm] at hw
          · simp [initArm] at hw
        · rw [stepFn_other _ _ _ h] at hw
          have hlt := (hi.waitKey _ _ _ hw).1
          have hm' : (s.chans ch).msg = some v := by
            unfold stepFn at hm
            split at hm
            · exact hm
            · split at hm
              · exact hm
              · simp only [initArm, upd_other _ _ (Nat.ne_of_lt hlt)] at hm; exact hm
            · simp only [initArm, upd_other _ _ (Nat.ne_of_lt hlt)] at hm; exact hm
          exact (hp.waitP _ _ _ _ hidle hw hm').mono
      · cases he
    | complete t0 v0 =>
      simp only [apply] at he; split at he
      · rename_i k0 ch0 ht; cases he
        simp only [completeFn] at hw hm
        by_cases h : t = t0
        · subst h; simp at hw
        · rw [upd_other _ _ h] at hw
          by_cases hc : ch = ch0
          · subst hc
            simp at hm; subst hm
            have := (hi.waitKey _ _ _ hw).2 _ _ ht
            subst this
            refine ⟨t0, by simp, ?_⟩
            rcases hp.key t0 k0 (by simp [ht, keyOf]) with h | h
            · exact .inl h
            · exact .inr (by simp [h])
          · rw [upd_other _ _ hc] at hm
            exact (hp.waitP _ _ _ _ hidle hw hm).mono
      · cases he
    | cancel t0 =>
      simp only [apply] at he; split at he
      · rename_i k0 ch0 ht; cases he
        by_cases h : t = t0
        · subst h; simp at hw
        · simp only [upd_other _ _ h] at hw
          refine (hp.waitP _ _ _ _ hidle hw ?_).mono
          by_cases hc : ch = ch0
          · subst hc; simpa using hm
          · simpa [upd_other _ _ hc] using hm
      · cases he
        by_cases h : t = t0
        · subst h; simp at hw
        · simp only [upd_other _ _ h] at hw; exact (hp.waitP _ _ _ _ hidle hw hm).mono
      · cases he
        by_cases h : t = t0
        · subst h; simp at hw
        · simp only [upd_other _ _ h] at hw; exact (hp.waitP _ _ _ _ hidle hw hm).mono
      · cases he
    | recvOk t0 =>
      simp only [apply] at he; split at he
      · split at he
        · cases he
          by_cases h : t = t0
          · subst h; simp at hw
          · simp only [upd_other _ _ h] at hw; exact (hp.waitP _ _ _ _ hidle hw hm).mono
        · cases he
      · cases he
    | recvErr t0 =>
      simp only [apply] at he; split at he
      · split at he
        · cases he
          by_cases h : t = t0
          · subst h; simp at hw
          · simp only [upd_other _ _ h] at hw; exact (hp.waitP _ _ _ _ hidle hw hm).mono
        · cases he
      · cases he
  · -- the cache
    intro k v hc
    cases e with
    | call t0 k0 =>
      simp only [apply] at he; split at he
      · cases he; exact (hp.cacheP _ _ hc).mono
      · cases he
    | step t0 =>
      simp only [apply] at he; split at he
      · rename_i k0 ht; cases he
        have : s.cache k = some (.ready v) := by
          unfold stepFn at hc
          split at hc
          · exact hc
          · split at hc
            · exact hc
            · simp only [initArm] at hc
              by_cases h : k = k0
              · subst h; simp at hc
              · rwa [upd_other _ _ h] at hc
          · simp only [initArm] at hc
            by_cases h : k = k0
            · subst h; simp at hc
            · rwa [upd_other _ _ h] at hc
        exact (hp.cacheP _ _ this).mono
      · cases he
    | complete t0 v0 =>
      simp only [apply] at he; split at he
      · rename_i k0 ch0 ht; cases he
        simp only [completeFn] at hc
        by_cases h : k = k0
        · subst h
          cases p
          · simp at hc
          · simp at hc; subst hc
            refine ⟨t0, by simp, ?_⟩
            rcases hp.key t0 k (by simp [ht, keyOf]) with h | h
            · exact .inl h
            · exact .inr (by simp [h])
        · rw [upd_other _ _ h] at hc; exact (hp.cacheP _ _ hc).mono
      · cases he
    | cancel t0 =>
      simp only [apply] at he; split at he
      all_goals try (cases he)
      all_goals exact (hp.cacheP _ _ hc).mono
    | recvOk t0 =>
      simp only [apply] at he; split at he
      · split at he
        · cases he; exact (hp.cacheP _ _ hc).mono
        · cases he
      · cases he
    | recvErr t0 =>
      simp only [apply] at he; split at he
      · split at he
        · cases he; exact (hp.cacheP _ _ hc).mono
        · cases he
      · cases he
  · -- finished tasks
    intro t k v hidle hd
    cases e with
    | call t0 k0 =>
      simp only [apply] at he; split at he
      · cases he
        by_cases h : t = t0
        · subst h; simp at hd
        · simp only [upd_other _ _ h] at hd; exact (hp.doneP _ _ _ hidle hd).mono
      · cases he
    | step t0 =>
      simp only [apply] at he; split at he
      · rename_i k0 ht; cases he
        by_cases h : t = t0
        · subst h
          unfold stepFn at hd
          split at hd
          · rename_i v0 hc
            simp at hd; obtain ⟨rfl, rfl⟩ := hd
            exact (hp.cacheP _ _ hc).mono
          · split at hd
            · simp at hd
            · simp [initArm] at hd
          · simp [initArm] at hd
        · rw [stepFn_other _ _ _ h] at hd
          exact (hp.doneP _ _ _ hidle hd).mono
      · cases he
    | complete t0 v0 =>
      simp only [apply] at he; split at he
      · rename_i k0 ch0 ht; cases he
        simp only [completeFn] at hd
        by_cases h : t = t0
        · subst h; simp at hd; obtain ⟨rfl, rfl⟩ := hd
          refine ⟨t, by simp, ?_⟩
          rcases hp.key t k0 (by simp [ht, keyOf]) with h | h
          · exact .inl h
          · exact .inr (by simp [h])
        · rw [upd_other _ _ h] at hd; exact (hp.doneP _ _ _ hidle hd).mono
      · cases he
    | cancel t0 =>
      simp only [apply] at he; split at he
      all_goals try (cases he)
      all_goals
        by_cases h : t = t0
        · subst h; simp at hd
        · simp only [upd_other _ _ h] at hd; exact (hp.doneP _ _ _ hidle hd).mono
    | recvOk t0 =>
      simp only [apply] at he; split at he
      · rename_i k0 ch0 ht
        split at he
        · rename_i v0 hm; cases he
          by_cases h : t = t0
          · subst h; simp at hd; obtain ⟨rfl, rfl⟩ := hd
            exact (hp.waitP _ _ _ _ hidle ht hm).mono
          · simp only [upd_other _ _ h] at hd; exact (hp.doneP _ _ _ hidle hd).mono
        · cases he
      · cases he
    | recvErr t0 =>
      simp only [apply] at he; split at he
      · split at he
        · cases he
          by_cases h : t = t0
          · subst h; simp at hd
          · simp only [upd_other _ _ h] at hd; exact (hp.doneP _ _ _ hidle hd).mono
        · cases he
      · cases he

theorem prov_run {p : Bool} {s1 : State K V} {pre es : List (Event K V)} {s s' : State K V}
    (hi : Inv p s) (hp : Prov s1 pre s) (hr : run p s es = some s') : Prov s1 (pre ++ es) s' := by
  induction es generalizing s pre with
  | nil => simp [run] at hr; subst hr; simpa using hp
  | cons e es ih =>
    simp only [run] at hr
    split at hr
    · rename_i s2 h2
      have := ih (inv_apply hi h2) (prov_apply hi hp h2) hr
      simpa using this
    · cases hr

theorem prov_base {s1 : State K V} (hnr : ∀ k v, s1.cache k ≠ some (.ready v)) : Prov s1 [] s1 := by
  refine ⟨fun t k h => .inl h, ?_, ?_, ?_⟩
  · intro t k ch v h h2; rw [h] at h2; cases h2
  · intro k v h; exact absurd h (hnr k v)
  · intro t k v h h2; rw [h] at h2; cases h2

end Verif.Dedupe
