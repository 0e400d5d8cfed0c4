import Verif.DataLoader.Model

/-! Helper lemmas and the inductive invariant of the data loader. -/

set_option linter.unusedSectionVars false

namespace Verif.DataLoader

variable {K V E : Type} [DecidableEq K]

@[simp] theorem upd_same {α β : Type} [DecidableEq α] (f : α → β) (a : α) (b : β) : upd f a b a = b := by
  simp [upd]

theorem upd_other {α β : Type} [DecidableEq α] (f : α → β) {a x : α} (b : β) (h : x ≠ a) : upd f a b x = f x := by
  simp [upd, h]

/-! ### key sets -/

theorem mem_insertKey {s : List K} {k x : K} : x ∈ insertKey s k ↔ x ∈ s ∨ x = k := by
  unfold insertKey; split
  · constructor
    · exact Or.inl
    · rintro (h | rfl) <;> assumption
  · simp

theorem nodup_insertKey {s : List K} {k : K} (h : s.Nodup) : (insertKey s k).Nodup := by
  unfold insertKey; split
  · exact h
  · rename_i hk
    rw [List.nodup_append]
    refine ⟨h, by simp, ?_⟩
    intro a ha b hb
    simp only [List.mem_singleton] at hb
    subst hb
    intro hab; subst hab; exact hk ha

theorem length_insertKey_le (s : List K) (k : K) : (insertKey s k).length ≤ s.length + 1 := by
  unfold insertKey; split <;> simp

theorem le_length_insertKey (s : List K) (k : K) : s.length ≤ (insertKey s k).length := by
  unfold insertKey; split <;> simp

theorem mem_extendKeys {ks s : List K} {x : K} : x ∈ extendKeys s ks ↔ x ∈ s ∨ x ∈ ks := by
  unfold extendKeys
  induction ks generalizing s with
  | nil => simp
  | cons k ks ih => simp [ih, mem_insertKey, or_assoc]

theorem nodup_extendKeys {ks s : List K} (h : s.Nodup) : (extendKeys s ks).Nodup := by
  unfold extendKeys
  induction ks generalizing s with
  | nil => simpa
  | cons k ks ih => exact ih (nodup_insertKey h)

theorem length_extendKeys_le (ks s : List K) : (extendKeys s ks).length ≤ s.length + ks.length := by
  unfold extendKeys
  induction ks generalizing s with
  | nil => simp
  | cons k ks ih =>
    have h1 := ih (insertKey s k)
    have h2 := length_insertKey_le s k
    simp only [List.foldl_cons, List.length_cons]; omega

theorem le_length_extendKeys (ks s : List K) : s.length ≤ (extendKeys s ks).length := by
  unfold extendKeys
  induction ks generalizing s with
  | nil => simp
  | cons k ks ih =>
    have h1 := ih (insertKey s k)
    have h2 := le_length_insertKey s k
    simp only [List.foldl_cons]; omega

theorem mem_missKeys {cfg : Cfg} {s : State K V E} {ks : List K} {k : K} :
    k ∈ missKeys cfg s ks ↔ k ∈ ks ∧ lookup cfg s k = none := by
  simp [missKeys, mem_extendKeys]

theorem length_missKeys_le (cfg : Cfg) (s : State K V E) (ks : List K) :
    (missKeys cfg s ks).length ≤ ks.length := by
  have h1 := length_extendKeys_le (ks.filter (fun k => (lookup cfg s k).isNone)) ([] : List K)
  have h2 := List.length_filter_le (fun k => (lookup cfg s k).isNone) ks
  unfold missKeys
  simp only [List.length_nil] at h1
  omega

/-! ### lists -/

theorem split_eraseIdx {α : Type} : ∀ {l : List α} {i : Nat} {b : α}, l[i]? = some b →
    ∃ l1 l2, l = l1 ++ b :: l2 ∧ l.eraseIdx i = l1 ++ l2
  | [], i, b, h => by simp at h
  | a :: l, 0, b, h => by
      simp at h; subst h; exact ⟨[], l, by simp⟩
  | a :: l, i+1, b, h => by
      simp at h
      obtain ⟨l1, l2, h1, h2⟩ := split_eraseIdx h
      exact ⟨a :: l1, l2, by simp [h1], by simp [h2]⟩

/-! ### histories -/

theorem run_append {cfg : Cfg} {s : State K V E} {es es' : List (Event K V E)} :
    run cfg s (es ++ es') = (run cfg s es).bind (fun s' => run cfg s' es') := by
  induction es generalizing s with
  | nil => simp [run]
  | cons e es ih =>
    simp only [List.cons_append, run]
    split
    · exact ih
    · rfl

theorem run_snoc {cfg : Cfg} {s s' : State K V E} {es : List (Event K V E)} {e : Event K V E} :
    run cfg s (es ++ [e]) = some s' ↔ ∃ s1, run cfg s es = some s1 ∧ apply cfg s1 e = some s' := by
  rw [run_append]
  cases h : run cfg s es with
  | none => simp
  | some s1 =>
    simp only [Option.bind_some, run]
    split <;> simp_all

/-- All callers that have a sender in the loader, with their key sets. -/
def allSenders (s : State K V E) : List (List K × Sender K V) :=
  s.pending ++ s.inflight.flatMap (·.senders)

/-- A sender in the loader was created by a `load` of its caller. -/
def Origin (cfg : Cfg) (es : List (Event K V E)) (p : List K × Sender K V) : Prop :=
  ∃ es1 es2 ks s1, es = es1 ++ .load p.2.caller ks :: es2 ∧ run cfg (init K V E) es1 = some s1 ∧
    p.1 = missKeys cfg s1 ks ∧ p.2.cached = hitValues cfg s1 ks

/-- What an answer consists of, in terms of the history. -/
def Served (cfg : Cfg) (es : List (Event K V E)) (c : Nat) (r : Except E (K → Option V)) : Prop :=
  ∃ es1 es2 ks s1, es = es1 ++ .load c ks :: es2 ∧ run cfg (init K V E) es1 = some s1 ∧
    (((∀ k ∈ ks, lookup cfg s1 k ≠ none) ∧
        r = .ok (fun k => if k ∈ ks then lookup cfg s1 k else none)) ∨
     (∃ es3 es4 i r' s2 b, es2 = es3 ++ .complete i r' :: es4 ∧
        run cfg (init K V E) (es1 ++ .load c ks :: es3) = some s2 ∧
        s2.inflight[i]? = some b ∧
        (∀ k ∈ ks, lookup cfg s1 k = none → k ∈ b.keys) ∧
        match r' with
        | .ok f => r = .ok (fun k => if k ∈ ks then (lookup cfg s1 k).or (f k) else none)
        | .error e => r = .error e))

theorem Origin.snoc {cfg : Cfg} {es : List (Event K V E)} {p : List K × Sender K V} (e : Event K V E)
    (h : Origin cfg es p) : Origin cfg (es ++ [e]) p := by
  obtain ⟨es1, es2, ks, s1, h1, h2⟩ := h
  exact ⟨es1, es2 ++ [e], ks, s1, by simp [h1], h2⟩

theorem Served.snoc {cfg : Cfg} {es : List (Event K V E)} {c : Nat} {r : Except E (K → Option V)} (e : Event K V E)
    (h : Served cfg es c r) : Served cfg (es ++ [e]) c r := by
  obtain ⟨es1, es2, ks, s1, h1, h2, h3⟩ := h
  refine ⟨es1, es2 ++ [e], ks, s1, by simp [h1], h2, ?_⟩
  rcases h3 with h3 | ⟨es3, es4, i, r', s2, b, h3, h4⟩
  · exact Or.inl h3
  · exact Or.inr ⟨es3, es4 ++ [e], i, r', s2, b, by simp [h3], h4⟩

/-- Proof invariant of one batch. -/
structure BatchOk (b : Batch K V) : Prop where
  mem : ∀ k, k ∈ b.keys ↔ ∃ p ∈ b.senders, k ∈ p.1
  nodup : b.keys.Nodup
  ne : b.keys ≠ []

/-- Proof invariant of all histories. -/
structure Inv (cfg : Cfg) (es : List (Event K V E)) (s : State K V E) : Prop where
  keysMem : ∀ k, k ∈ s.keys ↔ ∃ p ∈ s.pending, k ∈ p.1
  keysNodup : s.keys.Nodup
  sendNe : ∀ p ∈ allSenders s, p.1 ≠ []
  timer : s.keys ≠ [] → s.timers ≠ []
  batch : ∀ b ∈ s.inflight, BatchOk b
  uniq : ((allSenders s).map (fun p => p.2.caller)).Nodup
  wait : ∀ c, s.callers c = .waiting → ∃ p ∈ allSenders s, p.2.caller = c
  sent : ∀ p ∈ allSenders s, s.callers p.2.caller = .waiting ∨ s.callers p.2.caller = .dropped
  origin : ∀ p ∈ allSenders s, Origin cfg es p
  served : ∀ c r, s.callers c = .answered r → Served cfg es c r

theorem inv_init (cfg : Cfg) : Inv cfg [] (init K V E) := by
  constructor <;> simp [init, allSenders]

/-- Actions that do not touch senders, keys, timers, callers. -/
theorem inv_frame {cfg : Cfg} {es : List (Event K V E)} {s s' : State K V E} (e : Event K V E) (h : Inv cfg es s)
    (h1 : s'.keys = s.keys) (h2 : s'.pending = s.pending) (h3 : s'.timers = s.timers)
    (h4 : s'.inflight = s.inflight) (h5 : s'.callers = s.callers) : Inv cfg (es ++ [e]) s' := by
  have ha : allSenders s' = allSenders s := by simp [allSenders, h2, h4]
  constructor
  · rw [h1, h2]; exact h.keysMem
  · rw [h1]; exact h.keysNodup
  · rw [ha]; exact h.sendNe
  · rw [h1, h3]; exact h.timer
  · rw [h4]; exact h.batch
  · rw [ha]; exact h.uniq
  · rw [ha, h5]; exact h.wait
  · rw [ha, h5]; exact h.sent
  · rw [ha]; intro p hp; exact (h.origin p hp).snoc e
  · rw [h5]; intro c r hc; exact (h.served c r hc).snoc e

theorem perm_nodup_map {α β : Type} {l l' : List α} (f : α → β) (h : l.Perm l') (hn : (l.map f).Nodup) :
    (l'.map f).Nodup := (h.map f).nodup_iff.mp hn

/-- The `load` action. -/
theorem inv_load {cfg : Cfg} {es : List (Event K V E)} {s : State K V E} {c : Nat} {ks : List K}
    (hrun : run cfg (init K V E) es = some s) (h : Inv cfg es s) (hc : s.callers c = .idle) :
    Inv cfg (es ++ [.load c ks]) (loadFn cfg s c ks) := by
  have hfresh : ∀ p ∈ allSenders s, p.2.caller ≠ c := by
    intro p hp heq
    have := h.sent p hp
    rw [heq, hc] at this
    rcases this with h | h <;> cases h
  unfold loadFn
  simp only []
  split
  · rename_i hemp
    have hm : missKeys cfg s ks = [] := by simpa using hemp
    constructor
    · exact h.keysMem
    · exact h.keysNodup
    · exact h.sendNe
    · exact h.timer
    · exact h.batch
    · exact h.uniq
    · intro c' hc'
      by_cases hcc : c' = c
      · subst hcc; simp at hc'
      · simp only [upd_other _ _ hcc] at hc'
        exact h.wait c' hc'
    · intro p hp
      have := hfresh p hp
      simp only [upd_other _ _ this]
      exact h.sent p hp
    · intro p hp; exact (h.origin p hp).snoc _
    · intro c' r hc'
      by_cases hcc : c' = c
      · subst hcc
        simp only [upd_same] at hc'
        injection hc' with hc'
        refine ⟨es, [], ks, s, rfl, hrun, Or.inl ⟨?_, ?_⟩⟩
        · intro k hk hn
          have : k ∈ missKeys cfg s ks := mem_missKeys.mpr ⟨hk, hn⟩
          rw [hm] at this; cases this
        · rw [← hc']; rfl
      · simp only [upd_other _ _ hcc] at hc'
        exact (h.served c' r hc').snoc _
  · rename_i hne
    have hm : missKeys cfg s ks ≠ [] := by simpa using hne
    have hmem : ∀ k, k ∈ extendKeys s.keys (missKeys cfg s ks) ↔
        ∃ p ∈ s.pending ++ [(missKeys cfg s ks, (⟨c, hitValues cfg s ks⟩ : Sender K V))], k ∈ p.1 := by
      intro k
      rw [mem_extendKeys, h.keysMem]
      simp [or_and_right, exists_or]
    have hnd : (extendKeys s.keys (missKeys cfg s ks)).Nodup := nodup_extendKeys h.keysNodup
    have hkne : extendKeys s.keys (missKeys cfg s ks) ≠ [] := by
      obtain ⟨k, hk⟩ := List.exists_mem_of_ne_nil _ hm
      exact List.ne_nil_of_mem (mem_extendKeys.mpr (Or.inr hk))
    have key : ∀ s' : State K V E, s'.callers = upd s.callers c .waiting →
        (allSenders s').Perm ((missKeys cfg s ks, (⟨c, hitValues cfg s ks⟩ : Sender K V)) :: allSenders s) →
        (∀ k, k ∈ s'.keys ↔ ∃ p ∈ s'.pending, k ∈ p.1) → s'.keys.Nodup →
        (s'.keys ≠ [] → s'.timers ≠ []) → (∀ b ∈ s'.inflight, BatchOk b) →
        Inv cfg (es ++ [.load c ks]) s' := by
      intro s' hcal hperm h1 h2 h3 h4
      have hcase : ∀ p ∈ allSenders s', p = (missKeys cfg s ks, ⟨c, hitValues cfg s ks⟩) ∨ p ∈ allSenders s := by
        intro p hp
        have := hperm.mem_iff.mp hp
        simpa using this
      constructor
      · exact h1
      · exact h2
      · intro p hp
        rcases hcase p hp with rfl | hp
        · exact hm
        · exact h.sendNe p hp
      · exact h3
      · exact h4
      · refine perm_nodup_map _ hperm.symm ?_
        simp only [List.map_cons, List.nodup_cons]
        refine ⟨?_, h.uniq⟩
        intro hx
        obtain ⟨p, hp, hpc⟩ := List.mem_map.mp hx
        exact hfresh p hp hpc
      · intro c' hc'
        by_cases hcc : c' = c
        · subst hcc
          exact ⟨_, hperm.mem_iff.mpr List.mem_cons_self, rfl⟩
        · rw [hcal, upd_other _ _ hcc] at hc'
          obtain ⟨p, hp, hpc⟩ := h.wait c' hc'
          exact ⟨p, hperm.mem_iff.mpr (List.mem_cons_of_mem _ hp), hpc⟩
      · intro p hp
        rw [hcal]
        rcases hcase p hp with rfl | hp
        · simp
        · rw [upd_other _ _ (hfresh p hp)]; exact h.sent p hp
      · intro p hp
        rcases hcase p hp with rfl | hp
        · exact ⟨es, [], ks, s, rfl, hrun, rfl, rfl⟩
        · exact (h.origin p hp).snoc _
      · intro c' r hc'
        by_cases hcc : c' = c
        · subst hcc; rw [hcal] at hc'; simp at hc'
        · rw [hcal, upd_other _ _ hcc] at hc'
          exact (h.served c' r hc').snoc _
    have hp2 : ((s.pending ++ [(missKeys cfg s ks, (⟨c, hitValues cfg s ks⟩ : Sender K V))]) ++
        s.inflight.flatMap (·.senders)).Perm
        ((missKeys cfg s ks, (⟨c, hitValues cfg s ks⟩ : Sender K V)) :: allSenders s) := by
      unfold allSenders
      rw [List.append_assoc]
      exact List.perm_middle
    split
    · refine key _ rfl ?_ (by simp) (by simp) (by simp) ?_
      · simp only [allSenders, List.flatMap_append, List.nil_append, List.flatMap_cons, List.flatMap_nil, List.append_nil]
        exact List.perm_append_comm.trans hp2
      · intro b hb
        simp only [List.mem_append, List.mem_singleton] at hb
        rcases hb with hb | rfl
        · exact h.batch b hb
        · exact ⟨hmem, hnd, hkne⟩
    · split
      · exact key _ rfl hp2 hmem hnd (by simp) h.batch
      · rename_i hs
        refine key _ rfl hp2 hmem hnd ?_ h.batch
        intro _
        apply h.timer
        intro hk
        apply hs
        simp [hk, hkne]
        simpa [hk] using hkne

theorem inv_fire {cfg : Cfg} {es : List (Event K V E)} {s : State K V E} {i : Nat} {dc : Bool}
    (h : Inv cfg es s) : Inv cfg (es ++ [.fire i]) (fireFn s i dc) := by
  unfold fireFn
  simp only []
  split
  · rename_i hk
    have hk : s.keys = [] := by simpa using hk
    have hp : s.pending = [] := by
      cases hpe : s.pending with
      | nil => rfl
      | cons p ps =>
        have h1 : p ∈ s.pending := by simp [hpe]
        have h2 := h.sendNe p (by simp [allSenders, h1])
        obtain ⟨k, hk'⟩ := List.exists_mem_of_ne_nil _ h2
        have := (h.keysMem k).mpr ⟨p, h1, hk'⟩
        simp [hk] at this
    have ha : allSenders s = s.inflight.flatMap (·.senders) := by simp [allSenders, hp]
    constructor
    · simp
    · simp
    · intro p hp; exact h.sendNe p (by rw [ha]; simpa [allSenders] using hp)
    · simp
    · exact h.batch
    · have := h.uniq
      rw [ha] at this; simpa [allSenders] using this
    · intro c hc
      have := h.wait c hc
      rw [ha] at this; simpa [allSenders] using this
    · intro p hp
      exact h.sent p (by rw [ha]; simpa [allSenders] using hp)
    · intro p hp
      exact (h.origin p (by rw [ha]; simpa [allSenders] using hp)).snoc _
    · intro c r hc; exact (h.served c r hc).snoc _
  · rename_i hk
    have hk : s.keys ≠ [] := by simpa using hk
    have hperm : (s.inflight.flatMap (·.senders) ++ s.pending).Perm (allSenders s) := List.perm_append_comm
    have hcase : ∀ s' : State K V E, s'.pending = [] → s'.inflight = s.inflight ++ [⟨s.keys, s.pending, dc⟩] →
        (allSenders s').Perm (allSenders s) := by
      intro s' h1 h2
      simpa [allSenders, h1, h2] using hperm
    constructor
    · simp
    · simp
    · intro p hp; exact h.sendNe p ((hcase _ rfl rfl).mem_iff.mp hp)
    · simp
    · intro b hb
      simp only [List.mem_append, List.mem_singleton] at hb
      rcases hb with hb | rfl
      · exact h.batch b hb
      · exact ⟨h.keysMem, h.keysNodup, hk⟩
    · exact perm_nodup_map _ (hcase _ rfl rfl).symm h.uniq
    · intro c hc
      obtain ⟨p, hp, hpc⟩ := h.wait c hc
      exact ⟨p, (hcase _ rfl rfl).mem_iff.mpr hp, hpc⟩
    · intro p hp; exact h.sent p ((hcase _ rfl rfl).mem_iff.mp hp)
    · intro p hp; exact (h.origin p ((hcase _ rfl rfl).mem_iff.mp hp)).snoc _
    · intro c r hc; exact (h.served c r hc).snoc _

theorem senderOf_some {b : Batch K V} {c : Nat} {p : List K × Sender K V} (h : senderOf b c = some p) :
    p ∈ b.senders ∧ p.2.caller = c := by
  unfold senderOf at h
  exact ⟨List.mem_of_find?_eq_some h, by simpa using List.find?_some h⟩

theorem senderOf_none {b : Batch K V} {c : Nat} (h : senderOf b c = none) :
    ∀ p ∈ b.senders, p.2.caller ≠ c := by
  unfold senderOf at h
  intro p hp
  simpa using List.find?_eq_none.mp h p hp

/-- Removing a batch and delivering to its callers. -/
theorem inv_remove {cfg : Cfg} {es : List (Event K V E)} {s s' : State K V E} {e : Event K V E} {i : Nat}
    {b : Batch K V} {mk : List K × Sender K V → CState K V E}
    (h : Inv cfg es s) (hb : s.inflight[i]? = some b)
    (h1 : s'.keys = s.keys) (h2 : s'.pending = s.pending) (h3 : s'.timers = s.timers)
    (h4 : s'.inflight = s.inflight.eraseIdx i) (h5 : s'.callers = deliver s.callers b mk)
    (hmk : ∀ p, mk p ≠ .waiting)
    (hans : ∀ p ∈ b.senders, ∀ r, mk p = .answered r → Served cfg (es ++ [e]) p.2.caller r) :
    Inv cfg (es ++ [e]) s' := by
  obtain ⟨l1, l2, hl, hle⟩ := split_eraseIdx hb
  have hall : allSenders s = s.pending ++ (l1.flatMap (·.senders) ++ (b.senders ++ l2.flatMap (·.senders))) := by
    simp [allSenders, hl]
  have hall' : allSenders s' = s.pending ++ (l1.flatMap (·.senders) ++ l2.flatMap (·.senders)) := by
    simp [allSenders, h2, h4, hle]
  have hsub : (allSenders s').Sublist (allSenders s) := by
    rw [hall, hall']
    exact List.Sublist.append (List.Sublist.refl _)
      (List.Sublist.append (List.Sublist.refl _) (List.sublist_append_right _ _))
  -- a caller with a sender left in s' has none in b
  have hsep : ∀ p ∈ allSenders s', senderOf b p.2.caller = none := by
    intro p hp
    cases hs : senderOf b p.2.caller with
    | none => rfl
    | some q =>
      exfalso
      obtain ⟨hq, hqc⟩ := senderOf_some hs
      have hperm : (allSenders s).Perm (b.senders ++ allSenders s') := by
        rw [hall, hall']
        refine List.Perm.trans ?_ List.perm_append_comm
        rw [List.append_assoc]
        refine List.Perm.append_left _ ?_
        rw [List.append_assoc]
        exact List.Perm.append_left _ List.perm_append_comm
      have hu := perm_nodup_map (fun p => p.2.caller) hperm h.uniq
      rw [List.map_append, List.nodup_append] at hu
      exact hu.2.2 _ (List.mem_map_of_mem hq) _ (List.mem_map_of_mem hp) hqc
  constructor
  · rw [h1, h2]; exact h.keysMem
  · rw [h1]; exact h.keysNodup
  · intro p hp; exact h.sendNe p (hsub.mem hp)
  · rw [h1, h3]; exact h.timer
  · intro b' hb'
    rw [h4] at hb'
    exact h.batch b' (List.mem_of_mem_eraseIdx hb')
  · exact (hsub.map _).nodup h.uniq
  · intro c hc
    rw [h5] at hc
    unfold deliver at hc
    split at hc
    · exact absurd hc (hmk _)
    · rename_i hst
      obtain ⟨p, hp, hpc⟩ := h.wait c hc
      have hnb : senderOf b c = none := by
        cases hs : senderOf b c with
        | none => rfl
        | some q => exact absurd hs (by intro hs; exact hst q hc hs)
      refine ⟨p, ?_, hpc⟩
      rw [hall] at hp
      rw [hall']
      simp only [List.mem_append] at hp ⊢
      rcases hp with hp | hp | hp | hp
      · exact Or.inl hp
      · exact Or.inr (Or.inl hp)
      · exact absurd hpc (senderOf_none hnb p hp)
      · exact Or.inr (Or.inr hp)
  · intro p hp
    have h6 := h.sent p (hsub.mem hp)
    rw [h5]
    have h7 : deliver s.callers b mk p.2.caller = s.callers p.2.caller := by
      unfold deliver
      rw [hsep p hp]
      split
      · rename_i hq; cases hq
      · rfl
    rw [h7]; exact h6
  · intro p hp; exact (h.origin p (hsub.mem hp)).snoc _
  · intro c r hc
    rw [h5] at hc
    unfold deliver at hc
    split at hc
    · rename_i q hw hq
      obtain ⟨hq1, hq2⟩ := senderOf_some hq
      have := hans q hq1 r hc
      rwa [hq2] at this
    · exact (h.served c r hc).snoc _

/-- How an answer computed by `resultFor` looks like in terms of the caller's `load`. -/
theorem resultFor_eq {cfg : Cfg} {s1 : State K V E} {ks : List K} {p : List K × Sender K V} {f : K → Option V}
    (h1 : p.1 = missKeys cfg s1 ks) (h2 : p.2.cached = hitValues cfg s1 ks) :
    resultFor f p = fun k => if k ∈ ks then (lookup cfg s1 k).or (f k) else none := by
  funext k
  simp only [resultFor, h1, h2, mem_missKeys, hitValues]
  by_cases hk : k ∈ ks
  · cases hl : lookup cfg s1 k <;> simp [hk]
  · simp [hk]

theorem inv_complete {cfg : Cfg} {es : List (Event K V E)} {s : State K V E} {i : Nat} {b : Batch K V}
    {r : Except E (K → Option V)} (hrun : run cfg (init K V E) es = some s)
    (h : Inv cfg es s) (hb : s.inflight[i]? = some b) :
    Inv cfg (es ++ [.complete i r]) (completeFn cfg s i b r) := by
  have hbm : b ∈ s.inflight := List.mem_of_getElem? hb
  have base : ∀ p ∈ b.senders, ∀ r', (match (generalizing := false) r with
        | .ok f => r' = .ok (resultFor f p)
        | .error e => r' = .error e) → Served cfg (es ++ [.complete i r]) p.2.caller r' := by
    intro p hp r' hr'
    have hpa : p ∈ allSenders s := by
      simp only [allSenders, List.mem_append, List.mem_flatMap]
      exact Or.inr ⟨b, hbm, hp⟩
    obtain ⟨es1, es2, ks, s1, he, hr1, hk, hcv⟩ := h.origin p hpa
    refine ⟨es1, es2 ++ [.complete i r], ks, s1, by simp [he], hr1, Or.inr
      ⟨es2, [], i, r, s, b, rfl, by rw [← he]; exact hrun, hb, ?_, ?_⟩⟩
    · intro k hkk hn
      refine ((h.batch b hbm).mem k).mpr ⟨p, hp, ?_⟩
      rw [hk]; exact mem_missKeys.mpr ⟨hkk, hn⟩
    · cases r with
      | ok f => simp only at hr'; simp only; rw [hr', resultFor_eq hk hcv]
      | error e => exact hr'
  cases r with
  | ok f =>
    refine inv_remove (mk := fun p => .answered (.ok (resultFor f p))) h hb rfl rfl rfl rfl rfl
      (by intro p hp; cases hp) ?_
    intro p hp r' hr'
    injection hr' with hr'
    exact base p hp r' hr'.symm
  | error e =>
    refine inv_remove (mk := fun p => .answered (.error e)) h hb rfl rfl rfl rfl rfl
      (by intro p hp; cases hp) ?_
    intro p hp r' hr'
    injection hr' with hr'
    exact base p hp r' hr'.symm

theorem inv_apply {cfg : Cfg} {es : List (Event K V E)} {s s' : State K V E} {e : Event K V E}
    (hrun : run cfg (init K V E) es = some s) (h : Inv cfg es s) (ha : apply cfg s e = some s') :
    Inv cfg (es ++ [e]) s' := by
  cases e with
  | load c ks =>
    simp only [apply] at ha
    split at ha
    · rename_i hc; cases ha; exact inv_load hrun h hc
    · cases ha
  | fire i =>
    simp only [apply] at ha
    split at ha
    · cases ha; exact inv_fire h
    · cases ha
  | complete i r =>
    simp only [apply] at ha
    split at ha
    · rename_i b hb; cases ha; exact inv_complete hrun h hb
    · cases ha
  | crash i =>
    simp only [apply] at ha
    split at ha
    · rename_i b hb; cases ha
      exact inv_remove (mk := fun _ => .panicked) h hb rfl rfl rfl rfl rfl
        (by intro p hp; cases hp) (by intro p _ r hr; cases hr)
    · cases ha
  | cancel c =>
    simp only [apply] at ha
    split at ha
    · rename_i hw
      cases ha
      constructor
      · exact h.keysMem
      · exact h.keysNodup
      · exact h.sendNe
      · exact h.timer
      · exact h.batch
      · exact h.uniq
      · intro c' hc'
        by_cases hcc : c' = c
        · subst hcc; simp at hc'
        · simp only [upd_other _ _ hcc] at hc'
          exact h.wait c' hc'
      · intro p hp
        by_cases hcc : p.2.caller = c
        · right; simp only [hcc, upd_same]
        · simp only [upd_other _ _ hcc]; exact h.sent p hp
      · intro p hp; exact (h.origin p hp).snoc _
      · intro c' r hc'
        by_cases hcc : c' = c
        · subst hcc; simp at hc'
        · simp only [upd_other _ _ hcc] at hc'
          exact (h.served c' r hc').snoc _
    · cases ha
  | feed kvs => simp only [apply] at ha; cases ha; exact inv_frame _ h rfl rfl rfl rfl rfl
  | clear => simp only [apply] at ha; cases ha; exact inv_frame _ h rfl rfl rfl rfl rfl
  | enable b => simp only [apply] at ha; cases ha; exact inv_frame _ h rfl rfl rfl rfl rfl
  | enableAll b => simp only [apply] at ha; cases ha; exact inv_frame _ h rfl rfl rfl rfl rfl

theorem inv_run_aux {cfg : Cfg} (n : Nat) : ∀ {es : List (Event K V E)} {s : State K V E}, es.length = n →
    run cfg (init K V E) es = some s → Inv cfg es s := by
  induction n with
  | zero =>
    intro es s hn hr
    have : es = [] := List.length_eq_zero_iff.mp hn
    subst this
    simp [run] at hr; subst hr; exact inv_init cfg
  | succ n ih =>
    intro es s hn hr
    have hne : es ≠ [] := by rintro rfl; simp at hn
    obtain ⟨es', e, rfl⟩ : ∃ es' e, es = es' ++ [e] := ⟨es.dropLast, es.getLast hne, (List.dropLast_concat_getLast hne).symm⟩
    obtain ⟨s1, hr1, ha⟩ := run_snoc.mp hr
    exact inv_apply hr1 (ih (by simpa using hn) hr1) ha

theorem inv_run {cfg : Cfg} {es : List (Event K V E)} {s : State K V E}
    (hr : run cfg (init K V E) es = some s) : Inv cfg es s := inv_run_aux es.length rfl hr

/-! ### batch sizes -/

/-- If every `load` asks for at most `m` keys then no batch exceeds `max maxBatch 1 + m - 1`, and the queue stays
below `maxBatch`. -/
structure SizeInv (cfg : Cfg) (m : Nat) (s : State K V E) : Prop where
  queue : s.keys.length ≤ cfg.maxBatch - 1
  batch : ∀ b ∈ s.inflight, b.keys.length ≤ cfg.maxBatch - 1 + m

theorem size_apply {cfg : Cfg} {m : Nat} {s s' : State K V E} {e : Event K V E} (h : SizeInv cfg m s)
    (hm : ∀ c ks, e = .load c ks → ks.length ≤ m) (ha : apply cfg s e = some s') : SizeInv cfg m s' := by
  cases e with
  | load c ks =>
    simp only [apply] at ha
    split at ha
    · cases ha
      have hlen := hm c ks rfl
      have h1 := length_missKeys_le cfg s ks
      have h2 := length_extendKeys_le (missKeys cfg s ks) s.keys
      have h3 := h.queue
      unfold loadFn
      simp only []
      split
      · exact ⟨h.queue, h.batch⟩
      · split
        · refine ⟨by simp, ?_⟩
          intro b hb
          simp only [List.mem_append, List.mem_singleton] at hb
          rcases hb with hb | rfl
          · exact h.batch b hb
          · simp only; omega
        · split
          · exact ⟨by simp only; omega, h.batch⟩
          · exact ⟨by simp only; omega, h.batch⟩
    · cases ha
  | fire i =>
    simp only [apply] at ha
    split at ha
    · cases ha
      unfold fireFn
      simp only []
      split
      · exact ⟨by simp, h.batch⟩
      · refine ⟨by simp, ?_⟩
        intro b hb
        simp only [List.mem_append, List.mem_singleton] at hb
        rcases hb with hb | rfl
        · exact h.batch b hb
        · have := h.queue; simp only; omega
    · cases ha
  | complete i r =>
    simp only [apply] at ha
    split at ha
    · cases ha
      cases r <;> exact ⟨h.queue, fun b hb => h.batch b (List.mem_of_mem_eraseIdx hb)⟩
    · cases ha
  | crash i =>
    simp only [apply] at ha
    split at ha
    · cases ha
      exact ⟨h.queue, fun b hb => h.batch b (List.mem_of_mem_eraseIdx hb)⟩
    · cases ha
  | cancel c =>
    simp only [apply] at ha
    split at ha
    · cases ha; exact ⟨h.queue, h.batch⟩
    · cases ha
  | feed kvs => simp only [apply] at ha; cases ha; exact ⟨h.queue, h.batch⟩
  | clear => simp only [apply] at ha; cases ha; exact ⟨h.queue, h.batch⟩
  | enable b => simp only [apply] at ha; cases ha; exact ⟨h.queue, h.batch⟩
  | enableAll b => simp only [apply] at ha; cases ha; exact ⟨h.queue, h.batch⟩

theorem size_run {cfg : Cfg} {m : Nat} {es : List (Event K V E)} : ∀ {s s' : State K V E}, SizeInv cfg m s →
    (∀ c ks, .load c ks ∈ es → ks.length ≤ m) → run cfg s es = some s' → SizeInv cfg m s' := by
  induction es with
  | nil => intro s s' h _ hr; simp [run] at hr; subst hr; exact h
  | cons e es ih =>
    intro s s' h hm hr
    simp only [run] at hr
    split at hr
    · rename_i s1 hs1
      exact ih (size_apply h (fun c ks he => hm c ks (by simp [he])) hs1)
        (fun c ks he => hm c ks (List.mem_cons_of_mem _ he)) hr
    · cases hr

end Verif.DataLoader
