import Verif.DataLoader.Lemmas

/-!
# Properties C06-C10 of `DataLoader`

All statements quantify over every history of atomic actions that is possible from a fresh
loader, over every configuration, key, value and error type.
-/

set_option linter.unusedSectionVars false

namespace Verif.DataLoader

variable {K V E : Type} [DecidableEq K]

/-- `s` is reachable through history `es` from a fresh loader. -/
def Reaches (cfg : Cfg) (es : List (Event K V E)) (s : State K V E) : Prop :=
  run cfg (init K V E) es = some s

/-- Caching is on. -/
def CacheOn (cfg : Cfg) (s : State K V E) : Prop :=
  cfg.hasCache = true ∧ s.disableCache = false ∧ s.disableAll = false

/-- `v` can be served for `k` from the cache right now. -/
def Avail (cfg : Cfg) (s : State K V E) (k : K) (v : V) : Prop := CacheOn cfg s ∧ s.cache k = some v

theorem lookup_avail {cfg : Cfg} {s : State K V E} {k : K} {v : V} : lookup cfg s k = some v ↔ Avail cfg s k v := by
  unfold lookup Avail CacheOn
  cases cfg.hasCache <;> cases s.disableCache <;> cases s.disableAll <;> simp

theorem lookup_none {cfg : Cfg} {s : State K V E} {k : K} : lookup cfg s k = none ↔ ∀ v, ¬ Avail cfg s k v := by
  rw [Option.eq_none_iff_forall_ne_some]
  simp only [ne_eq, lookup_avail]

/-! ## C06: answers are exactly about the keys asked -/

/-- **C06.** When a caller has been answered with a map, that map is defined only on keys the caller
asked for, and on each of them it is the value that was cached when the call was made, or else exactly
what the one upstream answer (of a batch that contained the key) says about that key. -/
theorem C06_answer_exact {cfg : Cfg} {es : List (Event K V E)} {s : State K V E} (hr : Reaches cfg es s)
    {c : Nat} {m : K → Option V} (h : s.callers c = .answered (.ok m)) :
    ∃ es1 es2 ks s1, es = es1 ++ .load c ks :: es2 ∧ Reaches cfg es1 s1 ∧ (∀ k, k ∉ ks → m k = none) ∧
      ((∀ k ∈ ks, ∃ v, Avail cfg s1 k v ∧ m k = some v) ∨
       ∃ es3 es4 i f s2 b, es2 = es3 ++ .complete i (.ok f) :: es4 ∧
         Reaches cfg (es1 ++ .load c ks :: es3) s2 ∧ s2.inflight[i]? = some b ∧
         ∀ k ∈ ks, (∃ v, Avail cfg s1 k v ∧ m k = some v) ∨
           ((∀ v, ¬ Avail cfg s1 k v) ∧ k ∈ b.keys ∧ m k = f k)) := by
  obtain ⟨es1, es2, ks, s1, h1, h2, h3⟩ := (inv_run hr).served c _ h
  refine ⟨es1, es2, ks, s1, h1, h2, ?_⟩
  rcases h3 with ⟨h3, h4⟩ | ⟨es3, es4, i, r', s2, b, h3, h4, h5, h6, h7⟩
  · injection h4 with h4
    subst h4
    refine ⟨fun k hk => by simp [hk], Or.inl fun k hk => ?_⟩
    cases hl : lookup cfg s1 k with
    | none => exact absurd hl (h3 k hk)
    | some v => exact ⟨v, lookup_avail.mp hl, by simp [hk, hl]⟩
  · cases r' with
    | error e => simp at h7
    | ok f =>
      simp only [Except.ok.injEq] at h7
      subst h7
      refine ⟨fun k hk => by simp [hk], Or.inr ⟨es3, es4, i, f, s2, b, h3, h4, h5, fun k hk => ?_⟩⟩
      cases hl : lookup cfg s1 k with
      | none => right; exact ⟨lookup_none.mp hl, h6 k hk hl, by simp [hk, hl]⟩
      | some v => left; exact ⟨v, lookup_avail.mp hl, by simp [hk, hl]⟩

/-- **C06**, failures: a caller is answered with an error only if the upstream failed with it, for a
batch that contained all the keys the caller was missing. -/
theorem C06_error_exact {cfg : Cfg} {es : List (Event K V E)} {s : State K V E} (hr : Reaches cfg es s)
    {c : Nat} {e : E} (h : s.callers c = .answered (.error e)) :
    ∃ es1 es2 ks s1, es = es1 ++ .load c ks :: es2 ∧ Reaches cfg es1 s1 ∧
       ∃ es3 es4 i s2 b, es2 = es3 ++ .complete i (.error e) :: es4 ∧
         Reaches cfg (es1 ++ .load c ks :: es3) s2 ∧ s2.inflight[i]? = some b ∧
         ∀ k ∈ ks, (∀ v, ¬ Avail cfg s1 k v) → k ∈ b.keys := by
  obtain ⟨es1, es2, ks, s1, h1, h2, h3⟩ := (inv_run hr).served c _ h
  refine ⟨es1, es2, ks, s1, h1, h2, ?_⟩
  rcases h3 with ⟨h3, h4⟩ | ⟨es3, es4, i, r', s2, b, h3, h4, h5, h6, h7⟩
  · cases h4
  · cases r' with
    | error e' =>
      simp only [Except.error.injEq] at h7
      subst h7
      exact ⟨es3, es4, i, s2, b, h3, h4, h5, fun k hk hn => h6 k hk (lookup_none.mpr hn)⟩
    | ok f => simp at h7

/-! ## C07: no request is lost -/

/-- The caller has an entry in the queue. -/
def Queued (s : State K V E) (c : Nat) : Prop := ∃ p ∈ s.pending, p.2.caller = c

/-- The caller is served by the batch. -/
def InBatch (b : Batch K V) (c : Nat) : Prop := ∃ p ∈ b.senders, p.2.caller = c

/-- **C07.** A waiting caller is either served by a batch in flight, or it is queued and a delayed
fetch task is outstanding. -/
theorem C07_never_stranded {cfg : Cfg} {es : List (Event K V E)} {s : State K V E} (hr : Reaches cfg es s)
    {c : Nat} (h : s.callers c = .waiting) :
    (∃ b ∈ s.inflight, InBatch b c) ∨ (Queued s c ∧ s.timers ≠ []) := by
  have hi := inv_run hr
  obtain ⟨p, hp, hpc⟩ := hi.wait c h
  have hne := hi.sendNe p hp
  simp only [allSenders, List.mem_append, List.mem_flatMap] at hp
  rcases hp with hp | ⟨b, hb, hp⟩
  · right
    refine ⟨⟨p, hp, hpc⟩, hi.timer ?_⟩
    obtain ⟨k, hk⟩ := List.exists_mem_of_ne_nil _ hne
    exact List.ne_nil_of_mem ((hi.keysMem k).mpr ⟨p, hp, hk⟩)
  · exact Or.inl ⟨b, hb, p, hp, hpc⟩

theorem deliver_inBatch {s : State K V E} {b : Batch K V} {c : Nat} {mk : List K × Sender K V → CState K V E}
    (hw : s.callers c = .waiting) (hb : InBatch b c) : ∃ p ∈ b.senders, p.2.caller = c ∧
      deliver s.callers b mk c = mk p := by
  cases hs : senderOf b c with
  | none =>
    obtain ⟨p, hp, hpc⟩ := hb
    exact absurd hpc (senderOf_none hs p hp)
  | some p =>
    obtain ⟨h1, h2⟩ := senderOf_some hs
    exact ⟨p, h1, h2, by simp [deliver, hw, hs]⟩

/-- **C07**, delivery: when a batch is answered every waiting caller of it is answered. -/
theorem C07_batch_answers_all {cfg : Cfg} {s s' : State K V E} {i : Nat} {b : Batch K V}
    {r : Except E (K → Option V)} (hb : s.inflight[i]? = some b) (ha : apply cfg s (.complete i r) = some s')
    {c : Nat} (hc : InBatch b c) (hw : s.callers c = .waiting) : ∃ r', s'.callers c = .answered r' := by
  simp only [apply, hb, Option.some.injEq] at ha
  subst ha
  cases r with
  | ok f =>
    obtain ⟨p, _, _, hp⟩ := deliver_inBatch (mk := fun p => .answered (.ok (resultFor f p))) hw hc
    exact ⟨_, hp⟩
  | error e =>
    obtain ⟨p, _, _, hp⟩ := deliver_inBatch (mk := fun _ => .answered (.error e)) hw hc
    exact ⟨_, hp⟩

/-- **C07**, progress: from every reachable state a waiting caller gets its answer after at most one
timer and one upstream answer. -/
theorem C07_can_always_finish {cfg : Cfg} {es : List (Event K V E)} {s : State K V E} (hr : Reaches cfg es s)
    {c : Nat} (h : s.callers c = .waiting) (r : Except E (K → Option V)) :
    ∃ es' s' r', (∃ i, es' = [.complete i r] ∨ es' = [.fire 0, .complete i r]) ∧
      run cfg s es' = some s' ∧ s'.callers c = .answered r' := by
  have fin : ∀ (s : State K V E) b, s.callers c = .waiting → b ∈ s.inflight → InBatch b c →
      ∃ i s' r', run cfg s [.complete i r] = some s' ∧ s'.callers c = .answered r' := by
    intro s b hw hb hc
    obtain ⟨i, hi⟩ := List.mem_iff_getElem?.mp hb
    have ha : apply cfg s (.complete i r) = some (completeFn cfg s i b r) := by simp [apply, hi]
    obtain ⟨r', hr'⟩ := C07_batch_answers_all hi ha hc hw
    exact ⟨i, _, r', by simp [run, ha], hr'⟩
  rcases C07_never_stranded hr h with ⟨b, hb, hc⟩ | ⟨⟨p, hp, hpc⟩, ht⟩
  · obtain ⟨i, s', r', h1, h2⟩ := fin s b h hb hc
    exact ⟨_, s', r', ⟨i, Or.inl rfl⟩, h1, h2⟩
  · have hi := inv_run hr
    cases htm : s.timers with
    | nil => exact absurd htm ht
    | cons dc ts =>
      have hkne : s.keys ≠ [] := by
        have hne := hi.sendNe p (by simp [allSenders, hp])
        obtain ⟨k, hk⟩ := List.exists_mem_of_ne_nil _ hne
        exact List.ne_nil_of_mem ((hi.keysMem k).mpr ⟨p, hp, hk⟩)
      have hf : apply cfg s (.fire 0) = some (fireFn s 0 dc) := by simp [apply, htm]
      have hw : (fireFn s 0 dc).callers c = .waiting := by
        unfold fireFn; simp only []; split <;> exact h
      have hin : (⟨s.keys, s.pending, dc⟩ : Batch K V) ∈ (fireFn s 0 dc).inflight := by
        simp [fireFn, hkne]
      obtain ⟨i, s', r', h1, h2⟩ := fin _ _ hw hin ⟨p, hp, hpc⟩
      refine ⟨[.fire 0, .complete i r], s', r', ⟨i, Or.inr rfl⟩, ?_, h2⟩
      simp only [run, hf]
      simpa only [run] using h1

/-! ## C08: batch size -/

/-- **C08** is false for `load_many`: with a maximum of 2 a single call with three keys is dispatched
as one batch of three keys. -/
theorem C08_violated_by_load_many :
    ∃ (cfg : Cfg) (es : List (Event Nat Nat Nat)) (s : State Nat Nat Nat), Reaches cfg es s ∧
      ∃ b ∈ s.inflight, cfg.maxBatch < b.keys.length :=
  ⟨⟨2, false⟩, [.load 0 [1, 2, 3]], _, rfl, ⟨[1, 2, 3], _, false⟩, List.mem_singleton.mpr rfl, by decide⟩

/-- **C08** for callers that use `load_one` (the only entry point used for HTTP, gRPC and
GraphQL sources): no batch has more keys than the configured maximum (at least one).
Missing for the full claim: `load_many` (see `C08_violated_by_load_many`). -/
theorem C08_batch_size_load_one_partial {cfg : Cfg} {es : List (Event K V E)} {s : State K V E} (hr : Reaches cfg es s)
    (hone : ∀ c ks, .load c ks ∈ es → ∃ k, ks = [k]) {b : Batch K V} (hb : b ∈ s.inflight) :
    b.keys.length ≤ max cfg.maxBatch 1 := by
  have h := size_run (m := 1) (s := init K V E) ⟨by simp [init], by simp [init]⟩
    (fun c ks h => by obtain ⟨k, rfl⟩ := hone c ks h; simp) hr
  have := h.batch b hb
  omega

/-- **C08**, what does hold with `load_many`: a batch exceeds the maximum by less than the size of the
largest call. -/
theorem C08_batch_size_load_many_partial {cfg : Cfg} {es : List (Event K V E)} {s : State K V E} (hr : Reaches cfg es s)
    {m : Nat} (hm : ∀ c ks, .load c ks ∈ es → ks.length ≤ m) {b : Batch K V} (hb : b ∈ s.inflight) :
    b.keys.length ≤ (cfg.maxBatch - 1) + m :=
  (size_run (m := m) (s := init K V E) ⟨by simp [init], by simp [init]⟩ hm hr).batch b hb

/-- **C08**, queue: what is waiting for its timer is below the maximum. -/
theorem C08_queue_below_max {cfg : Cfg} {es : List (Event K V E)} {s : State K V E} (hr : Reaches cfg es s)
    (hne : s.keys ≠ []) : s.keys.length < cfg.maxBatch := by
  have hall : ∃ m, ∀ c (ks : List K), Event.load c ks ∈ es → ks.length ≤ m := by
    clear hr hne
    induction es with
    | nil => exact ⟨0, by simp⟩
    | cons e es ih =>
      obtain ⟨m, hm⟩ := ih
      cases e with
      | load c ks =>
        refine ⟨max m ks.length, fun c' ks' h => ?_⟩
        simp only [List.mem_cons, Event.load.injEq] at h
        rcases h with ⟨_, rfl⟩ | h
        · omega
        · have := hm c' ks' h; omega
      | _ => exact ⟨m, fun c' ks' h => hm c' ks' (by simpa using h)⟩
  obtain ⟨m, hm⟩ := hall
  have h := (size_run (m := m) (s := init K V E) ⟨by simp [init], by simp [init]⟩ hm hr).queue
  have : 0 < s.keys.length := List.length_pos_iff.mpr hne
  omega

/-! ## C09: one batch per caller, no key asked twice in a batch -/

/-- **C09.** The keys of a batch are pairwise distinct, there is at least one, and they are exactly the keys
its callers were missing. -/
theorem C09_batch_keys {cfg : Cfg} {es : List (Event K V E)} {s : State K V E} (hr : Reaches cfg es s)
    {b : Batch K V} (hb : b ∈ s.inflight) :
    b.keys.Nodup ∧ b.keys ≠ [] ∧ (∀ k, k ∈ b.keys ↔ ∃ p ∈ b.senders, k ∈ p.1) ∧
    ∀ p ∈ b.senders, ∃ es1 es2 ks s1, es = es1 ++ .load p.2.caller ks :: es2 ∧ Reaches cfg es1 s1 ∧
      ∀ k, k ∈ p.1 ↔ k ∈ ks ∧ ∀ v, ¬ Avail cfg s1 k v := by
  have hi := inv_run hr
  have h := hi.batch b hb
  refine ⟨h.nodup, h.ne, h.mem, fun p hp => ?_⟩
  obtain ⟨es1, es2, ks, s1, h1, h2, h3, _⟩ := hi.origin p (by
    simp only [allSenders, List.mem_append, List.mem_flatMap]; exact Or.inr ⟨b, hb, hp⟩)
  exact ⟨es1, es2, ks, s1, h1, h2, fun k => by rw [h3, mem_missKeys, lookup_none]⟩

theorem nodup_flatMap_idx {l : List (Batch K V)} {c : Nat} :
    ((l.flatMap (·.senders)).map (fun p => p.2.caller)).Nodup → ∀ {i j : Nat} {b b' : Batch K V},
    l[i]? = some b → l[j]? = some b' → InBatch b c → InBatch b' c → i = j := by
  induction l with
  | nil => intro _ i j b b' h; simp at h
  | cons a l ih =>
    intro hn i j b b' hi hj ⟨p, hp, hpc⟩ ⟨q, hq, hqc⟩
    simp only [List.flatMap_cons, List.map_append, List.nodup_append] at hn
    have inl : ∀ {n : Nat} {x : Batch K V} {y}, l[n]? = some x → y ∈ x.senders →
        y.2.caller ∈ (l.flatMap (·.senders)).map (fun p => p.2.caller) := by
      intro n x y hx hy
      exact List.mem_map_of_mem (List.mem_flatMap.mpr ⟨x, List.mem_of_getElem? hx, hy⟩)
    cases i with
    | zero =>
      cases j with
      | zero => rfl
      | succ j =>
        exfalso
        simp only [List.getElem?_cons_zero, Option.some.injEq, List.getElem?_cons_succ] at hi hj
        subst hi
        exact hn.2.2 _ (List.mem_map_of_mem hp) _ (inl hj hq) (hpc.trans hqc.symm)
    | succ i =>
      cases j with
      | zero =>
        exfalso
        simp only [List.getElem?_cons_zero, Option.some.injEq, List.getElem?_cons_succ] at hi hj
        subst hj
        exact hn.2.2 _ (List.mem_map_of_mem hq) _ (inl hi hp) (hqc.trans hpc.symm)
      | succ j =>
        simp only [List.getElem?_cons_succ] at hi hj
        rw [ih hn.2.1 hi hj ⟨p, hp, hpc⟩ ⟨q, hq, hqc⟩]

/-- **C09**, exactly one: a caller is served by at most one batch in flight, and not while it is also
queued; inside a batch (or the queue) it occurs once. -/
theorem C09_one_batch_per_caller {cfg : Cfg} {es : List (Event K V E)} {s : State K V E} (hr : Reaches cfg es s)
    {c : Nat} :
    (∀ {i j : Nat} {b b' : Batch K V}, s.inflight[i]? = some b → s.inflight[j]? = some b' →
      InBatch b c → InBatch b' c → i = j) ∧
    (∀ b ∈ s.inflight, InBatch b c → ¬ Queued s c) ∧
    (∀ b ∈ s.inflight, (b.senders.map (fun p => p.2.caller)).Nodup) ∧
    (s.pending.map (fun p => p.2.caller)).Nodup := by
  have hu := (inv_run hr).uniq
  simp only [allSenders, List.map_append, List.nodup_append] at hu
  refine ⟨fun hi hj h h' => nodup_flatMap_idx hu.2.1 hi hj h h', ?_, ?_, hu.1⟩
  · rintro b hb ⟨p, hp, hpc⟩ ⟨q, hq, hqc⟩
    exact hu.2.2 _ (List.mem_map_of_mem hq) _
      (List.mem_map_of_mem (List.mem_flatMap.mpr ⟨b, hb, hp⟩)) (hqc.trans hpc.symm)
  · intro b hb
    have hsub : b.senders.Sublist (s.inflight.flatMap (·.senders)) :=
      List.sublist_flatten_of_mem (List.mem_map_of_mem hb)
    exact (hsub.map _).nodup hu.2.1

/-- **C09**, answered once: no action changes the answer of a caller that already has one. -/
theorem C09_answer_final {cfg : Cfg} {s s' : State K V E} {es : List (Event K V E)}
    {c : Nat} {r : Except E (K → Option V)} (h : s.callers c = .answered r) (hr : run cfg s es = some s') :
    s'.callers c = .answered r := by
  induction es generalizing s with
  | nil => simp [run] at hr; subst hr; exact h
  | cons e es ih =>
    simp only [run] at hr
    split at hr
    · rename_i s1 hs1
      refine ih ?_ hr
      have hd : ∀ b mk, deliver s.callers b mk c = .answered r := by
        intro b mk; simp [deliver, h]
      cases e with
      | load c' ks =>
        simp only [apply] at hs1
        split at hs1
        · rename_i hc'
          cases hs1
          have hne : c ≠ c' := by rintro rfl; rw [h] at hc'; cases hc'
          unfold loadFn
          simp only []
          split
          · simp only [upd_other _ _ hne]; exact h
          · split
            · simp only [upd_other _ _ hne]; exact h
            · split <;> (simp only [upd_other _ _ hne]; exact h)
        · cases hs1
      | fire i =>
        simp only [apply] at hs1
        split at hs1
        · cases hs1; unfold fireFn; simp only []; split <;> exact h
        · cases hs1
      | complete i r' =>
        simp only [apply] at hs1
        split at hs1
        · cases hs1; cases r' <;> exact hd _ _
        · cases hs1
      | crash i =>
        simp only [apply] at hs1
        split at hs1
        · cases hs1; exact hd _ _
        · cases hs1
      | cancel c' =>
        simp only [apply] at hs1
        split at hs1
        · rename_i hc'
          cases hs1
          have hne : c ≠ c' := by rintro rfl; rw [h] at hc'; cases hc'
          simp only [upd_other _ _ hne]; exact h
        · cases hs1
      | feed kvs => simp only [apply] at hs1; cases hs1; exact h
      | clear => simp only [apply] at hs1; cases hs1; exact h
      | enable b => simp only [apply] at hs1; cases hs1; exact h
      | enableAll b => simp only [apply] at hs1; cases hs1; exact h
    · cases hr

/-! ## C10: cache -/

/-- **C10**, storing: an upstream answer that arrives while caching is on (and was on when the batch was
started) makes all its values available to later calls. -/
theorem C10_answer_cached {cfg : Cfg} {s s' : State K V E} {i : Nat} {b : Batch K V} {f : K → Option V}
    (hon : CacheOn cfg s) (hb : s.inflight[i]? = some b) (hbc : b.disableCache = false)
    (ha : apply cfg s (.complete i (.ok f)) = some s') {k : K} {v : V} (hv : f k = some v) :
    Avail cfg s' k v := by
  simp only [apply, hb, Option.some.injEq] at ha
  subst ha
  obtain ⟨h1, h2, h3⟩ := hon
  exact ⟨⟨h1, h2, h3⟩, by simp [completeFn, h1, h2, hbc, cacheInsertAll, hv]⟩

/-- **C10**, hits: a call whose keys are all cached is answered at once with the cached values; nothing
is queued, no timer is started and no upstream call is made. -/
theorem C10_hit_is_immediate {cfg : Cfg} {s : State K V E} {c : Nat} {ks : List K} {val : K → V}
    (hidle : s.callers c = .idle) (hhit : ∀ k ∈ ks, Avail cfg s k (val k)) :
    ∃ s' m, apply cfg s (.load c ks) = some s' ∧ s'.callers c = .answered (.ok m) ∧
      (∀ k ∈ ks, m k = some (val k)) ∧ (∀ k, k ∉ ks → m k = none) ∧
      s'.inflight = s.inflight ∧ s'.timers = s.timers ∧ s'.keys = s.keys ∧ s'.pending = s.pending := by
  have hm : missKeys cfg s ks = [] := by
    apply List.eq_nil_iff_forall_not_mem.mpr
    intro k hk
    obtain ⟨h1, h2⟩ := mem_missKeys.mp hk
    exact lookup_none.mp h2 _ (hhit k h1)
  refine ⟨loadFn cfg s c ks, hitValues cfg s ks, by simp [apply, hidle], ?_, ?_, ?_, ?_⟩
  · simp [loadFn, hm]
  · intro k hk; simp [hitValues, hk, lookup_avail.mpr (hhit k hk)]
  · intro k hk; simp [hitValues, hk]
  · simp [loadFn, hm]

/-- **C10**, misses: a key that is not available from the cache is never answered without the upstream: the caller
has to wait. -/
theorem C10_miss_waits {cfg : Cfg} {s s' : State K V E} {c : Nat} {ks : List K} {k : K} (hk : k ∈ ks)
    (hmiss : ∀ v, ¬ Avail cfg s k v) (ha : apply cfg s (.load c ks) = some s') : s'.callers c = .waiting := by
  simp only [apply] at ha
  split at ha
  · cases ha
    have hm : missKeys cfg s ks ≠ [] := List.ne_nil_of_mem (mem_missKeys.mpr ⟨hk, lookup_none.mpr hmiss⟩)
    unfold loadFn
    simp only [List.isEmpty_iff, hm, if_false]
    split
    · simp
    · split <;> simp
  · cases ha

/-- `v` for `k` comes from this action: an upstream answer or a manual feed. -/
def Stores (e : Event K V E) (k : K) (v : V) : Prop :=
  (∃ i f, e = .complete i (.ok f) ∧ f k = some v) ∨ (∃ kvs, e = .feed kvs ∧ (k, v) ∈ kvs)

theorem feed_foldl {k : K} : ∀ {kvs : List (K × V)} {c : K → Option V},
    kvs.foldl (fun c kv => upd c kv.1 (some kv.2)) c k = c k ∨
      ∃ v, (k, v) ∈ kvs ∧ kvs.foldl (fun c kv => upd c kv.1 (some kv.2)) c k = some v := by
  intro kvs
  induction kvs with
  | nil => intro c; left; rfl
  | cons kv kvs ih =>
    intro c
    simp only [List.foldl_cons]
    rcases ih (c := upd c kv.1 (some kv.2)) with h | ⟨v, h1, h2⟩
    · by_cases hk : k = kv.1
      · right
        refine ⟨kv.2, by simp [hk], ?_⟩
        rw [h, hk]; simp
      · left; rw [h, upd_other _ _ hk]
    · right; exact ⟨v, by simp [h1], h2⟩

theorem stored_step {cfg : Cfg} {s s1 : State K V E} {e : Event K V E} (ha : apply cfg s e = some s1) (k : K) :
    s1.cache k = s.cache k ∨ (∃ v, Stores e k v ∧ s1.cache k = some v) ∨ (e = .clear ∧ s1.cache k = none) := by
  cases e with
  | load c ks =>
    simp only [apply] at ha
    split at ha
    · cases ha; left; unfold loadFn; simp only []; split
      · rfl
      · split
        · rfl
        · split <;> rfl
    · cases ha
  | fire i =>
    simp only [apply] at ha
    split at ha
    · cases ha; left; unfold fireFn; simp only []; split <;> rfl
    · cases ha
  | complete i r =>
    simp only [apply] at ha
    split at ha
    · cases ha
      cases r with
      | error e => left; rfl
      | ok f =>
        simp only [completeFn, cacheInsertAll]
        split
        · left; rfl
        · split
          · cases hf : f k with
            | none => left; simp [hf]
            | some v => right; left; exact ⟨v, Or.inl ⟨i, f, rfl, hf⟩, by simp [hf]⟩
          · left; rfl
    · cases ha
  | crash i =>
    simp only [apply] at ha
    split at ha
    · cases ha; left; rfl
    · cases ha
  | cancel c =>
    simp only [apply] at ha
    split at ha
    · cases ha; left; rfl
    · cases ha
  | feed kvs =>
    simp only [apply] at ha; cases ha
    simp only [feedCache]
    split
    · rcases feed_foldl (k := k) (kvs := kvs) (c := s.cache) with h | ⟨v, h1, h2⟩
      · left; exact h
      · right; left; exact ⟨v, Or.inr ⟨kvs, rfl, h1⟩, h2⟩
    · left; rfl
  | clear => simp only [apply] at ha; cases ha; right; right; exact ⟨rfl, rfl⟩
  | enable b => simp only [apply] at ha; cases ha; left; rfl
  | enableAll b => simp only [apply] at ha; cases ha; left; rfl

/-- **C10**, persistence: as long as the cache is not cleared a cached key stays cached, and its
value changes only to one stored later for the same key.  In particular when no later answer or feed
mentions the key, the value stays the same. -/
theorem C10_stays_cached {cfg : Cfg} {es : List (Event K V E)} : ∀ {s s' : State K V E} {k : K} {v : V},
    s.cache k = some v → .clear ∉ es → run cfg s es = some s' →
    ∃ v', s'.cache k = some v' ∧ (v' = v ∨ ∃ e ∈ es, Stores e k v') := by
  induction es with
  | nil => intro s s' k v h _ hr; simp [run] at hr; subst hr; exact ⟨v, h, Or.inl rfl⟩
  | cons e es ih =>
    intro s s' k v h hc hr
    simp only [run] at hr
    split at hr
    · rename_i s1 hs1
      have hc' : .clear ∉ es := fun hx => hc (List.mem_cons_of_mem _ hx)
      rcases stored_step hs1 k with h1 | ⟨v1, h1, h2⟩ | ⟨rfl, _⟩
      · obtain ⟨v', h3, h4⟩ := ih (h1.trans h) hc' hr
        refine ⟨v', h3, h4.imp_right ?_⟩
        rintro ⟨e', he', hs'⟩; exact ⟨e', List.mem_cons_of_mem _ he', hs'⟩
      · obtain ⟨v', h3, h4⟩ := ih h2 hc' hr
        refine ⟨v', h3, Or.inr ?_⟩
        rcases h4 with rfl | ⟨e', he', hs'⟩
        · exact ⟨e, by simp, h1⟩
        · exact ⟨e', List.mem_cons_of_mem _ he', hs'⟩
      · exact absurd List.mem_cons_self hc
    · cases hr

/-- **C10**, no invention: whatever is in the cache was stored by an upstream answer or a feed after the last
clear. -/
theorem C10_cached_is_genuine {cfg : Cfg} {es : List (Event K V E)} {s : State K V E} (hr : Reaches cfg es s)
    {k : K} {v : V} (h : s.cache k = some v) :
    ∃ es1 e es2, es = es1 ++ e :: es2 ∧ Stores e k v ∧ .clear ∉ es2 := by
  suffices hgen : ∀ (es : List (Event K V E)) (s0 s : State K V E), run cfg s0 es = some s → s.cache k = some v →
      (s0.cache k = some v ∧ .clear ∉ es) ∨ ∃ es1 e es2, es = es1 ++ e :: es2 ∧ Stores e k v ∧ .clear ∉ es2 by
    rcases hgen es _ s hr h with ⟨h1, _⟩ | h1
    · simp [init] at h1
    · exact h1
  intro es
  induction es with
  | nil => intro s0 s hr h; simp [run] at hr; subst hr; left; exact ⟨h, by simp⟩
  | cons e es ih =>
    intro s0 s hr h
    simp only [run] at hr
    split at hr
    · rename_i s1 hs1
      rcases ih s1 s hr h with ⟨h1, h2⟩ | ⟨es1, e', es2, h1, h2⟩
      · rcases stored_step hs1 k with h3 | ⟨v1, h3, h4⟩ | ⟨rfl, h4⟩
        · by_cases hec : e = .clear
          · subst hec
            simp only [apply, Option.some.injEq] at hs1
            subst hs1; simp at h1
          · left; exact ⟨h3 ▸ h1, by simp [h2]; exact fun hx => hec hx.symm⟩
        · right
          rw [h4] at h1; cases h1
          exact ⟨[], e, es, rfl, h3, h2⟩
        · rw [h4] at h1; cases h1
      · right; exact ⟨e :: es1, e', es2, by simp [h1], h2⟩
    · cases hr

/-! ## Concrete cases -/

/-- Three callers, one dropped while waiting; caller 1 overlaps with caller 0; the batch is dispatched by the timer;
the upstream knows only even keys and volunteers key 100; caller 3 then hits the cache. -/
def demo : List (Event Nat Nat String) :=
  [.load 0 [2, 3], .load 1 [4, 2], .load 2 [8], .cancel 2, .fire 0,
   .complete 0 (.ok (fun k => if k % 2 = 0 then some (10 * k) else none)), .load 3 [2, 4]]

/-- Example data for the concrete cases below. -/
def demoCfg : Cfg := ⟨10, true⟩

-- hypotheses of C06, C09_answer_final, C10_cached_is_genuine
example : ∃ s m, Reaches demoCfg demo s ∧ s.callers 0 = .answered (.ok m) ∧ m 2 = some 20 ∧ m 3 = none ∧ m 4 = none
    ∧ (∃ m3, s.callers 3 = .answered (.ok m3) ∧ m3 4 = some 40) ∧ s.cache 100 = some 1000 :=
  ⟨_, _, rfl, rfl, rfl, rfl, rfl, ⟨_, rfl, rfl⟩, rfl⟩

-- C06_error_exact
example : ∃ s, Reaches demoCfg (demo.take 5 ++ [.complete 0 (.error "boom")]) s ∧ s.callers 1 = .answered (.error "boom") :=
  ⟨_, rfl, rfl⟩

-- C07 (both disjuncts occur), C08 partial, C08_queue_below_max, C09
example : ∃ s, Reaches demoCfg (demo.take 4) s ∧ s.callers 0 = .waiting ∧ s.callers 2 = .dropped ∧
    s.keys = [2, 3, 4, 8] ∧ s.timers = [false] ∧ s.inflight = [] := ⟨_, rfl, rfl, rfl, rfl, rfl, rfl⟩

example : ∃ s b, Reaches demoCfg (demo.take 5) s ∧ s.callers 0 = .waiting ∧ s.inflight[0]? = some b ∧
    b.keys = [2, 3, 4, 8] ∧ InBatch b 1 := ⟨_, _, rfl, rfl, rfl, rfl, _, .tail _ (.head _), rfl⟩

-- load_one histories reaching the maximum (C08_batch_size_load_one_partial)
example : ∃ s b, Reaches (⟨2, false⟩ : Cfg) ([.load 0 [1], .load 1 [1], .load 2 [5]] : List (Event Nat Nat String)) s ∧
    s.inflight[0]? = some b ∧ b.keys = [1, 5] ∧ b.senders.length = 3 := ⟨_, _, rfl, rfl, rfl, rfl⟩

-- C10_answer_cached, C10_hit_is_immediate, C10_miss_waits, C10_stays_cached
example : ∃ s, Reaches demoCfg (demo.take 6) s ∧ CacheOn demoCfg s ∧ s.callers 3 = .idle ∧
    Avail demoCfg s 2 20 ∧ (∀ v, ¬ Avail demoCfg s 3 v) :=
  ⟨_, rfl, ⟨rfl, rfl, rfl⟩, rfl, lookup_avail.mp rfl, lookup_none.mp rfl⟩

example : ∃ s b, Reaches demoCfg (demo.take 5) s ∧ s.inflight[0]? = some b ∧ b.disableCache = false ∧ CacheOn demoCfg s :=
  ⟨_, _, rfl, rfl, rfl, rfl, rfl, rfl⟩

end Verif.DataLoader
