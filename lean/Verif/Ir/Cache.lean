import Verif.Ir.Types

/-!
# C55: `@cache`, and what the planner concludes from caching and deduplication (C68)
-/

namespace Verif.Ir

open Verif.Mustache (Text Template)
open Verif.HttpUrl (GVal)
open Verif.Auth (Auth)

set_option linter.unusedSimpArgs false

/-! ## Histories of stores -/

/-- Specification: a value stored at a moment, under a key, for some time. -/
structure Store where
  time : Nat
  key : Nat
  value : GVal
  maxAge : Nat

/-- The stores of a log. -/
def stores : List Ev → List Store
  | [] => []
  | .call _ _ :: r => stores r
  | .store t k v m :: r => ⟨t, k, v, m⟩ :: stores r

theorem stores_append (a b : List Ev) : stores (a ++ b) = stores a ++ stores b := by
  induction a with
  | nil => rfl
  | cons e r ih => cases e <;> simp [stores, ih]

/-- The cache after a history of stores. -/
def cacheOf (cap : Nat) (h : List Store) : List (Nat × GVal × Nat) :=
  h.foldl (fun c s => cacheSet cap s.time s.key s.value s.maxAge c) []

theorem cacheOf_snoc (cap : Nat) (h : List Store) (s : Store) :
    cacheOf cap (h ++ [s]) = cacheSet cap s.time s.key s.value s.maxAge (cacheOf cap h) := by
  simp [cacheOf, List.foldl_append]

/-- Specification: `s` is the last store of its key in the history, followed by `n` others. -/
def LastStore (h : List Store) (s : Store) (n : Nat) : Prop :=
  ∃ pre post, h = pre ++ s :: post ∧ (∀ x ∈ post, x.key ≠ s.key) ∧ post.length = n

theorem cacheGet_mem {now k : Nat} {v : GVal} {c : List (Nat × GVal × Nat)}
    (h : cacheGet now k c = some v) : ∃ exp, (k, v, exp) ∈ c ∧ now ≤ exp := by
  induction c with
  | nil => simp [cacheGet] at h
  | cons e r ih =>
    obtain ⟨k', v', exp⟩ := e
    simp only [cacheGet] at h
    by_cases hk : k' = k
    · subst hk
      rw [if_pos rfl] at h
      by_cases hn : now ≤ exp
      · rw [if_pos hn] at h; cases h; exact ⟨exp, by simp, hn⟩
      · rw [if_neg hn] at h; simp at h
    · rw [if_neg hk] at h
      obtain ⟨exp, hm, hn⟩ := ih h
      exact ⟨exp, by simp [hm], hn⟩

theorem snoc_induction {α : Type} {P : List α → Prop} (h0 : P []) (h1 : ∀ l a, P l → P (l ++ [a]))
    (l : List α) : P l := by
  have : ∀ n (l : List α), l.length = n → P l := by
    intro n
    induction n with
    | zero => intro l hl; cases l with
      | nil => exact h0
      | cons a r => simp at hl
    | succ n ih =>
      intro l hl
      have hne : l ≠ [] := by intro h; subst h; simp at hl
      rw [← List.dropLast_concat_getLast hne]
      exact h1 _ _ (ih _ (by simp [hl]))
  exact this _ l rfl

theorem cacheOf_entry (cap : Nat) (h : List Store) (k : Nat) (v : GVal) (exp : Nat)
    (hm : (k, v, exp) ∈ cacheOf cap h) : ∃ s n, LastStore h s n ∧ s.key = k ∧ s.value = v ∧
      exp = s.time + s.maxAge := by
  induction h using snoc_induction generalizing k v exp with
  | h0 => simp [cacheOf] at hm
  | h1 l a ih =>
    rw [cacheOf_snoc] at hm
    have hm2 : (k, v, exp) ∈ (cacheOf cap l).filter (fun e => e.1 ≠ a.key) ++
        [(a.key, a.value, a.time + a.maxAge)] := by
      unfold cacheSet at hm
      simp only [] at hm
      by_cases hlen : ((cacheOf cap l).filter (fun e => e.1 ≠ a.key) ++
          [(a.key, a.value, a.time + a.maxAge)]).length > cap
      · rw [if_pos hlen] at hm; exact List.mem_of_mem_drop hm
      · rw [if_neg hlen] at hm; exact hm
    rcases List.mem_append.1 hm2 with hm3 | hm3
    · simp only [List.mem_filter, decide_eq_true_eq, ne_eq, decide_not, Bool.not_eq_true',
        decide_eq_false_iff_not] at hm3
      obtain ⟨s, n, ⟨pre, post, h1, h2, h3⟩, hk, hv, he⟩ := ih k v exp hm3.1
      refine ⟨s, n + 1, ⟨pre, post ++ [a], by simp [h1], ?_, by simp [h3]⟩, hk, hv, he⟩
      intro x hx
      rcases List.mem_append.1 hx with hx | hx
      · exact h2 x hx
      · simp only [List.mem_singleton] at hx; subst hx; rw [hk]; exact Ne.symm hm3.2
    · simp only [List.mem_singleton, Prod.mk.injEq] at hm3
      obtain ⟨rfl, rfl, rfl⟩ := hm3
      exact ⟨a, 0, ⟨l, [], rfl, by simp, rfl⟩, rfl, rfl, rfl⟩

theorem cacheGet_skip (now k : Nat) (p c : List (Nat × GVal × Nat)) (h : ∀ e ∈ p, e.1 ≠ k) :
    cacheGet now k (p ++ c) = cacheGet now k c := by
  induction p with
  | nil => rfl
  | cons e r ih =>
    obtain ⟨k', v', exp⟩ := e
    simp only [List.cons_append, cacheGet]
    rw [if_neg (h (k', v', exp) (by simp))]
    exact ih (fun x hx => h x (by simp [hx]))

theorem cacheOf_last (cap : Nat) (pre : List Store) (s : Store) (post : List Store)
    (hpost : ∀ x ∈ post, x.key ≠ s.key) (hlen : post.length < cap) :
    ∃ p q, cacheOf cap (pre ++ s :: post) = p ++ (s.key, s.value, s.time + s.maxAge) :: q ∧
      (∀ e ∈ p, e.1 ≠ s.key) ∧ q.length ≤ post.length := by
  induction post using snoc_induction with
  | h0 =>
    rw [cacheOf_snoc]
    unfold cacheSet
    simp only []
    have hf : ∀ e ∈ (cacheOf cap pre).filter (fun e => e.1 ≠ s.key), e.1 ≠ s.key := by
      intro e he
      simp only [List.mem_filter, decide_eq_true_eq, ne_eq, decide_not, Bool.not_eq_true',
        decide_eq_false_iff_not] at he
      exact he.2
    generalize (cacheOf cap pre).filter (fun e => e.1 ≠ s.key) = f at hf
    by_cases hl : (f ++ [(s.key, s.value, s.time + s.maxAge)]).length > cap
    · rw [if_pos hl]
      cases f with
      | nil => simp at hl hlen; omega
      | cons e r => exact ⟨r, [], by simp, fun x hx => hf x (by simp [hx]), by simp⟩
    · rw [if_neg hl]
      exact ⟨f, [], rfl, hf, by simp⟩
  | h1 l a ih =>
    have hl' : l.length + 1 < cap := by simpa using hlen
    obtain ⟨p, q, h1, h2, h3⟩ := ih (fun x hx => hpost x (by simp [hx])) (by omega)
    have ha : a.key ≠ s.key := hpost a (by simp)
    rw [show pre ++ s :: (l ++ [a]) = (pre ++ s :: l) ++ [a] by simp, cacheOf_snoc, h1]
    unfold cacheSet
    simp only []
    have hfil : (p ++ (s.key, s.value, s.time + s.maxAge) :: q).filter (fun e => e.1 ≠ a.key) =
        p.filter (fun e => e.1 ≠ a.key) ++ (s.key, s.value, s.time + s.maxAge) ::
          q.filter (fun e => e.1 ≠ a.key) := by
      simp [List.filter_append, List.filter_cons, Ne.symm ha]
    rw [hfil]
    have hp : ∀ e ∈ p.filter (fun e => e.1 ≠ a.key), e.1 ≠ s.key :=
      fun e he => h2 e (List.mem_filter.1 he).1
    have hq : (q.filter (fun e => e.1 ≠ a.key)).length ≤ q.length := List.length_filter_le _ _
    generalize p.filter (fun e => e.1 ≠ a.key) = p' at hp
    generalize q.filter (fun e => e.1 ≠ a.key) = q' at hq
    rw [show p' ++ (s.key, s.value, s.time + s.maxAge) :: q' ++
        [(a.key, a.value, a.time + a.maxAge)] = p' ++ (s.key, s.value, s.time + s.maxAge) ::
        (q' ++ [(a.key, a.value, a.time + a.maxAge)]) by simp]
    have hql : (q' ++ [(a.key, a.value, a.time + a.maxAge)]).length ≤ l.length + 1 := by
      simp; omega
    generalize (q' ++ [(a.key, a.value, a.time + a.maxAge)]) = q2 at hql
    by_cases hl : (p' ++ (s.key, s.value, s.time + s.maxAge) :: q2).length > cap
    · rw [if_pos hl]
      cases p' with
      | nil => simp at hl; omega
      | cons e r =>
        exact ⟨r, q2, by simp, fun x hx => hp x (by simp [hx]), by simpa using hql⟩
    · rw [if_neg hl]
      exact ⟨p', q2, rfl, hp, by simpa using hql⟩

/-- C55: a value found in the cache is the last one stored under its key, and its time is not
over. -/
theorem C55_hit_is_fresh (cap : Nat) (h : List Store) (now k : Nat) (v : GVal)
    (hg : cacheGet now k (cacheOf cap h) = some v) :
    ∃ s n, LastStore h s n ∧ s.key = k ∧ s.value = v ∧ now ≤ s.time + s.maxAge := by
  obtain ⟨exp, hm, hn⟩ := cacheGet_mem hg
  obtain ⟨s, n, h1, h2, h3, h4⟩ := cacheOf_entry cap h k v exp hm
  exact ⟨s, n, h1, h2, h3, h4 ▸ hn⟩

/-- C55: the last value stored under a key is found in the cache until its time is over, as long as
fewer other values than the capacity have been stored since. -/
theorem C55_stored_is_found (cap : Nat) (h : List Store) (s : Store) (n : Nat)
    (hs : LastStore h s n) (hn : n < cap) (now : Nat) (ht : now ≤ s.time + s.maxAge) :
    cacheGet now s.key (cacheOf cap h) = some s.value := by
  obtain ⟨pre, post, h1, h2, h3⟩ := hs
  obtain ⟨p, q, g1, g2, _⟩ := cacheOf_last cap pre s post h2 (by omega)
  rw [h1, g1, cacheGet_skip now s.key p _ g2]
  simp [cacheGet, ht]

example : cacheGet 25 7 (cacheOf 2 [⟨10, 7, .int 1, 20⟩, ⟨12, 8, .int 2, 20⟩]) = some (.int 1) :=
  C55_stored_is_found 2 _ ⟨10, 7, .int 1, 20⟩ 1
    ⟨[], [⟨12, 8, .int 2, 20⟩], rfl, by simp, rfl⟩ (by decide) 25 (by decide)
/-- Above capacity the value is lost earlier. -/
example : cacheGet 25 7 (cacheOf 2 [⟨10, 7, .int 1, 20⟩, ⟨12, 8, .int 2, 20⟩, ⟨13, 9, .int 3, 20⟩]) =
    none := by rfl
/-- After its time it is not found. -/
example : cacheGet 31 7 (cacheOf 2 [⟨10, 7, .int 1, 20⟩, ⟨12, 8, .int 2, 20⟩]) = none := by rfl

/-! ## Evaluation keeps the cache in step with its stores -/

/-- The steps of evaluation move the state along `T`. -/
structure Base (P : Ctx → Prop) (T : St → St → Prop) (w : World) : Prop where
  closed : Closed P
  refl : ∀ s, T s s
  trans : ∀ a b c, T a b → T b c → T a c
  io : ∀ i, Moves P T (evalIo w i)
  cache : ∀ m i, Moves P T (evalCache w m i)

mutual
theorem eval_moves {P : Ctx → Prop} {T : St → St → Prop} {w : World} (hb : Base P T w) (x : IR) :
    Moves P T (eval w x) := by
  intro c st hc
  match x with
  | .ctxPath p => simp only [eval]; exact hb.refl _
  | .dynamic d => simp only [eval]; exact hb.refl _
  | .service s => simp only [eval]; exact hb.refl _
  | .io i => simp only [eval]; exact hb.io i c st hc
  | .cache m i => simp only [eval]; exact hb.cache m i c st hc
  | .path y p =>
    have ih := eval_moves hb y c st hc
    simp only [eval]
    generalize eval w y c st = q at *
    obtain ⟨st', v⟩ := q
    cases v <;> exact ih
  | .map y m =>
    have ih := eval_moves hb y c st hc
    simp only [eval]
    generalize eval w y c st = q at *
    obtain ⟨st', v⟩ := q
    cases v <;> exact ih
  | .discriminate d y =>
    have ih := eval_moves hb y c st hc
    simp only [eval]
    generalize eval w y c st = q at *
    obtain ⟨st', v⟩ := q
    cases v <;> exact ih
  | .protect a y =>
    simp only [eval]
    cases Verif.Auth.verify c.auth a with
    | fail e => exact hb.refl _
    | succeed => exact eval_moves hb y c st hc
  | .pipe y z =>
    have ih := eval_moves hb y c st hc
    simp only [eval]
    generalize eval w y c st = q at *
    obtain ⟨st', v⟩ := q
    cases v with
    | error e => exact ih
    | ok v => exact hb.trans _ _ _ ih (eval_moves hb z (c.withArgs v) st' (hb.closed.2 c v hc))
  | .merge l =>
    have ih := evalAll_moves hb l c st hc
    simp only [eval]
    generalize evalAll w l c st = q at *
    obtain ⟨st', rs⟩ := q
    simp only [] at ih ⊢
    cases collect rs <;> exact ih
  | .entity m =>
    simp only [eval]
    exact evalEntity_moves hb.closed hb.refl hb.trans _ (evalMap_moves hb m) c st hc
theorem evalAll_moves {P : Ctx → Prop} {T : St → St → Prop} {w : World} (hb : Base P T w)
    (l : List IR) (c : Ctx) (st : St) (hc : P c) : T st (evalAll w l c st).1 := by
  match l with
  | [] => simp only [evalAll]; exact hb.refl _
  | x :: xs =>
    have h1 := eval_moves hb x c st hc
    simp only [evalAll]
    generalize eval w x c st = q at *
    obtain ⟨st1, v⟩ := q
    simp only [] at h1 ⊢
    have h2 := evalAll_moves hb xs c st1 hc
    generalize evalAll w xs c st1 = q2 at *
    obtain ⟨st2, vs⟩ := q2
    exact hb.trans _ _ _ h1 h2
theorem evalMap_moves {P : Ctx → Prop} {T : St → St → Prop} {w : World} (hb : Base P T w)
    (m : List (Text × IR)) : ∀ p ∈ evalMap w m, Moves P T p.2 := by
  match m with
  | [] => simp [evalMap]
  | p :: rest =>
    intro q hq
    simp only [evalMap, List.mem_cons] at hq
    rcases hq with hq | hq
    · rw [hq]; exact evalEntry_moves hb p
    · exact evalMap_moves hb rest q hq
theorem evalEntry_moves {P : Ctx → Prop} {T : St → St → Prop} {w : World} (hb : Base P T w)
    (p : Text × IR) : Moves P T (evalEntry w p).2 := by
  match p with
  | (t, x) => simp only [evalEntry]; exact eval_moves hb x
end

/-- The cache is what the stores of the log make it. -/
def InStep (w : World) (st : St) : Prop := st.cache = cacheOf w.cap (stores st.log)

theorem callIo_inStep (w : World) (i : Io) (c : Ctx) (st : St) (h : InStep w st) :
    InStep w (callIo w i c st).1 := by
  unfold InStep callIo at *
  simp only [stores_append, stores, List.append_nil]
  exact h

theorem evalIo_inStep (w : World) (i : Io) (c : Ctx) (st : St) (h : InStep w st) :
    InStep w (evalIo w i c st).1 := by
  have hc := callIo_inStep w i c st h
  unfold evalIo
  by_cases hq : (!i.canDedupe || !c.isQuery) = true
  · rw [if_pos hq]; exact hc
  · rw [if_neg hq]
    cases w.key i c with
    | none => exact hc
    | some k =>
      simp only []
      cases doneGet k st.done with
      | some r => exact h
      | none =>
        simp only []
        cases w.join st.log.length k with
        | some r => exact h
        | none => exact hc

theorem evalCache_inStep (w : World) (m : Nat) (i : Io) (c : Ctx) (st : St) (h : InStep w st) :
    InStep w (evalCache w m i c st).1 := by
  have hc := evalIo_inStep w i c st h
  unfold evalCache
  cases w.key i c with
  | none => exact hc
  | some k =>
    simp only []
    cases cacheGet st.now k st.cache with
    | some v => exact h
    | none =>
      simp only []
      generalize evalIo w i c st = q at *
      obtain ⟨st', r⟩ := q
      cases r with
      | error e => exact hc
      | ok v =>
        unfold InStep at *
        simp only [stores_append, stores] at hc ⊢
        rw [cacheOf_snoc, ← hc]

/-- The states that a server can be in: any sequence of evaluations of any expressions, with time
passing between them and requests ending. -/
inductive Reach (w : World) : St → Prop where
  | start (now : Nat) : Reach w ⟨now, [], [], []⟩
  | eval {st : St} (x : IR) (c : Ctx) (h : Reach w st) : Reach w (eval w x c st).1
  | wait {st : St} (n : Nat) (h : Reach w st) : Reach w { st with now := st.now + n }
  | request {st : St} (h : Reach w st) : Reach w { st with done := [] }

theorem reach_inStep (w : World) (st : St) (h : Reach w st) : InStep w st := by
  induction h with
  | start now => rfl
  | eval x c _ ih =>
    exact eval_moves (P := fun _ => True) (T := fun a b => InStep w a → InStep w b)
      ⟨⟨fun _ _ h => h, fun _ _ h => h⟩, fun _ h => h, fun _ _ _ f g h => g (f h),
        fun i c st _ => evalIo_inStep w i c st, fun m i c st _ => evalCache_inStep w m i c st⟩
      x c _ trivial ih
  | wait n _ ih => exact ih
  | request _ ih => exact ih

/-- C55: within its `maxAge` the value last stored under a key answers every cached resolver with
that key, without an upstream call, after any history of evaluations in which fewer other values
than the capacity were stored since. -/
theorem C55_served_without_call (w : World) (st : St) (hr : Reach w st) (m : Nat) (i : Io) (c : Ctx)
    (s : Store) (hk : w.key i c = some s.key) (n : Nat) (hs : LastStore (stores st.log) s n)
    (hn : n < w.cap) (ht : st.now ≤ s.time + s.maxAge) :
    eval w (.cache m i) c st = (st, .ok s.value) := by
  have hg : cacheGet st.now s.key st.cache = some s.value := by
    rw [reach_inStep w st hr]
    exact C55_stored_is_found w.cap _ s n hs hn st.now ht
  simp only [eval, evalCache, hk, hg]

/-- C55: when nothing stored under the key is still valid, a cached resolver does what the
resolver alone would do, and stores a successful answer (and nothing else) for `maxAge`. -/
theorem C55_recomputed (w : World) (st : St) (hr : Reach w st) (m : Nat) (i : Io) (c : Ctx) (k : Nat)
    (hk : w.key i c = some k)
    (hold : ∀ s ∈ stores st.log, s.key = k → s.time + s.maxAge < st.now) :
    (eval w (.cache m i) c st).2 = (eval w (.io i) c st).2 ∧
    (∀ v, (eval w (.io i) c st).2 = .ok v → (eval w (.cache m i) c st).1.log =
      (eval w (.io i) c st).1.log ++ [.store (eval w (.io i) c st).1.now k v m]) ∧
    (∀ e, (eval w (.io i) c st).2 = .error e →
      (eval w (.cache m i) c st).1 = (eval w (.io i) c st).1) := by
  have hg : cacheGet st.now k st.cache = none := by
    cases hh : cacheGet st.now k st.cache with
    | none => rfl
    | some v =>
      rw [reach_inStep w st hr] at hh
      obtain ⟨s, n, ⟨pre, post, h1, _, _⟩, h2, _, h3⟩ := C55_hit_is_fresh w.cap _ _ _ _ hh
      have := hold s (by rw [h1]; simp) h2
      omega
  simp only [eval, evalCache, hk, hg]
  generalize evalIo w i c st = q at *
  obtain ⟨st', r⟩ := q
  cases r with
  | error e => exact ⟨rfl, by simp, by simp⟩
  | ok v => exact ⟨rfl, by simp, by simp⟩

/-- C55: a cached resolver either answers with the value last stored under its key, within the time
it was stored for and without any effect, or does what the resolver alone would do. -/
theorem C55_answer_or_compute (w : World) (st : St) (hr : Reach w st) (m : Nat) (i : Io) (c : Ctx) :
    (∃ s n, w.key i c = some s.key ∧ LastStore (stores st.log) s n ∧
      st.now ≤ s.time + s.maxAge ∧ eval w (.cache m i) c st = (st, .ok s.value)) ∨
    (eval w (.cache m i) c st).2 = (eval w (.io i) c st).2 := by
  cases hk : w.key i c with
  | none => right; simp only [eval, evalCache, hk]
  | some k =>
    cases hg : cacheGet st.now k st.cache with
    | some v' =>
      left
      have hg' := hg
      rw [reach_inStep w st hr] at hg'
      obtain ⟨s, n, h1, h2, h3, h4⟩ := C55_hit_is_fresh w.cap _ _ _ _ hg'
      exact ⟨s, n, by rw [h2], h1, h4, by simp only [eval, evalCache, hk, hg, h3]⟩
    | none =>
      right
      simp only [eval, evalCache, hk, hg]
      generalize evalIo w i c st = q at *
      obtain ⟨st', r⟩ := q
      cases r <;> rfl

/-- One cached evaluation, a pause and the same evaluation again. -/
def afterFirst : St := { (eval demoWorld (.cache 100 (call 1)) (demoCtx true .absent) emptySt).1 with
  now := 50, done := [] }

theorem afterFirst_reach : Reach demoWorld afterFirst :=
  .request (.wait 45 (.eval (.cache 100 (call 1)) (demoCtx true .absent) (.start 0)))

example : eval demoWorld (.cache 100 (call 1)) (demoCtx true .absent) afterFirst =
    (afterFirst, .ok (.int 100)) :=
  C55_served_without_call demoWorld afterFirst afterFirst_reach 100 (call 1)
    (demoCtx true .absent) ⟨5, 1, .int 100, 100⟩ rfl 0 ⟨[], [], rfl, by simp, rfl⟩ (by decide)
    (by decide)
/-- After the time is over the call is made again. -/
example : (eval demoWorld (.cache 100 (call 1)) (demoCtx true .absent)
    { afterFirst with now := 106 }).2 = .ok (.int 102) := by rfl
example : (eval demoWorld (.cache 100 (call 1)) (demoCtx true .absent)
    { afterFirst with now := 106 }).2 =
    (eval demoWorld (.io (call 1)) (demoCtx true .absent) { afterFirst with now := 106 }).2 :=
  (C55_recomputed demoWorld _ (.wait 56 afterFirst_reach) 100 (call 1) (demoCtx true .absent) 1 rfl
    (by
      intro s hs hk
      have : s = ⟨5, 1, .int 100, 100⟩ := List.mem_singleton.1 hs
      subst this; decide)).1

/-- Two resolvers with the same cache key and different ages share their values: one with
`maxAge: 1` is answered with a value that is 50 old. -/
theorem C55_violated_by_shared_key : ∃ st, Reach demoWorld st ∧ st.now = 50 ∧
    stores st.log = [⟨5, 1, .int 100, 100⟩] ∧
    eval demoWorld (.cache 1 (call 1)) (demoCtx true .absent) st = (st, .ok (.int 100)) :=
  ⟨afterFirst, afterFirst_reach, rfl, rfl, rfl⟩

/-! ## Overlapping evaluations -/

/-- Specification of what other requests may do to the cache while one is waiting for its upstream:
`look` is the first half of `IR::Cache` (ir/eval.rs:49-53), `finish` the second (ir/eval.rs:56-62);
any number of evaluations can be between the two. -/
inductive Step where
  | wait (n : Nat)
  | look (id key maxAge : Nat)
  | finish (id : Nat) (v : GVal)

/-- State shared by requests: the runtime cache (ir/eval.rs:47-65). -/
structure Shared where
  now : Nat
  cache : List (Nat × GVal × Nat)
  /-- evaluations waiting for their upstream: id, key, age -/
  pending : List (Nat × Nat × Nat)
  /-- what was stored -/
  hist : List Store
  /-- answers, newest first -/
  answers : List (Nat × GVal)

/-- Lookup of a pending evaluation. -/
def findPending (id : Nat) : List (Nat × Nat × Nat) → Option (Nat × Nat)
  | [] => none
  | (j, k, m) :: r => if j = id then some (k, m) else findPending id r

/-- One action of a history over the runtime cache (ir/eval.rs:47-65). -/
def step (cap : Nat) (s : Shared) : Step → Shared
  | .wait n => { s with now := s.now + n }
  | .look id k m =>
    match cacheGet s.now k s.cache with
    | some v => { s with answers := (id, v) :: s.answers }
    | none => { s with pending := (id, k, m) :: s.pending }
  | .finish id v =>
    match findPending id s.pending with
    | none => s
    | some (k, m) =>
      { s with
        cache := cacheSet cap s.now k v m s.cache
        hist := s.hist ++ [⟨s.now, k, v, m⟩]
        pending := s.pending.filter (fun p => p.1 ≠ id)
        answers := (id, v) :: s.answers }

/-- A history of such actions. -/
def steps (cap : Nat) (l : List Step) : Shared := l.foldl (step cap) ⟨0, [], [], [], []⟩

theorem steps_cache (cap : Nat) (l : List Step) :
    (steps cap l).cache = cacheOf cap (steps cap l).hist := by
  induction l using snoc_induction with
  | h0 => rfl
  | h1 l a ih =>
    have e : steps cap (l ++ [a]) = step cap (steps cap l) a := by simp [steps, List.foldl_append]
    rw [e]
    generalize steps cap l = s at *
    cases a with
    | wait n => exact ih
    | look id k m =>
      simp only [step]
      cases cacheGet s.now k s.cache <;> exact ih
    | finish id v =>
      simp only [step]
      cases findPending id s.pending with
      | none => exact ih
      | some p => simp only [cacheOf_snoc, ← ih]

/-- C55: also when evaluations overlap, an answer from the cache is the value last stored under the
key, within its time; and a value stored is found within its time while fewer others than the
capacity are stored. -/
theorem C55_overlapping (cap : Nat) (l : List Step) (k : Nat) :
    (∀ v, cacheGet (steps cap l).now k (steps cap l).cache = some v →
      ∃ s n, LastStore (steps cap l).hist s n ∧ s.key = k ∧ s.value = v ∧
        (steps cap l).now ≤ s.time + s.maxAge) ∧
    (∀ s n, LastStore (steps cap l).hist s n → s.key = k → n < cap →
      (steps cap l).now ≤ s.time + s.maxAge →
      cacheGet (steps cap l).now k (steps cap l).cache = some s.value) := by
  rw [steps_cache]
  refine ⟨fun v h => C55_hit_is_fresh cap _ _ k v h, fun s n h hk hn ht => ?_⟩
  subst hk
  exact C55_stored_is_found cap _ s n h hn _ ht

/-- The value *first* computed is not the one returned for `maxAge`: of two overlapping
evaluations, the later one replaces the value while it is still valid. -/
theorem C55_violated_by_overlap : ∃ l1 l2 : List Step,
    let s1 := steps 10 l1
    let s2 := steps 10 (l1 ++ l2)
    cacheGet s1.now 7 s1.cache = some (.int 1) ∧ s1.hist = [⟨0, 7, .int 1, 100⟩] ∧
    s2.now ≤ 0 + 100 ∧ cacheGet s2.now 7 s2.cache = some (.int 2) :=
  ⟨[.look 1 7 100, .look 2 7 100, .finish 1 (.int 1)], [.wait 5, .finish 2 (.int 2)], rfl, rfl,
    by decide, rfl⟩

/-! ## `@cache` on a field -/

mutual
theorem wrapCache_has (age : Nat) (x : IR) (l : Leaf) : Has (wrapCache age x) l ↔
    ∃ i, l = .cached age i ∧ (Has x (.bare i) ∨ ∃ m, Has x (.cached m i)) := by
  match x with
  | .ctxPath p =>
    simp only [wrapCache]
    exact ⟨fun h => (nomatch h), fun ⟨i, _, h⟩ => by rcases h with h | ⟨m, h⟩ <;> cases h⟩
  | .dynamic d =>
    simp only [wrapCache]
    exact ⟨fun h => (nomatch h), fun ⟨i, _, h⟩ => by rcases h with h | ⟨m, h⟩ <;> cases h⟩
  | .service s =>
    simp only [wrapCache]
    exact ⟨fun h => (nomatch h), fun ⟨i, _, h⟩ => by rcases h with h | ⟨m, h⟩ <;> cases h⟩
  | .io i =>
    simp only [wrapCache]
    constructor
    · intro h; cases h; exact ⟨i, rfl, .inl (.io i)⟩
    · rintro ⟨j, rfl, h | ⟨m, h⟩⟩ <;> cases h
      exact .cache _ _
  | .cache m i =>
    simp only [wrapCache]
    constructor
    · intro h; cases h; exact ⟨i, rfl, .inr ⟨m, .cache m i⟩⟩
    · rintro ⟨j, rfl, h | ⟨m, h⟩⟩ <;> cases h
      exact .cache _ _
  | .path y p =>
    simp only [wrapCache]
    constructor
    · intro h
      cases h with
      | path h =>
        obtain ⟨i, h1, h2⟩ := (wrapCache_has age y l).1 h
        exact ⟨i, h1, h2.imp .path (fun ⟨m, h⟩ => ⟨m, .path h⟩)⟩
    · rintro ⟨i, h1, h2⟩
      exact .path ((wrapCache_has age y l).2 ⟨i, h1, h2.imp (fun h => by cases h; assumption)
        (fun ⟨m, h⟩ => ⟨m, by cases h; assumption⟩)⟩)
  | .protect a y =>
    simp only [wrapCache]
    constructor
    · intro h
      cases h with
      | protect h =>
        obtain ⟨i, h1, h2⟩ := (wrapCache_has age y l).1 h
        exact ⟨i, h1, h2.imp .protect (fun ⟨m, h⟩ => ⟨m, .protect h⟩)⟩
    · rintro ⟨i, h1, h2⟩
      exact .protect ((wrapCache_has age y l).2 ⟨i, h1, h2.imp (fun h => by cases h; assumption)
        (fun ⟨m, h⟩ => ⟨m, by cases h; assumption⟩)⟩)
  | .map y mm =>
    simp only [wrapCache]
    constructor
    · intro h
      cases h with
      | map h =>
        obtain ⟨i, h1, h2⟩ := (wrapCache_has age y l).1 h
        exact ⟨i, h1, h2.imp .map (fun ⟨m, h⟩ => ⟨m, .map h⟩)⟩
    · rintro ⟨i, h1, h2⟩
      exact .map ((wrapCache_has age y l).2 ⟨i, h1, h2.imp (fun h => by cases h; assumption)
        (fun ⟨m, h⟩ => ⟨m, by cases h; assumption⟩)⟩)
  | .discriminate d y =>
    simp only [wrapCache]
    constructor
    · intro h
      cases h with
      | discriminate h =>
        obtain ⟨i, h1, h2⟩ := (wrapCache_has age y l).1 h
        exact ⟨i, h1, h2.imp .discriminate (fun ⟨m, h⟩ => ⟨m, .discriminate h⟩)⟩
    · rintro ⟨i, h1, h2⟩
      exact .discriminate ((wrapCache_has age y l).2 ⟨i, h1, h2.imp
        (fun h => by cases h; assumption) (fun ⟨m, h⟩ => ⟨m, by cases h; assumption⟩)⟩)
  | .pipe y z =>
    simp only [wrapCache]
    constructor
    · intro h
      cases h with
      | pipeL h =>
        obtain ⟨i, h1, h2⟩ := (wrapCache_has age y l).1 h
        exact ⟨i, h1, h2.imp .pipeL (fun ⟨m, h⟩ => ⟨m, .pipeL h⟩)⟩
      | pipeR h =>
        obtain ⟨i, h1, h2⟩ := (wrapCache_has age z l).1 h
        exact ⟨i, h1, h2.imp .pipeR (fun ⟨m, h⟩ => ⟨m, .pipeR h⟩)⟩
    · rintro ⟨i, h1, h2 | ⟨m, h2⟩⟩
      · cases h2 with
        | pipeL h => exact .pipeL ((wrapCache_has age y l).2 ⟨i, h1, .inl h⟩)
        | pipeR h => exact .pipeR ((wrapCache_has age z l).2 ⟨i, h1, .inl h⟩)
      · cases h2 with
        | pipeL h => exact .pipeL ((wrapCache_has age y l).2 ⟨i, h1, .inr ⟨m, h⟩⟩)
        | pipeR h => exact .pipeR ((wrapCache_has age z l).2 ⟨i, h1, .inr ⟨m, h⟩⟩)
  | .merge xs =>
    simp only [wrapCache]
    constructor
    · intro h
      cases h with
      | merge hx h =>
        obtain ⟨i, h1, y, hy, h2⟩ := (wrapCaches_has age xs l).1 ⟨_, hx, h⟩
        exact ⟨i, h1, h2.imp (.merge hy) (fun ⟨m, h⟩ => ⟨m, .merge hy h⟩)⟩
    · rintro ⟨i, h1, h2 | ⟨m, h2⟩⟩
      · cases h2 with
        | merge hx h =>
          obtain ⟨y, hy, h3⟩ := (wrapCaches_has age xs l).2 ⟨i, h1, _, hx, .inl h⟩
          exact .merge hy h3
      · cases h2 with
        | merge hx h =>
          obtain ⟨y, hy, h3⟩ := (wrapCaches_has age xs l).2 ⟨i, h1, _, hx, .inr ⟨m, h⟩⟩
          exact .merge hy h3
  | .entity es =>
    simp only [wrapCache]
    constructor
    · intro h
      cases h with
      | entity hx h =>
        obtain ⟨i, h1, t, y, hy, h2⟩ := (wrapEnt_has age es l).1 ⟨_, _, hx, h⟩
        exact ⟨i, h1, h2.imp (.entity hy) (fun ⟨m, h⟩ => ⟨m, .entity hy h⟩)⟩
    · rintro ⟨i, h1, h2 | ⟨m, h2⟩⟩
      · cases h2 with
        | entity hx h =>
          obtain ⟨t, y, hy, h3⟩ := (wrapEnt_has age es l).2 ⟨i, h1, _, _, hx, .inl h⟩
          exact .entity hy h3
      · cases h2 with
        | entity hx h =>
          obtain ⟨t, y, hy, h3⟩ := (wrapEnt_has age es l).2 ⟨i, h1, _, _, hx, .inr ⟨m, h⟩⟩
          exact .entity hy h3
theorem wrapCaches_has (age : Nat) (xs : List IR) (l : Leaf) :
    (∃ x, x ∈ wrapCaches age xs ∧ Has x l) ↔
    ∃ i, l = .cached age i ∧ ∃ x, x ∈ xs ∧ (Has x (.bare i) ∨ ∃ m, Has x (.cached m i)) := by
  match xs with
  | [] => simp [wrapCaches]
  | y :: ys =>
    simp only [wrapCaches]
    constructor
    · rintro ⟨x, hx, h⟩
      rcases List.mem_cons.1 hx with hxe | hx
      · obtain ⟨i, h1, h2⟩ := (wrapCache_has age y l).1 (hxe ▸ h)
        exact ⟨i, h1, y, by simp, h2⟩
      · obtain ⟨i, h1, z, hz, h2⟩ := (wrapCaches_has age ys l).1 ⟨x, hx, h⟩
        exact ⟨i, h1, z, by simp [hz], h2⟩
    · rintro ⟨i, h1, x, hx, h⟩
      rcases List.mem_cons.1 hx with hxe | hx
      · exact ⟨_, by simp, (wrapCache_has age y l).2 ⟨i, h1, hxe ▸ h⟩⟩
      · obtain ⟨z, hz, h2⟩ := (wrapCaches_has age ys l).2 ⟨i, h1, x, hx, h⟩
        exact ⟨z, by simp [hz], h2⟩
theorem wrapEnt_has (age : Nat) (es : List (Text × IR)) (l : Leaf) :
    (∃ t x, (t, x) ∈ wrapEnt age es ∧ Has x l) ↔
    ∃ i, l = .cached age i ∧ ∃ t x, (t, x) ∈ es ∧ (Has x (.bare i) ∨ ∃ m, Has x (.cached m i)) := by
  match es with
  | [] => simp [wrapEnt]
  | p :: ps =>
    have ihp := wrapEntry_has age p l
    simp only [wrapEnt]
    constructor
    · rintro ⟨t, x, hx, h⟩
      rcases List.mem_cons.1 hx with hxe | hx
      · rw [← hxe] at ihp
        obtain ⟨i, h1, h2⟩ := ihp.1 h
        exact ⟨i, h1, p.1, p.2, by simp, h2⟩
      · obtain ⟨i, h1, t, z, hz, h2⟩ := (wrapEnt_has age ps l).1 ⟨t, x, hx, h⟩
        exact ⟨i, h1, t, z, by simp [hz], h2⟩
    · rintro ⟨i, h1, t, x, hx, h⟩
      rcases List.mem_cons.1 hx with hxe | hx
      · exact ⟨(wrapEntry age p).1, (wrapEntry age p).2, by simp,
          ihp.2 ⟨i, h1, by rw [← hxe]; exact h⟩⟩
      · obtain ⟨t, z, hz, h2⟩ := (wrapEnt_has age ps l).2 ⟨i, h1, t, x, hx, h⟩
        exact ⟨t, z, by simp [hz], h2⟩
theorem wrapEntry_has (age : Nat) (p : Text × IR) (l : Leaf) :
    Has (wrapEntry age p).2 l ↔
    ∃ i, l = .cached age i ∧ (Has p.2 (.bare i) ∨ ∃ m, Has p.2 (.cached m i)) := by
  match p with
  | (t, x) => exact wrapCache_has age x l
end

/-- C55: `@cache(maxAge)` on a field (or on its type, when the field has none) puts every upstream
call of the field under the cache with that age, and leaves no other. -/
theorem C55_field_age (fieldAge typeAge : Option Nat) (x : IR) (l : Leaf) :
    (∀ age, (fieldAge = some age ∨ (fieldAge = none ∧ typeAge = some age)) →
      ∃ y, updateCache fieldAge typeAge (some x) = some y ∧
        (Has y l ↔ ∃ i, l = .cached age i ∧ (Has x (.bare i) ∨ ∃ m, Has x (.cached m i)))) ∧
    (fieldAge = none → typeAge = none → updateCache fieldAge typeAge (some x) = some x) := by
  constructor
  · rintro age (rfl | ⟨rfl, rfl⟩)
    · exact ⟨wrapCache age x, rfl, wrapCache_has age x l⟩
    · exact ⟨wrapCache age x, rfl, wrapCache_has age x l⟩
  · rintro rfl rfl; rfl

example : updateCache (some 5) (some 9)
    (some (.pipe (.io (call 1)) (.protect adminOnly (.path (.io (call 2)) [])))) =
    some (.pipe (.cache 5 (call 1)) (.protect adminOnly (.path (.cache 5 (call 2)) []))) := by rfl
example : updateCache none (some 9) (some (.io (call 1))) = some (.cache 9 (call 1)) := by rfl

end Verif.Ir
