import Verif.Server.Model
import Verif.Dedupe.Props

/-!
# Invariants of the request executor
-/

namespace Verif.Server

open Verif.Mustache (Text)
open Verif.HttpUrl (GVal)
open Verif.Dedupe (upd)

set_option linter.unusedSimpArgs false

variable {O P R : Type}

/-- The call of a task. -/
def callOf : Task P R → Option Call
  | .idle => none
  | .begun c | .missed c | .unplanned c | .planned c _ | .running c _ | .sharing c _ | .answered c _ _
  | .done c _ | .dropped c => some c

/-- The call was made in the history. -/
def Made (es : List (Event R)) (c : Call) : Prop := ∃ t, Event.begin t c ∈ es

/-- The plan was made for a request of the history with the same query text. -/
def Planned (a : App O P R) (es : List (Event R)) (c : Call) (p : P) : Prop :=
  ∃ c0, Made es c0 ∧ c0.req.query = c.req.query ∧ createPlan a c0.req = .ok p

/-- The response is of an execution of the plan for this call, or of an execution of a plan that
can be shared for a call with the same operation id. -/
def Origin (a : App O P R) (execs : List (Call × P × R)) (c : Call) (p : P) (r : R) : Prop :=
  (c, p, r) ∈ execs ∨
    (a.canDedupe p = true ∧ ∃ c' p', (c', p', r) ∈ execs ∧ c'.opId = c.opId ∧ a.canDedupe p' = true)

/-- Where the response of a finished call came from. -/
def Answer (a : App O P R) (es : List (Event R)) (execs : List (Call × P × R)) (c : Call) (r : R) : Prop :=
  (∃ x, createPlan a c.req = .error x ∧ r = a.errorResp x) ∨
  (∃ p, Planned a es c p ∧ Origin a execs c p r) ∨
  (∃ c0 p0, Made es c0 ∧ c0.req.query = c.req.query ∧ Planned a es c0 p0 ∧ a.isConst p0 = true ∧
    a.isProtected p0 = false ∧ Origin a execs c0 p0 r)

/-- Proof invariant of all histories. -/
structure Inv (a : App O P R) (es : List (Event R)) (s : State P R) : Prop where
  call : ∀ t c, callOf (s.tasks t) = some c ↔ Event.begin t c ∈ es
  plans : ∀ q p, s.plans q = some p → ∃ c0, Made es c0 ∧ c0.req.query = q ∧ createPlan a c0.req = .ok p
  planned : ∀ t c p, s.tasks t = .planned c p → Planned a es c p
  running : ∀ t c p, s.tasks t = .running c p → Planned a es c p ∧ a.canDedupe p = false
  sharing : ∀ t c p, s.tasks t = .sharing c p → Planned a es c p ∧ a.canDedupe p = true
  answered : ∀ t c p r, s.tasks t = .answered c p r → Planned a es c p ∧ Origin a s.execs c p r
  done : ∀ t c r, s.tasks t = .done c r → Answer a es s.execs c r
  consts : ∀ q r, s.consts q = some r → ∃ c p, Made es c ∧ c.req.query = q ∧ Planned a es c p ∧
    a.isConst p = true ∧ a.isProtected p = false ∧ Origin a s.execs c p r
  execs : ∀ c p r, (c, p, r) ∈ s.execs → Made es c ∧ Planned a es c p
  ops : ∃ des, Verif.Dedupe.Reaches false des s.ops ∧
    (∀ t k, Verif.Dedupe.Event.call t k ∈ des → ∃ c, Event.begin t c ∈ es ∧ c.opId = k) ∧
    (∀ t r, Verif.Dedupe.Event.complete t r ∈ des → ∃ c p, Event.begin t c ∈ es ∧ (c, p, r) ∈ s.execs ∧
      a.canDedupe p = true)

theorem inv_init (a : App O P R) : Inv a [] (init P R) where
  call := by simp [init, callOf]
  plans := by simp [init]
  planned := by simp [init]
  running := by simp [init]
  sharing := by simp [init]
  answered := by simp [init]
  done := by simp [init]
  consts := by simp [init]
  execs := by simp [init]
  ops := ⟨[], rfl, by simp, by simp⟩

theorem made_mono {es : List (Event R)} {c : Call} (e : Event R) (h : Made es c) : Made (es ++ [e]) c := by
  obtain ⟨t, h⟩ := h
  exact ⟨t, List.mem_append_left _ h⟩

theorem planned_mono {a : App O P R} {es : List (Event R)} {c : Call} {p : P} (e : Event R)
    (h : Planned a es c p) : Planned a (es ++ [e]) c p := by
  obtain ⟨c0, h, h'⟩ := h
  exact ⟨c0, made_mono e h, h'⟩

theorem origin_mono {a : App O P R} {l : List (Call × P × R)} {c : Call} {p : P} {r : R} (l' : List (Call × P × R))
    (h : Origin a l c p r) : Origin a (l ++ l') c p r := by
  rcases h with h | ⟨h, c', p', h', h''⟩
  · exact Or.inl (List.mem_append_left _ h)
  · exact Or.inr ⟨h, c', p', List.mem_append_left _ h', h''⟩

theorem answer_mono {a : App O P R} {es : List (Event R)} {l : List (Call × P × R)} {c : Call} {r : R} (e : Event R)
    (l' : List (Call × P × R)) (h : Answer a es l c r) : Answer a (es ++ [e]) (l ++ l') c r := by
  rcases h with h | ⟨p, h, h'⟩ | ⟨c0, p0, h1, h2, h3, h4, h5, h6⟩
  · exact Or.inl h
  · exact Or.inr (Or.inl ⟨p, planned_mono e h, origin_mono l' h'⟩)
  · exact Or.inr (Or.inr ⟨c0, p0, made_mono e h1, h2, planned_mono e h3, h4, h5, origin_mono l' h6⟩)

/-- An event that changes the task `t` to `x`, and not the caches, keeps the invariant when `x` is
justified. -/
theorem inv_task {a : App O P R} {es : List (Event R)} {s : State P R} (h : Inv a es s) (e : Event R) (t : Nat)
    (x : Task P R) (ops : Verif.Dedupe.State OpId R) (new : List (Call × P × R))
    (hcall : ∀ t' c, callOf (upd s.tasks t x t') = some c ↔ Event.begin t' c ∈ es ++ [e])
    (hplanned : ∀ c p, x = .planned c p → Planned a (es ++ [e]) c p)
    (hrunning : ∀ c p, x = .running c p → Planned a (es ++ [e]) c p ∧ a.canDedupe p = false)
    (hsharing : ∀ c p, x = .sharing c p → Planned a (es ++ [e]) c p ∧ a.canDedupe p = true)
    (hanswered : ∀ c p r, x = .answered c p r → Planned a (es ++ [e]) c p ∧ Origin a (s.execs ++ new) c p r)
    (hdone : ∀ c r, x = .done c r → Answer a (es ++ [e]) (s.execs ++ new) c r)
    (hnew : ∀ c p r, (c, p, r) ∈ new → Made (es ++ [e]) c ∧ Planned a (es ++ [e]) c p)
    (hops : ∃ des, Verif.Dedupe.Reaches false des ops ∧
      (∀ t k, Verif.Dedupe.Event.call t k ∈ des → ∃ c, Event.begin t c ∈ es ++ [e] ∧ c.opId = k) ∧
      (∀ t r, Verif.Dedupe.Event.complete t r ∈ des → ∃ c p, Event.begin t c ∈ es ++ [e] ∧
        (c, p, r) ∈ s.execs ++ new ∧ a.canDedupe p = true)) :
    Inv a (es ++ [e]) { s with ops := ops, tasks := upd s.tasks t x, execs := s.execs ++ new } where
  call := hcall
  plans q p hq := by
    obtain ⟨c0, h1, h2⟩ := h.plans q p hq
    exact ⟨c0, made_mono e h1, h2⟩
  planned t' c p ht := by
    simp only [upd] at ht
    split at ht
    · exact hplanned c p ht
    · exact planned_mono e (h.planned t' c p ht)
  running t' c p ht := by
    simp only [upd] at ht
    split at ht
    · exact hrunning c p ht
    · exact ⟨planned_mono e (h.running t' c p ht).1, (h.running t' c p ht).2⟩
  sharing t' c p ht := by
    simp only [upd] at ht
    split at ht
    · exact hsharing c p ht
    · exact ⟨planned_mono e (h.sharing t' c p ht).1, (h.sharing t' c p ht).2⟩
  answered t' c p r ht := by
    simp only [upd] at ht
    split at ht
    · exact hanswered c p r ht
    · exact ⟨planned_mono e (h.answered t' c p r ht).1, origin_mono _ (h.answered t' c p r ht).2⟩
  done t' c r ht := by
    simp only [upd] at ht
    split at ht
    · exact hdone c r ht
    · exact answer_mono e _ (h.done t' c r ht)
  consts q r hq := by
    obtain ⟨c, p, h1, h2, h3, h4, h5, h6⟩ := h.consts q r hq
    exact ⟨c, p, made_mono e h1, h2, planned_mono e h3, h4, h5, origin_mono _ h6⟩
  execs c p r hc := by
    rcases List.mem_append.1 hc with hc | hc
    · exact ⟨made_mono e (h.execs c p r hc).1, planned_mono e (h.execs c p r hc).2⟩
    · exact hnew c p r hc
  ops := hops

/-- The calls are unchanged by an event that is no `begin` and keeps the call of its task. -/
theorem call_same {a : App O P R} {es : List (Event R)} {s : State P R} (h : Inv a es s) (e : Event R) (t : Nat)
    (x : Task P R) (he : ∀ t c, e ≠ .begin t c) (hx : callOf x = callOf (s.tasks t)) (t' : Nat) (c : Call) :
    callOf (upd s.tasks t x t') = some c ↔ Event.begin t' c ∈ es ++ [e] := by
  have h1 : callOf (upd s.tasks t x t') = callOf (s.tasks t') := by
    simp only [upd]
    split
    · rename_i heq; subst heq; exact hx
    · rfl
  rw [h1, h.call, List.mem_append, List.mem_singleton]
  constructor
  · exact Or.inl
  · rintro (h2 | h2)
    · exact h2
    · exact absurd h2.symm (he _ _)

theorem ops_same {a : App O P R} {es : List (Event R)} {s : State P R} (h : Inv a es s) (e : Event R)
    (new : List (Call × P × R)) : ∃ des, Verif.Dedupe.Reaches false des s.ops ∧
      (∀ t k, Verif.Dedupe.Event.call t k ∈ des → ∃ c, Event.begin t c ∈ es ++ [e] ∧ c.opId = k) ∧
      (∀ t r, Verif.Dedupe.Event.complete t r ∈ des → ∃ c p, Event.begin t c ∈ es ++ [e] ∧
        (c, p, r) ∈ s.execs ++ new ∧ a.canDedupe p = true) := by
  obtain ⟨des, h1, h2, h3⟩ := h.ops
  refine ⟨des, h1, ?_, ?_⟩
  · intro t k hk
    obtain ⟨c, h4, h5⟩ := h2 t k hk
    exact ⟨c, List.mem_append_left _ h4, h5⟩
  · intro t r hr
    obtain ⟨c, p, h4, h5, h6⟩ := h3 t r hr
    exact ⟨c, p, List.mem_append_left _ h4, List.mem_append_left _ h5, h6⟩

theorem dedupe_snoc {des : List (Verif.Dedupe.Event OpId R)} {o o' : Verif.Dedupe.State OpId R}
    {d : Verif.Dedupe.Event OpId R} (h : Verif.Dedupe.Reaches false des o)
    (hd : Verif.Dedupe.apply false o d = some o') : Verif.Dedupe.Reaches false (des ++ [d]) o' := by
  unfold Verif.Dedupe.Reaches at h ⊢
  rw [Verif.Dedupe.run_append, h]
  simp [Verif.Dedupe.run, hd]

/-- An event of the operation handler. -/
theorem ops_event {a : App O P R} {es : List (Event R)} {s : State P R} (h : Inv a es s) (e : Event R)
    (new : List (Call × P × R)) (d : Verif.Dedupe.Event OpId R) (o' : Verif.Dedupe.State OpId R)
    (hd : Verif.Dedupe.apply false s.ops d = some o')
    (hcall : ∀ t k, d = .call t k → ∃ c, Event.begin t c ∈ es ++ [e] ∧ c.opId = k)
    (hcomp : ∀ t r, d = .complete t r → ∃ c p, Event.begin t c ∈ es ++ [e] ∧
        (c, p, r) ∈ s.execs ++ new ∧ a.canDedupe p = true) :
    ∃ des, Verif.Dedupe.Reaches false des o' ∧
      (∀ t k, Verif.Dedupe.Event.call t k ∈ des → ∃ c, Event.begin t c ∈ es ++ [e] ∧ c.opId = k) ∧
      (∀ t r, Verif.Dedupe.Event.complete t r ∈ des → ∃ c p, Event.begin t c ∈ es ++ [e] ∧
        (c, p, r) ∈ s.execs ++ new ∧ a.canDedupe p = true) := by
  obtain ⟨des, h1, h2, h3⟩ := ops_same h e new
  refine ⟨des ++ [d], dedupe_snoc h1 hd, ?_, ?_⟩
  · intro t k hk
    rcases List.mem_append.1 hk with hk | hk
    · exact h2 t k hk
    · exact hcall t k (List.mem_singleton.1 hk).symm
  · intro t r hr
    rcases List.mem_append.1 hr with hr | hr
    · exact h3 t r hr
    · exact hcomp t r (List.mem_singleton.1 hr).symm

/-- What the operation handler returns to a call is the response of an execution for a call with
the same operation id. -/
theorem ops_done {a : App O P R} {es : List (Event R)} {s : State P R} (h : Inv a es s) {t : Nat} {c : Call}
    (hc : callOf (s.tasks t) = some c) {k : OpId} {r : R} (hd : s.ops.tasks t = .done k r) :
    ∃ c' p', (c', p', r) ∈ s.execs ∧ c'.opId = c.opId ∧ a.canDedupe p' = true := by
  obtain ⟨des, h1, h2, h3⟩ := h.ops
  obtain ⟨h4, t', h5, h6⟩ := Verif.Dedupe.C02_genuine_result h1 hd
  obtain ⟨c1, h7, h8⟩ := h2 t k h4
  have h9 := (h.call t c1).2 h7
  rw [hc] at h9
  cases h9
  obtain ⟨c2, h10, h11⟩ := h2 t' k h5
  obtain ⟨c3, p, h12, h13, h14⟩ := h3 t' r h6
  have h15 := (h.call t' c2).2 h10
  rw [(h.call t' c3).2 h12] at h15
  cases h15
  exact ⟨c2, p, h13, by rw [h11, h8], h14⟩

theorem upd_self {α β : Type} [DecidableEq α] (f : α → β) (t : α) (x : β) (h : f t = x) : upd f t x = f := by
  funext y
  simp only [upd]
  split
  · rename_i heq; subst heq; exact h.symm
  · rfl

/-- An event of the operation handler that completes nothing. -/
theorem inv_shared {a : App O P R} {es : List (Event R)} {s s' : State P R} (h : Inv a es s) (e : Event R) (t : Nat)
    (d : Verif.Dedupe.Event OpId R) (he : ∀ t c, e ≠ .begin t c) (hd1 : ∀ t k, d ≠ .call t k)
    (hd2 : ∀ t r, d ≠ .complete t r) (hs : shared s t d = some s') : Inv a (es ++ [e]) s' := by
  unfold shared at hs
  split at hs
  · rename_i c p ht
    simp only [Option.map_eq_some_iff] at hs
    obtain ⟨o, ho, rfl⟩ := hs
    have := inv_task h e t (s.tasks t) o [] (call_same h e t _ he rfl)
      (fun c p hx => by rw [ht] at hx; cases hx) (fun c p hx => by rw [ht] at hx; cases hx)
      (fun c' p' hx => ⟨planned_mono e (h.sharing t c' p' hx).1, (h.sharing t c' p' hx).2⟩)
      (fun c p r hx => by rw [ht] at hx; cases hx) (fun c r hx => by rw [ht] at hx; cases hx)
      (by simp) (ops_event h e [] d o ho (fun t k hk => absurd hk (hd1 t k)) (fun t r hr => absurd hr (hd2 t r)))
    rw [upd_self _ _ _ rfl, List.append_nil] at this
    exact this
  · cases hs

theorem inv_apply {a : App O P R} {es : List (Event R)} {s s' : State P R} {e : Event R} (h : Inv a es s)
    (he : apply a s e = some s') : Inv a (es ++ [e]) s' := by
  cases e with
  | begin t c =>
    simp only [apply] at he
    split at he
    · rename_i ht
      cases he
      have := inv_task h (.begin t c) t (.begun c) s.ops [] (by
          intro t' c'
          simp only [upd, List.mem_append, List.mem_singleton, Event.begin.injEq]
          split
          · rename_i heq
            subst heq
            have hno : ∀ c', Event.begin t' c' ∉ es := by
              intro c' hc'
              have := (h.call t' c').2 hc'
              rw [ht] at this
              cases this
            simp [callOf, hno, eq_comm]
          · rename_i hne
            rw [h.call]
            simp [hne])
        (by simp) (by simp) (by simp) (by simp) (by simp) (by simp) (ops_same h _ [])
      rw [List.append_nil] at this
      exact this
    · cases he
  | look t =>
    simp only [apply] at he
    split at he
    · rename_i c ht
      split at he
      · rename_i r hr
        cases he
        have := inv_task h (.look t) t (.done c r) s.ops [] (call_same h _ t _ (by simp) (by rw [ht]; rfl))
          (by simp) (by simp) (by simp) (by simp) (by
            intro c' r' hx
            cases hx
            obtain ⟨c0, p0, h1, h2, h3, h4, h5, h6⟩ := h.consts _ _ hr
            exact Or.inr (Or.inr ⟨c0, p0, made_mono _ h1, h2, planned_mono _ h3, h4, h5, origin_mono _ h6⟩))
          (by simp) (ops_same h _ [])
        rw [List.append_nil] at this
        exact this
      · cases he
        have := inv_task h (.look t) t (.missed c) s.ops [] (call_same h _ t _ (by simp) (by rw [ht]; rfl))
          (by simp) (by simp) (by simp) (by simp) (by simp) (by simp) (ops_same h _ [])
        rw [List.append_nil] at this
        exact this
    · cases he
  | find t =>
    simp only [apply] at he
    split at he
    · rename_i c ht
      split at he
      · rename_i p hp
        cases he
        have := inv_task h (.find t) t (.planned c p) s.ops [] (call_same h _ t _ (by simp) (by rw [ht]; rfl))
          (by
            intro c' p' hx
            cases hx
            obtain ⟨c0, h1, h2, h3⟩ := h.plans _ _ hp
            exact ⟨c0, made_mono _ h1, h2, h3⟩) (by simp) (by simp) (by simp) (by simp)
          (by simp) (ops_same h _ [])
        rw [List.append_nil] at this
        exact this
      · cases he
        have := inv_task h (.find t) t (.unplanned c) s.ops [] (call_same h _ t _ (by simp) (by rw [ht]; rfl))
          (by simp) (by simp) (by simp) (by simp) (by simp) (by simp) (ops_same h _ [])
        rw [List.append_nil] at this
        exact this
    · cases he
  | make t =>
    simp only [apply] at he
    split at he
    · rename_i c ht
      have hmade : Made es c := ⟨t, (h.call t c).1 (by rw [ht]; rfl)⟩
      split at he
      · rename_i x hx
        cases he
        have := inv_task h (.make t) t (.done c (a.errorResp x)) s.ops [] (call_same h _ t _ (by simp) (by rw [ht]; rfl))
          (by simp) (by simp) (by simp) (by simp) (by
            intro c' r' hx'
            cases hx'
            exact Or.inl ⟨x, hx, rfl⟩)
          (by simp) (ops_same h _ [])
        rw [List.append_nil] at this
        exact this
      · rename_i p hp
        cases he
        have hpl : Planned a (es ++ [.make t]) c p := ⟨c, made_mono _ hmade, rfl, hp⟩
        have := inv_task h (.make t) t (.planned c p) s.ops [] (call_same h _ t _ (by simp) (by rw [ht]; rfl))
          (by intro c' p' hx; cases hx; exact hpl) (by simp) (by simp) (by simp) (by simp)
          (by simp) (ops_same h _ [])
        rw [List.append_nil] at this
        refine { this with plans := ?_ }
        intro q p' hq
        simp only [upd] at hq
        split at hq
        · rename_i heq
          cases hq
          exact ⟨c, made_mono _ hmade, heq.symm, hp⟩
        · exact this.plans q p' hq
    · cases he
  | launch t =>
    simp only [apply] at he
    split at he
    · rename_i c p ht
      split at he
      · rename_i hded
        simp only [Option.map_eq_some_iff] at he
        obtain ⟨o, ho, rfl⟩ := he
        have hb : Event.begin t c ∈ es ++ [.launch t] := List.mem_append_left _ ((h.call t c).1 (by rw [ht]; rfl))
        have := inv_task h (.launch t) t (.sharing c p) o [] (call_same h _ t _ (by simp) (by rw [ht]; rfl))
          (by simp) (by simp) (by
            intro c' p' hx
            cases hx
            exact ⟨planned_mono _ (h.planned t c p ht), hded⟩) (by simp) (by simp)
          (by simp) (ops_event h _ [] _ o ho (by
            intro t' k hk
            cases hk
            exact ⟨c, hb, rfl⟩) (by simp))
        rw [List.append_nil] at this
        exact this
      · rename_i hded
        cases he
        have := inv_task h (.launch t) t (.running c p) s.ops [] (call_same h _ t _ (by simp) (by rw [ht]; rfl))
          (by simp) (by
            intro c' p' hx
            cases hx
            exact ⟨planned_mono _ (h.planned t c p ht), by simpa using hded⟩) (by simp) (by simp) (by simp)
          (by simp) (ops_same h _ [])
        rw [List.append_nil] at this
        exact this
    · cases he
  | finish t r =>
    simp only [apply] at he
    split at he
    · rename_i c p ht
      cases he
      have hmade : Made es c := ⟨t, (h.call t c).1 (by rw [ht]; rfl)⟩
      have hpl := planned_mono (.finish t r) (h.running t c p ht).1
      exact inv_task h (.finish t r) t (.answered c p r) s.ops [(c, p, r)]
        (call_same h _ t _ (by simp) (by rw [ht]; rfl)) (by simp) (by simp) (by simp) (by
          intro c' p' r' hx
          cases hx
          exact ⟨hpl, Or.inl (List.mem_append_right _ (List.mem_singleton.2 rfl))⟩) (by simp)
        (by
          intro c' p' r' hx
          cases List.mem_singleton.1 hx
          exact ⟨made_mono _ hmade, hpl⟩) (ops_same h _ _)
    · cases he
  | step t => exact inv_shared h _ t (.step t) (by simp) (by simp) (by simp) he
  | recvOk t => exact inv_shared h _ t (.recvOk t) (by simp) (by simp) (by simp) he
  | recvErr t => exact inv_shared h _ t (.recvErr t) (by simp) (by simp) (by simp) he
  | complete t r =>
    simp only [apply] at he
    split at he
    · rename_i c p ht
      simp only [Option.map_eq_some_iff] at he
      obtain ⟨o, ho, rfl⟩ := he
      have hb : Event.begin t c ∈ es ++ [.complete t r] := List.mem_append_left _ ((h.call t c).1 (by rw [ht]; rfl))
      have hpl := planned_mono (.complete t r) (h.sharing t c p ht).1
      have := inv_task h (.complete t r) t (s.tasks t) o [(c, p, r)] (call_same h _ t _ (by simp) rfl)
        (fun c p hx => by rw [ht] at hx; cases hx) (fun c p hx => by rw [ht] at hx; cases hx)
        (fun c' p' hx => ⟨planned_mono _ (h.sharing t c' p' hx).1, (h.sharing t c' p' hx).2⟩)
        (fun c p r hx => by rw [ht] at hx; cases hx) (fun c r hx => by rw [ht] at hx; cases hx)
        (by
          intro c' p' r' hx
          cases List.mem_singleton.1 hx
          exact ⟨⟨t, hb⟩, hpl⟩)
        (ops_event h _ _ _ o ho (by simp) (by
          intro t' r' hr
          cases hr
          exact ⟨c, p, hb, List.mem_append_right _ (List.mem_singleton.2 rfl), (h.sharing t c p ht).2⟩))
      rw [upd_self _ _ _ rfl] at this
      exact this
    · cases he
  | join t =>
    simp only [apply] at he
    split at he
    · rename_i c p ht
      split at he
      · rename_i k r hd
        cases he
        have hsh := h.sharing t c p ht
        have := inv_task h (.join t) t (.answered c p r) s.ops [] (call_same h _ t _ (by simp) (by rw [ht]; rfl))
          (by simp) (by simp) (by simp) (by
            intro c' p' r' hx
            cases hx
            refine ⟨planned_mono _ hsh.1, ?_⟩
            rw [List.append_nil]
            exact Or.inr ⟨hsh.2, ops_done h (by rw [ht]; rfl) hd⟩) (by simp)
          (by simp) (ops_same h _ [])
        rw [List.append_nil] at this
        exact this
      · cases he
    · cases he
  | store t =>
    simp only [apply] at he
    split at he
    · rename_i c p r ht
      cases he
      have hans := h.answered t c p r ht
      have hmade : Made es c := ⟨t, (h.call t c).1 (by rw [ht]; rfl)⟩
      have := inv_task h (.store t) t (.done c r) s.ops [] (call_same h _ t _ (by simp) (by rw [ht]; rfl))
        (by simp) (by simp) (by simp) (by simp) (by
          intro c' r' hx
          cases hx
          exact Or.inr (Or.inl ⟨p, planned_mono _ hans.1, origin_mono _ hans.2⟩))
        (by simp) (ops_same h _ [])
      rw [List.append_nil] at this
      refine { this with consts := ?_ }
      intro q r' hq
      split at hq
      · rename_i hcp
        simp only [upd] at hq
        split at hq
        · rename_i heq
          cases hq
          simp only [Bool.and_eq_true, Bool.not_eq_true'] at hcp
          exact ⟨c, p, made_mono _ hmade, heq.symm, planned_mono _ hans.1, hcp.1, hcp.2, hans.2⟩
        · exact this.consts q r' hq
      · exact this.consts q r' hq
    · cases he
  | drop t =>
    simp only [apply] at he
    split at he
    · rename_i c ht
      cases he
      have := inv_task h (.drop t) t (.dropped c) s.ops [] (call_same h _ t _ (by simp) (by rw [ht]; rfl))
        (by simp) (by simp) (by simp) (by simp) (by simp) (by simp) (ops_same h _ [])
      rw [List.append_nil] at this
      exact this
    · rename_i c p ht
      cases he
      have := inv_task h (.drop t) t (.dropped c) s.ops [] (call_same h _ t _ (by simp) (by rw [ht]; rfl))
        (by simp) (by simp) (by simp) (by simp) (by simp) (by simp) (ops_same h _ [])
      rw [List.append_nil] at this
      exact this
    · rename_i c p ht
      simp only [Option.map_eq_some_iff] at he
      obtain ⟨o, ho, rfl⟩ := he
      have := inv_task h (.drop t) t (.dropped c) o [] (call_same h _ t _ (by simp) (by rw [ht]; rfl))
        (by simp) (by simp) (by simp) (by simp) (by simp) (by simp)
        (ops_event h _ [] _ o ho (by simp) (by simp))
      rw [List.append_nil] at this
      exact this
    · cases he

theorem inv_run {a : App O P R} {pre es : List (Event R)} {s s' : State P R} (h : Inv a pre s)
    (hr : run a s es = some s') : Inv a (pre ++ es) s' := by
  induction es generalizing pre s with
  | nil => simp only [run] at hr; cases hr; simpa using h
  | cons e es ih =>
    simp only [run] at hr
    split at hr
    · rename_i s1 h1
      have := ih (inv_apply h h1) hr
      simpa using this
    · cases hr

/-- The history leads to the state. -/
def Reaches (a : App O P R) (es : List (Event R)) (s : State P R) : Prop := run a (init P R) es = some s

theorem inv_reaches {a : App O P R} {es : List (Event R)} {s : State P R} (hr : Reaches a es s) : Inv a es s := by
  have := inv_run (inv_init a) hr
  simpa using this

end Verif.Server
