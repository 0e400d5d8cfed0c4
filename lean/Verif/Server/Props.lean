import Verif.Server.Lemmas
import Verif.Exec.Guards

/-!
# Properties of the request executor (C32, C33, C34, C41, C72)

All statements are about every history of the transition system of `Verif.Server.Model`: any number
of calls, in any interleaving, some of them dropped.
-/

namespace Verif.Server

open Verif.Mustache (Text)
open Verif.HttpUrl (GVal)
open Verif.Dedupe (upd)
open Verif.Exec (Plan Outer executePlan transforms Real InPlan SamePlanInput)
open Verif.Ir (IR Guard UsesEntity)

set_option linter.unusedSimpArgs false

variable {O P R : Type}

/-- All requests of the history with the query text of `c` name the same operation. -/
def OneOperation (es : List (Event R)) (c : Call) : Prop :=
  ∀ t c', Event.begin t c' ∈ es → c'.req.query = c.req.query → c'.req.opName = c.req.opName

theorem createPlan_same (a : App O P R) {r r' : Req} (hq : r.query = r'.query) (hn : r.opName = r'.opName) :
    createPlan a r = createPlan a r' := by
  simp only [createPlan, hq, hn]

theorem planned_own {a : App O P R} {es : List (Event R)} {c : Call} {p : P} (h : Planned a es c p)
    (hone : OneOperation es c) : createPlan a c.req = .ok p := by
  obtain ⟨c0, ⟨t, h0⟩, hq, hp⟩ := h
  rw [← hp]
  exact createPlan_same a hq.symm (hone t c0 h0 hq).symm

/-! ## C32 -/

/-- C32: a plan is executed only for calls with the query text it was made from. -/
theorem C32_plan_of_same_text (a : App O P R) (es : List (Event R)) (s : State P R) (hr : Reaches a es s)
    (c : Call) (p : P) (r : R) (h : (c, p, r) ∈ s.execs) :
    ∃ t c0, Event.begin t c0 ∈ es ∧ c0.req.query = c.req.query ∧ createPlan a c0.req = .ok p := by
  obtain ⟨c0, ⟨t, h1⟩, h2, h3⟩ := ((inv_reaches hr).execs c p r h).2
  exact ⟨t, c0, h1, h2, h3⟩

/-- Specification: the operation of a document that a request asks for: the one it names, or the
only one if it names none. -/
inductive Asked : Option Text → Ops O → O → Prop where
  | only (op) : Asked none (.single op) op
  | onlyNamed (n op) : Asked none (.multiple [(n, op)]) op
  | named (n op before after) : (∀ x ∈ before, x.1 ≠ n) → Asked (some n) (.multiple (before ++ (n, op) :: after)) op

theorem get_split {l : List (Text × O)} {n : Text} {op : O} (h : Verif.Merge.get n l = some op) :
    ∃ before after, l = before ++ (n, op) :: after ∧ ∀ x ∈ before, x.1 ≠ n := by
  induction l with
  | nil => simp [Verif.Merge.get] at h
  | cons x r ih =>
    obtain ⟨k, v⟩ := x
    simp only [Verif.Merge.get] at h
    split at h
    · rename_i hk
      cases h
      exact ⟨[], r, by rw [hk]; rfl, by simp⟩
    · rename_i hk
      obtain ⟨bf, af, h1, h2⟩ := ih h
      refine ⟨(k, v) :: bf, af, by rw [h1]; rfl, ?_⟩
      intro x hx
      rcases List.mem_cons.1 hx with rfl | hx
      · exact hk
      · exact h2 x hx

theorem get_found {before after : List (Text × O)} {n : Text} {op : O} (h : ∀ x ∈ before, x.1 ≠ n) :
    Verif.Merge.get n (before ++ (n, op) :: after) = some op := by
  induction before with
  | nil => simp [Verif.Merge.get]
  | cons x r ih =>
    obtain ⟨k, v⟩ := x
    have hk : k ≠ n := h (k, v) List.mem_cons_self
    simp only [List.cons_append, Verif.Merge.get, hk, if_false]
    exact ih (fun y hy => h y (List.mem_cons_of_mem _ hy))

/-- C32: the operation planned for a request is the one it asks for. -/
theorem C32_operation_asked_for (a : App O P R) (r : Req) (p : P) : createPlan a r = .ok p ↔
    ∃ ops op, a.parse r.query = some ops ∧ Asked r.opName ops op ∧ a.plan op = .ok p := by
  simp only [createPlan]
  constructor
  · intro h
    cases hp : a.parse r.query with
    | none => rw [hp] at h; cases h
    | some ops =>
      rw [hp] at h
      simp only [] at h
      cases hg : getOperation r.opName ops with
      | error e => rw [hg] at h; cases h
      | ok op =>
        rw [hg] at h
        refine ⟨ops, op, rfl, ?_, h⟩
        unfold getOperation at hg
        split at hg
        · rename_i n hn
          rw [hn]
          split at hg
          · cases hg
          · split at hg
            · rename_i op' hget
              cases hg
              obtain ⟨bf, af, rfl, h2⟩ := get_split hget
              exact .named n op bf af h2
            · cases hg
        · rename_i hn
          rw [hn]
          split at hg
          · cases hg; exact .only op
          · cases hg; exact .onlyNamed _ op
          · cases hg
  · rintro ⟨ops, op, hp, ha, h⟩
    rw [hp]
    generalize r.opName = n at ha ⊢
    cases ha with
    | only => exact h
    | onlyNamed => exact h
    | named n _ bf af hb => simp only [getOperation, get_found hb]; exact h

/-- C32: the plan executed for a call is that of the operation which its request asks for.  Partial:
when all requests with the same text name the same operation. -/
theorem C32_own_plan_partial (a : App O P R) (es : List (Event R)) (s : State P R) (hr : Reaches a es s)
    (c : Call) (p : P) (r : R) (h : (c, p, r) ∈ s.execs) (hone : OneOperation es c) :
    ∃ ops op, a.parse c.req.query = some ops ∧ Asked c.req.opName ops op ∧ a.plan op = .ok p :=
  (C32_operation_asked_for a c.req p).1 (planned_own ((inv_reaches hr).execs c p r h).2 hone)

/-! ## C33 -/

/-- C33, C34: where the response to a call comes from: it is the error of planning, or a response of
an execution made for this call or for a call with the same operation id, or it was stored by such a
call with the same query text whose plan is constant and not classified as protected. -/
theorem C33_source_of_response (a : App O P R) (es : List (Event R)) (s : State P R) (hr : Reaches a es s)
    (t : Nat) (c : Call) (r : R) (h : s.tasks t = .done c r) :
    (∃ x, createPlan a c.req = .error x ∧ r = a.errorResp x) ∨
    ∃ t0 c0 p0, Event.begin t0 c0 ∈ es ∧ c0.req.query = c.req.query ∧
      (c0 = c ∨ a.isConst p0 = true ∧ a.isProtected p0 = false) ∧
      ∃ c1 p1, (c1, p1, r) ∈ s.execs ∧
        (c1 = c0 ∧ p1 = p0 ∨ c1.opId = c0.opId ∧ a.canDedupe p0 = true ∧ a.canDedupe p1 = true) := by
  have hi := inv_reaches hr
  have horig : ∀ c0 p0, Origin a s.execs c0 p0 r → ∃ c1 p1, (c1, p1, r) ∈ s.execs ∧
        (c1 = c0 ∧ p1 = p0 ∨ c1.opId = c0.opId ∧ a.canDedupe p0 = true ∧ a.canDedupe p1 = true) := by
    intro c0 p0 ho
    rcases ho with ho | ⟨h1, c1, p1, h2, h3, h4⟩
    · exact ⟨c0, p0, ho, Or.inl ⟨rfl, rfl⟩⟩
    · exact ⟨c1, p1, h2, Or.inr ⟨h3, h1, h4⟩⟩
  rcases hi.done t c r h with hx | ⟨p, hp, ho⟩ | ⟨c0, p0, ⟨t0, h0⟩, hq, hp, h4, h5, ho⟩
  · exact Or.inl hx
  · exact Or.inr ⟨t, c, p, (hi.call t c).1 (by rw [h]; rfl), rfl, Or.inl rfl, horig c p ho⟩
  · exact Or.inr ⟨t0, c0, p0, h0, hq, Or.inr ⟨h4, h5⟩, horig c0 p0 ho⟩

/-- The operation ids of a history identify the query text and the operation name. -/
def FaithfulIds (es : List (Event R)) : Prop :=
  ∀ t1 c1 t2 c2, Event.begin t1 c1 ∈ es → Event.begin t2 c2 ∈ es → c1.opId = c2.opId →
    c1.req.query = c2.req.query ∧ c1.req.opName = c2.req.opName

/-- The response to a call comes from an execution of its own plan, for a call with the same
operation id unless the plan is constant and not classified as protected. -/
theorem done_own {a : App O P R} {es : List (Event R)} {s : State P R} (hr : Reaches a es s) (hids : FaithfulIds es)
    {t : Nat} {c : Call} {r : R} (h : s.tasks t = .done c r) (hone : OneOperation es c) {p : P}
    (hp : createPlan a c.req = .ok p) :
    ∃ c1, Made es c1 ∧ (c1, p, r) ∈ s.execs ∧ c1.req.query = c.req.query ∧ c1.req.opName = c.req.opName ∧
      (c1 = c ∨ a.canDedupe p = true ∧ c1.opId = c.opId ∨ a.isConst p = true ∧ a.isProtected p = false) := by
  have hi := inv_reaches hr
  have hmade : Made es c := ⟨t, (hi.call t c).1 (by rw [h]; rfl)⟩
  have key : ∀ c0 p0, Made es c0 → c0.req.query = c.req.query → Planned a es c0 p0 → Origin a s.execs c0 p0 r →
      p0 = p ∧ ∃ c1, Made es c1 ∧ (c1, p, r) ∈ s.execs ∧ c1.req.query = c.req.query ∧
        c1.req.opName = c.req.opName ∧ (c1 = c0 ∨ a.canDedupe p = true ∧ c1.opId = c0.opId) := by
    intro c0 p0 ⟨t0, h0⟩ hq hpl ho
    have hn := hone t0 c0 h0 hq
    have hone0 : OneOperation es c0 := fun t' c' h' hq' => by
      rw [hone t' c' h' (hq'.trans hq), hn]
    have h1 := planned_own hpl hone0
    rw [createPlan_same a hq hn, hp] at h1
    have hpp : p = p0 := by injection h1
    subst hpp
    refine ⟨rfl, ?_⟩
    rcases ho with ho | ⟨hd, c1, p1, h2, h3, h4⟩
    · exact ⟨c0, ⟨t0, h0⟩, ho, hq, hn, Or.inl rfl⟩
    · obtain ⟨⟨t1, hm1⟩, hpl1⟩ := hi.execs c1 p1 r h2
      obtain ⟨hq1, hn1⟩ := hids t1 c1 t0 c0 hm1 h0 h3
      have hone1 : OneOperation es c1 := fun t' c' h' hq' => by
        rw [hone t' c' h' (hq'.trans (hq1.trans hq)), hn1, hn]
      have h5 := planned_own hpl1 hone1
      rw [createPlan_same a (hq1.trans hq) (hn1.trans hn), hp] at h5
      have hpp : p = p1 := by injection h5
      subst hpp
      exact ⟨c1, ⟨t1, hm1⟩, h2, hq1.trans hq, hn1.trans hn, Or.inr ⟨hd, h3⟩⟩
  rcases hi.done t c r h with ⟨x, hx, _⟩ | ⟨p0, hpl, ho⟩ | ⟨c0, p0, h0, hq, hpl, h4, h5, ho⟩
  · rw [hp] at hx; cases hx
  · obtain ⟨rfl, c1, h1, h2, h3, h4, h5⟩ := key c p0 hmade rfl hpl ho
    refine ⟨c1, h1, h2, h3, h4, ?_⟩
    rcases h5 with h5 | h5
    · exact Or.inl h5
    · exact Or.inr (Or.inl h5)
  · obtain ⟨rfl, c1, h1, h2, h3, h6, -⟩ := key c0 p0 h0 hq hpl ho
    exact ⟨c1, h1, h2, h3, h6, Or.inr (Or.inr ⟨h4, h5⟩)⟩

/-- C33: the response to a call whose plan is not constant, or classified as protected, comes from
an execution for this call or one with the same operation id, which covers the headers and hence the
credentials (`C35_single_id_partial`).  Partial: when the ids identify query and operation, that is
without batches, and all requests with the same text name the same operation. -/
theorem C33_only_same_headers_partial (a : App O P R) (es : List (Event R)) (s : State P R) (hr : Reaches a es s)
    (hids : FaithfulIds es) (t : Nat) (c : Call) (r : R) (h : s.tasks t = .done c r) (hone : OneOperation es c) (p : P)
    (hp : createPlan a c.req = .ok p) (hprot : a.isConst p = false ∨ a.isProtected p = true) :
    ∃ c1, (c1, p, r) ∈ s.execs ∧ c1.opId = c.opId := by
  obtain ⟨c1, -, h2, -, -, h5⟩ := done_own hr hids h hone hp
  refine ⟨c1, h2, ?_⟩
  rcases h5 with h5 | h5 | h5
  · rw [h5]
  · exact h5.2
  · rcases hprot with hprot | hprot
    · rw [h5.1] at hprot; cases hprot
    · rw [h5.2] at hprot; cases hprot

/-- The executions of the history are those of `executePlan`, where `o` is the server as seen by a
call. -/
def ByPlan (o : Call → Outer Verif.Ir.St) (execs : List (Call × Plan × Verif.Exec.Response)) : Prop :=
  ∀ c p r, (c, p, r) ∈ execs → ∃ st, r = (executePlan (o c) p st).2

/-- C33: the response to a call with a constant plan without guards is what executing its own
operation gives, in any state, wherever the response came from.  Partial: without entity resolvers,
and when all requests with the same text name the same operation and have the same variables. -/
theorem C33_constant_answer_partial (parse : Text → Option (Ops Plan)) (errorResp : BErr → Verif.Exec.Response)
    (es : List (Event Verif.Exec.Response)) (s : State Plan Verif.Exec.Response)
    (hr : Reaches (execApp parse errorResp) es s) (hids : FaithfulIds es) (o : Call → Outer Verif.Ir.St)
    (w : Call → Verif.Ir.World) (b : Call → Verif.Ir.Ctx) (hreal : ∀ c, Real (o c) (w c) (b c))
    (hexec : ByPlan o s.execs) (t : Nat) (c : Call) (r : Verif.Exec.Response) (h : s.tasks t = .done c r)
    (hone : OneOperation es c)
    (hsame : ∀ t' c', Event.begin t' c' ∈ es → c'.req.query = c.req.query →
      SamePlanInput (o c') (o c) ∧ (w c').parse = (w c).parse)
    (ops : Ops Plan) (op : Plan) (hparse : parse c.req.query = some ops) (hop : getOperation c.req.opName ops = .ok op)
    (hconst : (transforms op).isConst = true)
    (hent : ∀ f ir, InPlan op.sel f → f.hdr.ir = some ir → ¬ UsesEntity ir)
    (hguard : ∀ f ir a, InPlan op.sel f → f.hdr.ir = some ir → ¬ Guard ir a) (st : Verif.Ir.St) :
    r = (executePlan (o c) (transforms op) st).2 := by
  have hp : createPlan (execApp parse errorResp) c.req = .ok (transforms op) := by
    simp only [createPlan, execApp, hparse, hop]
  obtain ⟨c1, ⟨t1, h1⟩, h2, h3, -, -⟩ := done_own hr hids h hone hp
  obtain ⟨st1, hst1⟩ := hexec c1 _ r h2
  obtain ⟨hs1, hs2⟩ := hsame t1 c1 h1 h3
  rw [hst1]
  exact Verif.Exec.C40_const_plan_partial (o c1) (o c) (w c1) (w c) (b c1) (b c) (hreal c1) (hreal c) hs2 hs1 op st1 st
    hconst hent (fun f ir a hf hir hg => absurd hg (hguard f ir a hf hir))
    (fun f ir a hf hir hg => absurd hg (hguard f ir a hf hir))

/-! ## C34 -/

/-- C34: a call whose plan cannot be shared and is not constant is answered by its own execution,
also in a batch.  Partial: such plans only, when all requests with the same text name the same
operation. -/
theorem C34_answered_alone_partial (a : App O P R) (es : List (Event R)) (s : State P R) (hr : Reaches a es s)
    (t : Nat) (c : Call) (r : R) (h : s.tasks t = .done c r) (hone : OneOperation es c) (p : P)
    (hp : createPlan a c.req = .ok p) (hd : a.canDedupe p = false) (hc : a.isConst p = false) :
    (c, p, r) ∈ s.execs := by
  have hi := inv_reaches hr
  have key : ∀ c0 p0, Made es c0 → c0.req.query = c.req.query → Planned a es c0 p0 → p0 = p := by
    intro c0 p0 ⟨t0, h0⟩ hq hpl
    have hn := hone t0 c0 h0 hq
    have h1 := planned_own hpl (fun t' c' h' hq' => by rw [hone t' c' h' (hq'.trans hq), hn])
    rw [createPlan_same a hq hn, hp] at h1
    injection h1 with h1
    exact h1.symm
  rcases hi.done t c r h with ⟨x, hx, _⟩ | ⟨p0, hpl, ho⟩ | ⟨c0, p0, h0, hq, hpl, h4, h5, ho⟩
  · rw [hp] at hx; cases hx
  · have := key c p0 ⟨t, (hi.call t c).1 (by rw [h]; rfl)⟩ rfl hpl
    subst this
    rcases ho with ho | ⟨hd', _⟩
    · exact ho
    · rw [hd] at hd'; cases hd'
  · have := key c0 p0 h0 hq hpl
    subst this
    rw [hc] at h4; cases h4

/-- C34: the responses of a batch are those of its calls, in order. -/
theorem C34_batch_in_order (s : State P R) (ts : List Nat) (rs : List R) (h : batchResponses s ts = some rs) :
    rs.length = ts.length ∧ ∀ (i t : Nat), ts[i]? = some t → ∃ c r, rs[i]? = some r ∧ s.tasks t = .done c r := by
  induction ts generalizing rs with
  | nil =>
    simp only [batchResponses] at h
    cases h
    exact ⟨rfl, by simp⟩
  | cons u us ih =>
    simp only [batchResponses] at h
    split at h
    · rename_i c r rs' h1 h2
      cases h
      obtain ⟨hl, hg⟩ := ih rs' h2
      refine ⟨by simp [hl], ?_⟩
      intro i t ht
      cases i with
      | zero => simp at ht; subst ht; exact ⟨c, r, rfl, h1⟩
      | succ i => simpa using hg i t (by simpa using ht)
    · cases h

/-! ## C41 -/

/-- C41: a mutation that is not constant is answered by its own execution.  Partial: when all
requests with the same text name the same operation. -/
theorem C41_mutation_executed_partial (parse : Text → Option (Ops Plan)) (errorResp : BErr → R)
    (es : List (Event R)) (s : State Plan R) (hr : Reaches (execApp parse errorResp) es s) (t : Nat) (c : Call) (r : R)
    (h : s.tasks t = .done c r) (hone : OneOperation es c) (ops : Ops Plan) (op : Plan)
    (hparse : parse c.req.query = some ops) (hop : getOperation c.req.opName ops = .ok op)
    (hmut : op.isQuery = false) (hconst : (transforms op).isConst = false) :
    (c, transforms op, r) ∈ s.execs := by
  have hp : createPlan (execApp parse errorResp) c.req = .ok (transforms op) := by
    simp only [createPlan, execApp, hparse, hop]
  refine C34_answered_alone_partial _ es s hr t c r h hone _ hp ?_ hconst
  have : (transforms op).isQuery = op.isQuery := rfl
  simp only [execApp, Verif.Exec.Plan.canDedupe, this, hmut, Bool.false_and]

/-! ## C72: freshness -/

/-- The task of an event of the operation handler. -/
def taskOf : Verif.Dedupe.Event OpId R → Nat
  | .call t _ | .step t | .complete t _ | .cancel t | .recvOk t | .recvErr t => t

theorem dedupe_other {o o' : Verif.Dedupe.State OpId R} {d : Verif.Dedupe.Event OpId R}
    (h : Verif.Dedupe.apply false o d = some o') (y : Nat) (hy : y ≠ taskOf d) : o'.tasks y = o.tasks y := by
  cases d <;> simp only [taskOf] at hy <;> simp only [Verif.Dedupe.apply] at h <;> split at h <;>
    first
    | (cases h; done)
    | (cases h; simp only [Verif.Dedupe.completeFn, upd, hy, if_false]; done)
    | (cases h; exact Verif.Dedupe.stepFn_other _ _ _ hy)
    | (split at h <;> cases h <;> simp only [upd, hy, if_false])

/-- An event changes one call, which has begun afterwards. -/
theorem apply_one {a : App O P R} {s s' : State P R} {e : Event R} (h : apply a s e = some s') :
    ∃ t, s'.tasks t ≠ .idle ∧ ∀ y, y ≠ t → s'.tasks y = s.tasks y ∧ s'.ops.tasks y = s.ops.tasks y := by
  have hsh : ∀ d, shared s (taskOf d) d = some s' →
      ∃ t, s'.tasks t ≠ .idle ∧ ∀ y, y ≠ t → s'.tasks y = s.tasks y ∧ s'.ops.tasks y = s.ops.tasks y := by
    intro d hs
    unfold shared at hs
    split at hs
    · rename_i c p ht
      simp only [Option.map_eq_some_iff] at hs
      obtain ⟨o, ho, rfl⟩ := hs
      exact ⟨taskOf d, by simp [ht], fun y hy => ⟨rfl, dedupe_other ho y hy⟩⟩
    · cases hs
  have hone : ∀ (t : Nat) (x : Task P R), x ≠ .idle → ∀ y, y ≠ t → upd s.tasks t x y = s.tasks y := by
    intro t x _ y hy
    simp [upd, hy]
  cases e with
  | step t => exact hsh (.step t) h
  | recvOk t => exact hsh (.recvOk t) h
  | recvErr t => exact hsh (.recvErr t) h
  | complete t r =>
    simp only [apply] at h
    split at h
    · rename_i c p ht
      simp only [Option.map_eq_some_iff] at h
      obtain ⟨o, ho, rfl⟩ := h
      exact ⟨t, by simp [ht], fun y hy => ⟨rfl, dedupe_other ho y hy⟩⟩
    · cases h
  | launch t =>
    simp only [apply] at h
    split at h
    · split at h
      · simp only [Option.map_eq_some_iff] at h
        obtain ⟨o, ho, rfl⟩ := h
        exact ⟨t, by simp [upd], fun y hy => ⟨by simp [upd, hy], dedupe_other ho y hy⟩⟩
      · cases h
        exact ⟨t, by simp [upd], fun y hy => ⟨by simp [upd, hy], rfl⟩⟩
    · cases h
  | drop t =>
    simp only [apply] at h
    split at h
    · cases h
      exact ⟨t, by simp [upd], fun y hy => ⟨by simp [upd, hy], rfl⟩⟩
    · cases h
      exact ⟨t, by simp [upd], fun y hy => ⟨by simp [upd, hy], rfl⟩⟩
    · simp only [Option.map_eq_some_iff] at h
      obtain ⟨o, ho, rfl⟩ := h
      exact ⟨t, by simp [upd], fun y hy => ⟨by simp [upd, hy], dedupe_other ho y hy⟩⟩
    · cases h
  | begin t c =>
    simp only [apply] at h
    split at h
    · cases h
      exact ⟨t, by simp [upd], fun y hy => ⟨by simp [upd, hy], rfl⟩⟩
    · cases h
  | look t =>
    simp only [apply] at h
    split at h
    · split at h <;> cases h <;> exact ⟨t, by simp [upd], fun y hy => ⟨by simp [upd, hy], rfl⟩⟩
    · cases h
  | find t =>
    simp only [apply] at h
    split at h
    · split at h <;> cases h <;> exact ⟨t, by simp [upd], fun y hy => ⟨by simp [upd, hy], rfl⟩⟩
    · cases h
  | make t =>
    simp only [apply] at h
    split at h
    · split at h <;> cases h <;> exact ⟨t, by simp [upd], fun y hy => ⟨by simp [upd, hy], rfl⟩⟩
    · cases h
  | finish t r =>
    simp only [apply] at h
    split at h
    · cases h
      exact ⟨t, by simp [upd], fun y hy => ⟨by simp [upd, hy], rfl⟩⟩
    · cases h
  | join t =>
    simp only [apply] at h
    split at h
    · split at h
      · cases h
        exact ⟨t, by simp [upd], fun y hy => ⟨by simp [upd, hy], rfl⟩⟩
      · cases h
    · cases h
  | store t =>
    simp only [apply] at h
    split at h
    · cases h
      exact ⟨t, by simp [upd], fun y hy => ⟨by simp [upd, hy], rfl⟩⟩
    · cases h

theorem idle_ops {a : App O P R} {es : List (Event R)} {s s' : State P R} (hr : run a s es = some s')
    (h : ∀ t, s.tasks t = .idle → s.ops.tasks t = .idle) (t : Nat) (ht : s'.tasks t = .idle) :
    s'.ops.tasks t = .idle := by
  induction es generalizing s with
  | nil => simp only [run] at hr; cases hr; exact h t ht
  | cons e es ih =>
    simp only [run] at hr
    split at hr
    · rename_i s1 h1
      refine ih hr ?_
      intro y hy
      obtain ⟨u, hu, ho⟩ := apply_one h1
      have hyu : y ≠ u := by rintro rfl; exact hu hy
      rw [(ho y hyu).2]
      exact h y (by rw [← (ho y hyu).1]; exact hy)
    · cases hr

/-- What holds of the calls that begin after the state `s1`. -/
structure Fresh (a : App O P R) (es : List (Event R)) (s1 s : State P R) (new : List (Call × P × R)) : Prop where
  execs : s.execs = s1.execs ++ new
  answered : ∀ t c p r, s1.tasks t = .idle → s.tasks t = .answered c p r → ∃ c' p', (c', p', r) ∈ new
  done : ∀ t c r, s1.tasks t = .idle → s.tasks t = .done c r → (∃ c' p', (c', p', r) ∈ new) ∨
    (∃ x, createPlan a c.req = .error x ∧ r = a.errorResp x) ∨
    ∃ c0 p0, Made es c0 ∧ c0.req.query = c.req.query ∧ Planned a es c0 p0 ∧ a.isConst p0 = true ∧
      a.isProtected p0 = false
  ops : ∃ des, Verif.Dedupe.run false s1.ops des = some s.ops ∧
    ∀ t r, Verif.Dedupe.Event.complete t r ∈ des → ∃ c p, (c, p, r) ∈ new

theorem fresh_base (a : App O P R) (es : List (Event R)) (s1 : State P R) : Fresh a es s1 s1 [] where
  execs := (List.append_nil _).symm
  answered t c p r h1 h2 := by rw [h1] at h2; cases h2
  done t c r h1 h2 := by rw [h1] at h2; cases h2
  ops := ⟨[], rfl, by simp⟩

/-- Changing one task in a justified way keeps `Fresh`. -/
theorem fresh_task {a : App O P R} {es : List (Event R)} {s1 s : State P R} {new : List (Call × P × R)}
    (h : Fresh a es s1 s new) (e : Event R) (t : Nat) (x : Task P R) (s' : State P R) (more : List (Call × P × R))
    (ht : s'.tasks = upd s.tasks t x) (hex : s'.execs = s.execs ++ more)
    (hans : ∀ c p r, x = .answered c p r → s1.tasks t = .idle → ∃ c' p', (c', p', r) ∈ new ++ more)
    (hdone : ∀ c r, x = .done c r → s1.tasks t = .idle → (∃ c' p', (c', p', r) ∈ new ++ more) ∨
      (∃ x, createPlan a c.req = .error x ∧ r = a.errorResp x) ∨
      ∃ c0 p0, Made (es ++ [e]) c0 ∧ c0.req.query = c.req.query ∧ Planned a (es ++ [e]) c0 p0 ∧ a.isConst p0 = true ∧
        a.isProtected p0 = false)
    (hops : ∃ des, Verif.Dedupe.run false s1.ops des = some s'.ops ∧
      ∀ t r, Verif.Dedupe.Event.complete t r ∈ des → ∃ c p, (c, p, r) ∈ new ++ more) :
    Fresh a (es ++ [e]) s1 s' (new ++ more) where
  execs := by rw [hex, h.execs, List.append_assoc]
  answered t' c p r h1 h2 := by
    rw [ht] at h2
    simp only [upd] at h2
    split at h2
    · rename_i heq
      subst heq
      exact hans c p r h2 h1
    · obtain ⟨c', p', h3⟩ := h.answered t' c p r h1 h2
      exact ⟨c', p', List.mem_append_left _ h3⟩
  done t' c r h1 h2 := by
    rw [ht] at h2
    simp only [upd] at h2
    split at h2
    · rename_i heq
      subst heq
      exact hdone c r h2 h1
    · rcases h.done t' c r h1 h2 with ⟨c', p', h3⟩ | h3 | ⟨c0, p0, h3, h4, h5, h6⟩
      · exact Or.inl ⟨c', p', List.mem_append_left _ h3⟩
      · exact Or.inr (Or.inl h3)
      · exact Or.inr (Or.inr ⟨c0, p0, made_mono e h3, h4, planned_mono e h5, h6⟩)
  ops := hops

theorem fresh_ops {a : App O P R} {es : List (Event R)} {s1 s : State P R} {new : List (Call × P × R)}
    (h : Fresh a es s1 s new) (more : List (Call × P × R)) : ∃ des, Verif.Dedupe.run false s1.ops des = some s.ops ∧
      ∀ t r, Verif.Dedupe.Event.complete t r ∈ des → ∃ c p, (c, p, r) ∈ new ++ more := by
  obtain ⟨des, h1, h2⟩ := h.ops
  refine ⟨des, h1, fun t r hr => ?_⟩
  obtain ⟨c, p, h3⟩ := h2 t r hr
  exact ⟨c, p, List.mem_append_left _ h3⟩

theorem fresh_ops_event {a : App O P R} {es : List (Event R)} {s1 s : State P R} {new : List (Call × P × R)}
    (h : Fresh a es s1 s new) (more : List (Call × P × R)) (d : Verif.Dedupe.Event OpId R)
    (o' : Verif.Dedupe.State OpId R) (hd : Verif.Dedupe.apply false s.ops d = some o')
    (hc : ∀ t r, d = .complete t r → ∃ c p, (c, p, r) ∈ new ++ more) :
    ∃ des, Verif.Dedupe.run false s1.ops des = some o' ∧
      ∀ t r, Verif.Dedupe.Event.complete t r ∈ des → ∃ c p, (c, p, r) ∈ new ++ more := by
  obtain ⟨des, h1, h2⟩ := fresh_ops h more
  refine ⟨des ++ [d], ?_, ?_⟩
  · rw [Verif.Dedupe.run_append, h1]
    simp [Verif.Dedupe.run, hd]
  · intro t r hr
    rcases List.mem_append.1 hr with hr | hr
    · exact h2 t r hr
    · exact hc t r (List.mem_singleton.1 hr).symm

theorem fresh_shared {a : App O P R} {es : List (Event R)} {s1 s s' : State P R} {new : List (Call × P × R)}
    (h : Fresh a es s1 s new) (e : Event R) (t : Nat) (d : Verif.Dedupe.Event OpId R)
    (hd : ∀ t r, d ≠ .complete t r) (hs : shared s t d = some s') : ∃ new', Fresh a (es ++ [e]) s1 s' new' := by
  unfold shared at hs
  split at hs
  · rename_i c p ht
    simp only [Option.map_eq_some_iff] at hs
    obtain ⟨o, ho, rfl⟩ := hs
    exact ⟨_, fresh_task h e t (s.tasks t) _ [] (upd_self _ _ _ rfl).symm (List.append_nil _).symm
      (fun c p r hx => by rw [ht] at hx; cases hx) (fun c r hx => by rw [ht] at hx; cases hx)
      (fresh_ops_event h [] d o ho (fun t r hr => absurd hr (hd t r)))⟩
  · cases hs

theorem fresh_apply {a : App O P R} {es : List (Event R)} {s1 s s' : State P R} {new : List (Call × P × R)}
    {e : Event R} (hi : Inv a es s) (hi1 : ∃ es1, Inv a es1 s1) (hidle : ∀ t, s1.tasks t = .idle → s1.ops.tasks t = .idle)
    (h : Fresh a es s1 s new) (he : apply a s e = some s') : ∃ new', Fresh a (es ++ [e]) s1 s' new' := by
  cases e with
  | step t => exact fresh_shared h _ t (.step t) (by simp) he
  | recvOk t => exact fresh_shared h _ t (.recvOk t) (by simp) he
  | recvErr t => exact fresh_shared h _ t (.recvErr t) (by simp) he
  | begin t c =>
    simp only [apply] at he
    split at he
    · cases he
      exact ⟨_, fresh_task h _ t (.begun c) _ [] rfl (List.append_nil _).symm (by simp) (by simp) (fresh_ops h [])⟩
    · cases he
  | look t =>
    simp only [apply] at he
    split at he
    · rename_i c ht
      split at he
      · rename_i r hr
        cases he
        refine ⟨_, fresh_task h _ t (.done c r) _ [] rfl (List.append_nil _).symm (by simp) ?_ (fresh_ops h [])⟩
        intro c' r' hx _
        cases hx
        obtain ⟨c0, p0, h1, h2, h3, h4, h5, -⟩ := hi.consts _ _ hr
        exact Or.inr (Or.inr ⟨c0, p0, made_mono _ h1, h2, planned_mono _ h3, h4, h5⟩)
      · cases he
        exact ⟨_, fresh_task h _ t (.missed c) _ [] rfl (List.append_nil _).symm (by simp) (by simp) (fresh_ops h [])⟩
    · cases he
  | find t =>
    simp only [apply] at he
    split at he
    · rename_i c ht
      split at he
      · rename_i p hp
        cases he
        exact ⟨_, fresh_task h _ t (.planned c p) _ [] rfl (List.append_nil _).symm (by simp) (by simp) (fresh_ops h [])⟩
      · cases he
        exact ⟨_, fresh_task h _ t (.unplanned c) _ [] rfl (List.append_nil _).symm (by simp) (by simp) (fresh_ops h [])⟩
    · cases he
  | make t =>
    simp only [apply] at he
    split at he
    · rename_i c ht
      split at he
      · rename_i x hx
        cases he
        refine ⟨_, fresh_task h _ t (.done c (a.errorResp x)) _ [] rfl (List.append_nil _).symm (by simp) ?_
          (fresh_ops h [])⟩
        intro c' r' hx' _
        cases hx'
        exact Or.inr (Or.inl ⟨x, hx, rfl⟩)
      · rename_i p hp
        cases he
        exact ⟨_, fresh_task h _ t (.planned c p) _ [] rfl (List.append_nil _).symm (by simp) (by simp) (fresh_ops h [])⟩
    · cases he
  | launch t =>
    simp only [apply] at he
    split at he
    · rename_i c p ht
      split at he
      · simp only [Option.map_eq_some_iff] at he
        obtain ⟨o, ho, rfl⟩ := he
        exact ⟨_, fresh_task h _ t (.sharing c p) _ [] rfl (List.append_nil _).symm (by simp) (by simp)
          (fresh_ops_event h [] _ o ho (by simp))⟩
      · cases he
        exact ⟨_, fresh_task h _ t (.running c p) _ [] rfl (List.append_nil _).symm (by simp) (by simp) (fresh_ops h [])⟩
    · cases he
  | finish t r =>
    simp only [apply] at he
    split at he
    · rename_i c p ht
      cases he
      refine ⟨_, fresh_task h _ t (.answered c p r) _ [(c, p, r)] rfl rfl ?_ (by simp) (fresh_ops h _)⟩
      intro c' p' r' hx _
      cases hx
      exact ⟨c, p, List.mem_append_right _ (List.mem_singleton.2 rfl)⟩
    · cases he
  | complete t r =>
    simp only [apply] at he
    split at he
    · rename_i c p ht
      simp only [Option.map_eq_some_iff] at he
      obtain ⟨o, ho, rfl⟩ := he
      refine ⟨_, fresh_task h _ t (s.tasks t) _ [(c, p, r)] (upd_self _ _ _ rfl).symm rfl
        (fun c p r hx => by rw [ht] at hx; cases hx) (fun c r hx => by rw [ht] at hx; cases hx)
        (fresh_ops_event h _ _ o ho ?_)⟩
      intro t' r' hr
      cases hr
      exact ⟨c, p, List.mem_append_right _ (List.mem_singleton.2 rfl)⟩
    · cases he
  | join t =>
    simp only [apply] at he
    split at he
    · rename_i c p ht
      split at he
      · rename_i k r hd
        cases he
        refine ⟨_, fresh_task h _ t (.answered c p r) _ [] rfl (List.append_nil _).symm ?_ (by simp) (fresh_ops h [])⟩
        intro c' p' r' hx hid
        cases hx
        obtain ⟨es1, hi1⟩ := hi1
        obtain ⟨des1, hd1, -, -⟩ := hi1.ops
        obtain ⟨des, hd2, hd3⟩ := h.ops
        obtain ⟨t', h1, -⟩ := Verif.Dedupe.C05_no_stale_result hd1 hd2 (hidle t hid) hd
        obtain ⟨c'', p'', h2⟩ := hd3 t' r h1
        exact ⟨c'', p'', List.mem_append_left _ h2⟩
      · cases he
    · cases he
  | store t =>
    simp only [apply] at he
    split at he
    · rename_i c p r ht
      cases he
      refine ⟨_, fresh_task h _ t (.done c r) _ [] rfl (List.append_nil _).symm (by simp) ?_ (fresh_ops h [])⟩
      intro c' r' hx hid
      cases hx
      obtain ⟨c'', p'', h2⟩ := h.answered t c p r hid ht
      exact Or.inl ⟨c'', p'', List.mem_append_left _ h2⟩
    · cases he
  | drop t =>
    simp only [apply] at he
    split at he
    · rename_i c ht
      cases he
      exact ⟨_, fresh_task h _ t (.dropped c) _ [] rfl (List.append_nil _).symm (by simp) (by simp) (fresh_ops h [])⟩
    · rename_i c p ht
      cases he
      exact ⟨_, fresh_task h _ t (.dropped c) _ [] rfl (List.append_nil _).symm (by simp) (by simp) (fresh_ops h [])⟩
    · rename_i c p ht
      simp only [Option.map_eq_some_iff] at he
      obtain ⟨o, ho, rfl⟩ := he
      exact ⟨_, fresh_task h _ t (.dropped c) _ [] rfl (List.append_nil _).symm (by simp) (by simp)
        (fresh_ops_event h [] _ o ho (by simp))⟩
    · cases he

theorem fresh_run {a : App O P R} {pre es : List (Event R)} {s1 s s' : State P R} {new : List (Call × P × R)}
    (hi : Inv a pre s) (hi1 : ∃ es1, Inv a es1 s1) (hidle : ∀ t, s1.tasks t = .idle → s1.ops.tasks t = .idle)
    (h : Fresh a pre s1 s new) (hr : run a s es = some s') : ∃ new', Fresh a (pre ++ es) s1 s' new' := by
  induction es generalizing pre s new with
  | nil => simp only [run] at hr; cases hr; exact ⟨new, by simpa using h⟩
  | cons e es ih =>
    simp only [run] at hr
    split at hr
    · rename_i s2 h2
      obtain ⟨new', h3⟩ := fresh_apply hi hi1 hidle h h2
      have := ih (inv_apply hi h2) h3 hr
      simpa using this
    · cases hr

/-- C72: the response to a call that begins after `es1` was executed after `es1`, unless it is an
error of planning or a request with the same text has a constant plan. -/
theorem C72_response_is_fresh (a : App O P R) (es1 es2 : List (Event R)) (s1 s : State P R) (hr1 : Reaches a es1 s1)
    (hr2 : run a s1 es2 = some s) (t : Nat) (hnew : s1.tasks t = .idle) (c : Call) (r : R)
    (h : s.tasks t = .done c r) :
    (∃ x, createPlan a c.req = .error x ∧ r = a.errorResp x) ∨
    (∃ c' p', (c', p', r) ∈ s.execs.drop s1.execs.length) ∨
    ∃ t0 c0 p0, Event.begin t0 c0 ∈ es1 ++ es2 ∧ c0.req.query = c.req.query ∧ createPlan a c0.req = .ok p0 ∧
      a.isConst p0 = true ∧ a.isProtected p0 = false := by
  have hi1 := inv_reaches hr1
  obtain ⟨new, hf⟩ := fresh_run hi1 ⟨es1, hi1⟩ (idle_ops hr1 (by simp [init, Verif.Dedupe.init])) (fresh_base a es1 s1) hr2
  rcases hf.done t c r hnew h with h1 | h1 | ⟨c0, p0, h1, h2, ⟨c1, ⟨t1, h3⟩, h4, h5⟩, h6, h7⟩
  · refine Or.inr (Or.inl ?_)
    rw [hf.execs, List.drop_left]
    exact h1
  · exact Or.inl h1
  · exact Or.inr (Or.inr ⟨t1, c1, p0, h3, h4.trans h2, h5, h6, h7⟩)

end Verif.Server
