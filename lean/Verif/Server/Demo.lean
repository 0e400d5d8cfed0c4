import Verif.Server.Ident
import Verif.Server.Share

/-!
# Concrete histories: cases that meet the hypotheses of the theorems, and violations
-/

namespace Verif.Server

open Verif.Mustache (Text)
open Verif.HttpUrl (GVal)
open Verif.Exec (Plan Response Field Outer transforms executePlan demoOuter demoOuter_real fldIr planOf constPlan obj str)
open Verif.Ir (IR constant adminOnly adminHdr emptySt)

set_option linter.unusedSimpArgs false

/-- A single request in a history. -/
def callFor (headers : List (Text × Text)) (q : Text) (name : Option Text) (vars : List (Text × GVal)) : Call :=
  let r : Req := ⟨q, name, vars⟩
  ⟨r, headers, singleId headers r⟩

/-- Example data for the concrete cases below. -/
def admin : List (Text × Text) := [(['a'], ['x'])]

/-- An answer with one key. -/
def ans (k v : String) : Response := ⟨obj [(k, str v)], []⟩

/-- A call that is executed alone, from begin to end, with the plan made or found. -/
def alone (t : Nat) (c : Call) (cached : Bool) (r : Response) : List (Event Response) :=
  [.begin t c, .look t, .find t] ++ (if cached then [] else [.make t]) ++ [.launch t, .finish t r, .store t]

/-- The same for a call in the operation handler that joins nobody. -/
def first (t : Nat) (c : Call) (cached : Bool) (r : Response) : List (Event Response) :=
  [.begin t c, .look t, .find t] ++ (if cached then [] else [.make t]) ++
    [.launch t, .step t, .complete t r, .join t, .store t]

/-- A call that finds a response in the cache. -/
def again (t : Nat) (c : Call) : List (Event Response) := [.begin t c, .look t]

/-- Example data for the concrete cases below. -/
def badReq (_ : BErr) : Response := ⟨.null, [.input ['b', 'a', 'd']]⟩

/-- `query A { a }` and `mutation B { b }`, of which neither can be shared. -/
def opA : Plan := planOf [fldIr 1 "a" (some (.io lone)) []]
/-- Example data for the concrete cases below. -/
def opB : Plan := { planOf [fldIr 1 "b" (some (.io lone)) []] with isQuery := false }
/-- `query C { c }`, a constant. -/
def opC : Plan := planOf [fldIr 1 "c" (some (constant "1")) []]
/-- `query D { d }`, `query E { e }`, which can be shared. -/
def opD : Plan := planOf [fldIr 1 "d" (some (.io common)) []]
/-- Example data for the concrete cases below. -/
def opE : Plan := planOf [fldIr 1 "e" (some (.io common)) []]
/-- `query M { public secret }`, constants of which one is protected. -/
def opM : Plan := planOf [fldIr 1 "public" (some (constant "1")) [],
  fldIr 2 "secret" (some (.protect adminOnly (constant "2"))) []]

/-- The documents of the cases. -/
def docs (t : Text) : Option (Ops Plan) :=
  if t = ['A', 'B'] then some (.multiple [(['A'], opA), (['B'], opB)])
  else if t = ['C', 'B'] then some (.multiple [(['C'], opC), (['B'], opB)])
  else if t = ['B'] then some (.single opB)
  else if t = ['C'] then some (.single opC)
  else if t = ['D'] then some (.single opD)
  else if t = ['E'] then some (.single opE)
  else if t = ['M'] then some (.single opM)
  else if t = ['V'] then some (.single constPlan)
  else none

/-- Example data for the concrete cases below. -/
def app : App Plan Plan Response := execApp docs badReq

/-! ## Cases that meet the hypotheses -/

/-- Two mutations one after the other with the same text and the same headers are both executed. -/
def twice : List (Event Response) :=
  alone 0 (callFor admin ['B'] none []) false (ans "b" "first") ++ alone 1 (callFor admin ['B'] none []) true (ans "b" "second")

theorem twice_single (t : Nat) (c : Call) (h : Event.begin t c ∈ twice) : c = callFor admin ['B'] none [] := by
  simp only [twice, alone, List.cons_append, List.nil_append, List.mem_cons, List.mem_append, List.not_mem_nil, or_false,
    Bool.false_eq_true, if_false, if_true, reduceCtorEq, false_or, Event.begin.injEq] at h
  rcases h with h | h <;> exact h.2

example : ∃ s : State Plan Response, Reaches app twice s ∧ s.execs.length = 2 ∧
    (callFor admin ['B'] none [], transforms opB, ans "b" "second") ∈ s.execs ∧
    (∃ ops op, app.parse ['B'] = some ops ∧ Asked none ops op ∧ app.plan op = .ok (transforms opB)) := by
  have hone : OneOperation twice (callFor admin ['B'] none []) := by
    intro t c' h _
    rw [twice_single t c' h]
  have hmem := C41_mutation_executed_partial docs badReq twice _ rfl 1 (callFor admin ['B'] none []) (ans "b" "second") rfl
    hone (.single opB) opB rfl rfl rfl rfl
  exact ⟨_, rfl, rfl, hmem, C32_own_plan_partial app twice _ rfl _ _ _ hmem hone⟩

/-- Two requests of two users at once for a shareable operation are executed for each of them. -/
def users : List (Event Response) :=
  [.begin 0 (callFor admin ['D'] none []), .begin 1 (callFor [] ['D'] none []), .look 0, .look 1, .find 0, .find 1, .make 0,
   .make 1, .launch 0, .launch 1, .step 0, .step 1, .complete 0 (ans "d" "admin"), .complete 1 (ans "d" "anyone"), .join 1,
   .join 0, .store 0, .store 1]

theorem users_single (t : Nat) (c : Call) (h : Event.begin t c ∈ users) :
    c = callFor admin ['D'] none [] ∨ c = callFor [] ['D'] none [] := by
  simp only [users, List.mem_cons, List.not_mem_nil, or_false, reduceCtorEq, false_or, Event.begin.injEq] at h
  rcases h with h | h
  · exact Or.inl h.2
  · exact Or.inr h.2

example : ∃ s : State Plan Response, Reaches app users s ∧ s.tasks 1 = .done (callFor [] ['D'] none []) (ans "d" "anyone") ∧
    ∃ c1, (c1, transforms opD, ans "d" "anyone") ∈ s.execs ∧ c1.headers = [] := by
  have hone : OneOperation users (callFor [] ['D'] none []) := by
    intro t c' h _
    rcases users_single t c' h with rfl | rfl <;> rfl
  obtain ⟨s, hr, ht⟩ : ∃ s : State Plan Response, Reaches app users s ∧
      s.tasks 1 = .done (callFor [] ['D'] none []) (ans "d" "anyone") := ⟨_, rfl, rfl⟩
  refine ⟨s, hr, ht, ?_⟩
  obtain ⟨c1, h1, h2, -⟩ := C33_same_credentials_partial app users s hr (by
    intro t c h
    rcases users_single t c h with rfl | rfl <;> rfl) 1 _ _ ht hone (transforms opD) rfl (Or.inl rfl)
  exact ⟨c1, h1, h2⟩

/-- Two requests of one user at once are executed once. -/
example : ∃ s : State Plan Response, Reaches app
    [.begin 0 (callFor admin ['D'] none []), .begin 1 (callFor admin ['D'] none []), .look 0, .look 1, .find 0, .find 1, .make 0,
     .make 1, .launch 0, .launch 1, .step 0, .step 1, .complete 0 (ans "d" "x"), .recvOk 1, .join 1, .join 0, .store 0,
     .store 1] s ∧ s.tasks 1 = .done (callFor admin ['D'] none []) (ans "d" "x") ∧ s.execs.length = 1 :=
  ⟨_, rfl, rfl, rfl⟩

/-- A constant answered from the cache. -/
def constants : List (Event Response) :=
  first 0 (callFor admin ['C'] none []) false ⟨obj [("c", .int 1)], []⟩ ++ again 1 (callFor [] ['C'] none [])

theorem constants_single (t : Nat) (c : Call) (h : Event.begin t c ∈ constants) :
    c = callFor admin ['C'] none [] ∨ c = callFor [] ['C'] none [] := by
  simp only [constants, first, again, List.cons_append, List.nil_append, List.mem_cons, List.mem_append, List.not_mem_nil,
    or_false, Bool.false_eq_true, if_false, reduceCtorEq, false_or, Event.begin.injEq] at h
  rcases h with h | h
  · exact Or.inl h.2
  · exact Or.inr h.2

example : ∃ s : State Plan Response, Reaches app constants s ∧ s.execs.length = 1 ∧
    ∃ r, s.tasks 1 = .done (callFor [] ['C'] none []) r ∧
      r = (executePlan (demoOuter .absent (fun _ => none)) (transforms opC) emptySt).2 := by
  let o : Call → Outer Verif.Ir.St := fun c => demoOuter (if c.headers = [] then .absent else adminHdr) (fun _ => none)
  refine ⟨_, rfl, rfl, _, rfl, ?_⟩
  refine C33_constant_answer_partial docs badReq constants _ rfl (singles_faithful _ (by
    intro t c h
    rcases constants_single t c h with rfl | rfl <;> rfl)) o (fun _ => Verif.Ir.demoWorld) _
    (fun c => demoOuter_real _ _) ?_ 1 (callFor [] ['C'] none []) ⟨obj [("c", .int 1)], []⟩ rfl ?_ ?_ (.single opC) opC rfl rfl
    rfl ?_ ?_ emptySt
  · intro c p r h
    have h : (c, p, r) = (callFor admin ['C'] none [], transforms opC, ⟨obj [("c", .int 1)], []⟩) :=
      List.mem_singleton.1 h
    injection h with h1 h2
    injection h2 with h2 h3
    subst h1; subst h2; subst h3
    exact ⟨emptySt, rfl⟩
  · intro t c' h _
    rcases constants_single t c' h with rfl | rfl <;> rfl
  · intro t c' h _
    exact ⟨⟨⟨rfl, rfl, rfl, rfl⟩, rfl, ⟨rfl, rfl⟩, fun _ => rfl, fun _ => rfl⟩, rfl⟩
  · intro f ir hf hir he
    have h := Verif.Exec.inPlan_dfs hf
    simp only [opC, planOf, fldIr, Verif.Exec.fld, Field.hdr, Verif.Exec.dfs, Verif.Exec.dfsF, List.append_nil,
      List.mem_cons, List.not_mem_nil, or_false] at h
    rw [show f.hdr = _ from h] at hir
    injection hir with hir
    subst hir
    cases he
  · intro f ir a hf hir he
    have h := Verif.Exec.inPlan_dfs hf
    simp only [opC, planOf, fldIr, Verif.Exec.fld, Field.hdr, Verif.Exec.dfs, Verif.Exec.dfsF, List.append_nil,
      List.mem_cons, List.not_mem_nil, or_false] at h
    rw [show f.hdr = _ from h] at hir
    injection hir with hir
    subst hir
    cases he

/-- The second mutation of `twice` gets the response of an execution after it began. -/
example : ∃ s1 s : State Plan Response, Reaches app (alone 0 (callFor admin ['B'] none []) false (ans "b" "first")) s1 ∧
    run app s1 (alone 1 (callFor admin ['B'] none []) true (ans "b" "second")) = some s ∧ s1.tasks 1 = .idle ∧
    s.tasks 1 = .done (callFor admin ['B'] none []) (ans "b" "second") ∧
    s.execs.drop s1.execs.length = [(callFor admin ['B'] none [], transforms opB, ans "b" "second")] :=
  ⟨_, _, rfl, rfl, rfl, rfl, rfl⟩

/-- The responses of a batch of two mutations. -/
example : ∃ s : State Plan Response, Reaches app
    (alone 0 ⟨⟨['B'], none, []⟩, [], batchId [] [⟨['B'], none, []⟩, ⟨['B'], none, []⟩]⟩ false (ans "b" "first") ++
     alone 1 ⟨⟨['B'], none, []⟩, [], batchId [] [⟨['B'], none, []⟩, ⟨['B'], none, []⟩]⟩ true (ans "b" "second")) s ∧
    batchResponses s [0, 1] = some [ans "b" "first", ans "b" "second"] := ⟨_, rfl, rfl⟩

/-! ## Violations -/

/-- C32 is violated by operation names: after `query A` of a document, `mutation B` of the same
document is answered by executing `query A`. -/
theorem C32_violated_by_operation_name : ∃ (es : List (Event Response)) (s : State Plan Response) (c : Call) (p p' : Plan)
    (r : Response), Reaches app es s ∧ s.tasks 1 = .done c r ∧ (c, p, r) ∈ s.execs ∧ createPlan app c.req = .ok p' ∧
    p.isQuery = true ∧ p'.isQuery = false :=
  ⟨alone 0 (callFor [] ['A', 'B'] (some ['A']) []) false (ans "a" "1") ++ alone 1 (callFor [] ['A', 'B'] (some ['B']) []) true (ans "a" "2"), _,
    callFor [] ['A', 'B'] (some ['B']) [], transforms opA, transforms opB, ans "a" "2", rfl, rfl,
    List.mem_cons_of_mem _ List.mem_cons_self, rfl, rfl, rfl⟩

/-- C32 is violated by an unknown operation name: the request is executed once the document was
planned for another request. -/
theorem C32_violated_by_unknown_name : ∃ (es : List (Event Response)) (s : State Plan Response) (c : Call) (p : Plan)
    (r : Response) (n : Text), Reaches app es s ∧ s.tasks 1 = .done c r ∧ (c, p, r) ∈ s.execs ∧
    createPlan app c.req = .error (.notFound n) :=
  ⟨alone 0 (callFor [] ['A', 'B'] (some ['A']) []) false (ans "a" "1") ++ alone 1 (callFor [] ['A', 'B'] (some ['Z']) []) true (ans "a" "2"), _,
    callFor [] ['A', 'B'] (some ['Z']) [], transforms opA, ans "a" "2", ['Z'], rfl, rfl,
    List.mem_cons_of_mem _ List.mem_cons_self, rfl⟩

/-- C41 is violated by operation names: a mutation is answered from the response cache, without any
execution for it, because the document has a constant query that was asked for before. -/
theorem C41_violated_by_operation_name : ∃ (es : List (Event Response)) (s : State Plan Response) (c : Call) (p : Plan)
    (r : Response), Reaches app es s ∧ s.tasks 1 = .done c r ∧ createPlan app c.req = .ok p ∧ p.isQuery = false ∧
    p.isConst = false ∧ ∀ p' r', (c, p', r') ∉ s.execs := by
  refine ⟨first 0 (callFor [] ['C', 'B'] (some ['C']) []) false ⟨obj [("c", .int 1)], []⟩ ++
    again 1 (callFor [] ['C', 'B'] (some ['B']) []), _, callFor [] ['C', 'B'] (some ['B']) [], transforms opB, _, rfl, rfl, rfl, rfl,
    rfl, ?_⟩
  intro p' r' h
  have h := List.mem_singleton.1 h
  injection h with h1 _
  have : some ['B'] = some ['C'] := congrArg (fun c => c.req.opName) h1
  exact absurd this (by decide)

/-- C33 is violated by an operation with protected and public constants: the response computed for
an administrator is handed to a request without credentials, for which executing the operation
gives an error and no data. -/
theorem C33_violated_by_mixed_plan : ∃ (es : List (Event Response)) (s : State Plan Response) (c0 c1 : Call) (r : Response),
    Reaches app es s ∧ c1.headers = [] ∧ c1.req = c0.req ∧ s.tasks 0 = .done c0 r ∧ s.tasks 1 = .done c1 r ∧
    createPlan app c1.req = .ok (transforms opM) ∧
    r = (executePlan (demoOuter adminHdr (fun _ => none)) (transforms opM) emptySt).2 ∧
    r = ⟨obj [("public", .int 1), ("secret", str "2")], []⟩ ∧
    ∃ x, (executePlan (demoOuter .absent (fun _ => none)) (transforms opM) emptySt).2 = ⟨.null, [.before x]⟩ :=
  ⟨first 0 (callFor admin ['M'] none []) false ⟨obj [("public", .int 1), ("secret", str "2")], []⟩ ++
      again 1 (callFor [] ['M'] none []), _, callFor admin ['M'] none [], callFor [] ['M'] none [], _, rfl, rfl, rfl, rfl,
    rfl, rfl, rfl, rfl, _, rfl⟩

/-- C33 is violated by variables: the response to `{ one @include(if: $v) two }` for `v = true` is
handed to a request with `v = false`. -/
theorem C33_violated_by_variables : ∃ (es : List (Event Response)) (s : State Plan Response) (c0 c1 : Call) (r r' : Response),
    Reaches app es s ∧ c0.req.vars = [(['v'], .bool true)] ∧ c1.req.vars = [(['v'], .bool false)] ∧
    c1.headers = c0.headers ∧ s.tasks 1 = .done c1 r ∧ createPlan app c1.req = .ok (transforms constPlan) ∧
    r = (executePlan (demoOuter adminHdr (fun _ => some true)) (transforms constPlan) emptySt).2 ∧
    r' = (executePlan (demoOuter adminHdr (fun _ => some false)) (transforms constPlan) emptySt).2 ∧ r.data ≠ r'.data :=
  ⟨first 0 (callFor admin ['V'] none [(['v'], .bool true)]) false ⟨obj [("one", .int 1), ("two", str "2")], []⟩ ++
      again 1 (callFor admin ['V'] none [(['v'], .bool false)]), _, callFor admin ['V'] none [(['v'], .bool true)],
    callFor admin ['V'] none [(['v'], .bool false)], _, ⟨obj [("two", str "2")], []⟩, rfl, rfl, rfl, rfl, rfl, rfl, rfl, rfl, by
      intro h
      injection h with h
      have := (List.cons.inj h).1
      injection this with this _
      exact absurd this (by decide)⟩

/-- C34 is violated by shareable queries: all requests of a batch have one operation id, so that
the second request of a batch joins the first one and gets its response. -/
theorem C34_violated_by_shared_id : ∃ (es : List (Event Response)) (s : State Plan Response) (c0 c1 : Call)
    (r : Response), Reaches app es s ∧ callsOf [] (.inr [c0.req, c1.req]) = [c0, c1] ∧
    c0.req.query = ['D'] ∧ c1.req.query = ['E'] ∧ batchResponses s [0, 1] = some [r, r] ∧
    (∀ p' r', (c1, p', r') ∉ s.execs) := by
  let d : Req := ⟨['D'], none, []⟩
  let e : Req := ⟨['E'], none, []⟩
  let c0 : Call := ⟨d, [], batchId [] [d, e]⟩
  let c1 : Call := ⟨e, [], batchId [] [d, e]⟩
  refine ⟨[.begin 0 c0, .look 0, .find 0, .make 0, .launch 0, .step 0, .begin 1 c1, .look 1, .find 1, .make 1, .launch 1,
    .step 1, .complete 0 (ans "d" "1"), .recvOk 1, .join 0, .join 1, .store 0, .store 1], _, c0, c1, ans "d" "1", rfl, rfl, rfl,
    rfl, rfl, ?_⟩
  intro p' r' h
  have h := List.mem_singleton.1 h
  injection h with h1 _
  have : ['E'] = ['D'] := congrArg (fun c => c.req.query) h1
  exact absurd this (by decide)

end Verif.Server
