import Verif.Dedupe.Model
import Verif.Exec.Model

/-!
# Model of the request executor (src/core/jit/graphql_executor.rs), of the operation lookup of the
plan builder (src/core/jit/builder.rs) and of the identity of operations
(src/core/async_graphql_hyper.rs)

`JITExecutor::execute` runs concurrently for many requests that share the cache of constant
responses, the cache of plans and the table of operations in flight.  Its actions between two
accesses of shared state are the events of a transition system; a history is a list of events.

Simplification: `OPHash` and `OperationId` are 64-bit hashes.  Here they are what is fed to the
hasher; collisions of hashes are outside of the model.
-/

namespace Verif.Server

open Verif.Mustache (Text)
open Verif.HttpUrl (GVal)
open Verif.Dedupe (upd)

/-- `async_graphql::Request`: query text, operation name and variables (in the order of their
names, as `Variables` is a `BTreeMap`).  Extensions are left out
(jit/graphql_executor.rs:73-80, async_graphql_hyper.rs:61-70). -/
structure Req where
  query : Text
  opName : Option Text
  vars : List (Text × GVal)

/-! ## Identity of operations -/

/-- A piece of the printed form of a value: a character or a quoted text
(helper of `printed`, see there; async_graphql_hyper.rs:67, 108). -/
inductive Piece where
  | ch (c : Char)
  | quoted (s : Text)
  deriving DecidableEq, Repr

/-- Characters as pieces (helper of `printed`; async_graphql_hyper.rs:67, 108). -/
def chars (t : Text) : List Piece := t.map .ch

/-- The items with commas between them (helper of `printed`; async_graphql_hyper.rs:67, 108). -/
def commas : List (List Piece) → List Piece
  | [] => []
  | [p] => p
  | p :: q :: r => p ++ .ch ',' :: commas (q :: r)

mutual
/-- `value.to_string()` (`Display` of `async_graphql_value::ConstValue`, an external crate): the
GraphQL syntax, in which keys of objects are not quoted.  Simplification: a quoted text is one
piece, for quoting is injective and marks its end (used at async_graphql_hyper.rs:67, 108). -/
def printed : GVal → List Piece
  | .null => chars "null".toList
  | .bool b => chars (Verif.HttpUrl.boolText b)
  | .int n => chars (Verif.HttpUrl.intText n)
  | .float t => chars t
  | .str s => [.quoted s]
  | .enum s => chars s
  | .list l => .ch '[' :: commas (printedAll l) ++ [.ch ']']
  | .obj kvs => .ch '{' :: commas (printedFields kvs) ++ [.ch '}']
/-- The items of a list (helper of `printed`; async_graphql_hyper.rs:67, 108). -/
def printedAll : List GVal → List (List Piece)
  | [] => []
  | v :: r => printed v :: printedAll r
/-- The fields of an object (helper of `printed`; async_graphql_hyper.rs:67, 108). -/
def printedFields : List (Text × GVal) → List (List Piece)
  | [] => []
  | kv :: r => printedField kv :: printedFields r
/-- One field of an object (helper of `printed`; async_graphql_hyper.rs:67, 108). -/
def printedField : Text × GVal → List Piece
  | (k, v) => chars k ++ .ch ':' :: .ch ' ' :: printed v
end

/-- A value fed to the hasher: a header name, a header value, a text, the tag of an `Option`, or the
printed form of a value (async_graphql_hyper.rs:42-51, 61-70, 103-110). -/
inductive Tok where
  | hname (t : Text)
  | hvalue (t : Text)
  | txt (t : Text)
  | tag (some : Bool)
  | value (p : List Piece)
  deriving DecidableEq, Repr

/-- `OperationId` (async_graphql_hyper.rs:17), see the simplification above. -/
abbrev OpId := List Tok

/-- The headers in `operation_id` (async_graphql_hyper.rs:45-48). -/
def headerToks : List (Text × Text) → List Tok
  | [] => []
  | (n, v) :: r => .hname n :: .hvalue v :: headerToks r

/-- The variables of a request (async_graphql_hyper.rs:65-68, 106-109). -/
def varToks : List (Text × GVal) → List Tok
  | [] => []
  | (n, v) :: r => .txt n :: .value (printed v) :: varToks r

/-- `Hash for GraphQLRequest` (async_graphql_hyper.rs:102-111); the same for each request of a
batch (62-69). -/
def reqToks (r : Req) : List Tok :=
  .txt r.query :: (match r.opName with | none => [.tag false] | some n => [.tag true, .txt n]) ++ varToks r.vars

/-- `operation_id` of a single request (async_graphql_hyper.rs:42-51). -/
def singleId (headers : List (Text × Text)) (r : Req) : OpId := headerToks headers ++ reqToks r

/-- `operation_id` of a batch (async_graphql_hyper.rs:42-51, 57-71). -/
def batchId (headers : List (Text × Text)) (rs : List Req) : OpId := headerToks headers ++ rs.flatMap reqToks

/-! ## Plans -/

/-- `DocumentOperations` (async_graphql_parser) (matched at jit/builder.rs:333-346). -/
inductive Ops (O : Type) where
  | single (op : O)
  | multiple (ops : List (Text × O))

/-- The errors of planning (jit/error.rs:8-17). -/
inductive BErr where
  | parse
  | notFound (name : Text)
  | nameRequired
  | other (msg : Text)
  deriving DecidableEq, Repr

/-- `get_operation` (jit/builder.rs:327-349). -/
def getOperation {O : Type} (name : Option Text) (ops : Ops O) : Except BErr O :=
  match name with
  | some n =>
    match ops with
    | .single _ => .error (.notFound n)
    | .multiple l =>
      match Verif.Merge.get n l with
      | some op => .ok op
      | none => .error (.notFound n)
  | none =>
    match ops with
    | .single op => .ok op
    | .multiple [(_, op)] => .ok op
    | .multiple _ => .error .nameRequired

/-- The application: the parser of documents, the builder of the plan of an operation with the
transforms (jit/builder.rs:359-383, jit/request.rs:48-59), what the executor asks of plans, and the
response to an error of planning. -/
structure App (O P R : Type) where
  parse : Text → Option (Ops O)
  plan : O → Except BErr P
  canDedupe : P → Bool
  isConst : P → Bool
  isProtected : P → Bool
  errorResp : BErr → R

variable {O P R : Type}

/-- `ConstValueExecutor::try_new`, `Request::create_plan` (jit/exec_const.rs:32-35,
jit/request.rs:40-60). -/
def createPlan (a : App O P R) (r : Req) : Except BErr P :=
  match a.parse r.query with
  | none => .error .parse
  | some ops =>
    match getOperation r.opName ops with
    | .error e => .error e
    | .ok op => a.plan op

/-! ## The executor -/

/-- One call of `execute`: the request, the headers of the HTTP request it came in, and the
operation id of the executor (graphql_executor.rs:19-23, 74-77). -/
structure Call where
  req : Req
  headers : List (Text × Text)
  opId : OpId

/-- Where one call of `execute` is (graphql_executor.rs:82-122). -/
inductive Task (P R : Type) where
  | idle
  /-- before line 83 -/
  | begun (c : Call)
  /-- no constant response; before line 88 -/
  | missed (c : Call)
  /-- no plan in the cache; before line 91 -/
  | unplanned (c : Call)
  /-- before line 105 -/
  | planned (c : Call) (p : P)
  /-- line 111 -/
  | running (c : Call) (p : P)
  /-- line 109, in `dedupe` of the operation handler -/
  | sharing (c : Call) (p : P)
  /-- before line 115 -/
  | answered (c : Call) (p : P) (r : R)
  | done (c : Call) (r : R)
  /-- the future was dropped -/
  | dropped (c : Call)

/-- The shared state (app_context.rs:30-32) and the calls.  `execs` is not in the code: it records
the executions of plans, with the call they were made for and their response. -/
structure State (P R : Type) where
  consts : Text → Option R
  plans : Text → Option P
  ops : Verif.Dedupe.State OpId R
  tasks : Nat → Task P R
  execs : List (Call × P × R)

/-- The state of a new `AppContext` (app_context.rs:145-148): empty caches and no request. -/
def init (P R : Type) : State P R where
  consts := fun _ => none
  plans := fun _ => none
  ops := Verif.Dedupe.init OpId R
  tasks := fun _ => .idle
  execs := []

/-- The actions of a history, jit/graphql_executor.rs:73-122, one per access of shared state. -/
inductive Event (R : Type) where
  | begin (t : Nat) (c : Call)
  /-- lines 83-85 -/
  | look (t : Nat)
  /-- lines 87-89 -/
  | find (t : Nat)
  /-- lines 91-102 -/
  | make (t : Nat)
  /-- lines 105-111, up to the first `await` -/
  | launch (t : Nat)
  /-- the plan was executed (line 111) with response `r` -/
  | finish (t : Nat) (r : R)
  /-- `Dedupe::step` -/
  | step (t : Nat)
  /-- the plan was executed in `dedupe` (line 55) with response `r` -/
  | complete (t : Nat) (r : R)
  /-- `recv` in `dedupe` -/
  | recvOk (t : Nat)
  | recvErr (t : Nat)
  /-- `dedupe` returned (line 59) -/
  | join (t : Nat)
  /-- lines 115-121 -/
  | store (t : Nat)
  /-- the future is dropped -/
  | drop (t : Nat)

/-- An event in the operation handler of a call that is in it.  The handler is
`DedupeResult::new(false)` (app_context.rs:146). -/
def shared (s : State P R) (t : Nat) (e : Verif.Dedupe.Event OpId R) : Option (State P R) :=
  match s.tasks t with
  | .sharing _ _ => (Verif.Dedupe.apply false s.ops e).map (fun o => { s with ops := o })
  | _ => none

/-- One event; `none` when it is not enabled (graphql_executor.rs:82-122). -/
def apply (a : App O P R) (s : State P R) : Event R → Option (State P R)
  | .begin t c =>
    match s.tasks t with
    | .idle => some { s with tasks := upd s.tasks t (.begun c) }
    | _ => none
  | .look t =>
    match s.tasks t with
    | .begun c =>
      match s.consts c.req.query with
      | some r => some { s with tasks := upd s.tasks t (.done c r) }
      | none => some { s with tasks := upd s.tasks t (.missed c) }
    | _ => none
  | .find t =>
    match s.tasks t with
    | .missed c =>
      match s.plans c.req.query with
      | some p => some { s with tasks := upd s.tasks t (.planned c p) }
      | none => some { s with tasks := upd s.tasks t (.unplanned c) }
    | _ => none
  | .make t =>
    match s.tasks t with
    | .unplanned c =>
      match createPlan a c.req with
      | .error e => some { s with tasks := upd s.tasks t (.done c (a.errorResp e)) }
      | .ok p => some { s with
          plans := upd s.plans c.req.query (some p)
          tasks := upd s.tasks t (.planned c p) }
    | _ => none
  | .launch t =>
    match s.tasks t with
    | .planned c p =>
      if a.canDedupe p then
        (Verif.Dedupe.apply false s.ops (.call t c.opId)).map
          (fun o => { s with ops := o, tasks := upd s.tasks t (.sharing c p) })
      else some { s with tasks := upd s.tasks t (.running c p) }
    | _ => none
  | .finish t r =>
    match s.tasks t with
    | .running c p => some { s with
        tasks := upd s.tasks t (.answered c p r)
        execs := s.execs ++ [(c, p, r)] }
    | _ => none
  | .step t => shared s t (.step t)
  | .complete t r =>
    match s.tasks t with
    | .sharing c p => (Verif.Dedupe.apply false s.ops (.complete t r)).map
        (fun o => { s with ops := o, execs := s.execs ++ [(c, p, r)] })
    | _ => none
  | .recvOk t => shared s t (.recvOk t)
  | .recvErr t => shared s t (.recvErr t)
  | .join t =>
    match s.tasks t with
    | .sharing c p =>
      match s.ops.tasks t with
      | .done _ r => some { s with tasks := upd s.tasks t (.answered c p r) }
      | _ => none
    | _ => none
  | .store t =>
    match s.tasks t with
    | .answered c p r => some { s with
        consts := if a.isConst p && !a.isProtected p then upd s.consts c.req.query (some r) else s.consts
        tasks := upd s.tasks t (.done c r) }
    | _ => none
  | .drop t =>
    match s.tasks t with
    | .begun c | .running c _ => some { s with tasks := upd s.tasks t (.dropped c) }
    | .sharing c _ => (Verif.Dedupe.apply false s.ops (.cancel t)).map
        (fun o => { s with ops := o, tasks := upd s.tasks t (.dropped c) })
    | _ => none

/-- A whole history (no counterpart in the code: composes the actions of jit/graphql_executor.rs:73-122). -/
def run (a : App O P R) : State P R → List (Event R) → Option (State P R)
  | s, [] => some s
  | s, e :: es =>
    match apply a s e with
    | some s' => run a s' es
    | none => none

/-- The calls of one HTTP request: `execute` of a single request, `execute_batch` of several
(request_handler.rs:135-138, graphql_executor.rs:126-137). -/
def callsOf (headers : List (Text × Text)) : Req ⊕ List Req → List Call
  | .inl r => [⟨r, headers, singleId headers r⟩]
  | .inr rs => rs.map (fun r => ⟨r, headers, batchId headers rs⟩)

/-- The responses of the calls `ts` of a batch, in order, once all are there (`FuturesOrdered`,
graphql_executor.rs:130-134). -/
def batchResponses (s : State P R) : List Nat → Option (List R)
  | [] => some []
  | t :: ts =>
    match s.tasks t, batchResponses s ts with
    | .done _ r, some rs => some (r :: rs)
    | _, _ => none

/-- The application that plans with the transforms of `Verif.Exec` (jit/request.rs:48-60). -/
def execApp (parse : Text → Option (Ops Verif.Exec.Plan)) {R : Type} (errorResp : BErr → R) :
    App Verif.Exec.Plan Verif.Exec.Plan R where
  parse := parse
  plan op := .ok (Verif.Exec.transforms op)
  canDedupe p := p.canDedupe
  isConst p := p.isConst
  isProtected p := p.isProtected
  errorResp := errorResp

end Verif.Server
