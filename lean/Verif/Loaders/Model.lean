import Verif.Mustache.Model

/-!
# Which calls are sent through data loaders

`AppContext::new` (app_context.rs:36-150) gives each upstream call of an object's field a data loader.
Whether a call goes through its loader is decided when it is made (ir/eval_io.rs:43-101,
ir/eval_http.rs:53-75), from the batch settings of the blueprint (blueprint/upstream.rs:87-98,
blueprint/from_config.rs:61-73).  What loaders do with calls is the subject of `Verif.DataLoader`,
`Verif.HttpBatch` and `Verif.Grpc`.
-/

namespace Verif.Loaders

open Mustache (Text)

/-- The kinds of upstream calls (ir/model.rs:45-71). -/
inductive Kind where
  | http | graphql | grpc | js
deriving DecidableEq, Repr

/-- `IO` (ir/model.rs:45-71): `what` stands for everything that the loader of the call is made of and
that is not looked at here (template, method of a service, whether the answer is a list), `key` is
the batch key (`group_by`), `query` whether the operation type of the template is a query, and `dl`
the number of the data loader.  Templates of HTTP calls have no operation type. -/
structure Io where
  kind : Kind
  what : Nat
  key : Option Text
  query : Bool
  dl : Option Nat
deriving DecidableEq, Repr

/-- `IR` (ir/model.rs:16-35); paths, settings of authentication and constants are numbers. -/
inductive IR where
  | dynamic (n : Nat)
  | io (i : Io)
  | cache (maxAge : Nat) (i : Io)
  | path (x : IR) (p : List Text)
  | ctxPath (p : List Text)
  | protect (a : Nat) (x : IR)
  | map (x : IR) (m : List (Text × Text))
  | pipe (a b : IR)
  | merge (l : List IR)
  | discriminate (d : Nat) (x : IR)
  | entity (m : List (Text × IR))
  | service (sdl : Text)

/-- A data loader (app_context.rs:56-61, 80-84, 101-108): what it is made of. -/
structure Loader where
  what : Nat
  key : Option Text
deriving DecidableEq, Repr

/-- The loaders so far (app_context.rs:41-43). -/
structure State where
  http : List Loader
  graphql : List Loader
  grpc : List Loader
deriving DecidableEq, Repr

/-- No loaders yet (app_context.rs:41-43). -/
def State.empty : State := ⟨[], [], []⟩

/-- The change of a call (app_context.rs:50-127): the loader is made of the call's own parts, the
number is the count of loaders before it is added.  The loaders of GraphQL calls have no batch key. -/
def number (i : Io) (s : State) : Io × State :=
  match i.kind with
  | .http => ({ i with dl := some s.http.length }, { s with http := s.http ++ [⟨i.what, i.key⟩] })
  | .graphql => ({ i with dl := some s.graphql.length }, { s with graphql := s.graphql ++ [⟨i.what, i.key⟩] })
  | .grpc => ({ i with dl := some s.grpc.length }, { s with grpc := s.grpc ++ [⟨i.what, i.key⟩] })
  | .js => (i, s)

mutual
/-- `IR::modify` (ir/model.rs:160-208) with the change of calls.  The entries of an entity resolver
are taken in the order of the list; the map of the code has any order. -/
def modify : IR → State → IR × State
  | .io i, s => let (j, t) := number i s; (.io j, t)
  | .cache a i, s => let (j, t) := number i s; (.cache a j, t)
  | .path x p, s => let (y, t) := modify x s; (.path y p, t)
  | .protect a x, s => let (y, t) := modify x s; (.protect a y, t)
  | .map x m, s => let (y, t) := modify x s; (.map y m, t)
  | .pipe a b, s => let (a', t) := modify a s; let (b', u) := modify b t; (.pipe a' b', u)
  | .merge l, s => let (l', t) := modifyAll l s; (.merge l', t)
  | .discriminate d x, s => let (y, t) := modify x s; (.discriminate d y, t)
  | .entity m, s => let (m', t) := modifyEntries m s; (.entity m', t)
  | .dynamic n, s => (.dynamic n, s)
  | .ctxPath p, s => (.ctxPath p, s)
  | .service sdl, s => (.service sdl, s)
/-- The members of a merge (ir/model.rs:202-204). -/
def modifyAll : List IR → State → List IR × State
  | [], s => ([], s)
  | x :: r, s => let (y, t) := modify x s; let (r', u) := modifyAll r t; (y :: r', u)
/-- The entries of an entity resolver (ir/model.rs:196-200). -/
def modifyEntries : List (Text × IR) → State → List (Text × IR) × State
  | [], s => ([], s)
  | p :: r, s => let (q, t) := modifyEntry p s; let (r', u) := modifyEntries r t; (q :: r', u)
/-- One entry (ir/model.rs:198). -/
def modifyEntry : Text × IR → State → (Text × IR) × State
  | (k, x), s => let (y, t) := modify x s; ((k, y), t)
end

/-- `FieldDefinition` (blueprint/blueprint.rs:123-131): its name and resolver. -/
structure Field where
  name : Text
  resolver : Option IR

/-- `Definition` (blueprint/blueprint.rs:31-38): objects and interfaces have fields with resolvers. -/
inductive Def where
  | object (name : Text) (fields : List Field)
  | interface (name : Text) (fields : List Field)
  | other (name : Text)

/-- `FieldDefinition::map_expr` (blueprint/blueprint.rs:136-140) with `modify` (app_context.rs:49-128). -/
def modifyField (f : Field) (s : State) : Field × State :=
  match f.resolver with
  | none => (f, s)
  | some x => let (y, t) := modify x s; ({ f with resolver := some y }, t)

/-- The fields of an object (app_context.rs:47-129). -/
def modifyFields : List Field → State → List Field × State
  | [], s => ([], s)
  | f :: r, s => let (g, t) := modifyField f s; let (r', u) := modifyFields r t; (g :: r', u)

/-- The loop over the definitions (app_context.rs:45-131): only objects. -/
def modifyDefs : List Def → State → List Def × State
  | [], s => ([], s)
  | .object n fs :: r, s =>
    let (fs', t) := modifyFields fs s
    let (r', u) := modifyDefs r t
    (.object n fs' :: r', u)
  | d :: r, s => let (r', u) := modifyDefs r s; (d :: r', u)

/-- `AppContext::new` (app_context.rs:36-150): the definitions with numbered calls, and the loaders. -/
def appContext (ds : List Def) : List Def × State := modifyDefs ds .empty

/-- `Batch` (config/directives/upstream.rs:12-30): without the headers. -/
structure Batch where
  delay : Nat
  maxSize : Option Nat
deriving DecidableEq, Repr

/-- `Batch::default` (config/directives/upstream.rs:22-30). -/
def Batch.default : Batch := ⟨0, some 100⟩

/-- `get_delay` (config/directives/upstream.rs:188-190). -/
def getDelay (c : Option Batch) : Nat := (c.getD .default).delay

/-- `get_max_size` (config/directives/upstream.rs:192-196). -/
def getMaxSize : Option Batch → Nat
  | none => 100
  | some b => b.maxSize.getD 100

/-- `get_batch` (blueprint/upstream.rs:87-98). -/
def getBatch : Option Batch → Option Batch
  | none => none
  | some b => some ⟨getDelay (some b), some (getMaxSize (some b))⟩

/-- The check of a batch key in `compile_http` (blueprint/operators/http.rs:25-29).  There is none in
`compile_grpc` (blueprint/operators/grpc.rs:182-245). -/
def keyAccepted (c : Option Batch) (i : Io) : Bool :=
  !(i.kind == .http && i.key.isSome && (decide (getDelay c < 1) || decide (getMaxSize c < 1)))

/-- The resolver is an HTTP call with a batch key (blueprint/from_config.rs:65). -/
def isKeyed : Option IR → Bool
  | some (.io i) => i.kind == .http && i.key.isSome
  | _ => false

/-- The condition of `apply_batching` (blueprint/from_config.rs:62-70): some field of an object has
such a resolver. -/
def anyKeyed : List Def → Bool
  | [] => false
  | .object _ fs :: r => fs.any (fun f => isKeyed f.resolver) || anyKeyed r
  | _ :: r => anyKeyed r

/-- `apply_batching` (blueprint/from_config.rs:61-73). -/
def applyBatching (ds : List Def) (b : Option Batch) : Option Batch :=
  if anyKeyed ds then b <|> some Batch.default else b

/-- The batch settings in effect (blueprint/upstream.rs:66, blueprint/from_config.rs:55). -/
def effectiveBatch (ds : List Def) (configured : Option Batch) : Option Batch :=
  applyBatching ds (getBatch configured)

/-- `Upstream::is_batching_enabled` (blueprint/upstream.rs:37-43). -/
def isBatchingEnabled : Option Batch → Bool
  | some b => decide (1 ≤ b.delay)
  | none => false

/-- How a call is made: for itself, through a loader, or not at all since `unwrap` panics
(ir/eval_http.rs:168-169, 259-260). -/
inductive Mode where
  | alone
  | through (l : Loader)
  | panics
deriving DecidableEq, Repr

/-- `execute_request_with_dl` and `execute_grpc_request_with_dl` (ir/eval_http.rs:147-174, 238-265): the
loader must be there. -/
def withDl : Option Loader → Mode
  | some l => .through l
  | none => .panics

/-- How `eval_io_inner` makes a call (ir/eval_io.rs:43-118) and `EvalHttp` an HTTP call
(ir/eval_http.rs:53-88). Scripts are not sent anywhere. -/
def mode (b : Option Batch) (s : State) (i : Io) : Mode :=
  match i.kind with
  | .http =>
    match (if isBatchingEnabled b then i.dl.bind (fun n => s.http[n]?) else none) with
    | some l => .through l
    | none => .alone
  | .graphql => if b.isSome && i.query then withDl (i.dl.bind fun n => s.graphql[n]?) else .alone
  | .grpc => if b.isSome && i.query then withDl (i.dl.bind fun n => s.grpc[n]?) else .alone
  | .js => .alone

end Verif.Loaders
