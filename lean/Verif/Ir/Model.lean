import Verif.Auth.Model
import Verif.HttpUrl.Model

/-!
# Model of the resolver language (src/core/ir) and of the plan transforms that read it
(src/core/jit/transform/{check_const,check_protected,auth_planner,check_dedupe,check_cache}.rs)

Evaluation is a state-threading function.  The state holds the clock, the runtime cache, the
per-request results of deduplicated calls and a log of the effects.  Upstream calls are an oracle
that may answer differently at every call.  Simplification: what `join_all` runs concurrently is
run here from left to right.
-/

namespace Verif.Ir

open Verif.Mustache (Text Template)
open Verif.HttpUrl (GVal VS RCtx)
open Verif.Auth (Auth)

/-- `DynamicValue<Value>` (blueprint/dynamic_value.rs:8-13). -/
inductive Dyn where
  | value (v : GVal)
  | mustache (t : Template)
  | object (kvs : List (Text × Dyn))
  | array (l : List Dyn)

/-- `IO` (ir/model.rs:45-71): which template it is, whether it is a JavaScript call and its
`dedupe` flag.  The request templates are modelled in `Verif.HttpUrl` and `Verif.HttpKey`. -/
structure Io where
  id : Nat
  js : Bool
  dedupe : Bool
  deriving DecidableEq, Repr

/-- `IO::dedupe` (ir/model.rs:74-81). -/
def Io.canDedupe (io : Io) : Bool := if io.js then false else io.dedupe

/-- `Discriminator` (ir/discriminator.rs:27-33) with the member types and, for `TypeField`, the
field that names the type. -/
inductive Discr where
  | keyed (types : List Text)
  | typeField (types : List Text) (field : Text)
  deriving DecidableEq, Repr

/-- `IR` (ir/model.rs:17-35). -/
inductive IR where
  | dynamic (d : Dyn)
  | io (i : Io)
  | cache (maxAge : Nat) (i : Io)
  | path (x : IR) (p : List Text)
  | ctxPath (p : List Text)
  | protect (a : Auth) (x : IR)
  | map (x : IR) (m : List (Text × Text))
  | pipe (a b : IR)
  | merge (l : List IR)
  | discriminate (d : Discr) (x : IR)
  | entity (m : List (Text × IR))
  | service (sdl : Text)

/-- Errors of evaluation (`ir::Error`): only the kinds that matter here are told apart (ir/error.rs:12-38). -/
inductive Err where
  | auth (e : Verif.Auth.Err)
  | io (n : Nat)
  | exprEval (msg : Text)
  | entity (msg : Text)
  | discriminate
  deriving DecidableEq, Repr

/-- Result of evaluation (ir/eval.rs:19-25). -/
abbrev Res := Except Err GVal

/-- `EvalContext` (ir/eval_context.rs:14-27): value and arguments of the field, the overrides set
by `with_value` and `with_args`, and what the request context provides. -/
structure Ctx where
  value : Option GVal
  args : Option (List (Text × GVal))
  valueO : Option GVal
  argsO : Option GVal
  isQuery : Bool
  header : Text → Option Text
  vars : List (Text × Text)
  env : Text → Option Text
  auth : Verif.Auth.Req

/-- `with_value` (ir/eval_context.rs:30-34). -/
def Ctx.withValue (c : Ctx) (v : GVal) : Ctx := { c with valueO := some v }

/-- `with_args` (ir/eval_context.rs:36-40). -/
def Ctx.withArgs (c : Ctx) (v : GVal) : Ctx := { c with argsO := some v }

/-- Value of a decimal digit string, if it is one (standard library, used at ir/eval_context.rs:199). -/
def digits : Text → Nat → Option Nat
  | [], n => some n
  | c :: r, n => if '0' ≤ c ∧ c ≤ '9' then digits r (n * 10 + (c.toNat - '0'.toNat)) else none

/-- `str::parse::<usize>` on a 64-bit machine: an optional `+`, at least one digit, no overflow
(standard library, used at ir/eval_context.rs:199). -/
def parseUsize (t : Text) : Option Nat :=
  let d := match t with
    | '+' :: r => r
    | _ => t
  if d.isEmpty then none
  else
    match digits d 0 with
    | some n => if n < 2 ^ 64 then some n else none
    | none => none

/-- `get_path_value` (ir/eval_context.rs:190-206), the same code as `JsonLike::get_path`. -/
def getPath (v : GVal) : List Text → Option GVal
  | [] => some v
  | n :: r =>
    match v with
    | .obj kvs =>
      match Verif.Merge.get n kvs with
      | some w => getPath w r
      | none => none
    | .list l =>
      match parseUsize n with
      | some i =>
        match l[i]? with
        | some w => getPath w r
        | none => none
      | none => none
    | _ => none

/-- `path_arg` (ir/eval_context.rs:59-71). -/
def Ctx.pathArg (c : Ctx) (p : List Text) : Option GVal :=
  match c.argsO with
  | some a => getPath a p
  | none =>
    match p with
    | [] => c.args.map .obj
    | n :: r =>
      match c.args with
      | none => none
      | some as =>
        match Verif.Merge.get n as with
        | none => none
        | some a => getPath a r

/-- `path_value` (ir/eval_context.rs:73-80). -/
def Ctx.pathValue (c : Ctx) (p : List Text) : Option GVal :=
  match c.valueO with
  | some v => getPath v p
  | none =>
    match c.value with
    | none => none
    | some v => getPath v p

/-- The oracles of evaluation: the JSON printer and parser, cache keys, upstream calls, in-flight
calls of other requests that a deduplicated call can join, and the capacity of the cache
(`InMemoryCache::default`, cache/cache.rs:17-21). -/
structure World where
  json : GVal → Text
  parse : Text → Option GVal
  key : Io → Ctx → Option Nat
  run : Nat → Io → Ctx → Nat × Res
  join : Nat → Nat → Option Res
  cap : Nat

/-- `to_raw_value` (path.rs:68-99).  A value from an override is `Cow::Owned`, and so are all the
arguments together. -/
def Ctx.raw (w : World) (c : Ctx) : List Text → Option VS
  | [] => none
  | [h] =>
    if h = "value".toList then (c.pathValue []).map (.value c.valueO.isSome)
    else if h = "args".toList then (c.pathArg []).map (.value true)
    else if h = "vars".toList then
      some (.string (w.json (.obj (c.vars.map (fun p => (p.1, .str p.2))))))
    else none
  | h :: n :: r =>
    if h = "value".toList then (c.pathValue (n :: r)).map (.value c.valueO.isSome)
    else if h = "args".toList then (c.pathArg (n :: r)).map (.value c.argsO.isSome)
    else if h = "headers".toList then (c.header n).map .string
    else if h = "vars".toList then (Verif.Merge.get n c.vars).map .string
    else if h = "env".toList then (c.env n).map .string
    else none

/-- `PathString for EvalContext` (path.rs:108-115). -/
def Ctx.str (w : World) (c : Ctx) : List Text → Option Text :=
  RCtx.str { raw := c.raw w, json := w.json, headers := [] }

mutual
/-- `render_value` (serde_value_ext.rs:14-44).  Simplification: an object keeps repeated keys. -/
def renderDyn (w : World) (c : Ctx) : Dyn → GVal
  | .value v => v
  | .mustache t =>
    let s := Verif.Mustache.render t (c.str w)
    (w.parse s).getD (.str s)
  | .object kvs => .obj (renderKvs w c kvs)
  | .array l => .list (renderList w c l)
/-- The fields of an object (serde_value_ext.rs:26-38). -/
def renderKvs (w : World) (c : Ctx) : List (Text × Dyn) → List (Text × GVal)
  | [] => []
  | p :: r => renderKv w c p :: renderKvs w c r
/-- One field of an object (serde_value_ext.rs:29-34). -/
def renderKv (w : World) (c : Ctx) : Text × Dyn → Text × GVal
  | (k, d) => (k, renderDyn w c d)
/-- The elements of an array (serde_value_ext.rs:39-42). -/
def renderList (w : World) (c : Ctx) : List Dyn → List GVal
  | [] => []
  | d :: r => renderDyn w c d :: renderList w c r
end

/-- Observable effects: an upstream call, a value stored in the runtime cache
(not in the code: records the calls of ir/eval_io.rs:17-59 and the `cache.set` of ir/eval.rs:47-65). -/
inductive Ev where
  | call (i : Io) (c : Ctx)
  | store (now : Nat) (key : Nat) (v : GVal) (maxAge : Nat)

/-- The state of evaluation.  `cache` is the runtime cache (`TtlCache`: key, value, last moment at
which the entry is valid), oldest entry first.  `done` is the per-request map of deduplicated
calls (`request_ctx.cache`) (ir/eval.rs:47-65, ir/eval_io.rs:28-40). -/
structure St where
  now : Nat
  cache : List (Nat × GVal × Nat)
  done : List (Nat × Res)
  log : List Ev

/-- `InMemoryCache::get` (cache/cache.rs:46-54) over `TtlCache::get`: an expired entry is not
returned. -/
def cacheGet (now : Nat) (k : Nat) : List (Nat × GVal × Nat) → Option GVal
  | [] => none
  | (k', v, exp) :: r => if k' = k then (if now ≤ exp then some v else none) else cacheGet now k r

/-- `InMemoryCache::set` (cache/cache.rs:40-44) over `TtlCache::insert`: an entry of the same key
is replaced and becomes the newest one; above capacity the oldest entry is dropped. -/
def cacheSet (cap now k : Nat) (v : GVal) (maxAge : Nat) (c : List (Nat × GVal × Nat)) :
    List (Nat × GVal × Nat) :=
  let c' := c.filter (fun e => e.1 ≠ k) ++ [(k, v, now + maxAge)]
  if c'.length > cap then c'.drop 1 else c'

/-- The per-request result of a deduplicated call (ir/eval_io.rs:28-40). -/
def doneGet (k : Nat) : List (Nat × Res) → Option Res
  | [] => none
  | (k', r) :: rest => if k' = k then some r else doneGet k rest

/-- `eval_io_inner` (ir/eval_io.rs:43-118): an upstream call.  Its duration and result come from
the oracle. -/
def callIo (w : World) (i : Io) (c : Ctx) (st : St) : St × Res :=
  let (dt, r) := w.run st.log.length i c
  ({ st with now := st.now + dt, log := st.log ++ [.call i c] }, r)

/-- `eval_io` (ir/eval_io.rs:17-41).  The per-request cache keeps results for the whole request;
the shared handler lets a call join one that is in flight for another request
(`Verif.Dedupe`). -/
def evalIo (w : World) (i : Io) (c : Ctx) (st : St) : St × Res :=
  if !i.canDedupe || !c.isQuery then callIo w i c st
  else
    match w.key i c with
    | none => callIo w i c st
    | some k =>
      match doneGet k st.done with
      | some r => (st, r)
      | none =>
        match w.join st.log.length k with
        | some r => ({ st with done := (k, r) :: st.done }, r)
        | none =>
          let (st', r) := callIo w i c st
          ({ st' with done := (k, r) :: st'.done }, r)

/-- The `IR::Cache` branch (ir/eval.rs:49-68). -/
def evalCache (w : World) (maxAge : Nat) (i : Io) (c : Ctx) (st : St) : St × Res :=
  match w.key i c with
  | none => evalIo w i c st
  | some k =>
    match cacheGet st.now k st.cache with
    | some v => (st, .ok v)
    | none =>
      match evalIo w i c st with
      | (st', .error e) => (st', .error e)
      | (st', .ok v) =>
        ({ st' with
            cache := cacheSet w.cap st'.now k v maxAge st'.cache
            log := st'.log ++ [.store st'.now k v maxAge] }, .ok v)

mutual
/-- `recursive_map_enum` (ir/eval.rs:70-97). -/
def mapEnum (m : List (Text × Text)) : GVal → Res
  | .null => .ok .null
  | .str key =>
    match Verif.Merge.get key m with
    | some v => .ok (.str v)
    | none => .error (.exprEval ("Can't find mapped key: ".toList ++ key ++ ".".toList))
  | .list l =>
    match mapEnums m l with
    | .ok l' => .ok (.list l')
    | .error e => .error e
  | _ => .error (.exprEval "Mapped key must be either string or array value.".toList)
/-- The elements of a list, failing at the first error (ir/eval.rs:84-90). -/
def mapEnums (m : List (Text × Text)) : List GVal → Except Err (List GVal)
  | [] => .ok []
  | v :: r =>
    match mapEnum m v with
    | .error e => .error e
    | .ok v' =>
      match mapEnums m r with
      | .error e => .error e
      | .ok r' => .ok (v' :: r')
end

/-- `__typename` (ir/discriminator.rs:103). -/
def typenameField : Text := "__typename".toList

/-- `get_type_name` (ir/discriminator.rs:111-115). -/
def getTypeName : GVal → Option Text
  | .obj kvs =>
    match Verif.Merge.get typenameField kvs with
    | some (.str s) => some s
    | _ => none
  | _ => none

/-- `insert_key` on an `IndexMap`: replaces in place or appends (json/graphql.rs:29-31). -/
def insertKey (k : Text) (v : GVal) (kvs : List (Text × GVal)) : List (Text × GVal) :=
  match Verif.Merge.get k kvs with
  | some _ => Verif.Merge.setKey k v kvs
  | none => kvs ++ [(k, v)]

/-- `set_type_name` (ir/discriminator.rs:117-126). -/
def setTypeName (t : Text) : GVal → Res
  | .null => .ok .null
  | .obj kvs => .ok (.obj (insertKey typenameField (.str t) kvs))
  | _ => .error .discriminate

/-- `KeyedDiscriminator::resolve_and_set_type` (discriminator/keyed_discriminator.rs:39-78) on an
object. -/
def keyedSet (types : List Text) (kvs : List (Text × GVal)) : Res :=
  match kvs with
  | [(name, v)] => if types.contains name then setTypeName name v else .error .discriminate
  | _ => .error .discriminate

/-- `TypeFieldDiscriminator::resolve_and_set_type` (discriminator/type_field_discriminator.rs:45-76)
on an object. -/
def typeFieldSet (types : List Text) (field : Text) (kvs : List (Text × GVal)) : Res :=
  match Verif.Merge.get field kvs with
  | some (.str t) => if types.contains t then setTypeName t (.obj kvs) else .error .discriminate
  | _ => .error .discriminate

mutual
/-- `Discriminator::resolve_type` (ir/discriminator.rs:69-93). -/
def resolveType (d : Discr) : GVal → Res
  | .null => .ok .null
  | .list l =>
    match resolveTypes d l with
    | .ok l' => .ok (.list l')
    | .error e => .error e
  | .obj kvs =>
    match getTypeName (.obj kvs) with
    | some _ => .ok (.obj kvs)
    | none =>
      match d with
      | .keyed types => keyedSet types kvs
      | .typeField types field => typeFieldSet types field kvs
  | _ => .error .discriminate
/-- The elements of a list (ir/discriminator.rs:77-79). -/
def resolveTypes (d : Discr) : List GVal → Except Err (List GVal)
  | [] => .ok []
  | v :: r =>
    match resolveType d v with
    | .error e => .error e
    | .ok v' =>
      match resolveTypes d r with
      | .error e => .error e
      | .ok r' => .ok (v' :: r')
end

/-- `collect::<Result<Vec<_>, _>>`: the first error, or all values (ir/eval.rs:107, 157). -/
def collect : List Res → Except Err (List GVal)
  | [] => .ok []
  | .error e :: _ => .error e
  | .ok v :: r =>
    match collect r with
    | .error e => .error e
    | .ok vs => .ok (v :: vs)

/-- `reduce(|acc, result| acc.merge_right(result)).unwrap_or_default()` (ir/eval.rs:117-120). -/
def mergeAll : List GVal → GVal
  | [] => .null
  | v :: r => r.foldl Verif.Merge.mergeConst v

/-- An evaluation, waiting for its context and state (ir/eval.rs:19-25). -/
abbrev Run := Ctx → St → St × Res

/-- The checks of the first loop of `IR::Entity` (ir/eval.rs:135-145): the type name of each
representation and its resolver. -/
def entityTasks (rs : List (Text × Run)) : List GVal → Except Err (List (GVal × Text × Run))
  | [] => .ok []
  | v :: rest =>
    match getTypeName v with
    | none => .error (.entity "expected __typename to be the part of the representation".toList)
    | some t =>
      match Verif.Merge.get t rs with
      | none => .error (.entity ("Cannot find a resolver for type: `".toList ++ t ++ "`".toList))
      | some f =>
        match entityTasks rs rest with
        | .error e => .error e
        | .ok ts => .ok ((v, t, f) :: ts)

/-- The tasks of `IR::Entity` (ir/eval.rs:147-158). -/
def runTasks (c : Ctx) : List (GVal × Text × Run) → St → St × List Res
  | [], st => (st, [])
  | (v, t, f) :: rest, st =>
    let (st1, r) := f (c.withValue v) st
    let r' := match r with
      | .ok x => setTypeName t x
      | .error e => .error e
    let (st2, rs) := runTasks c rest st1
    (st2, r' :: rs)

/-- The `IR::Entity` branch (ir/eval.rs:125-165). -/
def evalEntity (rs : List (Text × Run)) (c : Ctx) (st : St) : St × Res :=
  match c.pathArg ["representations".toList] with
  | some (.list reprs) =>
    match entityTasks rs reprs with
    | .error e => (st, .error e)
    | .ok ts =>
      let (st', rs') := runTasks c ts st
      match collect rs' with
      | .error e => (st', .error e)
      | .ok vs => (st', .ok (.list vs))
  | _ => (st, .error (.entity "expected `representations` arg as an array of _Any".toList))

mutual
/-- `IR::eval` (ir/eval.rs:19-174). -/
def eval (w : World) : IR → Ctx → St → St × Res
  | .ctxPath p, c, st => (st, .ok ((c.pathValue p).getD .null))
  | .path x p, c, st =>
    match eval w x c st with
    | (st', .error e) => (st', .error e)
    | (st', .ok v) => (st', .ok ((getPath v p).getD .null))
  | .dynamic d, c, st => (st, .ok (renderDyn w c d))
  | .protect a x, c, st =>
    match Verif.Auth.verify c.auth a with
    | .fail e => (st, .error (.auth e))
    | .succeed => eval w x c st
  | .io i, c, st => evalIo w i c st
  | .cache maxAge i, c, st => evalCache w maxAge i c st
  | .map x m, c, st =>
    match eval w x c st with
    | (st', .error e) => (st', .error e)
    | (st', .ok v) => (st', mapEnum m v)
  | .pipe a b, c, st =>
    match eval w a c st with
    | (st', .error e) => (st', .error e)
    | (st', .ok v) => eval w b (c.withArgs v) st'
  | .merge l, c, st =>
    match evalAll w l c st with
    | (st', rs) =>
      match collect rs with
      | .error e => (st', .error e)
      | .ok vs => (st', .ok (mergeAll vs))
  | .discriminate d x, c, st =>
    match eval w x c st with
    | (st', .error e) => (st', .error e)
    | (st', .ok v) => (st', resolveType d v)
  | .entity m, c, st => evalEntity (evalMap w m) c st
  | .service sdl, _, st => (st, .ok (.obj [("sdl".toList, .str sdl)]))
/-- `join_all` over the members of a merge (ir/eval.rs:105-112): all are evaluated. -/
def evalAll (w : World) : List IR → Ctx → St → St × List Res
  | [], _, st => (st, [])
  | x :: r, c, st =>
    match eval w x c st with
    | (st1, v) =>
      match evalAll w r c st1 with
      | (st2, vs) => (st2, v :: vs)
/-- The resolvers of the entities, by type name (ir/eval.rs:121-160). -/
def evalMap (w : World) : List (Text × IR) → List (Text × Run)
  | [] => []
  | p :: r => evalEntry w p :: evalMap w r
/-- One resolver (ir/eval.rs:138-152). -/
def evalEntry (w : World) : Text × IR → Text × Run
  | (t, x) => (t, eval w x)
end

mutual
/-- `DynamicValue::is_const` (blueprint/dynamic_value.rs:83-90). -/
def Dyn.isConst : Dyn → Bool
  | .value _ => true
  | .mustache t => Verif.Mustache.isConst t
  | .object kvs => Dyn.kvsConst kvs
  | .array l => Dyn.listConst l
/-- `obj.values().all(..)` (blueprint/dynamic_value.rs:86). -/
def Dyn.kvsConst : List (Text × Dyn) → Bool
  | [] => true
  | p :: r => Dyn.kvConst p && Dyn.kvsConst r
/-- One entry of it (blueprint/dynamic_value.rs:86). -/
def Dyn.kvConst : Text × Dyn → Bool
  | (_, d) => Dyn.isConst d
/-- `arr.iter().all(..)` (blueprint/dynamic_value.rs:87). -/
def Dyn.listConst : List Dyn → Bool
  | [] => true
  | d :: r => Dyn.isConst d && Dyn.listConst r
end

mutual
/-- `is_const` (transform/check_const.rs:18-33). -/
def isConst : IR → Bool
  | .dynamic d => d.isConst
  | .io _ => false
  | .cache _ _ => false
  | .path x _ => isConst x
  | .ctxPath _ => false
  | .protect _ x => isConst x
  | .map x _ => isConst x
  | .pipe a b => isConst a && isConst b
  | .merge l => allConst l
  | .discriminate _ x => isConst x
  | .entity m => entConst m
  | .service _ => true
/-- `vec.iter().all(is_const)` (jit/transform/check_const.rs:28). -/
def allConst : List IR → Bool
  | [] => true
  | x :: r => isConst x && allConst r
/-- `hash_map.values().all(is_const)` (jit/transform/check_const.rs:30). -/
def entConst : List (Text × IR) → Bool
  | [] => true
  | p :: r => entryConst p && entConst r
/-- One entry of it (jit/transform/check_const.rs:30). -/
def entryConst : Text × IR → Bool
  | (_, x) => isConst x
end

mutual
/-- `is_protected` (transform/check_protected.rs:18-33). -/
def isProtected : IR → Bool
  | .dynamic _ => false
  | .io _ => false
  | .cache _ _ => false
  | .path x _ => isProtected x
  | .ctxPath _ => false
  | .protect _ _ => true
  | .map x _ => isProtected x
  | .pipe a b => isProtected a || isProtected b
  | .merge l => allProtected l
  | .discriminate _ x => isProtected x
  | .entity m => entProtected m
  | .service _ => false
/-- `vec.iter().all(is_protected)` (jit/transform/check_protected.rs:28). -/
def allProtected : List IR → Bool
  | [] => true
  | x :: r => isProtected x && allProtected r
/-- `hash_map.values().any(is_protected)` (jit/transform/check_protected.rs:30). -/
def entProtected : List (Text × IR) → Bool
  | [] => false
  | p :: r => entryProtected p || entProtected r
/-- One entry of it (jit/transform/check_protected.rs:30). -/
def entryProtected : Text × IR → Bool
  | (_, x) => isProtected x
end

mutual
/-- `update_ir` (transform/auth_planner.rs:56-85): the expression without its guards, and the
guards collected, in order. -/
def updateIr : IR → IR × List Auth
  | .path x p => let (x', as) := updateIr x; (.path x' p, as)
  | .protect a x => let (x', as) := updateIr x; (x', a :: as)
  | .pipe x y =>
    let (x', as) := updateIr x
    let (y', bs) := updateIr y
    (.pipe x' y', as ++ bs)
  | .discriminate d x => let (x', as) := updateIr x; (.discriminate d x', as)
  | .merge l => let (l', as) := updateIrs l; (.merge l', as)
  | .dynamic d => (.dynamic d, [])
  | .io i => (.io i, [])
  | .cache m i => (.cache m i, [])
  | .ctxPath p => (.ctxPath p, [])
  | .map x m => (.map x m, [])
  | .entity m => (.entity m, [])
  | .service s => (.service s, [])
/-- The members of a merge (transform/auth_planner.rs:81-83). -/
def updateIrs : List IR → List IR × List Auth
  | [] => ([], [])
  | x :: r =>
    let (x', as) := updateIr x
    let (r', bs) := updateIrs r
    (x' :: r', as ++ bs)
end

mutual
/-- `check_dedupe` (transform/check_dedupe.rs:17-32). -/
def checkDedupe : IR → Bool
  | .io i => i.canDedupe
  | .cache _ i => i.canDedupe
  | .path x _ => checkDedupe x
  | .protect _ x => checkDedupe x
  | .pipe a b => checkDedupe a && checkDedupe b
  | .merge l => checkDedupes l
  | .discriminate _ x => checkDedupe x
  | .entity m => entDedupe m
  | .dynamic _ => true
  | .ctxPath _ => true
  | .map _ _ => true
  | .service _ => true
/-- `vec.iter().all(check_dedupe)` (jit/transform/check_dedupe.rs:24). -/
def checkDedupes : List IR → Bool
  | [] => true
  | x :: r => checkDedupe x && checkDedupes r
/-- `hash_map.values().all(check_dedupe)` (jit/transform/check_dedupe.rs:26). -/
def entDedupe : List (Text × IR) → Bool
  | [] => true
  | p :: r => entryDedupe p && entDedupe r
/-- One entry of it (jit/transform/check_dedupe.rs:26). -/
def entryDedupe : Text × IR → Bool
  | (_, x) => checkDedupe x
end

/-- `std::cmp::min` on `Option<NonZeroU64>`: `None` is the least
(standard library, used at jit/transform/check_cache.rs:46). -/
def minOpt : Option Nat → Option Nat → Option Nat
  | some a, some b => some (min a b)
  | _, _ => none

mutual
/-- `check_cache` (transform/check_cache.rs:20-35).  `.min().unwrap_or_default()` is `None` for an
empty list and `None` if any member is. -/
def checkCache : IR → Option Nat
  | .io _ => none
  | .cache m _ => some m
  | .path x _ => checkCache x
  | .protect _ x => checkCache x
  | .pipe a b =>
    match checkCache a, checkCache b with
    | some m, some n => some (min m n)
    | _, _ => none
  | .merge l => (checkCaches l).getD none
  | .discriminate _ x => checkCache x
  | .entity m => (entCache m).getD none
  | .dynamic _ => none
  | .ctxPath _ => none
  | .map _ _ => none
  | .service _ => none
/-- `vec.iter().map(check_cache).min()` (jit/transform/check_cache.rs:30). -/
def checkCaches : List IR → Option (Option Nat)
  | [] => none
  | x :: r =>
    match checkCaches r with
    | none => some (checkCache x)
    | some m => some (minOpt (checkCache x) m)
/-- `hash_map.values().map(check_cache).min()` (jit/transform/check_cache.rs:32). -/
def entCache : List (Text × IR) → Option (Option Nat)
  | [] => none
  | p :: r =>
    match entCache r with
    | none => some (entryCache p)
    | some m => some (minOpt (entryCache p) m)
/-- One entry of it (jit/transform/check_cache.rs:32). -/
def entryCache : Text × IR → Option Nat
  | (_, x) => checkCache x
end

mutual
/-- `Cache::wrap` (ir/model.rs:125-130) over `modify_inner` (ir/model.rs:168-208). -/
def wrapCache (age : Nat) : IR → IR
  | .io i => .cache age i
  | .cache _ i => .cache age i
  | .path x p => .path (wrapCache age x) p
  | .protect a x => .protect a (wrapCache age x)
  | .map x m => .map (wrapCache age x) m
  | .pipe a b => .pipe (wrapCache age a) (wrapCache age b)
  | .merge l => .merge (wrapCaches age l)
  | .discriminate d x => .discriminate d (wrapCache age x)
  | .entity m => .entity (wrapEnt age m)
  | .dynamic d => .dynamic d
  | .ctxPath p => .ctxPath p
  | .service s => .service s
/-- The members of a merge (ir/model.rs:202-204). -/
def wrapCaches (age : Nat) : List IR → List IR
  | [] => []
  | x :: r => wrapCache age x :: wrapCaches age r
/-- The resolvers of the entities (ir/model.rs:196-200). -/
def wrapEnt (age : Nat) : List (Text × IR) → List (Text × IR)
  | [] => []
  | p :: r => wrapEntry age p :: wrapEnt age r
/-- One resolver (ir/model.rs:125-130, 196). -/
def wrapEntry (age : Nat) : Text × IR → Text × IR
  | (t, x) => (t, wrapCache age x)
end

/-- `update_cache_resolvers` (blueprint/definitions.rs:367-382): the age of the field, or else of
its type. -/
def updateCache (fieldAge typeAge : Option Nat) (r : Option IR) : Option IR :=
  match (fieldAge <|> typeAge) with
  | some age => r.map (wrapCache age)
  | none => r

/-- The wrapping part of `update_protected` (blueprint/operators/protected.rs:74-82). -/
def wrapProtected (a : Auth) (name : Text) : Option IR → IR
  | none => .protect a (.ctxPath [name])
  | some x => .protect a x

end Verif.Ir
