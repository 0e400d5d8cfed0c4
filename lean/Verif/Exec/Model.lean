import Verif.Ir.Model
import Verif.Plan.Model

/-!
# Model of plan execution (src/core/jit/exec.rs, exec_const.rs), of response synthesis
(src/core/jit/synth/synth.rs, response.rs) and of the transforms that summarise a plan

Execution threads a state of any type `σ`, which the resolver oracle reads and writes.
Simplification: what `join_all` runs concurrently is run here from left to right.  `panic` is an
explicit error.
-/

namespace Verif.Exec

open Verif.Mustache (Text)
open Verif.HttpUrl (GVal)
open Verif.Ir (IR Res getTypeName)
open Verif.Auth (Auth)
open Verif.Plan (Vars skipField)

/-- `Type` (wrapping_type.rs:14-30). -/
inductive Ty where
  | named (name : Text) (nonNull : Bool)
  | list (ofType : Ty) (nonNull : Bool)
  deriving DecidableEq, Repr

/-- `Type::name` (wrapping_type.rs:61-66). -/
def Ty.name : Ty → Text
  | .named n _ => n
  | .list t _ => t.name

/-- `Type::is_nullable` (wrapping_type.rs:69-74). -/
def Ty.isNullable : Ty → Bool
  | .named _ nn => !nn
  | .list _ nn => !nn

/-- `Type::is_list` (wrapping_type.rs:76-78). -/
def Ty.isList : Ty → Bool
  | .named _ _ => false
  | .list _ _ => true

/-- `Field` (jit/model.rs:172-195) without its selection.  `args` are the arguments with a value
(`build_args`, jit/context.rs:74-85).  A custom scalar is a number, its validator an oracle.
Directives and positions are left out. -/
structure Hdr where
  id : Nat
  name : Text
  out : Text
  ir : Option IR
  ty : Ty
  tc : Option Text
  skip : Option Text
  incl : Option Text
  args : List (Text × GVal)
  isEnum : Bool
  scalar : Option Nat

/-- `Field` (jit/model.rs:172-195). -/
inductive Field where
  | mk (h : Hdr) (sub : List Field)

/-- The part of a `Field` (jit/model.rs:172-195) that is not its selection. -/
def Field.hdr : Field → Hdr | .mk h _ => h
/-- The selection of a `Field` (jit/model.rs:189). -/
def Field.sub : Field → List Field | .mk _ s => s

/-- What execution and synthesis get from outside: the type index
(`Index::is_type_implements`, `validate_enum_value`), the scalar validators, the variables as
`Field::skip` sees them, and the evaluation of a resolver on a parent value
(blueprint/index.rs:59-71, 86-101, jit/model.rs:70-83, ir/eval.rs:19-170). -/
structure Env (σ : Type) where
  implements : Text → Text → Bool
  enumOk : Text → Text → Bool
  scalarOk : Nat → GVal → Bool
  vars : Vars
  resolve : σ → Hdr → Option GVal → σ × Res

variable {σ : Type}

/-- `as_array().is_some()` (json/borrow.rs:98-103, json/graphql.rs:75-80). -/
def isArr : GVal → Bool
  | .list _ => true
  | _ => false

/-- `get_key` (json/graphql.rs:150-155). -/
def getKey (k : Text) : GVal → Option GVal
  | .obj kvs => Verif.Merge.get k kvs
  | _ => none

/-- `field_is_part_of_value` (jit/model.rs:421-440). -/
def partOf (e : Env σ) (h : Hdr) (v : GVal) : Bool :=
  match h.tc with
  | some tc =>
    match getTypeName v with
    | some t => e.implements t tc
    | none => true
  | none => true

mutual
/-- `map_ref` (json/json_like_list.rs:19-35) with a mapper that has a state. -/
def mapRef {τ ε : Type} (f : τ → GVal → τ × Except ε GVal) : τ → GVal → τ × Except ε GVal
  | t, .list l =>
    match mapRefs f t l with
    | (t', .ok l') => (t', .ok (.list l'))
    | (t', .error x) => (t', .error x)
  | t, v => f t v
/-- The elements; `collect` stops at the first error (json/json_like_list.rs:23-30). -/
def mapRefs {τ ε : Type} (f : τ → GVal → τ × Except ε GVal) : τ → List GVal → τ × Except ε (List GVal)
  | t, [] => (t, .ok [])
  | t, v :: r =>
    match mapRef f t v with
    | (t', .error x) => (t', .error x)
    | (t', .ok v') =>
      match mapRefs f t' r with
      | (t'', .error x) => (t'', .error x)
      | (t'', .ok r') => (t'', .ok (v' :: r'))
end

mutual
/-- `for_each` (json/json_like_list.rs:37-43): the values it visits. -/
def leaves : GVal → List GVal
  | .list l => leavesAll l
  | v => [v]
/-- The values of all the elements (helper of `leaves`, same lines). -/
def leavesAll : List GVal → List GVal
  | [] => []
  | v :: r => leaves v ++ leavesAll r
end

/-- `ConstValueExec::call` (jit/exec_const.rs:122-140). -/
def call (e : Env σ) (h : Hdr) (s : σ) : Option GVal → σ × Res
  | some .null => (s, .ok .null)
  | v => e.resolve s h v

/-- The tasks of a list parent (jit/exec_const.rs:161-170). -/
def callAll (e : Env σ) (h : Hdr) : σ → List GVal → σ × List Res
  | s, [] => (s, [])
  | s, v :: r =>
    match call e h s (some v) with
    | (s', x) =>
      match callAll e h s' r with
      | (s'', xs) => (s'', x :: xs)

/-- The mapper that puts the results back in place (jit/exec_const.rs:176-188). -/
def place (e : Env σ) (h : Hdr) (rs : List Res) (v : GVal) : List Res × Res :=
  if partOf e h v then
    match rs with
    | x :: r => (r, x)
    | [] => ([], .error (.exprEval "Expected value to be present".toList))
  else (rs, .ok .null)

/-- `IRExecutor::execute` (jit/exec_const.rs:148-192). -/
def execIr (e : Env σ) (h : Hdr) (s : σ) (v : Option GVal) : σ × Res :=
  match v with
  | some (.list l) =>
    match callAll e h s ((leaves (.list l)).filter (partOf e h)) with
    | (s', rs) => (s', (mapRef (place e h) rs (.list l)).2)
  | v => call e h s v

/-- `Store` (jit/store.rs): results by field id. -/
abbrev Store := Nat → Option Res

/-- `Store::set` (jit/store.rs:57-59). -/
def Store.set (st : Store) (id : Nat) (r : Res) : Store := fun i => if i = id then some r else st i

/-- The value a field without resolver passes on to its selection (jit/exec.rs:117-135). -/
def plainValue (h : Hdr) : Option GVal → GVal
  | some v =>
    match (mapRef (fun (_ : Unit) x => ((), (.ok ((getKey h.out x).getD .null) : Except Unit GVal))) () v).2 with
    | .ok x => x
    | .error _ => .null
  | none => .null

mutual
/-- `ExecutorInner::execute` (jit/exec.rs:103-141). -/
def execField (e : Env σ) : Field → Option GVal → σ × Store → σ × Store
  | .mk h sub, v, (s, st) =>
    match h.ir with
    | some _ =>
      match execIr e h s v with
      | (s', r) =>
        match r with
        | .ok x =>
          match execAll e sub (some x) (s', st) with
          | (s'', st') => (s'', st'.set h.id (.ok x))
        | .error x => (s', st.set h.id (.error x))
    | none => execAll e sub (some (plainValue h v)) (s, st)
/-- `iter_field` (jit/exec.rs:86-101) and `init` (jit/exec.rs:76-84). -/
def execAll (e : Env σ) : List Field → Option GVal → σ × Store → σ × Store
  | [], _, q => q
  | f :: r, v, q => execAll e r v (execField e f v q)
end

/-- `PathSegment` (jit/model.rs:527-532). -/
inductive Seg where
  | field (t : Text)
  | idx (i : Nat)
  deriving DecidableEq, Repr

/-- The errors of synthesis (jit/error.rs:32-41, 44-57). -/
inductive Kind where
  | resolver (e : Verif.Ir.Err)
  | valueRequired
  | scalarInvalid
  | enumInvalid
  | panic
  deriving DecidableEq, Repr

/-- `Positioned<Error>`: errors from the store carry no path (jit/exec.rs:115). -/
structure SErr where
  kind : Kind
  path : Option (List Seg)
  deriving DecidableEq, Repr

/-- The path of a value: `Vec<PathSegment>` (jit/model.rs:527-532). -/
abbrev Path := List Seg

/-- `node_nullable_guard` (synth.rs:102-123). -/
def guard (h : Hdr) (root : Option Text) (path : Path) : Except SErr GVal :=
  match root, decide (h.name = Verif.Ir.typenameField) with
  | some r, true => .ok (.str r)
  | _, _ => if h.ty.isNullable then .ok .null else .error ⟨.valueRequired, some path⟩

/-- What a null is checked against in `iter_inner` (synth.rs:142-147). -/
def Ty.nullInside : Ty → Bool
  | .named _ nn => !nn
  | .list t _ => t.isNullable

/-- `Synth::include` (synth.rs:32-34). -/
def included (e : Env σ) (h : Hdr) : Bool := !skipField e.vars h.skip h.incl

/-- `check_valid_enum` (synth.rs:168-173). -/
def enumItem (e : Env σ) (h : Hdr) : GVal → Bool
  | .str s => e.enumOk h.ty.name s
  | _ => false

/-- `is_valid_enum` (synth.rs:175-179). -/
def enumValue (e : Env σ) (h : Hdr) : GVal → Bool
  | .list l => l.all (enumItem e h)
  | v => enumItem e h v

/-- The checks of `iter_inner` before it looks inside a value that is not null
(synth.rs:137-189). -/
def checked (e : Env σ) (h : Hdr) (v : GVal) (path : Path) (k : Path × Except SErr GVal) :
    Path × Except SErr GVal :=
  if !included e h then (path, .ok .null)
  else
    match h.scalar with
    | some s => if e.scalarOk s v then (path, .ok v) else (path, .error ⟨.scalarInvalid, some path⟩)
    | none =>
      if h.isEnum then
        if enumValue e h v then (path, .ok v) else (path, .error ⟨.enumInvalid, some path⟩)
      else k

/-- The selection of an object, as `inner` is given it (jit/synth/synth.rs:127-229). -/
abbrev Kids := GVal → List (Text × GVal) → List Nat → Path → Path × Except SErr (List (Text × GVal))

/-- An object from the values of its fields (synth.rs:211). -/
def asObj : Path × Except SErr (List (Text × GVal)) → Path × Except SErr GVal
  | (p, .ok fs) => (p, .ok (.obj fs))
  | (p, .error x) => (p, .error x)

/-- An array from its elements (synth.rs:222). -/
def asList : Path × Except SErr (List GVal) → Path × Except SErr GVal
  | (p, .ok l) => (p, .ok (.list l))
  | (p, .error x) => (p, .error x)

mutual
/-- `iter_inner` (synth.rs:127-229). -/
def inner (e : Env σ) (h : Hdr) (kids : Kids) : GVal → List Nat → Path → Path × Except SErr GVal
  | .null, _, path =>
    if !included e h then (path, .ok .null)
    else if h.ty.nullInside then (path, .ok .null)
    else (path, .error ⟨.valueRequired, some path⟩)
  | .obj kvs, dp, path => checked e h (.obj kvs) path (asObj (kids (.obj kvs) kvs dp path))
  | .list l, dp, path => checked e h (.list l) path (asList (inners e h kids l 0 dp path))
  | v, _, path => checked e h v path (path, .ok v)
/-- The elements of an array (synth.rs:213-221). -/
def inners (e : Env σ) (h : Hdr) (kids : Kids) :
    List GVal → Nat → List Nat → Path → Path × Except SErr (List GVal)
  | [], _, _, path => (path, .ok [])
  | v :: r, i, dp, path =>
    match inner e h kids v (dp ++ [i]) (path ++ [.idx i]) with
    | (p, .error x) => (p, .error x)
    | (p, .ok v') =>
      match inners e h kids r (i + 1) dp p.dropLast with
      | (p', .error x) => (p', .error x)
      | (p', .ok r') => (p', .ok (v' :: r'))
end

/-- The ways the walk along the data path ends (synth.rs:77-83). -/
inductive Walk where
  | found (v : GVal)
  | notArray
  | panic

/-- The walk along the data path (synth.rs:77-83): `arr[*index]` panics outside the array. -/
def walk : GVal → List Nat → Walk
  | v, [] => .found v
  | .list l, i :: r =>
    match l[i]? with
    | some v => walk v r
    | none => .panic
  | _, _ :: _ => .notArray

/-- `path.pop()` (synth.rs:96). -/
def popped : Path × Except SErr GVal → Path × Except SErr GVal
  | (p, r) => (p.dropLast, r)

/-- `Field::value_type` (jit/model.rs:86-91). -/
def valueType (h : Hdr) (v : GVal) : Text := (getTypeName v).getD h.ty.name

mutual
/-- `Synth::iter` (synth.rs:60-98).  The early returns at 75, 81 and 86 leave the path as it is. -/
def synthField (e : Env σ) (st : Store) :
    Field → Option GVal → List Nat → Option Text → Path → Path × Except SErr GVal
  | .mk h sub, value, dp, root, path =>
    match st h.id with
    | some (.error x) => (path ++ [.field h.out], .error ⟨.resolver x, none⟩)
    | some (.ok v) =>
      match walk v dp with
      | .panic => (path ++ [.field h.out], .error ⟨.panic, none⟩)
      | .notArray => (path ++ [.field h.out], .ok .null)
      | .found v =>
        if h.ty.isList != isArr v then
          (path ++ [.field h.out], guard h none (path ++ [.field h.out]))
        else popped (inner e h (synthKids e st sub h) v dp (path ++ [.field h.out]))
    | none =>
      match value with
      | some v => popped (inner e h (synthKids e st sub h) v dp (path ++ [.field h.out]))
      | none => popped (path ++ [.field h.out], guard h root (path ++ [.field h.out]))
/-- The fields of an object (synth.rs:192-209). -/
def synthKids (e : Env σ) (st : Store) : List Field → Hdr → Kids
  | [], _, _, _, _, path => (path, .ok [])
  | f :: r, h, v, kvs, dp, path =>
    if partOf e f.hdr v && included e f.hdr then
      if f.hdr.name = Verif.Ir.typenameField then
        match synthKids e st r h v kvs dp path with
        | (p, .error x) => (p, .error x)
        | (p, .ok fs) => (p, .ok ((f.hdr.out, .str (valueType h v)) :: fs))
      else
        match synthField e st f (Verif.Merge.get f.hdr.name kvs) dp none path with
        | (p, .error x) => (p, .error x)
        | (p, .ok x) =>
          match synthKids e st r h v kvs dp p with
          | (p', .error y) => (p', .error y)
          | (p', .ok fs) => (p', .ok ((f.hdr.out, x) :: fs))
    else synthKids e st r h v kvs dp path
end

/-- The root fields (synth.rs:45-53); `insert_key` replaces an equal key. -/
def synthRoots (e : Env σ) (st : Store) (root : Text) :
    List Field → Path → List (Text × GVal) → Except SErr (List (Text × GVal))
  | [], _, acc => .ok acc
  | f :: r, path, acc =>
    if included e f.hdr then
      match synthField e st f none [] (some root) path with
      | (_, .error x) => .error x
      | (p, .ok v) => synthRoots e st root r p (Verif.Ir.insertKey f.hdr.out v acc)
    else synthRoots e st root r path acc

/-- `Synth::synthesize` (synth.rs:37-56). -/
def synthesize (e : Env σ) (st : Store) (root : Text) (sel : List Field) : Except SErr GVal :=
  match synthRoots e st root sel [] [] with
  | .ok fs => .ok (.obj fs)
  | .error x => .error x

/-- `OperationPlan` (jit/model.rs:308-321) without index and interfaces. -/
structure Plan where
  root : Text
  isQuery : Bool
  introspection : Bool
  isDedupe : Bool
  isConst : Bool
  isProtected : Bool
  ttl : Option Nat
  before : Option IR
  sel : List Field

/-- Errors of a response (jit/error.rs:44-57, jit/exec_const.rs:48-89). -/
inductive RErr where
  | synth (e : SErr)
  | before (e : Verif.Ir.Err)
  | input (msg : Text)
  | upstream (msg : Text)
  deriving DecidableEq, Repr

/-- `Response` (jit/response.rs:13-23) without extensions and cache control. -/
structure Response where
  data : GVal
  errors : List RErr

mutual
/-- `skip` (jit/transform/skip.rs:38-43), below a kept field. -/
def skipF (vars : Vars) : Field → Field
  | .mk h sub => .mk h (skipFs vars sub)
/-- `skip` (jit/transform/skip.rs:38-43). -/
def skipFs (vars : Vars) : List Field → List Field
  | [] => []
  | f :: r => if skipField vars f.hdr.skip f.hdr.incl then skipFs vars r else skipF vars f :: skipFs vars r
end

/-- `Response::new` and `add_errors` (jit/response.rs:37-57, jit/exec.rs:49-51). -/
def respond (r : Except SErr GVal) (extra : List RErr) : Response :=
  match r with
  | .ok v => ⟨v, extra⟩
  | .error x => ⟨.null, .synth x :: extra⟩

/-- Merging of the introspection result into an object (jit/response.rs:67-74). -/
def mergeKeys (acc : List (Text × GVal)) : List (Text × GVal) → List (Text × GVal)
  | [] => acc
  | (k, v) :: r =>
    match Verif.Merge.get k acc with
    | some _ => mergeKeys acc r
    | none => mergeKeys (acc ++ [(k, v)]) r

/-- `merge_with` (jit/response.rs:64-90). -/
def mergeWith (r : Response) (other : GVal) (errs : List RErr) : Response :=
  match other with
  | .obj o =>
    match r.data with
    | .obj kvs => ⟨.obj (mergeKeys kvs o), r.errors ++ errs⟩
    | _ => ⟨.obj o, r.errors ++ errs⟩
  | _ => ⟨r.data, r.errors ++ errs⟩

/-- What `ConstValueExecutor::execute` gets from outside besides `Env`: the evaluation of the
`before` expression, the input resolver (`Verif.Input`), the errors that upstream GraphQL
responses add to the context (`add_error`), whether the server allows introspection, and the
introspection response of the schema (jit/exec_const.rs:37-109). -/
structure Outer (σ : Type) where
  env : Env σ
  before : σ → IR → σ × Res
  input : List Field → Except Text (List Field)
  extra : σ → List RErr
  enableIntrospection : Bool
  introspect : GVal × List RErr

/-- `ConstValueExecutor::execute` (jit/exec_const.rs:37-109). -/
def executePlan (o : Outer σ) (p : Plan) (s0 : σ) : σ × Response :=
  let go (s : σ) : σ × Response :=
    match o.input (skipFs o.env.vars p.sel) with
    | .error m => (s, ⟨.null, [.input m]⟩)
    | .ok sel =>
      match execAll o.env sel none (s, fun _ => none) with
      | (s', st) =>
        let resp := respond (synthesize o.env st p.root sel) (o.extra s')
        if o.enableIntrospection && p.introspection then
          (s', mergeWith resp o.introspect.1 o.introspect.2)
        else (s', resp)
  match p.before with
  | none => go s0
  | some ir =>
    match o.before s0 ir with
    | (s, .error x) => (s, ⟨.null, [.before x]⟩)
    | (s, .ok _) => go s

/-- The resolver of a field: `IR::eval` in the context of the field (jit/exec_const.rs:136-139,
jit/context.rs:42-85). -/
def irResolve (w : Verif.Ir.World) (base : Verif.Ir.Ctx) (s : Verif.Ir.St) (h : Hdr) (v : Option GVal) :
    Verif.Ir.St × Res :=
  match h.ir with
  | none => (s, .ok .null)
  | some ir => Verif.Ir.eval w ir { base with value := v, args := some h.args, valueO := none, argsO := none } s

mutual
/-- `iter_dfs` (jit/model.rs:197-215, 394-396): all the fields of a plan. -/
def dfsF : Field → List Hdr
  | .mk h sub => h :: dfs sub
/-- The same for a selection (jit/model.rs:197-216, 394-396). -/
def dfs : List Field → List Hdr
  | [] => []
  | f :: r => dfsF f ++ dfs r
end

/-- `CheckConst` (transform/check_const.rs:39-48). -/
def planConst (sel : List Field) : Bool :=
  (dfs sel).all (fun h => match h.ir with | some ir => Verif.Ir.isConst ir | none => true)

/-- `CheckProtected` (transform/check_protected.rs:39-46). -/
def planProtected (sel : List Field) : Bool :=
  (dfs sel).all (fun h => match h.ir with | some ir => Verif.Ir.isProtected ir | none => true)

/-- `CheckDedupe` (transform/check_dedupe.rs:38-50): root fields only. -/
def planDedupe (sel : List Field) : Bool :=
  sel.all (fun f => match f.hdr.ir with | some ir => Verif.Ir.checkDedupe ir | none => true)

/-- `NonZeroU64::MAX` (used at jit/transform/check_cache.rs:42). -/
def maxTtl : Nat := 2 ^ 64 - 1

/-- `CheckCache` (transform/check_cache.rs:41-53): root fields only. -/
def planTtl (sel : List Field) : Option Nat :=
  sel.foldl (fun t f => match f.hdr.ir with
    | some ir => Verif.Ir.minOpt t (Verif.Ir.checkCache ir)
    | none => t) (some maxTtl)

mutual
/-- `update_field` (transform/auth_planner.rs:42-51): goes below a field only if the field has a
resolver. -/
def authF : Field → Field × List Auth
  | .mk h sub =>
    match h.ir with
    | none => (.mk h sub, [])
    | some ir =>
      let (ir', as) := Verif.Ir.updateIr ir
      let (sub', bs) := authFs sub
      (.mk { h with ir := some ir' } sub', as ++ bs)
/-- The fields of a selection (transform/auth_planner.rs:46-49, 27-29). -/
def authFs : List Field → List Field × List Auth
  | [] => ([], [])
  | f :: r =>
    let (f', as) := authF f
    let (r', bs) := authFs r
    (f' :: r', as ++ bs)
end

/-- `AuthPlanner::transform` (transform/auth_planner.rs:25-37). -/
def planAuth (p : Plan) : Plan :=
  let (sel, as) := authFs p.sel
  { p with
    sel := sel
    before := (Verif.Auth.andAll as).map (fun a => .protect a (.dynamic (.value .null))) }

/-- `Request::create_plan` (jit/request.rs:40-60), the transforms after the builder; the last
one, `GraphQL`, prepares upstream GraphQL queries and is not modelled. -/
def transforms (p : Plan) : Plan :=
  let p := { p with isConst := planConst p.sel }
  let p := { p with isProtected := planProtected p.sel }
  let p := planAuth p
  let p := { p with isDedupe := planDedupe p.sel }
  { p with ttl := planTtl p.sel }

/-- `can_dedupe` (jit/model.rs:442-444). -/
def Plan.canDedupe (p : Plan) : Bool := p.isQuery && (p.isDedupe || p.isConst || p.ttl.isSome)

end Verif.Exec
