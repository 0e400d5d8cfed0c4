import Verif.Exec.Model

/-!
# Model of the JSON schema checks (src/core/json/json_schema.rs and its users)

`JsonSchema` with `validate` and `is_a`, its derivation from a GraphQL type
(`to_json_schema`), from a protobuf message (`TryFrom<&MessageDescriptor>`), and the two checks made
with it while a configuration is compiled: constant `@expr` bodies and `@grpc` operations.

The two derivations follow references between types without remembering where they came from, so
they need not terminate; the model counts the depth and `none` means "not finished within this depth".
`BTreeMap`s are association lists and `BTreeSet`s are lists (in the order of the tree).
-/

namespace Verif.Schema

open Verif.Mustache (Text)
open Verif.HttpUrl (GVal intText)
open Verif.Exec (Ty)

/-- `JsonSchema` (json_schema.rs:9-21). -/
inductive JS where
  | obj (fields : List (Text × JS))
  | arr (item : JS)
  | opt (inner : JS)
  | enum (names : List Text)
  | str
  | num
  | bool
  | empty
  | any
  deriving Repr

/-- The messages of `validate` (json_schema.rs:95-153). -/
inductive VMsg where
  | string | number | boolean | empty | array | object | missing
  deriving DecidableEq, Repr

/-- One error of `validate`: the trace (outermost first) and the message (json/json_schema.rs:95-152). -/
structure VErr where
  trace : List Text
  msg : VMsg
  deriving DecidableEq, Repr

/-- `Valid::trace` on one error: the new element goes in front
(external crate tailcall_valid, used at json/json_schema.rs:119, 132-137). -/
def VErr.at (k : Text) (e : VErr) : VErr := { e with trace := k :: e.trace }

/-- `Valid::fail(msg)` (external crate tailcall_valid, used at json/json_schema.rs:99-144). -/
def vfail (m : VMsg) : List VErr := [{ trace := [], msg := m }]

/-- `IndexMap::get` on an object value (json/json_schema.rs:125-145). -/
def getKey (kvs : List (Text × GVal)) (k : Text) : Option GVal :=
  match kvs with
  | [] => none
  | (k', v) :: r => if k' = k then some v else getKey r k

/-- `BTreeMap::get` on the fields of a schema (json/json_schema.rs:193). -/
def getField (fs : List (Text × JS)) (k : Text) : Option JS :=
  match fs with
  | [] => none
  | (k', s) :: r => if k' = k then some s else getField r k

/-- `is_required` / `is_optional` (json_schema.rs:233-239). -/
def JS.isRequired : JS → Bool
  | .opt _ => false
  | _ => true

mutual

/-- `JsonSchema::validate` (json_schema.rs:95-153): the list of errors, empty for success. -/
def validate : JS → GVal → List VErr
  | .str, v => match v with
    | .str _ => []
    | _ => vfail .string
  | .num, v => match v with
    | .int _ => []
    | .float _ => []
    | _ => vfail .number
  | .bool, v => match v with
    | .bool _ => []
    | _ => vfail .boolean
  | .empty, v => match v with
    | .null => []
    | .obj [] => []
    | _ => vfail .empty
  | .any, _ => []
  | .arr s, v => match v with
    | .list l => l.zipIdx.flatMap (fun p => (validate s p.1).map (VErr.at (intText p.2)))
    | _ => vfail .array
  | .obj fs, v => match v with
    | .obj kvs => validateFields fs kvs
    | _ => vfail .object
  | .opt s, v => match v with
    | .null => []
    | _ => validate s v
  | .enum _, _ => []

/-- The loop over the fields of an object (json_schema.rs:126-142). -/
def validateFields : List (Text × JS) → List (Text × GVal) → List VErr
  | [], _ => []
  | (k, s) :: r, kvs =>
    (match getKey kvs k with
      | some x => (validate s x).map (VErr.at k)
      | none => if s.isRequired then (vfail .missing).map (VErr.at k) else [])
    ++ validateFields r kvs

end

/-- The messages of `is_a` (json/json_schema.rs:162-166, 193). -/
inductive IMsg where
  | missingKey (k : Text)
  | notAssignable (sub sup : JS)

/-- One error of `is_a` (json/json_schema.rs:156-230). -/
structure IErr where
  trace : List Text
  msg : IMsg

/-- `Valid::trace` on one error (external crate tailcall_valid, used at json/json_schema.rs:166, 196). -/
def IErr.at (k : Text) (e : IErr) : IErr := { e with trace := k :: e.trace }

/-- `fail` of json_schema.rs:162-166. -/
def ifail (sub sup : JS) (name : Text) : List IErr :=
  [{ trace := [name], msg := .notAssignable sub sup }]

mutual

/-- `JsonSchema::is_a` (json_schema.rs:156-227): the list of errors, empty when `sub` is accepted. -/
def isA (sub : JS) : JS → Text → List IErr
  | .any, _ => []
  | .str, name => match sub with
    | .str => []
    | _ => ifail sub .str name
  | .num, name => match sub with
    | .num => []
    | _ => ifail sub .num name
  | .bool, name => match sub with
    | .bool => []
    | _ => ifail sub .bool name
  | .empty, name => match sub with
    | .empty => []
    | _ => ifail sub .empty name
  | .obj expected, name => match sub with
    | .obj actual => (isAFields actual expected).map (IErr.at name)
    | _ => ifail sub (.obj expected) name
  | .arr expected, name => match sub with
    | .arr actual => isA actual expected name
    | _ => ifail sub (.arr expected) name
  | .opt expected, name => match sub with
    | .opt actual => isA actual expected name
    | _ => isA sub expected name
  | .enum expected, name => match sub with
    | .enum actual => if actual = expected then [] else ifail sub (.enum expected) name
    | _ => ifail sub (.enum expected) name

/-- The loop over the expected fields (json_schema.rs:192-195). -/
def isAFields (actual : List (Text × JS)) : List (Text × JS) → List IErr
  | [] => []
  | (k, e) :: r =>
    (match getField actual k with
      | some a => isA a e k
      | none => [{ trace := [], msg := .missingKey k }])
    ++ isAFields actual r

end

/-! ## Schemas of GraphQL types -/

/-- `config::Field`: the type and whether `field.resolvers` is empty
(config/config.rs:182-226, read at blueprint/from_config.rs:90-94). -/
structure FieldDef where
  ty : Ty
  resolved : Bool

/-- The type declarations of `Config`: `types` (objects, inputs, interfaces, and declared scalars,
which have no fields), `enums`, and `unions`, which `to_json_schema` does not look at
(config/config.rs:66-102, read at blueprint/from_config.rs:85-86). -/
structure Cfg where
  types : List (Text × List (Text × FieldDef))
  enums : List (Text × List Text)
  unions : List (Text × List Text)

/-- `BTreeMap::get` (used at blueprint/from_config.rs:85-86). -/
def look {α : Type} : List (Text × α) → Text → Option α
  | [], _ => none
  | (k', a) :: r, k => if k' = k then some a else look r k

/-- `JsonSchema::from_scalar_type` (json_schema.rs:83-92). -/
def fromScalar (name : Text) : JS :=
  if name = ['S','t','r','i','n','g'] then .str
  else if name = ['I','n','t'] then .num
  else if name = ['B','o','o','l','e','a','n'] then .bool
  else if name = ['E','m','p','t','y'] then .empty
  else .any

/-- The loop of from_config.rs:90-94, given the schema of each field's type. -/
def fieldsWith (rec : Ty → Option JS) : List (Text × FieldDef) → Option (List (Text × JS))
  | [] => some []
  | (k, f) :: r =>
    if f.resolved then fieldsWith rec r
    else match rec f.ty, fieldsWith rec r with
      | some s, some l => some ((k, s) :: l)
      | _, _ => none

/-- The last step of `to_json_schema` (from_config.rs:111-115). -/
def optional (t : Ty) (s : JS) : JS := if t.isNullable then .opt s else s

/-- `to_json_schema` (from_config.rs:82-116). -/
def toSchema (c : Cfg) : Nat → Ty → Option JS
  | 0, _ => none
  | n + 1, .named name nn =>
    (match look c.types name with
      | some fs => (fieldsWith (toSchema c n) fs).map JS.obj
      | none => match look c.enums name with
        | some vs => some (JS.enum vs)
        | none => some (fromScalar name)).map (optional (.named name nn))
  | n + 1, .list t nn => ((toSchema c n t).map JS.arr).map (optional (.list t nn))

/-- `compile_expr` for a constant body (operators/expr.rs:10-22, 46-57, with `validate: true` as in
operators/resolver.rs:46): the errors, or the constant that becomes the resolver's value.
Simplification: the conversion of the JSON body to a GraphQL value is the identity. -/
def compileConst (c : Cfg) (n : Nat) (t : Ty) (v : GVal) : Option (Except (List VErr) GVal) :=
  (toSchema c n t).map (fun s =>
    match validate s v with
    | [] => .ok v
    | e :: r => .error (e :: r))

/-! ## Schemas of protobuf messages -/

/-- `prost_reflect::Kind`; the twelve number kinds are grouped by how they are represented
(external crate, matched at json/json_schema.rs:287-305). -/
inductive Kind where
  | number
  | number64
  | bool
  | string
  | bytes
  | message (name : Text)
  | enum (name : Text)

/-- `prost_reflect::Cardinality` (external crate, compared at json/json_schema.rs:306-308). -/
inductive Card where
  | optional | required | repeated
  deriving DecidableEq

/-- `FieldDescriptor`: its name in camel case, its kind, cardinality and `is_list`
(a repeated field that is not a map) (external crate, read at json/json_schema.rs:283-322). -/
structure PField where
  name : Text
  kind : Kind
  card : Card
  isList : Bool

/-- `MessageDescriptor` (external crate, read at json/json_schema.rs:242-262). -/
structure PMsg where
  mapEntry : Bool
  fields : List PField

/-- The descriptor pool: messages and enums by name
(external crate; the references between descriptors followed at json/json_schema.rs:303-304). -/
structure Pool where
  msgs : List (Text × PMsg)
  enums : List (Text × List Text)

/-- The wrapping of a field's schema (json_schema.rs:306-319). -/
def wrapField (f : PField) (s : JS) : JS :=
  let s := if f.card = .optional then .opt s else s
  if f.isList then .opt (.arr s) else s

/-- `TryFrom<&FieldDescriptor>` (json_schema.rs:286-322), given the schema of a message.
Simplification: descriptors always resolve their references, so there is no error. -/
def kindSchema (p : Pool) (rec : Text → Option JS) : Kind → Option JS
  | .number => some .num
  | .number64 => some .num
  | .bool => some .bool
  | .string => some .str
  | .bytes => some .str
  | .message m => rec m
  | .enum e => some (.enum ((look p.enums e).getD []))

/-- The loop of json_schema.rs:254-261. -/
def msgFields (p : Pool) (rec : Text → Option JS) : List PField → Option (List (Text × JS))
  | [] => some []
  | f :: r => match kindSchema p rec f.kind, msgFields p rec r with
    | some s, some l => some ((f.name, wrapField f s) :: l)
    | _, _ => none

/-- The last step of json_schema.rs:263-267. -/
def objOrEmpty (l : List (Text × JS)) : JS := if l.isEmpty then .empty else .obj l

/-- `TryFrom<&MessageDescriptor>` (json_schema.rs:245-269).  An unknown message does not occur. -/
def msgSchema (p : Pool) : Nat → Text → Option JS
  | 0, _ => none
  | n + 1, m => match look p.msgs m with
    | none => some .any
    | some d =>
      if d.mapEntry then some .any
      else (msgFields p (msgSchema p n) d.fields).map objOrEmpty

/-- `validate_schema` (operators/grpc.rs:63-95): the errors of the output type against the field's
type; the input type is only converted.  Simplification: the schema of the arguments, which
`json_schema_from_field` also computes and nobody reads, is left out. -/
def validateGrpc (c : Cfg) (p : Pool) (n : Nat) (t : Ty) (input output : Text) : Option (List IErr) :=
  match toSchema c n t, msgSchema p n input, msgSchema p n output with
  | some sup, some _, some sub => some (isA sub sup t.name)
  | _, _, _ => none

end Verif.Schema
