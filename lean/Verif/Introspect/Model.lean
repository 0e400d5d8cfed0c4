import Verif.Transform.Model
import Verif.HttpUrl.Model

/-!
# Model of the schema that clients can ask about
(src/core/blueprint/into_schema.rs, src/core/jit/response.rs, src/core/jit/exec_const.rs, src/core/jit/builder.rs)

The library async-graphql holds the schema and answers questions about it; what it does with a registered type is
in `shown` of the specification, and what it answers for a whole operation is a parameter.
-/

namespace Verif.Introspect

open Verif.Mustache (Text)
open Verif.Exec (Ty)
open Verif.HttpUrl (GVal)
open Verif.Transform (get insert)

/-- `InputFieldDefinition` (src/core/blueprint/blueprint.rs:115-120). -/
structure Input where
  name : Text
  ty : Ty
  dflt : Option GVal
  descr : Option Text

/-- `FieldDefinition` (src/core/blueprint/blueprint.rs:123-131) without resolver and directives. -/
structure FieldDef where
  name : Text
  args : List Input
  ty : Ty
  descr : Option Text

/-- `Definition` (src/core/blueprint/blueprint.rs:31-38 and 66-157) without directives; the values of enums with
their descriptions. -/
inductive Def where
  | interface (name : Text) (fields : List FieldDef) (descr : Option Text) (implements : List Text)
  | object (name : Text) (fields : List FieldDef) (descr : Option Text) (implements : List Text)
  | input (name : Text) (fields : List Input) (descr : Option Text)
  | scalar (name : Text) (descr : Option Text)
  | enum (name : Text) (values : List (Text × Option Text)) (descr : Option Text)
  | union (name : Text) (types : List Text) (descr : Option Text)

/-- `Definition::name` (src/core/blueprint/blueprint.rs:41-50). -/
def Def.name : Def → Text
  | .interface n _ _ _ => n
  | .object n _ _ _ => n
  | .input n _ _ => n
  | .scalar n _ => n
  | .enum n _ _ => n
  | .union n _ _ => n

/-- `dynamic::TypeRef` (made at src/core/wrapping_type.rs:150-170). -/
inductive TRef where
  | named (name : Text)
  | list (t : TRef)
  | nonNull (t : TRef)

/-- `TypeRef::from(&Type)` (src/core/wrapping_type.rs:150-170). -/
def toRef : Ty → TRef
  | .named n nn => if nn then .nonNull (.named n) else .named n
  | .list t nn => if nn then .nonNull (.list (toRef t)) else .list (toRef t)

/-- `dynamic::InputValue` (made at src/core/blueprint/into_schema.rs:122-125 and 151-156). -/
structure DInput where
  name : Text
  ty : TRef
  dflt : Option GVal
  descr : Option Text

/-- `dynamic::Field` and `dynamic::InterfaceField` (made at src/core/blueprint/into_schema.rs:63-126 and 141-144). -/
structure DField where
  name : Text
  args : List DInput
  ty : TRef
  descr : Option Text

/-- `dynamic::Type` (made at src/core/blueprint/into_schema.rs:53-193). -/
inductive DType where
  | interface (fields : List DField) (descr : Option Text) (implements : List Text)
  | object (fields : List DField) (descr : Option Text) (implements : List Text)
  | input (fields : List DInput) (descr : Option Text)
  | scalar (descr : Option Text)
  | enum (values : List (Text × Option Text)) (descr : Option Text)
  | union (types : List Text) (descr : Option Text)

/-- The argument of a field (src/core/blueprint/into_schema.rs:121-126): it gets no description.
`set_default_value` (:20-35) is the identity, since every JSON value is a value. -/
def toArg (a : Input) : DInput := ⟨a.name, toRef a.ty, a.dflt, none⟩

/-- The field of an object (src/core/blueprint/into_schema.rs:58-128). -/
def toField (f : FieldDef) : DField := ⟨f.name, f.args.map toArg, toRef f.ty, f.descr⟩

/-- The field of an interface (src/core/blueprint/into_schema.rs:140-145): neither arguments nor description. -/
def toInterfaceField (f : FieldDef) : DField := ⟨f.name, [], toRef f.ty, none⟩

/-- The field of an input object (src/core/blueprint/into_schema.rs:151-158). -/
def toInputField (f : Input) : DInput := ⟨f.name, toRef f.ty, f.dflt, f.descr⟩

/-- `to_type` (src/core/blueprint/into_schema.rs:53-193): interfaces and unions get no description, interfaces
no interfaces, and the values of enums no descriptions. -/
def toType : Def → DType
  | .object _ fs d is => .object (fs.map toField) d is
  | .interface _ fs _ _ => .interface (fs.map toInterfaceField) none []
  | .input _ fs d => .input (fs.map toInputField) d
  | .scalar _ d => .scalar d
  | .enum _ vs d => .enum (vs.map (fun v => (v.1, none))) d
  | .union _ ts _ => .union ts none

/-- The schema: types by name, as registered at src/core/blueprint/into_schema.rs:203-205; a later one takes the
place of an earlier one. -/
abbrev Schema := List (Text × DType)

/-- The scalars of tailcall (src/core/scalar.rs:21-76). -/
def customScalars : List Text :=
  ["Empty", "Email", "PhoneNumber", "Date", "DateTime", "Url", "JSON", "Int8", "Int16", "Int32", "Int64", "Int128",
    "UInt8", "UInt16", "UInt32", "UInt64", "UInt128", "Bytes"].map String.toList

/-- `inject_scalar` (src/core/blueprint/into_schema.rs:212-221). -/
def injectScalar (s : Schema) (n : Text) : Schema := if n ∈ customScalars then insert s n (.scalar none) else s

/-- The names that `inject_custom_scalars` looks at (src/core/blueprint/into_schema.rs:223-244): the types of
fields, not those of arguments. -/
def fieldTypes : Def → List Text
  | .interface _ fs _ _ => fs.map (·.ty.name)
  | .object _ fs _ _ => fs.map (·.ty.name)
  | .input _ fs _ => fs.map (·.ty.name)
  | _ => []

/-- `SchemaBuilder::from(&Blueprint)` (src/core/blueprint/into_schema.rs:195-209). -/
def toSchema (defs : List Def) : Schema :=
  defs.foldl (fun s d => insert s d.name (toType d)) ((defs.flatMap fieldTypes).foldl injectScalar [])

/-- The scalars of GraphQL (src/core/scalar.rs:11), which async-graphql always has. -/
def predefined : List Text := ["Boolean", "Float", "ID", "Int", "String"].map String.toList

/-- The name in a reference; `TypeRef::type_name` of async-graphql (used through src/core/blueprint/from_config.rs:134). -/
def TRef.name : TRef → Text
  | .named n => n
  | .list t => t.name
  | .nonNull t => t.name

/-- The names that a registered type mentions: those that `finish` of async-graphql looks for
(used at src/core/blueprint/from_config.rs:133-137). -/
def mentions : DType → List Text
  | .interface fs _ is => fs.flatMap (fun f => f.ty.name :: f.args.map (·.ty.name)) ++ is
  | .object fs _ is => fs.flatMap (fun f => f.ty.name :: f.args.map (·.ty.name)) ++ is
  | .input fs _ => fs.map (·.ty.name)
  | .union ts _ => ts
  | _ => []

/-- The part of `schema_builder.finish()` (src/core/blueprint/from_config.rs:133-137) that looks for missing
types.  Simplified: the other checks, of interfaces and of the operations, are left out. -/
def finishes (s : Schema) : Bool :=
  s.all (fun x => (mentions x.2).all (fun n => n ∈ predefined || (get s n).isSome))

/-! ## Answers -/

/-- `Response` (src/core/jit/response.rs:12-23) without the policy for caches. -/
structure Resp where
  data : GVal
  errors : List Text
  extensions : List (Text × GVal)

/-- The loop of `merge_with` (src/core/jit/response.rs:67-74). -/
def mergeObj (own : List (Text × GVal)) : List (Text × GVal) → List (Text × GVal)
  | [] => own
  | (k, v) :: r => if (get own k).isNone then mergeObj (own ++ [(k, v)]) r else mergeObj own r

/-- `merge_with` (src/core/jit/response.rs:64-90). -/
def mergeWith (own other : Resp) : Resp :=
  { data :=
      match other.data with
      | .obj o =>
        match own.data with
        | .obj s => .obj (mergeObj s o)
        | _ => .obj o
      | _ => own.data
    errors := own.errors ++ other.errors
    extensions := own.extensions ++ other.extensions }

/-- A selection at the top of an operation (used at src/core/jit/builder.rs:366-373). -/
inductive Sel where
  | field (name : Text)
  | spread (fragment : Text)
  | inline (l : List Text)

/-- `str::contains` (used at src/core/jit/builder.rs:369). -/
def contains (p : Text) : Text → Bool
  | [] => p.isEmpty
  | c :: r => p.isPrefixOf (c :: r) || contains p r

/-- `is_introspection_query` (src/core/jit/builder.rs:366-373). -/
def isIntrospection (sels : List Sel) : Bool :=
  sels.any (fun s =>
    match s with
    | .field n => contains "__schema".toList n || contains "__type".toList n
    | _ => false)

/-- The end of `execute` (src/core/jit/exec_const.rs:57-58, 101-108): `own` is the answer of the executor, and
`intro` that of async-graphql, which is asked for introspection only. -/
def answer (enabled : Bool) (sels : List Sel) (own : Resp) (intro : Resp) : Resp :=
  if enabled && isIntrospection sels then mergeWith own intro else own

end Verif.Introspect
