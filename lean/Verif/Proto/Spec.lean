import Verif.Proto.Model
import Verif.Transform.Lemmas

/-!
# Specification: names, definitions and choices
-/

namespace Verif.Proto

open Verif.Mustache (Text)
open Verif.Exec (Ty)
open Verif.Transform (At Lacks)

/-! ## Names -/

/-- A name of protobuf without dots and spaces. -/
structure Word (t : Text) : Prop where
  nonempty : t ≠ []
  plain : ∀ c ∈ t, c ≠ '.' ∧ c.isWhitespace = false

/-- It has no two underscores in a row, and does not end with one. -/
structure Simple (t : Text) : Prop where
  single : ∀ a b, t ≠ a ++ '_' :: '_' :: b
  ends : ∀ a, t ≠ a ++ ['_']

/-- What the generator puts behind the names of the members of unions, and behind those of interfaces. -/
inductive Reserved : Text → Prop
  | interface : Reserved "Interface".toList
  | var : Reserved "Var".toList
  | index (n : Nat) : Reserved ("Var".toList ++ (toString n).toList)

/-- A name that does not get in the way of the generated ones. -/
structure Proper (t : Text) : Prop where
  word : Word t
  simple : Simple t
  free : ¬ Reserved t

/-- A full name with dots. -/
def dotted (l : List Text) : Text := List.intercalate ['.'] l

/-- The name a message or an enum should have in the configuration. -/
def typeName (ns : List Text) (n : Text) : Text :=
  (if Verif.Tmpl.predefined n then [] else "GEN__".toList) ++ List.intercalate "__".toList (ns ++ [n])

/-- The name a method should have in the configuration. -/
def methodName (ns : List Text) (service n : Text) : Text := "GEN__".toList ++ List.intercalate "__".toList (ns ++ [service, n])

/-! ## Definitions -/

mutual
/-- A message and those inside, with the namespaces they are in; entries of maps have nothing inside. -/
def msgDefs (ns : List Text) : MsgD → List (List Text × MsgD)
  | .mk name fields enums nested oneofs mapEntry =>
    (if mapEntry then [] else msgsDefs (ns ++ [name]) nested) ++ [(ns, .mk name fields enums nested oneofs mapEntry)]

/-- All messages of a list and those inside. -/
def msgsDefs (ns : List Text) : List MsgD → List (List Text × MsgD)
  | [] => []
  | m :: r => msgDefs ns m ++ msgsDefs ns r
end

/-- All messages of files; a file comes with the parts of the name of its package. -/
def messages (files : List (List Text × FileD)) : List (List Text × MsgD) := files.flatMap (fun x => msgsDefs x.1 x.2.messages)

mutual
/-- The enums in a message. -/
def msgEnums (ns : List Text) : MsgD → List (List Text × EnumD)
  | .mk name _ enums nested _ mapEntry =>
    if mapEntry then [] else enums.map (fun e => (ns ++ [name], e)) ++ msgsEnums (ns ++ [name]) nested

/-- The enums in messages. -/
def msgsEnums (ns : List Text) : List MsgD → List (List Text × EnumD)
  | [] => []
  | m :: r => msgEnums ns m ++ msgsEnums ns r
end

/-- All enums of files. -/
def enums (files : List (List Text × FileD)) : List (List Text × EnumD) :=
  files.flatMap (fun x => x.2.enums.map (fun e => (x.1, e)) ++ msgsEnums x.1 x.2.messages)

/-- All methods of files, with the name of the service. -/
def methods (files : List (List Text × FileD)) : List (List Text × Text × MethodD) :=
  files.flatMap (fun x => x.2.services.flatMap (fun s => s.methods.map (fun m => (x.1, s.name, m))))

/-- The files are as the compiler of protobuf gives them: packages are lists of names, names are proper, full names are
distinct, and entries of maps are used only where they are defined. -/
structure Files (files : List (List Text × FileD)) : Prop where
  package : ∀ x ∈ files, x.2.package = dotted x.1 ∧ ∀ t ∈ x.1, Proper t
  names : ∀ x ∈ messages files, (∀ t ∈ x.1, Proper t) ∧ Proper x.2.name
  distinct : ((messages files).map (fun x => x.1 ++ [x.2.name])).Nodup
  enumNames : ∀ x ∈ enums files, (∀ t ∈ x.1, Proper t) ∧ Proper x.2.name
  enumDistinct : ((enums files).map (fun x => x.1 ++ [x.2.name])).Nodup
  methodNames : ∀ x ∈ methods files, (∀ t ∈ x.1, Proper t) ∧ Proper x.2.1 ∧ Proper x.2.2.name
  kinds : ∀ x ∈ messages files, ∀ y ∈ enums files, x.1 ++ [x.2.name] ≠ y.1 ++ [y.2.name]
  methodDistinct : ((methods files).map (fun x => x.1 ++ [x.2.1, x.2.2.name])).Nodup
  maps : ∀ x ∈ messages files, x.2.mapEntry = true → ∀ y ∈ messages files, y.2.mapEntry = false → ∀ f ∈ y.2.fields,
    f.typeName = some ('.' :: dotted (x.1 ++ [x.2.name])) → x.2 ∈ y.2.nested ∧ x.1 = y.1 ++ [y.2.name]

/-- A message of a list, or inside one, with its path in the descriptor (as in `SourceCodeInfo` of protobuf) and its
namespace. -/
inductive Inside : List Nat → Nat → List Text → List MsgD → List Nat → List Text → MsgD → Prop
  | here {p : List Nat} {tag i : Nat} {ns : List Text} {l : List MsgD} {m : MsgD} : l[i]? = some m → Inside p tag ns l (p ++ [tag, i]) ns m
  | inside {p : List Nat} {tag i : Nat} {ns : List Text} {l : List MsgD} {m : MsgD} {p' : List Nat} {ns' : List Text} {m' : MsgD} :
      l[i]? = some m → m.mapEntry = false → Inside (p ++ [tag, i]) 3 (ns ++ [m.name]) m.nested p' ns' m' → Inside p tag ns l p' ns' m'

/-- A message of a file with its path and its namespace. -/
def MsgAt (x : List Text × FileD) (p : List Nat) (ns : List Text) (m : MsgD) : Prop := Inside [] 4 x.1 x.2.messages p ns m

/-- An enum of a file with its path and its namespace. -/
inductive EnumAt (x : List Text × FileD) : List Nat → List Text → EnumD → Prop
  | top {i : Nat} {e : EnumD} : x.2.enums[i]? = some e → EnumAt x [5, i] x.1 e
  | inside {p : List Nat} {ns : List Text} {m : MsgD} {i : Nat} {e : EnumD} : MsgAt x p ns m → m.mapEntry = false → m.enums[i]? = some e →
      EnumAt x (p ++ [4, i]) (ns ++ [m.name]) e

/-- A method of a file with its path and the name of its service. -/
def MethodAt (x : List Text × FileD) (p : List Nat) (service : Text) (m : MethodD) : Prop :=
  ∃ i j s, x.2.services[i]? = some s ∧ s.methods[j]? = some m ∧ p = [6, i, 2, j] ∧ service = s.name

/-- The type that a field of a message has for a name. -/
def wrapped : Label → Text → Ty
  | .optional, n => .named n false
  | .required, n => .named n true
  | .repeated, n => .list (.named n false) false

/-- The scalar for a type of protobuf; there is none for groups, messages and enums, which are named. -/
def scalarFor : Prim → Option Text
  | .double | .float => some "Float".toList
  | .int32 | .sint32 | .fixed32 | .sfixed32 => some "Int".toList
  | .int64 | .sint64 | .fixed64 | .sfixed64 => some "Int64".toList
  | .uint32 => some "UInt32".toList
  | .uint64 => some "UInt64".toList
  | .bool => some "Boolean".toList
  | .string => some "String".toList
  | .bytes => some "Bytes".toList
  | .group | .message | .enum => none

/-- The type a field should have: a scalar, the type of a message or an enum it refers to, or JSON for maps. -/
inductive FieldTy (files : List (List Text × FileD)) (f : FieldD) : Ty → Prop
  | scalar {n : Text} : f.typeName = none → scalarFor f.prim = some n → FieldTy files f (wrapped f.label n)
  | message {ns : List Text} {m : MsgD} : (ns, m) ∈ messages files → m.mapEntry = false → f.typeName = some ('.' :: dotted (ns ++ [m.name])) →
      FieldTy files f (wrapped f.label (typeName ns m.name))
  | map {ns : List Text} {m : MsgD} : (ns, m) ∈ messages files → m.mapEntry = true → f.typeName = some ('.' :: dotted (ns ++ [m.name])) →
      FieldTy files f (.named "JSON".toList false)
  | enum {ns : List Text} {e : EnumD} : (ns, e) ∈ enums files → f.typeName = some ('.' :: dotted (ns ++ [e.name])) →
      FieldTy files f (wrapped f.label (typeName ns e.name))

/-- The fields of a message are named, and have different names in the configuration. -/
structure FieldNames (camel : Text → Text) (m : MsgD) : Prop where
  words : ∀ f ∈ m.fields, Word f.name
  distinct : (m.fields.map (fun f => camel f.name)).Nodup

/-- A name is defined in the configuration. -/
def Defined (c : Cfg) (n : Text) : Prop := (∃ t, At c.types n t) ∨ (∃ u, At c.unions n u) ∨ (∃ e, At c.enums n e)

/-- All references begin with a dot, and the oneofs that are named exist. -/
structure Qualified (files : List (List Text × FileD)) : Prop where
  fields : ∀ x ∈ messages files, ∀ f ∈ x.2.fields, (∀ t, f.typeName = some t → ∃ r, t = '.' :: r) ∧ ∀ o, f.oneof = some o → o < x.2.oneofs
  methods : ∀ x ∈ methods files, (x.2.2.input = [] ∨ ∃ r, x.2.2.input = '.' :: r) ∧ ∃ r, x.2.2.output = '.' :: r

/-! ## Oneofs -/

/-- A field is the only one of its oneof. -/
def Alone (m : MsgD) (o : Nat) : Prop := (m.fields.filter (fun f => f.oneof = some o)).length = 1

/-- A choice of at most one field for each oneof, by its name in the configuration. -/
def Choice (camel : Text → Text) (m : MsgD) (pick : Nat → Option Text) : Prop :=
  ∀ o k, pick o = some k → ∃ f ∈ m.fields, f.oneof = some o ∧ camel f.name = k

/-- A type without its null. -/
def demanded : Ty → Ty
  | .named n _ => .named n true
  | .list t _ => .list t true

/-- A type is for a choice: it has the fields outside of oneofs, those that are alone in their oneof, and the chosen ones,
and of these the chosen ones are required. -/
structure Fits (files : List (List Text × FileD)) (camel : Text → Text) (m : MsgD) (pick : Nat → Option Text) (T : Typ) : Prop where
  known : ∀ k fd, At T.fields k fd → ∃ f ∈ m.fields, camel f.name = k
  present : ∀ f ∈ m.fields, (∃ fd, At T.fields (camel f.name) fd) ↔ ∀ o, f.oneof = some o → Alone m o ∨ pick o = some (camel f.name)
  chosen : ∀ f ∈ m.fields, ∀ o fd t, f.oneof = some o → ¬ Alone m o → At T.fields (camel f.name) fd → FieldTy files f t → fd.ty = demanded t
  plain : ∀ f ∈ m.fields, ∀ fd t, (∀ o, f.oneof = some o → Alone m o) → At T.fields (camel f.name) fd → FieldTy files f t → fd.ty = t

/-! ## Scalars -/

/-- The integers a type of protobuf has. -/
def inRange (p : Prim) (n : Int) : Prop :=
  match p with
  | .int32 | .sint32 | .sfixed32 => -2^31 ≤ n ∧ n < 2^31
  | .fixed32 | .uint32 => 0 ≤ n ∧ n < 2^32
  | .int64 | .sint64 | .sfixed64 => -2^63 ≤ n ∧ n < 2^63
  | .fixed64 | .uint64 => 0 ≤ n ∧ n < 2^64
  | _ => False

/-- The integers a scalar admits: `Int` by the GraphQL specification, the others as their names say. -/
def admits (scalar : Text) (n : Int) : Prop :=
  (scalar = "Int".toList ∧ -2^31 ≤ n ∧ n < 2^31) ∨ (scalar = "UInt32".toList ∧ 0 ≤ n ∧ n < 2^32) ∨
    (scalar = "Int64".toList ∧ -2^63 ≤ n ∧ n < 2^63) ∨ (scalar = "UInt64".toList ∧ 0 ≤ n ∧ n < 2^64)

end Verif.Proto
