import Verif.Exec.Model
import Verif.Merge.Model

/-!
# Model of the generation of a configuration from sample responses

Source: src/core/generator/json/types_generator.rs, src/core/generator/json/operation_generator.rs and
src/core/helpers/gql_type.rs.
-/

namespace Verif.Gen

open Verif.Mustache (Text)
open Verif.Exec (Ty)
open Verif.Merge (get)

/-- `serde_json::Value` (external crate, used at json/types_generator.rs:1).  Of a number that is not an integer
nothing is kept. -/
inductive J where
  | null
  | bool (b : Bool)
  | int (i : Int)
  | float
  | str (s : Text)
  | arr (l : List J)
  | obj (kvs : List (Text × J))

/-- The fields of a type: `BTreeMap<String, Field>`, of a field only its type (json/types_generator.rs:31-52).  The
order is not observable. -/
abbrev Fields := List (Text × Ty)

/-- `BTreeMap::insert` (standard library, used at json/types_generator.rs:44). -/
def put {V : Type} (k : Text) (v : V) : List (Text × V) → List (Text × V)
  | [] => [(k, v)]
  | (k', v') :: r => if k' = k then (k, v) :: r else (k', v') :: put k v r

/-- The types of the configuration and the counter of the names (generator/mod.rs:16-30). -/
structure St where
  counter : Nat
  types : List (Text × Fields)

/-- The name with a number (generator/mod.rs:26-29). -/
def nameOf (pre : Text) (n : Nat) : Text := pre ++ Nat.toDigits 10 n

/-- `NameGenerator::next` and `config.types.insert` (generator/mod.rs:26-29, json/types_generator.rs:128-132). -/
def addType (pre : Text) (fs : Fields) (st : St) : Text × St :=
  (nameOf pre st.counter, ⟨st.counter + 1, put (nameOf pre st.counter) fs st.types⟩)

/-- An ASCII letter (helpers/gql_type.rs:22). -/
def letter (c : Char) : Bool := ('a' ≤ c && c ≤ 'z') || ('A' ≤ c && c ≤ 'Z')

/-- An ASCII letter, a digit or an underscore (helpers/gql_type.rs:22). -/
def wordChar (c : Char) : Bool := letter c || ('0' ≤ c && c ≤ '9') || c == '_'

/-- `is_valid_field_name` (helpers/gql_type.rs:21-24). -/
def validName : Text → Bool
  | [] => false
  | c :: r => letter c && r.all wordChar

/-- `is_graphql_compatible` (json/types_generator.rs:15-27). -/
def compat : J → Bool
  | .arr l => !l.isEmpty
  | .obj kvs => !kvs.isEmpty && !kvs.any (fun kv => !validName kv.1)
  | _ => true

/-- `Scalar::JSON` (scalar.rs:44, json/types_generator.rs:65-71). -/
def jsonName : Text := "JSON".toList

/-- `to_gql_type` (helpers/gql_type.rs:26-40). -/
def toGqlType : J → Text
  | .null => jsonName
  | .bool _ => "Boolean".toList
  | .int _ => "Int".toList
  | .float => "Int".toList
  | .str _ => "String".toList
  | .arr _ => "List".toList
  | .obj _ => "Object".toList

/-- `is_primitive` (helpers/gql_type.rs:42-45). -/
def isPrimitive (v : J) : Bool := toGqlType v != "List".toList && toGqlType v != "Object".toList

/-- `into_list` for arrays (json/types_generator.rs:93-97, json/operation_generator.rs:24-28, wrapping_type.rs:81-83). -/
def listed (v : J) (t : Text) : Ty :=
  match v with
  | .arr _ => .list (.named t false) false
  | _ => .named t false

/-- One field of `merge_fields` (json/types_generator.rs:37-49). -/
def mergeField (acc : Fields) (kt : Text × Ty) : Fields :=
  match get kt.1 acc with
  | none => put kt.1 kt.2 acc
  | some old =>
    if old.name.isEmpty || old.name == "Empty".toList || (old.name == jsonName && kt.2.name != "Empty".toList) then
      put kt.1 kt.2 acc
    else acc

/-- `merge_fields` (json/types_generator.rs:33-52). -/
def mergeFields (ts : List Fields) : Fields := ts.foldl (fun acc t => t.foldl mergeField acc) []

mutual
/-- `generate_types` (json/types_generator.rs:104-153). -/
def genType (pre : Text) : J → St → Text × St
  | .arr l, st => genItems pre l [] st
  | .obj kvs, st =>
    if !compat (.obj kvs) then (jsonName, st)
    else
      let r := genFields pre kvs [] st
      addType pre r.1 r.2
  | .null, st => (toGqlType .null, st)
  | .bool b, st => (toGqlType (.bool b), st)
  | .int i, st => (toGqlType (.int i), st)
  | .float, st => (toGqlType .float, st)
  | .str s, st => (toGqlType (.str s), st)
/-- The loop over the items of an array (json/types_generator.rs:114-136). -/
def genItems (pre : Text) : List J → List Fields → St → Text × St
  | [], acc, st => if acc.isEmpty then (jsonName, st) else addType pre (mergeFields acc) st
  | .obj kvs :: l, acc, st =>
    if !compat (.obj kvs) then (jsonName, st)
    else
      let r := genFields pre kvs [] st
      genItems pre l (acc ++ [r.1]) r.2
  | v :: _, _, st => genType pre v st
/-- `create_type_from_object` (json/types_generator.rs:73-102). -/
def genFields (pre : Text) : List (Text × J) → Fields → St → Fields × St
  | [], acc, st => (acc, st)
  | p :: r, acc, st =>
    let x := genField pre p st
    genFields pre r (put p.1 x.1 acc) x.2
/-- One field of an object (json/types_generator.rs:79-97). -/
def genField (pre : Text) : Text × J → St → Ty × St
  | (_, v), st =>
    if !compat v then (listed v jsonName, st)
    else if isPrimitive v then (listed v (toGqlType v), st)
    else
      let r := genType pre v st
      (listed v r.1, r.2)
end

/-- The type of the operation's field and, for mutations, of the argument with the body
(json/types_generator.rs:172-183, json/operation_generator.rs:14-59). -/
structure Op where
  ty : Ty
  body : Option Ty

/-- `GraphQLTypesGenerator::transform` and `OperationTypeGenerator::generate` as far as types go
(json/types_generator.rs:172-183, json/operation_generator.rs:14-76): `req` is the body of the request of a
mutation. -/
def genOp (pre : Text) (res : J) (req : Option J) (st : St) : Op × St :=
  let r := genType pre res st
  match req with
  | none => (⟨listed res r.1, none⟩, r.2)
  | some b =>
    let s := genType pre b r.2
    (⟨listed res r.1, some (.named s.1 false)⟩, s.2)

end Verif.Gen
