import Verif.Merge.Model

/-!
# Values and their conversions in configuration files

Source: src/core/directive.rs, src/core/config/directive.rs and the derived serde code of the directives under
src/core/config/directives.
-/

namespace Verif.Sdl

open Verif.Mustache (Text)
open Verif.Merge (get)

/-- `serde_json::Value` (external crate, used at directive.rs:4).  A number that is not an integer is the text of its
digits. -/
inductive J where
  | null
  | bool (b : Bool)
  | int (i : Int)
  | float (t : Text)
  | str (s : Text)
  | arr (l : List J)
  | obj (kvs : List (Text × J))

/-- `async_graphql_value::ConstValue` (external crate, used at config/from_document.rs:10).  Binary values, which
neither documents nor JSON have, are left out. -/
inductive V where
  | null
  | bool (b : Bool)
  | int (i : Int)
  | float (t : Text)
  | str (s : Text)
  | enum (s : Text)
  | arr (l : List V)
  | obj (kvs : List (Text × V))

mutual
/-- `ConstValue::from_json` and `serde_json::from_value` to a `ConstValue` (external crate, used at directive.rs:78-80,
config/directive.rs:23 and config/into_document.rs:11-13). -/
def ofJson : J → V
  | .null => .null
  | .bool b => .bool b
  | .int i => .int i
  | .float t => .float t
  | .str s => .str s
  | .arr l => .arr (ofJsons l)
  | .obj kvs => .obj (ofFields kvs)
/-- The items of `ofJson` (external crate, used at directive.rs:78-80). -/
def ofJsons : List J → List V
  | [] => []
  | x :: r => ofJson x :: ofJsons r
/-- The entries of `ofJson` (external crate, used at directive.rs:78-80). -/
def ofFields : List (Text × J) → List (Text × V)
  | [] => []
  | p :: r => ofField p :: ofFields r
/-- One entry of `ofJson` (external crate, used at directive.rs:78-80). -/
def ofField : Text × J → Text × V
  | (k, x) => (k, ofJson x)
end

mutual
/-- `ConstValue::into_json` and `serde_json::to_value` of a `ConstValue` (external crate, used at directive.rs:48-53,
config/directive.rs:36 and config/from_document.rs:320-323): enum values become strings. -/
def toJson : V → J
  | .null => .null
  | .bool b => .bool b
  | .int i => .int i
  | .float t => .float t
  | .str s => .str s
  | .enum s => .str s
  | .arr l => .arr (toJsons l)
  | .obj kvs => .obj (toFields kvs)
/-- The items of `toJson` (external crate, used at directive.rs:48-53). -/
def toJsons : List V → List J
  | [] => []
  | x :: r => toJson x :: toJsons r
/-- The entries of `toJson` (external crate, used at directive.rs:48-53). -/
def toFields : List (Text × V) → List (Text × J)
  | [] => []
  | p :: r => toField p :: toFields r
/-- One entry of `toJson` (external crate, used at directive.rs:48-53). -/
def toField : Text × V → Text × J
  | (k, x) => (k, toJson x)
end

/-- `Map::insert` and `BTreeMap::insert` (external crates, used at directive.rs:56-59); the order is not observable. -/
def put {V : Type} (k : Text) (v : V) : List (Text × V) → List (Text × V)
  | [] => [(k, v)]
  | (k', v') :: r => if k' = k then (k, v) :: r else (k', v') :: put k v r

/-- A map made of a list of entries: the last of equal keys counts (directive.rs:55-60). -/
def build {V : Type} (l : List (Text × V)) : List (Text × V) := l.foldl (fun m p => put p.1 p.2 m) []

/-- `BTreeSet::insert` (standard library, used at config/from_document.rs:357); the order is not observable. -/
def put1 {α : Type} [DecidableEq α] (x : α) (l : List α) : List α := if x ∈ l then l else l ++ [x]

/-- A set made of a list (config/from_document.rs:357). -/
def setOf {α : Type} [DecidableEq α] (l : List α) : List α := l.foldl (fun m x => put1 x m) []

/-! ## Derived conversions -/

/-- The serialized fields of a struct: those that are not skipped (`skip_serializing_if`, as at
config/directives/http.rs:32-33). -/
def keep (l : List (Text × Option J)) : List (Text × J) := l.filterMap (fun p => p.2.map (p.1, ·))

/-- A field that is skipped if it is the default (`is_default`, mod.rs:109-111). -/
def skip (isDefault : Bool) (j : J) : Option J := if isDefault then none else some j

/-- A field without a default must be there (as at config/directives/http.rs:39). -/
def need {α : Type} (m : List (Text × J)) (k : Text) (d : J → Option α) : Option α := (get k m).bind d

/-- A field with a default (`serde(default)`, as at config/directives/http.rs:32-33). -/
def maybe {α : Type} (m : List (Text × J)) (k : Text) (d : J → Option α) (dflt : α) : Option α :=
  match get k m with
  | none => some dflt
  | some j => d j

/-- `serde(deny_unknown_fields)` (as at config/directives/http.rs:24). -/
def known (m : List (Text × J)) (ks : List Text) : Option Unit := if m.all (fun p => ks.contains p.1) then some () else none

/-- The entries of an object; a struct can be read from an object only (that serde also reads structs from arrays is
left out; external crate, used at directive.rs:61). -/
def fieldsOf : J → Option (List (Text × J))
  | .obj m => some m
  | _ => none

/-- Reading a `String` (external crate, used at directive.rs:61). -/
def dText : J → Option Text
  | .str s => some s
  | _ => none

/-- Reading a `bool` (external crate, used at directive.rs:61). -/
def dBool : J → Option Bool
  | .bool b => some b
  | _ => none

/-- Reading an unsigned integer below `n` (external crate, used at directive.rs:61). -/
def dFin (n : Nat) : J → Option (Fin n)
  | .int i => if h : 0 ≤ i ∧ i.toNat < n then some ⟨i.toNat, h.2⟩ else none
  | _ => none

/-- Writing an unsigned integer (external crate, used at directive.rs:71). -/
def eFin {n : Nat} (x : Fin n) : J := .int x.val

/-- `i64` (as at config/directives/server.rs:59). -/
abbrev I64 := {i : Int // -(2 ^ 63) ≤ i ∧ i < 2 ^ 63}

/-- Reading an `i64` (external crate, used at directive.rs:61). -/
def dI64 : J → Option I64
  | .int i => if h : -(2 ^ 63) ≤ i ∧ i < 2 ^ 63 then some ⟨i, h⟩ else none
  | _ => none

/-- `NonZeroU64` (as at config/directives/cache.rs:26). -/
abbrev Pos64 := {i : Fin (2 ^ 64) // i.val ≠ 0}

/-- Reading a `NonZeroU64` (external crate, used at directive.rs:61). -/
def dPos (j : J) : Option Pos64 := (dFin (2 ^ 64) j).bind fun i => if h : i.val ≠ 0 then some ⟨i, h⟩ else none

/-- All or none (external crate, used at directive.rs:61). -/
def allOf {α : Type} (d : J → Option α) : List J → Option (List α)
  | [] => some []
  | j :: r => match d j, allOf d r with
    | some a, some l => some (a :: l)
    | _, _ => none

/-- Reading a `Vec` (external crate, used at directive.rs:61). -/
def dList {α : Type} (d : J → Option α) : J → Option (List α)
  | .arr l => allOf d l
  | _ => none

/-- Writing a `Vec` (external crate, used at directive.rs:71). -/
def eList {α : Type} (e : α → J) (l : List α) : J := .arr (l.map e)

/-- Reading an `Option`: null is none (external crate, used at directive.rs:61). -/
def dOpt {α : Type} (d : J → Option α) : J → Option (Option α)
  | .null => some none
  | j => (d j).map some

/-- Writing an `Option` (external crate, used at directive.rs:71). -/
def eOpt {α : Type} (e : α → J) : Option α → J
  | none => .null
  | some a => e a

/-- Reading a `BTreeSet<String>` (external crate, used at directive.rs:61). -/
def dSet (j : J) : Option (List Text) := (dList dText j).map setOf

/-- Writing strings (external crate, used at directive.rs:71). -/
def eTexts (l : List Text) : J := eList .str l

/-- Reading a `BTreeMap<String, Value>` (external crate, used at directive.rs:61). -/
def dMap : J → Option (List (Text × J))
  | .obj m => some (build m)
  | _ => none

end Verif.Sdl
