import Verif.Mustache.Model

/-!
# Custom scalars: which values a field of a scalar type lets pass

`scalar.rs`, its use when a request is planned (jit/builder.rs:226-234) and when a response is built
(jit/synth/synth.rs:155-168), and `str::parse` of the standard library for whole numbers.  The
formats of external crates (e-mail addresses, telephone numbers, times, URLs) are parameters.
-/

namespace Verif.Scalar

open Mustache (Text)

/-- `serde_json::Number` (external crate, used at json/graphql.rs:103-115): a number that is not negative and fits into 64 bits, a
negative one that does, or any other, of which only the text is kept. -/
inductive Num where
  | pos (n : Nat)
  | neg (n : Int)
  | float (t : Text)
deriving DecidableEq, Repr

/-- Values of responses as `JsonLike` sees them (json/json_like.rs:40-64). -/
inductive Val where
  | null
  | bool (b : Bool)
  | num (n : Num)
  | str (t : Text)
  | list (vs : List Val)
  | obj (fs : List (Text × Val))
deriving Repr

/-- `JsonLike::as_str` (json/graphql.rs:96-101). -/
def Val.asStr : Val → Option Text
  | .str t => some t
  | _ => none

/-- `JsonLike::as_i64` (json/graphql.rs:103-108) and `Number::as_i64` of the external crate: numbers
that fit into 64 bits with a sign. -/
def Val.asI64 : Val → Option Int
  | .num (.pos n) => if n < 2 ^ 63 then some (n : Int) else none
  | .num (.neg n) => some n
  | _ => none

/-- `JsonLike::as_u64` (json/graphql.rs:110-115) and `Number::as_u64` of the external crate. -/
def Val.asU64 : Val → Option Nat
  | .num (.pos n) => some n
  | _ => none

/-- `Scalar` (scalar.rs:21-76). -/
inductive Scalar where
  | empty | email | phoneNumber | date | dateTime | url | json
  | int8 | int16 | int32 | int64 | int128
  | uint8 | uint16 | uint32 | uint64 | uint128
  | bytes
deriving DecidableEq, Repr

/-- `Scalar::iter` (derived, scalar.rs:19): the variants in their order. -/
def Scalar.all : List Scalar :=
  [.empty, .email, .phoneNumber, .date, .dateTime, .url, .json,
   .int8, .int16, .int32, .int64, .int128, .uint8, .uint16, .uint32, .uint64, .uint128, .bytes]

/-- `Scalar::name` (scalar.rs:149-151), the derived `Display` (scalar.rs:19). -/
def Scalar.name : Scalar → Text
  | .empty => "Empty".toList
  | .email => "Email".toList
  | .phoneNumber => "PhoneNumber".toList
  | .date => "Date".toList
  | .dateTime => "DateTime".toList
  | .url => "Url".toList
  | .json => "JSON".toList
  | .int8 => "Int8".toList
  | .int16 => "Int16".toList
  | .int32 => "Int32".toList
  | .int64 => "Int64".toList
  | .int128 => "Int128".toList
  | .uint8 => "UInt8".toList
  | .uint16 => "UInt16".toList
  | .uint32 => "UInt32".toList
  | .uint64 => "UInt64".toList
  | .uint128 => "UInt128".toList
  | .bytes => "Bytes".toList

/-- `PREDEFINED_SCALARS` (scalar.rs:11). -/
def predefined : List Text := ["Boolean".toList, "Float".toList, "ID".toList, "Int".toList, "String".toList]

/-- `Scalar::find` (scalar.rs:146-148) in the map of scalar.rs:14-15; a later variant of the same
name would replace an earlier one, which does not happen since the names differ. -/
def find (name : Text) : Option Scalar := Scalar.all.find? fun s => s.name == name

/-- `Scalar::is_predefined` (scalar.rs:109-115). -/
def isPredefined (name : Text) : Bool := predefined.any (fun v => name == v) || (find name).isSome

/-- `char::to_digit(10)` (standard library), used by `str::parse` at scalar.rs:132-135. -/
def digitOf (c : Char) : Option Nat :=
  if '0'.toNat ≤ c.toNat ∧ c.toNat ≤ '9'.toNat then some (c.toNat - '0'.toNat) else none

/-- The digits of a number that is not negative: each step multiplies and adds, and stops when the
result leaves the type (standard library, `from_str_radix`, used at scalar.rs:132-135). -/
def parseUp (hi : Int) : List Char → Int → Option Int
  | [], acc => some acc
  | c :: cs, acc =>
    match digitOf c with
    | none => none
    | some d =>
      if acc * 10 ≤ hi then
        if acc * 10 + d ≤ hi then parseUp hi cs (acc * 10 + d) else none
      else none

/-- The digits of a negative number: each step multiplies and subtracts (standard library,
`from_str_radix`, used at scalar.rs:132, 134). -/
def parseDown (lo : Int) : List Char → Int → Option Int
  | [], acc => some acc
  | c :: cs, acc =>
    match digitOf c with
    | none => none
    | some d =>
      if lo ≤ acc * 10 then
        if lo ≤ acc * 10 - d then parseDown lo cs (acc * 10 - d) else none
      else none

/-- `str::parse` for a type of whole numbers (standard library, used at scalar.rs:132-135): no text
and a sole sign are errors, a minus is only a sign if the type has negative numbers.  The standard
library leaves out the checks for short texts, which cannot overflow. -/
def parseInt (signed : Bool) (lo hi : Int) : Text → Option Int
  | [] => none
  | c :: cs =>
    if (c = '+' ∨ c = '-') ∧ cs = [] then none
    else if c = '+' then parseUp hi cs 0
    else if c = '-' ∧ signed = true then parseDown lo cs 0
    else parseUp hi (c :: cs) 0

/-- The formats of external crates (scalar.rs:121-129): `email` of async-graphql, `phonenumber`,
`parse_from_rfc3339` of chrono and `Url::parse`. -/
structure Formats where
  email : Text → Bool
  phone : Text → Bool
  rfc3339 : Text → Bool
  url : Text → Bool

/-- `eval_str` (scalar.rs:78-80). -/
def evalStr (v : Val) (f : Text → Bool) : Bool := v.asStr.elim false f

/-- `eval_signed` with `try_from` of a type with the given limits (scalar.rs:82-92). -/
def evalSigned (v : Val) (lo hi : Int) : Bool := v.asI64.elim false fun n => decide (lo ≤ n ∧ n ≤ hi)

/-- `eval_unsigned` with `try_from` of a type with the given limit (scalar.rs:94-104). -/
def evalUnsigned (v : Val) (hi : Nat) : Bool := v.asU64.elim false fun n => decide (n ≤ hi)

/-- `Scalar::validate` (scalar.rs:117-145). -/
def validate (f : Formats) (v : Val) : Scalar → Bool
  | .json => true
  | .empty => true
  | .email => evalStr v f.email
  | .phoneNumber => evalStr v f.phone
  | .date => evalStr v f.rfc3339
  | .dateTime => evalStr v f.rfc3339
  | .url => evalStr v f.url
  | .bytes => v.asStr.isSome
  | .int64 => evalStr v fun s => (parseInt true (-9223372036854775808) 9223372036854775807 s).isSome
  | .uint64 => evalStr v fun s => (parseInt false 0 18446744073709551615 s).isSome
  | .int128 => evalStr v fun s =>
      (parseInt true (-170141183460469231731687303715884105728) 170141183460469231731687303715884105727 s).isSome
  | .uint128 => evalStr v fun s => (parseInt false 0 340282366920938463463374607431768211455 s).isSome
  | .int8 => evalSigned v (-128) 127
  | .int16 => evalSigned v (-32768) 32767
  | .int32 => evalSigned v (-2147483648) 2147483647
  | .uint8 => evalUnsigned v 255
  | .uint16 => evalUnsigned v 65535
  | .uint32 => evalUnsigned v 4294967295

/-- `Index::type_is_scalar` (blueprint/index.rs:37-41); `declared` are the scalars among the
definitions. -/
def typeIsScalar (declared : List Text) (name : Text) : Bool := declared.contains name || isPredefined name

/-- The scalar of a planned field (jit/builder.rs:226-234). -/
def nodeScalar (declared : List Text) (name : Text) : Option Scalar :=
  if typeIsScalar declared name then some ((find name).getD .empty) else none

/-- The check of a value in a response that is not null (jit/synth/synth.rs:155-168): `none` if the
field is of no scalar type, else whether the value passes. -/
def passes (f : Formats) (declared : List Text) (name : Text) (v : Val) : Option Bool :=
  (nodeScalar declared name).map (validate f v)

end Verif.Scalar
