import Verif.Scalar.Model

/-!
# What the documentation says of custom scalars

Written without the functions that check values: numbers by the value of their digits at their
places, types by their widths.
-/

namespace Verif.Scalar

open Mustache (Text)

/-- The value of a row of decimal digits, the last of which counts once: the sum of the digits, each
times the power of ten of its place. -/
def placeValue : List Char → Nat
  | [] => 0
  | c :: cs => (c.toNat - 48) * 10 ^ cs.length + placeValue cs

/-- A decimal digit. -/
def IsDigit (c : Char) : Prop := c ∈ ['0', '1', '2', '3', '4', '5', '6', '7', '8', '9']

/-- The text is a whole number in decimal notation, with a sign or without. -/
inductive Denotes : Text → Int → Prop where
  | plain (ds : Text) : ds ≠ [] → (∀ c ∈ ds, IsDigit c) → Denotes ds (placeValue ds)
  | plus (ds : Text) : ds ≠ [] → (∀ c ∈ ds, IsDigit c) → Denotes ('+' :: ds) (placeValue ds)
  | minus (ds : Text) : ds ≠ [] → (∀ c ∈ ds, IsDigit c) → Denotes ('-' :: ds) (-(placeValue ds : Int))

/-- The scalars of whole numbers: whether there are negative ones, and how many bits. -/
def widthOf : Scalar → Option (Bool × Nat)
  | .int8 => some (true, 8)
  | .int16 => some (true, 16)
  | .int32 => some (true, 32)
  | .int64 => some (true, 64)
  | .int128 => some (true, 128)
  | .uint8 => some (false, 8)
  | .uint16 => some (false, 16)
  | .uint32 => some (false, 32)
  | .uint64 => some (false, 64)
  | .uint128 => some (false, 128)
  | _ => none

/-- The numbers of so many bits. -/
def InRange (signed : Bool) (bits : Nat) (n : Int) : Prop :=
  if signed = true then -(2 : Int) ^ (bits - 1) ≤ n ∧ n < (2 : Int) ^ (bits - 1) else 0 ≤ n ∧ n < (2 : Int) ^ bits

/-- The value is the number `n`. -/
inductive IsNumber : Val → Int → Prop where
  | pos (n : Nat) : IsNumber (.num (.pos n)) n
  | neg (n : Int) : IsNumber (.num (.neg n)) n

/-- The numbers of a value that came from JSON: those of 64 bits. -/
def Fits : Val → Prop
  | .num (.pos n) => n < 2 ^ 64
  | .num (.neg n) => -(2 : Int) ^ 63 ≤ n ∧ n < 0
  | _ => True

/-- A date of RFC 3339: four digits, two and two, with hyphens between. -/
def FullDate (t : Text) : Prop :=
  ∃ a b c d e f g h : Char, (∀ x ∈ [a, b, c, d, e, f, g, h], IsDigit x) ∧
    t = [a, b, c, d, '-', e, f, '-', g, h]

/-- What the documentation says of the values of a scalar (comments in scalar.rs:22-75); numbers of
more than 32 bits are texts, as the tests of that file have it. -/
def Documented (f : Formats) (v : Val) : Scalar → Prop
  | .empty => v = .null
  | .email => ∃ t, v = .str t ∧ f.email t = true
  | .phoneNumber => ∃ t, v = .str t ∧ f.phone t = true
  | .date => ∃ t, v = .str t ∧ FullDate t
  | .dateTime => ∃ t, v = .str t ∧ f.rfc3339 t = true
  | .url => ∃ t, v = .str t ∧ f.url t = true
  | .json => True
  | .bytes => ∃ t, v = .str t
  | s => ∃ sg bits, widthOf s = some (sg, bits) ∧
      ((bits ≤ 32 ∧ ∃ n, IsNumber v n ∧ InRange sg bits n) ∨
       (32 < bits ∧ ∃ t n, v = .str t ∧ Denotes t n ∧ InRange sg bits n))

/-- The texts that begin with a minus. -/
def HasMinus (t : Text) : Prop := ∃ ds, t = '-' :: ds

/-- The value is no text with a minus for zero. -/
def NoMinusZero : Val → Prop
  | .str t => ¬ (HasMinus t ∧ Denotes t 0)
  | _ => True

end Verif.Scalar
