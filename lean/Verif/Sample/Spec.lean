import Verif.Sample.Model
import Verif.Transform.Lemmas

/-!
# Specification: samples that can be asked for again
-/

namespace Verif.Sample

open Verif.Mustache (Text)
open Verif.HttpUrl (GVal RCtx)
open Verif.Transform (At)

/-- The values of a parameter, in order. -/
def values (pairs : List (Text × Text)) (k : Text) : List Text := (pairs.filter (fun x => x.1 = k)).map (·.2)

/-- A UUID in lower case. -/
def IsUuid (u : Text) : Prop :=
  ∃ a b c d e, u = a ++ ['-'] ++ b ++ ['-'] ++ c ++ ['-'] ++ d ++ ['-'] ++ e ∧ a.length = 8 ∧ b.length = 4 ∧ c.length = 4 ∧ d.length = 4 ∧ e.length = 12 ∧
    ∀ x ∈ a ++ b ++ c ++ d ++ e, x.isDigit = true ∨ x ∈ "abcdef".toList

/-- A text that starts with a number as a word. -/
def NumberLike (t : Text) : Prop :=
  ∃ d r, t = d ++ r ∧ d ≠ [] ∧ (∀ c ∈ d, c.isDigit = true) ∧ (r = [] ∨ ∃ c r', r = c :: r' ∧ c.isAlphanum = false ∧ c ≠ '_')

/-- A text that starts with a UUID. -/
def UuidLike (t : Text) : Prop := ∃ u r, IsUuid u ∧ t = u ++ r

/-- A character of ASCII that means nothing in URLs and templates. -/
def Quiet (c : Char) : Prop := c.toNat < 128 ∧ c ≠ '%' ∧ c ≠ '{' ∧ c ≠ '"' ∧ c ≠ '?' ∧ c ≠ '#'

/-- A part of a path: a number, a UUID, or a name. -/
inductive Part where
  | num (n : Nat)
  | id (u : Text)
  | name (t : Text)

/-- The text of a part. -/
def Part.text : Part → Text
  | .num n => (toString n).toList
  | .id u => u
  | .name t => t

/-- Numbers are those of GraphQL, UUIDs do not start with a number, names are neither. -/
def Part.Ok : Part → Prop
  | .num n => n < 2147483648
  | .id u => IsUuid u ∧ ∃ c ∈ u.take 8, c.isDigit = false
  | .name t => (∀ c ∈ t, Quiet c ∧ c ≠ '/') ∧ ¬ NumberLike t ∧ ¬ UuidLike t

/-- The value of a scalar type that has a text.  `printed` are the texts of numbers with a fraction. -/
inductive Written (printed : Text → Prop) : Text → Text → GVal → Prop
  | int {n : Int} : -2147483648 ≤ n → n < 2147483648 → Written printed "Int".toList (toString n).toList (.int n)
  | float {w : Text} : printed w → Written printed "Float".toList w (.float w)
  | bool {b : Bool} : Written printed "Boolean".toList (toString b).toList (.bool b)
  | str {w : Text} : Written printed "String".toList w (.str w)

/-- A value of the type of an argument. -/
def HasType (printed : Text → Prop) (t : ArgTy) (v : GVal) : Prop :=
  if t.list then ∃ l, v = .list l ∧ ∀ x ∈ l, ∃ w, Written printed t.name w x
  else ∃ w, Written printed t.name w v

/-- Every argument has a value of its type. -/
def Typed (printed : Text → Prop) (args : Args) (vals : List (Text × GVal)) : Prop :=
  ∀ n t, At args n t → ∃ v, At vals n v ∧ HasType printed t v

/-- The arguments have these values. -/
def Gives (ctx : RCtx) (vals : List (Text × GVal)) : Prop := ∀ n v, At vals n v → ∃ o, ctx.raw ["args".toList, n] = some (.value o v)

/-- A name of an argument in a template. -/
def Name (n : Text) : Prop := ∃ c cs, n = c :: cs ∧ c.isAlpha = true ∧ ∀ x ∈ cs, x.isAlphanum = true ∨ x = '_'

/-- Text without characters that are special in a query. -/
def Unspecial (t : Text) : Prop := ∀ c ∈ t, c ∉ ['&', '%', '+', '\t', '\n', '\r']

/-- A sample that can be asked for again: a path of parts, and parameters whose names give arguments of their own, and whose values are
those of one type. -/
structure Plain (printed : Text → Prop) (camel : Text → Text) (s : Sample) : Prop where
  front : ∀ c ∈ s.front, Quiet c
  path : ∃ parts : List Part, s.path = parts.flatMap (fun p => '/' :: p.text) ∧ ∀ p ∈ parts, p.Ok
  frag : ∀ f, s.frag = some f → ∀ c ∈ f, c.toNat < 128 ∧ c ≠ '%' ∧ c ≠ '{' ∧ c ≠ '"'
  keys : ∀ x ∈ s.pairs, x.1 ≠ [] ∧ Unspecial x.1 ∧ '=' ∉ x.1
  names : ∀ x ∈ s.pairs, Name (camel x.1) ∧ ∀ i : Nat, camel x.1 ≠ "GEN__".toList ++ (toString i).toList
  apart : ∀ x ∈ s.pairs, ∀ y ∈ s.pairs, camel x.1 = camel y.1 → x.1 = y.1
  texts : ∀ x ∈ s.pairs, Unspecial x.2 ∧ ',' ∉ x.2
  types : ∀ k v r, values s.pairs k = v :: r → ∀ w ∈ v :: r, ∃ x, Written printed (detect v) w x

end Verif.Sample
