import Verif.Edge.Model

/-!
# What clients of the servers on AWS Lambda and on Cloudflare rely on
-/

namespace Verif.Edge

open Verif.Mustache (Text)
open Verif.Sdl (V)
open Verif.Load (Io Cfg Ext isUrl isAbsolute)

/-- The methods of HTTP. -/
def Standard (m : String) : Prop :=
  m = "GET" ∨ m = "HEAD" ∨ m = "POST" ∨ m = "PUT" ∨ m = "DELETE" ∨ m = "CONNECT" ∨ m = "OPTIONS" ∨ m = "TRACE" ∨ m = "PATCH"

/-- A part of a URI that none of the characters that end a part occurs in. -/
def Plain (bad : List Char) (t : Text) : Prop := ∀ c ∈ t, c ∉ bad

/-- The query as it stands in a URI. -/
def queryText : Option Text → Text
  | none => []
  | some q => '?' :: q

/-- The text is a URI with this authority, path and query. -/
def Says (uri authority path : Text) (query : Option Text) : Prop :=
  ∃ scheme, Plain [':'] scheme ∧ Plain ['/', '?', '#'] authority ∧ (∃ r, path = '/' :: r) ∧ Plain ['?', '#'] path ∧
    (∀ q, query = some q → Plain ['#'] q) ∧
    uri = scheme ++ [':', '/', '/'] ++ authority ++ path ++ queryText query

/-- Nothing of the environment is mentioned in a text. -/
def NoEnv (t : Text) : Prop := ∀ r, .expr ("env".toList :: r) ∉ Verif.Mustache.parse t

/-- A link to something that is not on this machine: a URL or relative, and not a proto file. -/
def Remote (l : Verif.Load.Link) : Prop := (isUrl l.src = true ∨ isAbsolute l.src = false) ∧ l.kind ≠ .protobuf

/-- A value that is written the same way in GraphQL and in JSON: no names of enum values, no objects with fields, no
numbers with a fraction, and no control characters but line ends and tabs. -/
inductive Flat : V → Prop
  | null : Flat .null
  | bool (b : Bool) : Flat (.bool b)
  | int (n : Int) : Flat (.int n)
  | str {s : Text} (h : ∀ c ∈ s, c = '\n' ∨ c = '\r' ∨ c = '\t' ∨ (32 ≤ c.toNat ∧ c.toNat < 127) ∨ 160 ≤ c.toNat) : Flat (.str s)
  | arr {l : List V} (h : ∀ v ∈ l, Flat v) : Flat (.arr l)

end Verif.Edge
