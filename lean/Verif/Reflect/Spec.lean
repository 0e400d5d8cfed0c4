import Verif.Reflect.Model
import Verif.Mustache.Props
import Verif.Transform.Lemmas

/-!
# Specification: what is asked of a server with reflection, and what it answers
-/

namespace Verif.Reflect

open Verif.Mustache (Text NoBraces)
open Verif.Transform (At)
open Verif.Load (PFile)

/-- The variables of the environment, as `env` in templates. -/
def Vars (env : Text → Option Text) : Verif.Mustache.Ctx :=
  fun ps => if ps.head? = some ['e', 'n', 'v'] then (ps[1]?).bind env else none

/-- A text with its templates filled from the environment. -/
def Filled (env : Text → Option Text) (t : Text) : Text := Verif.Mustache.render (Verif.Mustache.parse t) (Vars env)

/-- A template names `env` without a variable. -/
def NamesNoVar (t : Text) : Prop := Verif.Mustache.Seg.expr [['e', 'n', 'v']] ∈ Verif.Mustache.parse t

/-- A header may have the name: one character or more, all of a token. -/
def GoodName (k : Text) : Prop :=
  k ≠ [] ∧ ∀ c ∈ k, c.isAlphanum = true ∨
    c ∈ ['!', '#', '$', '%', '&', '\'', '*', '+', '-', '.', '^', '_', '`', '|', '~']

/-- A header may have the value: no control characters but the tab. -/
def GoodValue (v : Text) : Prop := ∀ c ∈ v, c = '\t' ∨ (32 ≤ c.toNat ∧ c.toNat ≠ 127)

/-- The last of the headers with the name (in lower case) that may have its value has the value. -/
def Carries (env : Text → Option Text) (hs : List (Text × Text)) (k v : Text) : Prop :=
  ∃ before k' t after, hs = before ++ (k', t) :: after ∧ k'.map Char.toLower = k ∧ v = Filled env t ∧ GoodValue v ∧
    ∀ h ∈ after, h.1.map Char.toLower = k → ¬ GoodValue (Filled env h.2)

/-- The endpoint of reflection at the server of a URL: the same server and query. -/
def Endpoint (u : Url) : Url :=
  ⟨u.base, "grpc.reflection.v1alpha.ServerReflection/ServerReflectionInfo".toList, u.query⟩

/-- The source of a link is a URL without templates, and its endpoint is read as it is written. -/
structure PlainUrl (lib : Lib) (l : Link) (u : Url) : Prop where
  parses : lib.url l.src = some u
  plain : NoBraces (printUrl (Endpoint u))
  again : lib.url (printUrl (Endpoint u)) = some (Endpoint u)

/-- The headers of the link. -/
def headersOf (l : Link) : List (Text × Text) := l.headers.getD []

/-- All headers of the link have names that headers may have, and no value names `env` without a variable. -/
def GoodHeaders (l : Link) : Prop := ∀ h ∈ headersOf l, GoodName h.1 ∧ ¬ NamesNoVar h.2

/-- What a question is about. -/
inductive About : Ask → Text → Prop
  | services : About .services []
  | symbol {n : Text} : About (.symbol n) n
  | file {n : Text} : About (.file n) n

/-- The server answers the question: the request of the client for it gets a frame with the answer. -/
def Answers (lib : Lib) (env : Text → Option Text) (up : Req → Option (List UInt8)) (l : Link) (a : Ask) (r : Answer) : Prop :=
  ∃ q head body, request lib env l a = .ok q ∧ up q = some (head ++ body) ∧ head.length = 5 ∧ lib.answer body = some r

/-- A server at an endpoint that answers questions, whatever the headers, with a frame of five bytes before
the message. -/
def Serves (lib : Lib) (up : Req → Option (List UInt8)) (u : Url) (sv : Ask → Option Answer) : Prop :=
  ∀ q, q.url = Endpoint u → ∀ r, sv q.ask = some r →
    ∃ head body, up q = some (head ++ body) ∧ head.length = 5 ∧ lib.answer body = some r

end Verif.Reflect
