import Verif.Settings.Model

/-!
# What settings have to do

What can be wrong in the settings is listed one by one; settings without any of that are accepted, and the others are
refused with all that is wrong.
-/

namespace Verif.Settings

open Verif.Mustache (Text)

/-- A text in lower case. -/
def small (t : Text) : Text := t.map Char.toLower

/-- The characters of a header name. -/
def NameChar (c : Char) : Prop := c.isAlphanum = true ∨ c ∈ "!#$%&'*+-.^_`|~".toList

/-- A name that a header can have. -/
def HeaderNameOk (t : Text) : Prop := t ≠ [] ∧ ∀ c ∈ t, NameChar c

/-- A value that a header can have: no control characters other than tabs. -/
def HeaderValueOk (t : Text) : Prop := ∀ c ∈ t, c = '\t' ∨ (32 ≤ c.toNat ∧ c.toNat ≠ 127)

/-- The headers of all responses that a configuration has. -/
def customHeaders (c : Conf) : List (Text × Text) :=
  match c.headers with
  | none => []
  | some h => h.custom

/-- The experimental headers that a configuration has. -/
def experimentalHeaders (c : Conf) : List Text :=
  match c.headers with
  | some ⟨_, _, some l, _, _⟩ => l
  | _ => []

/-- All that can be wrong in settings, and where it is reported. -/
inductive Wrong {Addr : Type} (ip : Text → Option Addr) (c : Conf) (x : Ext) : Err → Prop where
  | certificate : c.version = some .http2 → x.certs = [] → Wrong ip c x ⟨.certificate, []⟩
  | key : c.version = some .http2 → x.keys = [] → Wrong ip c x ⟨.key, []⟩
  | hostname (h : Text) : c.hostname = some h → small h ≠ "localhost".toList → ip (small h) = none →
      Wrong ip c x ⟨.hostname, ["schema".toList, "@server".toList, "hostname".toList]⟩
  | name (k v : Text) : (k, v) ∈ customHeaders c → ¬ HeaderNameOk k →
      Wrong ip c x ⟨.headerName k, ["schema".toList, "@server".toList, "headers".toList, "custom".toList]⟩
  | value (k v : Text) : (k, v) ∈ customHeaders c → ¬ HeaderValueOk v →
      Wrong ip c x ⟨.headerValue v, ["schema".toList, "@server".toList, "headers".toList, "custom".toList]⟩
  | prefix (h : Text) : h ∈ experimentalHeaders c → (¬ ∃ r, h = 'x' :: '-' :: r ∨ h = 'X' :: '-' :: r) →
      Wrong ip c x ⟨.experimental h, ["schema".toList, "@server".toList, "headers".toList, "experimental".toList]⟩
  | experimental (h : Text) : h ∈ experimentalHeaders c → (∃ r, h = 'x' :: '-' :: r ∨ h = 'X' :: '-' :: r) →
      ¬ HeaderNameOk h →
      Wrong ip c x ⟨.headerName h, ["schema".toList, "@server".toList, "headers".toList, "experimental".toList]⟩
  | cors (h : Headers) (o : Verif.Front.CorsConfig) : c.headers = some h → h.cors = some o → Verif.Front.corsOf o = none →
      Wrong ip c x ⟨.cors, ["schema".toList, "@server".toList, "headers".toList, "cors".toList]⟩

/-- A server that is to use HTTP/2 has what it needs. -/
def ProtocolOk (c : Conf) (x : Ext) : Prop := c.version = some .http2 → x.certs ≠ [] ∧ x.keys ≠ []

/-- The value of a variable: the last one that is given. -/
def lastOf (l : List (Text × Text)) (k : Text) : Option Text := (l.reverse.find? (fun x => x.1 = k)).map (·.2)

/-- The value of a setting, or what it is without one. -/
def given {α : Type} (o : Option α) (d : α) : α :=
  match o with
  | some a => a
  | none => d

/-- A word of letters, digits, `-` and `_`. -/
def Word (t : Text) : Prop := t ≠ [] ∧ ∀ c ∈ t, c.isAlphanum = true ∨ c = '-' ∨ c = '_'

end Verif.Settings
