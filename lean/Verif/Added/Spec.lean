import Verif.Added.Model
import Verif.Transform.Lemmas

/-!
# Specification: types, values and paths
-/

namespace Verif.Added

open Verif.Mustache (Text)
open Verif.HttpUrl (GVal)
open Verif.Exec (Ty)
open Verif.Ir (parseUsize)
open Verif.Transform (At Lacks)

/-! ## Where resolvers are missing -/

/-- From a type one gets to another by fields without resolvers. -/
inductive Reach (c : Config) (q : Text) : Text → Prop
  | here : Reach c q q
  | field {n t f fd t'} : Reach c q n → At c.types n t → (f, fd) ∈ t.fields → fd.resolvers = [] → At c.types fd.ty.name t' →
      Reach c q fd.ty.name

/-- Every field that one gets to without a resolver has a resolver or a type of the configuration. -/
def Resolved (c : Config) (q : Text) : Prop :=
  ∀ n t f fd, Reach c q n → At c.types n t → (f, fd) ∈ t.fields → fd.resolvers ≠ [] ∨ ∃ t', At c.types fd.ty.name t'

/-! ## Paths in types -/

/-- A path of names and indices leads from a type to another, by these fields.  Lists are entered by an index only. -/
inductive Way (c : Config) : Ty → List Text → List Fld → Ty → Prop
  | here {t} : Way c t [] [] t
  | item {e nn i p fs t} : (parseUsize i).isSome = true → Way c e p fs t → Way c (.list e nn) (i :: p) fs t
  | field {n nn f td fd p fs t} : parseUsize f = none → At c.types n td → At td.fields f fd → Way c fd.ty p fs t →
      Way c (.named n nn) (f :: p) (fd :: fs) t

/-- The type of a field is a predefined scalar or a type of the configuration. -/
def Known (c : Config) (f : Fld) : Prop := c.pre f.ty.name = true ∨ ∃ t, At c.types f.ty.name t

/-- Predefined scalars are not types of the configuration. -/
def Sane (c : Config) : Prop := ∀ n, c.pre n = true → Lacks c.types n

/-- Where the path of an added field starts: at the type itself, if the field it names first has no resolver, and
otherwise at the type of this field; the first name after it must then be no field of the type itself. -/
structure Starts (c : Config) (object : Text) (outer : Typ) (a : Add) (f : Fld) (t : Ty) (p : List Text) : Prop where
  type : At c.types object outer
  source : ∃ s r, a.path = s :: r ∧ At outer.fields s f ∧ parseUsize s = none ∧
    ((f.resolvers = [] ∧ t = .named object false ∧ p = a.path) ∨
      (f.resolvers ≠ [] ∧ t = f.ty ∧ p = r ∧ ∀ g, p.find? (fun x => (parseUsize x).isNone) = some g → Lacks outer.fields g))

/-! ## Values -/

/-- A value is one of a type.  With `strict`, objects have no other keys than the type has fields, and scalars are
neither objects nor lists.  The values of fields with resolvers do not matter. -/
inductive Conf (c : Config) (strict : Bool) : Ty → GVal → Prop
  | null {t} : t.isNullable = true → Conf c strict t .null
  | list {e nn l} : (∀ v ∈ l, Conf c strict e v) → Conf c strict (.list e nn) (.list l)
  | obj {n nn td kvs} : At c.types n td →
      (∀ f fd w, At td.fields f fd → fd.resolvers = [] → Verif.Merge.get f kvs = some w → Conf c strict fd.ty w) →
      (strict = true → ∀ f w, Verif.Merge.get f kvs = some w → ∃ fd, At td.fields f fd) → Conf c strict (.named n nn) (.obj kvs)
  | scalar {n nn v} : (Lacks c.types n ∨ ∃ td, At c.types n td ∧ td.fields = []) →
      (strict = true → (∀ l, v ≠ .list l) ∧ ∀ kvs, v ≠ .obj kvs) → Conf c strict (.named n nn) v

/-- What is found in a value at a path: names of objects, indices of lists, a name of a list in each of its elements;
nothing is found as null. -/
inductive Found : GVal → List Text → GVal → Prop
  | here {v} : Found v [] v
  | null {p} : Found .null p .null
  | key {kvs f p w x} : Verif.Merge.get f kvs = some w → Found w p x → Found (.obj kvs) (f :: p) x
  | noKey {kvs f p} : Verif.Merge.get f kvs = none → Found (.obj kvs) (f :: p) .null
  | item {l i n p w x} : parseUsize i = some n → l[n]? = some w → Found w p x → Found (.list l) (i :: p) x
  | noItem {l i n p} : parseUsize i = some n → l[n]? = none → Found (.list l) (i :: p) .null
  | each {l f p xs} : parseUsize f = none → xs.length = l.length → (∀ (i : Nat) (v x : GVal), l[i]? = some v → xs[i]? = some x → Found v (f :: p) x) →
      Found (.list l) (f :: p) (.list xs)

end Verif.Added
