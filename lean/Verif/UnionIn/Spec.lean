import Verif.UnionIn.Model

/-!
# What values an argument takes

Stated on configurations alone, without reference to how unions are replaced.
-/

namespace Verif.UnionIn

open Verif.Mustache (Text)
open Verif.Exec (Ty)
open Verif.Merge (get)

/-- A value given for an argument. -/
inductive V where
  | null
  | scalar (s : Nat)
  | list (vs : List V)
  | obj (fs : List (Text × V))

/-- The value is one of the type: a scalar or an enum is anything that is not a list or an object,
a union is any of its members, and an object has a value for each field and for nothing else.
Objects with a field that takes arguments are no input. -/
inductive Fits (c : Config) : Ty → V → Prop
  | null {t} : t.isNullable = true → Fits c t .null
  | list {t nn vs} : (∀ v ∈ vs, Fits c t v) → Fits c (.list t nn) (.list vs)
  | scalar {n nn s} : get n c.unions = none → get n c.types = none → Fits c (.named n nn) (.scalar s)
  | member {n nn ms m v} : get n c.unions = some ms → m ∈ ms → v ≠ .null →
      Fits c (.named m true) v → Fits c (.named n nn) v
  | obj {n nn t o} : get n c.unions = none → get n c.types = some t →
      (∀ k f, get k t.fields = some f → f.args = []) →
      (∀ k f, get k t.fields = some f → Fits c f.ty ((get k o).getD .null)) →
      (∀ x ∈ o, (get x.1 t.fields).isSome = true) → Fits c (.named n nn) (.obj o)

/-- The values are accepted for the arguments of the field. -/
def Accepts (c : Config) (f : Field) (vals : Text → V) : Prop :=
  ∀ a t, get a f.args = some t → Fits c t (vals a)

/-- The name is that of a union, or of a type with a union inside. -/
inductive Bears (c : Config) : Text → Prop
  | union {n ms} : get n c.unions = some ms → Bears c n
  | field {n t k f} : get n c.types = some t → get k t.fields = some f → Bears c f.ty.name → Bears c n

/-- The name ends in nothing but the marks of choices. -/
inductive Marks : Text → Prop
  | nil : Marks []
  | cons {i s} : Marks s → Marks ('V' :: 'a' :: 'r' :: Nat.toDigits 10 i ++ s)

/-- The name has no two underscores in a row and none at the end. -/
def Clean (n : Text) : Prop := ∀ a b, n ++ ['_'] ≠ a ++ '_' :: '_' :: b

/-- The maps have each key once, as maps do. -/
structure Maps (c : Config) : Prop where
  types : (c.types.map (·.1)).Nodup
  fields : ∀ n t, (n, t) ∈ c.types → (t.fields.map (·.1)).Nodup
  args : ∀ n t, (n, t) ∈ c.types → ∀ k f, (k, f) ∈ t.fields → (f.args.map (·.1)).Nodup

/-- The names that are used have no two underscores in a row and none at the end. -/
structure Names (c : Config) : Prop where
  types : ∀ n t, (n, t) ∈ c.types → Clean n
  unions : ∀ n ms, get n c.unions = some ms → Clean n ∧ ∀ m ∈ ms, Clean m
  fields : ∀ n t, (n, t) ∈ c.types → ∀ k f, (k, f) ∈ t.fields → Clean f.ty.name
  args : ∀ n t, (n, t) ∈ c.types → ∀ k f, (k, f) ∈ t.fields → ∀ a ty, (a, ty) ∈ f.args → Clean ty.name

/-- Each union has a member. -/
def Inhabited (c : Config) : Prop := ∀ n ms, get n c.unions = some ms → ms ≠ []

/-- No field of the type is named like another one followed by the mark of a choice. -/
def Apart (t : Typ) : Prop :=
  ∀ k ∈ t.fields.map (·.1), ∀ j ∈ t.fields.map (·.1), ∀ s, k ≠ j ++ 'V' :: 'a' :: 'r' :: s

/-- No list is one of values with a union inside. -/
structure Single (c : Config) : Prop where
  fields : ∀ n t, (n, t) ∈ c.types → ∀ k f, (k, f) ∈ t.fields → f.ty.isList = true → ¬ Bears c f.ty.name
  args : ∀ n t, (n, t) ∈ c.types → ∀ k f, (k, f) ∈ t.fields → ∀ a ty, (a, ty) ∈ f.args →
    ty.isList = true → ¬ Bears c ty.name

/-- No type is inside itself: there is a measure that falls from a type to those of its fields and
from a union to its members. -/
def Acyclic (c : Config) : Prop := ∃ rank : Text → Nat,
  (∀ n ms, get n c.unions = some ms → ∀ m ∈ ms, rank m < rank n) ∧
  (∀ n t, get n c.types = some t → ∀ k f, (k, f) ∈ t.fields → rank f.ty.name < rank n)

end Verif.UnionIn
