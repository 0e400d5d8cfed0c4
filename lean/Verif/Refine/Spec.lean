import Verif.Refine.Model
import Verif.Transform.Shake

/-!
# What refinement is to do
-/

namespace Verif.Refine

open Verif.Mustache (Text)
open Verif.Exec (Ty)
open Verif.Transform

/-- A type expression with its name replaced. -/
def mapTy (σ : Text → Text) : Ty → Ty
  | .named a nn => .named (σ a) nn
  | .list t nn => .list (mapTy σ t) nn

/-- A field with all names replaced. -/
def mapField (σ : Text → Text) (f : FieldD) : FieldD :=
  { f with ty := mapTy σ f.ty, args := f.args.map (fun a => (a.1, { a.2 with ty := mapTy σ a.2.ty })) }

/-- A type with all names replaced. -/
def mapType (σ : Text → Text) (t : TypeD) : TypeD :=
  { t with fields := t.fields.map (fun p => (p.1, mapField σ p.2)), implements := t.implements.map σ }

/-- What merging does to a configuration, when `σ` says where each type goes: every type has a place with all its
fields, and every field there is a field of one of the types that went there, but perhaps with the type `JSON`;
a type that goes somewhere alone is as it was, with the names replaced; interfaces and the members of unions are
replaced; other names stay. -/
structure Merged (σ : Text → Text) (c c' : Cfg) : Prop where
  kept : ∀ n t, At c.types n t → ∃ t', At c'.types (σ n) t' ∧ ∀ f fd, At t.fields f fd → ∃ fd', At t'.fields f fd'
  froms : ∀ n' t' f fd', At c'.types n' t' → At t'.fields f fd' → ∃ n t fd, σ n = n' ∧ At c.types n t ∧ At t.fields f fd ∧
    fd'.info = fd.info ∧ fd'.args = (mapField σ fd).args ∧ (fd'.ty = mapTy σ fd.ty ∨ fd'.ty = .named json false)
  types : ∀ n' t', At c'.types n' t' → ∃ n t, σ n = n' ∧ At c.types n t
  alone : ∀ n t, At c.types n t → (∀ m s, At c.types m s → σ m = σ n → m = n) → σ n = n ∧ At c'.types n (mapType σ t)
  unions : ∀ n u, At c.unions n u → ∃ u', At c'.unions n u' ∧ u'.info = u.info ∧ ∀ y, y ∈ u'.types ↔ ∃ x, x ∈ u.types ∧ σ x = y
  unions' : ∀ n u', At c'.unions n u' → ∃ u, At c.unions n u
  impls : ∀ n' t', At c'.types n' t' → ∀ i', i' ∈ t'.implements ↔
    ∃ n t i, σ n = n' ∧ At c.types n t ∧ i ∈ t.implements ∧ σ i = i'
  others : ∀ n, Lacks c.types n → (∀ j, 0 < j → n ≠ mergedName j) → σ n = n
  enums : c'.enums = c.enums
  query : c'.query = c.query
  mutation : c'.mutation = c.mutation
  subscription : c'.subscription = c.subscription

/-- The names that merging makes are not used, from a number on. -/
structure FreshFrom (k : Nat) (c : Cfg) : Prop where
  types : ∀ j, k ≤ j → Lacks c.types (mergedName j)
  unions : ∀ j, k ≤ j → Lacks c.unions (mergedName j)
  members : ∀ j, k ≤ j → ∀ n u, At c.unions n u → mergedName j ∉ u.types
  fields : ∀ j, k ≤ j → ∀ n t f fd, At c.types n t → At t.fields f fd → fd.ty.name ≠ mergedName j
  args : ∀ j, k ≤ j → ∀ n t f fd a, At c.types n t → At t.fields f fd → a ∈ fd.args → a.2.ty.name ≠ mergedName j
  impls : ∀ j, k ≤ j → ∀ n t, At c.types n t → mergedName j ∉ t.implements

/-- Maps are sorted, no name is both a type and a union, no union is a member of a union, and `JSON` is the predefined
scalar. -/
structure Wf (pre : Text → Bool) (c : Cfg) : Prop where
  fields : ∀ n t, At c.types n t → Verif.Merge.Sorted t.fields
  apart : Apart c
  flat : ∀ x u m, At c.unions x u → m ∈ u.types → Lacks c.unions m
  json : pre json = true ∧ Lacks c.types json

/-- Fields of the same name that have types of the configuration have the same one, unless both are scalars. -/
def OneType (pre : Text → Bool) (c : Cfg) : Prop :=
  ∀ n t m s f a b, At c.types n t → At c.types m s → At t.fields f a → At s.fields f b →
    ¬ Lacks c.types a.ty.name → ¬ Lacks c.types b.ty.name →
    a.ty.name = b.ty.name ∨ (isScalar pre c a.ty.name = true ∧ isScalar pre c b.ty.name = true)

/-- The fields of `p` lead from the type `n` to the type `m`: a query may ask for this path. -/
inductive Leads (c : Cfg) : Text → List Text → Text → Prop
  | nil (n) : Leads c n [] n
  | cons {n t f fd p m} : At c.types n t → At t.fields f fd → Leads c fd.ty.name p m → Leads c n (f :: p) m

/-- Two types that may be merged without a loss: the same fields, with the same types but for `JSON` in the place of
other scalars. -/
structure Alike (pre : Text → Bool) (c : Cfg) (s t : TypeD) : Prop where
  some : s.fields ≠ [] ∧ t.fields ≠ []
  names : ∀ f, (∃ a, At s.fields f a) ↔ ∃ b, At t.fields f b
  types : ∀ f a b, At s.fields f a → At t.fields f b → isList a.ty = isList b.ty ∧
    (a.ty.name = b.ty.name ∨ (isScalar pre c a.ty.name = true ∧ isScalar pre c b.ty.name = true ∧
      (a.ty.name = json ∨ b.ty.name = json)))

end Verif.Refine
