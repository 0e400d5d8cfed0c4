import Verif.Merge.Model
import Verif.Exec.Model

/-!
# Dropping unused definitions

Model of `src/core/blueprint/compress.rs`, the last step of building a blueprint
(`src/core/blueprint/from_config.rs:56`).
-/

namespace Verif.Prune

open Verif.Mustache (Text)
open Verif.Exec (Ty)
open Verif.Merge (get)

/-- `FieldDefinition` (blueprint.rs:123-131) of objects and interfaces: its type and the types of
its arguments. -/
structure Fld where
  name : Text
  ty : Ty
  args : List (Text × Ty)
  deriving DecidableEq

/-- `Definition` (blueprint.rs:31-38, 66-157).  Descriptions, directives, resolvers and default
values are left out: nothing here reads them. -/
inductive Def where
  | interface (name : Text) (fields : List Fld) (implements : List Text)
  | object (name : Text) (fields : List Fld) (implements : List Text)
  | input (name : Text) (fields : List (Text × Ty))
  | scalar (name : Text)
  | enum (name : Text) (values : List Text)
  | union (name : Text) (types : List Text)
  deriving DecidableEq

/-- `Definition::name` (blueprint.rs:41-50). -/
def Def.name : Def → Text
  | .interface n _ _ => n
  | .object n _ _ => n
  | .input n _ => n
  | .scalar n => n
  | .enum n _ => n
  | .union n _ => n

/-- `Blueprint` (blueprint.rs:22-28) with `SchemaDefinition`: the definitions and the names of the
types of the operations. -/
structure Blueprint where
  defs : List Def
  query : Text
  mutation : Option Text
  deriving DecidableEq

/-- The objects that implement the interface (compress.rs:62-68). -/
def implementors (defs : List Def) (name : Text) : List Text :=
  defs.filterMap fun d => match d with
    | .object n _ impl => if impl.contains name then some n else none
    | _ => none

/-- The dependencies of a definition (compress.rs:50-82). -/
def deps (defs : List Def) : Def → List Text
  | .object _ fs impl =>
    fs.map (fun f => f.ty.name) ++ fs.flatMap (fun f => f.args.map (fun a => a.2.name)) ++ impl
  | .interface n fs _ => fs.map (fun f => f.ty.name) ++ implementors defs n
  | .input _ fs => fs.map (fun f => f.2.name)
  | .enum _ vs => vs
  | .union _ ts => ts
  | .scalar n => [n]

/-- `build_dependency_graph` (compress.rs:45-87).  The map is a list in which the first entry of a
name counts, so it is built from the back: an insert replaces what was there. -/
def graph (defs : List Def) : List (Text × List Text) :=
  (defs.map fun d => (d.name, deps defs d)).reverse

/-- The loop of `identify_referenced_types` (compress.rs:97-105).  The head of the list is the top
of the stack; the number of rounds is bounded, running out is `none`. -/
def explore (g : List (Text × List Text)) : Nat → List Text → List Text → Option (List Text)
  | _, [], seen => some seen
  | 0, _ :: _, _ => none
  | fuel + 1, n :: stack, seen =>
    if seen.contains n then explore g fuel stack seen
    else
      match get n g with
      | some ds => explore g fuel (ds.reverse ++ stack) (n :: seen)
      | none => explore g fuel stack (n :: seen)

/-- A bound on the rounds of compress.rs:97-105: each entry of the stack and each dependency is popped once. -/
def rounds (g : List (Text × List Text)) (roots : List Text) : Nat :=
  roots.length + (g.map (fun e => e.2.length)).sum

/-- The roots (compress.rs:11-21), with the top of the stack first. -/
def roots (bp : Blueprint) : List Text :=
  [bp.mutation.getD "Mutation".toList, bp.query, "Subscription".toList, "Mutation".toList, "Query".toList]

/-- The names that are always kept (compress.rs:23-32). -/
def builtins : List Text :=
  ["Query".toList, "Mutation".toList, "Subscription".toList, "__Schema".toList, "__Type".toList,
    "__Field".toList, "__InputValue".toList, "__EnumValue".toList, "__Directive".toList,
    "__DirectiveLocation".toList]

/-- `compress` (compress.rs:7-43). -/
def compress (bp : Blueprint) : Option Blueprint :=
  let g := graph bp.defs
  (explore g (rounds g (roots bp)) (roots bp) []).map fun seen =>
    { bp with defs := bp.defs.filter fun d => (builtins ++ seen).contains d.name }

end Verif.Prune
