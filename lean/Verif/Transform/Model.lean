import Verif.Exec.Model

/-!
# Model of the configuration transformers (src/core/config/transformer)

`TreeShake`, `NestedUnions`, `RenameTypes` and `AmbiguousType`, with the functions of
src/core/config/config.rs they use.  Loops whose end depends on the configuration count their steps
or their depth; `none` means "not finished".

Simplifications: of every definition only the references to types are visible, the rest (documentation,
resolvers, directives, …) is the opaque `info`.  `BTreeMap`s are association lists and `HashSet`s are
lists; the order of their entries has no meaning.
-/

namespace Verif.Transform

open Verif.Mustache (Text)
open Verif.Exec (Ty)

/-- `Arg` (config.rs:282-288). -/
structure ArgD where
  ty : Ty
  info : Text
  deriving DecidableEq, Repr

/-- `Field` (config.rs:180-228). -/
structure FieldD where
  ty : Ty
  args : List (Text × ArgD)
  info : Text
  deriving DecidableEq, Repr

/-- `Type` (config.rs:107-133): an object, input object, interface or (without fields) a scalar. -/
structure TypeD where
  fields : List (Text × FieldD)
  implements : List Text
  info : Text
  deriving DecidableEq, Repr

/-- `Union` (config.rs:290-294). -/
structure UnionD where
  types : List Text
  info : Text
  deriving DecidableEq, Repr

/-- `Config` (config.rs:60-101) with `RootSchema`. -/
structure Cfg where
  types : List (Text × TypeD)
  unions : List (Text × UnionD)
  enums : List (Text × Text)
  query : Option Text
  mutation : Option Text
  subscription : Option Text
  deriving DecidableEq, Repr

/-- `BTreeMap::get` (standard library, used at config/config.rs:595-626 and transformer/rename_types.rs:27-138). -/
def get {α : Type} : List (Text × α) → Text → Option α
  | [], _ => none
  | (k', a) :: r, k => if k' = k then some a else get r k

/-- `BTreeMap::remove`
(standard library, used at config/config.rs:573-580 and transformer/ambiguous_type.rs:109). -/
def remove {α : Type} (m : List (Text × α)) (k : Text) : List (Text × α) :=
  m.filter (fun p => p.1 ≠ k)

/-- `BTreeMap::insert` (standard library, used at transformer/ambiguous_type.rs:115-118). -/
def insert {α : Type} (m : List (Text × α)) (k : Text) (a : α) : List (Text × α) :=
  (k, a) :: remove m k

/-- `Type::with_name` (wrapping_type.rs): the same wrappers around another name. -/
def withName (n : Text) : Ty → Ty
  | .named _ nn => .named n nn
  | .list t nn => .list (withName n t) nn

/-! ## TreeShake -/

/-- What `get_all_used_type_names` pushes for a type (config.rs:614-620), in the order of pushing. -/
def typeRefs (t : TypeD) : List Text :=
  (t.fields.flatMap (fun p => p.2.args.map (fun a => a.2.ty.name) ++ [p.2.ty.name])) ++ t.implements

/-- The loop of `get_all_used_type_names` (config.rs:603-622).  The first element of `stack` is the top. -/
def walk (c : Cfg) : Nat → List Text → List Text → Option (List Text)
  | 0, _, _ => none
  | _ + 1, set, [] => some set
  | n + 1, set, name :: stack =>
    if set.contains name then walk c n set stack
    else match get c.unions name with
      | some u => walk c n (name :: set) (u.types.reverse ++ stack)
      | none => match get c.types name with
        | some t => walk c n (name :: set) ((typeRefs t).reverse ++ stack)
        | none => walk c n set stack

/-- The initial stack (config.rs:597-602): the query and then the mutation are pushed. -/
def roots (c : Cfg) : List Text := c.mutation.toList ++ c.query.toList

/-- `get_all_used_type_names` (config.rs:594-625). -/
def usedNames (c : Cfg) (n : Nat) : Option (List Text) := walk c n [] (roots c)

/-- `unused_types` (config.rs:582-591). -/
def unusedTypes (c : Cfg) (n : Nat) : Option (List Text) :=
  (usedNames c n).map (fun used =>
    (c.types.map (·.1) ++ c.unions.map (·.1)).filter (fun k => !used.contains k))

/-- `remove_types` (config.rs:573-580). -/
def removeTypes (c : Cfg) : List Text → Cfg
  | [] => c
  | k :: r => removeTypes { c with types := remove c.types k, unions := remove c.unions k } r

/-- `TreeShake::transform` (tree_shake.rs:17-21). -/
def shake (c : Cfg) (n : Nat) : Option Cfg := (unusedTypes c n).map (removeTypes c)

/-! ## NestedUnions -/

/-- The error of nested_unions.rs:58 with the trace of line 39. -/
structure UErr where
  trace : List Text
  recursive : Text
  deriving DecidableEq, Repr

/-- The state of `walk_union`: `union_types` and `seen` (transformer/nested_unions.rs:49-69). -/
structure UState where
  leaves : List Text
  seen : List Text
  deriving DecidableEq, Repr

/-- The loop of `walk_union` (nested_unions.rs:55-68), given the walk of a nested union.  `from_iter`
runs all members and collects the errors. -/
def walkMembers (us : List (Text × UnionD)) (rec : UnionD → UState → Option (List Text × UState)) :
    List Text → UState → Option (List Text × UState)
  | [], s => some ([], s)
  | t :: r, s =>
    match get us t with
    | some u =>
      if s.seen.contains t then
        match walkMembers us rec r s with
        | some (es, s') => some (t :: es, s')
        | none => none
      else
        match rec u { s with seen := t :: s.seen } with
        | some (es, s') => match walkMembers us rec r s' with
          | some (es', s'') => some (es ++ es', s'')
          | none => none
        | none => none
    | none => walkMembers us rec r { s with leaves := if s.leaves.contains t then s.leaves else t :: s.leaves }

/-- `walk_union` (nested_unions.rs:49-69): the names of the errors and the final state. -/
def walkUnion (us : List (Text × UnionD)) : Nat → UnionD → UState → Option (List Text × UState)
  | 0, _, _ => none
  | n + 1, u, s => walkMembers us (walkUnion us n) u.types s

/-- The loop of `visit` (nested_unions.rs:35-46): errors and new unions. -/
def visitLoop (us : List (Text × UnionD)) (n : Nat) :
    List (Text × UnionD) → Option (List UErr × List (Text × UnionD))
  | [] => some ([], [])
  | (name, u) :: r =>
    match walkUnion us n u ⟨[], []⟩, visitLoop us n r with
    | some (es, s), some (es', r') =>
      some (es.map (fun t => ⟨[name], t⟩) ++ es',
        if es.isEmpty then (name, { u with types := s.leaves }) :: r' else r')
    | _, _ => none

/-- `NestedUnions::transform` (nested_unions.rs:17-24, 32-47). -/
def nestedUnions (c : Cfg) (n : Nat) : Option (Except (List UErr) Cfg) :=
  match visitLoop c.unions n c.unions with
  | none => none
  | some ([], r) => some (.ok { c with unions := r })
  | some (e :: es, _) => some (.error (e :: es))

/-! ## RenameTypes -/

/-- Replaces the key of an entry: `remove` and `insert` (rename_types.rs:38-39, 51-52, 57-58). -/
def rekey {α : Type} (m : List (Text × α)) (old new : Text) : List (Text × α) :=
  match get m old with
  | some a => insert (remove m old) new a
  | none => m

/-- One step of the first loop (rename_types.rs:33-62), when the name is declared. -/
def renameStep (c : Cfg) (old new : Text) : Cfg :=
  let isType := (get c.types old).isSome
  { types := rekey c.types old new
    enums := rekey c.enums old new
    unions := rekey c.unions old new
    query := if isType && c.query = some old then some new else c.query
    mutation := if isType && c.query ≠ some old && c.mutation = some old then some new else c.mutation
    subscription := c.subscription }

/-- The first condition (rename_types.rs:33-35). -/
def declared (c : Cfg) (name : Text) : Bool :=
  (get c.types name).isSome || (get c.enums name).isSome || (get c.unions name).isSome

/-- The first loop (rename_types.rs:32-69): the errors (names not found), the renamed configuration and
`lookup`. -/
def renameLoop : List (Text × Text) → Cfg → List Text × Cfg × List (Text × Text)
  | [], c => ([], c, [])
  | (old, new) :: r, c =>
    if declared c old then
      let (es, c', l) := renameLoop r (renameStep c old new)
      (es, c', (old, new) :: l)
    else
      let (es, c', l) := renameLoop r c
      (old :: es, c', l)

/-- `lookup.get(name).cloned().unwrap_or(name)` (transformer/rename_types.rs:88-97, 101-134). -/
def newName (l : List (Text × Text)) (n : Text) : Text := (get l n).getD n

/-- The replacement of a type's name (rename_types.rs:74-77, 80-83). -/
def renameTy (l : List (Text × Text)) (t : Ty) : Ty :=
  match get l t.name with
  | some n => withName n t
  | none => t

/-- The replacements inside a type (rename_types.rs:71-98). -/
def renameType (l : List (Text × Text)) (t : TypeD) : TypeD :=
  { t with
    fields := t.fields.map (fun p => (p.1, { p.2 with
      ty := renameTy l p.2.ty
      args := p.2.args.map (fun a => (a.1, { a.2 with ty := renameTy l a.2.ty })) }))
    implements := t.implements.map (newName l) }

/-- The two passes over the members of a union (rename_types.rs:101-134). -/
def renameUnion (l : List (Text × Text)) (u : UnionD) : UnionD :=
  let old := u.types.filter (fun t => (get l t).isSome)
  let first := u.types.filter (fun t => !old.contains t) ++ old.map (newName l)
  { u with types := first.map (newName l) }

/-- `RenameTypes::transform` (rename_types.rs:27-138). -/
def renameTypes (names : List (Text × Text)) (c : Cfg) : Except (List Text) Cfg :=
  match renameLoop names c with
  | ([], c', l) => .ok { c' with
      types := c'.types.map (fun p => (p.1, renameType l p.2))
      unions := c'.unions.map (fun p => (p.1, renameUnion l p.2)) }
  | (e :: es, _, _) => .error (e :: es)

/-! ## AmbiguousType -/

/-- `Config::is_scalar` (config.rs:463-467) with `Type::scalar` (config.rs:164-166).  `pre` is
`Scalar::is_predefined`. -/
def isScalar (pre : Text → Bool) (c : Cfg) (n : Text) : Bool :=
  match get c.types n with
  | some t => t.fields.isEmpty
  | none => pre n

/-- The loop over the members of a union (config.rs:443-445). -/
def connMembers (rec : Text → List Text → Option (List Text)) : List Text → List Text → Option (List Text)
  | [], set => some set
  | t :: r, set => match rec t set with
    | some set' => connMembers rec r set'
    | none => none

/-- The loop over the fields of a type (config.rs:448-452). -/
def connFields (pre : Text → Bool) (c : Cfg) (rec : Text → List Text → Option (List Text)) :
    List (Text × FieldD) → List Text → Option (List Text)
  | [], set => some set
  | f :: r, set =>
    if !set.contains f.2.ty.name && !isScalar pre c f.2.ty.name then
      match rec f.2.ty.name set with
      | some set' => connFields pre c rec r set'
      | none => none
    else connFields pre c rec r set

/-- `Config::find_connections` (config.rs:439-458), with fuel. -/
def conn (pre : Text → Bool) (c : Cfg) : Nat → Text → List Text → Option (List Text)
  | 0, _, _ => none
  | n + 1, x, set =>
    match get c.unions x with
    | some u => connMembers (conn pre c n) u.types (x :: set)
    | none => match get c.types x with
      | some t => connFields pre c (conn pre c n) t.fields (x :: set)
      | none => if (get c.enums x).isSome then some (x :: set) else some set

/-- `Config::arguments` (config.rs:565-571): the names of the types of all arguments. -/
def argNames (c : Cfg) : List Text :=
  c.types.flatMap (fun p => p.2.fields.flatMap (fun f => f.2.args.map (fun a => a.2.ty.name)))

/-- `Config::input_types` (config.rs:472-480). -/
def inputTypes (pre : Text → Bool) (c : Cfg) (n : Nat) : Option (List Text) :=
  connMembers (conn pre c n) ((argNames c).filter (fun x => !isScalar pre c x)) []

/-- `Config::output_types` (config.rs:491-503). -/
def outputTypes (pre : Text → Bool) (c : Cfg) (n : Nat) : Option (List Text) :=
  connMembers (conn pre c n) (c.query.toList ++ c.mutation.toList) []

/-- The input name of the default resolver (ambiguous_type.rs:28-32); the output name is the name. -/
def inputName (n : Text) : Text := n ++ ['I', 'n', 'p', 'u', 't']

/-- The keys of `resolution_map` (ambiguous_type.rs:64-99), given the names in the intersection. -/
def resolutionKeys (c : Cfg) (outs : List Text) (inter : List Text) : List Text :=
  inter.flatMap (fun n => match get c.types n with
    | some t => n :: (t.fields.flatMap (fun f => f.2.args.map (fun a => a.2.ty.name))).filter outs.contains
    | none => [])

/-- The state of the second loop: the types, `input_types` and `output_types`
(transformer/ambiguous_type.rs:62-64, 100-122). -/
structure AState where
  types : List (Text × TypeD)
  ins : List Text
  outs : List Text
  deriving DecidableEq, Repr

/-- One step of the loop that inserts the new types (ambiguous_type.rs:102-122). -/
def splitStep (s : AState) (n : Text) : AState :=
  match get s.types n with
  | some t =>
    { types := insert (insert (remove s.types n) (inputName n) t) n t
      ins := inputName n :: s.ins.filter (· ≠ n)
      outs := n :: s.outs.filter (· ≠ n) }
  | none => { types := remove s.types n, ins := s.ins.filter (· ≠ n), outs := s.outs.filter (· ≠ n) }

/-- The loop of ambiguous_type.rs:102-122 over the keys of the map in some order. -/
def splitLoop (order : List Text) (s : AState) : AState := order.foldl splitStep s

/-- The replacement of references in the type `k` (ambiguous_type.rs:126-147). -/
def splitType (keys ins outs : List Text) (k : Text) (t : TypeD) : TypeD :=
  { t with fields := t.fields.map (fun f => (f.1, { f.2 with
      ty := if keys.contains f.2.ty.name then
          (if outs.contains k then withName f.2.ty.name f.2.ty
           else if ins.contains k then withName (inputName f.2.ty.name) f.2.ty else f.2.ty)
        else f.2.ty
      args := f.2.args.map (fun a => (a.1, { a.2 with
        ty := if keys.contains a.2.ty.name then withName (inputName a.2.ty.name) a.2.ty else a.2.ty })) })) }

/-- `AmbiguousType::transform` (ambiguous_type.rs:59-149) with the default resolver, whose two names always
differ, so that it never fails.  `order` is the order in which the map of resolutions is walked. -/
def splitTypes (c : Cfg) (ins outs order : List Text) : Cfg :=
  let s := splitLoop order ⟨c.types, ins, outs⟩
  { c with types := s.types.map (fun p => (p.1, splitType order s.ins s.outs p.1 p.2)) }

/-- A run of `AmbiguousType`: sets and maps are hashed, so that the intersection and the map may be walked in
any order (transformer/ambiguous_type.rs:59-149). -/
def Splits (pre : Text → Bool) (c c' : Cfg) : Prop :=
  ∃ n ins outs inter order, inputTypes pre c n = some ins ∧ outputTypes pre c n = some outs ∧
    (∀ x, x ∈ inter ↔ x ∈ ins ∧ x ∈ outs) ∧ order.Nodup ∧
    (∀ x, x ∈ order ↔ x ∈ resolutionKeys c outs inter) ∧ c' = splitTypes c ins outs order

end Verif.Transform
