import Verif.Merge.Model

/-!
# Model of merging subgraph schemas

Models `src/core/config/config_module/merge.rs` (the `Contravariant`, `Covariant` and `Invariant`
implementations), `src/core/config/config_module.rs` (`Cache`), `src/core/wrapping_type.rs` (`Type`) and the
functions of `src/core/config/config.rs` that classify types as input or output types. `Valid` is modelled as
`Option`: only success matters here, the texts of the errors are not modelled.
-/

namespace Verif.Federation
open Verif.Mustache (Text)
open Verif.Merge (get remove)

/-- `src/core/wrapping_type.rs:12-30` (`Type`). -/
inductive Ty where
  | named (name : Text) (nonNull : Bool)
  | list (of : Ty) (nonNull : Bool)
  deriving DecidableEq, Repr

/-- `src/core/wrapping_type.rs:60-65` (`name`). -/
def Ty.name : Ty → Text
  | .named n _ => n
  | .list t _ => t.name

/-- `src/core/wrapping_type.rs:68-73` (`is_nullable`). -/
def Ty.isNullable : Ty → Bool
  | .named _ nn => !nn
  | .list _ nn => !nn

/-- `src/core/config/config_module/merge.rs:12-46` (`Type::merge`). -/
def Ty.merge (f : Bool → Bool → Bool) : Ty → Ty → Option Ty
  | .named n nn, .named n' nn' => if n ≠ n' then none else some (.named n (f nn nn'))
  | .list t nn, .list t' nn' => (Ty.merge f t t').map (fun t'' => .list t'' (f nn nn'))
  | _, _ => none

/-- `src/core/config/config_module/merge.rs:48-61` (`Contravariant for core::Type`). -/
def Ty.shrink (a b : Ty) : Option Ty := Ty.merge (fun x y => x || y) a b

/-- `src/core/config/config_module/merge.rs:63-76` (`Covariant for core::Type`). -/
def Ty.expand (a b : Ty) : Option Ty := Ty.merge (fun x y => x && y) a b

/-- `src/core/config/config.rs:279-285` (`Arg`). Simplified: documentation and `@modify` are left out; the
default value is its text. -/
structure Arg where
  ty : Ty
  default : Option Text := none
  deriving DecidableEq, Repr

/-- `src/core/config/config_module/merge.rs:78-87` (`Contravariant for Arg`). -/
def Arg.shrink (a b : Arg) : Option Arg :=
  (a.ty.shrink b.ty).map (fun t => { ty := t, default := a.default.or b.default })

/-- First loop of `Contravariant for C: FederatedMergeCollection`,
`src/core/config/config_module/merge.rs:370-382`, followed by the second one (384-390) on what is left of
`self`. `tyOf` is `TypedEntry::type_of` (323-337). -/
def shrinkEntries {E : Type} (tyOf : E → Ty) (sh : E → E → Option E) :
    List (Text × E) → List (Text × E) → Option (List (Text × E))
  | self, [] => if self.all (fun p => (tyOf p.2).isNullable) then some [] else none
  | self, (n, o) :: rest =>
    match get n self with
    | some f =>
      match sh f o, shrinkEntries tyOf sh (remove n self) rest with
      | some m, some ms => some ((n, m) :: ms)
      | _, _ => none
    | none => if (tyOf o).isNullable then shrinkEntries tyOf sh self rest else none

/-- The loop shared by `Covariant for C: FederatedMergeCollection`
(`src/core/config/config_module/merge.rs:402-415`) and by the merging of types and of enums in
`Cache::unify` (206-246 and 293, 248-290 and 294): entries of both sides are merged by `step`, entries of one
side are kept. The order of entries is not modelled (`BTreeMap`s). -/
def joinEntries {E : Type} (step : Text → E → E → Option E) :
    List (Text × E) → List (Text × E) → Option (List (Text × E))
  | self, [] => some self
  | self, (n, o) :: rest =>
    match get n self with
    | some d =>
      match step n d o, joinEntries step (remove n self) rest with
      | some m, some ms => some ((n, m) :: ms)
      | _, _ => none
    | none => (joinEntries step self rest).map ((n, o) :: ·)

/-- `src/core/config/config.rs:177-226` (`Field`). Simplified: documentation, caching, protection and
resolvers are left out (merging them is modelled in `Verif.Merge`). -/
structure Field where
  ty : Ty
  args : List (Text × Arg) := []
  default : Option Text := none
  deriving DecidableEq, Repr

/-- `self.args.shrink(other.args)`, `src/core/config/config_module/merge.rs:93, 115`. -/
def shrinkArgs (a b : List (Text × Arg)) : Option (List (Text × Arg)) := shrinkEntries Arg.ty Arg.shrink a b

/-- `src/core/config/config_module/merge.rs:89-108` (`Contravariant for Field`). -/
def Field.shrink (a b : Field) : Option Field :=
  match a.ty.shrink b.ty, shrinkArgs a.args b.args with
  | some t, some args => some { ty := t, args := args, default := a.default.or b.default }
  | _, _ => none

/-- `src/core/config/config_module/merge.rs:110-130` (`Covariant for Field`): arguments are still shrunk. -/
def Field.expand (a b : Field) : Option Field :=
  match a.ty.expand b.ty, shrinkArgs a.args b.args with
  | some t, some args => some { ty := t, args := args, default := a.default.or b.default }
  | _, _ => none

/-- `src/core/config/config.rs:107-133` (`Type`). Simplified: only the fields and the implemented
interfaces. -/
structure TypeD where
  fields : List (Text × Field) := []
  implements : List Text := []
  deriving DecidableEq, Repr

/-- `src/core/config/config.rs:163-165` (`Type::scalar`). -/
def TypeD.scalar (d : TypeD) : Bool := d.fields.isEmpty

/-- `src/core/config/config_module/merge.rs:132-146` (`Contravariant for Type`). -/
def TypeD.shrink (a b : TypeD) : Option TypeD :=
  (shrinkEntries Field.ty Field.shrink a.fields b.fields).map
    (fun fs => { fields := fs, implements := a.implements ++ b.implements })

/-- `src/core/config/config_module/merge.rs:148-162` (`Covariant for Type`). -/
def TypeD.expand (a b : TypeD) : Option TypeD :=
  (joinEntries (fun _ => Field.expand) a.fields b.fields).map
    (fun fs => { fields := fs, implements := a.implements ++ b.implements })

/-- `src/core/config/config_module/merge.rs:164-173` (`Contravariant for Enum`); an enum is the list of its
variants. -/
def shrinkEnum (a b : List Text) : List Text := a.filter (fun v => b.contains v)

/-- `src/core/config/config_module/merge.rs:175-184` (`Covariant for Enum`). -/
def expandEnum (a b : List Text) : List Text := a ++ b.filter (fun v => !a.contains v)

/-- `src/core/config/config.rs:65-101` (`Config`). Simplified: the parts that `Cache::unify` merges. -/
structure Cfg where
  query : Option Text := none
  mutation : Option Text := none
  types : List (Text × TypeD) := []
  enums : List (Text × List Text) := []
  unions : List (Text × List Text) := []
  deriving Repr

/-- `src/core/config/config_module.rs:30-36` (`Cache`). Simplified: of `interfaces_types_map` only the keys
are used by the merge. -/
structure Module where
  cfg : Cfg
  input : List Text
  output : List Text
  interfaces : List Text
  deriving Repr

/-- `src/core/config/config_module/merge.rs:186-202` (`Invariant for RootSchema`): the left name wins. -/
def unifyRoot (a b : Option Text) : Option Text :=
  match a, b with
  | none, none => none
  | none, some b => some b
  | some a, _ => some a

/-- The decision for a type present on both sides,
`src/core/config/config_module/merge.rs:213-241`. -/
def unifyType (A B : Module) (n : Text) (a b : TypeD) : Option TypeD :=
  match A.input.contains n, A.output.contains n || A.interfaces.contains n,
      B.input.contains n, B.output.contains n || B.interfaces.contains n with
  | true, false, true, false => a.shrink b
  | false, true, false, true => a.expand b
  | false, false, true, false => a.shrink b
  | true, false, false, false => a.shrink b
  | false, false, false, true => a.expand b
  | false, true, false, false => a.expand b
  | true, true, _, _ => none
  | _, _, true, true => none
  | true, false, false, true => none
  | false, true, true, false => none
  | false, false, false, false => none

/-- The decision for an enum present on both sides,
`src/core/config/config_module/merge.rs:252-285`. -/
def unifyEnum (A B : Module) (n : Text) (a b : List Text) : Option (List Text) :=
  match A.input.contains n, A.output.contains n, B.input.contains n, B.output.contains n with
  | true, false, true, false => some (shrinkEnum a b)
  | false, true, false, true => some (expandEnum a b)
  | false, false, true, false => some (shrinkEnum a b)
  | true, false, false, false => some (shrinkEnum a b)
  | false, false, false, true => some (expandEnum a b)
  | false, true, false, false => some (expandEnum a b)
  | true, true, _, _ => if a = b then some a else none
  | _, _, true, true => if a = b then some a else none
  | true, false, false, true => none
  | false, true, true, false => none
  | false, false, false, false => none

/-- Union of sets of names, kept without duplicates (`HashSet::merge_right`, `BTreeSet::merge_right`,
`src/core/merge_right.rs:28-46`). -/
def uniteNames (a b : List Text) : List Text := a ++ b.filter (fun v => !a.contains v)

/-- `self.config.unions.merge_right(other.config.unions)`,
`src/core/config/config_module/merge.rs:299`: members of a union present on both sides are united. -/
def unifyUnions (a b : List (Text × List Text)) : Option (List (Text × List Text)) :=
  joinEntries (fun _ x y => some (uniteNames x y)) a b

/-- `src/core/config/config_module/merge.rs:204-312` (`Invariant for Cache`). Simplified: the server,
upstream, link and telemetry settings of the left are kept (`..self.config`, 301) and not modelled here. -/
def unify (A B : Module) : Option Module :=
  match joinEntries (unifyType A B) A.cfg.types B.cfg.types,
      joinEntries (unifyEnum A B) A.cfg.enums B.cfg.enums,
      unifyUnions A.cfg.unions B.cfg.unions with
  | some types, some enums, some unions =>
    some {
      cfg := {
        query := unifyRoot A.cfg.query B.cfg.query
        mutation := unifyRoot A.cfg.mutation B.cfg.mutation
        types := types, enums := enums, unions := unions }
      input := uniteNames A.input B.input
      output := uniteNames A.output B.output
      interfaces := uniteNames A.interfaces B.interfaces }
  | _, _, _ => none

/-! ## Which types are inputs, which are outputs -/

/-- `src/core/config/config.rs:465-469` (`is_scalar`). `pre` is `Scalar::is_predefined`
(`src/core/scalar.rs:109-115`), a fixed table of names. -/
def isScalar (pre : Text → Bool) (c : Cfg) (n : Text) : Bool :=
  match get n c.types with
  | some d => d.scalar
  | none => pre n

mutual
/-- `src/core/config/config.rs:441-461` (`find_connections`). The recursion of the code need not end (unions
that contain each other); `none` means that the given depth was exceeded. -/
def findConnections (pre : Text → Bool) (c : Cfg) : Nat → Text → List Text → Option (List Text)
  | 0, _, _ => none
  | fuel + 1, n, types =>
    match get n c.unions with
    | some members => findMembers pre c fuel members (n :: types)
    | none =>
      match get n c.types with
      | some d => findFields pre c fuel d.fields (n :: types)
      | none =>
        match get n c.enums with
        | some _ => some (n :: types)
        | none => some types
/-- The loop over the members of a union, `src/core/config/config.rs:445-447`. -/
def findMembers (pre : Text → Bool) (c : Cfg) : Nat → List Text → List Text → Option (List Text)
  | _, [], types => some types
  | 0, _ :: _, _ => none
  | fuel + 1, m :: rest, types =>
    match findConnections pre c fuel m types with
    | some types => findMembers pre c fuel rest types
    | none => none
/-- The loop over the fields of a type, `src/core/config/config.rs:450-454`. -/
def findFields (pre : Text → Bool) (c : Cfg) : Nat → List (Text × Field) → List Text → Option (List Text)
  | _, [], types => some types
  | 0, _ :: _, _ => none
  | fuel + 1, f :: rest, types =>
    if !types.contains f.2.ty.name && !isScalar pre c f.2.ty.name then
      match findConnections pre c fuel f.2.ty.name types with
      | some types => findFields pre c fuel rest types
      | none => none
    else findFields pre c fuel rest types
end

/-- `src/core/config/config.rs:565-571` (`arguments`): the types of all arguments. -/
def argTypes (c : Cfg) : List Text :=
  c.types.flatMap (fun t => t.2.fields.flatMap (fun f => f.2.args.map (fun a => a.2.ty.name)))

/-- The fold at `src/core/config/config.rs:479-481`. -/
def findAll (pre : Text → Bool) (c : Cfg) (fuel : Nat) : List Text → List Text → Option (List Text)
  | [], types => some types
  | n :: rest, types => (findConnections pre c fuel n types).bind (findAll pre c fuel rest)

/-- `src/core/config/config.rs:473-482` (`input_types`). -/
def inputTypes (pre : Text → Bool) (c : Cfg) (fuel : Nat) : Option (List Text) :=
  findAll pre c fuel ((argTypes c).filter (fun n => !isScalar pre c n)) []

/-- `src/core/config/config.rs:493-505` (`output_types`). -/
def outputTypes (pre : Text → Bool) (c : Cfg) (fuel : Nat) : Option (List Text) :=
  findAll pre c fuel (c.query.toList ++ c.mutation.toList) []

/-- `src/core/config/config_module.rs:38-51` (`From<Config> for Cache`). Interfaces: the names some type
implements, the keys of `interfaces_types_map` (`src/core/config/config.rs:507-517, 550-560`). -/
def moduleOf (pre : Text → Bool) (fuel : Nat) (c : Cfg) : Option Module :=
  match inputTypes pre c fuel, outputTypes pre c fuel with
  | some i, some o =>
    some { cfg := c, input := i, output := o, interfaces := c.types.flatMap (fun t => t.2.implements) }
  | _, _ => none

end Verif.Federation
