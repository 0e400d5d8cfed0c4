import Verif.Merge.Model
import Verif.Exec.Model

/-!
# Unions in arguments

Model of `src/core/config/transformer/union_input_type.rs`: arguments whose type has a union
somewhere inside are replaced by several fields, one for each choice of members.  It is part of
what is always done to a configuration (`src/core/config/transformer/required.rs:13-21`).
-/

namespace Verif.UnionIn

open Verif.Mustache (Text)
open Verif.Exec (Ty)
open Verif.Merge (get tlt)

/-- `Field` (config/config.rs:182-226): its type and the types of its arguments.  `rest` stands for
all else, which is carried along. -/
structure Field where
  ty : Ty
  args : List (Text × Ty)
  rest : Nat
  deriving DecidableEq

/-- `Type` (config/config.rs:108-133): its fields; `rest` stands for all else. -/
structure Typ where
  fields : List (Text × Field)
  rest : Nat
  deriving DecidableEq

/-- `Config` (config/config.rs:66-102): the types and the members of the unions, in the order of
the maps. -/
structure Config where
  types : List (Text × Typ)
  unions : List (Text × List Text)

/-- `UnionPresence` (union_input_type.rs:43-49). -/
inductive Presence where
  | noUnion
  | union (types : List Text)
  deriving DecidableEq

/-- `Visitor` (union_input_type.rs:51-60).  Maps are lists of insertions with the last one in
front, which is the one that counts. -/
structure St where
  presence : List (Text × Presence)
  visited : List Text
  made : List (Text × Typ)

/-- `Type::with_name` (wrapping_type.rs:110-117). -/
def withName (n : Text) : Ty → Ty
  | .named _ nn => .named n nn
  | .list t nn => .list (withName n t) nn

/-- The members that stand for a type, if it has a union inside (union_input_type.rs:124-125,
148-150, 208). -/
def unionOf (p : List (Text × Presence)) (n : Text) : Option (List Text) :=
  match get n p with
  | some (.union us) => some us
  | _ => none

/-- `BTreeSet::insert` (standard library; union_input_type.rs:121-131). -/
def setInsert (x : Text) : List Text → List Text
  | [] => [x]
  | y :: r => if x = y then y :: r else if tlt x y then x :: y :: r else y :: setInsert x r

/-- The set of the members of a union (union_input_type.rs:121-135). -/
def members (p : List (Text × Presence)) (ms : List Text) : List Text :=
  (ms.flatMap fun m => match unionOf p m with | some us => us | none => [m]).foldl (fun s x => setInsert x s) []

/-- The fields with a union (union_input_type.rs:142-153). -/
def unionFields (p : List (Text × Presence)) (fs : List (Text × Field)) : List (Text × List Text) :=
  fs.filterMap fun f => (unionOf p f.2.ty.name).map fun us => (f.1, us)

/-- The type of the field replaced (union_input_type.rs:256-263). -/
def setTy (t : Typ) (f u : Text) : Typ :=
  { t with fields := t.fields.map fun x => if x.1 = f then (x.1, { x.2 with ty := withName u x.2.ty }) else x }

/-- `inner_create` and `create_types_from_union` (union_input_type.rs:230-279). -/
def create : Text → Typ → List (Text × List Text) → List (Text × Typ)
  | n, t, [] => [(n, t)]
  | n, t, (f, us) :: rest =>
    us.zipIdx.flatMap fun x => create (n ++ '_' :: '_' :: f ++ Nat.toDigits 10 x.2) (setTy t f x.1) rest

/-- Visiting several types one after the other (union_input_type.rs:100-105, 117-119,
138-140). -/
def collectAll (visit : Text → St → Option St) : List Text → St → Option St
  | [], st => some st
  | n :: r, st => match visit n st with
    | none => none
    | some st => collectAll visit r st

/-- `collect_nested_unions_for_type` (union_input_type.rs:107-178).  The recursion is bounded by
`fuel`; running out of it is `none`. -/
def collect (c : Config) : Nat → Text → St → Option St
  | 0, _, _ => none
  | fuel + 1, n, st =>
    if (get n st.presence).isSome || st.visited.contains n then some st
    else
      let st := { st with visited := n :: st.visited }
      match get n c.unions with
      | some ms =>
        match collectAll (collect c fuel) ms st with
        | none => none
        | some st => some { st with presence := (n, .union (members st.presence ms)) :: st.presence }
      | none =>
        match get n c.types with
        | none => some st
        | some t =>
          match collectAll (collect c fuel) (t.fields.map fun f => f.2.ty.name) st with
          | none => none
          | some st =>
            let ufs := unionFields st.presence t.fields
            if ufs.isEmpty then some { st with presence := (n, .noUnion) :: st.presence }
            else
              let new := create n t ufs
              some { st with presence := (n, .union (new.map (·.1))) :: st.presence, made := new.reverse ++ st.made }

/-- The type of an argument replaced (union_input_type.rs:213-218). -/
def setArg (f : Field) (a : Text) (t : Ty) : Field :=
  { f with args := f.args.map fun x => if x.1 = a then (a, t) else x }

/-- `walk_arguments` (union_input_type.rs:192-228).  The field is changed in place there; here
each choice has its own copy. -/
def walkArgs (p : List (Text × Presence)) : List (Text × Ty) → Text → Field → List (Text × Field)
  | [], name, f => [(name, f)]
  | (a, t) :: rest, name, f =>
    match unionOf p t.name with
    | some us => us.zipIdx.flatMap fun x =>
        walkArgs p rest (name ++ 'V' :: 'a' :: 'r' :: Nat.toDigits 10 x.2) (setArg f a (withName x.1 t))
    | none => walkArgs p rest name f

/-- `map_args_to_fields` (union_input_type.rs:180-190). -/
def mapArgs (p : List (Text × Presence)) (name : Text) (f : Field) : List (Text × Field) :=
  walkArgs p f.args name f

/-- The bound: each type and each union is entered once, and one call can be on another name
(union_input_type.rs:108-113). -/
def depth (c : Config) : Nat := c.types.length + c.unions.length + 1

/-- The loop over the fields of a type (union_input_type.rs:77-89). -/
def visitFields (c : Config) : List (Text × Field) → List (Text × Field) → St → Option (List (Text × Field) × St)
  | [], out, st => some (out, st)
  | (name, f) :: rest, out, st =>
    match collectAll (collect c (depth c)) (f.args.map fun a => a.2.name) st with
    | none => none
    | some st => visitFields c rest (out ++ mapArgs st.presence name f) st

/-- `visit` (union_input_type.rs:75-97): the loop over the types.  The fields of the new type are a
list of insertions with the last one in front. -/
def visitTypes (c : Config) : List (Text × Typ) → St → Option St
  | [], st => some st
  | (name, t) :: rest, st =>
    match visitFields c t.fields [] st with
    | none => none
    | some (out, st) => visitTypes c rest { st with made := (name, { t with fields := out.reverse }) :: st.made }

/-- `UnionInputType::transform` (union_input_type.rs:32-40). -/
def transform (c : Config) : Option Config :=
  (visitTypes c c.types ⟨[], [], []⟩).map fun st => { c with types := st.made }

end Verif.UnionIn
