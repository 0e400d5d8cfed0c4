import Verif.Merge.Model

/-!
# Model of query planning: selection sets, `@skip` and `@include`

Models `src/core/jit/builder.rs` (`Builder::include`, `Builder::iter`), `Field::skip` in `src/core/jit/model.rs` and
`src/core/jit/transform/skip.rs`. The schema index (`src/core/blueprint/index.rs`) is the parameter `idx`: type and
field name to the name of the field's type. Arguments and resolvers of fields are left out here.
-/

namespace Verif.Plan
open Verif.Mustache (Text)
open Verif.Merge (get)

/-- The argument `if` of a directive (`async_graphql_value::Value`); `other` is any value that is neither a boolean
nor a variable (external crate, matched at src/core/jit/builder.rs:92-111). -/
inductive IfArg where
  | bool (b : Bool)
  | var (name : Text)
  | other
  deriving DecidableEq, Repr

/-- A directive on a selection, with its argument `if`. Other arguments are left out
(external crate, read at src/core/jit/builder.rs:88-126). -/
structure Dir where
  name : Text
  ifArg : Option IfArg := none
  deriving DecidableEq, Repr

/-- `async_graphql::parser::types::Selection`: field, fragment spread, inline fragment. -/
inductive Sel where
  | field (name : Text) (alias : Option Text) (dirs : List Dir) (sub : List Sel)
  | spread (name : Text) (dirs : List Dir)
  | inline (on : Option Text) (dirs : List Dir) (sub : List Sel)

/-- A fragment definition: type condition and selection set
(external crate, used at src/core/jit/builder.rs:279-300). -/
structure Frag where
  on : Text
  sub : List Sel

/-- `src/core/jit/builder.rs:19-24` (`Condition`). -/
inductive Cond where
  | tt
  | ff
  | var (name : Text)
  deriving DecidableEq, Repr

/-- `src/core/jit/builder.rs:92-111` (`get_condition`). -/
def getCondition (d : Dir) : Option Cond :=
  match d.ifArg with
  | none => none
  | some (.bool b) => some (if b then .tt else .ff)
  | some (.var n) => some (.var n)
  | some .other => none

/-- The first directive with the given name, `src/core/jit/builder.rs:115, 121`. -/
def findDir (name : Text) : List Dir → Option Dir
  | [] => none
  | d :: r => if d.name = name then some d else findDir name r

/-- `src/core/jit/builder.rs:112-118` (`include`, the skip part). -/
def skipCond (ds : List Dir) : Cond := ((findDir "skip".toList ds).bind getCondition).getD .ff

/-- `src/core/jit/builder.rs:119-125` (`include`, the include part). -/
def includeCond (ds : List Dir) : Cond := ((findDir "include".toList ds).bind getCondition).getD .tt

/-- `src/core/jit/builder.rs:33-52` (`is_const_skip`). -/
def isConstSkip (skip incl : Cond) : Bool :=
  match skip, incl with
  | .tt, _ => true
  | .ff, .ff => true
  | _, _ => false

/-- `src/core/jit/builder.rs:55-58` (`comp` in `into_variable_tuple`). -/
def condVar : Cond → Option Text
  | .var n => some n
  | _ => none

/-- `src/core/jit/model.rs:171-195` (`Field`), the parts used here. -/
inductive PField where
  | mk (id : Nat) (name out tc : Text) (skip incl : Option Text) (sub : List PField)

/-- `Field::id` (src/core/jit/model.rs:173). -/
def PField.id : PField → Nat | .mk id .. => id
/-- `Field::name` (src/core/jit/model.rs:175). -/
def PField.name : PField → Text | .mk _ n .. => n
/-- `Field::output_name` (src/core/jit/model.rs:178). -/
def PField.out : PField → Text | .mk _ _ o .. => o
/-- `Field::type_condition` (src/core/jit/model.rs:185). -/
def PField.tc : PField → Text | .mk _ _ _ t .. => t
/-- `Field::skip` (src/core/jit/model.rs:186). -/
def PField.skip : PField → Option Text | .mk _ _ _ _ s .. => s
/-- `Field::include` (src/core/jit/model.rs:187). -/
def PField.incl : PField → Option Text | .mk _ _ _ _ _ i _ => i
/-- `Field::selection` (src/core/jit/model.rs:189). -/
def PField.sub : PField → List PField | .mk _ _ _ _ _ _ s => s

/-- Local state of `Builder::iter` (`src/core/jit/builder.rs:137-139`) with the counter `field_id`. -/
structure St where
  fields : List PField := []
  frags : List PField := []
  visited : List Text := []
  next : Nat

/-- Field of a selection set, `src/core/jit/builder.rs:143-278`. `rec` builds a nested selection set. -/
def stepField (idx : Text → Text → Option Text) (rec : Text → List Sel → Nat → Option (List PField × Nat)) (tc : Text)
    (name : Text) (alias : Option Text) (dirs : List Dir) (sub : List Sel) (st : St) : Option St :=
  let out := alias.getD name
  if st.visited.contains out then some st
  else
    let visited := out :: st.visited
    let skip := skipCond dirs
    let incl := includeCond dirs
    if isConstSkip skip incl then some { st with visited := visited }
    else
      match idx tc name with
      | some ty =>
        match rec ty sub (st.next + 1) with
        | some (children, next) =>
          some { st with
            fields := st.fields ++ [.mk st.next name out tc (condVar skip) (condVar incl) children]
            visited := visited
            next := next }
        | none => none
      | none =>
        if name = "__typename".toList then
          some { st with
            fields := st.fields ++ [.mk st.next name out tc (condVar skip) (condVar incl) []]
            visited := visited
            next := st.next + 1 }
        else some { st with visited := visited }

/-- Fields of a fragment, `src/core/jit/builder.rs:283-288, 297-302`. -/
def stepFrag (rec : Text → List Sel → Nat → Option (List PField × Nat)) (tc : Text) (sub : List Sel) (st : St) :
    Option St :=
  match rec tc sub st.next with
  | some (fs, next) => some { st with frags := st.frags ++ fs, next := next }
  | none => none

/-- One selection, `src/core/jit/builder.rs:142-304`. The directives of fragments are not looked at. -/
def step (idx : Text → Text → Option Text) (frags : List (Text × Frag))
    (rec : Text → List Sel → Nat → Option (List PField × Nat)) (tc : Text) (st : St) : Sel → Option St
  | .field name alias dirs sub => stepField idx rec tc name alias dirs sub st
  | .spread name _ =>
    match get name frags with
    | some f => stepFrag rec f.on f.sub st
    | none => some st
  | .inline on _ sub => stepFrag rec (on.getD tc) sub st

/-- The loop over the selections, `src/core/jit/builder.rs:141-305`. -/
def loop (idx : Text → Text → Option Text) (frags : List (Text × Frag))
    (rec : Text → List Sel → Nat → Option (List PField × Nat)) (tc : Text) : List Sel → St → Option St
  | [], st => some st
  | s :: rest, st =>
    match step idx frags rec tc st s with
    | some st => loop idx frags rec tc rest st
    | none => none

/-- Insertion into a list sorted by `id` (part of `sort_by` at src/core/jit/builder.rs:312). -/
def insertById (f : PField) : List PField → List PField
  | [] => [f]
  | g :: r => if f.id ≤ g.id then f :: g :: r else g :: insertById f r

/-- `fields.sort_by(|a, b| a.id.cmp(&b.id))`, `src/core/jit/builder.rs:312`. -/
def sortById : List PField → List PField
  | [] => []
  | f :: r => insertById f (sortById r)

/-- `src/core/jit/builder.rs:130-314` (`Builder::iter`). The fuel bounds the recursion, which in the code does not
end for fragments that spread themselves. -/
def iter (idx : Text → Text → Option Text) (frags : List (Text × Frag)) :
    Nat → Text → List Sel → Nat → Option (List PField × Nat)
  | 0, _, _, _ => none
  | fuel + 1, tc, sels, n =>
    match loop idx frags (iter idx frags fuel) tc sels { next := n } with
    | some st =>
      some (sortById (st.fields ++ st.frags.filter (fun f => !st.visited.contains f.out)), st.next)
    | none => none

/-- The variables of a request, restricted to what `as_bool` (`src/core/jit/model.rs:76`) sees: `none` for a
missing or non-boolean value. -/
abbrev Vars := Text → Option Bool

/-- `src/core/jit/model.rs:71-78` (`eval` in `Field::skip`). -/
def evalVar (vars : Vars) (v : Option Text) (default : Bool) : Bool := (v.bind vars).getD default

/-- `src/core/jit/model.rs:70-83` (`Field::skip`). -/
def skipField (vars : Vars) (skip incl : Option Text) : Bool := evalVar vars skip false == evalVar vars incl true

mutual
/-- `src/core/jit/transform/skip.rs:38-43` (`skip`), below a kept field. -/
def skipT (vars : Vars) : PField → PField
  | .mk id name out tc s i sub => .mk id name out tc s i (skipAll vars sub)
/-- `src/core/jit/transform/skip.rs:38-43` (`skip`). -/
def skipAll (vars : Vars) : List PField → List PField
  | [] => []
  | f :: r => if skipField vars f.skip f.incl then skipAll vars r else skipT vars f :: skipAll vars r
end

/-- An operation of a request: the variables it declares with a boolean default value, and its selection set
(external crate, used at src/core/jit/builder.rs:327-349). -/
structure Operation where
  defaults : List (Text × Bool) := []
  root : Text
  sub : List Sel

/-- The fields that are executed for an operation: `Builder::build` (`src/core/jit/builder.rs:352-384`) followed by
the `Skip` transform (`src/core/jit/exec_const.rs:62-64`). The declared defaults are not used
(`src/core/jit/exec_const.rs:74-76`). -/
def planned (idx : Text → Text → Option Text) (frags : List (Text × Frag)) (fuel : Nat) (op : Operation)
    (vars : Vars) : Option (List PField) :=
  (iter idx frags fuel op.root op.sub 0).map (fun p => skipAll vars p.1)

end Verif.Plan
