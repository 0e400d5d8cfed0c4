import Verif.Exec.Model

/-!
# Model of argument resolution (src/core/jit/transform/input_resolver.rs)

Values with variables are turned into values, then defaults are filled in and required arguments are
checked.  The Rust functions need not terminate (an input type can have itself as a default), so the
model counts the depth of the recursion: `none` stands for "not finished within this depth".  A result
does not depend on the depth (`parse_mono` in Lemmas.lean).
-/

namespace Verif.Input

open Verif.Mustache (Text)
open Verif.HttpUrl (GVal intText)
open Verif.Exec (Ty)

/-- `async_graphql_value::Value`: a value of a query document
(external crate, used at jit/transform/input_resolver.rs:24-35). -/
inductive QVal where
  | var (name : Text)
  | null
  | bool (b : Bool)
  | int (n : Int)
  | float (printed : Text)
  | str (s : Text)
  | enum (s : Text)
  | list (l : List QVal)
  | obj (kvs : List (Text × QVal))

/-- `ResolveInputError` (jit/error.rs).  `panic` is the `expect` of input_resolver.rs:210. -/
inductive Err where
  | variableIsNotFound (name : Text)
  | argumentIsRequired (arg field : Text)
  | panic
  deriving DecidableEq, Repr

/-- A computation that may fail or not finish within the given depth
(no counterpart in the code, see the top of this file: jit/transform/input_resolver.rs need not terminate). -/
abbrev Out (α : Type) := Option (Except Err α)

/-- The variables of a request (`Variables`, jit/model.rs:20-21). -/
abbrev Vars := Text → Option GVal

mutual
/-- `InputResolvable::resolve` for `Value` (input_resolver.rs:24-35) with `into_const_with` of
`async_graphql_value`: from left to right, the first unknown variable is the error. -/
def subst (vars : Vars) : QVal → Except Err GVal
  | .var n =>
    match vars n with
    | some v => .ok v
    | none => .error (.variableIsNotFound n)
  | .null => .ok .null
  | .bool b => .ok (.bool b)
  | .int n => .ok (.int n)
  | .float p => .ok (.float p)
  | .str s => .ok (.str s)
  | .enum s => .ok (.enum s)
  | .list l =>
    match substList vars l with
    | .ok r => .ok (.list r)
    | .error e => .error e
  | .obj kvs =>
    match substObj vars kvs with
    | .ok r => .ok (.obj r)
    | .error e => .error e
/-- The items of a list (`into_const_with`) (external crate, used at jit/transform/input_resolver.rs:28). -/
def substList (vars : Vars) : List QVal → Except Err (List GVal)
  | [] => .ok []
  | q :: r =>
    match subst vars q with
    | .error e => .error e
    | .ok v =>
      match substList vars r with
      | .error e => .error e
      | .ok vs => .ok (v :: vs)
/-- The entries of an object (`into_const_with`) (external crate, used at jit/transform/input_resolver.rs:28). -/
def substObj (vars : Vars) : List (Text × QVal) → Except Err (List (Text × GVal))
  | [] => .ok []
  | (k, q) :: r =>
    match subst vars q with
    | .error e => .error e
    | .ok v =>
      match substObj vars r with
      | .error e => .error e
      | .ok vs => .ok ((k, v) :: vs)
end

/-- `JsonObjectLike::get_key` (json/graphql.rs:25-27) of an `IndexMap`, whose keys are distinct. -/
def getKey (kvs : List (Text × GVal)) (k : Text) : Option GVal :=
  match kvs with
  | [] => none
  | (k', v) :: r => if k' = k then some v else getKey r k

/-- `JsonObjectLike::insert_key` (json/graphql.rs:29-31): an `IndexMap` keeps the place of a key. -/
def insertKey (kvs : List (Text × GVal)) (k : Text) (v : GVal) : List (Text × GVal) :=
  match kvs with
  | [] => [(k, v)]
  | (k', v') :: r => if k' = k then (k, v) :: r else (k', v') :: insertKey r k v

/-- `InputFieldDefinition` (blueprint/blueprint.rs:115-120): a field of an input type. -/
structure InField where
  name : Text
  ty : Ty
  dflt : Option GVal

/-- `Index::get_input_type_definition` (blueprint/index.rs:103-108): the fields of an input type, `none`
for the other types. -/
abbrev Index := Text → Option (List InField)

/-- `JsonLike::is_null` (json/graphql.rs:131-133). -/
def isNull : GVal → Bool
  | .null => true
  | _ => false

/-- The first part of `recursive_parse_arg` (input_resolver.rs:151-172): value, default or error. -/
def choose (parent arg : Text) (ty : Ty) (dflt value : Option GVal) : Except Err (Option GVal) :=
  match value with
  | none =>
    if !ty.isNullable then
      match dflt with
      | some d => .ok (some d)
      | none => .error (.argumentIsRequired arg parent)
    else .ok dflt
  | some v =>
    if !ty.isNullable && isNull v then .error (.argumentIsRequired arg parent)
    else .ok (some v)

/-- The loop over the fields of an input type (input_resolver.rs:178-197).  `rec` is the recursive call. -/
def fieldsLoop (rec : InField → Option GVal → Out (Option GVal)) :
    List InField → List (Text × GVal) → Out (List (Text × GVal))
  | [], kvs => some (.ok kvs)
  | f :: fs, kvs =>
    match rec f (getKey kvs f.name) with
    | none => none
    | some (.error e) => some (.error e)
    | some (.ok none) => fieldsLoop rec fs kvs
    | some (.ok (some v)) => fieldsLoop rec fs (insertKey kvs f.name v)

/-- The loop over the items of a list (input_resolver.rs:198-212).  `rec` is the recursive call, with the
index of the item. -/
def itemsLoop (rec : Nat → GVal → Out (Option GVal)) : Nat → List GVal → Out (List GVal)
  | _, [] => some (.ok [])
  | i, v :: vs =>
    match rec i v with
    | none => none
    | some (.error e) => some (.error e)
    | some (.ok none) => some (.error .panic)
    | some (.ok (some r)) =>
      match itemsLoop rec (i + 1) vs with
      | none => none
      | some (.error e) => some (.error e)
      | some (.ok rs) => some (.ok (r :: rs))

/-- The result of an object or a list as a value (input_resolver.rs:214). -/
def wrap {α : Type} (f : α → GVal) : Out α → Out (Option GVal)
  | none => none
  | some (.error e) => some (.error e)
  | some (.ok a) => some (.ok (some (f a)))

/-- `recursive_parse_arg` (input_resolver.rs:143-215).  The items of a list are parsed with the type of the
list, as in the code. -/
def parse : Nat → Index → Text → Text → Ty → Option GVal → Option GVal → Out (Option GVal)
  | 0, _, _, _, _, _, _ => none
  | n + 1, ix, parent, arg, ty, dflt, value =>
    match choose parent arg ty dflt value with
    | .error e => some (.error e)
    | .ok none => some (.ok none)
    | .ok (some v) =>
      match ix ty.name with
      | none => some (.ok (some v))
      | some fs =>
        match v with
        | .obj kvs =>
          wrap .obj (fieldsLoop
            (fun f w => parse n ix (parent ++ ['.'] ++ arg) f.name f.ty f.dflt w) fs kvs)
        | .list vs =>
          wrap .list (itemsLoop
            (fun i w => parse n ix (parent ++ ['.'] ++ arg ++ ['.'] ++ intText i) (intText i) ty none (some w))
            0 vs)
        | v => some (.ok (some v))

/-- `Arg` (jit/model.rs:98-105) of a plan, without its id. -/
structure Arg (V : Type) where
  name : Text
  ty : Ty
  value : Option V
  dflt : Option V

/-- `Field` (jit/model.rs:172-195) as far as arguments are concerned. -/
inductive Field (V : Type) where
  | mk (name : Text) (args : List (Arg V)) (sub : List (Field V))

/-- An optional value of an argument (`.map(map).transpose()?`, jit/model.rs:132-133). -/
def substOpt (vars : Vars) : Option QVal → Except Err (Option GVal)
  | none => .ok none
  | some q =>
    match subst vars q with
    | .ok v => .ok (some v)
    | .error e => .error e

/-- `Arg::try_map` (jit/model.rs:123-136). -/
def substArg (vars : Vars) (a : Arg QVal) : Except Err (Arg GVal) :=
  match substOpt vars a.value with
  | .error e => .error e
  | .ok v =>
    match substOpt vars a.dflt with
    | .error e => .error e
    | .ok d => .ok ⟨a.name, a.ty, v, d⟩

/-- The arguments of a field (jit/model.rs:253-257). -/
def substArgs (vars : Vars) : List (Arg QVal) → Except Err (List (Arg GVal))
  | [] => .ok []
  | a :: r =>
    match substArg vars a with
    | .error e => .error e
    | .ok b =>
      match substArgs vars r with
      | .error e => .error e
      | .ok bs => .ok (b :: bs)

mutual
/-- `Field::try_map` (jit/model.rs:232-267): the selection before the arguments.  Directives are left out. -/
def substField (vars : Vars) : Field QVal → Except Err (Field GVal)
  | .mk name args sub =>
    match substFields vars sub with
    | .error e => .error e
    | .ok s =>
      match substArgs vars args with
      | .error e => .error e
      | .ok a => .ok (.mk name a s)
/-- The selection of a field (jit/model.rs:244-248). -/
def substFields (vars : Vars) : List (Field QVal) → Except Err (List (Field GVal))
  | [] => .ok []
  | f :: r =>
    match substField vars f with
    | .error e => .error e
    | .ok g =>
      match substFields vars r with
      | .error e => .error e
      | .ok gs => .ok (g :: gs)
end

/-- The arguments of a field (input_resolver.rs:117-131). -/
def resolveArgs (n : Nat) (ix : Index) (field : Text) : List (Arg GVal) → Out (List (Arg GVal))
  | [] => some (.ok [])
  | a :: r =>
    match parse n ix field a.name a.ty a.dflt a.value with
    | none => none
    | some (.error e) => some (.error e)
    | some (.ok v) =>
      match resolveArgs n ix field r with
      | none => none
      | some (.error e) => some (.error e)
      | some (.ok bs) => some (.ok (⟨a.name, a.ty, v, a.dflt⟩ :: bs))

mutual
/-- `resolve_field` (input_resolver.rs:112-140): the arguments before the selection. -/
def resolveField (n : Nat) (ix : Index) : Field GVal → Out (Field GVal)
  | .mk name args sub =>
    match resolveArgs n ix name args with
    | none => none
    | some (.error e) => some (.error e)
    | some (.ok a) =>
      match resolveFields n ix sub with
      | none => none
      | some (.error e) => some (.error e)
      | some (.ok s) => some (.ok (.mk name a s))
/-- The selection of a field (input_resolver.rs:133-137). -/
def resolveFields (n : Nat) (ix : Index) : List (Field GVal) → Out (List (Field GVal))
  | [] => some (.ok [])
  | f :: r =>
    match resolveField n ix f with
    | none => none
    | some (.error e) => some (.error e)
    | some (.ok g) =>
      match resolveFields n ix r with
      | none => none
      | some (.error e) => some (.error e)
      | some (.ok gs) => some (.ok (g :: gs))
end

/-- `resolve_input` (input_resolver.rs:56-72): one root field after the other, variables first.  The
selection sets of upstream GraphQL requests (lines 74-76) are left out. -/
def resolveInput (n : Nat) (ix : Index) (vars : Vars) : List (Field QVal) → Out (List (Field GVal))
  | [] => some (.ok [])
  | f :: r =>
    match substField vars f with
    | .error e => some (.error e)
    | .ok g =>
      match resolveField n ix g with
      | none => none
      | some (.error e) => some (.error e)
      | some (.ok h) =>
        match resolveInput n ix vars r with
        | none => none
        | some (.error e) => some (.error e)
        | some (.ok hs) => some (.ok (h :: hs))

/-- The arguments of a field in the plan (builder.rs:187-205): every argument of the schema, in the order
of the schema, with the value of the query if it has one.  Arguments that the schema does not know are
dropped. -/
def planArgs (schema : List InField) (toQ : GVal → Option QVal) (given : List (Text × QVal)) : List (Arg QVal) :=
  schema.map fun f =>
    ⟨f.name, f.ty, (given.reverse.find? (fun p => p.1 == f.name)).map (·.2), f.dflt.bind toQ⟩

end Verif.Input
