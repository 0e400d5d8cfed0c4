import Verif.Ir.Model
import Verif.Exec.Model

/-!
# Model of `@call`

Source: src/core/blueprint/operators/call.rs and the compilation of the resolvers of a field
(src/core/blueprint/operators/resolver.rs, src/core/blueprint/definitions.rs:537-558).
-/

namespace Verif.Call

open Verif.Mustache (Text)
open Verif.HttpUrl (GVal)
open Verif.Exec (Ty)
open Verif.Ir (IR Dyn)

/-- `Step` (config/directives/call.rs:13-25): the arguments are already `DynamicValue`s
(blueprint/dynamic_value.rs:93-122; the conversion of JSON to values is taken not to fail). -/
structure Step where
  query : Option Text
  mutation : Option Text
  args : List (Text × Dyn)

/-- `Resolver` (config/resolver.rs): calls, and all others with the expression they compile to (operators/resolver.rs:23-54). -/
inductive Res where
  | call (steps : List Step)
  | other (x : IR)

/-- What is read of an argument (operators/call.rs:22-23). -/
structure Arg where
  name : Text
  ty : Ty
  hasDefault : Bool

/-- What is read of a field (operators/call.rs:19-50, operators/resolver.rs:71). -/
structure Field where
  args : List Arg
  resolvers : List Res

/-- The configuration: the fields of every type (config/config.rs:382-384), and `finish`, which stands for the
stages of `to_field_definition` after the resolvers (definitions.rs:547-553): it is given the type and the
name of the field. -/
structure Conf where
  types : List (Text × List (Text × Field))
  finish : Text → Text → Option IR → Option IR

/-- The errors of operators/call.rs. -/
inductive CErr where
  | argumentNotFound (field : Text) (missing : List Text)
  | fieldHasNoResolver (field : Text)
  | stepsCanNotBeEmpty
  | resultResolverCanNotBeEmpty
  | callMustHaveQueryOrMutation
  | typeNotFoundInConfig (type : Text)
  | fieldNotFoundInType (field : Text)
  deriving DecidableEq, Repr

/-- `Valid<A, BlueprintError>` without traces (`tailcall_valid`, used at operators/call.rs:14). -/
abbrev V (A : Type) := Except (List CErr) A

/-- `get_type_and_field` (operators/call.rs:96-106). -/
def typeAndField (s : Step) : Option (Text × Text) :=
  match s.query with
  | some q => some ("Query".toList, q)
  | none => s.mutation.map (fun m => ("Mutation".toList, m))

/-- `get_field_and_field_name` (operators/call.rs:108-131). -/
def findField (c : Conf) (s : Step) : V (Field × Text × Text) :=
  match typeAndField s with
  | none => .error [.callMustHaveQueryOrMutation]
  | some (t, n) =>
    match Verif.Merge.get t c.types with
    | none => .error [.typeNotFoundInConfig t]
    | some fs =>
      match Verif.Merge.get n fs with
      | none => .error [.fieldNotFoundInType n]
      | some f => .ok (f, n, t)

/-- The arguments that are missing (operators/call.rs:19-29). -/
def missing (f : Field) (s : Step) : List Text :=
  (f.args.filter (fun a => !a.ty.isNullable && !(s.args.any (fun kv => kv.1 == a.name)))).map (·.name)

/-- `args_expr.pipe(expr)` (operators/call.rs:66-70). -/
def withArgs (s : Step) (x : IR) : IR :=
  if s.args.isEmpty then x else .pipe (.dynamic (.object s.args)) x

/-- The reduction of the steps (operators/call.rs:75-93).  Every step has a resolver here
(operators/call.rs:51-55). -/
def chain : List IR → V IR
  | [] => .error [.stepsCanNotBeEmpty]
  | x :: l => .ok (l.foldl IR.pipe x)

/-- `Valid::from_iter`: all values or all errors (`tailcall_valid`, used at operators/call.rs:15 and
operators/resolver.rs:71). -/
def collect {A : Type} : List (V A) → V (List A)
  | [] => .ok []
  | .ok a :: l =>
    match collect l with
    | .ok as => .ok (a :: as)
    | .error es => .error es
  | .error es :: l =>
    match collect l with
    | .ok _ => .error es
    | .error es' => .error (es ++ es')

/-- The resolver of a field from those of its directives (operators/resolver.rs:74-78). -/
def join : List IR → Option IR
  | [] => none
  | [x] => some x
  | l => some (.merge l)

/-- Sequencing of results that may not be there (not in the code: `none` stands for a stack overflow in operators/call.rs:9-94). -/
def seqAll {A : Type} : List (Option A) → Option (List A)
  | [] => some []
  | none :: _ => none
  | some a :: l => (seqAll l).map (a :: ·)

mutual
/-- The resolver of a field (`to_field_definition`, definitions.rs:537-558, operators/resolver.rs:58-89;
the checks on templates are in `Verif.Tmpl`).  `d` is the depth of the stack; `none`: it overflows. -/
def compileField (c : Conf) : Nat → Text → Text → Field → Option (V (Option IR))
  | 0, _, _, _ => none
  | d + 1, t, n, f =>
    match seqAll (f.resolvers.map (compileRes c d)) with
    | none => none
    | some rs =>
      match collect rs with
      | .error es => some (.error es)
      | .ok xs => some (.ok (c.finish t n (join xs)))
/-- `compile_resolver` (operators/resolver.rs:17-56). -/
def compileRes (c : Conf) : Nat → Res → Option (V IR)
  | 0, _ => none
  | _ + 1, .other x => some (.ok x)
  | d + 1, .call steps => compileCall c d steps
/-- `compile_call` (operators/call.rs:9-94). -/
def compileCall (c : Conf) : Nat → List Step → Option (V IR)
  | 0, _ => none
  | d + 1, steps =>
    match seqAll (steps.map (compileStep c d)) with
    | none => none
    | some rs =>
      match collect rs with
      | .error es => some (.error es)
      | .ok xs => some (chain xs)
/-- One step (operators/call.rs:16-73). -/
def compileStep (c : Conf) : Nat → Step → Option (V IR)
  | 0, _ => none
  | d + 1, s =>
    match findField c s with
    | .error es => some (.error es)
    | .ok (f, n, t) =>
      match missing f s with
      | [] =>
        match compileField c d t n f with
        | none => none
        | some (.error es) => some (.error es)
        | some (.ok none) => some (.error [.fieldHasNoResolver n])
        | some (.ok (some x)) => some (.ok (withArgs s x))
      | m => some (.error [.argumentNotFound n m])
end

end Verif.Call
