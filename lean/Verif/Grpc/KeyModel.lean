import Verif.Schema.Model

/-!
# Model of the check of batch keys (src/core/blueprint/operators/grpc.rs:97-140)
-/

namespace Verif.Grpc

open Verif.Mustache (Text)
open Verif.Exec (Ty)
open Verif.Schema (JS Pool PField look toSchema msgSchema kindSchema wrapField isA IErr)

/-- The errors: a field that is not found (src/core/blueprint/operators/grpc.rs:104-115), or one of the
comparison of schemas (:132-138). -/
inductive KErr where
  | notFound (name : Text)
  | schema (e : IErr)

/-- `get_field_by_json_name` (used at src/core/blueprint/operators/grpc.rs:111). -/
def fieldOf (p : Pool) (m j : Text) : Option PField := (look p.msgs m).bind (fun d => d.fields.find? (fun f => f.name = j))

/-- The loop of `validate_group_by` (src/core/blueprint/operators/grpc.rs:104-115): each part but the last is
looked for in the type of the answer, and the last one counts.  The error has the name of that part, or of
the first if there is none. -/
def batchField (p : Pool) (output : Text) (path : List Text) : Except Text PField :=
  match path.dropLast.getLast? with
  | none => .error (path.head?.getD [])
  | some j =>
    match fieldOf p output j with
    | some f => .ok f
    | none => .error j

/-- `validate_group_by` (src/core/blueprint/operators/grpc.rs:97-140): the errors; `none` if deriving the
schemas does not end within `n` steps. -/
def validateGroupBy (c : Verif.Schema.Cfg) (p : Pool) (n : Nat) (t : Ty) (input output : Text) (path : List Text) :
    Option (List KErr) :=
  match toSchema c n t, msgSchema p n input with
  | some s, some _ =>
    match batchField p output path with
    | .error j => some [.notFound j]
    | .ok f =>
      match kindSchema p (msgSchema p n) f.kind with
      | some k => some ((isA (.opt (.arr s)) (wrapField f k) (path.head?.getD [])).map .schema)
      | none => none
  | _, _ => none

end Verif.Grpc
