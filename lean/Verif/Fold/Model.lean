import Verif.Mustache.Model

/-!
# Composed validations

Models `src/core/try_fold.rs` (`TryFold`) and `src/core/transform.rs` (`Pipe`, `When`, `Default`), by which the
blueprint and the configuration transformers are composed.

`tailcall_valid` (crate version 0.1.1) is not part of the repository.  Its operations are modelled as the
tests of try_fold.rs:160-282 fix them: `fold(ok, err)` continues with `ok` on success and, on failure, runs
`err` and keeps its errors behind the ones already found; `and_then` stops at the first failure; `trace` puts a
message in front of the trace of every error.
-/

namespace Verif.Fold

open Verif.Mustache (Text)

/-- `Cause`: a message with its trace (external crate tailcall_valid, used throughout try_fold.rs). -/
structure Err where
  message : Text
  trace : List Text
  deriving DecidableEq, Repr

/-- `Valid<A, E>`: a value or errors (external crate tailcall_valid, used throughout try_fold.rs). -/
abbrev Valid (A : Type) := Except (List Err) A

/-- `Valid::trace` (external crate tailcall_valid, used at try_fold.rs:122). -/
def Valid.trace {A : Type} (m : Text) : Valid A → Valid A
  | .ok a => .ok a
  | .error es => .error (es.map (fun e => { e with trace := m :: e.trace }))

/-- `Validator::fold` (external crate tailcall_valid, used at try_fold.rs:39-42). -/
def Valid.fold {A B : Type} (v : Valid A) (ok : A → Valid B) (err : Unit → Valid B) : Valid B :=
  match v with
  | .ok a => ok a
  | .error es => match err () with
    | .ok _ => .error es
    | .error es' => .error (es ++ es')

/-- `Validator::and_then` (external crate tailcall_valid, used at try_fold.rs:94-96 and transform.rs:56). -/
def Valid.andThen {A B : Type} (v : Valid A) (f : A → Valid B) : Valid B :=
  match v with
  | .ok a => f a
  | .error es => .error es

/-- `TryFold` (try_fold.rs:7-9, 21-23). -/
def TryFold (I O : Type) := I → O → Valid O

/-- `TryFold::and` (try_fold.rs:37-44). -/
def TryFold.and {I O : Type} (self other : TryFold I O) : TryFold I O :=
  fun input state => Valid.fold (self input state) (fun s => other input s) (fun _ => other input state)

/-- `TryFold::transform_valid` (try_fold.rs:88-98). -/
def TryFold.transformValid {I O O1 : Type} (self : TryFold I O) (up : O → O1 → Valid O1) (down : O1 → Valid O) :
    TryFold I O1 :=
  fun i o1 => Valid.andThen (Valid.andThen (down o1) (fun o => self i o)) (fun o => up o o1)

/-- `TryFold::transform` (try_fold.rs:67-76). -/
def TryFold.transform {I O O1 : Type} (self : TryFold I O) (up : O → O1 → O1) (down : O1 → O) : TryFold I O1 :=
  self.transformValid (fun o o1 => .ok (up o o1)) (fun o1 => .ok (down o1))

/-- `TryFold::update` (try_fold.rs:100-102). -/
def TryFold.update {I O : Type} (self : TryFold I O) (f : O → O) : TryFold I O :=
  self.transform (fun o _ => f o) (fun o => o)

/-- `TryFold::empty` (try_fold.rs:108-110). -/
def TryFold.empty {I O : Type} : TryFold I O := fun _ o => .ok o

/-- `TryFold::trace` (try_fold.rs:121-123). -/
def TryFold.trace {I O : Type} (self : TryFold I O) (m : Text) : TryFold I O := fun i o => Valid.trace m (self i o)

/-- `TryFold::from_iter` (try_fold.rs:126-137). -/
def TryFold.fromIter {I O : Type} : List (TryFold I O) → TryFold I O
  | [] => .empty
  | f :: r => f.and (TryFold.fromIter r)

/-- A pipeline: checks composed by `and`, `trace`, `update` and `empty` in any nesting, as in
blueprint/from_config.rs:46-56 and blueprint/definitions.rs:545-553. -/
inductive Line (I O : Type) where
  | check (f : TryFold I O)
  | empty
  | and (a b : Line I O)
  | trace (a : Line I O) (m : Text)
  | update (a : Line I O) (f : O → O)

/-- The composed fold of a pipeline. -/
def Line.run {I O : Type} : Line I O → TryFold I O
  | .check f => f
  | .empty => .empty
  | .and a b => a.run.and b.run
  | .trace a m => a.run.trace m
  | .update a f => a.run.update f

/-- `Transform` and its combinators (transform.rs:6-10, 31-56, 60-67): a transformer, `Default`, `Pipe`,
`When`. -/
inductive Trans (A : Type) where
  | step (f : A → Valid A)
  | default
  | pipe (a b : Trans A)
  | when (a : Trans A) (c : Bool)

/-- `Transform::transform` of the combinators (transform.rs:36-42, 54-56, 64-66). -/
def Trans.run {A : Type} : Trans A → A → Valid A
  | .step f, v => f v
  | .default, v => .ok v
  | .pipe a b, v => Valid.andThen (a.run v) b.run
  | .when a c, v => if c then a.run v else .ok v

end Verif.Fold
