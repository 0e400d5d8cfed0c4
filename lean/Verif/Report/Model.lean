import Verif.HttpUrl.Model

/-!
# Model of how errors are shown

Source: src/core/errata.rs, src/core/ir/error.rs, src/core/blueprint/error.rs.  Colours are left out: the model is of
errors that are shown without them.
-/

namespace Verif.Report

open Verif.Mustache (Text)
open Verif.HttpUrl (joinWith)

/-- `Errata` (src/core/errata.rs:13-24) without `is_root` and `color`, which only choose colours. -/
inductive Errata where
  | mk (message : Text) (description : Option Text) (trace : List Text) (causedBy : List Errata)

/-- `Errata::new` (src/core/errata.rs:27-36). -/
def Errata.new (message : Text) : Errata := .mk message none [] []

/-- `caused_by` (src/core/errata.rs:38-46). -/
def Errata.causes (e : Errata) (l : List Errata) : Errata :=
  match e with
  | .mk m d t _ => .mk m d t l

/-- `description` (the setter of src/core/errata.rs:12, 18-19). -/
def Errata.describe (e : Errata) (d : Text) : Errata :=
  match e with
  | .mk m _ t l => .mk m (some d) t l

/-- `trace` (the setter of src/core/errata.rs:12, 20). -/
def Errata.at (e : Errata) (t : List Text) : Errata :=
  match e with
  | .mk m d _ l => .mk m d t l

/-- `split_inclusive('\n')` (standard library, used at src/core/errata.rs:75): lines with their ends. -/
def splitIncl : Text → List Text
  | [] => []
  | c :: r =>
    if c = '\n' then [c] :: splitIncl r
    else
      match splitIncl r with
      | [] => [[c]]
      | l :: ls => (c :: l) :: ls

/-- `margin` (src/core/errata.rs:73-79). -/
def margin (n : Nat) (t : Text) : Text := (splitIncl t).flatMap (fun l => List.replicate n ' ' ++ l)

/-- `bullet` (src/core/errata.rs:81-86): the first two characters are replaced; `none` is the panic of `chars[0]` or
`chars[1]`. -/
def bullet (t : Text) : Option Text :=
  match margin 2 t with
  | _ :: _ :: r => some ('•' :: ' ' :: r)
  | _ => none

/-- The trace (src/core/errata.rs:106-118). -/
def traceText (t : List Text) : Text := if t.isEmpty then [] else " [at ".toList ++ joinWith '.' t ++ [']']

/-- Message, description and trace (src/core/errata.rs:98-118). -/
def headText (message : Text) (description : Option Text) (trace : List Text) : Text :=
  message ++ (match description with | none => [] | some d => ':' :: ' ' :: d) ++ traceText trace

mutual
/-- `fmt` (src/core/errata.rs:88-136); `none` is a panic. -/
def Errata.show : Errata → Option Text
  | .mk m d t l =>
    if l.isEmpty then some (headText m d t)
    else
      match showAll l with
      | none => none
      | some c => some (headText m d t ++ '\n' :: ("Caused by:".toList ++ '\n' :: c))
/-- The loop over the causes (src/core/errata.rs:124-132). -/
def showAll : List Errata → Option Text
  | [] => some []
  | e :: l =>
    match e.show with
    | none => none
    | some t =>
      match bullet t with
      | none => none
      | some b =>
        match l, showAll l with
        | _, none => none
        | [], some _ => some (margin 2 b)
        | _ :: _, some r => some (margin 2 b ++ '\n' :: r)
end

/-! ## Where errors come from -/

/-- `Cause` of a validation error (external crate `tailcall-valid`, used at src/core/errata.rs:200-209). -/
structure Cause where
  message : Text
  description : Option Text
  trace : List Text
  deriving DecidableEq, Repr

/-- `From<ValidationError<&str>>` (src/core/errata.rs:196-212). -/
def ofStatic (cs : List Cause) : Errata :=
  (Errata.new "Invalid Configuration".toList).causes (cs.map (fun c =>
    let e := (Errata.new c.message).at c.trace
    match c.description with
    | some d => e.describe d
    | none => e))

/-- `From<ValidationError<String>>` (src/core/errata.rs:214-226). -/
def ofString (cs : List Cause) : Errata :=
  (Errata.new "Invalid Configuration".toList).causes (cs.map (fun c => (Errata.new c.message).at c.trace))

/-- `From<ValidationError<BlueprintError>>` (src/core/blueprint/error.rs:197-221). -/
def ofBlueprint (cs : List Cause) : Errata :=
  (Errata.new "Blueprint Error".toList).causes (cs.map (fun c =>
    let e := (Errata.new c.message).at c.trace
    match c.description with
    | some d => e.describe d
    | none => e))

/-- `anyhow::Error` (external crate, used at src/core/errata.rs:153-176): an `Errata`, a validation error, or another
error with the texts of its sources, from the outermost on. -/
inductive Anyhow where
  | errata (e : Errata)
  | validation (cs : List Cause)
  | other (message : Text) (sources : List Text)

/-- `From<anyhow::Error>` (src/core/errata.rs:153-176). -/
def ofAnyhow : Anyhow → Errata
  | .errata e => e
  | .validation cs => ofString cs
  | .other m ss => (Errata.new m).causes ((ss.take 1).map Errata.new)

/-- `Error` of the evaluation (src/core/ir/error.rs:11-37).  Simplified: errors of authentication, workers and caches
are their texts. -/
inductive IrError where
  | io (m : Text)
  | grpc (code description message : Text)
  | apiValidation (ms : List Text)
  | exprEval (m : Text)
  | deserialize (m : Text)
  | auth (m : Text)
  | worker (m : Text)
  | cache (m : Text)
  | entity (m : Text)

/-- `From<Error> for Errata` (src/core/ir/error.rs:46-73); what it shows is the message that a client gets
(src/core/ir/error.rs:40-44, 77). -/
def ofIr : IrError → Errata
  | .io m => (Errata.new "IOException".toList).describe m
  | .grpc c d m => (Errata.new "gRPC Error".toList).describe
      ("status: ".toList ++ c ++ ", description: `".toList ++ d ++ "`, message: `".toList ++ m ++ ['`'])
  | .apiValidation ms => (Errata.new "API Validation Error".toList).causes (ms.map Errata.new)
  | .exprEval m => (Errata.new "Expression Evaluation Error".toList).describe m
  | .deserialize m => (Errata.new "Deserialization Error".toList).describe m
  | .auth m => (Errata.new "Authentication Failure".toList).describe m
  | .worker m => (Errata.new "Worker Error".toList).describe m
  | .cache m => (Errata.new "Cache Error".toList).describe m
  | .entity m => (Errata.new "Entity Resolver Error".toList).describe m

/-- `From<ValidationError<&str>> for Error` (src/core/ir/error.rs:96-106). -/
def irOfStatic (cs : List Cause) : IrError := .apiValidation (cs.map Cause.message)

/-- `From<hyper::Error>` (src/core/errata.rs:138-151) on the text of the error; `portInUse` is
whether the text in lower case has `os error 48` in it. -/
def ofHyper (portInUse : Bool) (message : Text) : Errata :=
  if portInUse then
    ((Errata.new "Server Failed".toList).describe "The port is already in use".toList).causes [Errata.new message]
  else (Errata.new "Server Failed".toList).describe message

end Verif.Report
