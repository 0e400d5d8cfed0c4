import Verif.Report.Model

/-!
# What a report has to show

A report is read line by line: the error with its description and its trace first, then under `Caused by:` each of its
causes, each further in than the error it belongs to.
-/

namespace Verif.Report

open Verif.Mustache (Text)
open Verif.HttpUrl (joinWith)

/-- The lines of a text. -/
def linesOf : Text → List Text
  | [] => [[]]
  | c :: r =>
    match linesOf r with
    | [] => [[c]]
    | l :: ls => if c = '\n' then [] :: l :: ls else (c :: l) :: ls

/-- The error itself: its message, then a colon and its description, then where it happened. -/
def headSpec (m : Text) (d : Option Text) (t : List Text) : Text :=
  match d, t with
  | none, [] => m
  | some d, [] => m ++ ": ".toList ++ d
  | none, t => m ++ " [at ".toList ++ joinWith '.' t ++ "]".toList
  | some d, t => m ++ ": ".toList ++ d ++ " [at ".toList ++ joinWith '.' t ++ "]".toList

/-- The error itself. -/
def Errata.head : Errata → Text
  | .mk m d t _ => headSpec m d t

/-- The causes of an error. -/
def Errata.why : Errata → List Errata
  | .mk _ _ _ l => l

/-- `x` is among the causes of `e`, `n` steps down. -/
inductive Under : Errata → Nat → Errata → Prop where
  | here (e : Errata) : Under e 0 e
  | down {e c x : Errata} {n : Nat} : c ∈ e.why → Under c n x → Under e (n + 1) x

/-- The lines of a cause, under the error it belongs to. -/
def item : List Text → List Text
  | [] => []
  | l :: ls => ("  • ".toList ++ l) :: ls.map (fun x => "    ".toList ++ x)

mutual
/-- The lines of a report. -/
def report : Errata → List Text
  | .mk m d t l => linesOf (headSpec m d t) ++ (if l.isEmpty then [] else "Caused by:".toList :: reports l)
/-- The lines of several causes. -/
def reports : List Errata → List Text
  | [] => []
  | e :: l => item (report e) ++ reports l
end

/-- A text that is not empty and does not end in a new line. -/
def Tidy (t : Text) : Prop := ∃ c, t.getLast? = some c ∧ c ≠ '\n'

/-- All causes, at all depths, have a text that is not empty and does not end in a new line. -/
def TidyCauses (e : Errata) : Prop := ∀ n x, Under e (n + 1) x → Tidy x.head

/-- An error about which nothing is known. -/
def Blank (e : Errata) : Prop := e.head = [] ∧ e.why = []

/-- `part` is in `whole`. -/
def Within (part whole : Text) : Prop := ∃ a b, whole = a ++ part ++ b

/-- The report says `part`: there is one, and one of its lines has it. -/
def Says (e : Errata) (part : Text) : Prop := ∃ t, e.show = some t ∧ ∃ l ∈ linesOf t, Within part l

end Verif.Report
