import Verif.Cmd.Model

/-!
# Specification: what `check` promises, and which files are outdated
-/

namespace Verif.Cmd

open Verif.Mustache (Text)

/-- A configuration is right: it can be read, has a blueprint, and its endpoints fit. -/
inductive Right {M B : Type} (w : World M B) (paths : List Text) : M → B → Prop
  | intro {m : M} {b : B} : w.read paths = .ok m → w.blueprint m = .ok b → w.checkEndpoints m b = .ok () → Right w paths m b

/-- What is wrong with a configuration, by the first of the steps that fails. -/
inductive Wrong {M B : Type} (w : World M B) (paths : List Text) : Text → Prop
  | read {e : Text} : w.read paths = .error e → Wrong w paths e
  | blueprint {m : M} {e : Text} : w.read paths = .ok m → w.blueprint m = .error e → Wrong w paths e
  | endpoints {m : M} {b : B} {e : Text} : w.read paths = .ok m → w.blueprint m = .ok b →
      w.checkEndpoints m b = .error e → Wrong w paths e

/-- The place lets a server run: threads, telemetry, a free address, and a certificate that fits its key. -/
structure Able {M B : Type} (w : World M B) (m : M) (b : B) : Prop where
  workers : w.workers m ≠ 0
  graph : w.graphOk b = true
  telemetry : w.telemetry b = .ok ()
  bind : w.bind b = .ok ()
  tls : ∀ e, w.tls b ≠ some (.error e)

/-- The file of a name beside a path is there, and is not as the program would write it. -/
def Outdated (disk : Text → Option Found) (path name base : Text) : Prop :=
  ∃ f, disk (Verif.Load.join (Verif.Load.parent path) name) = some f ∧ f ≠ .text base

/-- The order of texts in a dictionary: one is the begin of the other, or is less at the first place where they are
not the same. -/
def Before (a b : Text) : Prop :=
  (∃ t, b = a ++ t) ∨ ∃ p x y r s, a = p ++ x :: r ∧ b = p ++ y :: s ∧ x.toNat < y.toNat

/-- The endpoints that are written. -/
def told (l : List Line) : List (Text × Text) :=
  l.filterMap fun | .endpoint e => some e | _ => none

end Verif.Cmd
