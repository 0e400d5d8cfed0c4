import Verif.Loaders.Model

/-!
# What is said about data loaders

The calls of a resolver, in the order in which they are written, and batching as the documentation
has it.
-/

namespace Verif.Loaders

open Mustache (Text)

mutual
/-- The calls of a resolver. -/
def callsOf : IR → List Io
  | .io i => [i]
  | .cache _ i => [i]
  | .path x _ => callsOf x
  | .protect _ x => callsOf x
  | .map x _ => callsOf x
  | .pipe a b => callsOf a ++ callsOf b
  | .merge l => callsOfAll l
  | .discriminate _ x => callsOf x
  | .entity m => callsOfEntries m
  | .dynamic _ => []
  | .ctxPath _ => []
  | .service _ => []
/-- The calls of several resolvers. -/
def callsOfAll : List IR → List Io
  | [] => []
  | x :: r => callsOf x ++ callsOfAll r
/-- The calls of the entries of an entity resolver. -/
def callsOfEntries : List (Text × IR) → List Io
  | [] => []
  | p :: r => callsOfEntry p ++ callsOfEntries r
/-- The calls of one entry. -/
def callsOfEntry : Text × IR → List Io
  | (_, x) => callsOf x
end

/-- The calls of a field. -/
def callsOfField (f : Field) : List Io := f.resolver.elim [] callsOf

/-- The calls of the fields of objects. -/
def objectCalls : List Def → List Io
  | [] => []
  | .object _ fs :: r => fs.flatMap callsOfField ++ objectCalls r
  | _ :: r => objectCalls r

/-- The loaders of a kind. -/
def State.of (s : State) : Kind → List Loader
  | .http => s.http
  | .graphql => s.graphql
  | .grpc => s.grpc
  | .js => []

/-- The loader that belongs to a call: it is made of what the call is. -/
def ownLoader (i : Io) : Loader := ⟨i.what, i.key⟩

mutual
/-- A resolver without the numbers of its loaders. -/
def plain : IR → IR
  | .io i => .io { i with dl := none }
  | .cache a i => .cache a { i with dl := none }
  | .path x p => .path (plain x) p
  | .protect a x => .protect a (plain x)
  | .map x m => .map (plain x) m
  | .pipe a b => .pipe (plain a) (plain b)
  | .merge l => .merge (plainAll l)
  | .discriminate d x => .discriminate d (plain x)
  | .entity m => .entity (plainEntries m)
  | .dynamic n => .dynamic n
  | .ctxPath p => .ctxPath p
  | .service t => .service t
/-- Several resolvers. -/
def plainAll : List IR → List IR
  | [] => []
  | x :: r => plain x :: plainAll r
/-- The entries of an entity resolver. -/
def plainEntries : List (Text × IR) → List (Text × IR)
  | [] => []
  | p :: r => plainEntry p :: plainEntries r
/-- One entry. -/
def plainEntry : Text × IR → Text × IR
  | (k, x) => (k, plain x)
end

/-- A field without the numbers of loaders. -/
def plainField (f : Field) : Field := { f with resolver := f.resolver.map plain }

/-- A definition without the numbers of loaders. -/
def plainDef : Def → Def
  | .object n fs => .object n (fs.map plainField)
  | .interface n fs => .interface n (fs.map plainField)
  | .other n => .other n

/-- Batching is on: there are settings, with a delay of at least one ("If the delay is set to 0, then
batching is disabled", comment at blueprint/upstream.rs:35-36). -/
def BatchingOn (b : Option Batch) : Prop := ∃ c, b = some c ∧ c.delay ≠ 0

/-- The calls of the fields of interfaces. -/
def interfaceCalls : List Def → List Io
  | [] => []
  | .interface _ fs :: r => fs.flatMap callsOfField ++ interfaceCalls r
  | _ :: r => interfaceCalls r

/-- Every batch key passed its check. -/
def KeysAccepted (ds : List Def) (c : Option Batch) : Prop := ∀ i ∈ objectCalls ds, keyAccepted c i = true

end Verif.Loaders
