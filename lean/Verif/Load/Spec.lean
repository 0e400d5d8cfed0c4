import Verif.Load.Model
import Verif.Transform.Lemmas

/-!
# Specification: imports, where they are found, and what links give
-/

namespace Verif.Load

open Verif.Mustache (Text)
open Verif.Transform (At Lacks)

/-- The files that a file imports, and those that they import, if `rd` reads the file of an import. -/
inductive Imported (rd : Text → Res PFile) (root : PFile) : PFile → Prop
  | direct {i : Text} {f : PFile} : i ∈ root.src.deps → rd i = .ok f → Imported rd root f
  | step {i : Text} {f g : PFile} : Imported rd root f → i ∈ f.src.deps → rd i = .ok g → Imported rd root g

/-- A list of files is the root and all that it imports, all imports once. -/
def Whole (rd : Text → Res PFile) (root : PFile) (l : List PFile) : Prop :=
  ∃ imports, l = imports ++ [root] ∧ (imports.map (·.name)).Nodup ∧ ∀ f, f ∈ imports ↔ Imported rd root f

/-- The imports of a file, and of all that it imports, can be read. -/
def Readable (rd : Text → Res PFile) (root : PFile) : Prop :=
  ∀ f, f = root ∨ Imported rd root f → ∀ i ∈ f.src.deps, ∃ g, rd i = .ok g

/-- The first directory of a list that has a file of a name. -/
def FirstDir (disk : List (Text × Text)) (dirs : List Text) (name : Text) (content : Text) : Prop :=
  ∃ before d after, dirs = before ++ d :: after ∧ (∀ e ∈ before, Lacks disk (join e name)) ∧ At disk (join d name) content

/-- The text that a link leads to, relative to the directory of the configuration, which may be on the web. -/
def TextOf {β : Type} (io : Io β) (dir : Text) (l : Link) (c : Text) : Prop :=
  ∃ p, (p = if isUrl l.src then l.src else join dir l.src) ∧ if isUrl p then At io.web p c else At io.disk p c

/-- Two lists agree one by one. -/
inductive Each {α γ : Type} (R : α → γ → Prop) : List α → List γ → Prop
  | nil : Each R [] []
  | cons {a : α} {c : γ} {as : List α} {cs : List γ} : R a c → Each R as cs → Each R (a :: as) (c :: cs)

/-- The links of a kind, in order. -/
def ofKind (k : Kind) (ls : List Link) : List Link := ls.filter (fun l => l.kind = k)

/-- A file comes from a link to proto files or to a server with reflection. -/
def FromLink {β : Type} (io : Io β) (n : Nat) (dir : Text) (l : Link) (f : PFile) : Prop :=
  (l.kind = .protobuf ∧ ∃ fs, read io n (linkPath dir l.src) (l.protoPaths.map (fun ps => ps.map (linkPath dir))) = .ok fs ∧ f ∈ fs) ∨
  (l.kind = .grpc ∧ ∃ ls fs, fetch io n l.src = .ok ls ∧ fs ∈ ls ∧ f ∈ fs)

/-- The configuration that a link leads to: what the text says once the environment has been filled in. -/
def ConfigOf {β : Type} (io : Io β) (dir : Text) (l : Link) (o : Cfg β) : Prop :=
  ∃ c t, TextOf io dir l c ∧ renderFile io c = .ok t ∧ io.config (linkPath dir l.src) t = some o

/-- Types are unified one after the other. -/
inductive Unified {β : Type} (unify : β → β → Option β) : β → List β → β → Prop
  | nil {a : β} : Unified unify a [] a
  | cons {a b c r : β} {bs : List β} : unify a b = some c → Unified unify c bs r → Unified unify a (b :: bs) r

/-- The links are not empty, no two have the same id, and there is at most one script and one key. -/
def ProperLinks (ls : List Link) : Prop :=
  (∀ l ∈ ls, l.src ≠ []) ∧ (ls.filterMap (·.id)).Nodup ∧ (ofKind .script ls).length ≤ 1 ∧ (ofKind .key ls).length ≤ 1

/-- A text with the values of the environment filled in: variables that are set are replaced, all else is
kept. -/
inductive Filled (env : Text → Option Text) : List Verif.Mustache.Seg → Text → Prop
  | nil : Filled env [] []
  | text {l o : Text} {t : List Verif.Mustache.Seg} : Filled env t o → Filled env (.lit l :: t) (l ++ o)
  | value {k v o : Text} {t : List Verif.Mustache.Seg} : env k = some v → Filled env t o →
      Filled env (.expr ["env".toList, k] :: t) (v ++ o)
  | kept {ps : List Text} {o : Text} {t : List Verif.Mustache.Seg} : (∀ k, ps = ["env".toList, k] → env k = none) → Filled env t o →
      Filled env (.expr ps :: t) (['{', '{', '.'] ++ ['.'].intercalate ps ++ ['}', '}'] ++ o)

end Verif.Load
