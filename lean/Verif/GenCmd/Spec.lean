import Verif.GenCmd.Model

/-!
# What is expected of the `gen` command

Where a path leads is told by walking along it, as an operating system does; what a run may write is
told by comparing the files before and after it.
-/

namespace Verif.GenCmd

/-- Symbolic links: from the names that lead to one to the names of its target. -/
abbrev Symlinks := List Text → Option (List Text)

/-- Walking along a path: each name leads into an entry, or to the target of the symbolic link there, and
`..` leads to where the current directory lies. -/
def walk (sl : Symlinks) : List Text → List Comp → List Text
  | at_, [] => at_
  | at_, .cur :: rest => walk sl at_ rest
  | at_, .up :: rest => walk sl at_.dropLast rest
  | at_, .name n :: rest => walk sl ((sl (at_ ++ [n])).getD (at_ ++ [n])) rest

/-- Where a path leads from the root. -/
def place (sl : Symlinks) (p : Path) : List Text := walk sl [] p.comps

/-- No symbolic links. -/
def Plain (sl : Symlinks) : Prop := ∀ at_, sl at_ = none

/-- A path of names only. -/
def Named (p : Path) : Prop := p.abs = true ∧ ∀ c ∈ p.comps, ∃ n, c = .name n

/-- A computer with these symbolic links, started in the directory `cwd`: an answer about where a file
lies is a path of names that leads there. -/
def Honest (sl : Symlinks) (cwd : Path) (sys : Sys) : Prop :=
  sys.cwd = some cwd ∧ cwd.abs = true ∧
    ∀ p a, sys.canonicalize p = some a → Named a ∧ place sl a = place sl (join cwd p)

/-- Where a path in the file of the command is meant to lead: it is relative to that file. -/
def meant (sl : Symlinks) (cwd file p : Path) : List Text := place sl (join cwd (join (parent file) p))

/-- A link, read from the configuration at `out`, leads to a place. -/
def LeadsTo (sl : Symlinks) (out : Path) (l : Link) (there : List Text) : Prop :=
  ∃ q, readLoc (parent out) l.src = .path q ∧ q.abs = true ∧ place sl q = there

/-- The files after a run. -/
def after (env : Env) (r : Run) (l : Loc) : Option Text :=
  match r.written.reverse.find? (fun w => w.1 == l) with
  | some w => some w.2
  | none => env.disk l

/-- A name of a GraphQL file. -/
def GraphqlName (n : Text) : Prop :=
  ∃ base ext, n = base ++ '.' :: ext ∧ base ≠ [] ∧
    (ext.map Char.toLower = "graphql".toList ∨ ext.map Char.toLower = "gql".toList)

/-- The last name of a location. -/
def LastName (l : Loc) (n : Text) : Prop :=
  match l with
  | .url u => ∃ before, u = before ++ n ∧ (before = [] ∨ before.getLast? = some '/')
  | .path p => ∃ before, p.comps = before ++ [.name n]

/-- A request for a sample. -/
def sample : Src → List (Loc × Bool)
  | .curl (.url u) post => [(.url u, post)]
  | .proto (.url u) _ => [(.url u, false)]
  | .config (.url u) => [(.url u, false)]
  | _ => []

end Verif.GenCmd
