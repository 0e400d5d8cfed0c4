import Verif.Cli.Model

/-!
# What is expected of `init` and of tracking
-/

namespace Verif.Cli

/-- The items of a setting that is a list or one value. -/
def Ys.toList : Ys → List Y
  | .nil => []
  | .cons v rest => v :: rest.toList

/-- The items of a setting: those of a list, a single value, or none. -/
def items : Option Y → List Y
  | none => []
  | some (.seq l) => l.toList
  | some v => [v]

/-- A setting that is a list or a mapping, or is not there. -/
def Structured : Option Y → Prop
  | none => True
  | some (.seq _) => True
  | some (.map _) => True
  | some _ => False

/-- The patterns that `init` adds. -/
def patterns : List Y := [.str "./.tailcallrc.graphql".toList, .str "./*.graphql".toList]

/-- YAML that is written is read back. -/
def RoundTrip (env : Env) : Prop := ∀ y, env.parse (env.print y) = some y

/-- The files that a run of `init` is about: those for the chosen format. -/
def Wanted (env : Env) (n : Name) : Prop :=
  match n with
  | .mainJson => env.json = some true
  | .mainYml => env.json = some false
  | _ => True

/-- Someone has opted out: the variable that counts, the long one before the short one, says false, in any case. -/
def OptedOut (v : Vars) : Prop :=
  ∃ t, (v.long = some t ∨ (v.long = none ∧ v.short = some t)) ∧ t.map Char.toLower = "false".toList

/-- Someone has opted in: the variable that counts says something else. -/
def OptedIn (v : Vars) : Prop :=
  ∃ t, (v.long = some t ∨ (v.long = none ∧ v.short = some t)) ∧ t.map Char.toLower ≠ "false".toList

/-- A version for development: it has `dev` somewhere. -/
def Dev (version : Text) : Prop := ∃ a b, version = a ++ "dev".toList ++ b

/-- What a collector got. -/
def got (t : Tracker) (c : Collector) : List Event := (t.sent.filter (fun x => x.1 == c)).map (·.2)

end Verif.Cli
