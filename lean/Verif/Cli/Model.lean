/-!
# The `init` command and usage tracking

Model of `tailcall init` (src/cli/tc/init.rs, src/cli/runtime/mod.rs) and of what the program reports about its
use (tailcall-tracker/src/can_track.rs, tailcall-tracker/src/dispatch.rs, src/cli/tc/run.rs).
-/

namespace Verif.Cli

/-- Texts are lists of characters (the strings at src/cli/tc/init.rs:17). -/
abbrev Text := List Char

/-! ## YAML values -/

mutual
/-- `serde_yaml_ng::Value` (used at src/core/merge_right.rs:131-176).  Simplified: keys are texts, and numbers
are their spelling. -/
inductive Y where
  | null
  | bool (b : Bool)
  | num (n : Text)
  | str (t : Text)
  | seq (l : Ys)
  | map (m : Kvs)
  | tagged (tag : Text) (v : Y)

/-- A sequence of values (src/core/merge_right.rs:137-146). -/
inductive Ys where
  | nil
  | cons (v : Y) (rest : Ys)

/-- The entries of a mapping (src/core/merge_right.rs:147-156). -/
inductive Kvs where
  | nil
  | cons (k : Text) (v : Y) (rest : Kvs)
end

/-- `Vec::extend` (used at src/core/merge_right.rs:139). -/
def Ys.append : Ys → Ys → Ys
  | .nil, l => l
  | .cons v rest, l => .cons v (rest.append l)

/-- `Mapping::get` (serde_yaml_ng, as used by `remove` at src/core/merge_right.rs:150). -/
def Kvs.get (k : Text) : Kvs → Option Y
  | .nil => none
  | .cons k' v rest => if k = k' then some v else rest.get k

/-- `Mapping::remove` (used at src/core/merge_right.rs:150). -/
def Kvs.remove (k : Text) : Kvs → Kvs
  | .nil => .nil
  | .cons k' v rest => if k = k' then rest.remove k else .cons k' v (rest.remove k)

/-- `Mapping::insert` of a key that is not there (used at src/core/merge_right.rs:153). -/
def Kvs.push (k : Text) (v : Y) : Kvs → Kvs
  | .nil => .cons k v .nil
  | .cons k' v' rest => .cons k' v' (rest.push k v)

mutual
/-- `merge_right` of YAML values (src/core/merge_right.rs:132-175), on the right value. -/
def mergeY : Y → Y → Y
  | .null, lhs =>
    (match lhs with
    | .seq l => .seq (l.append (.cons .null .nil))
    | _ => .null)
  | .bool b, lhs =>
    (match lhs with
    | .seq l => .seq (l.append (.cons (.bool b) .nil))
    | _ => .bool b)
  | .num n, lhs =>
    (match lhs with
    | .seq l => .seq (l.append (.cons (.num n) .nil))
    | _ => .num n)
  | .str t, lhs =>
    (match lhs with
    | .seq l => .seq (l.append (.cons (.str t) .nil))
    | _ => .str t)
  | .seq r, lhs =>
    (match lhs with
    | .seq l => .seq (l.append r)
    | .map m => .seq (r.append (.cons (.map m) .nil))
    | _ => .seq r)
  | .map r, lhs =>
    (match lhs with
    | .seq l => .seq (l.append (.cons (.map r) .nil))
    | .map m => .map (mergeKvs r m)
    | _ => .map r)
  | .tagged t v, lhs =>
    (match lhs with
    | .seq l => .seq (l.append (.cons (.tagged t v) .nil))
    | .tagged t' w => if t' = t then .tagged t' (mergeY v w) else .tagged t v
    | _ => .tagged t v)

/-- The loop over the entries of the right mapping (src/core/merge_right.rs:149-154). -/
def mergeKvs : Kvs → Kvs → Kvs
  | .nil, m => m
  | .cons k v rest, m =>
    mergeKvs rest
      (match m.get k with
      | some w => (m.remove k).push k (mergeY v w)
      | none => m.push k v)
end

/-- `default_graphqlrc` (src/cli/tc/init.rs:56-61). -/
def defaultRc : Y :=
  .map (.cons "schema".toList
    (.seq (.cons (.str "./.tailcallrc.graphql".toList) (.cons (.str "./*.graphql".toList) .nil))) .nil)

/-! ## The `init` command -/

/-- The files that `init` writes (src/cli/tc/init.rs:28-30 and :135-144); the main configuration is in JSON or in
YAML. -/
inductive Name where
  | rc
  | graphqlrc
  | rcSchema
  | mainJson
  | mainYml
  | mainSchema
  deriving DecidableEq, Repr

/-- A file: a text, or what cannot be read as one (src/cli/runtime/file.rs:14-19). -/
inductive File where
  | text (t : Text)
  | other
  deriving DecidableEq, Repr

/-- The files in the folder (src/cli/tc/init.rs:28-30). -/
abbrev Disk := Name → Option File

/-- The files with one replaced (src/cli/runtime/file.rs:21-25). -/
def Disk.put (d : Disk) (n : Name) (t : Text) : Disk := fun m => if m = n then some (.text t) else d m

/-- Errors of `init` (src/cli/tc/init.rs:17-54). -/
inductive Err where
  | prompt
  | yaml
  | write (n : Name)
  deriving DecidableEq, Repr

/-- What is around the command: whether the folder exists, the answers at the terminal (`none` when there is no
terminal or the question is interrupted), what can be written, the reader and writer of YAML, and the texts of
the files (src/cli/tc/init.rs:18-26 and :120-133). -/
structure Env where
  folder : Bool
  create : Option Bool
  json : Option Bool
  confirm : Name → Option Bool
  writable : Name → Bool
  parse : Text → Option Y
  print : Y → Text
  texts : Name → Text

/-- The state of a run: the folder, the files, and the files about which it asked
(src/cli/tc/init.rs:17-54). -/
structure St where
  folder : Bool
  disk : Disk
  asked : List Name

/-- `FileIO::write` (src/cli/runtime/file.rs:21-36), which needs the folder. -/
def fileWrite (env : Env) (s : St) (n : Name) (t : Text) : St × Except Err Unit :=
  if s.folder && env.writable n then ({ s with disk := s.disk.put n t }, .ok ())
  else (s, .error (.write n))

/-- `confirm_and_write` (src/cli/runtime/mod.rs:88-108). -/
def confirmWrite (env : Env) (s : St) (n : Name) (t : Text) : St × Except Err Unit :=
  if (s.disk n).isSome then
    let s := { s with asked := s.asked ++ [n] }
    match env.confirm n with
    | none => (s, .error .prompt)
    | some false => (s, .ok ())
    | some true => fileWrite env s n t
  else fileWrite env s n t

/-- `create_directory` (src/cli/runtime/mod.rs:110-129). -/
def createFolder (env : Env) (s : St) : St × Except Err Unit :=
  if s.folder then (s, .ok ())
  else
    match env.create with
    | none => (s, .error .prompt)
    | some true => ({ s with folder := true }, .ok ())
    | some false => (s, .ok ())

/-- `confirm_and_write_yml` (src/cli/tc/init.rs:63-83). -/
def writeRc (env : Env) (s : St) : St × Except Err Unit :=
  match s.disk .graphqlrc with
  | some (.text t) =>
    match env.parse t with
    | none => (s, .error .yaml)
    | some y => confirmWrite env s .graphqlrc (env.print (mergeY defaultRc y))
  | _ => fileWrite env s .graphqlrc (env.print defaultRc)

/-- One step after another, up to the first error (the `?` at src/cli/tc/init.rs:18-51). -/
def steps (s : St) : List (St → St × Except Err Unit) → St × Except Err Unit
  | [] => (s, .ok ())
  | f :: rest =>
    match f s with
    | (s', .error e) => (s', .error e)
    | (s', .ok ()) => steps s' rest

/-- The main configuration (src/cli/tc/init.rs:123-139). -/
def mainName (json : Bool) : Name := if json then .mainJson else .mainYml

/-- `init_command` (src/cli/tc/init.rs:17-54 and :115-154). -/
def init (env : Env) (disk : Disk) : St × Except Err Unit :=
  steps ⟨env.folder, disk, []⟩
    [createFolder env,
     fun s => if env.json.isSome then (s, .ok ()) else (s, .error .prompt),
     fun s => confirmWrite env s .rc (env.texts .rc),
     writeRc env,
     fun s => confirmWrite env s .rcSchema (env.texts .rcSchema),
     fun s => confirmWrite env s (mainName (env.json.getD true)) (env.texts (mainName (env.json.getD true))),
     fun s => confirmWrite env s .mainSchema (env.texts .mainSchema)]

/-! ## Tracking -/

/-- `eq_ignore_ascii_case` with `false` (tailcall-tracker/src/can_track.rs:13). -/
def isFalse (v : Text) : Bool := v.map Char.toLower == "false".toList

/-- The variables of the environment (tailcall-tracker/src/can_track.rs:11-12). -/
structure Vars where
  long : Option Text
  short : Option Text
  deriving DecidableEq, Repr

/-- `is_dev` (tailcall-version/src/lib.rs:16-18). -/
def isDev : Text → Bool
  | [] => false
  | c :: rest => "dev".toList.isPrefixOf (c :: rest) || isDev rest

/-- `can_track_inner` (tailcall-tracker/src/can_track.rs:18-24). -/
def canTrackInner (prod : Bool) : Option Bool → Bool
  | some b => b
  | none => prod

/-- `can_track` (tailcall-tracker/src/can_track.rs:9-16).  Simplified: a variable that is not Unicode is
one that is not set, as `env::var` has it. -/
def canTrack (version : Text) (v : Vars) : Bool :=
  canTrackInner (!isDev version) ((v.long.or v.short).map (fun t => !isFalse t))

/-- `EventKind` (tailcall-tracker/src/event.rs:45-48). -/
inductive Kind where
  | ping
  | command (name : Text)
  deriving DecidableEq, Repr

/-- `Event` (tailcall-tracker/src/event.rs:8-21).  Simplified: the name of the event and the addresses; the name is not
put into snake case. -/
structure Event where
  kind : Kind
  emails : List Text
  deriving DecidableEq, Repr

/-- The collectors (tailcall-tracker/src/dispatch.rs:42-56). -/
inductive Collector where
  | ga
  | posthog
  deriving DecidableEq, Repr

/-- A tracker as it runs: whether it may, the addresses once they are known, how often they were looked for,
and what was sent (tailcall-tracker/src/dispatch.rs:33-38, :98-104). -/
structure Tracker where
  can : Bool
  emails : Option (List Text)
  looked : Nat
  sent : List (Collector × Event)
  deriving DecidableEq, Repr

/-- `Tracker::default` (tailcall-tracker/src/dispatch.rs:40-56). -/
def Tracker.new (version : Text) (v : Vars) : Tracker := ⟨canTrack version v, none, 0, []⟩

/-- `Tracker::email` (tailcall-tracker/src/dispatch.rs:98-104); `found` is what the computer gives. -/
def Tracker.look (t : Tracker) (found : List Text) : Tracker × List Text :=
  match t.emails with
  | some l => (t, l)
  | none => ({ t with emails := some found, looked := t.looked + 1 }, found)

/-- Sending to the collectors in turn, up to the first that fails (tailcall-tracker/src/dispatch.rs:88-90). -/
def sendAll (up : Collector → Bool) (e : Event) : List Collector → List (Collector × Event)
  | [] => []
  | c :: rest => if up c then (c, e) :: sendAll up e rest else []

/-- `Tracker::dispatch` (tailcall-tracker/src/dispatch.rs:69-96). -/
def Tracker.dispatch (t : Tracker) (found : List Text) (up : Collector → Bool) (k : Kind) : Tracker :=
  if t.can then
    let (t', l) := t.look found
    { t' with sent := t'.sent ++ sendAll up ⟨k, l⟩ [.ga, .posthog] }
  else t

/-- A run of the program: pings and the command, in any order (src/cli/tc/run.rs:14-33,
tailcall-tracker/src/dispatch.rs:59-67); each event meets its own state of the computer and the network. -/
def Tracker.run (t : Tracker) : List (Kind × List Text × (Collector → Bool)) → Tracker
  | [] => t
  | (k, found, up) :: rest => (t.dispatch found up k).run rest

end Verif.Cli
