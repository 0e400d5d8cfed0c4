/-!
# The `gen` command

Model of `tailcall gen` (src/cli/tc/gen.rs, src/cli/generator/config.rs, src/cli/generator/generator.rs):
how the paths in its file are resolved, what it links to, what it asks for and what it writes.
-/

namespace Verif.GenCmd

/-- Texts are lists of characters (the strings at src/cli/generator/config.rs:52). -/
abbrev Text := List Char

/-! ## Paths -/

/-- `std::path::Component` on Unix other than the root (used by the calls at
src/cli/generator/generator.rs:211 and src/cli/generator/config.rs:180). -/
inductive Comp where
  | cur
  | up
  | name (n : Text)
  deriving DecidableEq, Repr

/-- A path (`std::path::Path`, used at src/cli/generator/config.rs:172-183).
Simplified: a path is its components; how it is spelled, such as slashes in a row, is not kept. -/
structure Path where
  abs : Bool
  comps : List Comp
  deriving DecidableEq, Repr

/-- `Path::join` (used at src/cli/generator/config.rs:176 and :180, src/core/config/reader.rs:260). -/
def join (d p : Path) : Path := if p.abs then p else ⟨d.abs, d.comps ++ p.comps⟩

/-- `Path::parent` (used at src/cli/generator/generator.rs:100, src/cli/generator/config.rs:253,
src/core/config/reader.rs:208).  Simplified: for paths that end in a name. -/
def parent (p : Path) : Path := ⟨p.abs, p.comps.dropLast⟩

/-- One component in `PathClean::clean` (used at src/cli/generator/config.rs:180 and :182); what is done so
far has its last component first. -/
def cleanStep (abs : Bool) (done : List Comp) : Comp → List Comp
  | .cur => done
  | .name n => .name n :: done
  | .up =>
    match done with
    | .name _ :: rest => rest
    | [] => if abs then [] else [.up]
    | c :: rest => .up :: c :: rest

/-- `PathClean::clean` (used at src/cli/generator/config.rs:180 and :182). -/
def clean (p : Path) : Path :=
  let done := (p.comps.foldl (cleanStep p.abs) []).reverse
  ⟨p.abs, if done.isEmpty && !p.abs then [.cur] else done⟩

/-- The loop of `pathdiff::diff_paths` (used at src/cli/generator/generator.rs:211). -/
def diffLoop : List Comp → List Comp → List Comp → Option (List Comp)
  | [], [], acc => some acc
  | a :: as, [], acc => some (acc ++ a :: as)
  | [], _ :: bs, acc => diffLoop [] bs (acc ++ [.up])
  | a :: as, b :: bs, acc =>
    if acc.isEmpty && a == b then diffLoop as bs acc
    else if b == .cur then diffLoop as bs (acc ++ [a])
    else if b == .up then none
    else some (acc ++ .up :: bs.map (fun _ => Comp.up) ++ a :: as)

/-- `pathdiff::diff_paths` (used at src/cli/generator/generator.rs:211). -/
def diff (path base : Path) : Option Path :=
  if path.abs != base.abs then
    if path.abs then some path else none
  else (diffLoop path.comps base.comps []).map (fun c => ⟨false, c⟩)

/-! ## Locations -/

/-- A location (`Location`, src/cli/generator/config.rs:49-54): what `Url::parse` takes, which may be a
path with a colon, or a path. -/
inductive Loc where
  | url (u : Text)
  | path (p : Path)
  deriving DecidableEq, Repr

/-- What the computer says about paths (src/cli/generator/config.rs:177-179). -/
structure Sys where
  canonicalize : Path → Option Path
  cwd : Option Path

/-- `Location::into_resolved` (src/cli/generator/config.rs:169-187). -/
def resolveLoc (sys : Sys) (dir : Path) : Loc → Loc
  | .url u => .url u
  | .path p =>
    if p.abs then .path p
    else
      match sys.canonicalize (join dir p) with
      | some a => .path a
      | none =>
        match sys.cwd with
        | some c => .path (clean (join c (join dir p)))
        | none => .path (clean (join dir p))

/-- `Source` (src/cli/generator/config.rs:70-96).  Simplified: no headers, bodies and names; a request is
what it is sent to and whether it changes anything there. -/
inductive Src where
  | curl (src : Loc) (post : Bool)
  | proto (src : Loc) (paths : Option (List Loc))
  | config (src : Loc)
  deriving DecidableEq, Repr

/-- `Source::resolve` (src/cli/generator/config.rs:207-240). -/
def resolveSrc (sys : Sys) (dir : Path) : Src → Src
  | .curl s b => .curl (resolveLoc sys dir s) b
  | .proto s ps => .proto (resolveLoc sys dir s) (ps.map (fun l => l.map (resolveLoc sys dir)))
  | .config s => .config (resolveLoc sys dir s)

/-- The configuration of the command (`Config`, src/cli/generator/config.rs:19-28): the inputs, the output
and the threshold of `mergeType` in hundredths.  Simplified: without the schema and the model that names types,
and the threshold is a number of hundredths. -/
structure Conf where
  inputs : List Src
  output : Loc
  mergeType : Option Int
  deriving DecidableEq, Repr

/-- `Config::into_resolved` (src/cli/generator/config.rs:252-274). -/
def resolveConf (sys : Sys) (file : Path) (c : Conf) : Conf :=
  { c with
    inputs := c.inputs.map (resolveSrc sys (parent file))
    output := resolveLoc sys (parent file) c.output }

/-! ## Links -/

/-- `Link` (src/core/config/directives/link.rs:58-101), the source and the import paths. -/
structure Link where
  src : Loc
  paths : Option (List Loc)
  deriving DecidableEq, Repr

/-- The directory of the output (src/cli/generator/generator.rs:99-101).  Simplified: the parent of a URL,
which `Path` would compute from its text, is the empty path. -/
def outputDir : Loc → Path
  | .url _ => ⟨false, []⟩
  | .path p => parent p

/-- The path in the metadata of a proto file (src/cli/generator/generator.rs:143-145 and :206-212).
Simplified: a URL stays as it is, as it does when the output directory is absolute, since a URL is not. -/
def linkTo (out : Path) : Loc → Loc
  | .url u => .url u
  | .path p =>
    match diff p out with
    | some r => .path r
    | none => .path p

/-- The links that an input adds (src/core/generator/generator.rs:96-103 for proto files, :115 for
configurations, :136-137 for samples).  `own` gives the links in a configuration. -/
def linksOf (own : Loc → List Link) (out : Path) : Src → List Link
  | .curl _ _ => []
  | .proto s _ => [⟨linkTo out s, none⟩]
  | .config s => own s

/-- The links of the generated configuration (src/core/generator/generator.rs:112-149), which
`merge_right` appends (src/core/merge_right.rs:21-26). -/
def links (own : Loc → List Link) (c : Conf) : List Link :=
  c.inputs.flatMap (linksOf own (outputDir c.output))

/-- `resolve_path` for a link of the file at `dir` (src/core/config/reader.rs:253-262). -/
def readLoc (dir : Path) : Loc → Loc
  | .url u => .url u
  | .path p => .path (join dir p)

/-! ## Formats -/

/-- `Source` (src/core/config/source.rs:10-14). -/
inductive Format where
  | json
  | yml
  | graphql
  deriving DecidableEq, Repr

/-- `Path::extension` (used at src/core/config/source.rs:65): what follows the last dot of the name,
unless nothing precedes it. -/
def extension (name : Text) : Option Text :=
  let r := name.reverse
  let ext := r.takeWhile (· != '.')
  let rest := r.dropWhile (· != '.')
  match rest with
  | [] => none
  | _ :: before => if before.isEmpty then none else some ext.reverse

/-- `Source::from_str` (src/core/config/source.rs:42-49). -/
def formatOf (ext : Text) : Option Format :=
  let e := String.ofList (ext.map Char.toLower)
  if e = "json" then some .json
  else if e = "yml" ∨ e = "yaml" then some .yml
  else if e = "graphql" ∨ e = "gql" then some .graphql
  else none

/-- `Source::detect` (src/core/config/source.rs:63-69) on the last name of a path or a URL.
Simplified: what ends in a slash or in dots has no format. -/
def detect : Loc → Option Format
  | .url u => (extension (u.reverse.takeWhile (· != '/')).reverse).bind formatOf
  | .path p =>
    match p.comps.getLast? with
    | some (.name n) => (extension n).bind formatOf
    | _ => none

/-! ## The command -/

/-- Errors of the command (src/cli/generator/generator.rs:36-46, :76-89, :127, :142, :169, :180). -/
inductive Err where
  | badFile
  | badPreset
  | unreadable (l : Loc)
  | generation
  | format
  | prompt
  | write
  deriving DecidableEq, Repr

/-- What happens around the command: the files, what the network answers, what the person at the
terminal says (`none` when there is no terminal), which files can be written, and the rest of the generator
(src/cli/generator/generator.rs:35-90, :127, :142, :151, :172-180).  Simplified: the model that names types is
left out (:182-192), and `parse` includes reading environment variables. -/
structure Env where
  sys : Sys
  disk : Loc → Option Text
  web : Loc → Option Text
  parse : Format → Text → Option Conf
  render : List Text → Option Text
  confirm : Option Bool
  writable : Loc → Bool

/-- What a run has done: the requests it sent, whether it asked, and the files it wrote, with the result
(src/cli/generator/generator.rs:161-196). -/
structure Run where
  sent : List (Loc × Bool)
  asked : Bool
  written : List (Loc × Text)
  result : Except Err Unit

/-- A run that stops with an error (src/cli/generator/generator.rs:161-196). -/
def failed (sent : List (Loc × Bool)) (e : Err) : Run := ⟨sent, false, [], .error e⟩

/-- `Generator::read` (src/cli/generator/generator.rs:74-90, src/cli/generator/source.rs:10-31). -/
def readConf (env : Env) (file : Path) : Option Conf :=
  match detect (.path file) with
  | some .graphql => none
  | none => none
  | some f =>
    match env.disk (.path file) with
    | none => none
    | some t => (env.parse f t).map (resolveConf env.sys file)

/-- The preset (src/cli/generator/config.rs:122-159): the threshold is one when it lies between 0 and 1.
When it is not given it is 0 (src/core/config/transformer/preset.rs:17-24). -/
def presetOk (c : Conf) : Bool :=
  let t := c.mergeType.getD 0
  decide (0 ≤ t) && decide (t ≤ 100)

/-- Reading a URL or a file (src/core/resource_reader.rs:145-178). -/
def fetch (env : Env) : Loc → Option Text
  | .url u => env.web (.url u)
  | .path p => env.disk (.path p)

/-- The requests that reading makes (src/core/resource_reader.rs:145-178). -/
def asks : Loc → List (Loc × Bool)
  | .url u => [(.url u, false)]
  | .path _ => []

/-- Content or the error (src/cli/generator/generator.rs:127, :142 and :151). -/
def content (l : Loc) : Option Text → Except Err Text
  | some t => .ok t
  | none => .error (.unreadable l)

/-- One input of `resolve_io` (src/cli/generator/generator.rs:103-155): the requests and the content.
A sample is always asked for over the network, and a path is no URL for it (:112).
Simplified: the files that a proto file imports are not listed. -/
def ioOf (env : Env) : Src → List (Loc × Bool) × Except Err Text
  | .curl (.url u) post => ([(.url u, post)], content (.url u) (env.web (.url u)))
  | .curl (.path p) _ => ([], .error (.unreadable (.path p)))
  | .proto s _ => (asks s, content s (fetch env s))
  | .config s =>
    if (detect s).isSome then (asks s, content s (fetch env s))
    else ([], .error .format)

/-- `resolve_io` (src/cli/generator/generator.rs:94-158): one input after another, up to the first error. -/
def resolveIo (env : Env) : List Src → List (Loc × Bool) × Except Err (List Text)
  | [] => ([], .ok [])
  | s :: rest =>
    match ioOf env s with
    | (sent, .error e) => (sent, .error e)
    | (sent, .ok t) =>
      match resolveIo env rest with
      | (more, .error e) => (sent ++ more, .error e)
      | (more, .ok ts) => (sent ++ more, .ok (t :: ts))

/-- `write` and `should_overwrite` (src/cli/generator/generator.rs:35-72). -/
def write (env : Env) (sent : List (Loc × Bool)) (out : Loc) (sdl : Text) : Run :=
  match detect out with
  | some .graphql =>
    if (env.disk out).isSome then
      match env.confirm with
      | none => ⟨sent, true, [], .error .prompt⟩
      | some false => ⟨sent, true, [], .ok ()⟩
      | some true =>
        if env.writable out then ⟨sent, true, [(out, sdl)], .ok ()⟩
        else ⟨sent, true, [], .error .write⟩
    else if env.writable out then ⟨sent, false, [(out, sdl)], .ok ()⟩
    else failed sent .write
  | _ => failed sent .format

/-- `Generator::generate` (src/cli/generator/generator.rs:161-196). -/
def generate (env : Env) (file : Path) : Run :=
  match readConf env file with
  | none => failed [] .badFile
  | some c =>
    if presetOk c then
      match resolveIo env c.inputs with
      | (sent, .error e) => failed sent e
      | (sent, .ok ts) =>
        match env.render ts with
        | none => failed sent .generation
        | some sdl => write env sent c.output sdl
    else failed [] .badPreset

end Verif.GenCmd
