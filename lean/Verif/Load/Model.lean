import Verif.Mustache.Model
import Verif.Transform.Model

/-!
# Model of the reading of configurations, of their links and of proto files
(src/core/config/reader.rs, src/core/config/config_module.rs, src/core/proto_reader/reader.rs,
src/core/resource_reader.rs, src/core/blueprint/links.rs)

Files, servers and the parsers for their contents are parameters (`Io`).  Simplified: the reading itself
never changes what is read, so nothing is modelled of the cache of the reader
(src/core/resource_reader.rs:182-224).
-/

namespace Verif.Load

open Verif.Mustache (Text)
open Verif.Transform (get insert)

/-- The reasons for which reading ends without a result, by the place at which they are found:
src/core/resource_reader.rs:145-178 (`missing`), src/core/proto_reader/reader.rs:190 and the parsers of
src/core/config/reader.rs:66-140 (`parse`), src/core/proto_reader/reader.rs:218-223 (`package`), the errors
of merging (src/core/config/config_module/merge.rs:204-312), of no files at all
(src/core/config/reader.rs:218), and the panic of src/core/config/reader_context.rs:31-34.
Simplified: the texts of the errors are not modelled. -/
inductive Err where
  | missing (path : Text)
  | parse (path : Text)
  | package (path : Text)
  | merge
  | nothing
  | panic
  deriving DecidableEq, Repr

/-- `anyhow::Result` of a function that may still be running: `more` says that the loop of
src/core/proto_reader/reader.rs:111-127 has not ended after the given number of steps. -/
inductive Res (α : Type) where
  | ok (a : α)
  | err (e : Err)
  | more
  deriving DecidableEq, Repr

/-- The operator `?` (as in src/core/proto_reader/reader.rs:121). -/
def Res.bind {α β : Type} : Res α → (α → Res β) → Res β
  | .ok a, f => f a
  | .err e, _ => .err e
  | .more, _ => .more

/-- What a proto file says (`FileDescriptorProto` without its name, used at
src/core/proto_reader/reader.rs:112-123).  Simplified: definitions are a number. -/
structure Src where
  package : Option Text
  deps : List Text
  body : Nat
  deriving DecidableEq, Repr

/-- `FileDescriptorProto` (used at src/core/proto_reader/reader.rs:99-132). -/
structure PFile where
  name : Text
  src : Src
  deriving DecidableEq, Repr

/-- `LinkType` (src/core/config/directives/link.rs:18-56). -/
inductive Kind where
  | config | protobuf | script | cert | key | operation | htpasswd | jwks | grpc
  deriving DecidableEq, Repr

/-- `Link` (src/core/config/directives/link.rs:74-101) without headers and meta data. -/
structure Link where
  id : Option Text
  src : Text
  kind : Kind
  protoPaths : Option (List Text)
  deriving DecidableEq, Repr

/-- `Config` as far as it matters here: its links, what `..self.config` keeps (settings of the server, of
upstreams and of telemetry), and what is unified (src/core/config/config_module/merge.rs:296-302). -/
structure Cfg (β : Type) where
  links : List Link
  settings : Text
  types : β

/-- `Extensions` (src/core/config/config_module.rs:130-151). -/
structure Ext where
  protos : List (Text × PFile)
  script : Option Text
  certs : List Nat
  keys : List Nat
  endpoints : List Nat
  htpasswd : List (Option Text × Text)
  jwks : List (Option Text × Nat)
  deriving DecidableEq, Repr

/-- `Extensions::default` (src/core/config/config_module.rs:130). -/
def Ext.empty : Ext := ⟨[], none, [], [], [], [], []⟩

/-- What is outside: the files of the disk, the resources of the web, the well-known proto files, the
environment, a server for reflection (services, file of a service, file of a name), the parsers
(protox at src/core/proto_reader/reader.rs:190, PEM at src/core/config/reader.rs:150-176,
operations at :111, JSON at :124-131, configurations at :76 and :205-211) and the unification of
types (src/core/config/config_module/merge.rs:204-312; see the area Federation). -/
structure Io (β : Type) where
  disk : List (Text × Text)
  web : List (Text × Text)
  google : List (Text × Text)
  env : Text → Option Text
  services : Text → Option (List Text)
  byService : Text → Text → Option PFile
  byFile : Text → Text → Option PFile
  proto : Text → Option Src
  certs : Text → Option (List Nat)
  keys : Text → Option (List Nat)
  ops : Text → Option (List Nat)
  jwks : Text → Option Nat
  config : Text → Text → Option (Cfg β)
  unify : β → β → Option β

/-- An `Option` with the error for `none` (as `context` and `ok_or` at
src/core/config/reader.rs:214-218). -/
def orErr {α : Type} (e : Err) : Option α → Res α
  | some a => .ok a
  | none => .err e

/-! ## Resources and paths -/

/-- `Url::parse` with a scheme that starts with http (src/core/resource_reader.rs:149-150).
Simplified: a URL is a text that starts with the scheme and two slashes. -/
def isUrl (p : Text) : Bool := "http://".toList.isPrefixOf p || "https://".toList.isPrefixOf p

/-- `Reader::read` (src/core/resource_reader.rs:145-178). -/
def readFile {β : Type} (io : Io β) (p : Text) : Res Text :=
  orErr (.missing p) (if isUrl p then get io.web p else get io.disk p)

/-- `Path::is_absolute` on Unix (used at src/core/proto_reader/reader.rs:199). -/
def isAbsolute : Text → Bool
  | '/' :: _ => true
  | _ => false

/-- `Path::join` on Unix (used at src/core/proto_reader/reader.rs:205 and :212). -/
def join (d s : Text) : Text :=
  if isAbsolute s || d.isEmpty then s
  else if d.getLast? = some '/' then d ++ s
  else d ++ '/' :: s

/-- `Path::parent` on Unix (used at src/core/proto_reader/reader.rs:87, src/core/config/reader.rs:208).
Simplified: for paths of which the last part is a name, without slashes in a row. -/
def parent (p : Text) : Text :=
  let d := ((p.reverse.dropWhile (· != '/')).drop 1).reverse
  if d.isEmpty && isAbsolute p then ['/'] else d

/-! ## Proto files -/

/-- `resolve_path` (src/core/proto_reader/reader.rs:194-217).  `Path::exists` looks at the disk only. -/
def resolvePath {β : Type} (io : Io β) (src : Text) (root : Option Text) (paths : Option (List Text)) : Text :=
  if "http".toList.isPrefixOf src then src
  else if isAbsolute src then src
  else
    match (paths.getD []).find? (fun d => (get io.disk (join d src)).isSome) with
    | some d => join d src
    | none =>
      match root with
      | some d => join d src
      | none => src

/-- `read_proto` (src/core/proto_reader/reader.rs:176-191). -/
def readProto {β : Type} (io : Io β) (path : Text) (dir : Option Text) (paths : Option (List Text)) : Res PFile :=
  (match get io.google path with
    | some c => Res.ok c
    | none => readFile io (resolvePath io path dir paths)).bind fun c =>
  (orErr (.parse path) (io.proto c)).bind fun s => .ok ⟨path, s⟩

/-- The results of the imports of one file (src/core/proto_reader/reader.rs:120-126): the queue and the
files that are known. -/
def absorb : List (Res PFile) → List PFile → List PFile → Res (List PFile × List PFile)
  | [], q, d => .ok (q, d)
  | .err e :: _, _, _ => .err e
  | .more :: _, _, _ => .more
  | .ok p :: r, q, d =>
    if d.any (fun f => f.name = p.name) then absorb r q d else absorb r (q ++ [p]) (d ++ [p])

/-- The loop of `resolve_dependencies` (src/core/proto_reader/reader.rs:111-127), for at most `n` files of
the queue. -/
def walk (resolve : Text → Res PFile) : Nat → List PFile → List PFile → Res (List PFile)
  | _, [], d => .ok d
  | 0, _ :: _, _ => .more
  | n + 1, f :: q, d => (absorb (f.src.deps.map resolve) q d).bind fun x => walk resolve n x.1 x.2

/-- `resolve_dependencies` (src/core/proto_reader/reader.rs:99-134).  Simplified: the values of the map are
in the order in which they have been found. -/
def resolveDependencies (resolve : Text → Res PFile) (n : Nat) (root : PFile) : Res (List PFile) :=
  (walk resolve n [root] []).bind fun d => .ok (d ++ [root])

/-- `check_package` (src/core/proto_reader/reader.rs:218-223). -/
def checkPackage (f : PFile) : Res Unit := if f.src.package.isNone then .err (.package f.name) else .ok ()

/-- `ProtoReader::read` with `file_resolve` (src/core/proto_reader/reader.rs:76-96, 137-159). -/
def read {β : Type} (io : Io β) (n : Nat) (path : Text) (paths : Option (List Text)) : Res (List PFile) :=
  (readProto io path none none).bind fun f =>
  (checkPackage f).bind fun _ =>
  resolveDependencies (fun i => readProto io i (some (parent path)) paths) n f

/-- One service of `fetch` (src/core/proto_reader/reader.rs:52-60, 162-172). -/
def fetchOne {β : Type} (io : Io β) (n : Nat) (url s : Text) : Res (List PFile) :=
  (orErr (.missing s) (io.byService url s)).bind fun f =>
  (checkPackage f).bind fun _ =>
  resolveDependencies (fun i => orErr (.missing i) (io.byFile url i)) n f

/-- The service that is left out (src/core/proto_reader/reader.rs:49). -/
def reflectionName : Text := "grpc.reflection.v1alpha.ServerReflection".toList

/-- The loop of `fetch` (src/core/proto_reader/reader.rs:48-62). -/
def fetchAll {β : Type} (io : Io β) (n : Nat) (url : Text) : List Text → Res (List (List PFile))
  | [] => .ok []
  | s :: r =>
    if s = reflectionName then fetchAll io n url r
    else (fetchOne io n url s).bind fun l => (fetchAll io n url r).bind fun ls => .ok (l :: ls)

/-- `ProtoReader::fetch` (src/core/proto_reader/reader.rs:35-64). -/
def fetch {β : Type} (io : Io β) (n : Nat) (url : Text) : Res (List (List PFile)) :=
  (orErr (.missing url) (io.services url)).bind (fetchAll io n url)

/-! ## Links -/

/-- `add_proto` (src/core/config/config_module.rs:153-158). -/
def addProto (l : List PFile) (m : List (Text × PFile)) : List (Text × PFile) :=
  l.foldl (fun m f => insert m f.name f) m

/-- `ConfigReader::resolve_path` (src/core/config/reader.rs:253-262).  Simplified: URLs are not normalised,
and have the schemes of `isUrl`. -/
def linkPath (dir src : Text) : Text := if isUrl src then src else join dir src

/-- `path_string` of the context for reading (src/core/config/reader_context.rs:26-38) without variables,
as in src/core/config/reader.rs:43 and :191. -/
def envCtx {β : Type} (io : Io β) : List Text → Option Text
  | h :: k :: _ => if h = "env".toList then io.env k else none
  | _ => none

/-- `FileRead::render` (src/core/resource_reader.rs:24-29); `tail[0]` of an empty list is a panic
(src/core/config/reader_context.rs:34). -/
def renderFile {β : Type} (io : Io β) (content : Text) : Res Text :=
  let t := Verif.Mustache.parse content
  if .expr ["env".toList] ∈ t then .err .panic else .ok (Verif.Mustache.renderPartial t (envCtx io))

/-- `unify` of `Cache` (src/core/config/config_module/merge.rs:204-312): all but the types is that of the
first. -/
def unifyCfg {β : Type} (io : Io β) (a b : Cfg β) : Res (Cfg β) :=
  (orErr .merge (io.unify a.types b.types)).bind fun t => .ok { a with types := t }

/-- One link of `ext_links` (src/core/config/reader.rs:66-143): the configuration and the extensions.
Simplified: an error of merging ends the reading; in the program it is kept until the end. -/
def addLink {β : Type} (io : Io β) (n : Nat) (dir : Text) (l : Link) (s : Cfg β × Ext) : Res (Cfg β × Ext) :=
  let path := linkPath dir l.src
  match l.kind with
  | .config =>
    (readFile io path).bind fun c => (renderFile io c).bind fun c =>
    (orErr (.parse path) (io.config path c)).bind fun o => (unifyCfg io s.1 o).bind fun m => .ok (m, s.2)
  | .protobuf =>
    (read io n path (l.protoPaths.map (fun ps => ps.map (linkPath dir)))).bind fun fs =>
    .ok (s.1, { s.2 with protos := addProto fs s.2.protos })
  | .script => (readFile io path).bind fun c => .ok (s.1, { s.2 with script := some c })
  | .cert =>
    (readFile io path).bind fun c => (orErr (.parse path) (io.certs c)).bind fun k =>
    .ok (s.1, { s.2 with certs := s.2.certs ++ k })
  | .key =>
    (readFile io path).bind fun c => (orErr (.parse path) (io.keys c)).bind fun k => .ok (s.1, { s.2 with keys := k })
  | .operation =>
    (readFile io path).bind fun c => (orErr (.parse path) (io.ops c)).bind fun k =>
    .ok (s.1, { s.2 with endpoints := k })
  | .htpasswd => (readFile io path).bind fun c => .ok (s.1, { s.2 with htpasswd := s.2.htpasswd ++ [(l.id, c)] })
  | .jwks =>
    (readFile io path).bind fun c => (orErr (.parse path) (io.jwks c)).bind fun k =>
    .ok (s.1, { s.2 with jwks := s.2.jwks ++ [(l.id, k)] })
  | .grpc =>
    (fetch io n l.src).bind fun ls => .ok (s.1, { s.2 with protos := ls.foldl (fun m fs => addProto fs m) s.2.protos })

/-- The loop of `ext_links` (src/core/config/reader.rs:66-143). -/
def addLinks {β : Type} (io : Io β) (n : Nat) (dir : Text) : List Link → Cfg β × Ext → Res (Cfg β × Ext)
  | [], s => .ok s
  | l :: r, s => (addLink io n dir l s).bind (addLinks io n dir r)

/-- `resolve` and `ext_links` (src/core/config/reader.rs:38-148, 232-249).  Not modelled: the templates of
telemetry. -/
def resolve {β : Type} (io : Io β) (n : Nat) (dir : Text) (c : Cfg β) : Res (Cfg β × Ext) :=
  addLinks io n dir (c.links.filter (fun l => !l.src.isEmpty)) (c, Ext.empty)

/-- `Links::try_from` (src/core/blueprint/links.rs:12-60).  Simplified: whether there is an error. -/
def linksValid (ls : List Link) : Bool :=
  ls.all (fun l => !l.src.isEmpty && (l.id.isNone || decide ((ls.filter (fun k => k.id = l.id)).length ≤ 1))) &&
    decide ((ls.filter (fun l => l.kind = .script)).length ≤ 1) &&
    decide ((ls.filter (fun l => l.kind = .key)).length ≤ 1)

/-! ## Several files -/

/-- `merge_right` of extensions (src/core/config/config_module.rs:130, src/core/merge_right.rs:10-78,
110-114). -/
def Ext.merge (a b : Ext) : Ext where
  protos := b.protos.foldl (fun m p => insert m p.1 p.2) a.protos
  script := b.script.or a.script
  certs := a.certs ++ b.certs
  keys := a.keys ++ b.keys
  endpoints := a.endpoints ++ b.endpoints
  htpasswd := a.htpasswd ++ b.htpasswd
  jwks := a.jwks ++ b.jwks

/-- `unify` of modules (src/core/config/config_module/merge.rs:314-321). -/
def unifyModule {β : Type} (io : Io β) (a b : Cfg β × Ext) : Res (Cfg β × Ext) :=
  (unifyCfg io a.1 b.1).bind fun c => .ok (c, a.2.merge b.2)

/-- One file of `read_all` (src/core/config/reader.rs:193-212). -/
def readOne {β : Type} (io : Io β) (n : Nat) (path : Text) : Res (Cfg β × Ext) :=
  (readFile io path).bind fun c => (renderFile io c).bind fun c =>
  (orErr (.parse path) (io.config path c)).bind fun o => resolve io n (parent path) o

/-- The fold of `read_all` (src/core/config/reader.rs:221-225). -/
def readRest {β : Type} (io : Io β) (n : Nat) : List Text → Cfg β × Ext → Res (Cfg β × Ext)
  | [], m => .ok m
  | p :: r, m => (readOne io n p).bind fun o => (unifyModule io m o).bind (readRest io n r)

/-- `read_all` (src/core/config/reader.rs:187-228).  Simplified: in the program all files are read before
the first is parsed, so that another error may be reported. -/
def readAll {β : Type} (io : Io β) (n : Nat) : List Text → Res (Cfg β × Ext)
  | [] => .err .nothing
  | p :: r => (readOne io n p).bind (readRest io n r)

end Verif.Load
