import Verif.Load.Model

/-!
# Model of the commands `check` and `start` and of the warnings about outdated files
(src/cli/tc/check.rs, src/cli/tc/start.rs, src/cli/tc/validate_rc.rs, src/cli/server/http_server.rs)

Reading, blueprint, validation of endpoints, telemetry, network and TLS are parameters (`World`).
-/

namespace Verif.Cmd

open Verif.Mustache (Text)

/-- What the commands call: `ConfigReader::read_all` (src/cli/tc/check.rs:20, start.rs:12), `Blueprint::try_from`
(check.rs:22, src/cli/server/http_server.rs:35), the endpoints and `into_checked` (check.rs:21, 29-34,
src/cli/server/server_config.rs:39), `get_workers` (http_server.rs:52), the graph of Apollo that must have an `@`
(server_config.rs:27-28), `init_opentelemetry` (http_server.rs:39), the address (src/cli/server/http_1.rs:33,
http_2.rs:24) and the certificate with its key (http_2.rs:25-26; `none` for HTTP/1).
Simplified: `into_checked` is a function of the configuration and the blueprint: validation runs no resolver, so
the two runtimes of check.rs:33 and server_config.rs:39 make no difference; that the files do not change between the
two commands; and `init` of the runtime (server_config.rs:23) does not panic. -/
structure World (M B : Type) where
  read : List Text → Except Text M
  blueprint : M → Except Text B
  endpoints : M → List (Text × Text)
  checkEndpoints : M → B → Except Text Unit
  workers : M → Nat
  graphOk : B → Bool
  telemetry : B → Except Text Unit
  bind : B → Except Text Unit
  tls : B → Option (Except Text Unit)

/-- The lines that the commands write (src/cli/tc/helpers.rs:29-34, check.rs:26, src/cli/fmt.rs:24-34,
helpers.rs:38-42, src/cli/server/mod.rs:11-24). -/
inductive Line where
  | endpoint (e : Text × Text)
  | config (paths : List Text)
  | npo (shown : Bool)
  | schema
  | launched
  deriving DecidableEq, Repr

/-- How a command ends: with a result, with an error (src/cli/tc/run.rs:47, 56), with a panic, or as a server that
serves (src/cli/server/http_1.rs:44-49). -/
inductive End where
  | done
  | fails (e : Text)
  | panics
  | serves
  deriving DecidableEq, Repr

/-- `str::cmp` of the standard library (used at src/cli/tc/helpers.rs:23, 25): the order of the bytes of UTF-8 is
the order of the characters. -/
def textLe : Text → Text → Bool
  | [], _ => true
  | _ :: _, [] => false
  | a :: r, b :: s => if a = b then textLe r s else a.toNat < b.toNat

/-- The comparison of endpoints, by the method and then by the path (src/cli/tc/helpers.rs:19-27).  Simplified: a
method is its text. -/
def endpointLe (a b : Text × Text) : Bool := if a.1 = b.1 then textLe a.2 b.2 else textLe a.1 b.1

/-- Part of `sortEndpoints`: puts an endpoint into its place (src/cli/tc/helpers.rs:19-27). -/
def insertEndpoint (x : Text × Text) : List (Text × Text) → List (Text × Text)
  | [] => [x]
  | y :: r => if endpointLe x y then x :: y :: r else y :: insertEndpoint x r

/-- `sort_by` of the standard library (used at src/cli/tc/helpers.rs:19-27), as an insertion sort: endpoints that are
equal in this order are written in the same way. -/
def sortEndpoints : List (Text × Text) → List (Text × Text)
  | [] => []
  | x :: r => insertEndpoint x (sortEndpoints r)

/-- `log_endpoint_set` (src/cli/tc/helpers.rs:17-36); a line has the method and the path. -/
def logEndpoints {M B : Type} (w : World M B) (m : M) : List Line := (sortEndpoints (w.endpoints m)).map .endpoint

/-- `check_command` (src/cli/tc/check.rs:17-43). -/
def check {M B : Type} (w : World M B) (paths : List Text) (npo schema : Bool) : List Line × End :=
  match w.read paths with
  | .error e => ([], .fails e)
  | .ok m =>
    match w.blueprint m with
    | .error e => (logEndpoints w m, .fails e)
    | .ok b =>
      match w.checkEndpoints m b with
      | .error e => (logEndpoints w m ++ [.config paths, .npo npo], .fails e)
      | .ok () => (logEndpoints w m ++ [.config paths, .npo npo] ++ (if schema then [.schema] else []), .done)

/-- `start_http_1` and `start_http_2` (src/cli/server/http_1.rs:33-49, http_2.rs:24-62). -/
def listen {M B : Type} (w : World M B) (b : B) : List Line × End :=
  match w.bind b with
  | .error e => ([], .fails e)
  | .ok () =>
    match w.tls b with
    | some (.error e) => ([], .fails e)
    | _ => ([.launched], .serves)

/-- `Server::start` and `ServerConfig::new` (src/cli/server/http_server.rs:34-47, server_config.rs:19-43); a panic
inside of the task is an error of the task (http_server.rs:56). -/
def serverStart {M B : Type} (w : World M B) (m : M) : List Line × End :=
  match w.blueprint m with
  | .error e => ([], .fails e)
  | .ok b =>
    if w.graphOk b then
      match w.checkEndpoints m b with
      | .error e => ([], .fails e)
      | .ok () =>
        match w.telemetry b with
        | .error e => ([], .fails e)
        | .ok () => listen w b
    else ([], .fails "task panicked".toList)

/-- `start_command` and `fork_start` (src/cli/tc/start.rs:8-18, src/cli/server/http_server.rs:50-60);
`worker_threads` of tokio panics for zero. -/
def start {M B : Type} (w : World M B) (paths : List Text) : List Line × End :=
  match w.read paths with
  | .error e => ([], .fails e)
  | .ok m =>
    let lines := logEndpoints w m ++ [.npo false]
    if w.workers m = 0 then (lines, .panics)
    else (lines ++ (serverStart w m).1, (serverStart w m).2)

/-! ## Warnings -/

/-- A file at a path: its text, or that it cannot be read (src/cli/tc/validate_rc.rs:27-35). -/
inductive Found where
  | text (t : Text)
  | unreadable
  deriving DecidableEq, Repr

/-- `Path::parent` on Unix (used at src/cli/tc/validate_rc.rs:18). -/
def parentOf (p : Text) : Option Text := if p = [] ∨ p = ['/'] then none else some (Verif.Load.parent p)

/-- Whether a file of one of the names is outdated (src/cli/tc/validate_rc.rs:26-37). -/
def outdated (disk : Text → Option Found) (dir : Text) (name base : Text) : Bool :=
  match disk (Verif.Load.join dir name) with
  | none => false
  | some .unreadable => true
  | some (.text t) => t ≠ base

/-- The files and what they should contain (src/cli/tc/validate_rc.rs:8-15, src/cli/tc/helpers.rs:9-11). -/
def rcFiles (rc schema : Text) : List (Text × Text) :=
  [(".tailcallrc.graphql".toList, rc), (".tailcallrc.schema.json".toList, schema)]

/-- A warning: the names of the files, and whether it says "are" (src/cli/tc/validate_rc.rs:40-47). -/
structure Warning where
  names : List Text
  plural : Bool
  deriving DecidableEq, Repr

/-- `join(", ")` (standard library, used at src/cli/tc/validate_rc.rs:41). -/
def joined (l : List Text) : Text := ", ".toList.intercalate l

/-- The warning for one path (src/cli/tc/validate_rc.rs:18-47): the number for the plural is the length of the
text with the names. -/
def warnOne (disk : Text → Option Found) (rc schema path : Text) : Option Warning :=
  match parentOf path with
  | none => none
  | some dir =>
    let names := ((rcFiles rc schema).filter (fun f => outdated disk dir f.1 f.2)).map (·.1)
    if names.isEmpty then none else some ⟨names, (joined names).length ≠ 1⟩

/-- `validate_rc_config_files` (src/cli/tc/validate_rc.rs:6-49). -/
def warnings (disk : Text → Option Found) (rc schema : Text) (paths : List Text) : List Warning :=
  paths.filterMap (warnOne disk rc schema)

end Verif.Cmd
