import Verif.Front.Model
import Verif.Hook.Model

/-!
# Model of the settings of the server

Source: src/core/blueprint/server.rs, src/core/config/directives/server.rs, src/core/config/headers.rs,
src/core/blueprint/telemetry.rs, src/core/blueprint/blueprint.rs, src/core/blueprint/timeout.rs,
src/cli/server/http_server.rs, src/cli/server/server_config.rs.
-/

namespace Verif.Settings

open Verif.Mustache (Text)

/-! ## Validation -/

/-- The errors of `BlueprintError` that settings can have (src/core/blueprint/error.rs:10-189, those used at
src/core/blueprint/server.rs:93, 102, 185, 201, 206, 226, 230 and src/core/blueprint/telemetry.rs:37, 46, 54, 104). -/
inductive Kind where
  | certificate
  | key
  | hostname
  | headerName (name : Text)
  | headerValue (value : Text)
  | experimental (name : Text)
  | cors
  | url
  | graphRef (text : Text)
  deriving DecidableEq, Repr

/-- An error and its trace (external crate `tailcall-valid`, used at src/core/blueprint/server.rs:12). -/
structure Err where
  kind : Kind
  place : List Text
  deriving DecidableEq, Repr

/-- `Valid` (external crate `tailcall-valid`, used at src/core/blueprint/server.rs:12): a value, or errors. -/
abbrev V (α : Type) := Except (List Err) α

/-- `Valid::fail` (external crate, used at src/core/blueprint/server.rs:93). -/
def fail {α : Type} (k : Kind) : V α := .error [⟨k, []⟩]

/-- `fuse` and `zip` (external crate, used at src/core/blueprint/server.rs:110-127, 209): errors add up. -/
def both {α β : Type} : V α → V β → V (α × β)
  | .ok a, .ok b => .ok (a, b)
  | .error e, .ok _ => .error e
  | .ok _, .error e => .error e
  | .error e, .error f => .error (e ++ f)

/-- `map` (external crate, used at src/core/blueprint/server.rs:128). -/
def mapV {α β : Type} (f : α → β) : V α → V β
  | .ok a => .ok (f a)
  | .error e => .error e

/-- `Valid::from_iter` (external crate, used at src/core/blueprint/server.rs:198, 224): errors add up. -/
def each {α β : Type} (f : α → V β) : List α → V (List β)
  | [] => .ok []
  | a :: l =>
    match f a, each f l with
    | .ok b, .ok bs => .ok (b :: bs)
    | .error e, .ok _ => .error e
    | .ok _, .error e => .error e
    | .error e, .error g => .error (e ++ g)

/-- `trace` (external crate, used at src/core/blueprint/server.rs:174-177): the place grows at its front. -/
def trace {α : Type} (p : Text) : V α → V α
  | .ok a => .ok a
  | .error es => .error (es.map (fun e => ⟨e.kind, p :: e.place⟩))

/-! ## What a configuration says -/

/-- `HttpVersion` (src/core/config/directives/server.rs:175-179). -/
inductive Version where
  | http1
  | http2
  deriving DecidableEq, Repr

/-- `Headers` (src/core/config/headers.rs:13-41). -/
structure Headers where
  cacheControl : Option Bool
  custom : List (Text × Text)
  experimental : Option (List Text)
  setCookies : Option Bool
  cors : Option Verif.Front.CorsConfig
  deriving DecidableEq, Repr

/-- `Routes` (src/core/config/directives/server.rs:127-133). -/
structure Routes where
  status : Text
  graphql : Text
  deriving DecidableEq, Repr

/-- `Routes::default` (src/core/config/directives/server.rs:143-147). -/
def Routes.default : Routes := ⟨"/status".toList, "/graphql".toList⟩

/-- `Server` of the configuration (src/core/config/directives/server.rs:31-125), without `enable_jit`, which is not
used, and `enable_federation`. -/
structure Conf where
  apolloTracing : Option Bool := none
  batchRequests : Option Bool := none
  headers : Option Headers := none
  globalResponseTimeout : Option Int := none
  hostname : Option Text := none
  introspection : Option Bool := none
  pipelineFlush : Option Bool := none
  port : Option Nat := none
  queryValidation : Option Bool := none
  responseValidation : Option Bool := none
  scriptTimeout : Option Nat := none
  showcase : Option Bool := none
  vars : List (Text × Text) := []
  version : Option Version := none
  workers : Option Nat := none
  routes : Option Routes := none
  deriving DecidableEq, Repr

/-- The part of `Extensions` that is read: certificates, keys and script (src/core/blueprint/server.rs:92-104, 156-160). -/
structure Ext where
  certs : List Text
  keys : List Text
  script : Option Text
  deriving DecidableEq, Repr

/-! ## What the server gets -/

/-- `Http` (src/core/blueprint/server.rs:46-53). -/
inductive Http where
  | http1
  | http2 (certs : List Text) (key : Text)
  deriving DecidableEq, Repr

/-- `Script` (src/core/blueprint/server.rs:40-44). -/
structure Script where
  source : Text
  timeout : Option Nat
  deriving DecidableEq, Repr

/-- `Server` of the blueprint (src/core/blueprint/server.rs:15-37); a `HeaderMap` is the list of its entries and a
`HashSet` the list of its members. -/
structure Server (Addr : Type) where
  apolloTracing : Bool
  cacheControl : Bool
  setCookies : Bool
  introspection : Bool
  queryValidation : Bool
  responseValidation : Bool
  batchRequests : Bool
  showcase : Bool
  timeout : Int
  workers : Nat
  port : Nat
  hostname : Addr
  vars : List (Text × Text)
  responseHeaders : List (Text × Text)
  http : Http
  pipelineFlush : Bool
  script : Option Script
  cors : Option Verif.Front.Cors
  experimental : List Text
  routes : Routes

/-- `collect::<BTreeMap<_, _>>()` one entry at a time (standard library, used at
src/core/config/directives/server.rs:229-235): a later value of a name replaces an earlier one.  Simplified: the order of
the entries is not that of the map. -/
def putVar (m : List (Text × Text)) (kv : Text × Text) : List (Text × Text) := m.filter (fun x => x.1 ≠ kv.1) ++ [kv]

/-- `get_vars` (src/core/config/directives/server.rs:229-235). -/
def getVars (l : List (Text × Text)) : List (Text × Text) := l.foldl putVar []

/-- `get_response_headers` (src/core/config/directives/server.rs:237-247). -/
def customOf (c : Conf) : List (Text × Text) := (c.headers.map Headers.custom).getD []

/-- `get_experimental_headers` (src/core/config/directives/server.rs:249-254). -/
def experimentalOf (c : Conf) : List Text := (c.headers.map (fun h => h.experimental.getD [])).getD []

/-- `validate_hostname` (src/core/blueprint/server.rs:180-194); `ip` stands for the parser of IP addresses of the
standard library. -/
def hostnameV {Addr : Type} (ip : Text → Option Addr) (loopback : Addr) (h : Text) : V Addr :=
  if h = "localhost".toList then .ok loopback
  else
    trace "schema".toList (trace "@server".toList (trace "hostname".toList
      (match ip h with
      | some a => .ok a
      | none => fail .hostname)))

/-- One header of `handle_response_headers` (src/core/blueprint/server.rs:198-210). -/
def headerV (kv : Text × Text) : V (Text × Text) :=
  both
    (match Verif.Hook.headerName kv.1 with | some n => .ok n | none => fail (.headerName kv.1))
    (if Verif.Hook.validValue kv.2 then .ok kv.2 else fail (.headerValue kv.2))

/-- `handle_response_headers` (src/core/blueprint/server.rs:195-217). -/
def headersV (l : List (Text × Text)) : V (List (Text × Text)) :=
  trace "schema".toList (trace "@server".toList (trace "headers".toList (trace "custom".toList (each headerV l))))

/-- One header of `handle_experimental_headers` (src/core/blueprint/server.rs:224-233).  Simplified: `to_lowercase` is
that of ASCII, which is all that can be followed by `-` or be part of a name. -/
def experimentalOne (h : Text) : V Text :=
  if !("x-".toList.isPrefixOf (h.map Char.toLower)) then fail (.experimental h)
  else
    match Verif.Hook.headerName h with
    | some n => .ok n
    | none => fail (.headerName h)

/-- `handle_experimental_headers` (src/core/blueprint/server.rs:220-240). -/
def experimentalV (l : List Text) : V (List Text) :=
  trace "schema".toList (trace "@server".toList (trace "headers".toList (trace "experimental".toList
    (each experimentalOne l))))

/-- `validate_cors` (src/core/blueprint/server.rs:172-178); which of the rules is broken is left out. -/
def corsV (c : Option Verif.Front.CorsConfig) : V (Option Verif.Front.Cors) :=
  trace "schema".toList (trace "@server".toList (trace "headers".toList (trace "cors".toList
    (match c with
    | none => .ok none
    | some c =>
      match Verif.Front.corsOf c with
      | some c => .ok (some c)
      | none => fail .cors))))

/-- `to_script` (src/core/blueprint/server.rs:153-170). -/
def scriptOf (c : Conf) (x : Ext) : Option Script := x.script.map (fun s => ⟨s, c.scriptTimeout⟩)

/-- The choice of the protocol (src/core/blueprint/server.rs:89-108). -/
def httpOf (c : Conf) (x : Ext) : V Http :=
  match c.version.getD .http1 with
  | .http1 => .ok .http1
  | .http2 =>
    if x.certs.isEmpty then fail .certificate
    else
      match x.keys with
      | [] => fail .key
      | k :: _ => .ok (.http2 x.certs k)

/-- The defaults and the values that are put together (src/core/blueprint/server.rs:128-150,
src/core/config/directives/server.rs:181-268, src/core/config/headers.rs:43-50). -/
def make {Addr : Type} (cpus : Nat) (c : Conf) (x : Ext) (hostname : Addr) (http : Http)
    (responseHeaders : List (Text × Text)) (experimental : List Text) (cors : Option Verif.Front.Cors) : Server Addr where
  apolloTracing := c.apolloTracing.getD false
  cacheControl := (c.headers.map (fun h => h.cacheControl.getD false)).getD false
  setCookies := (c.headers.map (fun h => h.setCookies.getD false)).getD false
  introspection := c.introspection.getD true
  queryValidation := c.queryValidation.getD false
  responseValidation := c.responseValidation.getD false
  batchRequests := c.batchRequests.getD false
  showcase := c.showcase.getD false
  timeout := c.globalResponseTimeout.getD 0
  workers := c.workers.getD cpus
  port := c.port.getD 8000
  hostname := hostname
  vars := getVars c.vars
  responseHeaders := responseHeaders
  http := http
  pipelineFlush := c.pipelineFlush.getD true
  script := scriptOf c x
  cors := cors
  experimental := experimental
  routes := c.routes.getD Routes.default

/-- `TryFrom<ConfigModule> for Server` (src/core/blueprint/server.rs:83-151): a protocol that cannot be used ends the
validation at once.  Simplified: `to_lowercase` of the hostname is that of ASCII. -/
def settings {Addr : Type} (ip : Text → Option Addr) (loopback : Addr) (cpus : Nat) (c : Conf) (x : Ext) :
    V (Server Addr) :=
  match httpOf c x with
  | .error e => .error e
  | .ok http =>
    mapV (fun r => make cpus c x r.1.1.1 http r.1.1.2 r.1.2 r.2)
      (both (both (both
        (hostnameV ip loopback ((c.hostname.getD "127.0.0.1".toList).map Char.toLower))
        (headersV (customOf c)))
        (experimentalV (experimentalOf c)))
        (corsV (c.headers.bind Headers.cors)))

/-! ## Starting and serving -/

/-- How a start ends (src/cli/server/http_server.rs:50-60). -/
inductive Started where
  | running (threads : Nat)
  | panic
  deriving DecidableEq, Repr

/-- The runtime of `fork_start` (src/cli/server/http_server.rs:51-55); `worker_threads` of tokio panics for zero. -/
def forkStart (cpus : Nat) (c : Conf) : Started :=
  let w := c.workers.getD cpus
  if w = 0 then .panic else .running w

/-- The two ways in which operations are executed: requests for GraphQL go to the planner
(src/core/http/request_handler.rs:131-139), REST endpoints to the schema (src/core/http/request_handler.rs:267-270). -/
inductive Way where
  | graphql
  | rest
  deriving DecidableEq, Repr

/-- The time limit of an operation in milliseconds: an extension of the schema (src/core/blueprint/blueprint.rs:220-224,
src/core/blueprint/timeout.rs:27-31), which the planner does not run. -/
def limit {Addr : Type} (s : Server Addr) : Way → Option Nat
  | .graphql => none
  | .rest => if 0 < s.timeout then some s.timeout.toNat else none

/-! ## Telemetry -/

/-- `TelemetryExporter` of the configuration (src/core/config/directives/telemetry.rs:63-68). -/
inductive Exporter where
  | stdout (pretty : Bool)
  | otlp (url : Text) (headers : List (Text × Text))
  | prometheus (path : Text)
  | apollo (graphRef : Text) (key : Text)
  deriving DecidableEq, Repr

/-- `TelemetryExporter` of the blueprint (src/core/blueprint/telemetry.rs:20-26). -/
inductive Export (U : Type) where
  | stdout (pretty : Bool)
  | otlp (url : U) (headers : List (Text × Text))
  | prometheus (path : Text)
  | apollo (graphRef : Text) (key : Text)

/-- `[A-Za-z0-9-_]` (src/core/blueprint/telemetry.rs:98). -/
def refChar (c : Char) : Bool := c.isAlphanum || c == '-' || c == '_'

/-- The regular expression of `validate_graph_ref` (src/core/blueprint/telemetry.rs:98-100). -/
def isRef (t : Text) : Bool :=
  let a := t.takeWhile refChar
  match t.dropWhile refChar with
  | '@' :: b => !a.isEmpty && !b.isEmpty && b.all refChar
  | _ => false

/-- `to_opentelemetry` (src/core/blueprint/telemetry.rs:61-89); `url` stands for `Url::parse`, and the exporter is
`none` if the configuration has none. -/
def telemetry {U : Type} (url : Text → Option U) (e : Option Exporter) (requestHeaders : List Text) :
    V (Option (Export U) × List Text) :=
  match e with
  | none => .ok (none, [])
  | some e =>
    trace "@telemetry".toList (mapV (fun x => (some x, requestHeaders))
      (match e with
      | .stdout p => .ok (.stdout p)
      | .otlp u hs =>
        trace "otlp".toList (mapV (fun r => .otlp r.1 r.2)
          (both
            (trace "url".toList (match url u with | some u => .ok u | none => fail .url))
            (trace "headers".toList (each headerV hs))))
      | .prometheus p => .ok (.prometheus p)
      | .apollo r k => trace "apollo.graph_ref".toList (if isRef r then .ok (.apollo r k) else fail (.graphRef r))))

/-- `split_once('@')` (standard library, used at src/cli/server/server_config.rs:28). -/
def splitOnce : Text → Option (Text × Text)
  | [] => none
  | c :: r => if c = '@' then some ([], r) else (splitOnce r).map (fun p => (c :: p.1, p.2))

/-- The graph and the variant that traces are sent for (src/cli/server/server_config.rs:27-36); the outer `none` is the
panic of `unwrap`. -/
def tracing {U : Type} : Option (Export U) → Option (Option (Text × Text))
  | some (.apollo r _) => (splitOnce r).map some
  | _ => some none

end Verif.Settings
