import Verif.HttpUrl.Model

/-!
# Model of the JavaScript hooks

What requests and responses become in JavaScript and back (src/cli/javascript/codec.rs, src/core/worker/worker.rs), the
runtime for scripts (src/cli/javascript/runtime.rs), the hooks (src/core/worker_hooks.rs), and where they are used
(src/core/ir/eval_http.rs:102-144, src/core/ir/eval_io.rs:43-118).
-/

namespace Verif.Hook

open Verif.Mustache (Text)
open Verif.HttpUrl (QC encodeQuery pairsOf cutAt)

/-! ## Maps -/

/-- The order of strings (standard library, used by the maps at worker.rs:57, 159 and 203). -/
def ltText : Text → Text → Bool
  | [], [] => false
  | [], _ :: _ => true
  | _ :: _, [] => false
  | a :: x, b :: y => a.toNat < b.toNat || (a == b && ltText x y)

/-- `BTreeMap::insert` (standard library, used at worker.rs:59, 161). -/
def put (k v : Text) : List (Text × Text) → List (Text × Text)
  | [] => [(k, v)]
  | (k', v') :: r => if k = k' then (k, v) :: r else if ltText k k' then (k, v) :: (k', v') :: r else (k', v') :: put k v r

/-- `collect` into a `BTreeMap` (standard library, used at worker.rs:203): the last value of a key stays. -/
def toMap (l : List (Text × Text)) : List (Text × Text) := l.foldl (fun m x => put x.1 x.2 m) []

/-! ## Values of JavaScript -/

/-- Values (external crate `rquickjs`, used at codec.rs:11-208). Numbers are integers; arrays, functions and the like are
`other`. -/
inductive Js where
  | undef
  | null
  | num (n : Int)
  | str (t : Text)
  | obj (props : List (Text × Js))
  | other

/-- What goes wrong (worker/error.rs:8-62): `panic` is an `unwrap` of an error. -/
inductive Err where
  | convert
  | clone
  | missing (name : Text)
  | start
  | noString
  | json
  | panic
  | upstream (message : Text)
  deriving DecidableEq

/-- `Object::get` (external crate, used at codec.rs:64-67): what is not there is undefined. -/
def prop (o : List (Text × Js)) (k : Text) : Js :=
  match o.find? (fun x => x.1 = k) with
  | some x => x.2
  | none => .undef

/-- `Object::contains_key` (external crate, used at codec.rs:19, 24). -/
def has (o : List (Text × Js)) (k : Text) : Bool := o.any (fun x => x.1 = k)

/-- `as_object` (external crate, used at codec.rs:13, 59, 151, 178). -/
def asObj : Js → Except Err (List (Text × Js))
  | .obj o => .ok o
  | _ => .error .convert

/-- `String` from a value (external crate, used at codec.rs:65). -/
def asStr : Js → Except Err Text
  | .str t => .ok t
  | _ => .error .convert

/-- `Option<String>` from a value (external crate, used at codec.rs:67, 159, 185). -/
def asOptStr : Js → Except Err (Option Text)
  | .undef | .null => .ok none
  | .str t => .ok (some t)
  | _ => .error .convert

/-- `u16` from a value (external crate, used at codec.rs:183). -/
def asU16 : Js → Except Err Nat
  | .num n => if 0 ≤ n ∧ n < 65536 then .ok n.toNat else .error .convert
  | _ => .error .convert

/-- `Option<u16>` from a value (external crate, used at codec.rs:160). -/
def asOptU16 : Js → Except Err (Option Nat)
  | .undef | .null => .ok none
  | v => (asU16 v).map some

/-- The strings of an object (helper of `asMap`, codec.rs:66). -/
def strings : List (Text × Js) → Except Err (List (Text × Text))
  | [] => .ok []
  | (k, v) :: r =>
    match asStr v with
    | .error e => .error e
    | .ok t => (strings r).map ((k, t) :: ·)

/-- `BTreeMap<String, String>` from a value (external crate, used at codec.rs:66, 157, 184). -/
def asMap (v : Js) : Except Err (List (Text × Text)) :=
  match asObj v with
  | .error e => .error e
  | .ok o => (strings o).map toMap

/-- A map of strings as a value (external crate, used at codec.rs:44, 141, 170). -/
def ofMap (m : List (Text × Text)) : Js := .obj (m.map (fun x => (x.1, .str x.2)))

/-- `Option<String>` as a value (external crate, used at codec.rs:52, 143). -/
def ofOptStr : Option Text → Js
  | some t => .str t
  | none => .undef

/-- `Option<u16>` as a value (external crate, used at codec.rs:144). -/
def ofOptNum : Option Nat → Js
  | some n => .num n
  | none => .undef

/-! ## Requests and responses -/

/-- `reqwest::Url` (external crate, used at worker.rs:199-212): the credentials are one text; the port is there only if it is
not the one of the scheme. -/
structure Url where
  scheme : Text
  user : Option Text
  host : Option Text
  port : Option Nat
  path : Text
  query : Option (List QC)
  frag : Option Text
  deriving DecidableEq

/-- `reqwest::Body` (external crate, used at worker.rs:166-173): text, bytes that are no text with what
`String::from_utf8_lossy` makes of them, or a stream. -/
inductive Body where
  | text (t : Text)
  | binary (lossy : Text)
  | stream
  deriving DecidableEq

/-- `reqwest::Request` (external crate, used at worker.rs:37): headers in the order of the map, several values of a name in
their order. A character of a value stands for a byte. -/
structure Req where
  method : Text
  url : Url
  headers : List (Text × Text)
  body : Option Body
  deriving DecidableEq

/-- `Response` (http/response.rs:13-18). -/
structure Resp (β : Type) where
  status : Nat
  headers : List (Text × Text)
  body : β
  deriving DecidableEq

/-- `Uri` (worker.rs:19-31). -/
structure Uri where
  path : Text
  query : List (Text × Text)
  https : Bool
  host : Option Text
  port : Option Nat
  deriving DecidableEq

/-- `Command` (worker.rs:45-49). -/
inductive Command where
  | request (r : Req)
  | response (r : Resp Text)

/-- What the crate `url` does with the parts before the query (used at codec.rs:77-83, eval_http.rs:124-127): the parser for
scheme, host, port and path, and `set_path`. -/
structure Urls where
  norm : Bool → Text → Option Nat → Text → Option (Option Text × Option Nat × Text)
  setPath : Text → Text

/-- `HeaderValue::to_str` succeeds (external crate, used at worker.rs:59, 161). -/
def visible (v : Text) : Bool := v.all (fun c => (32 ≤ c.toNat && c.toNat < 127) || c == '\t')

/-- `HeaderValue::from_str` succeeds (external crate, used at codec.rs:91, mod.rs:25). -/
def validValue (v : Text) : Bool := v.all (fun c => (32 ≤ c.toNat && c.toNat ≠ 127) || c == '\t')

/-- A character of a token (external crate `http`, used at codec.rs:70, 86). -/
def tokenChar (c : Char) : Bool := c.isAlphanum || "!#$%&'*+-.^_`|~".toList.contains c

/-- `Method::from_bytes` succeeds (external crate, used at codec.rs:70). -/
def validMethod (t : Text) : Bool := !t.isEmpty && t.all tokenChar

/-- `HeaderName::from_str` (external crate, used at codec.rs:86, mod.rs:24): names are in lower case. -/
def headerName (t : Text) : Option Text := if !t.isEmpty && t.all tokenChar then some (t.map Char.toLower) else none

/-- `HeaderMap::insert` (external crate, used at codec.rs:85, mod.rs:26): all values of the name are replaced. -/
def setHeader (h : List (Text × Text)) (k v : Text) : List (Text × Text) :=
  if h.any (fun x => x.1 = k) then h.filterMap (fun x => if x.1 = k then none else some x) ++ [(k, v)] else h ++ [(k, v)]

/-- Headers from a map (codec.rs:84-97, `create_header_map` at javascript/mod.rs:21-29). -/
def headersFrom : List (Text × Text) → List (Text × Text) → Except Err (List (Text × Text))
  | [], acc => .ok acc
  | (k, v) :: r, acc =>
    match headerName k with
    | none => .error .convert
    | some n => if validValue v then headersFrom r (setHeader acc n v) else .error .convert

/-- `From<&Url> for Uri` (worker.rs:199-212). -/
def uriOf (u : Url) : Uri := ⟨u.path, toMap (pairsOf (u.query.getD [])), u.scheme = "https".toList, u.host, u.port⟩

/-- `join("&")` of the pairs (worker.rs:131-136). -/
def queryText : List (Text × Text) → Text
  | [] => []
  | [(k, v)] => k ++ '=' :: v
  | (k, v) :: r => k ++ '=' :: v ++ '&' :: queryText r

/-- What is printed after the authority (`Display for Uri`, worker.rs:130-143). -/
def Uri.tail (u : Uri) : Text := if (queryText u.query).isEmpty then u.path else u.path ++ '?' :: queryText u.query

/-- `uri.to_string().parse()` (codec.rs:77-83, worker.rs:122-146): the fragment starts at the first `#`, the query at the first
`?` before it.  What comes before is parsed by `norm`; a missing host is `localhost`. -/
def parseUri (U : Urls) (u : Uri) : Except Err Url :=
  let (pre, frag) := cutAt '#' u.tail
  let (path, query) := cutAt '?' pre
  match U.norm u.https (u.host.getD "localhost".toList) u.port path with
  | none => .error .convert
  | some (host, port, path) => .ok ⟨if u.https then "https".toList else "http".toList, none, host, port, path, query.map encodeQuery, frag⟩

/-! ## To JavaScript and back -/

/-- `IntoJs for Uri` (codec.rs:137-147), with `IntoJs for Scheme` (codec.rs:105-112). -/
def uriToJs (u : Uri) : Js :=
  .obj [("path".toList, .str u.path), ("query".toList, ofMap u.query), ("scheme".toList, .str (if u.https then "https".toList else "http".toList)),
    ("host".toList, ofOptStr u.host), ("port".toList, ofOptNum u.port)]

/-- `FromJs for Scheme` (codec.rs:114-135). -/
def schemeFromJs (v : Js) : Except Err Bool :=
  match asStr v with
  | .error e => .error e
  | .ok t => if t = "https".toList then .ok true else if t = "http".toList then .ok false else .error .convert

/-- `FromJs for Uri` (codec.rs:149-164). -/
def uriFromJs (v : Js) : Except Err Uri := do
  let o ← asObj v
  let path ← asStr (prop o "path".toList)
  let query ← asMap (prop o "query".toList)
  let https ← schemeFromJs (prop o "scheme".toList)
  let host ← asOptStr (prop o "host".toList)
  let port ← asOptU16 (prop o "port".toList)
  return ⟨path, query, https, host, port⟩

/-- `WorkerRequest::body` (worker.rs:166-173). -/
def bodyText : Option Body → Option Text
  | some (.text t) => some t
  | some (.binary t) => some t
  | some .stream => none
  | none => none

/-- `IntoJs for WorkerRequest` (codec.rs:39-55), with `headers` (worker.rs:157-164). -/
def reqToJs (r : Req) : Except Err Js :=
  if r.headers.all (fun h => visible h.2) then
    .ok (.obj [("uri".toList, uriToJs (uriOf r.url)), ("method".toList, .str r.method), ("headers".toList, ofMap (toMap r.headers)),
      ("body".toList, ofOptStr (bodyText r.body))])
  else .error .convert

/-- `FromJs for WorkerRequest` (codec.rs:57-103). -/
def reqFromJs (U : Urls) (v : Js) : Except Err Req := do
  let o ← asObj v
  let uri ← uriFromJs (prop o "uri".toList)
  let method ← asStr (prop o "method".toList)
  let headers ← asMap (prop o "headers".toList)
  let body ← asOptStr (prop o "body".toList)
  if validMethod method then
    let url ← parseUri U uri
    let hs ← headersFrom headers []
    return ⟨method, url, hs, body.map .text⟩
  else .error .convert

/-- `FromJs for WorkerResponse` (codec.rs:176-203). -/
def respFromJs (v : Js) : Except Err (Resp Text) := do
  let o ← asObj v
  let status ← asU16 (prop o "status".toList)
  let headers ← asMap (prop o "headers".toList)
  let body ← asOptStr (prop o "body".toList)
  if 100 ≤ status ∧ status < 1000 then
    let hs ← headersFrom headers []
    return ⟨status, hs, body.getD []⟩
  else .error .convert

/-- `FromJs for Command` (codec.rs:11-37). -/
def commandFromJs (U : Urls) (v : Js) : Except Err Command := do
  let o ← asObj v
  if has o "request".toList then return .request (← reqFromJs U (prop o "request".toList))
  else if has o "response".toList then return .response (← respFromJs (prop o "response".toList))
  else .error .convert

/-! ## The runtime -/

/-- A script in the engine (external crate, used at runtime.rs:36-52, 154-201): the state after its first evaluation, if that
does not fail, and the functions found in a state by their names.  A call gives the state afterwards and the result, `none`
for an exception. -/
structure Engine (W : Type) where
  start : Option W
  fn : W → Text → Option (Js → W × Option Js)

/-- `init_rt` (runtime.rs:128-142): the cell of the thread is filled once; it stays empty if the script fails. -/
def initRt {W : Type} (E : Engine W) : Option W → Option W
  | some w => some w
  | none => E.start

/-- `call` of a function for requests (runtime.rs:87-103, 144-181).  An exception is no error but no command
(`.ok()` at runtime.rs:174). -/
def callEvent {W : Type} (E : Engine W) (U : Urls) (name : Text) (r : Req) (cell : Option W) : Option W × Except Err (Option Command) :=
  match initRt E cell with
  | none => (none, .error .start)
  | some w =>
    match E.fn w name with
    | none => (some w, .error (.missing name))
    | some f =>
      match reqToJs r with
      | .error e => (some w, .error e)
      | .ok a =>
        match f (.obj [("request".toList, a)]) with
        | (w, none) => (some w, .ok none)
        | (w, some v) => (some w, (commandFromJs U v).map some)

/-- `serde_json` for values (external crate, used at runtime.rs:114, 198, worker.rs:88). -/
structure Json (V : Type) where
  print : V → Text
  parse : Text → Option V
  null : V

/-- `execute_inner` (runtime.rs:105-126, 183-201): the function is given the text of the value and returns a text. -/
def callValue {W V : Type} (E : Engine W) (J : Json V) (name : Text) (v : V) (cell : Option W) : Option W × Except Err V :=
  match initRt E cell with
  | none => (none, .error .start)
  | some w =>
    match E.fn w name with
    | none => (some w, .error (.missing name))
    | some f =>
      match f (.str (J.print v)) with
      | (w, some (.str t)) =>
        match J.parse t with
        | some v => (some w, .ok v)
        | none => (some w, .error .json)
      | (w, _) => (some w, .error .noString)

/-! ## Hooks -/

/-- `WorkerHooks` (worker_hooks.rs:10-14). -/
structure Hooks where
  onRequest : Option Text
  onResponse : Option Text
  deriving DecidableEq

/-- `WorkerHooks::try_new` (worker_hooks.rs:17-26), from `@http` and `@upstream` (blueprint/operators/http.rs:90-95). -/
def mkHooks (http upstream response : Option Text) : Option Hooks :=
  match http.or upstream, response with
  | none, none => none
  | q, p => some ⟨q, p⟩

/-- `DynamicRequest` (ir/request.rs:2-6): a request, and the value for batching in the body. -/
structure Dyn where
  req : Req
  batch : Option Text
  deriving DecidableEq

/-- What a request works with (eval_http.rs:22-27, 48-52): the script, JSON, the crate `url`, and the upstream, which answers a
request after those that were sent before.  Validation and the headers that are taken over (eval_http.rs:89-98) are part of
the upstream. -/
structure Env (W V : Type) where
  engine : Engine W
  urls : Urls
  json : Json V
  up : List Dyn → Dyn → Except Err (Resp V)

/-- The state: the cells of the two workers (cli/runtime/mod.rs:80-81), each with a thread of its own (runtime.rs:66-72), and the
requests sent. -/
structure St (W : Type) where
  req : Option W
  res : Option W
  sent : List Dyn

/-- `EvalHttp::execute` (eval_http.rs:77-101). -/
def execute {W V : Type} (X : Env W V) (d : Dyn) (s : St W) : St W × Except Err (Resp V) :=
  ({ s with sent := s.sent ++ [d] }, X.up s.sent d)

/-- `WorkerHooks::on_request` (worker_hooks.rs:30-43), with `WorkerRequest::try_from` (worker.rs:176-183): streams cannot be
cloned. -/
def onRequest {W V : Type} (X : Env W V) (h : Hooks) (r : Req) (s : St W) : St W × Except Err (Option Command) :=
  match h.onRequest with
  | none => (s, .ok none)
  | some name =>
    if r.body = some .stream then (s, .error .clone)
    else
      let x := callEvent X.engine X.urls name r s.req
      ({ s with req := x.1 }, x.2)

/-- `WorkerHooks::on_response` (worker_hooks.rs:47-62). -/
def onResponse {W V : Type} (X : Env W V) (h : Hooks) (p : Resp V) (s : St W) : St W × Except Err (Resp V) :=
  match h.onResponse with
  | none => (s, .ok p)
  | some name =>
    let x := callValue X.engine X.json name p.body s.res
    ({ s with res := x.1 }, x.2.map (fun v => { p with body := v }))

/-- The end of `execute_with_worker` (eval_http.rs:138-143). -/
def finish {W V : Type} (X : Env W V) (h : Hooks) : St W × Except Err (Resp V) → St W × Except Err (Resp V)
  | (s, .ok p) => onResponse X h p s
  | (s, .error e) => (s, .error e)

/-- `TryFrom<WorkerResponse> for Response<Value>` (worker.rs:83-94). -/
def respValue {V : Type} (J : Json V) (p : Resp Text) : Except Err (Resp V) :=
  match J.parse p.body with
  | some v => .ok { p with body := v }
  | none => .error .json

/-- The target of a redirect (eval_http.rs:122-127): `headers` panics for values that are no visible text
(worker.rs:56-62). -/
def redirect (p : Resp Text) : Except Err (Option Text) :=
  if p.status = 301 ∨ p.status = 302 then
    if p.headers.all (fun h => visible h.2) then .ok (((toMap p.headers).find? (fun x => x.1 = "location".toList)).map (·.2))
    else .error .panic
  else .ok none

/-- `request.request_mut().url_mut().set_path` (eval_http.rs:124-127). -/
def Dyn.setPath (U : Urls) (d : Dyn) (p : Text) : Dyn := { d with req := { d.req with url := { d.req.url with path := U.setPath p } } }

/-- `execute_with_worker` (eval_http.rs:102-144).  The number bounds the redirects; `none` if it is used up, since the code has no
bound. -/
def withWorker {W V : Type} (X : Env W V) (h : Hooks) : Nat → Dyn → St W → Option (St W × Except Err (Resp V))
  | 0, _, _ => none
  | n + 1, d, s =>
    match onRequest X h d.req s with
    | (s, .error e) => some (s, .error e)
    | (s, .ok none) => some (finish X h (execute X d s))
    | (s, .ok (some (.request r))) => some (finish X h (execute X ⟨r, none⟩ s))
    | (s, .ok (some (.response p))) =>
      match redirect p with
      | .error e => some (s, .error e)
      | .ok (some l) => (withWorker X h n (d.setPath X.urls l) s).map (finish X h)
      | .ok none => some (finish X h (s, respValue X.json p))

/-- An `@http` resolver (eval_io.rs:48-62): without a script or without hooks the request is just executed. -/
def evalHttp {W V : Type} (X : Env W V) (script : Bool) (h : Option Hooks) (n : Nat) (d : Dyn) (s : St W) : Option (St W × Except Err V) :=
  match script, h with
  | true, some h => (withWorker X h n d s).map (fun x => (x.1, x.2.map (·.body)))
  | _, _ => let x := execute X d s; some (x.1, x.2.map (·.body))

/-- An `@js` resolver (eval_io.rs:103-116): without a script or without a value it is null. -/
def evalJs {W V : Type} (X : Env W V) (script : Bool) (name : Text) (v : Option V) (s : St W) : St W × Except Err V :=
  match script, v with
  | true, some v => let x := callValue X.engine X.json name v s.res; ({ s with res := x.1 }, x.2)
  | _, _ => (s, .ok X.json.null)

/-- An `@http` resolver of a field: the template, the hooks, and whether requests are deduplicated (ir/model.rs:46-53). -/
structure Io (T : Type) where
  template : T
  hooks : Option Hooks
  dedupe : Bool

/-- `eval_io` (eval_io.rs:17-41) for fields that are evaluated one after the other, with the key of the template
(ir/model.rs:211-220): the first result for a key is the result of all. -/
def evalIo {W V T K : Type} [DecidableEq K] (X : Env W V) (render : T → Dyn) (key : T → Option K) (script query : Bool) (n : Nat) (io : Io T)
    (x : List (K × Except Err V) × St W) : Option ((List (K × Except Err V) × St W) × Except Err V) :=
  if io.dedupe && query then
    match key io.template with
    | none => (evalHttp X script io.hooks n (render io.template) x.2).map (fun y => ((x.1, y.1), y.2))
    | some k =>
      match x.1.find? (fun e => e.1 = k) with
      | some e => some (x, e.2)
      | none => (evalHttp X script io.hooks n (render io.template) x.2).map (fun y => (((k, y.2) :: x.1, y.1), y.2))
  else (evalHttp X script io.hooks n (render io.template) x.2).map (fun y => ((x.1, y.1), y.2))

end Verif.Hook
