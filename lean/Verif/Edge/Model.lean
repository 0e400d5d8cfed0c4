import Verif.Load.Model
import Verif.Doc.Model

/-!
# Model of the servers on AWS Lambda and on Cloudflare, and of the showcase

Source: tailcall-aws-lambda/src/http.rs, tailcall-cloudflare/src/http.rs, tailcall-cloudflare/src/handle.rs,
tailcall-cloudflare/src/cache.rs, src/core/http/showcase.rs.
-/

namespace Verif.Edge

open Verif.Mustache (Text)
open Verif.HttpUrl (joinWith)
open Verif.Sdl (V)
open Verif.Doc (showV)
open Verif.Load (Io Cfg Ext Res readAll)

/-! ## Requests and responses -/

/-- Bytes of a body or of the value of a header (`http::HeaderValue`, `hyper::Body`, used at
tailcall-aws-lambda/src/http.rs:73-78). -/
abbrev Bytes := List UInt8

/-- `lambda_http::Request` (external crate, used at tailcall-aws-lambda/src/http.rs:43-80): the parts of its URI, the
path parameter `proxy`, headers and body. -/
structure LReq where
  method : Text
  scheme : Option Text
  host : Option Text
  port : Option Text
  path : Text
  query : Option Text
  proxy : Option (List Text)
  headers : List (Text × Bytes)
  body : Bytes
  deriving DecidableEq, Repr

/-- `http::Request<hyper::Body>` (external crate, used at tailcall-aws-lambda/src/http.rs:43) with the text of its URI. -/
structure HReq where
  method : Text
  uri : Text
  headers : List (Text × Bytes)
  body : Bytes
  deriving DecidableEq, Repr

/-- What comes of a conversion: a value, an error that is reported, or a panic
(tailcall-aws-lambda/src/http.rs:55, 62-64). -/
inductive Out (α : Type) where
  | ok (a : α)
  | err
  | panic
  deriving DecidableEq, Repr

/-- The methods that are known (tailcall-aws-lambda/src/http.rs:45-56, tailcall-cloudflare/src/http.rs:71-85). -/
def methods : List Text :=
  ["CONNECT".toList, "DELETE".toList, "GET".toList, "HEAD".toList, "OPTIONS".toList, "PATCH".toList, "POST".toList,
    "PUT".toList, "TRACE".toList]

/-- The text of the URI (tailcall-aws-lambda/src/http.rs:58-69): scheme, host and the path parameter `proxy`. -/
def lambdaUri (scheme : Option Text) (host : Text) (proxy : Option (List Text)) : Text :=
  scheme.getD "http".toList ++ "://".toList ++ host ++ '/' :: joinWith '/' (proxy.getD [])

/-- `to_request` (tailcall-aws-lambda/src/http.rs:43-80).  Simplified: names and values of headers that one version of the
crate accepts are accepted by the other, and so is every URI. -/
def lambdaRequest (r : LReq) : Out HReq :=
  if r.method ∈ methods then
    match r.host with
    | none => .err
    | some h => .ok ⟨r.method, lambdaUri r.scheme h r.proxy, r.headers, r.body⟩
  else .panic

/-- What comes after `://` (`http::Uri`, external crate, used at tailcall-aws-lambda/src/http.rs:71). -/
def afterScheme : Text → Text
  | ':' :: '/' :: '/' :: r => r
  | _ :: r => afterScheme r
  | [] => []

/-- Path, query and fragment: all after the authority (`http::Uri`, external crate, used at
tailcall-aws-lambda/src/http.rs:71). -/
def afterAuthority (t : Text) : Text := (afterScheme t).dropWhile (fun c => !(c == '/' || c == '?' || c == '#'))

/-- `Uri::path` (external crate, used at src/core/http/request_handler.rs:293-305). -/
def HReq.path (r : HReq) : Text :=
  let p := (afterAuthority r.uri).takeWhile (fun c => !(c == '?' || c == '#'))
  if p.isEmpty then ['/'] else p

/-- `Uri::query` (external crate, used at src/core/http/showcase.rs:22-26). -/
def HReq.query (r : HReq) : Option Text :=
  match ((afterAuthority r.uri).takeWhile (· != '#')).dropWhile (· != '?') with
  | [] => none
  | _ :: q => some q

/-- A response: status, headers and body (`http::Response<hyper::Body>`, used at
tailcall-aws-lambda/src/http.rs:82-95 and tailcall-cloudflare/src/http.rs:53-69). -/
structure Resp where
  status : Nat
  headers : List (Text × Bytes)
  body : Bytes
  deriving DecidableEq, Repr

/-- `to_response` (tailcall-aws-lambda/src/http.rs:82-95). -/
def lambdaResponse (r : Resp) : Out Resp := .ok ⟨r.status, r.headers, r.body⟩

/-- `String::from_utf8` (standard library, used at tailcall-cloudflare/src/http.rs:62): the bytes that are a text, as
bytes of it.  `utf8` says which are. -/
def utf8Headers (utf8 : Bytes → Bool) : List (Text × Bytes) → Out (List (Text × Bytes))
  | [] => .ok []
  | (k, v) :: r =>
    if utf8 v then
      match utf8Headers utf8 r with
      | .ok l => .ok ((k, v) :: l)
      | .err => .err
      | .panic => .panic
    else .err

/-- `to_response` (tailcall-cloudflare/src/http.rs:53-69). -/
def workerResponse (utf8 : Bytes → Bool) (r : Resp) : Out Resp :=
  match utf8Headers utf8 r.headers with
  | .ok hs => .ok ⟨r.status, hs, r.body⟩
  | .err => .err
  | .panic => .panic

/-- `worker::Request` (external crate, used at tailcall-cloudflare/src/http.rs:87-97). -/
structure WReq where
  method : Text
  url : Text
  headers : List (Text × Bytes)
  body : Bytes
  deriving DecidableEq, Repr

/-- `str::to_uppercase` (standard library, used at tailcall-cloudflare/src/http.rs:72).  Simplified: of ASCII letters. -/
def upper (t : Text) : Text := t.map Char.toUpper

/-- `to_request` with `to_method` (tailcall-cloudflare/src/http.rs:71-97).  `text` is the decoding of the body as text,
which replaces bytes that are not UTF-8. -/
def workerRequest (text : Bytes → Bytes) (r : WReq) : Out HReq :=
  if upper r.method ∈ methods then .ok ⟨upper r.method, r.url, r.headers, text r.body⟩ else .err

/-! ## The showcase -/

/-- `Url::parse(..).is_ok()` (external crate, used at src/core/http/showcase.rs:37).  Simplified: a text with a scheme. -/
def anyUrl (p : Text) : Bool :=
  match p with
  | [] => false
  | c :: _ =>
    c.isAlpha && (p.takeWhile (· != ':')).all (fun c => c.isAlphanum || c == '+' || c == '.' || c == '-') && p.contains ':'

/-- Why there is no context (src/core/http/showcase.rs:31-34, 38-41, 47-51, 57-60). -/
inductive Refusal where
  | noConfig
  | invalidUrl
  | unreadable (e : Verif.Load.Err)
  | invalid
  deriving DecidableEq, Repr

/-- `AppContext` (src/core/http/showcase.rs:64-68): the configuration with what it links to, and the endpoints for REST. -/
structure App (β : Type) where
  config : Cfg β
  ext : Ext
  endpoints : List Nat

/-- The result of building a context (src/core/http/showcase.rs:17-21): a context, a response that says what is wrong,
or an error.  `failed` is also a reading that has not ended. -/
inductive Built (α : Type) where
  | app (a : α)
  | refused (r : Refusal)
  | failed
  deriving DecidableEq, Repr

/-- `create_app_ctx` (src/core/http/showcase.rs:17-69).  `config` is the parameter of that name of the query, `valid`
says whether there is a blueprint, `n` bounds the reading of proto files.  Simplified: decoding of the query. -/
def createAppCtx {β : Type} (io : Io β) (n : Nat) (valid : Cfg β × Ext → Bool) (fs : Bool) (config : Option Text) :
    Built (App β) :=
  match config with
  | none => .refused .noConfig
  | some p =>
    if !fs && !anyUrl p then .refused .invalidUrl
    else
      match readAll io n [p] with
      | .err .panic => .failed
      | .err e => .refused (.unreadable e)
      | .more => .failed
      | .ok m => if valid m then .app ⟨m.1, m.2, []⟩ else .refused .invalid

/-! ## Contexts on Cloudflare -/

/-- What requests see of the outside at one moment: the result of building the context for a configuration
(tailcall-cloudflare/src/handle.rs:64-65). -/
abbrev World (α : Type) := Option Text → Built α

/-- A request arrives, or the context that a request waits for has been built
(tailcall-cloudflare/src/handle.rs:44-76; requests interleave at `await`). -/
inductive Act where
  | start (i : Nat) (config : Option Text)
  | built (i : Nat)
  deriving DecidableEq, Repr

/-- Something that happens, with the outside at that moment (tailcall-cloudflare/src/handle.rs:44-76). -/
structure Ev (α : Type) where
  world : World α
  act : Act

/-- The state: `APP_CTX`, requests that wait, and what requests got (tailcall-cloudflare/src/handle.rs:15-17). -/
structure St (α : Type) where
  cached : Option (Text × α) := none
  waiting : List (Nat × Option Text) := []
  got : List (Nat × Option Text × Built α) := []

/-- The context of `APP_CTX` for a configuration (tailcall-cloudflare/src/handle.rs:55-62). -/
def hit {α : Type} (cached : Option (Text × α)) (config : Option Text) : Option α :=
  match config, cached with
  | some p, some (q, a) => if q = p then some a else none
  | _, _ => none

/-- `get_app_ctx` (tailcall-cloudflare/src/handle.rs:44-80), up to the `await` or from there. -/
def step {α : Type} (s : St α) (e : Ev α) : St α :=
  match e.act with
  | .start i c =>
    match hit s.cached c with
    | some a => { s with got := s.got ++ [(i, c, .app a)] }
    | none => { s with waiting := s.waiting ++ [(i, c)] }
  | .built i =>
    match s.waiting.find? (fun w => w.1 = i) with
    | none => s
    | some (_, c) =>
      let s := { s with waiting := s.waiting.filter (fun w => w.1 ≠ i), got := s.got ++ [(i, c, e.world c)] }
      match e.world c, c with
      | .app a, some p => { s with cached := some (p, a) }
      | _, _ => s

/-- A run of the worker (tailcall-cloudflare/src/handle.rs:20-39). -/
def run {α : Type} (s : St α) (es : List (Ev α)) : St α := es.foldl step s

/-! ## The cache on Cloudflare -/

/-- White space of JSON (`serde_json`, external crate, used at tailcall-cloudflare/src/cache.rs:59). -/
def skip (t : Text) : Text := t.dropWhile (fun c => c == ' ' || c == '\n' || c == '\t' || c == '\r')

/-- Characters of a word or number (`serde_json`, external crate, used at tailcall-cloudflare/src/cache.rs:59). -/
def wordChar (c : Char) : Bool := c.isAlphanum || c == '-' || c == '+' || c == '.'

/-- A word of JSON (`serde_json`, external crate, used at tailcall-cloudflare/src/cache.rs:59).  Simplified: the form of
numbers with a fraction or an exponent is not checked. -/
def jword (t : Text) : Option V :=
  if t = "null".toList then some .null
  else if t = "true".toList then some (.bool true)
  else if t = "false".toList then some (.bool false)
  else
    match t with
    | [] => none
    | c :: r =>
      if c = '-' then
        (if r.isEmpty then none
        else if r.all Char.isDigit then some (.int (-(Nat.ofDigitChars 10 r 0 : Int))) else some (.float t))
      else if c.isDigit then
        (if r.all Char.isDigit then some (.int (Nat.ofDigitChars 10 t 0 : Nat)) else some (.float t))
      else none

/-- Escapes in a string of JSON (`serde_json`, external crate, used at tailcall-cloudflare/src/cache.rs:59).
Simplified: not those with `u`. -/
def unescape (c : Char) : Option Char :=
  if c = 'n' then some '\n'
  else if c = 'r' then some '\r'
  else if c = 't' then some '\t'
  else if c = '"' then some '"'
  else if c = '\\' then some '\\'
  else if c = '/' then some '/'
  else none

/-- The rest of a string of JSON (`serde_json`, external crate, used at tailcall-cloudflare/src/cache.rs:59). -/
def jstr : Text → Option (Text × Text)
  | [] => none
  | c :: r =>
    if c = '"' then some ([], r)
    else if c = '\\' then
      match r with
      | [] => none
      | e :: r' =>
        match unescape e, jstr r' with
        | some x, some (s, t) => some (x :: s, t)
        | _, _ => none
    else if c.toNat < 32 then none
    else
      match jstr r with
      | some (s, t) => some (c :: s, t)
      | none => none

mutual
/-- A value of JSON and what follows (`serde_json`, external crate, used at tailcall-cloudflare/src/cache.rs:59), for at
most `n` steps of nesting and items. -/
def jval : Nat → Text → Option (V × Text)
  | 0, _ => none
  | n + 1, t =>
    match skip t with
    | [] => none
    | c :: r =>
      if c = '"' then (jstr r).map (fun x => (.str x.1, x.2))
      else if c = '[' then
        (if (skip r).head? = some ']' then some (.arr [], (skip r).drop 1)
        else (jitems n r).map (fun x => (.arr x.1, x.2)))
      else if c = '{' then
        (if (skip r).head? = some '}' then some (.obj [], (skip r).drop 1)
        else (jfields n r).map (fun x => (.obj x.1, x.2)))
      else (jword ((c :: r).takeWhile wordChar)).map (fun v => (v, (c :: r).dropWhile wordChar))
/-- The items of an array (`serde_json`, external crate, used at tailcall-cloudflare/src/cache.rs:59). -/
def jitems : Nat → Text → Option (List V × Text)
  | 0, _ => none
  | n + 1, t =>
    match jval n t with
    | none => none
    | some (v, r) =>
      match skip r with
      | ']' :: r => some ([v], r)
      | ',' :: r => (jitems n r).map (fun x => (v :: x.1, x.2))
      | _ => none
/-- The fields of an object: names are strings (`serde_json`, external crate, used at
tailcall-cloudflare/src/cache.rs:59). -/
def jfields : Nat → Text → Option (List (Text × V) × Text)
  | 0, _ => none
  | n + 1, t =>
    match skip t with
    | '"' :: r =>
      match jstr r with
      | none => none
      | some (k, r) =>
        match skip r with
        | ':' :: r =>
          match jval n r with
          | none => none
          | some (v, r) =>
            match skip r with
            | '}' :: r => some ([(k, v)], r)
            | ',' :: r => (jfields n r).map (fun x => ((k, v) :: x.1, x.2))
            | _ => none
        | _ => none
    | _ => none
end

/-- A text as JSON (`serde_json`, external crate, used at tailcall-cloudflare/src/cache.rs:59). -/
def readJson (t : Text) : Option V :=
  match jval (2 * t.length + 2) t with
  | some (v, r) => if (skip r).isEmpty then some v else none
  | none => none

/-- The store of keys and values: text and the moment, in milliseconds, at which it expires (`KvStore`, external crate,
used at tailcall-cloudflare/src/cache.rs:20-26). -/
abbrev Kv := List (Nat × Text × Nat)

/-- `set` (tailcall-cloudflare/src/cache.rs:33-51): the value is put as `Display` prints it, and the time to live, in
milliseconds, is passed on to the store, which takes seconds. -/
def kvSet (now key : Nat) (v : V) (ttl : Nat) (s : Kv) : Kv :=
  (key, showV v, now + ttl * 1000) :: s.filter (fun e => e.1 ≠ key)

/-- `get` (tailcall-cloudflare/src/cache.rs:53-65): the text is read as JSON; a text that is not JSON is an error. -/
def kvGet (now key : Nat) (s : Kv) : Except Unit (Option V) :=
  match s.find? (fun e => e.1 = key) with
  | none => .ok none
  | some (_, t, till) =>
    if now < till then
      match readJson t with
      | some v => .ok (some v)
      | none => .error ()
    else .ok none

/-- `IR::Cache` (src/core/ir/eval.rs:47-66) with this cache: the result of a field and the store after it.  `io` is the
result of the call. -/
def cached (now key maxAge : Nat) (io : Except Unit V) (s : Kv) : Except Unit V × Kv :=
  match kvGet now key s with
  | .error e => (.error e, s)
  | .ok (some v) => (.ok v, s)
  | .ok none =>
    match io with
    | .error e => (.error e, s)
    | .ok v => (.ok v, kvSet now key v maxAge s)

end Verif.Edge
