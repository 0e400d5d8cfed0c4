import Verif.HttpKey.Props

/-!
# Model of the HTTP front end
(http/request_handler.rs, http/request_context.rs, blueprint/cors.rs, blueprint/upstream.rs,
async_graphql_hyper.rs, jit/response.rs)

Header names are compared after lower-casing by the `http` crate, so names are lower case texts here.
A header map that is only looked up is an `HMap` (name to values, see Verif.HttpKey.Model); a header map
that is iterated is the list of its (name, value) pairs.
-/

namespace Verif.Front
open Verif.Mustache (Text)
open Verif.HttpKey (HMap validHeader)

/-! ## Headers of the client that reach the upstream -/

/-- `u8::to_ascii_lowercase` (standard library, used at http/request_handler.rs:156). -/
def lower (c : Char) : Char := if 'A' ≤ c ∧ c ≤ 'Z' then Char.ofNat (c.toNat + 32) else c

/-- `str::eq_ignore_ascii_case` (standard library, used at http/request_handler.rs:156). -/
def eqIgnoreCase (a b : Text) : Bool := a.map lower == b.map lower

/-- The loop of `create_allowed_headers` (http/request_handler.rs:151-162), `h` being `new_headers`. -/
def allowLoop (allowed : List Text) : List (Text × Text) → HMap → HMap
  | [], h => h
  | (k, v) :: r, h =>
      allowLoop allowed r (if allowed.any (fun a => eqIgnoreCase a k) then h.insert k v else h)

/-- `create_allowed_headers` (http/request_handler.rs:151-162).  The `BTreeSet` of names is a list: only
`any` is asked of it. -/
def createAllowed (headers : List (Text × Text)) (allowed : List Text) : HMap :=
  allowLoop allowed headers HMap.empty

/-- The header `http::header::AUTHORIZATION`, used at blueprint/upstream.rs:63. -/
def authorization : Text := "authorization".toList

/-- `allowed_headers` of the blueprint (blueprint/upstream.rs:59-64). -/
def blueprintAllowed (configured : List Text) (hasAuth : Bool) : List Text :=
  if hasAuth then authorization :: configured else configured

/-! ## Cache-Control -/

/-- `cache_control::Cachability` (external crate, used at http/request_context.rs:86-99). -/
inductive Cach where
  | pub | priv | noCache | onlyIfCached
  deriving DecidableEq, Repr

/-- `cache_control::CacheControl`, the parsed header of an upstream response; the directives that are
never looked at are left out, except `no-store`.  Parsing belongs to the crate (used at http/cache.rs:5-10). -/
structure Policy where
  maxAge : Option Nat
  cach : Option Cach
  noStore : Bool
  deriving DecidableEq, Repr

/-- `u64 as i32`: the low 32 bits, as a signed number (used at http/request_context.rs:92-95). -/
def asI32 (n : Nat) : Int := if n % 2 ^ 32 < 2 ^ 31 then ((n % 2 ^ 32 : Nat) : Int) else (n % 2 ^ 32 : Nat) - 2 ^ 32

/-- The two cells of a `RequestContext` (http/request_context.rs:33-34). -/
structure Cells where
  minAge : Option Int
  pub : Option Bool
  deriving DecidableEq, Repr

/-- `RequestContext::from` (http/request_context.rs:199-200). -/
def Cells.fresh : Cells := ⟨none, none⟩

/-- `set_min_max_age` (http/request_context.rs:73-84).  Reading and writing take the lock separately; no
await point lies between them and all resolvers of a request run in one task. -/
def setMinMaxAge (c : Cells) (a : Int) : Cells :=
  match c.minAge with
  | some m => if a < m then { c with minAge := some a } else c
  | none => { c with minAge := some a }

/-- `set_cache_visibility` (http/request_context.rs:86-90). -/
def setVisibility (c : Cells) (v : Option Cach) : Cells :=
  match v with
  | some .priv => { c with pub := some false }
  | _ => c

/-- The first `if let` of `set_cache_control` (http/request_context.rs:93-95). -/
def setAge (c : Cells) : Option Nat → Cells
  | some a => setMinMaxAge c (asI32 a)
  | none => c

/-- `RequestContext::set_cache_control` (http/request_context.rs:92-100). -/
def setPolicy (c : Cells) (p : Policy) : Cells :=
  let c := setVisibility (setAge c p.maxAge) p.cach
  if p.cach = some .noCache then setMinMaxAge c (-1) else c

/-- An upstream response, as far as Cache-Control is concerned (seen at http/cache.rs:5-10). -/
structure Up where
  success : Bool
  policy : Option Policy
  deriving DecidableEq, Repr

/-- `set_cache_control` (ir/eval_http.rs:185-194). -/
def observe (enabled : Bool) (c : Cells) (u : Up) : Cells :=
  if enabled && u.success then
    match u.policy with
    | some p => setPolicy c p
    | none => c
  else c

/-- `CacheControl` (async_graphql_hyper.rs:293-296). -/
structure CC where
  maxAge : Int
  pub : Bool
  deriving DecidableEq, Repr

/-- `CacheControl::default` (async_graphql_hyper.rs:298-302). -/
def CC.dflt : CC := ⟨0, true⟩

/-- `i32::to_string` (standard library, used at async_graphql_hyper.rs:307). -/
def intText (i : Int) : Text := (toString i).toList

/-- `CacheControl::value` (async_graphql_hyper.rs:305-326). -/
def CC.value (c : CC) : Option Text :=
  let v : Text :=
    if c.maxAge > 0 then "max-age=".toList ++ intText c.maxAge
    else if c.maxAge = -1 then "no-cache".toList
    else []
  let v : Text :=
    if c.pub then v
    else (if v.isEmpty then v else v ++ ", ".toList) ++ "private".toList
  if v.isEmpty then none else some v

/-- `CacheControl::merge` (async_graphql_hyper.rs:328-339). -/
def CC.merge (x y : CC) : CC :=
  { pub := x.pub && y.pub
    maxAge :=
      if x.maxAge = -1 then -1
      else if y.maxAge = -1 then -1
      else if y.maxAge = 0 then x.maxAge
      else if x.maxAge = 0 then y.maxAge
      else min x.maxAge y.maxAge }

/-- `AnyResponse` (jit/response.rs:95-105). -/
structure AnyResp where
  body : Text
  cc : CC
  isOk : Bool
  deriving DecidableEq, Repr

/-- `BatchResponse` (jit/response.rs:137-140). -/
inductive Batch where
  | single (r : AnyResp)
  | batch (rs : List AnyResp)
  deriving DecidableEq, Repr

/-- `BatchResponse::is_ok` (jit/response.rs:143-148). -/
def Batch.isOk : Batch → Bool
  | .single r => r.isOk
  | .batch rs => rs.all (·.isOk)

/-- `BatchResponse::cache_control` (jit/response.rs:151-164). -/
def Batch.cacheControl (b : Batch) (cc : Option CC) : CC :=
  match b with
  | .single r => cc.getD r.cc
  | .batch rs => rs.foldl (fun acc r => match cc with
      | some c => acc.merge c
      | none => acc.merge r.cc) CC.dflt

/-- The Cache-Control header of `build_response` (async_graphql_hyper.rs:361-380), `cc` being the field
`cache_control`. -/
def cacheHeader (b : Batch) (cc : Option CC) : Option Text :=
  if b.isOk then (b.cacheControl cc).value else none

/-- The Cache-Control header of `execute_query` (http/request_handler.rs:129-149): `b` is the result of
the executor, `ups` are the upstream responses that were received while it ran, in the order of their
arrival.  The member responses keep the default `cache_control` (jit/response.rs:31). -/
def respond (enabled : Bool) (ups : List Up) (b : Batch) : Option Text :=
  let c := ups.foldl (observe enabled) Cells.fresh
  cacheHeader b (if enabled then some ⟨c.minAge.getD 0, c.pub.getD true⟩ else none)

/-! ## Response headers -/

/-- `HeaderMap::get`: the first value (external crate `http`, used at http/request_context.rs:109). -/
def first (h : HMap) (n : Text) : Option Text := (h n).head?

/-- The header name of http/request_context.rs:109-110. -/
def setCookie : Text := "set-cookie".toList

/-- `HeaderValue::to_str` accepts visible ASCII, space and tab
(external crate `http`, used at http/request_context.rs:102-135). -/
def visibleHeader (s : Text) : Bool := s.all (fun c => (32 ≤ c.toNat && c.toNat < 127) || c == '\t')

/-- `RequestContext::set_cookie_headers` (http/request_context.rs:102-135) for an enabled map; `cur` is
the value of `set-cookie` in the map.  A value whose characters are not visible ASCII is skipped by
`to_str`. -/
def addCookie (cur : Option Text) (h : HMap) : Option Text :=
  match first h setCookie with
  | none => cur
  | some new =>
      match cur with
      | none => some new
      | some old =>
          if visibleHeader old && visibleHeader new then some (old ++ "; ".toList ++ new) else some old

/-- An upstream response, as far as its headers are concerned (seen at http/request_context.rs:102-134). -/
structure UpH where
  success : Bool
  headers : HMap

/-- The body of the loop of `add_x_headers` (http/request_context.rs:165-167). -/
def copyFirst (h x : HMap) (n : Text) : HMap :=
  match first h n with
  | some v => x.insert n v
  | none => x

/-- `RequestContext::add_x_headers` (http/request_context.rs:161-171); the names are a `HashSet`. -/
def addX (names : List Text) (x : HMap) (h : HMap) : HMap :=
  names.foldl (copyFirst h) x

/-- The headers kept by a request context (http/request_context.rs:25-26). -/
structure Kept where
  cookie : Option Text
  x : HMap

/-- `set_cookie_headers` and `set_experimental_headers` (ir/eval_http.rs:196-210): cookies of successful
responses only, experimental headers of every response. -/
def keep (cookies : Bool) (names : List Text) (k : Kept) (u : UpH) : Kept :=
  { cookie := if cookies && u.success then addCookie k.cookie u.headers else k.cookie
    x := addX names k.x u.headers }

/-- `for (header, value) in x_response_headers.iter() { headers.insert(..) }`
(http/request_context.rs:173-180). `x` holds at most one value per name, since it is filled by `insert`,
so the map is enough. -/
def extendX (x : HMap) (h : HMap) : HMap := fun n =>
  match (x n).getLast? with
  | some v => [v]
  | none => h n

/-- The cookie part of `update_response_headers` (http/request_handler.rs:74-78). -/
def withCookie (h : HMap) : Option Text → HMap
  | some c => h.extend [(setCookie, c)]
  | none => h

/-- `update_response_headers` (http/request_handler.rs:63-82); `static` are the configured
`response_headers`. -/
def updateHeaders (static : List (Text × Text)) (k : Kept) (h : HMap) : HMap :=
  extendX k.x (withCookie (h.extend static) k.cookie)

/-- `handle_experimental_headers` (blueprint/server.rs:217-234) on names that are already lower case: all
of them must start with `x-`; `HeaderName::from_str` is not modelled further. -/
def experimentalOk (names : List Text) : Bool := names.all (fun n => "x-".toList.isPrefixOf n)

/-! ## CORS -/

/-- `config::cors::Cors` (config/cors.rs:9-62). -/
structure CorsConfig where
  allowCredentials : Option Bool
  allowHeaders : List Text
  allowMethods : List Text
  allowOrigins : List Text
  allowPrivateNetwork : Option Bool
  exposeHeaders : List Text
  maxAge : Option Nat
  vary : List Text
  deriving DecidableEq, Repr

/-- `blueprint::Cors` (blueprint/cors.rs:9-19). -/
structure Cors where
  allowCredentials : Bool
  allowHeaders : Option Text
  allowMethods : Option Text
  allowOrigins : List Text
  allowPrivateNetwork : Bool
  exposeHeaders : Option Text
  maxAge : Option Text
  vary : List Text
  deriving DecidableEq, Repr

/-- `WILDCARD` (blueprint/cors.rs:232). -/
def wildcard : Text := ['*']

/-- `is_wildcard` (blueprint/cors.rs:235-237). -/
def isWildcard (v : Text) : Bool := v == wildcard

/-- `[..].join(", ")` (standard library, used at blueprint/cors.rs:181, 195, 212). -/
def joinComma (l : List Text) : Text := ", ".toList.intercalate l

/-- `str::parse::<HeaderValue>` (external crate `http`, used at blueprint/cors.rs:182-221). -/
def parseHeader (s : Text) : Option Text := if validHeader s then some s else none

/-- `ensure_usable_cors_rules` (blueprint/cors.rs:119-168). -/
def usable (c : Cors) : Bool :=
  !(c.allowCredentials &&
    ((c.allowHeaders.filter isWildcard).isSome || (c.allowMethods.filter isWildcard).isSome
      || c.allowOrigins.any isWildcard || (c.exposeHeaders.filter isWildcard).isSome))

/-- The value of `allow_methods` (blueprint/cors.rs:185-198). -/
def methodsOf (ms : List Text) : Option Text :=
  if ms.isEmpty then parseHeader wildcard else parseHeader (joinComma ms)

/-- `TryFrom<config::cors::Cors>` (blueprint/cors.rs:170-229); `none` is a configuration error. -/
def corsOf (c : CorsConfig) : Option Cors := do
  let hs ← parseHeader (joinComma c.allowHeaders)
  let ms ← methodsOf c.allowMethods
  let os ← c.allowOrigins.mapM parseHeader
  let es ← parseHeader (joinComma c.exposeHeaders)
  let vs ← c.vary.mapM parseHeader
  let cors : Cors :=
    { allowCredentials := c.allowCredentials.getD false
      allowHeaders := if c.allowHeaders.isEmpty then none else some hs
      allowMethods := some ms
      allowOrigins := os
      allowPrivateNetwork := c.allowPrivateNetwork.getD false
      exposeHeaders := some es
      maxAge := c.maxAge.map (fun n => (toString n).toList)
      vary := vs }
  if usable cors then some cors else none

/-- Header name used at blueprint/cors.rs:27, 30. -/
def acao : Text := "access-control-allow-origin".toList
/-- Header name used at blueprint/cors.rs:37. -/
def acac : Text := "access-control-allow-credentials".toList
/-- Header name used at blueprint/cors.rs:44-70. -/
def acapn : Text := "access-control-allow-private-network".toList
/-- Header name used at blueprint/cors.rs:44-70. -/
def acrpn : Text := "access-control-request-private-network".toList
/-- Header name used at blueprint/cors.rs:75. -/
def acam : Text := "access-control-allow-methods".toList
/-- Header name used at blueprint/cors.rs:82. -/
def acah : Text := "access-control-allow-headers".toList
/-- Header name used at blueprint/cors.rs:89. -/
def acma : Text := "access-control-max-age".toList
/-- Header name used at blueprint/cors.rs:96. -/
def aceh : Text := "access-control-expose-headers".toList
/-- Header name used at blueprint/cors.rs:100-112. -/
def varyName : Text := "vary".toList
/-- Header name used at http/request_handler.rs:205. -/
def originName : Text := "origin".toList
/-- Header value used at blueprint/cors.rs:35-70. -/
def trueText : Text := "true".toList
/-- Method compared at http/request_handler.rs:218. -/
def optionsMethod : Text := "OPTIONS".toList

/-- `allow_origin_to_header` (blueprint/cors.rs:22-32). -/
def Cors.originHeader (c : Cors) (origin : Option Text) : Option (Text × Text) :=
  if c.allowOrigins.any isWildcard then origin.map (fun o => (acao, o))
  else (origin.filter (fun o => c.allowOrigins.contains o)).map (fun o => (acao, o))

/-- `allow_credentials_to_header` (blueprint/cors.rs:34-41). -/
def Cors.credentialsHeader (c : Cors) : Option (Text × Text) :=
  if c.allowCredentials then some (acac, trueText) else none

/-- A request: its method and headers; the rest is kept for the inner handler (http/request_handler.rs:203-205). -/
structure Req where
  method : Text
  headers : HMap

/-- `allow_private_network_to_header` (blueprint/cors.rs:43-71). -/
def Cors.privateHeader (c : Cors) (r : Req) : Option (Text × Text) :=
  if c.allowPrivateNetwork && (first r.headers acrpn == some trueText) then some (acapn, trueText) else none

/-- `allow_methods_to_header`, `allow_headers_to_header`, `max_age_to_header`,
`expose_headers_to_header` (blueprint/cors.rs:73-99). -/
def Cors.methodsHeader (c : Cors) : Option (Text × Text) := c.allowMethods.map (fun v => (acam, v))
/-- `allow_headers_to_header` (blueprint/cors.rs:80-85). -/
def Cors.headersHeader (c : Cors) : Option (Text × Text) := c.allowHeaders.map (fun v => (acah, v))
/-- `max_age_to_header` (blueprint/cors.rs:87-92). -/
def Cors.maxAgeHeader (c : Cors) : Option (Text × Text) := c.maxAge.map (fun v => (acma, v))
/-- `expose_headers_to_header` (blueprint/cors.rs:94-99). -/
def Cors.exposeHeader (c : Cors) : Option (Text × Text) := c.exposeHeaders.map (fun v => (aceh, v))

/-- `vary_to_header` (blueprint/cors.rs:101-111); the parts are header values, so is their join. -/
def Cors.varyHeader (c : Cors) : Option (Text × Text) :=
  if c.vary.isEmpty then none else some (varyName, joinComma c.vary)

/-- `headers.extend(option)` for one optional header: `Extend<(HeaderName, T)>` appends
(external crate `http`, used at http/request_handler.rs:212-230). -/
def put (h : HMap) (o : Option (Text × Text)) : HMap :=
  match o with
  | some (k, v) => fun n => if n = k then h n ++ [v] else h n
  | none => h

/-- The headers common to preflight and other requests (http/request_handler.rs:209-215). -/
def Cors.common (c : Cors) (r : Req) : HMap :=
  put (put (put (put HMap.empty (c.originHeader (first r.headers originName))) c.credentialsHeader)
    (c.privateHeader r)) c.varyHeader

/-- A response: what the inner handler made of the request, if it ran, and the headers
(http/request_handler.rs:196-247). -/
structure Resp where
  ran : Bool
  headers : HMap

/-- `handle_request_with_cors` (http/request_handler.rs:196-247); `inner` gives the headers of the
response of `handle_request_inner` (an error of which is passed on and not modelled). -/
def withCors (c : Cors) (inner : Req → HMap) (r : Req) : Resp :=
  if r.method = optionsMethod then
    ⟨false, put (put (put (c.common r) c.methodsHeader) c.headersHeader) c.maxAgeHeader⟩
  else
    let h := put (c.common r) c.exposeHeader
    let i := inner r
    -- the vary header is appended, the others replace what the response had
    ⟨true, fun n => if n = varyName then i n ++ h n else if (h n).isEmpty then i n else h n⟩

/-- `TAILCALL_HTTPS_ORIGIN` (http/mod.rs:25). -/
def tailcallHttps : Text := "https://tailcall.run".toList
/-- `TAILCALL_HTTP_ORIGIN` (http/mod.rs:26). -/
def tailcallHttp : Text := "http://tailcall.run".toList

/-- `handle_origin_tailcall` (http/request_handler.rs:164-194). -/
def originTailcall (inner : Req → HMap) (r : Req) : Resp :=
  if r.method = optionsMethod then
    ⟨false, ((HMap.empty.insert acao tailcallHttps).insert acam "GET, POST, OPTIONS".toList).insert acah
      wildcard⟩
  else ⟨true, (inner r).insert acao tailcallHttps⟩

/-- The choice of handler in `handle_request` (http/request_handler.rs:357-367). -/
def handle (cors : Option Cors) (inner : Req → HMap) (r : Req) : Resp :=
  match cors with
  | some c => withCors c inner r
  | none =>
      match first r.headers originName with
      | some o =>
          if o = tailcallHttps ∨ o = tailcallHttp then originTailcall inner r else ⟨true, inner r⟩
      | none => ⟨true, inner r⟩

/-! ## Bodies -/

/-- The enumerated `flat_map` of `default_body` (async_graphql_hyper.rs:384-402), from index `i` on. -/
def joinFrom : Nat → List Text → Text
  | _, [] => []
  | i, b :: r => (if i > 0 then [','] else []) ++ b ++ joinFrom (i + 1) r

/-- `GraphQLArcResponse::default_body` (async_graphql_hyper.rs:382-406). -/
def defaultBody : Batch → Text
  | .single r => r.body
  | .batch rs => ['['] ++ joinFrom 0 (rs.map (·.body)) ++ [']']

/-- `char::escape_debug` as used by `{:?}` for `str`: `escaped` are the characters that the standard
library writes as `\u{..}` (not printable ones, and some combining marks)
(standard library, used at http/request_handler.rs:101). -/
def debugChar (escaped : Char → Bool) (hex : Char → Text) (c : Char) : Text :=
  if c = '"' then ['\\', '"']
  else if c = '\\' then ['\\', '\\']
  else if c = '\n' then ['\\', 'n']
  else if c = '\r' then ['\\', 'r']
  else if c = '\t' then ['\\', 't']
  else if c = Char.ofNat 0 then ['\\', '0']
  else if escaped c then ['\\', 'u', '{'] ++ hex c ++ ['}']
  else [c]

/-- The body made of an `application/graphql` request (http/request_handler.rs:94-107), on text that is
valid UTF-8. -/
def enrich (escaped : Char → Bool) (hex : Char → Text) (doc : Text) : Text :=
  if doc.contains '\\' then
    ['{', '"', 'q', 'u', 'e', 'r', 'y', '"', ':', ' '] ++ doc ++ [' ', '}']
  else
    ['{', '"', 'q', 'u', 'e', 'r', 'y', '"', ':', ' ', '"'] ++ doc.flatMap (debugChar escaped hex)
      ++ ['"', ' ', '}']

end Verif.Front
