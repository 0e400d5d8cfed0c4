import Verif.HttpUrl.Model

/-!
# Model of upstream requests and of the keys that identify them
(http/request_template.rs, graphql/request_template.rs, grpc/request_template.rs,
http/data_loader_request.rs, grpc/data_loader_request.rs, ir/eval_io.rs)

A hash is modelled by the sequence of values fed to the hasher (`List Tok`).  Every one of these values is
hashed with a terminator or a length by Rust's `Hash` instances, so the sequence of values is what
the byte stream determines; collisions of the 64-bit result are outside of the model.
-/

namespace Verif.HttpKey
open Verif.Mustache (Text Template Seg)
open Verif.HttpUrl

/-- A value fed to the hasher
(http/request_template.rs:254-280, graphql/request_template.rs:195-202, grpc/request_template.rs:53-58). -/
inductive Tok where
  | txt (t : Text)
  | url (u : Url)
  deriving DecidableEq, Repr

/-- `http::HeaderMap` as seen by the receiver: the values of each (lower case) name, in order
(external crate `http`, used at http/request_template.rs:101-110). -/
abbrev HMap := Text → List Text

/-- `HeaderMap::new` (external crate `http`, used at http/request_template.rs:102). -/
def HMap.empty : HMap := fun _ => []

/-- `HeaderMap::insert`: replaces all values of the name
(external crate `http`, used at http/request_template.rs:101-110, 172-183). -/
def HMap.insert (h : HMap) (k v : Text) : HMap := fun n => if n = k then [v] else h n

/-- The values of `n` in a header list (helper of `HMap.extend`, http/request_template.rs:166, 185). -/
def valuesOf (hs : List (Text × Text)) (n : Text) : List Text :=
  (hs.filter (fun kv => kv.1 = n)).map Prod.snd

/-- `headers.extend(other)` for another `HeaderMap` given by its iteration: a name that occurs in
`other` gets exactly the values of `other`
(external crate `http`, used at http/request_template.rs:166, 185 and graphql/request_template.rs:83, 89). -/
def HMap.extend (h : HMap) (other : List (Text × Text)) : HMap :=
  fun n => if (valuesOf other n).isEmpty then h n else valuesOf other n

/-- `HeaderValue::from_str` accepts all but control characters, and the tab
(external crate `http`, used at http/request_template.rs:105). -/
def validHeader (s : Text) : Bool := s.all (fun c => (32 ≤ c.toNat && c.toNat ≠ 127) || c == '\t')

/-- The loop of `create_headers` (http/request_template.rs:104-108; graphql 65-69; grpc 72-76). -/
def insertAll (h : HMap) (rendered : List (Text × Text)) : HMap :=
  rendered.foldl (fun h kv => if validHeader kv.2 then h.insert kv.1 kv.2 else h) h

/-- The template headers rendered in a context (http/request_template.rs:104-108). -/
def rendered (hs : List (Text × Template)) (r : Template → Text) : List (Text × Text) :=
  hs.map (fun kv => (kv.1, r kv.2))

/-- Header name used at http/request_template.rs:175. -/
def contentType : Text := "content-type".toList
/-- Method of http/request_template.rs:114-123. -/
def get : Text := "GET".toList

/-- The content type set at http/request_template.rs:176-181. -/
def encodingHeader : BodyEnc → Text
  | .json => "application/json".toList
  | .form => "application/x-www-form-urlencoded".toList

/-- An upstream HTTP request as the receiver sees it
(`reqwest::Request` built at http/request_template.rs:114-187). -/
structure HttpReq where
  method : Text
  url : Url
  headers : HMap
  body : Option Text

/-- `set_headers` (http/request_template.rs:159-187). -/
def setHeaders (t : ReqTemplate) (ctx : RCtx) : HMap :=
  let h := insertAll HMap.empty (rendered t.headers (fun m => Verif.Mustache.render m ctx.str))
  let h := if t.method = get then h else h.insert contentType (encodingHeader t.encoding)
  h.extend ctx.headers

/-- `set_body` (http/request_template.rs:126-156), without the batching value (see `batchingValue`).
`form` is "parse as JSON, print url-encoded; unparsable text is taken as it is"; `none` is an error of
`serde_urlencoded`. -/
def setBody (form : Text → Option Text) (t : ReqTemplate) (ctx : RCtx) : Option (Option Text) :=
  match t.body with
  | none => some none
  | some b =>
      match t.encoding with
      | .json => some (some (Verif.Mustache.render b ctx.str))
      | .form => (form (Verif.Mustache.render b ctx.str)).map some

/-- `to_request` (http/request_template.rs:114-123). `none` is an error. -/
def toRequest (norm form : Text → Option Text) (t : ReqTemplate) (ctx : RCtx) : Option HttpReq :=
  match createUrl norm t ctx with
  | none => none
  | some u => (setBody form t ctx).map (fun b => ⟨t.method, u, setHeaders t ctx, b⟩)

/-- The batching value: the value of the first expression that has one (`ExpressionValueEval`,
http/request_template.rs:316-351). -/
def batchingValue (t : ReqTemplate) (ctx : RCtx) : Option Text :=
  match t.body, t.encoding with
  | some b, .json =>
      (b.filterMap (fun s => match s with | .lit _ => none | .expr ps => ctx.str ps)).head?
  | _, _ => none

/-- Name and value of each header, one after the other (http/request_template.rs:260-268). -/
def hdrToks (hs : List (Text × Text)) : List Tok := hs.flatMap (fun kv => [.txt kv.1, .txt kv.2])

/-- `cache_key` of an HTTP template (http/request_template.rs:254-280).
`none` is the panic of `create_url(ctx).unwrap()`. -/
def cacheKey (norm : Text → Option Text) (t : ReqTemplate) (ctx : RCtx) : Option (List Tok) :=
  (createUrl norm t ctx).map (fun u =>
    [.txt t.method] ++ hdrToks (rendered t.headers (fun m => Verif.Mustache.render m ctx.str))
      ++ hdrToks ctx.headers
      ++ (match t.body with
          | some b => [.txt (Verif.Mustache.render b ctx.str)]
          | none => [])
      ++ [.url u])

/-! ## GraphQL upstream -/

/-- A context for GraphQL upstreams: `PathGraphql`, headers, and `GraphQLOperationContext`
(the directives of the field and the printed selection of related fields; ir/eval_context.rs:110-124). -/
structure GCtx where
  gql : List Text → Option Text
  headers : List (Text × Text)
  directives : Option Text
  selection : Text

/-- `PathGraphql for EvalContext` (path.rs:117-128).  `printVal` is the GraphQL printer of
`async_graphql::Value`; texts (headers, vars, env) are put between quotes as they are. -/
def pathGraphql (printVal : GVal → Text) (raw : List Text → Option VS) (p : List Text) : Option Text :=
  if p.length < 2 then none
  else (raw p).map (fun v => match v with
    | .value _ v => printVal v
    | .string s => '"' :: (s ++ ['"']))

/-- `Mustache::render_graphql` (mustache/eval.rs:112-121, 130). -/
def renderG (t : Template) (g : List Text → Option Text) : Text :=
  (t.map (fun s => match s with
    | .lit l => l
    | .expr ps => (g ps).getD [])).flatten

/-- `RequestTemplate` for GraphQL (graphql/request_template.rs:50-59); `fixedSelection` is the text of
`selection` when it is `Some`.  The related fields are part of the context's `selection`. -/
structure GqlTemplate where
  url : Text
  opType : Text
  opName : Text
  args : Option (List (Text × Template))
  headers : List (Text × Template)
  fixedSelection : Option Text

/-- Lower case hexadecimal digits of a number
(standard library, part of `char::escape_default`, used at graphql/request_template.rs:135). -/
def hexDigits (n : Nat) : Text := Nat.toDigits 16 n

/-- `char::escape_default` (standard library, used at graphql/request_template.rs:135, 155). -/
def escapeChar (c : Char) : Text :=
  if c == '\t' then ['\\', 't']
  else if c == '\r' then ['\\', 'r']
  else if c == '\n' then ['\\', 'n']
  else if c == '\'' || c == '"' || c == '\\' then ['\\', c]
  else if 32 ≤ c.toNat && c.toNat ≤ 126 then [c]
  else ['\\', 'u', '{'] ++ hexDigits c.toNat ++ ['}']

/-- `str::escape_default` (standard library, used at graphql/request_template.rs:135, 155). -/
def escape (s : Text) : Text := s.flatMap escapeChar

/-- `items.join(", ")` (standard library, used at graphql/request_template.rs:139). -/
def joinComma : List Text → Text
  | [] => []
  | [x] => x
  | x :: y :: r => x ++ ',' :: ' ' :: joinComma (y :: r)

/-- The argument list (graphql/request_template.rs:127-148): arguments that render to nothing are
left out. -/
def argsText (t : GqlTemplate) (ctx : GCtx) : Text :=
  match t.args with
  | none => []
  | some args =>
      let parts := args.filterMap (fun kv =>
        let v := renderG kv.2 ctx.gql
        if v.isEmpty then none else some (kv.1 ++ ": ".toList ++ escape v))
      let a := joinComma parts
      if a.isEmpty then [] else '(' :: (a ++ [')'])

/-- The directives (graphql/request_template.rs:150-157). -/
def directivesText (ctx : GCtx) : Text :=
  match ctx.directives with
  | none => []
  | some d => if d.isEmpty then [] else ' ' :: escape d

/-- The content of the JSON string written by `render_graphql_query`
(graphql/request_template.rs:113-163). -/
def queryLiteral (t : GqlTemplate) (ctx : GCtx) : Text :=
  t.opType ++ " { ".toList ++ t.opName ++ argsText t ctx ++ directivesText ctx ++ [' ']
    ++ t.fixedSelection.getD ctx.selection ++ " }".toList

/-- `render_graphql_query` (graphql/request_template.rs:113-163). -/
def renderQuery (t : GqlTemplate) (ctx : GCtx) : Text :=
  "{ \"query\": \"".toList ++ queryLiteral t ctx ++ "\" }".toList

/-- `to_request` for GraphQL (graphql/request_template.rs:61-111). -/
def gqlRequest (norm : Text → Option Text) (t : GqlTemplate) (ctx : GCtx) : Option HttpReq :=
  (parseUrl norm t.url).map (fun u =>
    ⟨"POST".toList, u,
      ((insertAll HMap.empty (rendered t.headers (fun m => renderG m ctx.gql))).insert contentType
        (encodingHeader .json)).extend ctx.headers,
      some (renderQuery t ctx)⟩)

/-- `cache_key` for GraphQL (graphql/request_template.rs:195-202). -/
def gqlCacheKey (t : GqlTemplate) (ctx : GCtx) : List Tok := [.txt (renderQuery t ctx)]

/-! ## gRPC upstream -/

/-- `RequestTemplate` for gRPC (grpc/request_template.rs:20-27). `op` names the protobuf operation. -/
structure GrpcTemplate where
  url : Template
  headers : List (Text × Template)
  body : Option Template
  op : Text

/-- `RenderedRequestTemplate` (grpc/request_template.rs:45-51). -/
structure GrpcRendered where
  url : Url
  headers : HMap
  body : Text
  op : Text

/-- `render` (grpc/request_template.rs:60-107).  Simplification: a body without mustache
(`RequestBody.value`) is a literal template. -/
def grpcRender (norm : Text → Option Text) (t : GrpcTemplate) (ctx : RCtx) : Option GrpcRendered :=
  (parseUrl norm (Verif.Mustache.render t.url ctx.str)).map (fun u =>
    ⟨u, (insertAll (HMap.empty.insert contentType "application/grpc".toList)
          (rendered t.headers (fun m => Verif.Mustache.render m ctx.str))).extend ctx.headers,
      (t.body.map (fun b => Verif.Mustache.render b ctx.str)).getD "{}".toList, t.op⟩)

/-- `cache_key` for gRPC (grpc/request_template.rs:53-58, 120-127). `none` is the panic of
`render(ctx).unwrap()`. -/
def grpcCacheKey (norm : Text → Option Text) (t : GrpcTemplate) (ctx : RCtx) : Option (List Tok) :=
  (grpcRender norm t ctx).map (fun r => [.url r.url, .txt r.body])

/-! ## Keys of the data loaders -/

/-- What is hashed for one batching header: name and value, or nothing if the request has no such
header (http/data_loader_request.rs:46-51, grpc/data_loader_request.rs:20-25). -/
def headerTok (n : Text) : Option Text → List Tok
  | some v => [.txt n, .txt v]
  | none => []

/-- `DataLoaderRequest` (http/data_loader_request.rs:7-13). `batchHeaders` is the ordered set of
configured batching headers. -/
structure DLReq where
  req : HttpReq
  batchHeaders : List Text
  batchingValue : Option Text

/-- `Hash for DataLoaderRequest` (http/data_loader_request.rs:39-55); `HeaderMap::get` is the first
value. -/
def DLReq.key (r : DLReq) : List Tok :=
  [.url r.req.url]
    ++ (match r.req.body with | some b => [.txt b] | none => [])
    ++ r.batchHeaders.flatMap (fun n => headerTok n (r.req.headers n).head?)

/-- gRPC `DataLoaderRequest` (grpc/data_loader_request.rs:9-27). -/
structure GrpcDLReq where
  req : GrpcRendered
  batchHeaders : List Text

/-- Its `Hash` (grpc/data_loader_request.rs:15-27). -/
def GrpcDLReq.key (r : GrpcDLReq) : List Tok :=
  [.url r.req.url, .txt r.req.body]
    ++ r.batchHeaders.flatMap (fun n => headerTok n (r.req.headers n).head?)

/-! ## Evaluating a resolver -/

/-- What evaluating an IO node can come to (ir/eval_io.rs:17-59). -/
inductive Outcome (α : Type) where
  | ok (a : α)
  | error
  | panic
  deriving DecidableEq, Repr

/-- `eval_io` for HTTP up to the point where the request is sent (ir/eval_io.rs:17-59,
ir/eval_http.rs:72-75): the request that is going to be sent, and under which key. -/
def prepareHttp (norm form : Text → Option Text) (t : ReqTemplate) (ctx : RCtx) (dedupe isQuery : Bool) :
    Outcome (Option (List Tok) × HttpReq) :=
  if !dedupe || !isQuery then
    match toRequest norm form t ctx with
    | some r => .ok (none, r)
    | none => .error
  else
    match cacheKey norm t ctx with
    | none => .panic
    | some k =>
        match toRequest norm form t ctx with
        | some r => .ok (some k, r)
        | none => .error

/-- The same for gRPC (ir/eval_io.rs:17-41, 78-93). -/
def prepareGrpc (norm : Text → Option Text) (t : GrpcTemplate) (ctx : RCtx) (dedupe isQuery : Bool) :
    Outcome (Option (List Tok) × GrpcRendered) :=
  if !dedupe || !isQuery then
    match grpcRender norm t ctx with
    | some r => .ok (none, r)
    | none => .error
  else
    match grpcCacheKey norm t ctx with
    | none => .panic
    | some k =>
        match grpcRender norm t ctx with
        | some r => .ok (some k, r)
        | none => .error

end Verif.HttpKey
