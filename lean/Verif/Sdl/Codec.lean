import Verif.Sdl.Value

/-!
# Model of the conversions of the directives

Source: the structs under src/core/config/directives with their derived serde code, and src/core/directive.rs.
-/

namespace Verif.Sdl

open Verif.Mustache (Text)
open Verif.Merge (get)

/-- `Encoding` (config/config.rs:678-685). -/
inductive Encoding where
  | json
  | form
  deriving DecidableEq

/-- Writing an `Encoding` (config/config.rs:678-685). -/
def Encoding.toJ : Encoding → J
  | .json => .str "ApplicationJson".toList
  | .form => .str "ApplicationXWwwFormUrlencoded".toList

/-- Reading an `Encoding` (config/config.rs:678-685). -/
def Encoding.ofJ : J → Option Encoding
  | .str s => if s = "ApplicationJson".toList then some .json
    else if s = "ApplicationXWwwFormUrlencoded".toList then some .form else none
  | _ => none

/-- `Method` (http/method.rs:16-27). -/
inductive Method where
  | get | post | put | patch | delete | head | options | connect | trace
  deriving DecidableEq

/-- The names of the methods (http/method.rs:16-27). -/
def Method.text : Method → Text
  | .get => "GET".toList
  | .post => "POST".toList
  | .put => "PUT".toList
  | .patch => "PATCH".toList
  | .delete => "DELETE".toList
  | .head => "HEAD".toList
  | .options => "OPTIONS".toList
  | .connect => "CONNECT".toList
  | .trace => "TRACE".toList

/-- Writing a `Method` (http/method.rs:16-27). -/
def Method.toJ (m : Method) : J := .str m.text

/-- Reading a `Method` (http/method.rs:16-27). -/
def Method.ofJ : J → Option Method
  | .str s => [Method.get, .post, .put, .patch, .delete, .head, .options, .connect, .trace].find? (fun m => m.text = s)
  | _ => none

/-- `LinkType` (config/directives/link.rs:18-56). -/
inductive LinkType where
  | config | protobuf | script | cert | key | operation | htpasswd | jwks | grpc
  deriving DecidableEq

/-- The names of the types of links (config/directives/link.rs:18-56). -/
def LinkType.text : LinkType → Text
  | .config => "Config".toList
  | .protobuf => "Protobuf".toList
  | .script => "Script".toList
  | .cert => "Cert".toList
  | .key => "Key".toList
  | .operation => "Operation".toList
  | .htpasswd => "Htpasswd".toList
  | .jwks => "Jwks".toList
  | .grpc => "Grpc".toList

/-- Writing a `LinkType` (config/directives/link.rs:18-56). -/
def LinkType.toJ (m : LinkType) : J := .str m.text

/-- Reading a `LinkType` (config/directives/link.rs:18-56). -/
def LinkType.ofJ : J → Option LinkType
  | .str s => [LinkType.config, .protobuf, .script, .cert, .key, .operation, .htpasswd, .jwks, .grpc].find? (fun m => m.text = s)
  | _ => none

/-- `HttpVersion` (config/directives/server.rs:172-179). -/
inductive HttpVersion where
  | http1
  | http2

/-- Writing an `HttpVersion` (config/directives/server.rs:172-179). -/
def HttpVersion.toJ : HttpVersion → J
  | .http1 => .str "HTTP1".toList
  | .http2 => .str "HTTP2".toList

/-- Reading an `HttpVersion` (config/directives/server.rs:172-179). -/
def HttpVersion.ofJ : J → Option HttpVersion
  | .str s => if s = "HTTP1".toList then some .http1 else if s = "HTTP2".toList then some .http2 else none
  | _ => none

/-- `JsonSchema` (json/json_schema.rs:9-21). -/
inductive Schema where
  | obj (fs : List (Text × Schema))
  | arr (s : Schema)
  | opt (s : Schema)
  | enum (l : List Text)
  | str
  | num
  | bool
  | empty
  | any

mutual
/-- Writing a `JsonSchema` (json/json_schema.rs:9-21). -/
def Schema.toJ : Schema → J
  | .obj fs => .obj [("Obj".toList, .obj (Schema.toJs fs))]
  | .arr s => .obj [("Arr".toList, s.toJ)]
  | .opt s => .obj [("Opt".toList, s.toJ)]
  | .enum l => .obj [("Enum".toList, eTexts l)]
  | .str => .str "Str".toList
  | .num => .str "Num".toList
  | .bool => .str "Bool".toList
  | .empty => .str "Empty".toList
  | .any => .str "Any".toList
/-- Writing the fields of a `JsonSchema` (json/json_schema.rs:9-21). -/
def Schema.toJs : List (Text × Schema) → List (Text × J)
  | [] => []
  | p :: r => Schema.toJf p :: Schema.toJs r
/-- Writing a field of a `JsonSchema` (json/json_schema.rs:9-21). -/
def Schema.toJf : Text × Schema → Text × J
  | (k, s) => (k, s.toJ)
end

mutual
/-- Reading a `JsonSchema` (json/json_schema.rs:9-21). -/
def Schema.ofJ : J → Option Schema
  | .str s =>
    if s = "Str".toList then some .str
    else if s = "Num".toList then some .num
    else if s = "Bool".toList then some .bool
    else if s = "Empty".toList then some .empty
    else if s = "Any".toList then some .any
    else none
  | .obj [p] => Schema.ofTag p
  | _ => none
/-- Reading a variant with content of a `JsonSchema` (json/json_schema.rs:9-21). -/
def Schema.ofTag : Text × J → Option Schema
  | (k, .obj m) =>
    if k = "Obj".toList then (Schema.ofJs m).map (fun l => .obj (build l))
    else if k = "Arr".toList then (Schema.ofJ (.obj m)).map .arr
    else if k = "Opt".toList then (Schema.ofJ (.obj m)).map .opt
    else none
  | (k, .str s) =>
    if k = "Arr".toList then (Schema.ofJ (.str s)).map .arr
    else if k = "Opt".toList then (Schema.ofJ (.str s)).map .opt
    else none
  | (k, .arr l) => if k = "Enum".toList then (dSet (.arr l)).map .enum else none
  | _ => none
/-- Reading the fields of a `JsonSchema` (json/json_schema.rs:9-21). -/
def Schema.ofJs : List (Text × J) → Option (List (Text × Schema))
  | [] => some []
  | p :: r =>
    match Schema.ofJf p, Schema.ofJs r with
    | some x, some l => some (x :: l)
    | _, _ => none
/-- Reading a field of a `JsonSchema` (json/json_schema.rs:9-21). -/
def Schema.ofJf : Text × J → Option (Text × Schema)
  | (k, j) => (Schema.ofJ j).map (k, ·)
end

/-- The default of `vary` (config/cors.rs:64-70). -/
def preflight : List Text := ["origin".toList, "access-control-request-method".toList, "access-control-request-headers".toList]

/-- `KeyValue` (config/key_values.rs:23-27). -/
structure KeyValue where
  key : Text
  value : Text

/-- The fields of `KeyValue` with their skipping (config/key_values.rs:23-27). -/
def KeyValue.fields (a : KeyValue) : List (Text × Option J) := [
  ("key".toList, some (.str a.key)),
  ("value".toList, some (.str a.value))]

/-- The serialized fields of `KeyValue` (config/key_values.rs:23-27). -/
def KeyValue.enc (a : KeyValue) : List (Text × J) := keep a.fields

/-- `KeyValue` as a value (config/key_values.rs:23-27). -/
def KeyValue.toJ (a : KeyValue) : J := .obj a.enc

/-- Reading `KeyValue` (config/key_values.rs:23-27). -/
def KeyValue.dec (m : List (Text × J)) : Option KeyValue := do
  let key ← need m "key".toList dText
  let value ← need m "value".toList dText
  return ⟨key, value⟩

/-- `URLQuery` (config/url_query.rs:5-18). -/
structure URLQuery where
  key : Text
  value : Text
  skipEmpty : Option Bool

/-- The fields of `URLQuery` with their skipping (config/url_query.rs:5-18). -/
def URLQuery.fields (a : URLQuery) : List (Text × Option J) := [
  ("key".toList, some (.str a.key)),
  ("value".toList, some (.str a.value)),
  ("skipEmpty".toList, skip (a.skipEmpty.isNone) (eOpt J.bool a.skipEmpty))]

/-- The serialized fields of `URLQuery` (config/url_query.rs:5-18). -/
def URLQuery.enc (a : URLQuery) : List (Text × J) := keep a.fields

/-- `URLQuery` as a value (config/url_query.rs:5-18). -/
def URLQuery.toJ (a : URLQuery) : J := .obj a.enc

/-- Reading `URLQuery` (config/url_query.rs:5-18). -/
def URLQuery.dec (m : List (Text × J)) : Option URLQuery := do
  let key ← need m "key".toList dText
  let value ← need m "value".toList dText
  let skipEmpty ← maybe m "skipEmpty".toList (dOpt dBool) none
  return ⟨key, value, skipEmpty⟩

/-- `Http` (config/directives/http.rs:10-111). -/
structure Http where
  onRequest : Option Text
  url : Text
  body : Option J
  encoding : Encoding
  batchKey : List Text
  headers : List KeyValue
  input : Option Schema
  method : Method
  output : Option Schema
  query : List URLQuery
  dedupe : Option Bool
  select : Option J
  onResponseBody : Option Text

/-- The fields of `Http` with their skipping (config/directives/http.rs:10-111). -/
def Http.fields (a : Http) : List (Text × Option J) := [
  ("onRequest".toList, skip (a.onRequest.isNone) (eOpt J.str a.onRequest)),
  ("url".toList, some (.str a.url)),
  ("body".toList, skip (a.body.isNone) (eOpt id a.body)),
  ("encoding".toList, skip (a.encoding == .json) (a.encoding.toJ)),
  ("batchKey".toList, skip (a.batchKey.isEmpty) (eList J.str a.batchKey)),
  ("headers".toList, skip (a.headers.isEmpty) (eList KeyValue.toJ a.headers)),
  ("input".toList, skip (a.input.isNone) (eOpt Schema.toJ a.input)),
  ("method".toList, skip (a.method == .get) (a.method.toJ)),
  ("output".toList, skip (a.output.isNone) (eOpt Schema.toJ a.output)),
  ("query".toList, skip (a.query.isEmpty) (eList URLQuery.toJ a.query)),
  ("dedupe".toList, skip (a.dedupe.isNone) (eOpt J.bool a.dedupe)),
  ("select".toList, some (eOpt id a.select)),
  ("onResponseBody".toList, skip (a.onResponseBody.isNone) (eOpt J.str a.onResponseBody))]

/-- The serialized fields of `Http` (config/directives/http.rs:10-111). -/
def Http.enc (a : Http) : List (Text × J) := keep a.fields

/-- `Http` as a value (config/directives/http.rs:10-111). -/
def Http.toJ (a : Http) : J := .obj a.enc

/-- Reading `Http` (config/directives/http.rs:10-111). -/
def Http.dec (m : List (Text × J)) : Option Http := do
  known m ["onRequest".toList, "url".toList, "body".toList, "encoding".toList, "batchKey".toList, "headers".toList, "input".toList, "method".toList, "output".toList, "query".toList, "dedupe".toList, "select".toList, "onResponseBody".toList]
  let onRequest ← maybe m "onRequest".toList (dOpt dText) none
  let url ← need m "url".toList dText
  let body ← maybe m "body".toList (dOpt some) none
  let encoding ← maybe m "encoding".toList Encoding.ofJ .json
  let batchKey ← maybe m "batchKey".toList (dList dText) []
  let headers ← maybe m "headers".toList (dList (fun j => (fieldsOf j).bind KeyValue.dec)) []
  let input ← maybe m "input".toList (dOpt Schema.ofJ) none
  let method ← maybe m "method".toList Method.ofJ .get
  let output ← maybe m "output".toList (dOpt Schema.ofJ) none
  let query ← maybe m "query".toList (dList (fun j => (fieldsOf j).bind URLQuery.dec)) []
  let dedupe ← maybe m "dedupe".toList (dOpt dBool) none
  let select ← maybe m "select".toList (dOpt some) none
  let onResponseBody ← maybe m "onResponseBody".toList (dOpt dText) none
  return ⟨onRequest, url, body, encoding, batchKey, headers, input, method, output, query, dedupe, select, onResponseBody⟩

/-- `Grpc` (config/directives/grpc.rs:8-77). -/
structure Grpc where
  url : Text
  body : Option J
  batchKey : List Text
  headers : List KeyValue
  method : Text
  dedupe : Option Bool
  select : Option J
  onResponseBody : Option Text

/-- The fields of `Grpc` with their skipping (config/directives/grpc.rs:8-77). -/
def Grpc.fields (a : Grpc) : List (Text × Option J) := [
  ("url".toList, some (.str a.url)),
  ("body".toList, skip (a.body.isNone) (eOpt id a.body)),
  ("batchKey".toList, skip (a.batchKey.isEmpty) (eList J.str a.batchKey)),
  ("headers".toList, skip (a.headers.isEmpty) (eList KeyValue.toJ a.headers)),
  ("method".toList, some (.str a.method)),
  ("dedupe".toList, skip (a.dedupe.isNone) (eOpt J.bool a.dedupe)),
  ("select".toList, some (eOpt id a.select)),
  ("onResponseBody".toList, skip (a.onResponseBody.isNone) (eOpt J.str a.onResponseBody))]

/-- The serialized fields of `Grpc` (config/directives/grpc.rs:8-77). -/
def Grpc.enc (a : Grpc) : List (Text × J) := keep a.fields

/-- `Grpc` as a value (config/directives/grpc.rs:8-77). -/
def Grpc.toJ (a : Grpc) : J := .obj a.enc

/-- Reading `Grpc` (config/directives/grpc.rs:8-77). -/
def Grpc.dec (m : List (Text × J)) : Option Grpc := do
  known m ["url".toList, "body".toList, "batchKey".toList, "headers".toList, "method".toList, "dedupe".toList, "select".toList, "onResponseBody".toList]
  let url ← need m "url".toList dText
  let body ← maybe m "body".toList (dOpt some) none
  let batchKey ← maybe m "batchKey".toList (dList dText) []
  let headers ← maybe m "headers".toList (dList (fun j => (fieldsOf j).bind KeyValue.dec)) []
  let method ← need m "method".toList dText
  let dedupe ← maybe m "dedupe".toList (dOpt dBool) none
  let select ← maybe m "select".toList (dOpt some) none
  let onResponseBody ← maybe m "onResponseBody".toList (dOpt dText) none
  return ⟨url, body, batchKey, headers, method, dedupe, select, onResponseBody⟩

/-- `GraphQL` (config/directives/graphql.rs:7-59). -/
structure GraphQL where
  args : Option (List KeyValue)
  url : Text
  batch : Bool
  headers : List KeyValue
  name : Text
  dedupe : Bool

/-- The fields of `GraphQL` with their skipping (config/directives/graphql.rs:7-59). -/
def GraphQL.fields (a : GraphQL) : List (Text × Option J) := [
  ("args".toList, skip (a.args.isNone) (eOpt (eList KeyValue.toJ) a.args)),
  ("url".toList, some (.str a.url)),
  ("batch".toList, skip (!a.batch) (.bool a.batch)),
  ("headers".toList, skip (a.headers.isEmpty) (eList KeyValue.toJ a.headers)),
  ("name".toList, some (.str a.name)),
  ("dedupe".toList, skip (!a.dedupe) (.bool a.dedupe))]

/-- The serialized fields of `GraphQL` (config/directives/graphql.rs:7-59). -/
def GraphQL.enc (a : GraphQL) : List (Text × J) := keep a.fields

/-- `GraphQL` as a value (config/directives/graphql.rs:7-59). -/
def GraphQL.toJ (a : GraphQL) : J := .obj a.enc

/-- Reading `GraphQL` (config/directives/graphql.rs:7-59). -/
def GraphQL.dec (m : List (Text × J)) : Option GraphQL := do
  known m ["args".toList, "url".toList, "batch".toList, "headers".toList, "name".toList, "dedupe".toList]
  let args ← maybe m "args".toList (dOpt (dList (fun j => (fieldsOf j).bind KeyValue.dec))) none
  let url ← need m "url".toList dText
  let batch ← maybe m "batch".toList dBool false
  let headers ← maybe m "headers".toList (dList (fun j => (fieldsOf j).bind KeyValue.dec)) []
  let name ← need m "name".toList dText
  let dedupe ← maybe m "dedupe".toList dBool false
  return ⟨args, url, batch, headers, name, dedupe⟩

/-- `Step` (config/directives/call.rs:9-25). -/
structure Step where
  query : Option Text
  mutation : Option Text
  args : List (Text × J)

/-- The fields of `Step` with their skipping (config/directives/call.rs:9-25). -/
def Step.fields (a : Step) : List (Text × Option J) := [
  ("query".toList, skip (a.query.isNone) (eOpt J.str a.query)),
  ("mutation".toList, skip (a.mutation.isNone) (eOpt J.str a.mutation)),
  ("args".toList, skip (a.args.isEmpty) (.obj a.args))]

/-- The serialized fields of `Step` (config/directives/call.rs:9-25). -/
def Step.enc (a : Step) : List (Text × J) := keep a.fields

/-- `Step` as a value (config/directives/call.rs:9-25). -/
def Step.toJ (a : Step) : J := .obj a.enc

/-- Reading `Step` (config/directives/call.rs:9-25). -/
def Step.dec (m : List (Text × J)) : Option Step := do
  let query ← maybe m "query".toList (dOpt dText) none
  let mutation ← maybe m "mutation".toList (dOpt dText) none
  let args ← maybe m "args".toList dMap []
  return ⟨query, mutation, args⟩

/-- `Call` (config/directives/call.rs:27-55). -/
structure Call where
  steps : List Step
  dedupe : Option Bool

/-- The fields of `Call` with their skipping (config/directives/call.rs:27-55). -/
def Call.fields (a : Call) : List (Text × Option J) := [
  ("steps".toList, some (eList Step.toJ a.steps)),
  ("dedupe".toList, skip (a.dedupe.isNone) (eOpt J.bool a.dedupe))]

/-- The serialized fields of `Call` (config/directives/call.rs:27-55). -/
def Call.enc (a : Call) : List (Text × J) := keep a.fields

/-- `Call` as a value (config/directives/call.rs:27-55). -/
def Call.toJ (a : Call) : J := .obj a.enc

/-- Reading `Call` (config/directives/call.rs:27-55). -/
def Call.dec (m : List (Text × J)) : Option Call := do
  let steps ← need m "steps".toList (dList (fun j => (fieldsOf j).bind Step.dec))
  let dedupe ← maybe m "dedupe".toList (dOpt dBool) none
  return ⟨steps, dedupe⟩

/-- `JS` (config/directives/js.rs:4-18). -/
structure Js where
  name : Text

/-- The fields of `Js` with their skipping (config/directives/js.rs:4-18). -/
def Js.fields (a : Js) : List (Text × Option J) := [
  ("name".toList, some (.str a.name))]

/-- The serialized fields of `Js` (config/directives/js.rs:4-18). -/
def Js.enc (a : Js) : List (Text × J) := keep a.fields

/-- `Js` as a value (config/directives/js.rs:4-18). -/
def Js.toJ (a : Js) : J := .obj a.enc

/-- Reading `Js` (config/directives/js.rs:4-18). -/
def Js.dec (m : List (Text × J)) : Option Js := do
  let name ← need m "name".toList dText
  return ⟨name⟩

/-- `Expr` (config/directives/expr.rs:5-23). -/
structure Expr where
  body : J

/-- The fields of `Expr` with their skipping (config/directives/expr.rs:5-23). -/
def Expr.fields (a : Expr) : List (Text × Option J) := [
  ("body".toList, some (a.body))]

/-- The serialized fields of `Expr` (config/directives/expr.rs:5-23). -/
def Expr.enc (a : Expr) : List (Text × J) := keep a.fields

/-- `Expr` as a value (config/directives/expr.rs:5-23). -/
def Expr.toJ (a : Expr) : J := .obj a.enc

/-- Reading `Expr` (config/directives/expr.rs:5-23). -/
def Expr.dec (m : List (Text × J)) : Option Expr := do
  known m ["body".toList]
  let body ← need m "body".toList some
  return ⟨body⟩

/-- `Cache` (config/directives/cache.rs:6-27). -/
structure Cache where
  maxAge : Pos64

/-- The fields of `Cache` with their skipping (config/directives/cache.rs:6-27). -/
def Cache.fields (a : Cache) : List (Text × Option J) := [
  ("maxAge".toList, some (eFin a.maxAge.val))]

/-- The serialized fields of `Cache` (config/directives/cache.rs:6-27). -/
def Cache.enc (a : Cache) : List (Text × J) := keep a.fields

/-- `Cache` as a value (config/directives/cache.rs:6-27). -/
def Cache.toJ (a : Cache) : J := .obj a.enc

/-- Reading `Cache` (config/directives/cache.rs:6-27). -/
def Cache.dec (m : List (Text × J)) : Option Cache := do
  known m ["maxAge".toList]
  let maxAge ← need m "maxAge".toList dPos
  return ⟨maxAge⟩

/-- `Omit` (config/directives/omit.rs:4-18). -/
structure Omit where

/-- The fields of `Omit` with their skipping (config/directives/omit.rs:4-18). -/
def Omit.fields (_ : Omit) : List (Text × Option J) := [
]

/-- The serialized fields of `Omit` (config/directives/omit.rs:4-18). -/
def Omit.enc (a : Omit) : List (Text × J) := keep a.fields

/-- `Omit` as a value (config/directives/omit.rs:4-18). -/
def Omit.toJ (a : Omit) : J := .obj a.enc

/-- Reading `Omit` (config/directives/omit.rs:4-18). -/
def Omit.dec (m : List (Text × J)) : Option Omit := do
  known m []
  return ⟨⟩

/-- `Modify` (config/directives/modify.rs:6-25). -/
structure Modify where
  name : Option Text
  omitted : Option Bool

/-- The fields of `Modify` with their skipping (config/directives/modify.rs:6-25). -/
def Modify.fields (a : Modify) : List (Text × Option J) := [
  ("name".toList, skip (a.name.isNone) (eOpt J.str a.name)),
  ("omit".toList, skip (a.omitted.isNone) (eOpt J.bool a.omitted))]

/-- The serialized fields of `Modify` (config/directives/modify.rs:6-25). -/
def Modify.enc (a : Modify) : List (Text × J) := keep a.fields

/-- `Modify` as a value (config/directives/modify.rs:6-25). -/
def Modify.toJ (a : Modify) : J := .obj a.enc

/-- Reading `Modify` (config/directives/modify.rs:6-25). -/
def Modify.dec (m : List (Text × J)) : Option Modify := do
  known m ["name".toList, "omit".toList]
  let name ← maybe m "name".toList (dOpt dText) none
  let omitted ← maybe m "omit".toList (dOpt dBool) none
  return ⟨name, omitted⟩

/-- `Protected` (config/directives/protected.rs:17-36). -/
structure Protected where
  ident : Option (List Text)

/-- The fields of `Protected` with their skipping (config/directives/protected.rs:17-36). -/
def Protected.fields (a : Protected) : List (Text × Option J) := [
  ("id".toList, skip (a.ident.isNone) (eOpt eTexts a.ident))]

/-- The serialized fields of `Protected` (config/directives/protected.rs:17-36). -/
def Protected.enc (a : Protected) : List (Text × J) := keep a.fields

/-- `Protected` as a value (config/directives/protected.rs:17-36). -/
def Protected.toJ (a : Protected) : J := .obj a.enc

/-- Reading `Protected` (config/directives/protected.rs:17-36). -/
def Protected.dec (m : List (Text × J)) : Option Protected := do
  let ident ← maybe m "id".toList (dOpt (dList dText)) none
  return ⟨ident⟩

/-- `AddField` (config/directives/add_field.rs:4-15). -/
structure AddField where
  name : Text
  path : List Text

/-- The fields of `AddField` with their skipping (config/directives/add_field.rs:4-15). -/
def AddField.fields (a : AddField) : List (Text × Option J) := [
  ("name".toList, some (.str a.name)),
  ("path".toList, some (eTexts a.path))]

/-- The serialized fields of `AddField` (config/directives/add_field.rs:4-15). -/
def AddField.enc (a : AddField) : List (Text × J) := keep a.fields

/-- `AddField` as a value (config/directives/add_field.rs:4-15). -/
def AddField.toJ (a : AddField) : J := .obj a.enc

/-- Reading `AddField` (config/directives/add_field.rs:4-15). -/
def AddField.dec (m : List (Text × J)) : Option AddField := do
  known m ["name".toList, "path".toList]
  let name ← need m "name".toList dText
  let path ← need m "path".toList (dList dText)
  return ⟨name, path⟩

/-- `Alias` (config/directives/alias.rs:6-24). -/
structure Alias where
  options : List Text
  deriving DecidableEq

/-- The fields of `Alias` with their skipping (config/directives/alias.rs:6-24). -/
def Alias.fields (a : Alias) : List (Text × Option J) := [
  ("options".toList, some (eTexts a.options))]

/-- The serialized fields of `Alias` (config/directives/alias.rs:6-24). -/
def Alias.enc (a : Alias) : List (Text × J) := keep a.fields

/-- `Alias` as a value (config/directives/alias.rs:6-24). -/
def Alias.toJ (a : Alias) : J := .obj a.enc

/-- Reading `Alias` (config/directives/alias.rs:6-24). -/
def Alias.dec (m : List (Text × J)) : Option Alias := do
  let options ← need m "options".toList dSet
  return ⟨options⟩

/-- `Discriminate` (config/directives/discriminate.rs:6-32). -/
structure Discriminate where
  field : Option Text

/-- The fields of `Discriminate` with their skipping (config/directives/discriminate.rs:6-32). -/
def Discriminate.fields (a : Discriminate) : List (Text × Option J) := [
  ("field".toList, skip (a.field.isNone) (eOpt J.str a.field))]

/-- The serialized fields of `Discriminate` (config/directives/discriminate.rs:6-32). -/
def Discriminate.enc (a : Discriminate) : List (Text × J) := keep a.fields

/-- `Discriminate` as a value (config/directives/discriminate.rs:6-32). -/
def Discriminate.toJ (a : Discriminate) : J := .obj a.enc

/-- Reading `Discriminate` (config/directives/discriminate.rs:6-32). -/
def Discriminate.dec (m : List (Text × J)) : Option Discriminate := do
  known m ["field".toList]
  let field ← maybe m "field".toList (dOpt dText) none
  return ⟨field⟩

/-- `Link` (config/directives/link.rs:58-101). -/
structure Link where
  ident : Option Text
  src : Text
  typeOf : LinkType
  headers : Option (List KeyValue)
  info : Option J
  protoPaths : Option (List Text)

/-- The fields of `Link` with their skipping (config/directives/link.rs:58-101). -/
def Link.fields (a : Link) : List (Text × Option J) := [
  ("id".toList, skip (a.ident.isNone) (eOpt J.str a.ident)),
  ("src".toList, skip (a.src.isEmpty) (.str a.src)),
  ("type".toList, skip (a.typeOf == .config) (a.typeOf.toJ)),
  ("headers".toList, skip (a.headers.isNone) (eOpt (eList KeyValue.toJ) a.headers)),
  ("meta".toList, skip (a.info.isNone) (eOpt id a.info)),
  ("proto_paths".toList, skip (a.protoPaths.isNone) (eOpt eTexts a.protoPaths))]

/-- The serialized fields of `Link` (config/directives/link.rs:58-101). -/
def Link.enc (a : Link) : List (Text × J) := keep a.fields

/-- `Link` as a value (config/directives/link.rs:58-101). -/
def Link.toJ (a : Link) : J := .obj a.enc

/-- Reading `Link` (config/directives/link.rs:58-101). -/
def Link.dec (m : List (Text × J)) : Option Link := do
  known m ["id".toList, "src".toList, "type".toList, "headers".toList, "meta".toList, "proto_paths".toList]
  let ident ← maybe m "id".toList (dOpt dText) none
  let src ← maybe m "src".toList dText []
  let typeOf ← maybe m "type".toList LinkType.ofJ .config
  let headers ← maybe m "headers".toList (dOpt (dList (fun j => (fieldsOf j).bind KeyValue.dec))) none
  let info ← maybe m "meta".toList (dOpt some) none
  let protoPaths ← maybe m "proto_paths".toList (dOpt (dList dText)) none
  return ⟨ident, src, typeOf, headers, info, protoPaths⟩

/-- `Cors` (config/cors.rs:8-70). -/
structure Cors where
  allowCredentials : Option Bool
  allowHeaders : List Text
  allowMethods : List Method
  allowOrigins : List Text
  allowPrivateNetwork : Option Bool
  exposeHeaders : List Text
  maxAge : Option (Fin (2 ^ 64))
  vary : List Text

/-- The fields of `Cors` with their skipping (config/cors.rs:8-70). -/
def Cors.fields (a : Cors) : List (Text × Option J) := [
  ("allowCredentials".toList, skip (a.allowCredentials.isNone) (eOpt J.bool a.allowCredentials)),
  ("allowHeaders".toList, skip (a.allowHeaders.isEmpty) (eList J.str a.allowHeaders)),
  ("allowMethods".toList, skip (a.allowMethods.isEmpty) (eList Method.toJ a.allowMethods)),
  ("allowOrigins".toList, skip (a.allowOrigins.isEmpty) (eList J.str a.allowOrigins)),
  ("allowPrivateNetwork".toList, skip (a.allowPrivateNetwork.isNone) (eOpt J.bool a.allowPrivateNetwork)),
  ("exposeHeaders".toList, skip (a.exposeHeaders.isEmpty) (eList J.str a.exposeHeaders)),
  ("maxAge".toList, skip (a.maxAge.isNone) (eOpt eFin a.maxAge)),
  ("vary".toList, skip (a.vary.isEmpty) (eList J.str a.vary))]

/-- The serialized fields of `Cors` (config/cors.rs:8-70). -/
def Cors.enc (a : Cors) : List (Text × J) := keep a.fields

/-- `Cors` as a value (config/cors.rs:8-70). -/
def Cors.toJ (a : Cors) : J := .obj a.enc

/-- Reading `Cors` (config/cors.rs:8-70). -/
def Cors.dec (m : List (Text × J)) : Option Cors := do
  let allowCredentials ← maybe m "allowCredentials".toList (dOpt dBool) none
  let allowHeaders ← maybe m "allowHeaders".toList (dList dText) []
  let allowMethods ← maybe m "allowMethods".toList (dList Method.ofJ) []
  let allowOrigins ← maybe m "allowOrigins".toList (dList dText) []
  let allowPrivateNetwork ← maybe m "allowPrivateNetwork".toList (dOpt dBool) none
  let exposeHeaders ← maybe m "exposeHeaders".toList (dList dText) []
  let maxAge ← maybe m "maxAge".toList (dOpt (dFin (2 ^ 64))) none
  let vary ← maybe m "vary".toList (dList dText) preflight
  return ⟨allowCredentials, allowHeaders, allowMethods, allowOrigins, allowPrivateNetwork, exposeHeaders, maxAge, vary⟩

/-- `Headers` (config/headers.rs:10-40). -/
structure Headers where
  cacheControl : Option Bool
  custom : List KeyValue
  experimental : Option (List Text)
  setCookies : Option Bool
  cors : Option Cors

/-- The fields of `Headers` with their skipping (config/headers.rs:10-40). -/
def Headers.fields (a : Headers) : List (Text × Option J) := [
  ("cacheControl".toList, skip (a.cacheControl.isNone) (eOpt J.bool a.cacheControl)),
  ("custom".toList, skip (a.custom.isEmpty) (eList KeyValue.toJ a.custom)),
  ("experimental".toList, skip (a.experimental.isNone) (eOpt eTexts a.experimental)),
  ("setCookies".toList, skip (a.setCookies.isNone) (eOpt J.bool a.setCookies)),
  ("cors".toList, skip (a.cors.isNone) (eOpt Cors.toJ a.cors))]

/-- The serialized fields of `Headers` (config/headers.rs:10-40). -/
def Headers.enc (a : Headers) : List (Text × J) := keep a.fields

/-- `Headers` as a value (config/headers.rs:10-40). -/
def Headers.toJ (a : Headers) : J := .obj a.enc

/-- Reading `Headers` (config/headers.rs:10-40). -/
def Headers.dec (m : List (Text × J)) : Option Headers := do
  let cacheControl ← maybe m "cacheControl".toList (dOpt dBool) none
  let custom ← maybe m "custom".toList (dList (fun j => (fieldsOf j).bind KeyValue.dec)) []
  let experimental ← maybe m "experimental".toList (dOpt dSet) none
  let setCookies ← maybe m "setCookies".toList (dOpt dBool) none
  let cors ← maybe m "cors".toList (dOpt (fun j => (fieldsOf j).bind Cors.dec)) none
  return ⟨cacheControl, custom, experimental, setCookies, cors⟩

/-- `ScriptOptions` (config/directives/server.rs:166-170). -/
structure Script where
  timeout : Option (Fin (2 ^ 64))

/-- The fields of `Script` with their skipping (config/directives/server.rs:166-170). -/
def Script.fields (a : Script) : List (Text × Option J) := [
  ("timeout".toList, some (eOpt eFin a.timeout))]

/-- The serialized fields of `Script` (config/directives/server.rs:166-170). -/
def Script.enc (a : Script) : List (Text × J) := keep a.fields

/-- `Script` as a value (config/directives/server.rs:166-170). -/
def Script.toJ (a : Script) : J := .obj a.enc

/-- Reading `Script` (config/directives/server.rs:166-170). -/
def Script.dec (m : List (Text × J)) : Option Script := do
  let timeout ← maybe m "timeout".toList (dOpt (dFin (2 ^ 64))) none
  return ⟨timeout⟩

/-- `Routes` (config/directives/server.rs:129-149). -/
structure Routes where
  status : Text
  graphql : Text

/-- The fields of `Routes` with their skipping (config/directives/server.rs:129-149). -/
def Routes.fields (a : Routes) : List (Text × Option J) := [
  ("status".toList, some (.str a.status)),
  ("graphQL".toList, some (.str a.graphql))]

/-- The serialized fields of `Routes` (config/directives/server.rs:129-149). -/
def Routes.enc (a : Routes) : List (Text × J) := keep a.fields

/-- `Routes` as a value (config/directives/server.rs:129-149). -/
def Routes.toJ (a : Routes) : J := .obj a.enc

/-- Reading `Routes` (config/directives/server.rs:129-149). -/
def Routes.dec (m : List (Text × J)) : Option Routes := do
  let status ← maybe m "status".toList dText "/status".toList
  let graphql ← maybe m "graphQL".toList dText "/graphql".toList
  return ⟨status, graphql⟩

/-- `Server` (config/directives/server.rs:13-127). -/
structure Server where
  enableJit : Option Bool
  apolloTracing : Option Bool
  batchRequests : Option Bool
  headers : Option Headers
  globalResponseTimeout : Option I64
  hostname : Option Text
  introspection : Option Bool
  enableFederation : Option Bool
  pipelineFlush : Option Bool
  port : Option (Fin (2 ^ 16))
  queryValidation : Option Bool
  responseValidation : Option Bool
  script : Option Script
  showcase : Option Bool
  vars : List KeyValue
  version : Option HttpVersion
  workers : Option (Fin (2 ^ 64))
  routes : Option Routes

/-- The fields of `Server` with their skipping (config/directives/server.rs:13-127). -/
def Server.fields (a : Server) : List (Text × Option J) := [
  ("apolloTracing".toList, skip (a.apolloTracing.isNone) (eOpt J.bool a.apolloTracing)),
  ("batchRequests".toList, skip (a.batchRequests.isNone) (eOpt J.bool a.batchRequests)),
  ("headers".toList, skip (a.headers.isNone) (eOpt Headers.toJ a.headers)),
  ("globalResponseTimeout".toList, skip (a.globalResponseTimeout.isNone) (eOpt (fun i => J.int i.val) a.globalResponseTimeout)),
  ("hostname".toList, skip (a.hostname.isNone) (eOpt J.str a.hostname)),
  ("introspection".toList, skip (a.introspection.isNone) (eOpt J.bool a.introspection)),
  ("enableFederation".toList, skip (a.enableFederation.isNone) (eOpt J.bool a.enableFederation)),
  ("pipelineFlush".toList, skip (a.pipelineFlush.isNone) (eOpt J.bool a.pipelineFlush)),
  ("port".toList, skip (a.port.isNone) (eOpt eFin a.port)),
  ("queryValidation".toList, skip (a.queryValidation.isNone) (eOpt J.bool a.queryValidation)),
  ("responseValidation".toList, skip (a.responseValidation.isNone) (eOpt J.bool a.responseValidation)),
  ("script".toList, skip (a.script.isNone) (eOpt Script.toJ a.script)),
  ("showcase".toList, skip (a.showcase.isNone) (eOpt J.bool a.showcase)),
  ("vars".toList, skip (a.vars.isEmpty) (eList KeyValue.toJ a.vars)),
  ("version".toList, skip (a.version.isNone) (eOpt HttpVersion.toJ a.version)),
  ("workers".toList, skip (a.workers.isNone) (eOpt eFin a.workers)),
  ("routes".toList, skip (a.routes.isNone) (eOpt Routes.toJ a.routes))]

/-- The serialized fields of `Server` (config/directives/server.rs:13-127). -/
def Server.enc (a : Server) : List (Text × J) := keep a.fields

/-- `Server` as a value (config/directives/server.rs:13-127). -/
def Server.toJ (a : Server) : J := .obj a.enc

/-- Reading `Server` (config/directives/server.rs:13-127). -/
def Server.dec (m : List (Text × J)) : Option Server := do
  known m ["enableJIT".toList, "apolloTracing".toList, "batchRequests".toList, "headers".toList, "globalResponseTimeout".toList, "hostname".toList, "introspection".toList, "enableFederation".toList, "pipelineFlush".toList, "port".toList, "queryValidation".toList, "responseValidation".toList, "script".toList, "showcase".toList, "vars".toList, "version".toList, "workers".toList, "routes".toList]
  let enableJit ← maybe m "enableJIT".toList (dOpt dBool) none
  let apolloTracing ← maybe m "apolloTracing".toList (dOpt dBool) none
  let batchRequests ← maybe m "batchRequests".toList (dOpt dBool) none
  let headers ← maybe m "headers".toList (dOpt (fun j => (fieldsOf j).bind Headers.dec)) none
  let globalResponseTimeout ← maybe m "globalResponseTimeout".toList (dOpt dI64) none
  let hostname ← maybe m "hostname".toList (dOpt dText) none
  let introspection ← maybe m "introspection".toList (dOpt dBool) none
  let enableFederation ← maybe m "enableFederation".toList (dOpt dBool) none
  let pipelineFlush ← maybe m "pipelineFlush".toList (dOpt dBool) none
  let port ← maybe m "port".toList (dOpt (dFin (2 ^ 16))) none
  let queryValidation ← maybe m "queryValidation".toList (dOpt dBool) none
  let responseValidation ← maybe m "responseValidation".toList (dOpt dBool) none
  let script ← maybe m "script".toList (dOpt (fun j => (fieldsOf j).bind Script.dec)) none
  let showcase ← maybe m "showcase".toList (dOpt dBool) none
  let vars ← maybe m "vars".toList (dList (fun j => (fieldsOf j).bind KeyValue.dec)) []
  let version ← maybe m "version".toList (dOpt HttpVersion.ofJ) none
  let workers ← maybe m "workers".toList (dOpt (dFin (2 ^ 64))) none
  let routes ← maybe m "routes".toList (dOpt (fun j => (fieldsOf j).bind Routes.dec)) none
  return ⟨enableJit, apolloTracing, batchRequests, headers, globalResponseTimeout, hostname, introspection, enableFederation, pipelineFlush, port, queryValidation, responseValidation, script, showcase, vars, version, workers, routes⟩

/-- `Batch` (config/directives/upstream.rs:12-30). -/
structure Batch where
  delay : Fin (2 ^ 64)
  headers : List Text
  maxSize : Option (Fin (2 ^ 64))

/-- The fields of `Batch` with their skipping (config/directives/upstream.rs:12-30). -/
def Batch.fields (a : Batch) : List (Text × Option J) := [
  ("delay".toList, some (eFin a.delay)),
  ("headers".toList, some (eTexts a.headers)),
  ("maxSize".toList, skip (a.maxSize.isNone) (eOpt eFin a.maxSize))]

/-- The serialized fields of `Batch` (config/directives/upstream.rs:12-30). -/
def Batch.enc (a : Batch) : List (Text × J) := keep a.fields

/-- `Batch` as a value (config/directives/upstream.rs:12-30). -/
def Batch.toJ (a : Batch) : J := .obj a.enc

/-- Reading `Batch` (config/directives/upstream.rs:12-30). -/
def Batch.dec (m : List (Text × J)) : Option Batch := do
  let delay ← maybe m "delay".toList (dFin (2 ^ 64)) 0
  let headers ← maybe m "headers".toList dSet []
  let maxSize ← maybe m "maxSize".toList (dOpt (dFin (2 ^ 64))) none
  return ⟨delay, headers, maxSize⟩

/-- `Proxy` (config/directives/upstream.rs:32-35). -/
structure Proxy where
  url : Text

/-- The fields of `Proxy` with their skipping (config/directives/upstream.rs:32-35). -/
def Proxy.fields (a : Proxy) : List (Text × Option J) := [
  ("url".toList, some (.str a.url))]

/-- The serialized fields of `Proxy` (config/directives/upstream.rs:32-35). -/
def Proxy.enc (a : Proxy) : List (Text × J) := keep a.fields

/-- `Proxy` as a value (config/directives/upstream.rs:32-35). -/
def Proxy.toJ (a : Proxy) : J := .obj a.enc

/-- Reading `Proxy` (config/directives/upstream.rs:32-35). -/
def Proxy.dec (m : List (Text × J)) : Option Proxy := do
  let url ← need m "url".toList dText
  return ⟨url⟩

/-- `Upstream` (config/directives/upstream.rs:37-150). -/
structure Upstream where
  onRequest : Option Text
  allowedHeaders : Option (List Text)
  batch : Option Batch
  connectTimeout : Option (Fin (2 ^ 64))
  httpCache : Option (Fin (2 ^ 64))
  http2Only : Option Bool
  keepAliveInterval : Option (Fin (2 ^ 64))
  keepAliveTimeout : Option (Fin (2 ^ 64))
  keepAliveWhileIdle : Option Bool
  poolMaxIdlePerHost : Option (Fin (2 ^ 64))
  poolIdleTimeout : Option (Fin (2 ^ 64))
  proxy : Option Proxy
  tcpKeepAlive : Option (Fin (2 ^ 64))
  timeout : Option (Fin (2 ^ 64))
  userAgent : Option Text
  verifySsl : Option Bool

/-- The fields of `Upstream` with their skipping (config/directives/upstream.rs:37-150). -/
def Upstream.fields (a : Upstream) : List (Text × Option J) := [
  ("onRequest".toList, skip (a.onRequest.isNone) (eOpt J.str a.onRequest)),
  ("allowedHeaders".toList, skip (a.allowedHeaders.isNone) (eOpt eTexts a.allowedHeaders)),
  ("batch".toList, skip (a.batch.isNone) (eOpt Batch.toJ a.batch)),
  ("connectTimeout".toList, skip (a.connectTimeout.isNone) (eOpt eFin a.connectTimeout)),
  ("httpCache".toList, skip (a.httpCache.isNone) (eOpt eFin a.httpCache)),
  ("http2Only".toList, skip (a.http2Only.isNone) (eOpt J.bool a.http2Only)),
  ("keepAliveInterval".toList, skip (a.keepAliveInterval.isNone) (eOpt eFin a.keepAliveInterval)),
  ("keepAliveTimeout".toList, skip (a.keepAliveTimeout.isNone) (eOpt eFin a.keepAliveTimeout)),
  ("keepAliveWhileIdle".toList, skip (a.keepAliveWhileIdle.isNone) (eOpt J.bool a.keepAliveWhileIdle)),
  ("poolMaxIdlePerHost".toList, skip (a.poolMaxIdlePerHost.isNone) (eOpt eFin a.poolMaxIdlePerHost)),
  ("poolIdleTimeout".toList, skip (a.poolIdleTimeout.isNone) (eOpt eFin a.poolIdleTimeout)),
  ("proxy".toList, skip (a.proxy.isNone) (eOpt Proxy.toJ a.proxy)),
  ("tcpKeepAlive".toList, skip (a.tcpKeepAlive.isNone) (eOpt eFin a.tcpKeepAlive)),
  ("timeout".toList, skip (a.timeout.isNone) (eOpt eFin a.timeout)),
  ("userAgent".toList, skip (a.userAgent.isNone) (eOpt J.str a.userAgent)),
  ("verifySSL".toList, skip (a.verifySsl.getD true) (eOpt J.bool a.verifySsl))]

/-- The serialized fields of `Upstream` (config/directives/upstream.rs:37-150). -/
def Upstream.enc (a : Upstream) : List (Text × J) := keep a.fields

/-- `Upstream` as a value (config/directives/upstream.rs:37-150). -/
def Upstream.toJ (a : Upstream) : J := .obj a.enc

/-- Reading `Upstream` (config/directives/upstream.rs:37-150). -/
def Upstream.dec (m : List (Text × J)) : Option Upstream := do
  known m ["onRequest".toList, "allowedHeaders".toList, "batch".toList, "connectTimeout".toList, "httpCache".toList, "http2Only".toList, "keepAliveInterval".toList, "keepAliveTimeout".toList, "keepAliveWhileIdle".toList, "poolMaxIdlePerHost".toList, "poolIdleTimeout".toList, "proxy".toList, "tcpKeepAlive".toList, "timeout".toList, "userAgent".toList, "verifySSL".toList]
  let onRequest ← maybe m "onRequest".toList (dOpt dText) none
  let allowedHeaders ← maybe m "allowedHeaders".toList (dOpt dSet) none
  let batch ← maybe m "batch".toList (dOpt (fun j => (fieldsOf j).bind Batch.dec)) none
  let connectTimeout ← maybe m "connectTimeout".toList (dOpt (dFin (2 ^ 64))) none
  let httpCache ← maybe m "httpCache".toList (dOpt (dFin (2 ^ 64))) none
  let http2Only ← maybe m "http2Only".toList (dOpt dBool) none
  let keepAliveInterval ← maybe m "keepAliveInterval".toList (dOpt (dFin (2 ^ 64))) none
  let keepAliveTimeout ← maybe m "keepAliveTimeout".toList (dOpt (dFin (2 ^ 64))) none
  let keepAliveWhileIdle ← maybe m "keepAliveWhileIdle".toList (dOpt dBool) none
  let poolMaxIdlePerHost ← maybe m "poolMaxIdlePerHost".toList (dOpt (dFin (2 ^ 64))) none
  let poolIdleTimeout ← maybe m "poolIdleTimeout".toList (dOpt (dFin (2 ^ 64))) none
  let proxy ← maybe m "proxy".toList (dOpt (fun j => (fieldsOf j).bind Proxy.dec)) none
  let tcpKeepAlive ← maybe m "tcpKeepAlive".toList (dOpt (dFin (2 ^ 64))) none
  let timeout ← maybe m "timeout".toList (dOpt (dFin (2 ^ 64))) none
  let userAgent ← maybe m "userAgent".toList (dOpt dText) none
  let verifySsl ← maybe m "verifySSL".toList (dOpt dBool) (some true)
  return ⟨onRequest, allowedHeaders, batch, connectTimeout, httpCache, http2Only, keepAliveInterval, keepAliveTimeout, keepAliveWhileIdle, poolMaxIdlePerHost, poolIdleTimeout, proxy, tcpKeepAlive, timeout, userAgent, verifySsl⟩

/-- `Telemetry` (config/directives/telemetry.rs:70-97); the exporter is its JSON, which is not checked further. -/
structure Telemetry where
  exporter : Option J
  requestHeaders : List Text

/-- The fields of `Telemetry` with their skipping (config/directives/telemetry.rs:70-97). -/
def Telemetry.fields (a : Telemetry) : List (Text × Option J) := [
  ("export".toList, some (eOpt id a.exporter)),
  ("requestHeaders".toList, skip (a.requestHeaders.isEmpty) (eList J.str a.requestHeaders))]

/-- The serialized fields of `Telemetry` (config/directives/telemetry.rs:70-97). -/
def Telemetry.enc (a : Telemetry) : List (Text × J) := keep a.fields

/-- `Telemetry` as a value (config/directives/telemetry.rs:70-97). -/
def Telemetry.toJ (a : Telemetry) : J := .obj a.enc

/-- Reading `Telemetry` (config/directives/telemetry.rs:70-97). -/
def Telemetry.dec (m : List (Text × J)) : Option Telemetry := do
  known m ["export".toList, "requestHeaders".toList]
  let exporter ← maybe m "export".toList (dOpt some) none
  let requestHeaders ← maybe m "requestHeaders".toList (dList dText) []
  return ⟨exporter, requestHeaders⟩

end Verif.Sdl
