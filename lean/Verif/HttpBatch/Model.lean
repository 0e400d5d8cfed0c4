import Verif.HttpKey.Model

/-!
# Model of the batching data loaders
(src/core/http/data_loader.rs, src/core/http/transformations/{query,body}_batching.rs,
src/core/graphql/data_loader.rs, src/core/grpc/data_loader.rs, src/core/json/mod.rs,
src/core/config/group_by.rs)

The model is of a release build: the sorting of requests and bodies that happens only under
`debug_assertions` is left out.
-/

namespace Verif.HttpBatch
open Verif.Mustache (Text)
open Verif.HttpUrl (QC Url GVal intText)
open Verif.HttpKey

/-- `GroupBy` (config/group_by.rs:7-12). -/
structure GroupBy where
  path : List Text
  key : Option Text

/-- The default key of config/group_by.rs:19-39. -/
def idText : Text := ['i', 'd']

/-- `GroupBy::path` (config/group_by.rs:19-24). -/
def GroupBy.paths (g : GroupBy) : List Text := if g.path.isEmpty then [idText] else g.path

/-- `GroupBy::key` (config/group_by.rs:26-36). -/
def GroupBy.keyName (g : GroupBy) : Text :=
  match g.key with
  | some k => k
  | none => if g.path.isEmpty then idText else g.path.getLast?.getD []

/-! ## Merging requests -/

/-- Characters that `form_urlencoded::byte_serialize` leaves as they are
(external crate, used through `query_pairs_mut` at http/transformations/query_batching.rs:39). -/
def formSafe (c : Char) : Bool :=
  c.isAlphanum || c == '*' || c == '-' || c == '.' || c == '_'

/-- `form_urlencoded::byte_serialize` (external crate, used at http/transformations/query_batching.rs:39). -/
def formEnc (s : Text) : List QC :=
  s.map (fun c => if formSafe c then .raw c else if c == ' ' then .raw '+' else .enc c)

/-- `query_pairs_mut().extend_pairs(pairs)` on a query
(external crate `url`, used at http/transformations/query_batching.rs:39). -/
def extendPairs (q : List QC) (ps : List (Text × Text)) : List QC :=
  ps.foldl (fun q p =>
    (if q.isEmpty then q else q ++ [.raw '&']) ++ (formEnc p.1 ++ .raw '=' :: formEnc p.2)) q

/-- The parameters taken over from a request (http/transformations/query_batching.rs:28-34). -/
def batchPairs (key : Option Text) (u : Url) : List (Text × Text) :=
  match key with
  | some k => u.pairs.filter (fun p => p.1 = k)
  | none => u.pairs

/-- `QueryBatching::transform` (http/transformations/query_batching.rs:23-43). -/
def mergeQuery (key : Option Text) (rest : List DLReq) (r : HttpReq) : HttpReq :=
  rest.foldl (fun r d =>
    let ps := batchPairs key d.req.url
    if ps.isEmpty then r
    else { r with url := { r.url with query := some (extendPairs (r.url.query.getD []) ps) } }) r

/-- The fold of `BodyBatching::transform` (http/transformations/body_batching.rs:45-57). -/
def joinBodies (bs : List Text) : Text :=
  bs.foldl (fun acc b => (if acc.isEmpty then acc else acc ++ [',']) ++ b) []

/-- `BodyBatching::transform` (http/transformations/body_batching.rs:29-68). -/
def mergeBodies (ds : List DLReq) (r : HttpReq) : HttpReq :=
  let bs := ds.filterMap (fun d => d.req.body)
  if bs.isEmpty then r else { r with body := some ('[' :: (joinBodies bs ++ [']'])) }

/-- The request sent for a batch (http/data_loader.rs:73-88). -/
def merged (g : GroupBy) (d : DLReq) (rest : List DLReq) : HttpReq :=
  if d.req.method = get then mergeQuery (some g.keyName) rest d.req
  else mergeBodies (d :: rest) (mergeQuery none rest d.req)

/-! ## Splitting the response -/

/-- An integer converted to `f64` (round to nearest, ties to even), as an integer again
(`as_f64` at json/mod.rs:47). -/
def roundNat (n : Nat) : Nat :=
  if n < 2 ^ 53 then n
  else
    let k := Nat.log2 n - 52
    let q := n / 2 ^ k
    let r := n % 2 ^ k
    let half := 2 ^ (k - 1)
    (if half < r ∨ (half = r ∧ q % 2 = 1) then q + 1 else q) * 2 ^ k

/-- `as_f64` with sign, used at json/mod.rs:47. -/
def roundF64 (n : Int) : Int := if n < 0 then -(roundNat n.natAbs : Int) else roundNat n.natAbs

/-- Parts of number printing that are not modelled: `f64::to_string` of an integral value above 2^53
(`big`) and of a JSON float (`float`) (used at json/mod.rs:47). -/
structure NumFmt where
  big : Int → Text
  float : Text → Text

/-- The key text of `group_by_key` (json/mod.rs:44-47): a string as it is, a number through
`as_f64().to_string()`, anything else has no key.  `f64::to_string` of an integral value up to 2^53 is its
decimal text. -/
def keyText (f : NumFmt) : GVal → Option Text
  | .str s => some s
  | .int n =>
      let m := roundF64 n
      some (if m.natAbs ≤ 2 ^ 53 then intText m else f.big m)
  | .float t => some (f.float t)
  | _ => none

mutual
/-- `gather_path_matches` (json/mod.rs:16-36). -/
def gather : GVal → List Text → List (GVal × GVal)
  | .list l, p => gatherAll l p
  | .obj kvs, k :: tail => gatherAt (.obj kvs) kvs k tail
  | _, _ => []
/-- The loop over an array (json/mod.rs:22-24). -/
def gatherAll : List GVal → List Text → List (GVal × GVal)
  | [], _ => []
  | v :: r, p => gather v p ++ gatherAll r p
/-- The entry `k` of the object `whole` (json/mod.rs:26-32). -/
def gatherAt (whole : GVal) : List (Text × GVal) → Text → List Text → List (GVal × GVal)
  | [], _, _ => []
  | (k', v) :: r, k, tail =>
      if k' = k then
        match tail with
        | [] => [(v, whole)]
        | t :: ts => gather v (t :: ts)
      else gatherAt whole r k tail
end

/-- One round of the loop of `group_by_key` (json/mod.rs:42-56); the map gives `[]` for an absent
key. -/
def pushItem (f : NumFmt) (m : Text → List GVal) (kv : GVal × GVal) : Text → List GVal :=
  match keyText f kv.1 with
  | some t => fun x => if x = t then m x ++ [kv.2] else m x
  | none => m

/-- `group_by_key` (json/mod.rs:38-58). -/
def groupByKey (f : NumFmt) (src : List (GVal × GVal)) : Text → List GVal :=
  src.foldl (pushItem f) (fun _ => [])

/-- `get_body_value_list` and `get_body_value_single` (http/data_loader.rs:20-36). -/
def extract (isList : Bool) (m : Text → List GVal) (id : Text) : GVal :=
  if isList then .list (m id) else (m id).head?.getD .null

/-- `Response` (http/response.rs:15-19). -/
structure Resp where
  status : Nat
  headers : List (Text × Text)
  body : GVal

/-- `query_pairs().collect::<HashMap>().get(name)`: the last value wins (http/data_loader.rs:119-123). -/
def queryId (u : Url) (name : Text) : Option Text :=
  ((u.pairs.filter (fun p => p.1 = name)).getLast?).map Prod.snd

/-- Collecting results, the first error wins
(the `?` in the loops at http/data_loader.rs:116-164 and graphql/data_loader.rs:58-60). -/
def collect {α β} (f : α → Option β) : List α → Option (List β)
  | [] => some []
  | a :: r => match f a, collect f r with
      | some b, some bs => some (b :: bs)
      | _, _ => none

/-- `HttpDataLoader::load` (http/data_loader.rs:61-164).  `exec` sends a request and parses the
response as JSON, `none` is an error.  The `HashMap` is a list of entries in insertion order. -/
def load (f : NumFmt) (group : Option GroupBy) (isList : Bool) (exec : HttpReq → Option Resp) :
    List DLReq → Option (List (DLReq × Resp))
  | ds => match group with
    | none => collect (fun d => (exec d.req).map (fun r => (d, r))) ds
    | some g =>
      match ds with
      | [] => none
      | d :: rest =>
          match exec (merged g d rest) with
          | none => none
          | some res =>
              let m := groupByKey f (gather res.body g.paths)
              collect (fun x =>
                (if d.req.method = get then queryId x.req.url g.keyName else x.batchingValue).map
                  (fun id => (x, { res with body := extract isList m id }))) (d :: rest)

/-- `HashMap` lookup in a list of insertions: keys are equal when their hash input is
(http/data_loader_request.rs:57-68, grpc/data_loader_request.rs:29-40), the last insertion wins. -/
def lastEntry {α} (key : α → List Tok) (entries : List (α × Resp)) (d : α) : Option Resp :=
  ((entries.filter (fun e => key e.1 = key d)).getLast?).map Prod.snd

/-- Lookup in the result of the HTTP and GraphQL loaders
(`HashMap::get` as used at data_loader/data_loader.rs:352). -/
def answer (entries : List (DLReq × Resp)) (d : DLReq) : Option Resp := lastEntry DLReq.key entries d

/-- What a field gets from `execute_request_with_dl` (ir/eval_http.rs:168-173): `none` is an error. -/
def fieldValue (entries : Option (List (DLReq × Resp))) (d : DLReq) : Option Resp :=
  entries.map (fun es => (answer es d).getD ⟨200, [], .null⟩)

/-! ## GraphQL -/

/-- `slice::join(",")` (standard library, used at graphql/data_loader.rs:78). -/
def joinWithComma : List Text → Text
  | [] => []
  | [b] => b
  | b :: c :: r => b ++ ',' :: joinWithComma (c :: r)

/-- `collect_request_bodies` (graphql/data_loader.rs:66-80). -/
def collectBodies (ds : List DLReq) : Text :=
  '[' :: (joinWithComma (ds.map (fun d => d.req.body.getD [])) ++ [']'])

/-- `create_batched_request` (graphql/data_loader.rs:82-91). -/
def gqlMerged (d : DLReq) (rest : List DLReq) : HttpReq :=
  { d.req with body := some (collectBodies (d :: rest)) }

/-- The loop of `extract_responses` from position `i` on (graphql/data_loader.rs:101-113). -/
def positional (values : List GVal) (res : Resp) : Nat → List DLReq → List (DLReq × Resp)
  | _, [] => []
  | i, d :: r => (d, { res with body := (values[i]?).getD .null }) :: positional values res (i + 1) r

/-- `extract_responses` (graphql/data_loader.rs:94-117); `none` is a body that is not JSON. -/
def extractResponses (res : Option Resp) (ds : List DLReq) : List (DLReq × Resp) :=
  match res with
  | some r => match r.body with
      | .list values => positional values r 0 ds
      | _ => []
  | none => []

/-- `GraphqlDataLoader::load` (graphql/data_loader.rs:40-63).  `exec` gives `none` for a request that
fails and `some none` for a body that is not JSON.  The panic of `first().unwrap()` on an empty batch is
`none`. -/
def gqlLoad (batch : Bool) (exec : HttpReq → Option (Option Resp)) (ds : List DLReq) :
    Option (List (DLReq × Resp)) :=
  if batch then
    match ds with
    | [] => none
    | d :: rest => (exec (gqlMerged d rest)).map (fun res => extractResponses res (d :: rest))
  else collect (fun d => ((exec d.req).bind id).map (fun r => (d, r))) ds

/-! ## gRPC -/

/-- What `create_grpc_request` is given (grpc/data_loader.rs:71-76): the address, the headers, and the
child messages put into the list field. -/
structure GrpcCall where
  url : Url
  headers : HMap
  messages : List Text

/-- `load_with_group_by` (grpc/data_loader.rs:61-98).  `idOf` is `to_message` followed by
`get_field_value_as_str` of the batch key (grpc/protobuf.rs:192-201), `none` is an error; `exec` encodes
the messages, sends them and decodes the response. -/
def grpcLoad (f : NumFmt) (g : GroupBy) (idOf : Text → Text → Option Text)
    (exec : GrpcCall → Option Resp) : List GrpcDLReq → Option (List (GrpcDLReq × Resp))
  | [] => none
  | d :: rest =>
      match collect (fun x => idOf g.keyName x.req.body) (d :: rest) with
      | none => none
      | some ids =>
          match exec ⟨d.req.url, d.req.headers, (d :: rest).map (fun x => x.req.body)⟩ with
          | none => none
          | some res =>
              let m := groupByKey f (gather res.body g.paths)
              some (((d :: rest).zip ids).map (fun p => (p.1, { res with body := extract false m p.2 })))

/-- Lookup in the result of the gRPC loader (`HashMap::get` as used at data_loader/data_loader.rs:352). -/
def grpcAnswer (entries : List (GrpcDLReq × Resp)) (d : GrpcDLReq) : Option Resp :=
  lastEntry GrpcDLReq.key entries d

end Verif.HttpBatch
