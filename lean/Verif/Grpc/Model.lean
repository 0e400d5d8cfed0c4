import Verif.HttpBatch.Model
import Verif.Transform.Model

/-!
# Model of gRPC calls
(src/core/grpc/protobuf.rs, src/core/grpc/request.rs, src/core/grpc/data_loader.rs,
src/core/grpc/request_template.rs, src/core/http/response.rs, src/core/blueprint/operators/grpc.rs)

The library for protobuf (prost and prost-reflect) and the one for status headers (tonic) are outside of
the program; what they do is a parameter (`Lib`), but for the printing of messages as JSON, which decides
what a batch is grouped by.
-/

namespace Verif.Grpc

open Verif.Mustache (Text)
open Verif.HttpUrl (GVal intText)
open Verif.HttpBatch (NumFmt GroupBy gather groupByKey)
open Verif.Transform (get)

/-- `prost_reflect::Value` (used at src/core/grpc/protobuf.rs:42-56).  Enum values have the name that their
descriptor gives, floats the texts of `to_string` and of JSON, bytes their base64 text, and fields their
name and their JSON name.  Simplified: maps are left out; a message that has been read has all its fields. -/
inductive PVal where
  | i32 (n : Int)
  | i64 (n : Int)
  | u32 (n : Nat)
  | u64 (n : Nat)
  | f32 (shown json : Text)
  | f64 (shown json : Text)
  | bool (b : Bool)
  | enum (n : Int) (name : Text)
  | str (s : Text)
  | bytes (base64 : Text)
  | msg (fields : List ((Text × Text) × PVal))
  | list (l : List PVal)
  deriving Repr

mutual
/-- A message as JSON with `SerializeOptions::default().skip_default_fields(false)`
(src/core/grpc/protobuf.rs:157, 229-231): integers of 64 bits are strings, enum values their names, fields
have their JSON names. -/
def json : PVal → GVal
  | .i32 n => .int n
  | .i64 n => .str (intText n)
  | .u32 n => .int n
  | .u64 n => .str (intText n)
  | .f32 _ t => .float t
  | .f64 _ t => .float t
  | .bool b => .bool b
  | .enum _ s => .str s
  | .str s => .str s
  | .bytes t => .str t
  | .msg fs => .obj (jsonFields fs)
  | .list l => .list (jsonAll l)
/-- The fields of a message as JSON (src/core/grpc/protobuf.rs:229-231). -/
def jsonFields : List ((Text × Text) × PVal) → List (Text × GVal)
  | [] => []
  | f :: r => (f.1.2, json f.2) :: jsonFields r
/-- The elements of a repeated field as JSON (src/core/grpc/protobuf.rs:229-231). -/
def jsonAll : List PVal → List GVal
  | [] => []
  | v :: r => json v :: jsonAll r
end

/-- `protobuf_value_as_str` (src/core/grpc/protobuf.rs:42-56). -/
def valueStr : PVal → Text
  | .i32 n => intText n
  | .i64 n => intText n
  | .u32 n => intText n
  | .u64 n => intText n
  | .f32 t _ => t
  | .f64 t _ => t
  | .enum n _ => intText n
  | .str s => s
  | _ => []

/-- `FieldDescriptor` (used at src/core/grpc/protobuf.rs:180-188): the names, whether the field is
repeated, the name of its type if that is a message, and its default value. -/
structure Fld where
  name : Text
  json : Text
  isList : Bool
  message : Option Text
  dflt : PVal

/-- `MessageDescriptor` (used at src/core/grpc/protobuf.rs:180-188). -/
structure Desc where
  name : Text
  fields : List Fld

/-- `GrpcMethod` (src/core/blueprint/operators/grpc.rs:149-153). -/
structure Method where
  package : Text
  service : Text
  name : Text
  deriving DecidableEq, Repr

/-- `ProtobufOperation` (src/core/grpc/protobuf.rs:128-134) with the messages of its pool. -/
structure Op where
  input : Desc
  output : Desc
  pool : List (Text × Desc)

/-- `google.rpc.Status` (used at src/core/http/response.rs:111-118): the details are names of types and
bytes. -/
structure RpcStatus where
  code : Int
  message : Text
  details : List (Text × List UInt8)

/-- What libraries do: reading JSON as a message of a type (used at src/core/grpc/protobuf.rs:19), encoding
(:37), decoding as a message of a type (:100, :222), and of tonic's `Status::from_header_map`
(used at src/core/http/response.rs:103) the decoding of the message (or the text about why that is
impossible) and of the details, the descriptions of codes (:139), and `GrpcStatus::decode` (:111). -/
structure Lib where
  ofJson : Text → Text → Option PVal
  encode : PVal → List UInt8
  decode : Text → List UInt8 → Option PVal
  percent : Text → Except Text Text
  base64 : Text → List UInt8
  description : Nat → Text
  status : List UInt8 → Option RpcStatus

/-- The errors of a call: of the input (src/core/grpc/protobuf.rs:18-25), of finding the list and the key for
a batch (:184, :188, :61), of an answer that is too short (:215) or not a message (:222-227), of the
transport (src/cli/runtime/http.rs:179-184), of other states (src/core/grpc/request.rs:39), of a status
without header (src/core/http/response.rs:105), and those of gRPC (src/core/ir/error.rs:15-20). -/
inductive Err where
  | input
  | noList
  | notMessage
  | noKey
  | empty
  | output
  | transport
  | failed
  | headers
  | grpc (code : Nat) (description message : Text) (details : GVal)

/-- `reqwest::Request` as made by `create_grpc_request` (src/core/grpc/request.rs:12-18); the method is
always POST. -/
structure Req where
  url : Text
  headers : List (Text × Text)
  body : List UInt8

/-- What an upstream answers over HTTP/2 (a `reqwest::Response`, used at src/core/http/response.rs:52-57): the trailers
come after the body. -/
structure Answer where
  status : Nat
  headers : List (Text × Text)
  body : List UInt8
  trailers : List (Text × Text)

/-- `Response` (src/core/http/response.rs:15-19). -/
structure Resp (β : Type) where
  status : Nat
  headers : List (Text × Text)
  body : β

/-! ## Messages and frames -/

/-- `to_message` (src/core/grpc/protobuf.rs:16-28). -/
def toMessage (lib : Lib) (d : Desc) (input : Text) : Except Err PVal :=
  match lib.ofJson d.name input with
  | some m => .ok m
  | none => .error .input

/-- `put_u32` of a length that is made a `u32` (src/core/grpc/protobuf.rs:35). -/
def be32 (n : Nat) : List UInt8 :=
  [UInt8.ofNat (n / 2 ^ 24), UInt8.ofNat (n / 2 ^ 16), UInt8.ofNat (n / 2 ^ 8), UInt8.ofNat n]

/-- `message_to_bytes` (src/core/grpc/protobuf.rs:30-40). -/
def messageToBytes (lib : Lib) (m : PVal) : List UInt8 :=
  0 :: (be32 (lib.encode m).length ++ lib.encode m)

/-- `convert_input` (src/core/grpc/protobuf.rs:168-172). -/
def convertInput (lib : Lib) (op : Op) (input : Text) : Except Err (List UInt8) :=
  match toMessage lib op.input input with
  | .ok m => .ok (messageToBytes lib m)
  | .error e => .error e

/-- `get_field_by_name` (used at src/core/grpc/protobuf.rs:59-61): the value, or the default of the field. -/
def getField (d : Desc) (m : PVal) (name : Text) : Option PVal :=
  match d.fields.find? (fun f => f.name = name) with
  | none => none
  | some f =>
    match m with
    | .msg fs => some (((fs.find? (fun x => x.1.1 = name)).map (·.2)).getD f.dflt)
    | _ => some f.dflt

/-- `get_field_value_as_str` (src/core/grpc/protobuf.rs:58-64). -/
def fieldStr (d : Desc) (name : Text) (m : PVal) : Except Err Text :=
  match getField d m name with
  | some v => .ok (valueStr v)
  | none => .error .noKey

/-- `map(..).collect::<Result<Vec<_>>>()` (src/core/grpc/protobuf.rs:191-198). -/
def mapE {α β : Type} (f : α → Except Err β) : List α → Except Err (List β)
  | [] => .ok []
  | a :: r =>
    match f a with
    | .error e => .error e
    | .ok b =>
      match mapE f r with
      | .error e => .error e
      | .ok bs => .ok (b :: bs)

/-- The field for the messages of a batch and its type (src/core/grpc/protobuf.rs:179-188). -/
def listField (op : Op) : Except Err (Fld × Desc) :=
  match op.input.fields.find? (fun f => f.isList) with
  | none => .error .noList
  | some f =>
    match f.message.bind (get op.pool) with
    | none => .error .notMessage
    | some d => .ok (f, d)

/-- `convert_multiple_inputs` (src/core/grpc/protobuf.rs:174-211). -/
def convertMultiple (lib : Lib) (op : Op) (inputs : List Text) (id : Text) :
    Except Err (List UInt8 × List Text) :=
  match listField op with
  | .error e => .error e
  | .ok (f, d) =>
    match mapE (toMessage lib d) inputs with
    | .error e => .error e
    | .ok ms =>
      match mapE (fieldStr d id) ms with
      | .error e => .error e
      | .ok ids => .ok (messageToBytes lib (.msg [((f.name, f.json), .list ms)]), ids)

/-- `convert_output` (src/core/grpc/protobuf.rs:213-233). -/
def convertOutput (lib : Lib) (op : Op) (bytes : List UInt8) : Except Err GVal :=
  if bytes.length < 5 then .error .empty
  else
    match lib.decode op.output.name (bytes.drop 5) with
    | some m => .ok (json m)
    | none => .error .output

/-! ## Calls -/

/-- `Response::from_reqwest` (src/core/http/response.rs:52-57): trailers are not looked at. -/
def fromReqwest (a : Answer) : Resp (List UInt8) := ⟨a.status, a.headers, a.body⟩

/-- `execute` of the client (src/cli/runtime/http.rs:179-184): states from 400 on are errors. -/
def send (up : Req → Option Answer) (r : Req) : Except Err (Resp (List UInt8)) :=
  match up r with
  | none => .error .transport
  | some a => if 400 ≤ a.status then .error .transport else .ok (fromReqwest a)

/-- `GRPC_STATUS` (src/core/grpc/request.rs:10). -/
def statusKey : Text := "grpc-status".toList

/-- The header of messages in tonic (used through src/core/http/response.rs:103). -/
def messageKey : Text := "grpc-message".toList

/-- The header of details in tonic (used through src/core/http/response.rs:103). -/
def detailsKey : Text := "grpc-status-details-bin".toList

/-- `HeaderValue::to_str` (used at src/core/grpc/request.rs:30): only for visible ASCII.  Header values are
bytes, written as the characters of the same numbers. -/
def toStr (v : Text) : Option Text :=
  if v.all (fun c => (32 ≤ c.toNat && c.toNat < 127) || c = '\t') then some v else none

/-- `Code::from_bytes` of tonic (used through src/core/http/response.rs:103): everything that is not a code
is `Unknown`, which is 2. -/
def codeOf (v : Text) : Nat :=
  ((List.range 17).find? (fun n : Nat => intText (n : Int) = v)).getD 2

/-- The details that can be read (src/core/http/response.rs:115-130). -/
def readDetails (lib : Lib) (op : Op) : List (Text × List UInt8) → List GVal
  | [] => []
  | (url, b) :: r =>
    let name := (url.reverse.takeWhile (· != '/')).reverse
    match get op.pool name with
    | none => readDetails lib op r
    | some d =>
      match lib.decode d.name b with
      | none => readDetails lib op r
      | some m => json m :: readDetails lib op r

/-- `to_grpc_error` (src/core/http/response.rs:102-148) with `Status::from_header_map` of tonic. -/
def toGrpcError (lib : Lib) (op : Op) (r : Resp (List UInt8)) : Err :=
  match get r.headers statusKey with
  | none => .headers
  | some c =>
    let msg : Nat × Text :=
      match get r.headers messageKey with
      | none => (codeOf c, [])
      | some m =>
        match lib.percent m with
        | .ok t => (codeOf c, t)
        | .error t => (2, t)
    let details := ((get r.headers detailsKey).map lib.base64).getD []
    let obj : List (Text × GVal) :=
      if details.isEmpty then [("details".toList, .list [])]
      else
        match lib.status details with
        | none => [("details".toList, .list [])]
        | some s =>
          [("code".toList, .int s.code), ("message".toList, .str s.message),
            ("details".toList, .list (readDetails lib op s.details))]
    .grpc msg.1 (lib.description msg.1) msg.2 (.obj obj)

/-- `execute_grpc_request` (src/core/grpc/request.rs:20-40) with `to_grpc_value`
(src/core/http/response.rs:90-100). -/
def execute (lib : Lib) (up : Req → Option Answer) (op : Op) (r : Req) : Except Err (Resp GVal) :=
  match send up r with
  | .error e => .error e
  | .ok res =>
    let st := (get res.headers statusKey).bind toStr
    if 200 ≤ res.status ∧ res.status < 300 then
      if st = none ∨ st = some ['0'] then
        match convertOutput lib op res.body with
        | .ok v => .ok ⟨res.status, res.headers, v⟩
        | .error e => .error e
      else .error (toGrpcError lib op res)
    else .error .failed

/-- `RenderedRequestTemplate` (src/core/grpc/request_template.rs:46-51) without its operation. -/
structure Rendered where
  url : Text
  headers : List (Text × Text)
  body : Text

/-- `to_request` (src/core/grpc/request_template.rs:111-117). -/
def toRequest (lib : Lib) (op : Op) (r : Rendered) : Except Err Req :=
  match convertInput lib op r.body with
  | .ok b => .ok ⟨r.url, r.headers, b⟩
  | .error e => .error e

/-- One call (src/core/grpc/data_loader.rs:40-43; src/core/ir/eval_io.rs:79-93, src/core/ir/eval_http.rs:228-236). -/
def call (lib : Lib) (up : Req → Option Answer) (op : Op) (r : Rendered) : Except Err (Resp GVal) :=
  match toRequest lib op r with
  | .ok q => execute lib up op q
  | .error e => .error e

/-- `load_dedupe_only` (src/core/grpc/data_loader.rs:35-59). -/
def loadEach (lib : Lib) (up : Req → Option Answer) (op : Op) (rs : List Rendered) :
    Except Err (List (Resp GVal)) :=
  mapE (call lib up op) rs

/-- `load_with_group_by` (src/core/grpc/data_loader.rs:61-98), in the order of the keys; for no keys
`keys[0]` is a panic that the loader of the area DataLoader never causes. -/
def loadGrouped (f : NumFmt) (lib : Lib) (up : Req → Option Answer) (op : Op) (g : GroupBy) :
    List Rendered → Except Err (List (Resp GVal))
  | [] => .ok []
  | r :: rest =>
    match convertMultiple lib op ((r :: rest).map (·.body)) g.keyName with
    | .error e => .error e
    | .ok (body, ids) =>
      match execute lib up op ⟨r.url, r.headers, body⟩ with
      | .error e => .error e
      | .ok res =>
        let m := groupByKey f (gather res.body g.paths)
        .ok (ids.map (fun id => ⟨res.status, res.headers, (m id).head?.getD .null⟩))

/-- `ErrorExtensions::extend` (src/core/ir/error.rs:75-91): what a client gets to know of an error beside
its message. -/
def extensions : Err → List (Text × GVal)
  | .grpc c d m details =>
    [("grpcCode".toList, .int c), ("grpcDescription".toList, .str d), ("grpcStatusMessage".toList, .str m),
      ("grpcStatusDetails".toList, details)]
  | _ => []

/-! ## Methods -/

/-- `GrpcMethod::try_from` (src/core/blueprint/operators/grpc.rs:161-180): `rsplitn(3, '.')`. -/
def parseMethod (t : Text) : Option Method :=
  let r := t.reverse
  match r.dropWhile (· != '.') with
  | [] => none
  | _ :: r' =>
    match r'.dropWhile (· != '.') with
    | [] => none
    | _ :: p =>
      some ⟨p.reverse, (r'.takeWhile (· != '.')).reverse, (r.takeWhile (· != '.')).reverse⟩

/-- `Display` of a method (src/core/blueprint/operators/grpc.rs:155-159). -/
def printMethod (m : Method) : Text := m.package ++ '.' :: (m.service ++ '.' :: m.name)

/-- `to_url` (src/core/blueprint/operators/grpc.rs:19-29) before it is read as a template. -/
def toUrl (base : Text) (m : Method) : Text :=
  (base.reverse.dropWhile (· = '/')).reverse ++ '/' :: (m.package ++ '.' :: m.service) ++ '/' :: m.name

/-- `ServiceDescriptor` (used at src/core/grpc/protobuf.rs:84-89, 115-124): the full name and the methods. -/
structure Service where
  name : Text
  methods : List (Text × Op)

/-- `find_service` and `find_operation` (src/core/grpc/protobuf.rs:81-90, 114-125). -/
def findOperation (pool : List Service) (m : Method) : Option Op :=
  match pool.find? (fun s => s.name = m.package ++ '.' :: m.service) with
  | none => none
  | some s => (s.methods.find? (fun x => x.1 = m.name)).map (·.2)

end Verif.Grpc
