import Verif.Load.Model
import Verif.Hook.Model

/-!
# Model of the client for gRPC reflection (src/core/proto_reader/fetch.rs)

Parsing and printing of URLs is by the parts that matter, the encoding of messages is a parameter (`Lib`);
the server is a function from requests to answers.  Simplified: the description of the reflection service
(fetch.rs:24-35, 133-135) is fixed and always found.
-/

namespace Verif.Reflect

open Verif.Mustache (Text)
open Verif.Transform (get insert)
open Verif.Load (PFile)
open Verif.Hook (headerName validValue)

/-- The three questions of the client (src/core/proto_reader/fetch.rs:103, 118, 126). -/
inductive Ask where
  | services
  | symbol (name : Text)
  | file (name : Text)
  deriving DecidableEq, Repr

/-- The places at which the client gives up: src/core/proto_reader/fetch.rs:136 and
src/core/grpc/request_template.rs:62 (`url`), fetch.rs:151 (`header`), the panic of
src/core/config/reader_context.rs:34 (`panic`), src/core/grpc/protobuf.rs:169 (`input`), fetch.rs:175 (`send`),
protobuf.rs:214-231 (`answer`), fetch.rs:106, 187 (`kind`), 58 (`empty`) and 189 (`file`).
Simplified: the texts of the errors are not modelled. -/
inductive Err where
  | url
  | header
  | panic
  | input
  | send
  | answer
  | kind
  | empty
  | file
  deriving DecidableEq, Repr

/-- `url::Url` (external crate, used at src/core/proto_reader/fetch.rs:136).  Simplified: scheme, user, host
and port are one text; the fragment, which is never sent, is left out. -/
structure Url where
  base : Text
  path : Text
  query : Option Text
  deriving DecidableEq, Repr

/-- `Url::as_str` (external crate, used at src/core/proto_reader/fetch.rs:165). -/
def printUrl (u : Url) : Text :=
  u.base ++ '/' :: (u.path ++ (match u.query with | none => [] | some q => '?' :: q))

/-- The parts of `ReflectionResponse` (src/core/proto_reader/fetch.rs:66-72).  Simplified: the files are bytes,
as in the answer of the server; the program writes them as BASE64 and reads them again (fetch.rs:60-62). -/
structure Answer where
  services : Option (List Text)
  files : Option (List (List UInt8))
  deriving DecidableEq, Repr

/-- Libraries: `Url::parse` (used at src/core/proto_reader/fetch.rs:136 and src/core/grpc/request_template.rs:62),
`DynamicMessage::decode` for an answer (src/core/grpc/protobuf.rs:222-231) and
`FileDescriptorProto::decode` (fetch.rs:189). -/
structure Lib where
  url : Text → Option Url
  answer : List UInt8 → Option Answer
  file : List UInt8 → Option PFile

/-- The request as the server gets it (`create_grpc_request`, src/core/grpc/request.rs:12-18), with the
message of its body. -/
structure Req where
  url : Url
  headers : List (Text × Text)
  ask : Ask
  deriving DecidableEq, Repr

/-- The link: its source and its headers (src/core/config/reader.rs:131-135). -/
structure Link where
  src : Text
  headers : Option (List (Text × Text))
  deriving DecidableEq, Repr

/-! ## The body -/

/-- A digit of an escape (external crate `serde_json`, used at src/core/proto_reader/fetch.rs:161). -/
def hexDigit (n : Nat) : Char := if n < 10 then Char.ofNat (48 + n) else Char.ofNat (87 + n)

/-- A character of a JSON string (external crate `serde_json`, used at src/core/proto_reader/fetch.rs:161). -/
def escChar (c : Char) : Text :=
  if c = '"' then ['\\', '"']
  else if c = '\\' then ['\\', '\\']
  else if c.toNat < 32 then
    if c = '\n' then ['\\', 'n']
    else if c = '\r' then ['\\', 'r']
    else if c = '\t' then ['\\', 't']
    else if c.toNat = 8 then ['\\', 'b']
    else if c.toNat = 12 then ['\\', 'f']
    else ['\\', 'u', '0', '0', hexDigit (c.toNat / 16), hexDigit (c.toNat % 16)]
  else [c]

/-- The names of the questions (src/core/proto_reader/fetch.rs:103, 118, 126). -/
def keyOf : Ask → Text
  | .services => "list_services".toList
  | .symbol _ => "file_containing_symbol".toList
  | .file _ => "file_by_filename".toList

/-- What the questions are about (src/core/proto_reader/fetch.rs:103, 118, 126). -/
def argOf : Ask → Text
  | .services => []
  | .symbol n => n
  | .file n => n

/-- `json!({..})` and `body.to_string()` (src/core/proto_reader/fetch.rs:103, 118, 126, 161). -/
def bodyText (a : Ask) : Text :=
  '{' :: '"' :: (keyOf a ++ ('"' :: ':' :: '"' :: ((argOf a).flatMap escChar ++ ['"', '}'])))

/-- The value of a digit (external crate `serde_json`, used at src/core/grpc/protobuf.rs:169). -/
def unhex (c : Char) : Option Nat :=
  if 48 ≤ c.toNat ∧ c.toNat ≤ 57 then some (c.toNat - 48)
  else if 97 ≤ c.toNat ∧ c.toNat ≤ 102 then some (c.toNat - 87)
  else none

/-- Reads a JSON string after its first quote (external crate `serde_json`, used at
src/core/grpc/protobuf.rs:169).  Simplified: of the escapes only those that are written by `escChar`, with
digits in lower case. -/
def readStr : Text → Option (Text × Text)
  | [] => none
  | '"' :: r => some ([], r)
  | '\\' :: '"' :: r => (readStr r).map (fun p => ('"' :: p.1, p.2))
  | '\\' :: '\\' :: r => (readStr r).map (fun p => ('\\' :: p.1, p.2))
  | '\\' :: 'n' :: r => (readStr r).map (fun p => ('\n' :: p.1, p.2))
  | '\\' :: 'r' :: r => (readStr r).map (fun p => ('\r' :: p.1, p.2))
  | '\\' :: 't' :: r => (readStr r).map (fun p => ('\t' :: p.1, p.2))
  | '\\' :: 'b' :: r => (readStr r).map (fun p => (Char.ofNat 8 :: p.1, p.2))
  | '\\' :: 'f' :: r => (readStr r).map (fun p => (Char.ofNat 12 :: p.1, p.2))
  | '\\' :: 'u' :: '0' :: '0' :: a :: b :: r =>
    match unhex a, unhex b, readStr r with
    | some x, some y, some p => some (Char.ofNat (16 * x + y) :: p.1, p.2)
    | _, _, _ => none
  | c :: r => if c = '\\' ∨ c.toNat < 32 then none else (readStr r).map (fun p => (c :: p.1, p.2))

/-- `convert_input` for the request of reflection (src/core/grpc/protobuf.rs:168-172): the message for a
body.  Simplified: a body that is not an object with one of the three questions is an error; an object with
more entries, which can only come from braces in a name, is not modelled further. -/
def readBody (t : Text) : Option Ask :=
  match t with
  | '{' :: '"' :: r =>
    match readStr r with
    | some (k, ':' :: '"' :: r) =>
      match readStr r with
      | some (v, ['}']) =>
        if k = "list_services".toList then some .services
        else if k = "file_containing_symbol".toList then some (.symbol v)
        else if k = "file_by_filename".toList then some (.file v)
        else none
      | _ => none
    | _ => none
  | _ => none

/-! ## The request -/

/-- `path_string` of `ConfigReaderContext` without variables (src/core/config/reader_context.rs:26-38, as
created at src/core/proto_reader/fetch.rs:172). -/
def envCtx (env : Text → Option Text) : List Text → Option Text
  | h :: k :: _ => if h = "env".toList then env k else none
  | _ => none

/-- `Mustache::parse` and `render` (src/core/proto_reader/fetch.rs:152, 161, 165 and
src/core/grpc/request_template.rs:62, 73, 38); `tail[0]` of an empty list is a panic
(src/core/config/reader_context.rs:34). -/
def render (env : Text → Option Text) (t : Text) : Except Err Text :=
  let m := Verif.Mustache.parse t
  if .expr ["env".toList] ∈ m then .error .panic else .ok (Verif.Mustache.render m (envCtx env))

/-- The path of the service of reflection (src/core/proto_reader/fetch.rs:87-91, 137-145). -/
def reflectionPath : Text := "grpc.reflection.v1alpha.ServerReflection/ServerReflectionInfo".toList

/-- The names of the headers of the link (src/core/proto_reader/fetch.rs:147-155). -/
def names : List (Text × Text) → Except Err (List (Text × Text))
  | [] => .ok []
  | (k, v) :: r =>
    match headerName k with
    | none => .error .header
    | some k => (names r).map ((k, v) :: ·)

/-- The headers of the template (src/core/proto_reader/fetch.rs:147-159). -/
def templates (hs : Option (List (Text × Text))) : Except Err (List (Text × Text)) :=
  (names (hs.getD [])).map (· ++ [("content-type".toList, "application/grpc+proto".toList)])

/-- The loop of `create_headers` (src/core/grpc/request_template.rs:72-76). -/
def fill (env : Text → Option Text) : List (Text × Text) → List (Text × Text) → Except Err (List (Text × Text))
  | [], m => .ok m
  | (k, v) :: r, m =>
    match render env v with
    | .error e => .error e
    | .ok v => fill env r (if validValue v then insert m k v else m)

/-- `create_headers` (src/core/grpc/request_template.rs:67-79); the context has no headers of its own
(src/core/config/reader_context.rs:21), so those are all (request_template.rs:96-107). -/
def createHeaders (env : Text → Option Text) (hs : List (Text × Text)) : Except Err (List (Text × Text)) :=
  fill env hs [("content-type".toList, "application/grpc".toList)]

/-- The request of `execute` (src/core/proto_reader/fetch.rs:136-174 with
src/core/grpc/request_template.rs:81-94, 111-117). -/
def request (lib : Lib) (env : Text → Option Text) (l : Link) (a : Ask) : Except Err Req :=
  match lib.url l.src with
  | none => .error .url
  | some u =>
    match templates l.headers with
    | .error e => .error e
    | .ok hs =>
      match render env (printUrl { u with path := reflectionPath }) with
      | .error e => .error e
      | .ok t =>
        match lib.url t with
        | none => .error .url
        | some u' =>
          match createHeaders env hs with
          | .error e => .error e
          | .ok hs =>
            match render env (bodyText a) with
            | .error e => .error e
            | .ok b =>
              match readBody b with
              | none => .error .input
              | some a => .ok ⟨u', hs, a⟩

/-! ## The answer -/

/-- `convert_output` (src/core/grpc/protobuf.rs:213-233). -/
def convertOutput (lib : Lib) (bytes : List UInt8) : Except Err Answer :=
  if bytes.length < 5 then .error .answer
  else match lib.answer (bytes.drop 5) with
    | none => .error .answer
    | some r => .ok r

/-- `GrpcReflection::execute` (src/core/proto_reader/fetch.rs:131-180); `up` is the server and the way
to it.  Simplified: the status and the headers of the answer, which the program does not look at, are not
modelled. -/
def execute (lib : Lib) (env : Text → Option Text) (up : Req → Option (List UInt8)) (l : Link) (a : Ask) :
    Except Err Answer :=
  match request lib env l a with
  | .error e => .error e
  | .ok r =>
    match up r with
    | none => .error .send
    | some bytes => convertOutput lib bytes

/-- `list_all_files` (src/core/proto_reader/fetch.rs:100-113). -/
def listAll (lib : Lib) (env : Text → Option Text) (up : Req → Option (List UInt8)) (l : Link) :
    Except Err (List Text) :=
  match execute lib env up l .services with
  | .error e => .error e
  | .ok r =>
    match r.services with
    | none => .error .kind
    | some ns => .ok ns

/-- `request_proto` and `FileDescriptorProtoResponse::get` (src/core/proto_reader/fetch.rs:184-192, 54-63). -/
def requestProto (lib : Lib) (r : Answer) : Except Err PFile :=
  match r.files with
  | none => .error .kind
  | some [] => .error .empty
  | some (b :: _) =>
    match lib.file b with
    | none => .error .file
    | some f => .ok f

/-- `get_by_service` (src/core/proto_reader/fetch.rs:116-122). -/
def byService (lib : Lib) (env : Text → Option Text) (up : Req → Option (List UInt8)) (l : Link) (s : Text) :
    Except Err PFile :=
  match execute lib env up l (.symbol s) with
  | .error e => .error e
  | .ok r => requestProto lib r

/-- `get_file` (src/core/proto_reader/fetch.rs:125-129). -/
def byFile (lib : Lib) (env : Text → Option Text) (up : Req → Option (List UInt8)) (l : Link) (i : Text) :
    Except Err PFile :=
  match execute lib env up l (.file i) with
  | .error e => .error e
  | .ok r => requestProto lib r

/-- A result without its error (`?` at src/core/proto_reader/reader.rs:47, 52 and 121; the area Load has one
error for whatever a server does not give). -/
def ok? {α : Type} : Except Err α → Option α
  | .ok a => some a
  | .error _ => none

/-- The client in the place of the server of the area Load (`GrpcReflection::new` at
src/core/proto_reader/reader.rs:40-44): `headers` are those of the link to the source. -/
def withClient {β : Type} (io : Verif.Load.Io β) (lib : Lib) (up : Req → Option (List UInt8))
    (headers : Option (List (Text × Text))) : Verif.Load.Io β :=
  { io with
    services := fun url => ok? (listAll lib io.env up ⟨url, headers⟩)
    byService := fun url s => ok? (byService lib io.env up ⟨url, headers⟩ s)
    byFile := fun url i => ok? (byFile lib io.env up ⟨url, headers⟩ i) }

end Verif.Reflect
