import Verif.Tmpl.Model
import Verif.Transform.Model

/-!
# Model of the generator for protobuf

Configurations from protobuf descriptors (src/core/generator/from_proto.rs), the names of what is generated
(src/core/generator/graphql_type.rs), comments (src/core/generator/proto/comments_builder.rs, path_builder.rs,
path_field.rs), and Connect RPC (src/core/generator/proto/connect_rpc.rs).  What is done with the configuration
afterwards (`AmbiguousType`, `TreeShake`, from_proto.rs:480-483) is in `Verif.Transform`.
-/

namespace Verif.Proto

open Verif.Mustache (Text)
open Verif.Exec (Ty)
open Verif.Transform (get insert withName)

/-! ## Names -/

/-- `str::split('.')` (standard library, used at graphql_type.rs:91, connect_rpc.rs:64). -/
def splitDot : Text → List Text
  | [] => [[]]
  | c :: r =>
    if c = '.' then [] :: splitDot r
    else
      match splitDot r with
      | h :: t => (c :: h) :: t
      | [] => [[c]]

/-- `str::trim` (standard library, used at graphql_type.rs:92), for ASCII white space. -/
def trim (t : Text) : Text := ((t.dropWhile Char.isWhitespace).reverse.dropWhile Char.isWhitespace).reverse

/-- `join` with a separator (standard library, used at graphql_type.rs:49, 63). -/
def join (sep : Text) : List Text → Text
  | [] => []
  | [t] => t
  | t :: r => t ++ sep ++ join sep r

/-- `DEFAULT_SEPARATOR` (graphql_type.rs:7). -/
def sep : Text := ['_', '_']

/-- `PREFIX` (generator/mod.rs:14). -/
def prefix_ : Text := "GEN__".toList

/-- `Unparsed` (graphql_type.rs:35-42). -/
structure Unparsed where
  head : Text
  tail : List Text

/-- `Parsed` (graphql_type.rs:24-29), without the entity: each way of printing is a function here. -/
structure Parsed where
  ns : List Text
  name : Text

/-- `parse` (graphql_type.rs:83-101), with `normalize_name` (graphql_type.rs:10-12). -/
def parse (u : Unparsed) : Parsed :=
  ⟨((u.tail.flatMap splitDot).map trim).filter (fun t => !t.isEmpty), u.head.map (fun c => if c = '.' then '_' else c)⟩

/-- `id` (graphql_type.rs:125-132). -/
def Parsed.id (p : Parsed) : Text := if p.ns.isEmpty then p.name else join ['.'] p.ns ++ '.' :: p.name

/-- The namespace and the name (graphql_type.rs:157-161, 168-172). -/
def Parsed.full (p : Parsed) : Text := if p.ns.isEmpty then p.name else join sep p.ns ++ sep ++ p.name

/-- `Display` for objects and enums (graphql_type.rs:163-173). -/
def Parsed.object (p : Parsed) : Text := (if Verif.Tmpl.predefined p.name then [] else prefix_) ++ p.full

/-- `Display` for methods (graphql_type.rs:155-162). -/
def Parsed.method (p : Parsed) : Text := prefix_ ++ p.full

/-! ## Descriptors -/

/-- `Label` (prost_types, used at from_proto.rs:268-273). -/
inductive Label where
  | optional | required | repeated
  deriving DecidableEq

/-- The types of fields that are no references (prost_types, used at from_proto.rs:292). -/
inductive Prim where
  | double | float | int32 | sint32 | fixed32 | sfixed32 | int64 | sint64 | fixed64 | sfixed64 | uint32 | uint64 | bool | string | bytes
  | group | message | enum
  deriving DecidableEq

/-- `FieldDescriptorProto` (prost_types, used at from_proto.rs:261-307). -/
structure FieldD where
  name : Text
  label : Label
  typeName : Option Text
  prim : Prim
  oneof : Option Nat

/-- `EnumDescriptorProto` (prost_types, used at from_proto.rs:163-213). -/
structure EnumD where
  name : Text
  values : List Text

/-- `DescriptorProto` (prost_types, used at from_proto.rs:217-319): with the number of oneofs, and whether it is an entry
of a map. -/
inductive MsgD where
  | mk (name : Text) (fields : List FieldD) (enums : List EnumD) (nested : List MsgD) (oneofs : Nat) (mapEntry : Bool)

/-- The name of a message (from_proto.rs:224). -/
def MsgD.name : MsgD → Text
  | .mk n _ _ _ _ _ => n

/-- The fields of a message (from_proto.rs:261). -/
def MsgD.fields : MsgD → List FieldD
  | .mk _ f _ _ _ _ => f

/-- The enums of a message (from_proto.rs:248). -/
def MsgD.enums : MsgD → List EnumD
  | .mk _ _ e _ _ _ => e

/-- The messages of a message (from_proto.rs:250). -/
def MsgD.nested : MsgD → List MsgD
  | .mk _ _ _ l _ _ => l

/-- The number of oneofs (from_proto.rs:254). -/
def MsgD.oneofs : MsgD → Nat
  | .mk _ _ _ _ n _ => n

/-- Whether a message is an entry of a map (from_proto.rs:230-235). -/
def MsgD.mapEntry : MsgD → Bool
  | .mk _ _ _ _ _ b => b

/-- `MethodDescriptorProto` (prost_types, used at from_proto.rs:336-391). -/
structure MethodD where
  name : Text
  input : Text
  output : Text

/-- `ServiceDescriptorProto` (prost_types, used at from_proto.rs:332-393). -/
structure ServiceD where
  name : Text
  methods : List MethodD

/-- The comments of a file: `get_comments` (comments_builder.rs:12-28) of the source code information. -/
abbrev Comments := List Nat → Option Text

/-- `FileDescriptorProto` (prost_types, used at from_proto.rs:461-477), the comments only if there is source code
information. -/
structure FileD where
  package : Text
  comments : Option Comments
  enums : List EnumD
  messages : List MsgD
  services : List ServiceD

/-! ## The configuration -/

/-- `Grpc` (config/directives/grpc.rs), as far as it is set (from_proto.rs:364-374). -/
structure Grpc where
  url : Text
  body : Option Text
  method : Text
  deriving DecidableEq

/-- `Field` (config/config.rs:182-226), as far as it is set. -/
structure Fld where
  ty : Ty
  args : List (Text × Ty)
  grpc : Option Grpc
  doc : Option Text

/-- `Type` (config/config.rs:108-133), as far as it is set. -/
structure Typ where
  fields : List (Text × Fld)
  implements : List Text
  doc : Option Text

/-- `Enum` (config/config.rs), the variants in the order of the descriptor and not as a set. -/
structure Enum where
  variants : List Text
  doc : Option Text

/-- `Config` (config/config.rs:66-102), as far as it is built up here. -/
structure Cfg where
  types : List (Text × Typ)
  unions : List (Text × List Text)
  enums : List (Text × Enum)
  query : Option Text

/-- What goes wrong (from_proto.rs:270-307, 399-412): a reference that is not fully qualified, an empty reference
(`type_name[1..]` panics), a oneof that does not exist (panics). -/
inductive Err where
  | notQualified (name : Text)
  | emptyRef
  | noOneof
  deriving DecidableEq

/-- `Context` (from_proto.rs:22-39).  The namespace is an argument of the functions below, since it is pushed and popped
around them; the name of the query is one as well. -/
structure St where
  cfg : Cfg
  maps : List Text
  comments : Comments

/-! ## Enums -/

/-- The name of a variant (from_proto.rs:178-197): a comment becomes a part of it. -/
def variantName (c : Comments) (path : List Nat) (i : Nat) (v : Text) : Text :=
  match c (path ++ [2, i]) with
  | some d => "\"\"\n  ".toList ++ d ++ "\n  \"\"\n  ".toList ++ (parse ⟨v, []⟩).name
  | none => (parse ⟨v, []⟩).name

/-- The variants (from_proto.rs:177-198). -/
def variants (c : Comments) (path : List Nat) : Nat → List Text → List Text
  | _, [] => []
  | i, v :: r => variantName c path i v :: variants c path (i + 1) r

/-- One enum (from_proto.rs:169-213). -/
def appendEnum (ns : List Text) (path : List Nat) (e : EnumD) (s : St) : St :=
  { s with cfg := { s.cfg with
      enums := insert s.cfg.enums (parse ⟨e.name, ns⟩).object ⟨variants s.comments path 0 e.values, s.comments path⟩ } }

/-- `append_enums` (from_proto.rs:161-216); `tag` is 5 in files and 4 in messages. -/
def appendEnums (ns : List Text) (path : List Nat) (tag : Nat) : Nat → List EnumD → St → St
  | _, [], s => s
  | i, e :: r, s => appendEnums ns path tag (i + 1) r (appendEnum ns (path ++ [tag, i]) e s)

/-! ## Fields -/

/-- `rsplit_once('.')` (standard library, used at from_proto.rs:407). -/
def rsplitOnce (t : Text) : Option (Text × Text) :=
  match t.reverse.span (fun c => c ≠ '.') with
  | (n, _ :: p) => some (p.reverse, n.reverse)
  | (_, []) => none

/-- `graphql_type_from_ref` (from_proto.rs:400-412). -/
def fromRef (name : Text) : Except Err Unparsed :=
  match name with
  | '.' :: r =>
    match rsplitOnce r with
    | some (p, n) => .ok ⟨n, [p]⟩
    | none => .ok ⟨r, []⟩
  | _ => .error (.notQualified name)

/-- `convert_primitive_type` (from_proto.rs:415-434). -/
def primitive : Prim → Text
  | .double | .float => "Float".toList
  | .int32 | .sint32 | .fixed32 | .sfixed32 => "Int".toList
  | .int64 | .sint64 | .fixed64 | .sfixed64 => "Int64".toList
  | .uint32 => "UInt32".toList
  | .uint64 => "UInt64".toList
  | .bool => "Boolean".toList
  | .string => "String".toList
  | .bytes => "Bytes".toList
  | .group => "group".toList
  | .message => "message".toList
  | .enum => "enum".toList

/-- The type of a field before its name is known (from_proto.rs:266-273, wrapping_type.rs:52-56, 82-87, 98-100). -/
def labelled : Label → Ty
  | .optional => .named "JSON".toList false
  | .required => .named "JSON".toList true
  | .repeated => .list (.named "JSON".toList false) false

/-- The type of a field (from_proto.rs:268-295). -/
def fieldType (maps : List Text) (f : FieldD) : Except Err Ty :=
  match f.typeName with
  | some [] => .error .emptyRef
  | some (c :: r) =>
    if maps.contains r then .ok (.named "JSON".toList false)
    else
      match fromRef (c :: r) with
      | .ok u => .ok (withName (parse u).object (labelled f.label))
      | .error e => .error e
  | none => .ok (withName (primitive f.prim) (labelled f.label))

/-- Put a field into a group (from_proto.rs:302); `none` if there is no such group. -/
def putGroup : Nat → Text × Fld → List (List (Text × Fld)) → Option (List (List (Text × Fld)))
  | _, _, [] => none
  | 0, x, g :: r => some ((g ++ [x]) :: r)
  | n + 1, x, g :: r => (putGroup n x r).map (g :: ·)

/-- The fields of a message (from_proto.rs:261-307): those outside of oneofs, and those of each oneof.  `camel` is the
conversion of the crate `convert_case` (graphql_type.rs:154). -/
def fieldsOf (camel : Text → Text) (c : Comments) (maps : List Text) (path : List Nat) :
    Nat → List FieldD → List (Text × Fld) × List (List (Text × Fld)) → Except Err (List (Text × Fld) × List (List (Text × Fld)))
  | _, [], acc => .ok acc
  | i, f :: r, (fs, gs) =>
    match fieldType maps f with
    | .error e => .error e
    | .ok t =>
      match f.oneof with
      | none => fieldsOf camel c maps path (i + 1) r (insert fs (camel (parse ⟨f.name, []⟩).name) ⟨t, [], none, c (path ++ [2, i])⟩, gs)
      | some o =>
        match putGroup o (camel (parse ⟨f.name, []⟩).name, ⟨t, [], none, c (path ++ [2, i])⟩) gs with
        | none => .error .noOneof
        | some gs => fieldsOf camel c maps path (i + 1) r (fs, gs)

/-! ## Oneofs -/

/-- Decimal digits of a number (`format!`, standard library, used at from_proto.rs:124). -/
def digits (n : Nat) : Text := (toString n).toList

/-- `Type::into_required` (wrapping_type.rs:82-87). -/
def required : Ty → Ty
  | .named n _ => .named n true
  | .list t _ => .list t true

/-- `new_type.fields.insert` (from_proto.rs:94, 120). -/
def Typ.put (t : Typ) (n : Text) (f : Fld) : Typ := { t with fields := insert t.fields n f }

/-- `collect_types` (from_proto.rs:73-131). -/
def collect : List (List (Text × Fld)) → Text → Typ → List (Text × Typ)
  | [], name, t => [(name, t)]
  | [(n, f)] :: r, name, t => collect r (name ++ "__Var".toList) (t.put n f)
  | g :: r, name, t => collect r (name ++ "__Var".toList) t ++
      (g.zipIdx.flatMap (fun x => collect r (name ++ "__Var".toList ++ digits x.2) (t.put x.1.1 { x.1.2 with ty := required x.1.2.ty })))

/-- `Context::insert_type` (from_proto.rs:59-62). -/
def Cfg.putType (c : Cfg) (n : Text) (t : Typ) : Cfg := { c with types := insert c.types n t }

/-- `insert_oneofs` (from_proto.rs:65-158). -/
def insertOneofs (name : Text) (base : Typ) (gs : List (List (Text × Fld))) (c : Cfg) : Cfg :=
  match collect gs name base with
  | [(_, t)] => c.putType name t
  | l =>
    let c := l.foldl (fun c x => c.putType x.1 { x.2 with implements := [name ++ "__Interface".toList] }) c
    { c.putType (name ++ "__Interface".toList) base with unions := insert c.unions name (l.map (·.1)) }

/-! ## Messages -/

/-- The message itself, after what is nested in it (from_proto.rs:254-317). -/
def putMsg (camel : Text → Text) (ns : List Text) (path : List Nat) (m : MsgD) (s : St) : Except Err St :=
  match fieldsOf camel s.comments s.maps path 0 m.fields ([], List.replicate m.oneofs []) with
  | .error e => .error e
  | .ok (fs, gs) =>
    let name := (parse ⟨m.name, ns⟩).object
    let t : Typ := ⟨fs, [], s.comments path⟩
    .ok { s with cfg := if m.oneofs = 0 then s.cfg.putType name t else insertOneofs name t gs s.cfg }

mutual
/-- One message (from_proto.rs:223-317). -/
def appendMsg (camel : Text → Text) (ns : List Text) (path : List Nat) : MsgD → St → Except Err St
  | .mk name fields enums nested oneofs mapEntry, s =>
    if mapEntry then .ok { s with maps := (parse ⟨name, ns⟩).id :: s.maps }
    else
      match appendMsgs camel (ns ++ [name]) path 3 0 nested (appendEnums (ns ++ [name]) path 4 0 enums s) with
      | .error e => .error e
      | .ok s => putMsg camel ns path (.mk name fields enums nested oneofs mapEntry) s

/-- `append_msg_type` (from_proto.rs:217-320); `tag` is 4 in files and 3 in messages. -/
def appendMsgs (camel : Text → Text) (ns : List Text) (path : List Nat) (tag : Nat) : Nat → List MsgD → St → Except Err St
  | _, [], s => .ok s
  | i, m :: r, s =>
    match appendMsg camel ns (path ++ [tag, i]) m s with
    | .error e => .error e
    | .ok s => appendMsgs camel ns path tag (i + 1) r s
end

/-! ## Services -/

/-- `.google.protobuf.Empty` (from_proto.rs:440, 453). -/
def empty : Text := ".google.protobuf.Empty".toList

/-- `get_output_type` (from_proto.rs:437-449). -/
def outputType (t : Text) : Except Err Unparsed := if t = empty then .ok ⟨"Empty".toList, []⟩ else fromRef t

/-- `get_input_type` (from_proto.rs:451-456). -/
def inputType (t : Text) : Except Err (Option Unparsed) :=
  if t = empty ∨ t = [] then .ok none
  else
    match fromRef t with
    | .ok u => .ok (some u)
    | .error e => .error e

/-- The argument and the body of a method (from_proto.rs:345-359). -/
def argument (camel : Text → Text) : Option Unparsed → List (Text × Ty) × Option Text
  | none => ([], none)
  | some u =>
    ([(camel (parse u).name, .named (parse u).object true)], some ("{{.args.".toList ++ camel (parse u).name ++ "}}".toList))

/-- A field of the query (from_proto.rs:381-389). -/
def Cfg.putQuery (c : Cfg) (query n : Text) (f : Fld) : Cfg :=
  match get c.types query with
  | some t => c.putType query (t.put n f)
  | none => { c.putType query (Typ.put ⟨[], [], none⟩ n f) with query := some query }

/-- One method (from_proto.rs:336-391). -/
def appendMethod (camel : Text → Text) (query url : Text) (ns : List Text) (path : List Nat) (service : Text) (m : MethodD) (s : St) :
    Except Err St :=
  match inputType m.input with
  | .error e => .error e
  | .ok i =>
    match outputType m.output with
    | .error e => .error e
    | .ok o =>
      let p := parse ⟨m.name, ns ++ [service]⟩
      let f : Fld := ⟨.named (parse o).object false, (argument camel i).1, some ⟨url, (argument camel i).2, p.id⟩, s.comments path⟩
      .ok { s with cfg := s.cfg.putQuery query p.method f }

/-- The methods of a service (from_proto.rs:336-391). -/
def appendMethods (camel : Text → Text) (query url : Text) (ns : List Text) (path : List Nat) (service : Text) :
    Nat → List MethodD → St → Except Err St
  | _, [], s => .ok s
  | i, m :: r, s =>
    match appendMethod camel query url ns (path ++ [2, i]) service m s with
    | .error e => .error e
    | .ok s => appendMethods camel query url ns path service (i + 1) r s

/-- `append_query_service` (from_proto.rs:322-396). -/
def appendServices (camel : Text → Text) (query url : Text) (ns : List Text) : Nat → List ServiceD → St → Except Err St
  | _, [], s => .ok s
  | i, v :: r, s =>
    match appendMethods camel query url ns [6, i] v.name 0 v.methods s with
    | .error e => .error e
    | .ok s => appendServices camel query url ns (i + 1) r s

/-! ## Files -/

/-- One file (from_proto.rs:462-477). -/
def appendFile (camel : Text → Text) (query url : Text) (f : FileD) (s : St) : Except Err St :=
  let s := match f.comments with
    | some c => { s with comments := c }
    | none => s
  match appendMsgs camel [f.package] [] 4 0 f.messages (appendEnums [f.package] [] 5 0 f.enums s) with
  | .error e => .error e
  | .ok s => appendServices camel query url [f.package] 0 f.services s

/-- The loops over the files of all sets (from_proto.rs:460-478). -/
def appendFiles (camel : Text → Text) (query url : Text) : List FileD → St → Except Err St
  | [], s => .ok s
  | f :: r, s =>
    match appendFile camel query url f s with
    | .error e => .error e
    | .ok s => appendFiles camel query url r s

/-- `Context::new` (from_proto.rs:42-50). -/
def init : St := ⟨⟨[], [], [], none⟩, [], fun _ => none⟩

/-- `from_proto` (from_proto.rs:458-486), before `AmbiguousType` and `TreeShake`. -/
def fromProto (camel : Text → Text) (query url : Text) (files : List FileD) : Except Err Cfg :=
  (appendFiles camel query url files init).map (·.cfg)

/-! ## What is done with the method -/

/-- `GrpcMethod` (blueprint/operators/grpc.rs:149-153). -/
structure GrpcMethod where
  package : Text
  service : Text
  name : Text
  deriving DecidableEq

/-- `GrpcMethod::try_from` (blueprint/operators/grpc.rs:161-180): `rsplitn(3, '.')` gives three parts. -/
def grpcMethod (t : Text) : Option GrpcMethod :=
  match rsplitOnce t with
  | none => none
  | some (r, name) =>
    match rsplitOnce r with
    | none => none
    | some (package, service) => some ⟨package, service, name⟩

/-- `Http`, as far as `Http::from(Grpc)` sets it (connect_rpc.rs:50-93); headers as pairs. -/
structure Http where
  url : Text
  post : Bool
  body : Option Text
  headers : List (Text × Text)

/-- `From<Grpc> for Http` (connect_rpc.rs:50-93).  The body of a missing body is the empty object, here as text. -/
def connect (g : Grpc) (headers : List (Text × Text)) : Http :=
  ⟨g.url ++ '/' :: join ['.'] (splitDot g.method).dropLast ++ '/' :: ((splitDot g.method).getLast?).getD [], true,
    some (g.body.getD "{}".toList), headers ++ [("Connect-Protocol-Version".toList, "1".toList)]⟩

end Verif.Proto
