import Verif.Sdl.Codec
import Verif.Exec.Model

/-!
# Model of writing a configuration as a schema document and of reading it

Source: src/core/config/into_document.rs, src/core/config/from_document.rs, src/core/directive.rs,
src/core/config/directive.rs and tailcall-macros/src/resolver.rs.  Errors are only told from success: `none` stands for
any number of errors.
-/

namespace Verif.Sdl

open Verif.Mustache (Text)
open Verif.Merge (get)
open Verif.Exec (Ty)

/-! ## Documents -/

/-- `Type` of the parser (external crate, used at wrapping_type.rs:120-133). -/
inductive GTy where
  | named (n : Text) (nullable : Bool)
  | list (t : GTy) (nullable : Bool)

/-- `ConstDirective` (external crate, used at directive.rs:1). -/
structure Dir where
  name : Text
  args : List (Text × V)

/-- `InputValueDefinition` (external crate, used at config/into_document.rs:91-98). -/
structure InDef where
  name : Text
  doc : Option Text
  ty : GTy
  dflt : Option V
  dirs : List Dir

/-- `FieldDefinition` (external crate, used at config/into_document.rs:139-145). -/
structure FieldDef where
  name : Text
  doc : Option Text
  args : List InDef
  ty : GTy
  dirs : List Dir

/-- `EnumValueDefinition` (external crate, used at config/into_document.rs:186-193). -/
structure ValDef where
  name : Text
  doc : Option Text
  dirs : List Dir

/-- `TypeKind` (external crate, used at config/into_document.rs:63-148). -/
inductive Kind where
  | scalar
  | object (impl : List Text) (fields : List FieldDef)
  | iface (impl : List Text) (fields : List FieldDef)
  | input (fields : List InDef)
  | union (members : List Text)
  | enum (vals : List ValDef)

/-- `TypeDefinition` (external crate, used at config/into_document.rs:152-158). -/
structure TypeDef where
  ext : Bool
  doc : Option Text
  name : Text
  dirs : List Dir
  kind : Kind

/-- `SchemaDefinition` (external crate, used at config/into_document.rs:42-56). -/
structure SchemaDef where
  ext : Bool
  dirs : List Dir
  query : Option Text
  mutation : Option Text
  subscription : Option Text

/-- `TypeSystemDefinition` (external crate, used at config/from_document.rs:33-36); of the definition of a directive
nothing is kept. -/
inductive Def where
  | schema (s : SchemaDef)
  | type (t : TypeDef)
  | directive

/-! ## Configurations -/

/-- `Directive` (config/directive.rs:12-18). -/
structure Directive where
  name : Text
  args : List (Text × J)

/-- `Resolver` (config/resolver.rs:19-41); of a resolver for Apollo Federation nothing is kept. -/
inductive Resolver where
  | http (h : Http)
  | grpc (g : Grpc)
  | graphql (g : GraphQL)
  | call (c : Call)
  | js (j : Js)
  | expr (e : Expr)
  | federation

/-- `Arg` (config/config.rs:279-285). -/
structure Arg where
  ty : Ty
  doc : Option Text
  modify : Option Modify
  dflt : Option J

/-- `Field` (config/config.rs:180-226). -/
structure Field where
  ty : Ty
  args : List (Text × Arg)
  doc : Option Text
  modify : Option Modify
  omitted : Option Omit
  cache : Option Cache
  dflt : Option J
  prot : Option Protected
  disc : Option Discriminate
  resolvers : List Resolver
  dirs : List Directive

/-- `Type` (config/config.rs:107-133). -/
structure CType where
  fields : List (Text × Field)
  added : List AddField
  doc : Option Text
  impl : List Text
  cache : Option Cache
  prot : Option Protected
  resolvers : List Resolver
  dirs : List Directive

/-- `Union` (config/config.rs:287-291). -/
structure Union where
  types : List Text
  doc : Option Text

/-- `Variant` (config/config.rs:300-306). -/
structure Variant where
  name : Text
  alias : Option Alias
  deriving DecidableEq

/-- `Enum` (config/config.rs:293-298). -/
structure Enum where
  variants : List Variant
  doc : Option Text

/-- `RootSchema` (config/config.rs:169-175). -/
structure Root where
  query : Option Text
  mutation : Option Text
  subscription : Option Text

/-- `Config` (config/config.rs:65-101).  Maps and sets are lists without repetition. -/
structure Config where
  server : Server
  upstream : Upstream
  schema : Root
  types : List (Text × CType)
  unions : List (Text × Union)
  enums : List (Text × Enum)
  links : List Link
  telemetry : Telemetry

/-- `Server::default` (config/directives/server.rs:13-24). -/
def Server.dflt : Server :=
  ⟨none, none, none, none, none, none, none, none, none, none, none, none, none, none, [], none, none, none⟩

/-- `Upstream::default` (config/directives/upstream.rs:37-52). -/
def Upstream.dflt : Upstream :=
  ⟨none, none, none, none, none, none, none, none, none, none, none, none, none, none, none, none⟩

/-- `Telemetry::default` (config/directives/telemetry.rs:70-81). -/
def Telemetry.dflt : Telemetry := ⟨none, []⟩

/-- `Type::default` (config/config.rs:107). -/
def CType.dflt : CType := ⟨[], [], none, [], none, none, [], []⟩

/-! ## Directives -/

/-- `to_directive` of a struct (directive.rs:69-85).  The name is that of the struct with a small first letter, names of
two letters all small (directive.rs:28-36,39-46). -/
def toDir (name : Text) (fields : List (Text × J)) : Dir := ⟨name, ofFields fields⟩

/-- `from_directive` (directive.rs:48-67). -/
def fromDir {α : Type} (dec : List (Text × J) → Option α) (d : Dir) : Option α := dec (build (toFields d.args))

/-- `from_directives` (directive.rs:16-25): the first directive of the name counts. -/
def first {α : Type} (name : Text) (dec : List (Text × J) → Option α) : List Dir → Option (Option α)
  | [] => some none
  | d :: r => if d.name = name then (fromDir dec d).map some else first name dec r

/-- `Resolver::to_directive` (tailcall-macros/src/resolver.rs:68-78). -/
def Resolver.toDir? : Resolver → Option Dir
  | .http h => some (toDir "http".toList h.enc)
  | .grpc g => some (toDir "grpc".toList g.enc)
  | .graphql g => some (toDir "graphQL".toList g.enc)
  | .call c => some (toDir "call".toList c.enc)
  | .js j => some (toDir "js".toList j.enc)
  | .expr e => some (toDir "expr".toList e.enc)
  | .federation => none

/-- One directive in `Resolver::from_directives` (tailcall-macros/src/resolver.rs:56-66,97-101). -/
def Resolver.ofDir (d : Dir) : Option (Option Resolver) :=
  if d.name = "http".toList then (fromDir Http.dec d).map (fun x => some (.http x))
  else if d.name = "grpc".toList then (fromDir Grpc.dec d).map (fun x => some (.grpc x))
  else if d.name = "graphQL".toList then (fromDir GraphQL.dec d).map (fun x => some (.graphql x))
  else if d.name = "call".toList then (fromDir Call.dec d).map (fun x => some (.call x))
  else if d.name = "js".toList then (fromDir Js.dec d).map (fun x => some (.js x))
  else if d.name = "expr".toList then (fromDir Expr.dec d).map (fun x => some (.expr x))
  else some none

/-- `Valid::from_iter` followed by `flatten`: all succeed, and those with a value are kept
(tailcall-macros/src/resolver.rs:97-105, config/from_document.rs:437-448). -/
def collect {α β : Type} (f : α → Option (Option β)) : List α → Option (List β)
  | [] => some []
  | x :: r =>
    match f x, collect f r with
    | some (some y), some l => some (y :: l)
    | some none, some l => some l
    | _, _ => none

/-- `Valid::from_iter` (external crate, used at config/from_document.rs:280-284). -/
def all {α β : Type} (f : α → Option β) : List α → Option (List β)
  | [] => some []
  | x :: r =>
    match f x, all f r with
    | some y, some l => some (y :: l)
    | _, _ => none

/-- `FEDERATION_DIRECTIVES` (config/directives/federation.rs:9-29). -/
def federation : List Text := ["authenticated".toList, "context".toList, "cost".toList, "fromContext".toList, "link".toList,
  "key".toList, "tag".toList, "shareable".toList, "inaccessible".toList, "override".toList, "extends".toList,
  "external".toList, "provides".toList, "requires".toList, "requiresScope".toList, "composeDirective".toList,
  "interfaceObject".toList, "listSize".toList, "policy".toList]

/-- `to_const_directive` (config/directive.rs:20-29); reading a `ConstValue` from JSON does not fail. -/
def toConst (d : Directive) : Dir := ⟨d.name, ofFields d.args⟩

/-- `to_directive` (config/directive.rs:31-46). -/
def ofConst (d : Dir) : Directive := ⟨d.name, build (toFields d.args)⟩

/-- `to_federation_directives` (config/from_document.rs:434-449). -/
def fedDirs (ds : List Dir) : Option (List Directive) :=
  collect (fun d => if federation.contains d.name then some (some (ofConst d)) else some none) ds

/-- `to_add_fields_from_directives` (config/from_document.rs:420-432). -/
def addFields (ds : List Dir) : Option (List AddField) :=
  all (fromDir AddField.dec) (ds.filter (fun d => d.name = "addField".toList))

/-! ## Writing -/

/-- `From<&Type> for async_graphql_types::Type` (wrapping_type.rs:135-148). -/
def toG : Ty → GTy
  | .named n nn => .named n (!nn)
  | .list t nn => .list (toG t) (!nn)

/-- `From<&async_graphql_types::Type> for Type` (wrapping_type.rs:120-133). -/
def ofG : GTy → Ty
  | .named n nu => .named n (!nu)
  | .list t nu => .list (ofG t) (!nu)

/-- `field_directives` (config/into_document.rs:215-226). -/
def fieldDirs (f : Field) : List Dir :=
  f.resolvers.filterMap Resolver.toDir? ++
  (f.modify.map (fun d => toDir "modify".toList d.enc)).toList ++
  (f.omitted.map (fun d => toDir "omit".toList d.enc)).toList ++
  (f.cache.map (fun d => toDir "cache".toList d.enc)).toList ++
  (f.prot.map (fun d => toDir "protected".toList d.enc)).toList ++
  f.dirs.map toConst

/-- `type_directives` (config/into_document.rs:228-253). -/
def typeDirs (t : CType) : List Dir :=
  t.added.map (fun d => toDir "addField".toList d.enc) ++
  (t.cache.map (fun d => toDir "cache".toList d.enc)).toList ++
  (t.prot.map (fun d => toDir "protected".toList d.enc)).toList ++
  t.resolvers.filterMap Resolver.toDir? ++
  t.dirs.map toConst

/-- An argument (config/into_document.rs:121-136). -/
def argDef (p : Text × Arg) : InDef := ⟨p.1, p.2.doc, toG p.2.ty, p.2.dflt.map ofJson, []⟩

/-- A field of an object (config/into_document.rs:112-146). -/
def objField (p : Text × Field) : FieldDef := ⟨p.1, p.2.doc, p.2.args.map argDef, toG p.2.ty, fieldDirs p.2⟩

/-- A field of an interface (config/into_document.rs:70-83): its arguments are not written. -/
def ifaceField (p : Text × Field) : FieldDef := ⟨p.1, p.2.doc, [], toG p.2.ty, fieldDirs p.2⟩

/-- A field of an input type (config/into_document.rs:85-101). -/
def inputField (p : Text × Field) : InDef := ⟨p.1, p.2.doc, toG p.2.ty, p.2.dflt.map ofJson, fieldDirs p.2⟩

/-- The keys of `interfaces_types_map` (config/config.rs:505-513): the names that some type implements. -/
def isIface (c : Config) (n : Text) : Bool := c.types.any (fun t => t.2.impl.contains n)

/-- The kind of a type (config/into_document.rs:61-148). -/
def kindOf (iface input : Bool) (t : CType) : Kind :=
  if iface then .iface t.impl (t.fields.map ifaceField)
  else if input then .input (t.fields.map inputField)
  else if t.fields.isEmpty then .scalar
  else .object t.impl (t.fields.map objField)

/-- A type (config/into_document.rs:60-159); `inputs` is the set `Config::input_types` (config/config.rs:472-480), which
Verif.Transform.Model has. -/
def typeDef (c : Config) (inputs : Text → Bool) (p : Text × CType) : Def :=
  .type ⟨false, p.2.doc, p.1, typeDirs p.2, kindOf (isIface c p.1) (inputs p.1) p.2⟩

/-- A union (config/into_document.rs:160-175). -/
def unionDef (p : Text × Union) : Def := .type ⟨false, none, p.1, [], .union p.2.types⟩

/-- A value of an enum (config/into_document.rs:185-195). -/
def valDef (v : Variant) : ValDef := ⟨v.name, none, (v.alias.map (fun a => toDir "alias".toList a.enc)).toList⟩

/-- An enum (config/into_document.rs:177-200). -/
def enumDef (p : Text × Enum) : Def := .type ⟨false, p.2.doc, p.1, [], .enum (p.2.variants.map valDef)⟩

/-- The directive of a link, with its type as an enum value at the end (config/into_document.rs:22-40). -/
def linkDir (l : Link) : Dir :=
  ⟨"link".toList, (ofFields l.enc).filter (fun a => a.1 ≠ "type".toList) ++ [("type".toList, .enum l.typeOf.text)]⟩

/-- The schema (config/into_document.rs:15-57). -/
def schemaDef (c : Config) : Def :=
  .schema ⟨false, toDir "server".toList c.server.enc :: toDir "upstream".toList c.upstream.enc :: c.links.map linkDir,
    c.schema.query, c.schema.mutation, c.schema.subscription⟩

/-- `config_document` (config/into_document.rs:15-204). -/
def toDoc (inputs : Text → Bool) (c : Config) : List Def :=
  schemaDef c :: (c.types.map (typeDef c inputs) ++ c.unions.map unionDef ++ c.enums.map enumDef)

/-! ## Reading -/

/-- `schema_definition` (config/from_document.rs:22-28,64-72): the first one counts, and there is a default. -/
def findSchema (doc : List Def) : SchemaDef :=
  (doc.findSome? (fun d => match d with | .schema s => some s | _ => none)).getD ⟨false, [], none, none, none⟩

/-- `process_schema_directives` (config/from_document.rs:74-85): the last directive of the name counts, and errors of
earlier ones are lost. -/
def lastDir {α : Type} (name : Text) (dec : List (Text × J) → Option α) (dflt : α) (ds : List Dir) : Option α :=
  ds.foldl (fun r d => if d.name = name then fromDir dec d else r) (some dflt)

/-- `process_schema_multiple_directives` (config/from_document.rs:87-104). -/
def manyDirs {α : Type} (name : Text) (dec : List (Text × J) → Option α) (ds : List Dir) : Option (List α) :=
  collect (fun d => if d.name = name then (fromDir dec d).map some else some none) ds

/-- `to_arg` (config/from_document.rs:374-392): a `@modify` that cannot be read is ignored. -/
def ofArg (a : InDef) : Arg := ⟨ofG a.ty, a.doc, (first "modify".toList Modify.dec a.dirs).join, a.dflt.map toJson⟩

/-- `to_args` (config/from_document.rs:363-373). -/
def ofArgs (l : List InDef) : List (Text × Arg) := build (l.map (fun a => (a.name, ofArg a)))

/-- `to_common_field` (config/from_document.rs:310-361). -/
def commonField (ty : GTy) (doc : Option Text) (dirs : List Dir) (args : List (Text × Arg)) (dflt : Option V) : Option Field := do
  let resolvers ← collect Resolver.ofDir dirs
  let cache ← first "cache".toList Cache.dec dirs
  let omitted ← first "omit".toList Omit.dec dirs
  let modify ← first "modify".toList Modify.dec dirs
  let prot ← first "protected".toList Protected.dec dirs
  let disc ← first "discriminate".toList Discriminate.dec dirs
  let fed ← fedDirs dirs
  return ⟨ofG ty, args, doc, modify, omitted, cache, dflt.map toJson, prot, disc, resolvers, fed⟩

/-- `to_field` with the name (config/from_document.rs:273-299). -/
def ofField? (f : FieldDef) : Option (Text × Field) := (commonField f.ty f.doc f.dirs (ofArgs f.args) none).map (f.name, ·)

/-- `to_input_object_field` with the name (config/from_document.rs:273-309). -/
def ofInput? (f : InDef) : Option (Text × Field) := (commonField f.ty f.doc f.dirs [] f.dflt).map (f.name, ·)

/-- `to_object_type` (config/from_document.rs:226-259). -/
def objectType (impl : List Text) (fields : List FieldDef) (doc : Option Text) (dirs : List Dir) : Option CType := do
  let resolvers ← collect Resolver.ofDir dirs
  let cache ← first "cache".toList Cache.dec dirs
  let fs ← all ofField? fields
  let prot ← first "protected".toList Protected.dec dirs
  let added ← addFields dirs
  let fed ← fedDirs dirs
  return ⟨build fs, added, doc, setOf impl, cache, prot, resolvers, fed⟩

/-- `to_input_object` (config/from_document.rs:260-272). -/
def inputType (fields : List InDef) (doc : Option Text) (dirs : List Dir) : Option CType := do
  let fs ← all ofInput? fields
  let prot ← first "protected".toList Protected.dec dirs
  return { CType.dflt with fields := build fs, prot := prot, doc := doc }

/-- One definition in `to_types` (config/from_document.rs:144-170). -/
def ofType (t : TypeDef) : Option (Option (Text × CType)) :=
  match t.kind with
  | .object impl fs => (objectType impl fs t.doc t.dirs).map (fun x => some (t.name, x))
  | .iface impl fs => (objectType impl fs t.doc t.dirs).map (fun x => some (t.name, x))
  | .input fs => (inputType fs t.doc t.dirs).map (fun x => some (t.name, x))
  | .scalar => some (some (t.name, CType.dflt))
  | .enum _ => some none
  | .union _ => some none

/-- One definition in `to_union_types` (config/from_document.rs:184-203,393-401). -/
def ofUnion (t : TypeDef) : Option (Option (Text × Union)) :=
  match t.kind with
  | .union ms => some (some (t.name, ⟨setOf ms, t.doc⟩))
  | _ => some none

/-- A value of an enum (config/from_document.rs:404-416). -/
def ofVal (v : ValDef) : Option Variant := (first "alias".toList Alias.dec v.dirs).map (⟨v.name, ·⟩)

/-- One definition in `to_enum_types` (config/from_document.rs:205-224,403-418). -/
def ofEnum (t : TypeDef) : Option (Option (Text × Enum)) :=
  match t.kind with
  | .enum vs => (all ofVal vs).map (fun l => some (t.name, ⟨setOf l, t.doc⟩))
  | _ => some none

/-- The definitions of types (config/from_document.rs:31-38). -/
def typeDefs (doc : List Def) : List TypeDef := doc.filterMap (fun d => match d with | .type t => some t | _ => none)

/-- `from_document` (config/from_document.rs:30-62). -/
def fromDoc (doc : List Def) : Option Config := do
  let sd := findSchema doc
  let server ← lastDir "server".toList Server.dec Server.dflt sd.dirs
  let upstream ← lastDir "upstream".toList Upstream.dec Upstream.dflt sd.dirs
  let types ← collect ofType (typeDefs doc)
  let unions ← collect ofUnion (typeDefs doc)
  let enums ← collect ofEnum (typeDefs doc)
  let links ← manyDirs "link".toList Link.dec sd.dirs
  let telemetry ← lastDir "telemetry".toList Telemetry.dec Telemetry.dflt sd.dirs
  return ⟨server, upstream, ⟨sd.query, sd.mutation, sd.subscription⟩, build types, build unions, build enums, links, telemetry⟩

end Verif.Sdl
