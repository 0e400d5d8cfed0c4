import Verif.Doc.Model

/-!
# Model of what a subgraph publishes about itself
(src/core/blueprint/into_document.rs, src/core/blueprint/operators/apollo_federation.rs)

Documents and their values are those of `Verif.Sdl`, their text is that of `Verif.Doc`.
-/

namespace Verif.Service

open Verif.Mustache (Text)
open Verif.Exec (Ty)
open Verif.Merge (get)
open Verif.Sdl (J V GTy Dir InDef FieldDef ValDef Kind TypeDef SchemaDef Def Directive ofJson ofFields toG)

/-! ## Blueprints -/

/-- `InputFieldDefinition` (blueprint/blueprint.rs:115-120). -/
structure BIn where
  name : Text
  ty : Ty
  dflt : Option J
  descr : Option Text

/-- `IR` (ir/model.rs:17-35): the two variants for federation; of any other one only its identity is kept. -/
inductive IR where
  | entity (byType : List (Text × IR))
  | service (sdl : Text)
  | plain (id : Nat)

/-- `FieldDefinition` (blueprint/blueprint.rs:122-131). -/
structure BField where
  name : Text
  args : List BIn
  ty : Ty
  res : Option IR
  dirs : List Directive
  descr : Option Text
  dflt : Option J

/-- `Definition` (blueprint/blueprint.rs:31-38 and 66-157).  The aliases of enum values are left out; sets are lists. -/
inductive BDef where
  | object (name : Text) (fields : List BField) (descr : Option Text) (implements : List Text) (dirs : List Directive)
  | iface (name : Text) (fields : List BField) (descr : Option Text) (implements : List Text) (dirs : List Directive)
  | input (name : Text) (fields : List BIn) (descr : Option Text) (dirs : List Directive)
  | scalar (name : Text) (descr : Option Text) (dirs : List Directive)
  | enum (name : Text) (values : List (Text × Option Text)) (descr : Option Text) (dirs : List Directive)
  | union (name : Text) (types : List Text) (descr : Option Text) (dirs : List Directive)

/-- `Definition::name` (blueprint/blueprint.rs:41-50). -/
def BDef.name : BDef → Text
  | .object n _ _ _ _ => n
  | .iface n _ _ _ _ => n
  | .input n _ _ _ => n
  | .scalar n _ _ => n
  | .enum n _ _ _ => n
  | .union n _ _ _ => n

/-- `Blueprint` (blueprint/blueprint.rs:22-29): its definitions and the names of the schema. -/
structure Blueprint where
  defs : List BDef
  query : Text
  mutation : Option Text

/-- `to_interface_type_definition` (blueprint/definitions.rs:61-71); other definitions do not get there
(blueprint/definitions.rs:569-579). -/
def toInterface : BDef → BDef
  | .object n fs d is _ => .iface n fs d is []
  | d => d

/-- `to_input_object_type_definition` (blueprint/definitions.rs:41-59); other definitions do not get there
(blueprint/definitions.rs:569-579). -/
def toInput : BDef → BDef
  | .object n fs d _ _ => .input n (fs.map (fun f => ⟨f.name, f.ty, f.dflt, f.descr⟩)) d []
  | d => d

/-! ## The document of a blueprint -/

/-- `to_const_directive` (blueprint/directive.rs:36-45) for every directive (blueprint/into_document.rs:15-22): it cannot
fail, since every JSON value is a constant. -/
def dirsOf (l : List Directive) : List Dir := l.map (fun d => ⟨d.name, ofFields d.args⟩)

/-- An argument (blueprint/into_document.rs:24-42) or a field of an input object (blueprint/into_document.rs:84-98). -/
def inOf (a : BIn) : InDef := ⟨a.name, none, toG a.ty, a.dflt.map ofJson, []⟩

/-- `to_fields` (blueprint/into_document.rs:44-60). -/
def fieldOf (f : BField) : FieldDef := ⟨f.name, none, f.args.map inOf, toG f.ty, dirsOf f.dirs⟩

/-- The kind of a definition (blueprint/into_document.rs:63-118). -/
def kindOf : BDef → Kind
  | .object _ fs _ is _ => .object is (fs.map fieldOf)
  | .iface _ fs _ is _ => .iface is (fs.map fieldOf)
  | .input _ fs _ _ => .input (fs.map inOf)
  | .scalar _ _ _ => .scalar
  | .enum _ vs _ _ => .enum (vs.map (fun v => ⟨v.1, none, []⟩))
  | .union _ ts _ _ => .union ts

/-- `Definition::directives` (blueprint/blueprint.rs:52-62). -/
def BDef.dirs : BDef → List Directive
  | .object _ _ _ _ ds => ds
  | .iface _ _ _ _ ds => ds
  | .input _ _ _ ds => ds
  | .scalar _ _ ds => ds
  | .enum _ _ _ ds => ds
  | .union _ _ _ ds => ds

/-- `to_definition` (blueprint/into_document.rs:62-127). -/
def defOf (d : BDef) : Def := .type ⟨false, none, d.name, dirsOf d.dirs, kindOf d⟩

/-- `ServiceDocument::from(&Blueprint)` (blueprint/into_document.rs:129-151). -/
def docOf (b : Blueprint) : List Def := .schema ⟨false, [], some b.query, b.mutation, none⟩ :: b.defs.map defOf

/-! ## Resolvers for federation -/

/-- What goes wrong (blueprint/operators/apollo_federation.rs:39, 51, 95, 99, 107); the errors of other resolvers by a
number. -/
inductive Err where
  | notObject
  | typeNotFound (n : Text)
  | fieldNotFound (n : Text)
  | serviceInEntity
  | noResolver
  | other (code : Nat)
  deriving DecidableEq

/-- `Resolver` (config/resolver.rs:14-17 and 31-41): the two for federation; any other one is a number. -/
inductive Res where
  | entity (byType : List (Text × Res))
  | service
  | plain (id : Nat)

/-- One more outcome in `Valid::from_iter` (crate tailcall_valid, used at blueprint/operators/apollo_federation.rs:24): all
errors are kept. -/
def andAlso {α : Type} : Except (List Err) α → Except (List Err) (List α) → Except (List Err) (List α)
  | .ok a, .ok l => .ok (a :: l)
  | .ok _, .error e => .error e
  | .error e, .ok _ => .error e
  | .error e, .error e' => .error (e ++ e')

mutual
/-- `compile_entity_resolver` (blueprint/operators/apollo_federation.rs:20-61).  `comp` stands for `compile_resolver` on the
type, with `none` if there is no resolver (blueprint/operators/apollo_federation.rs:42-53). -/
def compileRes (comp : Text → Nat → Except (List Err) (Option Nat)) (n : Text) : Res → Except (List Err) IR
  | .entity l => (compileAll comp l).map .entity
  | .service => .error [.serviceInEntity]
  | .plain i =>
    match comp n i with
    | .error e => .error e
    | .ok none => .error [.noResolver]
    | .ok (some j) => .ok (.plain j)
/-- The resolvers of `compile_entity_resolver` (blueprint/operators/apollo_federation.rs:24-60). -/
def compileAll (comp : Text → Nat → Except (List Err) (Option Nat)) : List (Text × Res) → Except (List Err) (List (Text × IR))
  | [] => .ok []
  | p :: r => andAlso (compileOne comp p) (compileAll comp r)
/-- One resolver of `compile_entity_resolver` (blueprint/operators/apollo_federation.rs:26-58). -/
def compileOne (comp : Text → Nat → Except (List Err) (Option Nat)) : Text × Res → Except (List Err) (Text × IR)
  | (n, r) => (compileRes comp n r).map (fun i => (n, i))
end

/-- What is added to the text of the schema (blueprint/operators/apollo_federation.rs:64-71). -/
def extension : Text :=
  "\nextend schema @link(\n\turl: \"https://specs.apollo.dev/federation/v2.3\",\n\timport: [\"@key\", \"@tag\", \"@shareable\", \"@inaccessible\", \"@override\", \"@external\", \"@provides\", \"@requires\", \"@composeDirective\", \"@interfaceObject\"]\n)\n".toList

/-- `compile_service` (blueprint/operators/apollo_federation.rs:63-74). -/
def compileService (sdl : Text) : IR := .service (sdl ++ extension)

/-- `matches!(resolver, Resolver::ApolloFederation(_))` (blueprint/operators/apollo_federation.rs:113). -/
def Res.isFed : Res → Bool
  | .entity _ => true
  | .service => true
  | .plain _ => false

/-- The configuration as far as `update_federation` reads it (blueprint/operators/apollo_federation.rs:79, 98, 106, 110-113): the
switch, and for every type its fields with their resolvers. -/
structure Config where
  federation : Bool
  types : List (Text × List (Text × List Res))

/-- One field of the query type (blueprint/operators/apollo_federation.rs:102-130), with what is left of the text of the schema:
the first field for it takes the text (blueprint/operators/apollo_federation.rs:126). -/
def updField (comp : Text → Nat → Except (List Err) (Option Nat)) (cfg : List (Text × List Res)) (sdl : Text) (f : BField) :
    Except (List Err) BField × Text :=
  match get f.name cfg with
  | none => (.error [.fieldNotFound f.name], sdl)
  | some rs =>
    match rs.find? Res.isFed with
    | some (.entity l) => ((compileAll comp l).map (fun i => { f with res := some (.entity i) }), sdl)
    | some .service => (.ok { f with res := some (compileService sdl) }, [])
    | _ => (.ok f, sdl)

/-- The fields of the query type (blueprint/operators/apollo_federation.rs:102-130). -/
def updFields (comp : Text → Nat → Except (List Err) (Option Nat)) (cfg : List (Text × List Res)) :
    Text → List BField → Except (List Err) (List BField) × Text
  | sdl, [] => (.ok [], sdl)
  | sdl, f :: r =>
    let q := updField comp cfg sdl f
    let q' := updFields comp cfg q.2 r
    (andAlso q.1 q'.1, q'.2)

/-- One definition (blueprint/operators/apollo_federation.rs:89-135). -/
def updDef (comp : Text → Nat → Except (List Err) (Option Nat)) (c : Config) (query : Text) (sdl : Text) (d : BDef) :
    Except (List Err) BDef × Text :=
  if d.name ≠ query then (.ok d, sdl)
  else
    match d with
    | .object n fs de is ds =>
      match get query c.types with
      | none => (.error [.typeNotFound query], sdl)
      | some cfg =>
        let q := updFields comp cfg sdl fs
        (q.1.map (fun fs => .object n fs de is ds), q.2)
    | _ => (.error [.notObject], sdl)

/-- The definitions (blueprint/operators/apollo_federation.rs:89-135). -/
def updDefs (comp : Text → Nat → Except (List Err) (Option Nat)) (c : Config) (query : Text) :
    Text → List BDef → Except (List Err) (List BDef) × Text
  | sdl, [] => (.ok [], sdl)
  | sdl, d :: r =>
    let q := updDef comp c query sdl d
    let q' := updDefs comp c query q.2 r
    (andAlso q.1 q'.1, q'.2)

/-- `update_federation` (blueprint/operators/apollo_federation.rs:77-139). -/
def update (seg : Text → List Text) (comp : Text → Nat → Except (List Err) (Option Nat)) (c : Config) (b : Blueprint) :
    Except (List Err) Blueprint :=
  if c.federation then
    (updDefs comp c b.query (Verif.Doc.print seg (docOf b)) b.defs).1.map (fun ds => { b with defs := ds })
  else .ok b

/-! ## The names of the fields of a type -/

/-- A field of the configuration (config/config.rs:180-226) as far as its name in the blueprint is concerned: `@modify(name)`
and `@omit`. -/
structure CField where
  name : Text
  rename : Option Text
  omitted : Bool
  res : List Res

/-- The names of the fields of an object in the blueprint: fields that are not omitted (blueprint/definitions.rs:429-433) under
their new name (blueprint/operators/modify.rs:17-33), then the fields of `@addField`
(blueprint/definitions.rs:527-533).  That an added field takes the new name of the field it starts from, if that has one, is
left out. -/
def blueprintNames (fs : List CField) (added : List Text) : List Text :=
  (fs.filter (fun f => !f.omitted)).map (fun f => f.rename.getD f.name) ++ added

end Verif.Service
