import Verif.Service.Model
import Verif.Doc.Spec

/-!
# What a subgraph must publish

The reader of `Verif.Doc` is used for the definitions; here it also reads extensions of the schema.
-/

namespace Verif.Service

open Verif.Mustache (Text)
open Verif.Exec (Ty)
open Verif.Gql (Tok)
open Verif.Doc (lex readDef readDirectives)
open Verif.Sdl (J V GTy Dir InDef FieldDef ValDef Kind TypeDef SchemaDef Def Directive toJson)

/-- Definitions, and the directives of extensions of the schema. -/
def readParts (d : Nat) : Nat → List Tok → Option (List Def × List Dir)
  | _, [] => some ([], [])
  | 0, _ => none
  | n + 1, ts =>
    if ts.take 2 = [.word "extend".toList, .word "schema".toList] then do
      let (ds, r) ← readDirectives d (ts.drop 2)
      let (l, e) ← readParts d n r
      return (l, ds ++ e)
    else do
      let (x, r) ← readDef d ts
      let (l, e) ← readParts d n r
      return (x :: l, e)

/-- The definitions of a text, and the directives with which it extends the schema. -/
def readSubgraph (t : Text) : Option (List Def × List Dir) := do
  let ts ← lex .top t
  readParts (ts.length + 1) (ts.length + 1) ts

/-- The type in the text is the type of the blueprint. -/
inductive TellsTy : Ty → GTy → Prop where
  | named (n : Text) (nonNull nullable : Bool) (h : nonNull ≠ nullable) : TellsTy (.named n nonNull) (.named n nullable)
  | list {t : Ty} {g : GTy} (nonNull nullable : Bool) (h : nonNull ≠ nullable) (ht : TellsTy t g) :
    TellsTy (.list t nonNull) (.list g nullable)

/-- Whether a JSON value is `null`. -/
def nullJ : J → Bool
  | .null => true
  | _ => false

/-- The directive in the text is that of the blueprint, except for arguments that are `null`. -/
def TellsDir (d : Directive) (x : Dir) : Prop :=
  x.name = d.name ∧ x.args.map (fun p => (p.1, toJson p.2)) = d.args.filter (fun p => !nullJ p.2)

/-- The argument or input field in the text is that of the blueprint. -/
def TellsIn (a : BIn) (x : InDef) : Prop := x.name = a.name ∧ TellsTy a.ty x.ty ∧ x.dflt.map toJson = a.dflt

/-- Item by item. -/
inductive Each {α β : Type} (R : α → β → Prop) : List α → List β → Prop where
  | nil : Each R [] []
  | cons {a : α} {b : β} {l : List α} {l' : List β} (h : R a b) (t : Each R l l') : Each R (a :: l) (b :: l')

/-- The field in the text is that of the blueprint. -/
def TellsField (f : BField) (x : FieldDef) : Prop :=
  x.name = f.name ∧ Each TellsIn f.args x.args ∧ TellsTy f.ty x.ty ∧ Each TellsDir f.dirs x.dirs

/-- The definition in the text is that of the blueprint, without descriptions. -/
def Tells : BDef → Def → Prop
  | .object n fs _ is ds, .type ⟨_, _, n', ds', .object is' fs'⟩ => n' = n ∧ is' = is ∧ Each TellsDir ds ds' ∧ Each TellsField fs fs'
  | .iface n fs _ is ds, .type ⟨_, _, n', ds', .iface is' fs'⟩ => n' = n ∧ is' = is ∧ Each TellsDir ds ds' ∧ Each TellsField fs fs'
  | .input n fs _ ds, .type ⟨_, _, n', ds', .input fs'⟩ => n' = n ∧ Each TellsDir ds ds' ∧ Each TellsIn fs fs'
  | .scalar n _ ds, .type ⟨_, _, n', ds', .scalar⟩ => n' = n ∧ Each TellsDir ds ds'
  | .enum n vs _ ds, .type ⟨_, _, n', ds', .enum vs'⟩ => n' = n ∧ Each TellsDir ds ds' ∧ vs'.map (·.name) = vs.map (·.1)
  | .union n ts _ ds, .type ⟨_, _, n', ds', .union ts'⟩ => n' = n ∧ Each TellsDir ds ds' ∧ ts' = ts
  | _, _ => False

/-- The directive with which a subgraph says that it is one of Federation 2. -/
def federation2 : Dir :=
  ⟨"link".toList, [("url".toList, .str "https://specs.apollo.dev/federation/v2.3".toList),
    ("import".toList, .arr (["@key", "@tag", "@shareable", "@inaccessible", "@override", "@external", "@provides", "@requires",
      "@composeDirective", "@interfaceObject"].map (fun s => V.str s.toList)))]⟩

/-- The text can be read, says all that the blueprint says about its types, and nothing else, and is marked as a subgraph of
Federation 2. -/
def Publishes (t : Text) (b : Blueprint) : Prop :=
  ∃ l s ds, readSubgraph t = some (l, [federation2]) ∧ l.Perm (.schema s :: ds) ∧
    s.query = some b.query ∧ s.mutation = b.mutation ∧ s.subscription = none ∧ s.dirs = [] ∧ Each Tells b.defs ds

/-- Whether the text describes a definition. -/
def described : Def → Bool
  | .type ⟨_, some _, _, _, _⟩ => true
  | .type ⟨_, none, _, _, .object _ fs⟩ => fs.any (fun f => f.doc.isSome)
  | .type ⟨_, none, _, _, .iface _ fs⟩ => fs.any (fun f => f.doc.isSome)
  | .type ⟨_, none, _, _, .input fs⟩ => fs.any (fun f => f.doc.isSome)
  | _ => false

/-- The names of the directives of the types of a name. -/
def directivesOf (n : Text) (l : List Def) : List (List Text) :=
  l.filterMap (fun d => match d with | .type ⟨_, _, n', ds, _⟩ => if n' = n then some (ds.map (·.name)) else none | _ => none)

/-- The names of the directives of the fields of an input type. -/
def inputDirectives (n : Text) (l : List Def) : List (Text × List Text) :=
  l.flatMap (fun d => match d with
    | .type ⟨_, _, n', _, .input fs⟩ => if n' = n then fs.map (fun f => (f.name, f.dirs.map (·.name))) else []
    | _ => [])

/-- The names of enums. -/
def enums (l : List Def) : List Text :=
  l.filterMap (fun d => match d with | .type ⟨_, _, n, _, .enum _⟩ => some n | _ => none)

/-- Whether a value can be one of an enum, as text of GraphQL (October 2021, section 3.9.1: strings cannot). -/
def enumValue : V → Bool
  | .str _ => false
  | .int _ => false
  | .float _ => false
  | .bool _ => false
  | _ => true

/-- The defaults of arguments of a type that is an enum. -/
def enumDefaults (l : List Def) : List V :=
  l.flatMap (fun d => match d with
    | .type ⟨_, _, _, _, .object _ fs⟩ => fs.flatMap (fun f => f.args.filterMap (fun a =>
        match a.ty with
        | .named n _ => if n ∈ enums l then a.dflt else none
        | _ => none))
    | _ => [])

/-! ## Resolvers -/

mutual
/-- What an entity resolver must become: for every type what its resolver is compiled to, nested ones likewise. -/
inductive Compiled (comp : Text → Nat → Except (List Err) (Option Nat)) : Text → Res → IR → Prop where
  | plain {n : Text} {i j : Nat} (h : comp n i = .ok (some j)) : Compiled comp n (.plain i) (.plain j)
  | entity {n : Text} {l : List (Text × Res)} {l' : List (Text × IR)} (h : CompiledAll comp l l') :
    Compiled comp n (.entity l) (.entity l')
/-- Type by type. -/
inductive CompiledAll (comp : Text → Nat → Except (List Err) (Option Nat)) : List (Text × Res) → List (Text × IR) → Prop where
  | nil : CompiledAll comp [] []
  | cons {n : Text} {r : Res} {i : IR} {l : List (Text × Res)} {l' : List (Text × IR)} (h : Compiled comp n r i)
    (t : CompiledAll comp l l') : CompiledAll comp ((n, r) :: l) ((n, i) :: l')
end

/-- The field is the same but for its resolver. -/
def SameField (f f' : BField) : Prop := ∃ r, f' = { f with res := r }

/-- A field without a resolver for federation keeps its own. -/
def Keeps (cfg : List (Text × List Res)) (f f' : BField) : Prop :=
  SameField f f' ∧ ((∀ rs, Verif.Merge.get f.name cfg = some rs → ∀ r ∈ rs, r.isFed = false) → f' = f)

end Verif.Service
