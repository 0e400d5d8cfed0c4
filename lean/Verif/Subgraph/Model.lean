import Verif.Tmpl.Model
import Verif.Exec.Model
import Verif.Ir.Model

/-!
# Model of the federation layer (src/core/config/transformer/subgraph.rs)

`Subgraph` makes a configuration a subgraph of Apollo Federation: it reads from the resolver of a type
which fields of a representation the resolver needs, declares these as the `@key` of the type, and adds
the fields `_service` and `_entities` to the query type.

A result of `Valid` is an `Option`: `none` is failure.  The texts of the errors and their traces are left
out, but for those of `validate_iter`.
-/

namespace Verif.Subgraph

open Verif.Mustache (Text Template parse render)
open Verif.Tmpl (exprs)
open Verif.HttpUrl (GVal VS RCtx valueEval)
open Verif.Exec (Ty)
open Verif.Merge (get tlt insert)

/-- `Keys(BTreeMap<String, Keys>)` (transformer/subgraph.rs:163-164): the entries of the map in order, each
with its name and the map inside. -/
inductive Keys where
  | nil
  | cons (name : Text) (sub rest : Keys)
  deriving DecidableEq, Repr

/-- `map.entry(part).or_default()` followed by a change of the map inside (transformer/subgraph.rs:175). -/
def Keys.upd (p : Text) (f : Keys → Keys) : Keys → Keys
  | .nil => .cons p (f .nil) .nil
  | .cons k s r =>
    if k = p then .cons k (f s) r
    else if tlt p k then .cons p (f .nil) (.cons k s r)
    else .cons k s (Keys.upd p f r)

/-- `Keys::set_path` (transformer/subgraph.rs:171-177). -/
def Keys.setPath : List Text → Keys → Keys
  | [], m => m
  | p :: ps, m => m.upd p (Keys.setPath ps)

/-- `BTreeMap::get` (standard library, used at merge_right.rs:55). -/
def Keys.find (p : Text) : Keys → Option Keys
  | .nil => none
  | .cons k s r => if k = p then some s else r.find p

/-- `MergeRight` for `BTreeMap` and, derived, for `Keys` (merge_right.rs:48-63, transformer/subgraph.rs:163-164):
the second map is the first argument here. -/
def Keys.mergeFrom : Keys → Keys → Keys
  | .nil, m => m
  | .cons k v r, m =>
    let w := match m.find k with
      | some s => Keys.mergeFrom v s
      | none => v
    Keys.mergeFrom r (m.upd k (fun _ => w))

/-- `self.merge_right(other)` (merge_right.rs:53-62). -/
def Keys.merge (m other : Keys) : Keys := Keys.mergeFrom other m

/-- `Display for Keys` (transformer/subgraph.rs:184-200). -/
def Keys.print : Keys → Text
  | .nil => []
  | .cons k s r =>
    k ++ (match s with
      | .nil => []
      | .cons _ _ _ => ' ' :: '{' :: ' ' :: (s.print ++ [' ', '}'])) ++
    (match r with
      | .nil => []
      | .cons _ _ _ => ' ' :: r.print)

/-- `combine_keys` (transformer/subgraph.rs:202-205). -/
def combine (l : List Keys) : Keys := l.foldl Keys.merge .nil

/-- A resolver of a type (config/resolver.rs:31-41).  `body` of `@http` is the text of its JSON; of `@grpc`,
`@expr` and the arguments of steps the JSON itself.  `other` is a resolver from which no key is read
(transformer/subgraph.rs:326).  Left out: what is no template, like the method of `@http`. -/
inductive Resolver where
  | http (url : Text) (body : Option Text) (headers query : List (Text × Text))
  | grpc (url method : Text) (body : Option GVal) (headers : List (Text × Text))
  | graphql (headers : List (Text × Text)) (args : Option (List (Text × Text)))
  | call (steps : List (List (Text × GVal)))
  | expr (body : GVal)
  | other (n : Nat)

/-- `a.zip(b).map(f)`, and one more outcome in `Valid::from_iter` (crate tailcall_valid, used at
transformer/subgraph.rs:379-381, 280-292): failure of one is failure. -/
def both {α β γ : Type} (f : α → β → γ) : Option α → Option β → Option γ
  | some a, some b => some (f a b)
  | _, _ => none

/-- The loop of `parse_str` over the expressions (transformer/subgraph.rs:343-360). -/
def parseExprs : List (List Text) → Keys → Option Keys
  | [], m => some m
  | [] :: es, m => parseExprs es m
  | (h :: p) :: es, m =>
    if h = "value".toList then parseExprs es (m.setPath p)
    else if h = "args".toList then none
    else parseExprs es m

/-- `parse_str` (transformer/subgraph.rs:339-361). -/
def parseStr (s : Text) : Option Keys := parseExprs (exprs (parse s)) .nil

/-- `parse_json_option` (transformer/subgraph.rs:363-369). -/
def parseText : Option Text → Option Keys
  | some s => parseStr s
  | none => some .nil

/-- The loop of `parse_key_value_iter` (transformer/subgraph.rs:374-383). -/
def parseKvs : List (Text × Text) → Keys → Option Keys
  | [], m => some m
  | (k, v) :: r, m =>
    match parseStr k, parseStr v with
    | some a, some b => parseKvs r ((m.merge a).merge b)
    | _, _ => none

/-- `parse_key_value_iter_option` (transformer/subgraph.rs:386-394). -/
def parseKvsOption : Option (List (Text × Text)) → Option Keys
  | some l => parseKvs l .nil
  | none => some .nil

mutual
/-- `parse_value` (transformer/subgraph.rs:396-412). -/
def parseValue : GVal → Option Keys
  | .str s => parseStr s
  | .list l => (parseList l).map combine
  | .obj kvs => (parseObj kvs).map combine
  | _ => some .nil
/-- `Valid::from_iter(v.iter(), Self::parse_value)` (transformer/subgraph.rs:399). -/
def parseList : List GVal → Option (List Keys)
  | [] => some []
  | x :: r => both List.cons (parseValue x) (parseList r)
/-- `Valid::from_iter(map.iter(), ..)` (transformer/subgraph.rs:400-404). -/
def parseObj : List (Text × GVal) → Option (List Keys)
  | [] => some []
  | x :: r => both List.cons (parseEntry x) (parseObj r)
/-- One entry of an object (transformer/subgraph.rs:401-403). -/
def parseEntry : Text × GVal → Option Keys
  | (k, v) => both Keys.merge (parseStr k) (parseValue v)
end

/-- `parse_value_option` (transformer/subgraph.rs:414-420). -/
def parseValueOption : Option GVal → Option Keys
  | some v => parseValue v
  | none => some .nil

/-- `Valid::from_iter([..], identity)` (transformer/subgraph.rs:280-292). -/
def allOf : List (Option Keys) → Option (List Keys)
  | [] => some []
  | x :: r => both List.cons x (allOf r)

/-- The keys of the arguments of a step, each with its name, as one list (transformer/subgraph.rs:317-322). -/
def parseArgs : List (Text × GVal) → Option (List Keys)
  | [] => some []
  | (k, v) :: r => both List.append (allOf [parseStr k, parseValue v]) (parseArgs r)

/-- The keys that `extract_keys` combines (transformer/subgraph.rs:278-327); `some none` is the return for other
resolvers. -/
def extractList : Resolver → Option (Option (List Keys))
  | .http url body headers query =>
    (allOf [parseStr url, parseText body, parseKvs headers .nil, parseKvs query .nil]).map some
  | .grpc url method body headers =>
    (allOf [parseStr url, parseStr method, parseValueOption body, parseKvs headers .nil]).map some
  | .graphql headers args => (allOf [parseKvs headers .nil, parseKvsOption args]).map some
  | .call [] => none
  | .call (step :: _) => (parseArgs step).map some
  | .expr body => (allOf [parseValue body]).map some
  | .other _ => some none

/-- `extract_keys` (transformer/subgraph.rs:276-337). -/
def extractKeys (r : Resolver) : Option (Option Text) :=
  match extractList r with
  | none => none
  | some none => some none
  | some (some l) =>
    match combine l with
    | .nil => some none
    | .cons k s rest => some (some (Keys.cons k s rest).print)

/-- What the field of a type does (config/config.rs:182-226): one of the two resolvers that the layer adds
(config/directives/federation.rs:39-43, transformer/subgraph.rs:110, 150-153) or anything else. -/
inductive Does where
  | other (n : Nat)
  | service
  | entities (byType : List (Text × Resolver))

/-- `Field` (config/config.rs:182-226): type, types of the arguments and resolvers. The documentation and all
else is in `does`. -/
structure Field where
  ty : Ty
  args : List (Text × Ty)
  does : Does

/-- `Directive` (config/directive.rs:12-18) with text arguments. -/
abbrev Directive := Text × List (Text × Text)

/-- `Type` (config/config.rs:108-133); `rest` is all that the layer does not look at. -/
structure TypeDef where
  fields : List (Text × Field)
  resolvers : List Resolver
  directives : List Directive
  rest : Nat

/-- `Type::default()` (config/config.rs:108-133). -/
def TypeDef.empty : TypeDef := ⟨[], [], [], 0⟩

/-- `Config` (config/config.rs:66-102): `server.enableFederation`, `schema.query`, the types and the members of
the unions. -/
structure Config where
  enabled : Bool
  query : Option Text
  types : List (Text × TypeDef)
  unions : List (Text × List Text)

/-- An error of `validate_iter` (transformer/subgraph.rs:236-246). -/
inductive VErr where
  | noField (index : Nat) (key type : Text)
  | noType (type : Text)
  deriving DecidableEq, Repr

/-- `validate_iter` (transformer/subgraph.rs:229-250): after an error it goes on at the same type. -/
def validateIter (types : List (Text × TypeDef)) (cur : Text) (i : Nat) : List Text → List VErr
  | [] => []
  | k :: ks =>
    match get cur types with
    | some td =>
      match get k td.fields with
      | some f => validateIter types f.ty.name (i + 1) ks
      | none => .noField i k cur :: validateIter types cur (i + 1) ks
    | none => .noType cur :: validateIter types cur (i + 1) ks

/-- `validate_expressions` (transformer/subgraph.rs:210-227). -/
def validateExpressions (types : List (Text × TypeDef)) (name : Text) (s : Text) : List VErr :=
  (exprs (parse s)).flatMap (fun e =>
    match e with
    | h :: p :: ps => if h = "value".toList then validateIter types name 0 (p :: ps) else []
    | _ => [])

/-- `KeysExtractor::validate` (transformer/subgraph.rs:252-274). -/
def validate (types : List (Text × TypeDef)) (r : Resolver) (name : Text) : List VErr :=
  match r with
  | .http url _ _ query =>
    query.flatMap (fun kv => validateExpressions types name kv.2) ++ validateExpressions types name url
  | _ => []

/-- `Key { fields }.to_directive()` (transformer/subgraph.rs:59-61, config/directives/federation.rs:35-37). -/
def keyDirective (fields : Text) : Directive := ("key".toList, [("fields".toList, fields)])

/-- `ty.directives.push(directive)` unless it is there (transformer/subgraph.rs:62-67). -/
def pushDirective (d : Directive) (l : List Directive) : List Directive :=
  if l.contains d then l else l ++ [d]

/-- The closure over the types (transformer/subgraph.rs:45-77). -/
def stepType (types : List (Text × TypeDef)) (name : Text) (t : TypeDef) : Option TypeDef :=
  match t.resolvers with
  | [] => some t
  | [r] =>
    if (validate types r name).isEmpty then
      match extractKeys r with
      | none => none
      | some none => some t
      | some (some fields) => some { t with directives := pushDirective (keyDirective fields) t.directives }
    else none
  | _ :: _ :: _ => none

/-- `Valid::from_iter(config.types.iter_mut(), ..)` (transformer/subgraph.rs:45-77). -/
def stepTypes (types : List (Text × TypeDef)) : List (Text × TypeDef) → Option (List (Text × TypeDef))
  | [] => some []
  | (n, t) :: r =>
    match stepType types n t, stepTypes types r with
    | some t', some r' => some ((n, t') :: r')
    | _, _ => none

/-- `resolver_by_type` (transformer/subgraph.rs:43, 54). -/
def byType (types : List (Text × TypeDef)) : List (Text × Resolver) :=
  types.filterMap (fun nt =>
    match nt.2.resolvers with
    | [r] => some (nt.1, r)
    | _ => none)

/-- `SERVICE_TYPE_NAME` (transformer/subgraph.rs:22). -/
def serviceType : Text := "_Service".toList
/-- `SERVICE_FIELD_NAME` (transformer/subgraph.rs:21). -/
def serviceField : Text := "_service".toList
/-- `ENTITIES_FIELD_NAME` (transformer/subgraph.rs:20). -/
def entitiesField : Text := "_entities".toList
/-- `UNION_ENTITIES_NAME` (transformer/subgraph.rs:23). -/
def entityUnion : Text := "_Entity".toList
/-- `ENTITIES_ARG_NAME` (transformer/subgraph.rs:24). -/
def entitiesArg : Text := "representations".toList
/-- `ENTITIES_TYPE_NAME` (transformer/subgraph.rs:25). -/
def anyType : Text := "_Any".toList

/-- `config.types.entry(name).or_default()` and `fields.insert` (transformer/subgraph.rs:103-113, 132, 142-156). -/
def putField (q : Text) (name : Text) (f : Field) (types : List (Text × TypeDef)) : List (Text × TypeDef) :=
  let t := (get q types).getD TypeDef.empty
  insert q { t with fields := insert name f t.fields } types

/-- The type of the answer of `_service` (transformer/subgraph.rs:83-93). -/
def serviceDef : TypeDef := { TypeDef.empty with fields := [("sdl".toList, ⟨.named "String".toList false, [], .other 0⟩)] }

/-- The field `_service` (transformer/subgraph.rs:107-112). -/
def serviceF : Field := ⟨.named serviceType true, [], .service⟩

/-- The field `_entities` (transformer/subgraph.rs:134-155). -/
def entitiesF (by_ : List (Text × Resolver)) : Field :=
  ⟨.list (.named entityUnion false) true, [(entitiesArg, .list (.named anyType true) true)], .entities by_⟩

/-- `Subgraph::transform` (transformer/subgraph.rs:37-160). -/
def transform (c : Config) : Option Config :=
  if c.enabled then
    match stepTypes c.types c.types with
    | none => none
    | some types =>
      let q := c.query.getD "Query".toList
      let t1 := putField q serviceField serviceF (insert serviceType serviceDef types)
      let by_ := byType c.types
      if by_.isEmpty then some { c with query := some q, types := t1 }
      else some { c with
        query := some q
        types := putField q entitiesField (entitiesF by_) (insert anyType TypeDef.empty t1)
        unions := insert entityUnion (by_.map (·.1)) c.unions }
  else some c

/-! ## What a resolver does with a representation -/

/-- The context in which the resolver of an entity is evaluated: the value is the representation
(ir/eval.rs:121-160, path.rs:68-99, ir/eval_context.rs:73-80); all else is `c`. -/
def valueCtx (c : RCtx) (v : GVal) : RCtx :=
  { c with raw := fun p =>
      match p with
      | [] => c.raw []
      | h :: t => if h = "value".toList then (Verif.Ir.getPath v t).map (VS.value true) else c.raw (h :: t) }

/-- A part of what is asked: a text, a query parameter with its value, or a value
(http/request_template.rs:23-33, graphql/request_template.rs:50-59, grpc/request_template.rs:20-28,
serde_value_ext.rs:13-45). -/
inductive Part where
  | text (s : Text)
  | header (k s : Text)
  | arg (k s : Text)
  | query (k : Text) (v : Option VS)
  | val (v : GVal)

mutual
/-- `DynamicValue::try_from` and `render_value` (blueprint/dynamic_value.rs:93-122, serde_value_ext.rs:13-45);
`reparse` is `serde_json::from_str` with the text itself as the way out. -/
def renderVal (reparse : Text → GVal) (c : RCtx) : GVal → GVal
  | .str s => if Verif.Mustache.isConst (parse s) then .str s else reparse (render (parse s) c.str)
  | .list l => .list (renderVals reparse c l)
  | .obj kvs => .obj (renderKvs reparse c kvs)
  | v => v
/-- The items of an array (serde_value_ext.rs:38-41). -/
def renderVals (reparse : Text → GVal) (c : RCtx) : List GVal → List GVal
  | [] => []
  | x :: r => renderVal reparse c x :: renderVals reparse c r
/-- The entries of an object (serde_value_ext.rs:25-37). -/
def renderKvs (reparse : Text → GVal) (c : RCtx) : List (Text × GVal) → List (Text × GVal)
  | [] => []
  | x :: r => renderKv reparse c x :: renderKvs reparse c r
/-- One entry (serde_value_ext.rs:28-33). -/
def renderKv (reparse : Text → GVal) (c : RCtx) : Text × GVal → Text × GVal
  | (k, v) => (k, renderVal reparse c v)
end

mutual
/-- The texts in a JSON value, names of fields included. The body of `@grpc` is rendered as one text
(helpers/body.rs:7-20); what is between the texts has no expressions. -/
def strs : GVal → List Text
  | .str s => [s]
  | .list l => strsList l
  | .obj kvs => strsObj kvs
  | _ => []
/-- The texts of the items (helpers/body.rs:7-20). -/
def strsList : List GVal → List Text
  | [] => []
  | x :: r => strs x ++ strsList r
/-- The texts of the entries (helpers/body.rs:7-20). -/
def strsObj : List (Text × GVal) → List Text
  | [] => []
  | x :: r => strsEntry x ++ strsObj r
/-- The texts of an entry (helpers/body.rs:7-20). -/
def strsEntry : Text × GVal → List Text
  | (k, v) => k :: strs v
end

/-- `PathGraphql for EvalContext` (path.rs:117-127), where `gql` prints a value. -/
def gqlStr (gql : VS → Text) (c : RCtx) : Verif.Mustache.Ctx := fun p =>
  if p.length < 2 then none else (c.raw p).map gql

/-- What a resolver makes of its templates (http/request_template.rs:45-89, 101-175,
graphql/request_template.rs:61-150, grpc/request_template.rs:61-105, ir/eval.rs:39).  Of `@call` the arguments
of the first step only: what later steps see is the answer of the step before. -/
def parts (reparse : Text → GVal) (gql : VS → Text) (c : RCtx) : Resolver → List Part
  | .http url body headers query =>
    .text (render (parse url) c.str) :: (body.toList.map (fun b => .text (render (parse b) c.str))) ++
    headers.map (fun kv => .header kv.1 (render (parse kv.2) c.str)) ++
    query.map (fun kv => .query kv.1 (valueEval c (parse kv.2)))
  | .grpc url method body headers =>
    .text (render (parse url) c.str) :: .text method ::
    (match body with
      | none => []
      | some b => (strs b).map (fun s => .text (render (parse s) c.str))) ++
    headers.map (fun kv => .header kv.1 (render (parse kv.2) c.str))
  | .graphql headers args =>
    headers.map (fun kv => .header kv.1 (render (parse kv.2) (gqlStr gql c))) ++
    (args.getD []).map (fun kv => .arg kv.1 (render (parse kv.2) (gqlStr gql c)))
  | .call [] => []
  | .call (step :: _) => [.val (.obj (renderKvs reparse c step))]
  | .expr body => [.val (renderVal reparse c body)]
  | .other n => [.val (.int n)]

end Verif.Subgraph
