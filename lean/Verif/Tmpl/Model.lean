import Verif.Ir.Model
import Verif.Exec.Model

/-!
# Model of the checks on the templates of a configuration

Source: src/core/blueprint/mustache.rs (templates of requests against the types of the configuration) and
src/core/blueprint/template_validation/mod.rs (query parameters of `@http` against the arguments).
-/

namespace Verif.Tmpl

open Verif.Mustache (Text Template Seg)
open Verif.HttpUrl (GVal VS)
open Verif.Exec (Ty)
open Verif.Ir (IR Io)

/-- What the checks read of a field (config/config.rs, `Field`; used at blueprint/mustache.rs:24-27).
Whether it has a resolver is not read by the checks; the properties need it. -/
structure TField where
  ty : Ty
  hasResolver : Bool

/-- `InputFieldDefinition` (blueprint/definitions.rs:289-292). -/
structure TArg where
  name : Text
  ty : Ty
  hasDefault : Bool

/-- The parts of the configuration that are read: `find_type`, `find_enum` (config/config.rs:382-392) and
`server.vars` (blueprint/mustache.rs:88). -/
structure Conf where
  types : List (Text × List (Text × TField))
  enums : List Text
  vars : List Text

/-- The names of `Scalar::is_predefined` (scalar.rs:11, 21-76, 109-115). -/
def predefinedNames : List Text :=
  ["Boolean", "Float", "ID", "Int", "String", "Empty", "Email", "PhoneNumber", "Date", "DateTime", "Url", "JSON",
   "Int8", "Int16", "Int32", "Int64", "Int128", "UInt8", "UInt16", "UInt32", "UInt64", "UInt128", "Bytes"].map
    String.toList

/-- `Scalar::is_predefined` (scalar.rs:109-115). -/
def predefined (t : Text) : Bool := predefinedNames.contains t

/-- The errors (blueprint/error.rs) that the checks give. -/
inductive BErr where
  | noValueFound (path : List Text)
  | valueIsNullable (item : Text)
  | valueIsNotScalar (item : Text)
  | noTypeFound (path : List Text)
  | tooFewParts
  | cantUseList (arg : Text)
  | argumentIsNullable (arg : Text)
  | argumentNotFound (arg : Text)
  | varNotSet (name : Text)
  | unknownDirective (head : Text)
  | fieldNotFound (field : Text)
  | typeNotFound (type : Text)
  deriving DecidableEq, Repr

/-- `validate_type` (blueprint/mustache.rs:20-46): `done` are the parts before, `none` is success. -/
def validateType (k : Conf) (isQuery : Bool) (fs : List (Text × TField)) (done : List Text) :
    List Text → Option BErr
  | [] => none
  | item :: rest =>
    match Verif.Merge.get item fs with
    | none => some (.noValueFound (done ++ [item]))
    | some f =>
      if !isQuery && f.ty.isNullable then some (.valueIsNullable item)
      else
        match rest with
        | [] => if predefined f.ty.name then none else some (.valueIsNotScalar item)
        | _ :: _ =>
          match Verif.Merge.get f.ty.name k.types with
          | none => some (.noTypeFound (done ++ item :: rest))
          | some fs' => validateType k isQuery fs' (done ++ [item]) rest

/-- `validate` (blueprint/mustache.rs:48-102). -/
def validate (k : Conf) (fs : List (Text × TField)) (args : List TArg) (isQuery : Bool) : List Text → Option BErr
  | [] => some .tooFewParts
  | [_] => some .tooFewParts
  | head :: tail :: rest =>
    if head = "value".toList then validateType k isQuery fs [] (tail :: rest)
    else if head = "args".toList then
      match args.find? (fun a => a.name == tail) with
      | some a =>
        if !isQuery && a.ty.isList then some (.cantUseList tail)
        else if !isQuery && !a.hasDefault && a.ty.isNullable then some (.argumentIsNullable tail)
        else none
      | none => some (.argumentNotFound tail)
    else if head = "vars".toList then
      if k.vars.contains tail then none else some (.varNotSet tail)
    else if head = "headers".toList || head = "env".toList then none
    else some (.unknownDirective head)

/-- `expression_segments` (mustache/model.rs:40-48). -/
def exprs (t : Template) : List (List Text) :=
  t.filterMap (fun s => match s with
    | .expr ps => some ps
    | .lit _ => none)

/-- The templates of a call (ir/model.rs:45-71): those of HTTP (http/request_template.rs:23-33), GraphQL
(graphql/request_template.rs:50-59) and gRPC (grpc/request_template.rs:20-28). -/
inductive Call where
  | http (root : Template) (query : List (Text × Template)) (headers : List (Text × Template))
      (body : Option Template)
  | graphql (headers : List (Text × Template)) (args : List (Text × Template))
  | grpc (url : Template) (headers : List (Text × Template)) (body : Option Template)
  | js

/-- An error with its trace (`tailcall_valid`, used at blueprint/mustache.rs:111-170). -/
abbrev Errs := List (List Text × BErr)

/-- The errors of some expressions, with their trace (blueprint/mustache.rs:110-112). -/
def checkAll (k : Conf) (fs : List (Text × TField)) (args : List TArg) (isQuery : Bool) (trace : List Text)
    (ts : List Template) : Errs :=
  ((ts.map exprs).flatten).filterMap (fun ps => (validate k fs args isQuery ps).map (fun e => (trace, e)))

/-- `validate_resolver` (blueprint/mustache.rs:109-171) for a call.  `Valid::and` collects, `and_then` stops
(blueprint/mustache.rs:113, 129, 147, 155). -/
def validateCall (k : Conf) (fs : List (Text × TField)) (args : List TArg) : Call → Errs
  | .http root query _ _ =>
    checkAll k fs args false ["@http".toList, "path".toList] [root] ++
    checkAll k fs args true ["@http".toList, "query".toList] (query.map (·.2))
  | .graphql headers as =>
    let e := checkAll k fs args true ["@graphQL".toList, "headers".toList] (headers.map (·.2))
    if e.isEmpty then checkAll k fs args true ["@graphQL".toList, "args".toList] (as.map (·.2)) else e
  | .grpc url headers body =>
    let e := checkAll k fs args false ["@grpc".toList, "path".toList] [url] ++
      checkAll k fs args true ["@grpc".toList, "headers".toList] (headers.map (·.2))
    if e.isEmpty then checkAll k fs args true ["@grpc".toList, "body".toList] body.toList else e
  | .js => []

mutual
/-- `validate_resolver` (blueprint/mustache.rs:104-175), called by `validate_field`
(blueprint/mustache.rs:179-196).  `calls` gives the templates of a call. -/
def validateResolver (k : Conf) (fs : List (Text × TField)) (args : List TArg) (calls : Io → Call) : IR → Errs
  | .merge l => validateResolvers k fs args calls l
  | .io i => validateCall k fs args (calls i)
  | _ => []
/-- `Valid::from_iter` over the merged resolvers (blueprint/mustache.rs:106-108). -/
def validateResolvers (k : Conf) (fs : List (Text × TField)) (args : List TArg) (calls : Io → Call) : List IR → Errs
  | [] => []
  | x :: l => validateResolver k fs args calls x ++ validateResolvers k fs args calls l
end

/-- `path_validator` (template_validation/mod.rs:11-30). -/
def pathValidator (k : Conf) (ty : Text) : List Text → Option BErr
  | [] =>
    match Verif.Merge.get ty k.types with
    | some _ => some (.valueIsNotScalar ty)
    | none => if predefined ty || k.enums.contains ty then none else some (.typeNotFound ty)
  | field :: rest =>
    match Verif.Merge.get ty k.types with
    | some fs =>
      match Verif.Merge.get field fs with
      | some f => pathValidator k f.ty.name rest
      | none => some (.fieldNotFound field)
    | none => if predefined ty || k.enums.contains ty then none else some (.typeNotFound ty)

/-- `str::contains` (standard library, used at template_validation/mod.rs:42). -/
def containsText (s : Text) : Text → Bool
  | [] => s.isEmpty
  | c :: r => s.isPrefixOf (c :: r) || containsText s r

/-- One expression of `validate_argument` (template_validation/mod.rs:41-57). -/
def validateArgExpr (k : Conf) (args : List TArg) (parts : List Text) : Option BErr :=
  match parts with
  | [] => none
  | head :: rest =>
    if containsText "args".toList head then
      match rest with
      | [] => some .tooFewParts
      | arg :: path =>
        match args.find? (fun a => a.name == arg) with
        | some a => pathValidator k a.ty.name path
        | none => some (.argumentNotFound arg)
    else none

/-- `validate_argument` (template_validation/mod.rs:33-59) over the query parameters of `@http`
(operators/http.rs:30-36). -/
def validateQuery (k : Conf) (args : List TArg) (query : List (Text × Template)) : List BErr :=
  (((query.map (·.2)).map exprs).flatten).filterMap (validateArgExpr k args)

end Verif.Tmpl
