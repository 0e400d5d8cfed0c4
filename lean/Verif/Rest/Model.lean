import Verif.HttpUrl.Model
import Verif.Merge.Model

/-!
# Model of REST endpoints and of request routing

Models `src/core/rest/` (path patterns, query parameters, endpoints, endpoint sets) and the routing part of
`src/core/http/request_handler.rs`. Parsing of GraphQL documents, of JSON bodies and of floating point numbers
is done by libraries and enters as parameters.
-/

namespace Verif.Rest
open Verif.Mustache (Text)
open Verif.Merge (get)
open Verif.HttpUrl (GVal QC splitAll pairsOf)

/-- `src/core/rest/typed_variables.rs:6-17` (`UrlParamType`, `N`). -/
inductive ParamTy where
  | string
  | int
  | float
  | boolean
  deriving DecidableEq, Repr

/-- Type of an operation variable (`async_graphql::parser::types::Type`). Simplified: the nullability, which
the code does not look at, and the element type of lists are left out
(used at src/core/rest/type_map.rs:8 and src/core/rest/typed_variables.rs:38-53). -/
inductive VarTy where
  | named (name : Text)
  | list
  deriving DecidableEq, Repr

/-- `src/core/rest/typed_variables.rs:38-53` (`TryFrom<&Type> for UrlParamType`). -/
def paramTy : VarTy → Option ParamTy
  | .named n =>
    if n = "String".toList then some .string
    else if n = "Int".toList then some .int
    else if n = "Boolean".toList then some .boolean
    else if n = "Float".toList then some .float
    else none
  | .list => none

/-- `src/core/rest/typed_variables.rs:54-60` (`TypedVariable`). Simplified: `nullable` is always false. -/
structure TVar where
  ty : ParamTy
  name : Text
  deriving DecidableEq, Repr

/-- `src/core/rest/path.rs:7-11` (`Segment`). -/
inductive Segment where
  | lit (s : Text)
  | param (v : TVar)
  deriving DecidableEq, Repr

/-- `path.split('/').filter(|s| !s.is_empty())`, `src/core/rest/path.rs:38, 55`. -/
def segsOf (s : Text) : List Text := (splitAll (· == '/') s).filter (fun x => !x.isEmpty)

/-- `src/core/rest/type_map.rs:8` (`TypeMap`): types of the variables of the operation. -/
abbrev TypeMap := List (Text × VarTy)

/-- `TypedVariable::try_from`, `src/core/rest/typed_variables.rs:67-70`. -/
def tvar (t : VarTy) (name : Text) : Option TVar := (paramTy t).map (fun p => { ty := p, name := name })

/-- The loop of `src/core/rest/path.rs:38-49` (`Path::parse`). -/
def parseSegs (q : TypeMap) : List Text → Option (List Segment)
  | [] => some []
  | s :: rest =>
    match s with
    | '$' :: key =>
      match get key q with
      | none => none
      | some t =>
        match tvar t key, parseSegs q rest with
        | some v, some r => some (.param v :: r)
        | _, _ => none
    | s => (parseSegs q rest).map (Segment.lit s :: ·)

/-- `src/core/rest/path.rs:34-51` (`Path::parse`). -/
def parsePath (q : TypeMap) (input : Text) : Option (List Segment) := parseSegs q (segsOf input)

/-- Value of a decimal digit (standard library, used at src/core/rest/typed_variables.rs:22). -/
def digitVal (c : Char) : Option Nat := if '0' ≤ c && c ≤ '9' then some (c.toNat - 48) else none

/-- The digit loop of `i64::from_str` (standard library), without the overflow checks
(used at src/core/rest/typed_variables.rs:22). -/
def digitsVal : Text → Nat → Option Nat
  | [], acc => some acc
  | c :: r, acc =>
    match digitVal c with
    | some d => digitsVal r (acc * 10 + d)
    | none => none

/-- Unsigned digits, at least one (standard library, used at src/core/rest/typed_variables.rs:22). -/
def parseDigits : Text → Option Nat
  | [] => none
  | s => digitsVal s 0

/-- The overflow checks of `i64::from_str` (standard library) (used at src/core/rest/typed_variables.rs:22). -/
def inI64 : Option Int → Option Int
  | some n => if -(2 ^ 63 : Int) ≤ n ∧ n ≤ 2 ^ 63 - 1 then some n else none
  | none => none

/-- `value.parse::<i64>()`, `src/core/rest/typed_variables.rs:22` (standard library): optional sign, at least
one digit, in range. -/
def parseI64 (s : Text) : Option Int :=
  inI64 (
    match s with
    | '+' :: r => (parseDigits r).map (fun n => Int.ofNat n)
    | '-' :: r => (parseDigits r).map (fun n => -Int.ofNat n)
    | r => (parseDigits r).map (fun n => Int.ofNat n))

/-- `src/core/rest/typed_variables.rs:19-36` (`N::to_value`, `UrlParamType::to_value`). `pf` is
`value.parse::<f64>()` followed by `ConstValue::from`. -/
def toValue (pf : Text → Option GVal) : ParamTy → Text → Option GVal
  | .string, s => some (.str s)
  | .int, s => (parseI64 s).map .int
  | .float, s => pf s
  | .boolean, s =>
    if s = "true".toList then some (.bool true) else if s = "false".toList then some (.bool false) else none

/-- `async_graphql::Variables`, a map; the newest binding comes first, `get` looks it up
(external crate, used at src/core/rest/endpoint.rs:139-184). -/
abbrev Vars := List (Text × GVal)

/-- The loop of `src/core/rest/path.rs:56-68`: `zip` stops as soon as either side is exhausted and leaves the
rest of the request segments in the iterator. -/
def zipSegs (pf : Text → Option GVal) : List Segment → List Text → Vars → Option (Vars × List Text)
  | [], rs, vars => some (vars, rs)
  | _ :: _, [], vars => some (vars, [])
  | .lit s :: ps, r :: rs, vars => if s ≠ r then none else zipSegs pf ps rs vars
  | .param v :: ps, r :: rs, vars =>
    match toValue pf v.ty r with
    | some x => zipSegs pf ps rs ((v.name, x) :: vars)
    | none => none

/-- `src/core/rest/path.rs:53-76` (`Path::matches`). -/
def pathMatches (pf : Text → Option GVal) (segments : List Segment) (path : Text) : Option Vars :=
  match zipSegs pf segments (segsOf path) [] with
  | some (vars, []) => some vars
  | _ => none

/-- `src/core/rest/query_params.rs:23-33` (`QueryParams::try_from_map`): from parameter name to variable name;
the type is looked up under the name of the parameter. -/
def parseQueryParams (q : TypeMap) : List (Text × Text) → Option (List (Text × TVar))
  | [] => some []
  | (k, v) :: rest =>
    match get k q with
    | none => none
    | some t =>
      match tvar t v, parseQueryParams q rest with
      | some tv, some r => some ((k, tv) :: r)
      | _, _ => none

/-- The value of a key after `serde_urlencoded::from_str` into a map: the last one given
(used at src/core/rest/endpoint.rs:143). -/
def lastOf (k : Text) (pairs : List (Text × Text)) : Option Text := get k pairs.reverse

/-- The loop of `src/core/rest/query_params.rs:37-42`. -/
def queryLoop (pf : Text → Option GVal) (given : List (Text × Text)) : List (Text × TVar) → Vars → Option Vars
  | [], vars => some vars
  | (k, tv) :: rest, vars =>
    match lastOf k given with
    | none => queryLoop pf given rest vars
    | some x =>
      match toValue pf tv.ty x with
      | some v => queryLoop pf given rest ((tv.name, v) :: vars)
      | none => none

/-- `src/core/rest/query_params.rs:35-44` (`QueryParams::matches`). -/
def queryMatches (pf : Text → Option GVal) (params : List (Text × TVar)) (given : List (Text × Text)) :
    Option Vars := queryLoop pf given params []

/-- `src/core/rest/endpoint.rs:172-184` (`merge_variables`): bindings of `b` replace those of `a`. -/
def mergeVars (a b : Vars) : Vars := b ++ a

/-- HTTP methods, by name (src/core/http/method.rs:16-43). -/
abbrev Method := Text

/-- `src/core/rest/endpoint.rs:21-29` (`Endpoint`). Simplified: the document is the name of its operation. -/
structure Endpoint where
  method : Method
  path : List Segment
  query : List (Text × TVar)
  body : Option Text
  op : Text
  deriving DecidableEq, Repr

/-- A client request: method, URI path, URI query
(external crate `http`, used at src/core/rest/endpoint.rs:139-170). -/
structure Req where
  method : Method
  path : Text
  query : Option (List QC)
  deriving DecidableEq, Repr

/-- `src/core/rest/endpoint.rs:139-170` (`Endpoint::matches`). -/
def Endpoint.matches (pf : Text → Option GVal) (e : Endpoint) (r : Req) : Option Vars :=
  let params := (r.query.map pairsOf).getD []
  if e.method ≠ r.method then none
  else
    match pathMatches pf e.path r.path with
    | none => none
    | some path =>
      match queryMatches pf e.query params with
      | none => none
      | some query => some (mergeVars (mergeVars [] path) query)

/-- `src/core/rest/endpoint_set.rs:85-89` (`EndpointSet::matches`). -/
def select (pf : Text → Option GVal) : List Endpoint → Req → Option (Endpoint × Vars)
  | [], _ => none
  | e :: rest, r =>
    match e.matches pf r with
    | some v => some (e, v)
    | none => select pf rest r

/-- `src/core/rest/directive.rs:16-24` (`Rest`), the parsed directive; method and path must be given
(`70-85`). -/
structure RestDir where
  method : Method
  path : Text
  query : List (Text × Text) := []
  body : Option Text := none
  deriving DecidableEq, Repr

/-- An operation of a linked document: its name, the types of its variables, its `@rest` directive
(external crate, used at src/core/rest/endpoint.rs:40-84). -/
structure Op where
  name : Text
  vars : TypeMap
  rest : Option RestDir
  deriving DecidableEq, Repr

/-- One round of the loop in `src/core/rest/endpoint.rs:45-79`. -/
def endpointOf (o : Op) (d : RestDir) : Option Endpoint :=
  match parsePath o.vars d.path, parseQueryParams o.vars d.query with
  | some p, some q => some { method := d.method, path := p, query := q, body := d.body, op := o.name }
  | _, _ => none

/-- `src/core/rest/endpoint.rs:40-84` (`Endpoint::try_new`). The argument is the operations in the order in which
`doc.operations.iter()` (44) yields them; a document with several operations keeps them in a `HashMap`
(`async_graphql_parser::types::DocumentOperations::Multiple`), so this order need not be the textual one. -/
def tryNew : List Op → Option (List Endpoint)
  | [] => some []
  | o :: rest =>
    match o.rest with
    | none => tryNew rest
    | some d =>
      match endpointOf o d, tryNew rest with
      | some e, some es => some (e :: es)
      | _, _ => none

/-- `LinkType::Operation` in `src/core/config/reader.rs:106-111`: each linked document replaces the endpoints
read so far. -/
def readLinks : List (List Op) → List Endpoint → Option (List Endpoint)
  | [], es => some es
  | d :: rest, _ =>
    match tryNew d with
    | some es => readLinks rest es
    | none => none

/-- `src/core/rest/partial_request.rs:19-31` (`into_request`): variables the operation is run with. `body` is the
parsed body of the request, `none` if it is not JSON. -/
def intoRequest (e : Endpoint) (vars : Vars) (body : Option GVal) : Option Vars :=
  match e.body with
  | none => some vars
  | some key => body.map (fun b => (key, b) :: vars)

/-! ## Routing -/

/-- `path.replace("/api", "")`, `src/core/http/request_handler.rs:254`: all occurrences, left to right. -/
def dropApi : Text → Text
  | '/' :: 'a' :: 'p' :: 'i' :: r => dropApi r
  | c :: r => c :: dropApi r
  | [] => []

/-- Path of the URI parsed from the given text (`.parse()?`, `src/core/http/request_handler.rs:254`, crate
`http`): an origin-form path is kept, the empty text is an error, anything else is up to `parseOther`. -/
def reparse (parseOther : Text → Option Text) : Text → Option Text
  | [] => none
  | '/' :: r => some ('/' :: r)
  | s => parseOther s

/-- What happens to a request (src/core/http/request_handler.rs:288-338). -/
inductive Outcome where
  | error
  | notFound
  | rest (e : Endpoint) (vars : Vars)
  | graphql
  | showcase
  | status
  | metrics
  deriving Repr

/-- `src/core/http/request_handler.rs:249-286` (`handle_rest_apis`), up to running the operation. The new URI
has no query (254). -/
def handleRest (pf : Text → Option GVal) (parseOther : Text → Option Text) (es : List Endpoint) (r : Req) :
    Outcome :=
  match reparse parseOther (dropApi r.path) with
  | none => .error
  | some p =>
    match select pf es { method := r.method, path := p, query := none } with
    | some (e, v) => .rest e v
    | none => .notFound

/-- Settings that decide the route: `Routes` (`src/core/config/directives/server.rs:130-135`), `showcase` and the
path of the Prometheus exporter. -/
structure RouteCfg where
  graphql : Text := "/graphql".toList
  status : Text := "/status".toList
  showcase : Bool := false
  prometheus : Option Text := none
  deriving Repr

/-- `src/core/http/request_handler.rs:288-338` (`handle_request_inner`). -/
def route (pf : Text → Option GVal) (parseOther : Text → Option Text) (c : RouteCfg) (es : List Endpoint)
    (r : Req) : Outcome :=
  if "/api".toList.isPrefixOf r.path then handleRest pf parseOther es r
  else if r.method = "POST".toList ∧ r.path = c.graphql then .graphql
  else if r.method = "POST".toList ∧ c.showcase = true ∧ r.path = "/showcase/graphql".toList then .showcase
  else if r.method = "GET".toList ∧ r.path = c.status then .status
  else if r.method = "GET".toList ∧ c.prometheus = some r.path then .metrics
  else .notFound

end Verif.Rest
