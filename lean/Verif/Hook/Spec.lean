import Verif.Hook.Model

/-!
# Specification: the same request, and what scripts answer
-/

namespace Verif.Hook

open Verif.Mustache (Text)
open Verif.HttpUrl (QC encodeQuery isTabNl)

/-- All values of a header. -/
def values (h : List (Text × Text)) (n : Text) : List Text := (h.filter (fun x => x.1 = n)).map (·.2)

/-- Two requests that an upstream cannot tell apart, up to the order of headers of different names. -/
structure Same (r r' : Req) : Prop where
  method : r'.method = r.method
  url : r'.url = r.url
  body : r'.body = r.body
  headers : ∀ n, values r'.headers n = values r.headers n

/-- Pairs written as a query. -/
def written (pairs : List (Text × Text)) : Text := List.intercalate ['&'] (pairs.map (fun x => x.1 ++ ['='] ++ x.2))

/-- A query without repeated names, with the names in order, and with nothing that means something else after decoding. -/
inductive PlainQuery : Option (List QC) → Prop
  | none : PlainQuery none
  | some {pairs : List (Text × Text)} : pairs ≠ [] → pairs.Pairwise (fun a b => ltText a.1 b.1 = true) →
      (∀ x ∈ pairs, '=' ∉ x.1 ∧ ∀ c ∈ x.1 ++ x.2, c ≠ '%' ∧ c ≠ '+' ∧ c ≠ '&' ∧ c ≠ '#' ∧ isTabNl c = false) →
      PlainQuery (some (encodeQuery (written pairs)))

/-- A URL as the crate writes it, without credentials and fragment, with a plain query. -/
structure PlainUrl (U : Urls) (u : Url) : Prop where
  scheme : u.scheme = "http".toList ∨ u.scheme = "https".toList
  user : u.user = none
  frag : u.frag = none
  host : ∃ h, u.host = some h ∧ U.norm (u.scheme = "https".toList) h u.port u.path = some (some h, u.port, u.path)
  path : '?' ∉ u.path ∧ '#' ∉ u.path
  port : ∀ p, u.port = some p → p < 65536
  query : PlainQuery u.query

/-- Headers without repeated names, with names as the crate has them, and visible values. -/
structure PlainHeaders (h : List (Text × Text)) : Prop where
  distinct : (h.map (·.1)).Nodup
  names : ∀ x ∈ h, x.1 ≠ [] ∧ (∀ c ∈ x.1, tokenChar c = true) ∧ x.1.map Char.toLower = x.1
  values : ∀ x ∈ h, visible x.2 = true

/-- A request that survives the way to JavaScript and back. -/
structure PlainReq (U : Urls) (r : Req) : Prop where
  method : r.method ≠ [] ∧ ∀ c ∈ r.method, tokenChar c = true
  url : PlainUrl U r.url
  headers : PlainHeaders r.headers
  body : r.body = none ∨ ∃ t, r.body = some (.text t)

/-- The script has been evaluated in a worker, or its evaluation gives this state. -/
def Ready {W : Type} (E : Engine W) (cell : Option W) (w : W) : Prop := cell = some w ∨ (cell = none ∧ E.start = some w)

/-- A function of the script, called in a state, gives a state and a result. -/
def Calls {W : Type} (E : Engine W) (w : W) (name : Text) (arg : Js) (w' : W) (out : Option Js) : Prop :=
  ∃ f, E.fn w name = some f ∧ f arg = (w', out)

/-- The argument that a request hook is given. -/
def Given (r : Req) (arg : Js) : Prop := ∃ a, reqToJs r = .ok a ∧ arg = .obj [("request".toList, a)]

/-- A response in JavaScript. -/
structure IsResponse (v : Js) (status : Nat) (body : Text) : Prop where
  shape : ∃ o, v = .obj o ∧ prop o "status".toList = .num status ∧ (prop o "headers".toList = .obj []) ∧ prop o "body".toList = .str body
  range : 100 ≤ status ∧ status < 1000

/-- A response in JavaScript with a location. -/
structure IsRedirect (v : Js) (status : Nat) (location : Text) : Prop where
  shape : ∃ o b, v = .obj o ∧ prop o "status".toList = .num status ∧ prop o "headers".toList = .obj [("location".toList, .str location)] ∧
    prop o "body".toList = .str b
  status : status = 301 ∨ status = 302
  location : visible location = true

/-- What a response hook makes of a body, with the cell of its worker before and after. -/
inductive Processed {W V : Type} (E : Engine W) (J : Json V) : Option Text → Option W → V → Option W → Except Err V → Prop
  | none {c v} : Processed E J none c v c (.ok v)
  | value {name c v w w' t v'} : Ready E c w → Calls E w name (.str (J.print v)) w' (some (.str t)) → J.parse t = some v' →
      Processed E J (some name) c v (some w') (.ok v')
  | json {name c v w w' t} : Ready E c w → Calls E w name (.str (J.print v)) w' (some (.str t)) → J.parse t = none →
      Processed E J (some name) c v (some w') (.error .json)
  | noString {name c v w w' r} : Ready E c w → Calls E w name (.str (J.print v)) w' r → (∀ t, r ≠ some (.str t)) →
      Processed E J (some name) c v (some w') (.error .noString)
  | missing {name c v w} : Ready E c w → E.fn w name = Option.none → Processed E J (some name) c v (some w) (.error (.missing name))
  | start {name v} : E.start = Option.none → Processed E J (some name) Option.none v Option.none (.error .start)

/-- What becomes of an answer: errors are passed on, the response hook is run once on the body otherwise. -/
inductive Final {W V : Type} (X : Env W V) (h : Hooks) (s : St W) : Except Err V → St W → Except Err V → Prop
  | error {e} : Final X h s (.error e) s (.error e)
  | ok {v c out} : Processed X.engine X.json h.onResponse s.res v c out → Final X h s (.ok v) { s with res := c } out

/-- A function that cannot be asked: why, with the cell of its worker afterwards. -/
inductive Refuses {W : Type} (E : Engine W) (name : Text) (r : Req) (c : Option W) : Option W → Prop
  | start : c = none → E.start = none → Refuses E name r c none
  | missing {w} : Ready E c w → E.fn w name = none → Refuses E name r c (some w)
  | header {w} : Ready E c w → (∃ x ∈ r.headers, visible x.2 = false) → Refuses E name r c (some w)
  | answer {w w' arg v} : Ready E c w → Given r arg → Calls E w name arg w' (some v) →
      (∀ o, v = .obj o → prop o "request".toList = .undef ∧ prop o "response".toList = .undef) → Refuses E name r c (some w')

end Verif.Hook
