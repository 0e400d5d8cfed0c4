import Verif.Mustache.Model

/-!
# Model of upstream URL construction
(src/core/http/request_template.rs, src/core/http/query_encoder.rs, and the parts of the
external crates `url` and `form_urlencoded` that the code relies on)

A serialized query string is a list of `QC`: a character that is stored as it is (`raw`) or a
character that the `url` crate stored percent-encoded (`enc`).
-/

namespace Verif.HttpUrl
open Verif.Mustache (Text Template Seg)

/-- One character of a serialized query string.  Simplification: `enc c` stands for the whole
`%XX..` sequence of the UTF-8 bytes of `c` (external crate `url`, as used at http/request_template.rs:45-89). -/
inductive QC where
  | raw (c : Char)
  | enc (c : Char)
  deriving DecidableEq, Repr

/-- The query percent-encode set of the `url` crate for http(s) URLs: C0 controls, DEL, non-ASCII,
space, `"`, `#`, `<`, `>`, `'`.  In particular `&`, `=`, `+` and `%` are *not* encoded
(used by `set_query` at http/request_template.rs:86). -/
def inQuerySet (c : Char) : Bool :=
  c.toNat ≤ 32 || c.toNat ≥ 127 || c == '"' || c == '#' || c == '<' || c == '>' || c == '\''

/-- Tab and newlines are removed from any URL input by the `url` crate. -/
def isTabNl (c : Char) : Bool := c == '\t' || c == '\n' || c == '\r'

/-- `Url::set_query(Some(s))` and the query part of `Url::parse`
(used by request_template.rs:46, 85). -/
def encodeQuery (s : Text) : List QC :=
  (s.filter (fun c => !isTabNl c)).map (fun c => if inQuerySet c then .enc c else .raw c)

/-- Split at every element satisfying `p`; the result is never empty
(helper of `pairsOf`, external crate `form_urlencoded`, http/request_template.rs:68). -/
def splitAll {α} (p : α → Bool) : List α → List (List α)
  | [] => [[]]
  | c :: r =>
      if p c then [] :: splitAll p r
      else match splitAll p r with
        | [] => [[c]]
        | h :: t => (c :: h) :: t

/-- Value of a hexadecimal digit
(helper of `formDecode`, external crate `percent-encoding`, http/request_template.rs:68). -/
def hexVal (c : Char) : Option Nat :=
  if '0' ≤ c && c ≤ '9' then some (c.toNat - 48)
  else if 'a' ≤ c && c ≤ 'f' then some (c.toNat - 87)
  else if 'A' ≤ c && c ≤ 'F' then some (c.toNat - 55)
  else none

/-- `form_urlencoded` decoding of a name or value: `+` is a space, `%XX` is a byte.
Simplification: a byte decoded from a raw `%XX` becomes the character with that code (exact for
ASCII) (used through `query_pairs` at http/request_template.rs:68). -/
def formDecode : List QC → Text
  | [] => []
  | .enc c :: r => c :: formDecode r
  | .raw '%' :: .raw a :: .raw b :: r =>
      match hexVal a, hexVal b with
      | some x, some y => Char.ofNat (16 * x + y) :: formDecode r
      | _, _ => '%' :: formDecode (.raw a :: .raw b :: r)
  | .raw c :: r => (if c == '+' then ' ' else c) :: formDecode r

/-- One `name=value` piece of `form_urlencoded::parse`: split at the first `=`
(used through `query_pairs` at http/request_template.rs:68). -/
def parsePair (p : List QC) : Text × Text :=
  (formDecode (p.takeWhile (· != .raw '=')), formDecode (p.dropWhile (· != .raw '=')).tail)

/-- `form_urlencoded::parse`, i.e. `Url::query_pairs` of a present query: pieces between `&`, empty
pieces skipped (used at http/request_template.rs:68). -/
def pairsOf (q : List QC) : List (Text × Text) :=
  ((splitAll (· == .raw '&') q).filter (fun p => !p.isEmpty)).map parsePair

/-- `url::Url`.  Simplification: scheme, authority and path are one opaque text
(used at http/request_template.rs:46). -/
structure Url where
  base : Text
  query : Option (List QC)
  frag : Option Text
  deriving DecidableEq, Repr

/-- `Url::query_pairs` (used at http/request_template.rs:68). -/
def Url.pairs (u : Url) : List (Text × Text) := pairsOf (u.query.getD [])

/-- The text before the first `c` and, if there is a `c`, the text after it
(helper of URL parsing, http/request_template.rs:46). -/
def cutAt (c : Char) (s : Text) : Text × Option Text :=
  match s.dropWhile (· != c) with
  | [] => (s.takeWhile (· != c), none)
  | _ :: r => (s.takeWhile (· != c), some r)

/-- `Url::parse` (used at request_template.rs:46).  The fragment starts at the first `#`, the query at
the first `?` before it.  Simplification: parsing and normalising what comes before (scheme, host,
path) is the parameter `norm`; `none` is a parse error. -/
def parseUrl (norm : Text → Option Text) (s : Text) : Option Url :=
  let (pre, frag) := cutAt '#' s
  let (base, query) := cutAt '?' pre
  (norm base).map (fun b => ⟨b, query.map encodeQuery, frag⟩)

/-- `async_graphql::Value`.  Numbers: integers, and floats by their printed text.  `Binary` is left
out (used throughout, e.g. path.rs:21-65). -/
inductive GVal where
  | null
  | bool (b : Bool)
  | int (n : Int)
  | float (printed : Text)
  | str (s : Text)
  | enum (s : Text)
  | list (l : List GVal)
  | obj (kvs : List (Text × GVal))
  deriving Repr

/-- `n.to_string()` of an integer (used at path.rs:41-56 and http/query_encoder.rs:62-70). -/
def intText (n : Int) : Text := (toString n).toList

/-- `b.to_string()` (used at path.rs:41-56 and http/query_encoder.rs:62-70). -/
def boolText : Bool → Text
  | true => ['t', 'r', 'u', 'e']
  | false => ['f', 'a', 'l', 's', 'e']

/-- `ValueString` (path.rs:62-65). `owned` tells `Cow::Owned` from `Cow::Borrowed`. -/
inductive VS where
  | value (owned : Bool) (v : GVal)
  | string (s : Text)
  deriving Repr

/-- A rendering context: `PathValue::raw_value` (path.rs:21-23), the JSON printer used by
`convert_value` for lists and objects, and `HasHeaders::headers`. -/
structure RCtx where
  raw : List Text → Option VS
  json : GVal → Text
  headers : List (Text × Text)

/-- `convert_value` (path.rs:41-56): an owned enum value gives `None`, a borrowed one its name. -/
def cowText (json : GVal → Text) (owned : Bool) : GVal → Option Text
  | .str s => some s
  | .int n => some (intText n)
  | .float t => some t
  | .bool b => some (boolText b)
  | .obj kvs => some (json (.obj kvs))
  | .list l => some (json (.list l))
  | .enum n => if owned then none else some n
  | .null => none

/-- `PathString for EvalContext` (path.rs:108-115). -/
def RCtx.str (c : RCtx) (p : List Text) : Option Text :=
  match c.raw p with
  | some (.string s) => some s
  | some (.value o v) => cowText c.json o v
  | none => none

/-- `QueryEncoder` (query_encoder.rs:5-12). -/
inductive Encoder where
  | commaSeparated
  | repeatedKey
  deriving DecidableEq, Repr

/-- `convert_value` (query_encoder.rs:62-70). -/
def convert : GVal → Option Text
  | .str s => some s
  | .int n => some (intText n)
  | .float t => some t
  | .bool b => some (boolText b)
  | .enum e => some e
  | _ => none

/-- `items.join(sep)` (standard library, used at http/query_encoder.rs:35, 51). -/
def joinWith (sep : Char) : List Text → Text
  | [] => []
  | [x] => x
  | x :: y :: r => x ++ sep :: joinWith sep (y :: r)

/-- `convert_value(value).map(|val| key=val).unwrap_or(key)` (query_encoder.rs:38-40, 54-56). -/
def encodeScalar (key : Text) (v : GVal) : Text :=
  match convert v with
  | some t => key ++ '=' :: t
  | none => key

mutual
/-- `encode_const_value` for `RepeatedKey` (query_encoder.rs:42-57). -/
def encodeRepeated (key : Text) : GVal → Text
  | .list (x :: xs) => joinWith '&' (encodeRepeated key x :: encodeRepeatedAll key xs)
  | v => encodeScalar key v

/-- The `map` over the list items (query_encoder.rs:44-47). -/
def encodeRepeatedAll (key : Text) : List GVal → List Text
  | [] => []
  | x :: xs => encodeRepeated key x :: encodeRepeatedAll key xs
end

/-- `encode_const_value` for `CommaSeparated` (query_encoder.rs:27-41). -/
def encodeComma (key : Text) : GVal → Text
  | .list (x :: xs) =>
      match (x :: xs).filterMap convert with
      | [] => key
      | ts => key ++ '=' :: joinWith ',' ts
  | v => encodeScalar key v

/-- `encode_const_value` (query_encoder.rs:25-59). -/
def encodeConst (e : Encoder) (key : Text) (v : GVal) : Text :=
  match e with
  | .commaSeparated => encodeComma key v
  | .repeatedKey => encodeRepeated key v

/-- `QueryEncoder::encode` (query_encoder.rs:15-24). -/
def encode (e : Encoder) (key : Text) : Option VS → Text
  | some (.value _ v) => encodeConst e key v
  | some (.string s) => key ++ '=' :: s
  | none => key

/-- `Query` (request_template.rs:35-40). -/
structure Query where
  key : Text
  value : Template
  skipEmpty : Bool
  deriving DecidableEq, Repr

/-- `ValueStringEval::eval` (request_template.rs:291-306): the first segment that yields a value. -/
def valueEval (ctx : RCtx) (t : Template) : Option VS :=
  (t.filterMap (fun s => match s with
    | .lit l => some (.value true (.str l))
    | .expr ps => ctx.raw ps)).head?

/-- `encoding` of the request body (config/encoding.rs). -/
inductive BodyEnc where
  | json
  | form
  deriving DecidableEq, Repr

/-- `RequestTemplate` (request_template.rs:23-33) without the `endpoint` (only used for response
validation).  `method` is the method's name. -/
structure ReqTemplate where
  root : Template
  query : List Query
  method : Text
  headers : List (Text × Template)
  body : Option Template
  encoding : BodyEnc
  encoder : Encoder

/-- `extra_qp` (request_template.rs:55-65). -/
def extraItems (e : Encoder) (ctx : RCtx) (qs : List Query) : List Text :=
  qs.filterMap (fun q =>
    match q.skipEmpty, valueEval ctx q.value with
    | true, none => none
    | _, v => some (encode e q.key v))

/-- `base_qp` (request_template.rs:67-71): decoded pairs, those with an empty value dropped, printed as
`k=v` without encoding. -/
def baseItems (u : Url) : List Text :=
  (u.pairs.filter (fun kv => !kv.2.isEmpty)).map (fun kv => kv.1 ++ '=' :: kv.2)

/-- The fold at request_template.rs:72-80. -/
def joinItems (items : List Text) : Text :=
  items.foldl (fun str item =>
    if str.isEmpty then item else if item.isEmpty then str else str ++ '&' :: item) []

/-- `create_url` (request_template.rs:45-89); `none` is an error of `Url::parse`. -/
def createUrl (norm : Text → Option Text) (t : ReqTemplate) (ctx : RCtx) : Option Url :=
  match parseUrl norm (Verif.Mustache.render t.root ctx.str) with
  | none => none
  | some url =>
      if t.query.isEmpty && Verif.Mustache.isConst t.root then some url
      else
        let qp := joinItems (baseItems url ++ extraItems t.encoder ctx t.query)
        if qp.isEmpty then some { url with query := none }
        else some { url with query := some (encodeQuery qp) }

end Verif.HttpUrl
