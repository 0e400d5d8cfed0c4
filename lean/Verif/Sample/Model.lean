import Verif.HttpUrl.Model
import Verif.Transform.Model

/-!
# Model of the generation of requests from sample URLs

`@http` with its arguments from the URL of a sample (src/core/generator/json/http_directive_generator.rs,
src/core/helpers/gql_type.rs:4-19), and the template it becomes (src/core/http/request_template.rs:213-252).
-/

namespace Verif.Sample

open Verif.Mustache (Text Template isWord)
open Verif.HttpUrl (QC pairsOf splitAll ReqTemplate Query)
open Verif.Transform (insert)

/-! ## Paths -/

/-- A digit, for `\d` in an ASCII text (http_directive_generator.rs:64). -/
def isDigit (c : Char) : Bool := '0' ≤ c && c ≤ '9'

/-- `[0-9a-f]` (http_directive_generator.rs:66). -/
def isHex (c : Char) : Bool := isDigit c || ('a' ≤ c && c ≤ 'f')

/-- `/\b\d+\b` (http_directive_generator.rs:64) after a `/`: what comes after the match.  All digits are taken, since there is no
boundary between two of them; a boundary is there if no word character follows. -/
def intAt (s : Text) : Option Text :=
  if (s.takeWhile isDigit).isEmpty then none
  else
    match s.dropWhile isDigit with
    | [] => some []
    | c :: r => if isWord c then none else some (c :: r)

/-- `[0-9a-f]{n}` (http_directive_generator.rs:66): what comes after. -/
def hexRun : Nat → Text → Option Text
  | 0, r => some r
  | n + 1, c :: r => if isHex c then hexRun n r else none
  | _ + 1, [] => none

/-- `-` and digits in base sixteen (http_directive_generator.rs:66). -/
def dashRun (n : Nat) : Text → Option Text
  | '-' :: r => hexRun n r
  | _ => none

/-- The expression for UUIDs after a `/` (http_directive_generator.rs:65-66). -/
def uuidAt (s : Text) : Option Text :=
  (hexRun 8 s).bind (fun s => (dashRun 4 s).bind (fun s => (dashRun 4 s).bind (fun s => (dashRun 4 s).bind (dashRun 12))))

/-- The name of an argument in a path (http_directive_generator.rs:79, generator/mod.rs:14). -/
def argName (i : Nat) : Text := "GEN__".toList ++ (toString i).toList

/-- The placeholder of an argument (http_directive_generator.rs:80, 120), without the `/`. -/
def placeholder (name : Text) : Text := "{{.args.".toList ++ name ++ "}}".toList

/-- The type of an argument (http_directive_generator.rs:82-85, 108-115). -/
structure ArgTy where
  name : Text
  list : Bool
  required : Bool
  deriving DecidableEq

/-- The arguments of a field (http_directive_generator.rs:87, 126). -/
abbrev Args := List (Text × ArgTy)

/-- `replace_all` (http_directive_generator.rs:77-92) with an expression that starts with `/` and has no other: every part of the path
after a `/` is looked at on its own.  The number is the one of the next argument. -/
def replaceAll (find : Text → Option Text) (ty : Text) : List Text → Nat × Args → List Text × (Nat × Args)
  | [], x => ([], x)
  | s :: r, (i, as) =>
    match find s with
    | some rest =>
      let y := replaceAll find ty r (i + 1, insert as (argName i) ⟨ty, false, true⟩)
      ((placeholder (argName i) ++ rest) :: y.1, y.2)
    | none =>
      let y := replaceAll find ty r (i, as)
      (s :: y.1, y.2)

/-- The parts with a `/` before each of them (helper of `pathOf`, http_directive_generator.rs:72-94). -/
def slashed (l : List Text) : Text := l.flatMap (fun s => '/' :: s)

/-- The path with placeholders (http_directive_generator.rs:72-94): numbers first, then UUIDs.  What comes before the first `/` is
kept. Placeholders have no `/`, so the parts stay the same. -/
def pathOf (path : Text) : Text × Args :=
  match splitAll (· == '/') path with
  | [] => ([], [])
  | a :: l =>
    let x := replaceAll intAt "Int".toList l (1, [])
    let y := replaceAll uuidAt "String".toList x.1 x.2
    (a ++ slashed y.1, y.2.2)

/-! ## Decoding -/

/-- The value of a digit in base sixteen (external crate `urlencoding`, used at http_directive_generator.rs:102). -/
def hexVal (c : Char) : Option Nat :=
  if isDigit c then some (c.toNat - 48)
  else if 'a' ≤ c && c ≤ 'f' then some (c.toNat - 87)
  else if 'A' ≤ c && c ≤ 'F' then some (c.toNat - 55)
  else none

/-- The bytes of an escape (helper of `bytesOf`, http_directive_generator.rs:102). -/
def escape (a b : Char) : Option Nat :=
  match hexVal a, hexVal b with
  | some x, some y => some (16 * x + y)
  | _, _ => none

/-- The bytes of a text after its escapes have been replaced; an escape is left alone if it has no two digits (external crate
`urlencoding`, used at http_directive_generator.rs:102).  The text of a URL is ASCII. -/
def bytesOf : Text → List Nat
  | '%' :: a :: b :: r =>
    match escape a b with
    | some n => n :: bytesOf r
    | none => 37 :: bytesOf (a :: b :: r)
  | c :: r => c.toNat :: bytesOf r
  | [] => []
termination_by t => t.length

/-- A byte that continues a character, with its bits (helper of `utf8`, http_directive_generator.rs:102). -/
def contByte (n : Nat) : Option Nat := if 128 ≤ n ∧ n < 192 then some (n - 128) else none

/-- A character, if it has that many bytes at least (helper of `utf8`, http_directive_generator.rs:102). -/
def charOf (least : Nat) (n : Nat) : Option Char := if h : least ≤ n ∧ n.isValidChar then some (Char.ofNatAux n h.2) else none

/-- `String::from_utf8` (standard library, inside `urlencoding::decode`, used at http_directive_generator.rs:102). -/
def utf8 : List Nat → Option Text
  | [] => some []
  | a :: r =>
    if a < 128 then (charOf 0 a).bind (fun c => (utf8 r).map (c :: ·))
    else if a < 192 then none
    else if a < 224 then
      match r with
      | b :: r => (contByte b).bind (fun b => (charOf 128 ((a - 192) * 64 + b)).bind (fun c => (utf8 r).map (c :: ·)))
      | _ => none
    else if a < 240 then
      match r with
      | b :: c :: r => (contByte b).bind (fun b => (contByte c).bind (fun c =>
          (charOf 2048 ((a - 224) * 4096 + b * 64 + c)).bind (fun c => (utf8 r).map (c :: ·))))
      | _ => none
    else if a < 248 then
      match r with
      | b :: c :: d :: r => (contByte b).bind (fun b => (contByte c).bind (fun c => (contByte d).bind (fun d =>
          (charOf 65536 ((a - 240) * 262144 + b * 4096 + c * 64 + d)).bind (fun c => (utf8 r).map (c :: ·)))))
      | _ => none
    else none

/-- `urlencoding::decode` (external crate, used at http_directive_generator.rs:102); `none` is the panic of `unwrap`. -/
def decode (t : Text) : Option Text := utf8 (bytesOf t)

/-! ## Types -/

/-- The number of a text of digits (standard library, used at gql_type.rs:7). -/
def natOf (t : Text) : Nat := t.foldl (fun n c => 10 * n + (c.toNat - 48)) 0

/-- A text without its sign (standard library, used at gql_type.rs:7, 9): whether it is negative, and the rest. -/
def unsigned : Text → Bool × Text
  | '-' :: r => (true, r)
  | '+' :: r => (false, r)
  | r => (false, r)

/-- A text of digits, one at least (standard library, used at gql_type.rs:7). -/
def allDigits (t : Text) : Bool := !t.isEmpty && t.all isDigit

/-- `parse::<i32>().is_ok()` (standard library, used at gql_type.rs:7). -/
def isI32 (t : Text) : Bool :=
  let x := unsigned t
  allDigits x.2 && decide (natOf x.2 < if x.1 then 2147483649 else 2147483648)

/-- The exponent of a number (helper of `isF64`, gql_type.rs:9). -/
def isExp : Text → Bool
  | [] => true
  | c :: r => (c == 'e' || c == 'E') && allDigits (unsigned r).2

/-- A number without its sign (helper of `isF64`, gql_type.rs:9): digits before or after the point, then an exponent. -/
def isNumber (t : Text) : Bool :=
  let a := t.takeWhile isDigit
  match t.dropWhile isDigit with
  | '.' :: r => (!a.isEmpty || !(r.takeWhile isDigit).isEmpty) && isExp (r.dropWhile isDigit)
  | r => !a.isEmpty && isExp r

/-- `parse::<f64>().is_ok()` (standard library, used at gql_type.rs:9). -/
def isF64 (t : Text) : Bool :=
  let r := (unsigned t).2
  isNumber r || ["inf".toList, "infinity".toList, "nan".toList].contains (r.map Char.toLower)

/-- `trim` (standard library, used at gql_type.rs:5): white space of ASCII. -/
def trim (t : Text) : Text := ((t.dropWhile Char.isWhitespace).reverse.dropWhile Char.isWhitespace).reverse

/-- The type of a value without commas (gql_type.rs:4-19). -/
def detectOne (v : Text) : Text :=
  let t := trim v
  if isI32 t then "Int".toList
  else if isF64 t then "Float".toList
  else if t = "true".toList ∨ t = "false".toList then "Boolean".toList
  else "String".toList

/-- `detect_gql_data_type` (gql_type.rs:4-19): a value with commas has the type of its first part, which has none. -/
def detect (v : Text) : Text :=
  let t := trim v
  if detectOne v = "String".toList ∧ t.contains ',' then detectOne (t.takeWhile (· != ',')) else detectOne v

/-! ## Queries -/

/-- `QueryParamInfo` (http_directive_generator.rs:12-17). -/
structure Info where
  key : Text
  ty : Text
  list : Bool
  deriving DecidableEq

/-- One pair (http_directive_generator.rs:31-48). -/
def addInfo (l : List Info) (kv : Text × Text) : List Info :=
  if l.any (fun q => q.key = kv.1) then l.map (fun q => if q.key = kv.1 then { q with list := true } else q)
  else l ++ [⟨kv.1, detect kv.2, kv.2.contains ','⟩]

/-- `get_query_params` (http_directive_generator.rs:27-52). -/
def infos (pairs : List (Text × Text)) : List Info := pairs.foldl addInfo []

/-! ## The directive -/

/-- The URL of a sample (external crate `url`, used at http_directive_generator.rs:55): what comes before the path, the path, the
query and the fragment. -/
structure Sample where
  front : Text
  path : Text
  query : Option (List QC)
  frag : Option Text
  deriving DecidableEq

/-- The pairs of the query (http_directive_generator.rs:31). -/
def Sample.pairs (s : Sample) : List (Text × Text) := pairsOf (s.query.getD [])

/-- `#` and the fragment (external crate `url`, printed at http_directive_generator.rs:101). -/
def hash : Option Text → Text
  | some f => '#' :: f
  | none => []

/-- `Http` (http_directive_generator.rs:54-57): URL and query, and the arguments of the field. -/
structure Directive where
  url : Text
  query : List (Text × Text)
  args : Args
  deriving DecidableEq

/-- `add_query_variables` (http_directive_generator.rs:107-128). `camel` is `to_case(Case::Camel)` (external crate). -/
def addQuery (camel : Text → Text) : List Info → Args → List (Text × Text) × Args
  | [], as => ([], as)
  | q :: r, as =>
    let x := addQuery camel r (insert as (camel q.key) ⟨q.ty, q.list, false⟩)
    ((q.key, placeholder (camel q.key)) :: x.1, x.2)

/-- `generate_http_directive` (http_directive_generator.rs:63-135); `none` is a panic.  `set_path` writes the braces of placeholders as
escapes, which are decoded with all others (http_directive_generator.rs:96-104); the rest of a path is as the crate writes it
already. -/
def generate (camel : Text → Text) (s : Sample) : Option Directive :=
  let p := pathOf s.path
  (decode (s.front ++ p.1 ++ hash s.frag)).map (fun url =>
    let q := addQuery camel (infos s.pairs) p.2
    ⟨url, q.1, q.2⟩)

/-- The template of the directive (blueprint/operators/http.rs:46-65, http/request_template.rs:213-252). -/
def Directive.template (d : Directive) (method : Text) (body : Option Template) : ReqTemplate :=
  ⟨Verif.Mustache.parse d.url, d.query.map (fun q => ⟨q.1, Verif.Mustache.parse q.2, false⟩), method, [], body, .json, .repeatedKey⟩

end Verif.Sample
