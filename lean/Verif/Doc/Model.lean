import Verif.Sdl.Model
import Verif.Gql.Model
import Verif.HttpKey.Model

/-!
# Model of the text of a schema document

Source: src/core/document.rs.  Documents are those of `Verif.Sdl` (types of the external parser).  The definitions of
directives, which neither `config/into_document.rs` nor `blueprint/into_document.rs` produces, are not printed here.
-/

namespace Verif.Doc

open Verif.Mustache (Text)
open Verif.HttpUrl (joinWith)
open Verif.HttpKey (joinComma)
open Verif.Input (QVal)
open Verif.Sdl (V GTy Dir InDef FieldDef ValDef Kind TypeDef SchemaDef Def)

/-! ## Values, types and directives -/

mutual
/-- A constant as a value: `Display for ConstValue` (external crate, used at document.rs:298 and document.rs:441)
writes it as `Display for Value` does. -/
def toQ : V → QVal
  | .null => .null
  | .bool b => .bool b
  | .int i => .int i
  | .float t => .float t
  | .str s => .str s
  | .enum s => .enum s
  | .arr l => .list (toQs l)
  | .obj kvs => .obj (toQKvs kvs)
/-- The items of `toQ` (external crate, used at document.rs:441). -/
def toQs : List V → List QVal
  | [] => []
  | v :: l => toQ v :: toQs l
/-- The entries of `toQ` (external crate, used at document.rs:441). -/
def toQKvs : List (Text × V) → List (Text × QVal)
  | [] => []
  | kv :: l => toQKv kv :: toQKvs l
/-- One entry of `toQ` (external crate, used at document.rs:441). -/
def toQKv : Text × V → Text × QVal
  | (k, v) => (k, toQ v)
end

/-- `Display for ConstValue` (external crate, used at document.rs:298 and document.rs:441). -/
def showV (v : V) : Text := Verif.Gql.showQ (toQ v)

/-- `Display for Type` of the parser (external crate, used at document.rs:290 and document.rs:309). -/
def tyText : GTy → Text
  | .named n nullable => n ++ (if nullable then [] else ['!'])
  | .list t nullable => '[' :: (tyText t ++ (']' :: (if nullable then [] else ['!'])))

/-- `v.node != ConstValue::Null` (document.rs:438). -/
def isNull : V → Bool
  | .null => true
  | _ => false

/-- The arguments of a directive (document.rs:434-447, 320-325): those that are `null` are left out. -/
def dirArgs (as : List (Text × V)) : List Text :=
  as.filterMap (fun kv => if isNull kv.2 then none else some (kv.1 ++ ':' :: ' ' :: showV kv.2))

/-- `print_directive` (document.rs:315-332). -/
def dirText (d : Dir) : Text :=
  let t := joinComma (dirArgs d.args)
  if t.isEmpty then '@' :: d.name else '@' :: (d.name ++ '(' :: (t ++ [')']))

/-- `print_pos_directives` (document.rs:93-101). -/
def posDirs (ds : List Dir) : Text :=
  let t := joinWith ' ' (ds.map dirText)
  if t.isEmpty then [] else t ++ [' ']

/-! ## Descriptions -/

/-- Number of bytes of a text (`str::len`, used at document.rs:38 and document.rs:28). -/
def bytes (t : Text) : Nat := (t.map Char.utf8Size).sum

/-- `char::is_whitespace` (standard library, used at document.rs:50): the characters of Unicode with the property
White_Space. -/
def white (c : Char) : Bool :=
  (9 ≤ c.toNat && c.toNat ≤ 13) || c.toNat == 0x20 || c.toNat == 0x85 || c.toNat == 0xA0 || c.toNat == 0x1680 ||
  (0x2000 ≤ c.toNat && c.toNat ≤ 0x200A) || c.toNat == 0x2028 || c.toNat == 0x2029 || c.toNat == 0x202F ||
  c.toNat == 0x205F || c.toNat == 0x3000

/-- The first loop of `LineBreaker::next` (document.rs:37-47): graphemes that fit into the line, and the rest. -/
def takeFit (brk : Nat) : Nat → List Text → List Text × List Text
  | _, [] => ([], [])
  | cur, g :: r =>
    if cur + bytes g > brk then ([], g :: r)
    else
      let q := takeFit brk (cur + bytes g) r
      (g :: q.1, q.2)

/-- The second loop of `LineBreaker::next` (document.rs:49-55): graphemes up to the next white space. -/
def takeWord : List Text → List Text
  | [] => []
  | g :: r => if g.any white then [g] else g :: takeWord r

/-- One line of `LineBreaker::next` (document.rs:27-61); `seg` is the segmentation into graphemes (external crate
`unicode-segmentation`, used at document.rs:32). -/
def nextLine (seg : Text → List Text) (brk : Nat) (t : Text) : Text :=
  let q := takeFit brk 0 (seg t)
  q.1.flatten ++ (takeWord q.2).flatten

/-- All lines of a `LineBreaker` (document.rs:24-62); the depth is at least the length of the text. -/
def breakLines (seg : Text → List Text) (brk : Nat) : Nat → Text → List Text
  | 0, _ => []
  | n + 1, t =>
    if t.isEmpty then []
    else
      let l := nextLine seg brk t
      l :: breakLines seg brk n (t.drop l.length)

/-- Spaces (`" ".repeat(indent)`, document.rs:65-68). -/
def spaces (n : Nat) : Text := List.replicate n ' '

/-- `"""` (document.rs:73). -/
def quotes : Text := ['"', '"', '"']

/-- A description with its lines (document.rs:73-77). -/
def block (ind : Nat) (lines : List Text) : Text :=
  spaces ind ++ (quotes ++ (lines.flatMap (fun l => '\n' :: (spaces ind ++ l)) ++ ('\n' :: (spaces ind ++ (quotes ++ ['\n'])))))

/-- `get_formatted_docs` (document.rs:64-81). -/
def fmtDocs (seg : Text → List Text) (ind : Nat) : Option Text → Text
  | none => []
  | some d =>
    let d := d.filter (fun c => c != '\n')
    block ind (breakLines seg 80 d.length d)

/-- The descriptions of objects, fields and enum values (document.rs:204-206, 234-236, 252-257, 285-287), which are written as they
are. -/
def rawDocs (ind : Nat) : Option Text → Text
  | none => []
  | some d => block ind [d]

/-! ## Definitions -/

/-- A line of `print_schema` (document.rs:106-117). -/
def rootText (op : Text) : Option Text → Text
  | none => []
  | some n => ' ' :: ' ' :: (op ++ ':' :: ' ' :: (n ++ ['\n']))

/-- `print_schema` (document.rs:103-125). -/
def schemaText (s : SchemaDef) : Text :=
  let q := rootText "query".toList s.query
  let m := rootText "mutation".toList s.mutation
  let u := rootText "subscription".toList s.subscription
  if m.isEmpty && q.isEmpty then []
  else "schema".toList ++ ' ' :: (posDirs s.dirs ++ '{' :: '\n' :: (q ++ (m ++ (u ++ ['}', '\n']))))

/-- `print_default_value` (document.rs:295-300). -/
def dfltText : Option V → Text
  | none => []
  | some v => ' ' :: '=' :: ' ' :: showV v

/-- An argument in `print_field` (document.rs:269-278). -/
def argText (a : InDef) : Text := a.name ++ ':' :: ' ' :: (tyText a.ty ++ dfltText a.dflt)

/-- The arguments in `print_field` (document.rs:265-284). -/
def argsText (as : List InDef) : Text :=
  if as.isEmpty then [] else '(' :: (joinComma (as.map argText) ++ [')'])

/-- `str::trim_end` (standard library, used at document.rs:292 and document.rs:417). -/
def trimEnd (p : Char → Bool) (t : Text) : Text := (t.reverse.dropWhile p).reverse

/-- `print_field` (document.rs:263-293). -/
def fieldText (f : FieldDef) : Text :=
  rawDocs 2 f.doc ++
    trimEnd white (' ' :: ' ' :: (f.name ++ (argsText f.args ++ ':' :: ' ' :: (tyText f.ty ++ ' ' :: posDirs f.dirs))))

/-- `print_input_value` (document.rs:302-313). -/
def inText (seg : Text → List Text) (f : InDef) : Text :=
  fmtDocs seg 2 f.doc ++ ' ' :: ' ' :: (f.name ++ ':' :: ' ' :: (tyText f.ty ++ (posDirs f.dirs ++ dfltText f.dflt)))

/-- `print_enum_value` (document.rs:244-261). -/
def valText (v : ValDef) : Text :=
  let ds := posDirs v.dirs
  rawDocs 2 v.doc ++ ' ' :: ' ' :: (v.name ++ (if ds.isEmpty then [] else ' ' :: ds))

/-- Names between separators: `join(" & ")` and `join(" | ")` (document.rs:144, 172, 198). -/
def joinSep (sep : Char) : List Text → Text
  | [] => []
  | [x] => x
  | x :: y :: r => x ++ ' ' :: sep :: ' ' :: joinSep sep (y :: r)

/-- The `implements` of interfaces and objects (document.rs:164-176, 190-202). -/
def implText (l : List Text) : Text :=
  if l.isEmpty then [] else "implements".toList ++ ' ' :: (joinSep '&' l ++ [' '])

/-- The body of a definition, with its braces (document.rs:151, 178, 208, 224). -/
def bodyText (items : List Text) : Text := '{' :: '\n' :: (joinWith '\n' items ++ ['\n', '}', '\n'])

/-- `print_type_def` (document.rs:127-242).  What a kind does not print (the directives of scalars and interfaces, the
descriptions of unions and interfaces, `extend`) is left out as there. -/
def typeText (seg : Text → List Text) (t : TypeDef) : Text :=
  match t.kind with
  | .scalar => fmtDocs seg 0 t.doc ++ ("scalar".toList ++ ' ' :: (t.name ++ ['\n']))
  | .union ms => "union".toList ++ ' ' :: (t.name ++ (posDirs t.dirs ++ ' ' :: '=' :: ' ' :: (joinSep '|' ms ++ ['\n'])))
  | .input fs =>
    fmtDocs seg 0 t.doc ++ ("input".toList ++ ' ' :: (t.name ++ ' ' :: (posDirs t.dirs ++ bodyText (fs.map (inText seg)))))
  | .iface is fs => "interface".toList ++ ' ' :: (t.name ++ ' ' :: (implText is ++ bodyText (fs.map fieldText)))
  | .object is fs =>
    rawDocs 2 t.doc ++
      ("type".toList ++ ' ' :: (t.name ++ ' ' :: (implText is ++ (posDirs t.dirs ++ bodyText (fs.map fieldText)))))
  | .enum vs =>
    rawDocs 0 t.doc ++ ("enum".toList ++ ' ' :: (t.name ++ ' ' :: (posDirs t.dirs ++ bodyText (vs.map valText))))

/-- The place of a definition in the text (document.rs:404-412). -/
def rank : Def → Nat
  | .schema _ => 0
  | .directive => 1
  | .type t =>
    match t.kind with
    | .scalar => 2
    | .input _ => 3
    | .iface _ _ => 4
    | .union _ => 5
    | .enum _ => 6
    | .object _ _ => 7

/-- One definition (document.rs:387-400). -/
def defText (seg : Text → List Text) : Def → Text
  | .schema s => schemaText s
  | .type t => typeText seg t
  | .directive => []

/-- The definitions in the order of the text (document.rs:377-412); definitions of directives are left out. -/
def inOrder (ds : List Def) : List Def :=
  [0, 2, 3, 4, 5, 6, 7].flatMap (fun k => ds.filter (fun d => rank d == k))

/-- `print` (document.rs:374-418). -/
def print (seg : Text → List Text) (ds : List Def) : Text :=
  trimEnd (· == '\n') (joinWith '\n' ((inOrder ds).map (defText seg)))

end Verif.Doc
