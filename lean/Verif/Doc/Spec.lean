import Verif.Sdl.Model
import Verif.Gql.Spec

/-!
# What a schema document says

A reader for type system documents of GraphQL (October 2021, sections 2.1, 2.9, 2.11, 2.12 and 3), written without looking at
the code that prints.  Values, arguments and directives are read as in `Verif.Gql`.  An escaped `\"\"\"` in a block string is
read as its end here.
-/

namespace Verif.Doc

open Verif.Mustache (Text)
open Verif.HttpUrl (joinWith)
open Verif.Gql (Tok SVal SDir isWordChar isIgnored unesc readVal readDirs)
open Verif.Sdl (V GTy Dir InDef FieldDef ValDef Kind TypeDef SchemaDef Def)

/-! ## Block strings -/

/-- The lines of a text (a carriage return is not a line end here). -/
def splitLines : Text → List Text
  | [] => [[]]
  | c :: r =>
    if c = '\n' then [] :: splitLines r
    else
      match splitLines r with
      | [] => [[c]]
      | l :: ls => (c :: l) :: ls

/-- Space and tab. -/
def isBlank (c : Char) : Bool := c == ' ' || c == '\t'

/-- The number of leading blanks. -/
def indent (l : Text) : Nat := (l.takeWhile isBlank).length

/-- The common indent of the lines that are not blank. -/
def commonIndent (ls : List Text) : Nat :=
  match (ls.filter (fun l => !l.all isBlank)).map indent with
  | [] => 0
  | i :: is => is.foldl min i

/-- Without blank lines at the end. -/
def dropEnd (ls : List Text) : List Text := (ls.reverse.dropWhile (·.all isBlank)).reverse

/-- BlockStringValue (section 2.9.4). -/
def blockValue (raw : Text) : Text :=
  match splitLines raw with
  | [] => []
  | l :: ls =>
    let n := commonIndent ls
    joinWith '\n' (dropEnd ((l :: ls.map (·.drop n)).dropWhile (·.all isBlank)))

/-! ## Tokens -/

/-- Punctuators. -/
def isPunct (c : Char) : Bool :=
  c == '{' || c == '}' || c == '(' || c == ')' || c == '[' || c == ']' || c == ':' || c == '@' || c == '!' || c == '=' ||
  c == '|' || c == '&'

/-- Where the reader is: between tokens, in a word, after one or two quotes, in a string, after a backslash in a string,
in a block string, after one or two quotes in a block string. -/
inductive Mode where
  | top
  | word (w : Text)
  | q1
  | q2
  | str (s : Text)
  | esc (s : Text)
  | blk (s : Text)
  | blk1 (s : Text)
  | blk2 (s : Text)

/-- A character between tokens. -/
def stepTop (c : Char) : Option (List Tok × Mode) :=
  if isWordChar c then some ([], .word [c])
  else if c == '"' then some ([], .q1)
  else if isIgnored c then some ([], .top)
  else if isPunct c then some ([.p c], .top)
  else none

/-- A character in a string. -/
def stepStr (s : Text) (c : Char) : Option (List Tok × Mode) :=
  if c == '"' then some ([.str s], .top)
  else if c == '\\' then some ([], .esc s)
  else if c == '\n' || c == '\r' then none
  else some ([], .str (s ++ [c]))

/-- One character: the tokens it ends and the new mode. -/
def step : Mode → Char → Option (List Tok × Mode)
  | .top, c => stepTop c
  | .word w, c =>
    if isWordChar c then some ([], .word (w ++ [c]))
    else (stepTop c).map (fun q => (.word w :: q.1, q.2))
  | .q1, c => if c == '"' then some ([], .q2) else stepStr [] c
  | .q2, c => if c == '"' then some ([], .blk []) else (stepTop c).map (fun q => (.str [] :: q.1, q.2))
  | .str s, c => stepStr s c
  | .esc s, c => (unesc c).map (fun d => ([], .str (s ++ [d])))
  | .blk s, c => if c == '"' then some ([], .blk1 s) else some ([], .blk (s ++ [c]))
  | .blk1 s, c => if c == '"' then some ([], .blk2 s) else some ([], .blk (s ++ ['"', c]))
  | .blk2 s, c => if c == '"' then some ([.str (blockValue s)], .top) else some ([], .blk (s ++ ['"', '"', c]))

/-- The tokens at the end of the text. -/
def atEnd : Mode → Option (List Tok)
  | .top => some []
  | .word w => some [.word w]
  | .q2 => some [.str []]
  | _ => none

/-- The tokens of a text. -/
def lex : Mode → Text → Option (List Tok)
  | m, [] => atEnd m
  | m, c :: r =>
    match step m c with
    | none => none
    | some q => (lex q.2 r).map (q.1 ++ ·)

/-! ## Values -/

/-- An integer in decimal digits. -/
def natOf (t : Text) : Nat := Nat.ofDigitChars 10 t 0

/-- A word as a value: `null`, `true`, `false`, a number or the name of an enum value. -/
def wordVal (t : Text) : V :=
  if t = "null".toList then .null
  else if t = "true".toList then .bool true
  else if t = "false".toList then .bool false
  else
    match t with
    | [] => .enum []
    | c :: r =>
      if c = '-' then (if r.all Char.isDigit then .int (-(natOf r : Int)) else .float t)
      else if c.isDigit then (if r.all Char.isDigit then .int (natOf t) else .float t)
      else .enum t

mutual
/-- The constant; there are no variables in it. -/
def toV : SVal → Option V
  | .var _ => none
  | .word t => some (wordVal t)
  | .str s => some (.str s)
  | .list l => (toVs l).map .arr
  | .obj kvs => (toVKvs kvs).map .obj
/-- The constants of a list. -/
def toVs : List SVal → Option (List V)
  | [] => some []
  | v :: l => (toV v).bind (fun x => (toVs l).map (x :: ·))
/-- The entries of an object. -/
def toVKvs : List (Text × SVal) → Option (List (Text × V))
  | [] => some []
  | kv :: l => (toVKv kv).bind (fun x => (toVKvs l).map (x :: ·))
/-- One entry of an object. -/
def toVKv : Text × SVal → Option (Text × V)
  | (k, v) => (toV v).map (fun x => (k, x))
end

/-- The directives. -/
def toDirs : List SDir → Option (List Dir)
  | [] => some []
  | d :: l => (toVKvs d.2).bind (fun as => (toDirs l).map (⟨d.1, as⟩ :: ·))

/-! ## Definitions -/

/-- What reads something from the beginning of the tokens. -/
abbrev Reader (α : Type) := List Tok → Option (α × List Tok)

/-- A punctuator. -/
def expect (c : Char) : Reader Unit := fun ts => if ts.head? = some (.p c) then some ((), ts.tail) else none

/-- A name. -/
def readName : Reader Text
  | .word n :: r => some (n, r)
  | _ => none

/-- A description, if any. -/
def readDesc : Reader (Option Text)
  | .str s :: r => some (some s, r)
  | ts => some (none, ts)

/-- Whether a type is nullable. -/
def readBang : Reader Bool := fun ts => if ts.head? = some (.p '!') then some (false, ts.tail) else some (true, ts)

/-- A type. -/
def readTy : Nat → Reader GTy
  | 0, _ => none
  | d + 1, ts =>
    match ts with
    | .word n :: r => (readBang r).map (fun q => (.named n q.1, q.2))
    | .p '[' :: r => do
      let (t, r) ← readTy d r
      let (_, r) ← expect ']' r
      let (b, r) ← readBang r
      return (.list t b, r)
    | _ => none

/-- A default value, if any. -/
def readDflt (d : Nat) : Reader (Option V) := fun ts =>
  if ts.head? = some (.p '=') then do
    let (v, r) ← readVal d ts.tail
    let v ← toV v
    return (some v, r)
  else some (none, ts)

/-- Directives, if any. -/
def readDirectives (d : Nat) : Reader (List Dir) := fun ts => do
  let (ds, r) ← readDirs d ts
  let ds ← toDirs ds
  return (ds, r)

/-- Items up to the closing punctuator. -/
def readMany {α : Type} (item : Reader α) (close : Char) : Nat → Reader (List α)
  | 0, _ => none
  | d + 1, ts =>
    if ts.head? = some (.p close) then some ([], ts.tail)
    else do
      let (x, r) ← item ts
      let (l, r) ← readMany item close d r
      return (x :: l, r)

/-- At least one item between punctuators. -/
def readBody {α : Type} (item : Reader α) (o close : Char) (d : Nat) : Reader (List α) := fun ts => do
  let (_, r) ← expect o ts
  let (l, r) ← readMany item close d r
  if l.isEmpty then none else return (l, r)

/-- The definition of an argument or of a field of an input object. -/
def readIn (d : Nat) : Reader InDef := fun ts => do
  let (doc, r) ← readDesc ts
  let (n, r) ← readName r
  let (_, r) ← expect ':' r
  let (ty, r) ← readTy d r
  let (df, r) ← readDflt d r
  let (ds, r) ← readDirectives d r
  return (⟨n, doc, ty, df, ds⟩, r)

/-- The definitions of arguments, if any. -/
def readArgDefs (d : Nat) : Reader (List InDef) := fun ts =>
  if ts.head? = some (.p '(') then readBody (readIn d) '(' ')' d ts else some ([], ts)

/-- The definition of a field. -/
def readField (d : Nat) : Reader FieldDef := fun ts => do
  let (doc, r) ← readDesc ts
  let (n, r) ← readName r
  let (as, r) ← readArgDefs d r
  let (_, r) ← expect ':' r
  let (ty, r) ← readTy d r
  let (ds, r) ← readDirectives d r
  return (⟨n, doc, as, ty, ds⟩, r)

/-- The definition of an enum value. -/
def readEnumVal (d : Nat) : Reader ValDef := fun ts => do
  let (doc, r) ← readDesc ts
  let (n, r) ← readName r
  let (ds, r) ← readDirectives d r
  return (⟨n, doc, ds⟩, r)

/-- Names between separators. -/
def readNames (sep : Char) : Nat → Reader (List Text)
  | 0, _ => none
  | d + 1, ts => do
    let (n, r) ← readName ts
    if r.head? = some (.p sep) then do
      let (l, r) ← readNames sep d r.tail
      return (n :: l, r)
    else return ([n], r)

/-- The interfaces of a type, if any. -/
def readImpl (d : Nat) : Reader (List Text) := fun ts =>
  if ts.head? = some (.word "implements".toList) then readNames '&' d ts.tail else some ([], ts)

/-- A root operation type. -/
def readRoot : Reader (Text × Text) := fun ts => do
  let (op, r) ← readName ts
  let (_, r) ← expect ':' r
  let (n, r) ← readName r
  return ((op, n), r)

/-- The type of an operation. -/
def rootOf (l : List (Text × Text)) (op : Text) : Option Text := (l.find? (fun q => q.1 == op)).map (·.2)

/-- The rest of a schema definition. -/
def readSchema (d : Nat) : Reader Def := fun ts => do
  let (ds, r) ← readDirectives d ts
  let (l, r) ← readBody readRoot '{' '}' d r
  return (.schema ⟨false, ds, rootOf l "query".toList, rootOf l "mutation".toList, rootOf l "subscription".toList⟩, r)

/-- The rest of a scalar. -/
def readScalar (d : Nat) (doc : Option Text) (n : Text) : Reader Def := fun ts => do
  let (ds, r) ← readDirectives d ts
  return (.type ⟨false, doc, n, ds, .scalar⟩, r)

/-- The rest of a union. -/
def readUnion (d : Nat) (doc : Option Text) (n : Text) : Reader Def := fun ts => do
  let (ds, r) ← readDirectives d ts
  let (_, r) ← expect '=' r
  let (ms, r) ← readNames '|' d r
  return (.type ⟨false, doc, n, ds, .union ms⟩, r)

/-- The rest of an input type. -/
def readInput (d : Nat) (doc : Option Text) (n : Text) : Reader Def := fun ts => do
  let (ds, r) ← readDirectives d ts
  let (fs, r) ← readBody (readIn d) '{' '}' d r
  return (.type ⟨false, doc, n, ds, .input fs⟩, r)

/-- The rest of an interface or object type. -/
def readComposite (d : Nat) (mk : List Text → List FieldDef → Kind) (doc : Option Text) (n : Text) : Reader Def := fun ts => do
  let (is, r) ← readImpl d ts
  let (ds, r) ← readDirectives d r
  let (fs, r) ← readBody (readField d) '{' '}' d r
  return (.type ⟨false, doc, n, ds, mk is fs⟩, r)

/-- The rest of an enum. -/
def readEnum (d : Nat) (doc : Option Text) (n : Text) : Reader Def := fun ts => do
  let (ds, r) ← readDirectives d ts
  let (vs, r) ← readBody (readEnumVal d) '{' '}' d r
  return (.type ⟨false, doc, n, ds, .enum vs⟩, r)

/-- A definition. -/
def readDef (d : Nat) : Reader Def := fun ts => do
  let (doc, r) ← readDesc ts
  let (k, r) ← readName r
  if k = "schema".toList then readSchema d r
  else do
    let (n, r) ← readName r
    if k = "scalar".toList then readScalar d doc n r
    else if k = "union".toList then readUnion d doc n r
    else if k = "input".toList then readInput d doc n r
    else if k = "interface".toList then readComposite d .iface doc n r
    else if k = "type".toList then readComposite d .object doc n r
    else if k = "enum".toList then readEnum d doc n r
    else none

/-- Definitions up to the end. -/
def readDefs (d : Nat) : Nat → List Tok → Option (List Def)
  | _, [] => some []
  | 0, _ => none
  | n + 1, ts => do
    let (x, r) ← readDef d ts
    let l ← readDefs d n r
    return x :: l

/-- The document a text holds. -/
def readText (t : Text) : Option (List Def) := do
  let ts ← lex .top t
  readDefs (ts.length + 1) (ts.length + 1) ts

/-- The value is `null`. -/
def nullV : V → Bool
  | .null => true
  | .bool _ => false
  | .int _ => false
  | .float _ => false
  | .str _ => false
  | .enum _ => false
  | .arr _ => false
  | .obj _ => false

/-- The length of a text in UTF-8. -/
def byteLen : Text → Nat
  | [] => 0
  | c :: r => c.utf8Size + byteLen r

/-- The kinds of definitions in the order in which they are printed: the schema, scalars, inputs, interfaces, unions, enums and
objects. -/
def group : Def → Nat
  | .schema _ => 0
  | .directive => 7
  | .type ⟨_, _, _, _, .scalar⟩ => 1
  | .type ⟨_, _, _, _, .input _⟩ => 2
  | .type ⟨_, _, _, _, .iface _ _⟩ => 3
  | .type ⟨_, _, _, _, .union _⟩ => 4
  | .type ⟨_, _, _, _, .enum _⟩ => 5
  | .type ⟨_, _, _, _, .object _ _⟩ => 6

/-- The text says all that the document says: it can be read, and holds the document's definitions, kind by kind, those of a
kind in their order. -/
def SaysAll (t : Text) (ds : List Def) : Prop :=
  ∃ l, readText t = some l ∧ l.Perm ds ∧ l.Pairwise (fun a b => group a ≤ group b) ∧
    ∀ k, l.filter (fun d => group d == k) = ds.filter (fun d => group d == k)

end Verif.Doc
