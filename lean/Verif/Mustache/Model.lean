/-!
# Model of Mustache templates (src/core/mustache/{model,parse,eval}.rs)

Strings are lists of characters.  The parser combinators of `nom` are modelled by their
behaviour on complete input: `none` is `Err::Error`.
-/

namespace Verif.Mustache

/-- `String` and `&str` of mustache/model.rs:6-10. -/
abbrev Text := List Char

/-- `Segment` (mustache/model.rs:6-10). -/
inductive Seg where
  | lit (s : Text)
  | expr (parts : List Text)
  deriving DecidableEq, Repr

/-- `Mustache(Vec<Segment>)` (mustache/model.rs:4). -/
abbrev Template := List Seg

/-- `nom::character::complete::multispace0`: space, tab, CR, LF
(external crate `nom`, used at mustache/parse.rs:22). -/
def isSpace (c : Char) : Bool := c == ' ' || c == '\t' || c == '\r' || c == '\n'

/-- `alpha1`: ASCII letters (external crate `nom`, used at mustache/parse.rs:23). -/
def isAlpha (c : Char) : Bool := ('a' ≤ c && c ≤ 'z') || ('A' ≤ c && c ≤ 'Z')

/-- `alt((alphanumeric1, tag("_")))` (mustache/parse.rs:24-27), one character of it. -/
def isWord (c : Char) : Bool := isAlpha c || ('0' ≤ c && c ≤ '9') || c == '_'

/-- `parse_name` (mustache/parse.rs:21-35).  `many0(alt((alphanumeric1, tag("_"))))` consumes
the longest run of word characters. -/
def parseName (i : Text) : Option (Text × Text) :=
  let i1 := i.dropWhile isSpace
  let a := i1.takeWhile isAlpha
  let i2 := i1.dropWhile isAlpha
  if a.isEmpty then none
  else
    let b := i2.takeWhile isWord
    let i3 := i2.dropWhile isWord
    some (a ++ b, i3.dropWhile isSpace)

/-- The loop of `separated_list1(char('.'), parse_name)` after the first element
(mustache/parse.rs:43): stop before the separator when separator or name do not match.
`fuel` bounds the iterations; each one consumes input (see `names_fuel`). -/
def parseNames : Nat → Text → List Text × Text
  | 0, i => ([], i)
  | fuel + 1, i =>
      match i with
      | '.' :: i1 =>
          match parseName i1 with
          | some (n, i2) =>
              let (ns, r) := parseNames fuel i2
              (n :: ns, r)
          | none => ([], i)
      | _ => ([], i)

/-- `opt(char('.'))` (mustache/parse.rs:42). -/
def optDot : Text → Text
  | '.' :: i => i
  | i => i

/-- `parse_expression` (mustache/parse.rs:37-49). -/
def parseExpr : Text → Option (List Text × Text)
  | '{' :: '{' :: i =>
      match parseName (optDot i) with
      | some (n, i1) =>
          match parseNames i1.length i1 with
          | (ns, '}' :: '}' :: r) => some (n :: ns, r)
          | _ => none
      | none => none
  | _ => none

/-- `take_until("{{")` (mustache/parse.rs:54): text before the first `{{`, error if there
is none. -/
def takeUntil : Text → Option (Text × Text)
  | '{' :: '{' :: i => some ([], '{' :: '{' :: i)
  | c :: i => (takeUntil i).map (fun p => (c :: p.1, p.2))
  | [] => none

/-- `many0(alt((parse_expression, take_until)))` (mustache/parse.rs:52-57).  `none`: `many0`
reports an error because the inner parser succeeded without consuming input.
`fuel` bounds the iterations; each one consumes input (see `segs_fuel`). -/
def segs : Nat → Text → Option (Template × Text)
  | 0, _ => none
  | fuel + 1, i =>
      match parseExpr i with
      | some (p, r) => (segs fuel r).map (fun q => (.expr p :: q.1, q.2))
      | none =>
          match takeUntil i with
          | none => some ([], i)
          | some ([], _) => none
          | some (c :: l, r) => (segs fuel r).map (fun q => (.lit (c :: l) :: q.1, q.2))

/-- `parse_segment` (mustache/parse.rs:51-70). -/
def parseSegment (i : Text) : Template :=
  match segs (i.length + 1) i with
  | some (ss, r) => if r.isEmpty then ss else ss ++ [.lit r]
  | none => [.lit i]

/-- The filter of `parse_mustache` (mustache/parse.rs:74-77). -/
def keep : Seg → Bool
  | .lit s => !s.isEmpty && s != ['"']
  | .expr _ => true

/-- `Mustache::parse` (mustache/parse.rs:12-18, 72-79); `parse_mustache` never fails. -/
def parse (i : Text) : Template := (parseSegment i).filter keep

/-- `parts.join(".")` (mustache/model.rs:65). -/
def joinDots : List Text → Text
  | [] => []
  | [p] => p
  | p :: ps => p ++ '.' :: joinDots ps

/-- One segment of `Display for Mustache` (mustache/model.rs:63-66). -/
def printSeg : Seg → Text
  | .lit s => s
  | .expr ps => '{' :: '{' :: '.' :: (joinDots ps ++ ['}', '}'])

/-- `Display for Mustache` (mustache/model.rs:58-72). -/
def print (t : Template) : Text := t.flatMap printSeg

/-- `Mustache::is_const` (mustache/model.rs:19-30). -/
def isConst : Template → Bool
  | [] => true
  | .expr _ :: _ => false
  | .lit _ :: t => isConst t

/-- A context: `PathString::path_string` (path.rs:14-16). -/
abbrev Ctx := List Text → Option Text

/-- `PathStringEval::eval` (mustache/eval.rs:50-62), `Mustache::render` (eval.rs:126). -/
def render (t : Template) (ctx : Ctx) : Text :=
  (t.map (fun s => match s with
    | .lit l => l
    | .expr ps => (ctx ps).getD [])).flatten

/-- `PathStringEval::eval_partial` (mustache/eval.rs:26-43). -/
def renderPartial (t : Template) (ctx : Ctx) : Text :=
  (t.map (fun s => match s with
    | .lit l => l
    | .expr ps => (ctx ps).getD (print [.expr ps]))).flatten

end Verif.Mustache
