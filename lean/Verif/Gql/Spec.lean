import Verif.Gql.Model
import Verif.HttpKey.Props

/-!
# What a GraphQL document says, and what the client wants from an upstream

A reader for the part of the GraphQL grammar that is needed here (October 2021, sections 2.1 and 2.4 -
2.12): tokens, values, arguments, directives, fields and inline fragments.  It is written without
looking at the code that prints.
-/

namespace Verif.Gql

open Verif.Mustache (Text)
open Verif.HttpUrl (intText boolText)
open Verif.Input (QVal)
open Verif.Ir (IR Io)

/-! ## Tokens -/

/-- Tokens: names, numbers and `...` are words. -/
inductive Tok where
  | word (t : Text)
  | str (t : Text)
  | p (c : Char)
  deriving DecidableEq, Repr

/-- Characters of words. -/
def isWordChar (c : Char) : Bool :=
  ('a' ≤ c && c ≤ 'z') || ('A' ≤ c && c ≤ 'Z') || c.isDigit || c == '_' || c == '-' || c == '+' || c == '.'

/-- Punctuators. -/
def isPunct (c : Char) : Bool :=
  c == '{' || c == '}' || c == '(' || c == ')' || c == '[' || c == ']' || c == ':' || c == '@' || c == '$'

/-- Ignored characters: white space, line ends and commas. -/
def isIgnored (c : Char) : Bool := c == ' ' || c == '\t' || c == '\n' || c == '\r' || c == ','

/-- Where the reader is: between tokens, in a word, in a string, after a backslash in a string. -/
inductive Mode where
  | top
  | word (w : Text)
  | str (s : Text)
  | esc (s : Text)

/-- The character after a backslash (`\u` is not read). -/
def unesc (c : Char) : Option Char :=
  if c == '"' || c == '\\' || c == '/' then some c
  else if c == 'n' then some '\n'
  else if c == 'r' then some '\r'
  else if c == 't' then some '\t'
  else none

/-- A character between tokens. -/
def stepTop (c : Char) : Option (List Tok × Mode) :=
  if isWordChar c then some ([], .word [c])
  else if c == '"' then some ([], .str [])
  else if isIgnored c then some ([], .top)
  else if isPunct c then some ([.p c], .top)
  else none

/-- One character: the tokens it ends and the new mode. -/
def step : Mode → Char → Option (List Tok × Mode)
  | .top, c => stepTop c
  | .word w, c =>
    if isWordChar c then some ([], .word (w ++ [c]))
    else (stepTop c).map (fun q => (.word w :: q.1, q.2))
  | .str s, c =>
    if c == '"' then some ([.str s], .top)
    else if c == '\\' then some ([], .esc s)
    else if c == '\n' || c == '\r' then none
    else some ([], .str (s ++ [c]))
  | .esc s, c => (unesc c).map (fun d => ([], .str (s ++ [d])))

/-- The tokens of a text. -/
def lex : Mode → Text → Option (List Tok)
  | .top, [] => some []
  | .word w, [] => some [.word w]
  | .str _, [] => none
  | .esc _, [] => none
  | m, c :: r =>
    match step m c with
    | none => none
    | some q => (lex q.2 r).map (q.1 ++ ·)

/-! ## Values, arguments, directives, selections -/

/-- Values: `word` is a number, a name, `true`, `false` or `null`. -/
inductive SVal where
  | var (n : Text)
  | word (t : Text)
  | str (s : Text)
  | list (l : List SVal)
  | obj (kvs : List (Text × SVal))

mutual
/-- Reading a value; `none`: there is none (or the depth is exhausted). -/
def readVal : Nat → List Tok → Option (SVal × List Tok)
  | 0, _ => none
  | d + 1, ts =>
    match ts with
    | .p '$' :: .word n :: r => some (.var n, r)
    | .word t :: r => some (.word t, r)
    | .str s :: r => some (.str s, r)
    | .p '[' :: r => (readVals d r).map (fun q => (.list q.1, q.2))
    | .p '{' :: r => (readKvs d '}' r).map (fun q => (.obj q.1, q.2))
    | _ => none
/-- The rest of a list of values. -/
def readVals : Nat → List Tok → Option (List SVal × List Tok)
  | 0, _ => none
  | d + 1, ts =>
    if ts.head? = some (.p ']') then some ([], ts.tail)
    else
      match readVal d ts with
      | none => none
      | some (v, r) => (readVals d r).map (fun q => (v :: q.1, q.2))
/-- The rest of a list of `name: value` up to the closing token. -/
def readKvs : Nat → Char → List Tok → Option (List (Text × SVal) × List Tok)
  | 0, _, _ => none
  | d + 1, close, ts =>
    if ts.head? = some (.p close) then some ([], ts.tail)
    else
      match ts with
      | .word k :: .p ':' :: r =>
        match readVal d r with
        | none => none
        | some (v, r) => (readKvs d close r).map (fun q => ((k, v) :: q.1, q.2))
      | _ => none
end

/-- Arguments, if any. -/
def readArgs (d : Nat) (ts : List Tok) : Option (List (Text × SVal) × List Tok) :=
  if ts.head? = some (.p '(') then readKvs d ')' ts.tail else some ([], ts)

/-- A directive: name and arguments. -/
abbrev SDir := Text × List (Text × SVal)

/-- Directives, if any. -/
def readDirs : Nat → List Tok → Option (List SDir × List Tok)
  | 0, _ => none
  | d + 1, ts =>
    match ts with
    | .p '@' :: .word n :: r =>
      match readArgs d r with
      | none => none
      | some (as, r) => (readDirs d r).map (fun q => ((n, as) :: q.1, q.2))
    | _ => some ([], ts)

/-- A selection: a field or an inline fragment. -/
inductive Sel where
  | field (name : Text) (args : List (Text × SVal)) (dirs : List SDir) (sub : List Sel)
  | frag (ty : Text) (sub : List Sel)

/-- `...` -/
def dots : Text := ['.', '.', '.']

/-- Reading selections up to the closing brace. -/
def readSels : Nat → List Tok → Option (List Sel × List Tok)
  | 0, _ => none
  | d + 1, ts =>
    match ts with
    | .p '}' :: r => some ([], r)
    | .word n :: r =>
      if n = dots then
        match r with
        | .word o :: .word t :: .p '{' :: r =>
          if o = ['o', 'n'] then
            match readSels d r with
            | none => none
            | some (sub, r) => (readSels d r).map (fun q => (.frag t sub :: q.1, q.2))
          else none
        | _ => none
      else
        match readArgs d r with
        | none => none
        | some (as, r) =>
          match readDirs d r with
          | none => none
          | some (ds, r) =>
            if r.head? = some (.p '{') then
              match readSels d r.tail with
              | none => none
              | some (sub, r) => (readSels d r).map (fun q => (.field n as ds sub :: q.1, q.2))
            else (readSels d r).map (fun q => (.field n as ds [] :: q.1, q.2))
    | _ => none

/-- Reading a whole selection set. -/
def readSet (t : Text) : Option (List Sel) :=
  match lex .top t with
  | some (.p '{' :: ts) =>
    match readSels (ts.length + 1) ts with
    | some (d, []) => some d
    | _ => none
  | _ => none

/-! ## What a document asks for -/

/-- One step of a path through a selection set: the fragments' type conditions, the field's name, its
arguments and its directives. -/
structure Step where
  conds : List Text
  name : Text
  args : List (Text × SVal)
  dirs : List SDir

/-- The document asks for the field at the end of this path. -/
inductive At : List Sel → List Step → Prop
  | here {d n as ds sub} : Sel.field n as ds sub ∈ d → At d [⟨[], n, as, ds⟩]
  | deep {d n as ds sub p} : Sel.field n as ds sub ∈ d → At sub p → At d (⟨[], n, as, ds⟩ :: p)
  | frag {d t sub s p} : Sel.frag t sub ∈ d → At sub (s :: p) → At d ({ s with conds := t :: s.conds } :: p)

/-! ## What the client wants from this upstream -/

/-- The kinds of types that matter for fragments. -/
inductive Kind where
  | plain
  | interface
  | union
  deriving DecidableEq, Repr

/-- The path into the parent's value from which a resolver takes the field's value; `none` when it does
not come from there. -/
def fromParent : IR → Option (List Text)
  | .ctxPath p => some p
  | .protect _ x => fromParent x
  | .discriminate _ x => fromParent x
  | .path x _ => fromParent x
  | .map x _ => fromParent x
  | _ => none

/-- The name under which the upstream of the parent has to deliver the field; `none` when the field is
resolved in another way. -/
def neededName (f : GField) : Option Text :=
  match f.ir with
  | none => some f.name
  | some ir =>
    match fromParent ir with
    | some (n :: _) => some n
    | some [] => some f.name
    | none => none

mutual
/-- The value the client wrote (or, for a variable, gave): `vars` are the values of the variables. -/
def meant (vars : Text → SVal) : QVal → SVal
  | .var n => vars n
  | .null => .word ['n', 'u', 'l', 'l']
  | .bool b => .word (boolText b)
  | .int n => .word (intText n)
  | .float p => .word p
  | .str s => .str s
  | .enum s => .word s
  | .list l => .list (meants vars l)
  | .obj kvs => .obj (meantKvs vars kvs)
/-- The values of a list. -/
def meants (vars : Text → SVal) : List QVal → List SVal
  | [] => []
  | v :: l => meant vars v :: meants vars l
/-- The entries of an object. -/
def meantKvs (vars : Text → SVal) : List (Text × QVal) → List (Text × SVal)
  | [] => []
  | kv :: l => meantKv vars kv :: meantKvs vars l
/-- One entry of an object. -/
def meantKv (vars : Text → SVal) : Text × QVal → Text × SVal
  | (k, v) => (k, meant vars v)
end

/-- The arguments the client gave. -/
def meantArgs (vars : Text → SVal) (as : List GArg) : List (Text × SVal) :=
  as.filterMap (fun a => a.value.map (fun v => (a.name, meant vars v)))

/-- The directives the client gave. -/
def meantDirs (vars : Text → SVal) (ds : List GDir) : List SDir :=
  ds.map (fun d => (d.name, meantKvs vars d.args))

/-- The step for a field of a selection on a type that is abstract or not. -/
def stepOf (vars : Text → SVal) (abs : Bool) (name : Text) (f : GField) : Step :=
  ⟨if abs then f.frag.toList else [], name, meantArgs vars f.args, meantDirs vars f.dirs⟩

/-- An interface or a union. -/
def Kind.abstract : Kind → Bool
  | .plain => false
  | _ => true

/-- What has to be asked of the upstream: every selected field that comes from the parent's value, under
the conditions of its fragment if the parent type is abstract, and `__typename` for abstract types. -/
inductive Wants (kind : Text → Kind) (vars : Text → SVal) : Bool → List GField → List Step → Prop
  | here {abs sel f n} : f ∈ sel → neededName f = some n → Wants kind vars abs sel [stepOf vars abs n f]
  | deep {abs sel f n p} : f ∈ sel → neededName f = some n →
      Wants kind vars (kind f.ty.name).abstract f.sub p → Wants kind vars abs sel (stepOf vars abs n f :: p)
  | typename {sel f n} : f ∈ sel → neededName f = some n →
      (∀ g ∈ sel, neededName g = some "__typename".toList → g.frag ≠ none) →
      Wants kind vars true sel [⟨[], "__typename".toList, [], []⟩]

/-! ## The calls of a field -/

/-- The resolver makes this call somewhere. -/
inductive Calls (i : Verif.Ir.Io) : IR → Prop
  | io : Calls i (.io i)
  | cache {n} : Calls i (.cache n i)
  | path {x p} : Calls i x → Calls i (.path x p)
  | protect {a x} : Calls i x → Calls i (.protect a x)
  | map {x m} : Calls i x → Calls i (.map x m)
  | first {a b} : Calls i a → Calls i (.pipe a b)
  | second {a b} : Calls i b → Calls i (.pipe a b)
  | merge {l x} : x ∈ l → Calls i x → Calls i (.merge l)
  | discriminate {d x} : Calls i x → Calls i (.discriminate d x)
  | entity {m k x} : (k, x) ∈ m → Calls i x → Calls i (.entity m)

/-- The resolver joins the results of several others. -/
inductive Merges : IR → Prop
  | here {l} : Merges (.merge l)
  | path {x p} : Merges x → Merges (.path x p)
  | protect {a x} : Merges x → Merges (.protect a x)
  | map {x m} : Merges x → Merges (.map x m)
  | first {a b} : Merges a → Merges (.pipe a b)
  | second {a b} : Merges b → Merges (.pipe a b)
  | discriminate {d x} : Merges x → Merges (.discriminate d x)
  | entity {m k x} : (k, x) ∈ m → Merges x → Merges (.entity m)

/-- The field is selected somewhere in the selection. -/
inductive Below (f : GField) : List GField → Prop
  | here {l} : f ∈ l → Below f l
  | deep {l g} : g ∈ l → Below f g.sub → Below f l

end Verif.Gql
