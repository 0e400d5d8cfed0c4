import Verif.Ir.Model
import Verif.HttpKey.Model
import Verif.Input.Model

/-!
# Model of the selection sets sent to GraphQL upstreams

Source: src/core/jit/transform/graphql.rs (the text of the selection set is computed when a request is
planned), src/core/document.rs (directives), src/core/graphql/request_template.rs and
src/core/jit/transform/input_resolver.rs (the text is a Mustache template that is rendered with the
variables of the request).
-/

namespace Verif.Gql

open Verif.Mustache (Text Template)
open Verif.HttpUrl (GVal intText boolText joinWith)
open Verif.HttpKey (escape GqlTemplate)
open Verif.Exec (Ty)
open Verif.Input (QVal)
open Verif.Ir (IR Io)

/-! ## Values as text -/

/-- Four decimal digits at least: `{:04}` (external crate `async-graphql-value`, `write_quoted`, used
through `Display` at jit/model.rs:112). -/
def pad4 (n : Nat) : Text :=
  List.replicate (4 - (Nat.toDigits 10 n).length) '0' ++ Nat.toDigits 10 n

/-- One character of a quoted string: `write_quoted` of `async-graphql-value`
(external crate, used through `Display` at jit/model.rs:112). -/
def quoteChar (c : Char) : Text :=
  if c == '\r' then ['\\', 'r']
  else if c == '\n' then ['\\', 'n']
  else if c == '\t' then ['\\', 't']
  else if c == '"' then ['\\', '"']
  else if c == '\\' then ['\\', '\\']
  else if c.toNat < 32 || (127 ≤ c.toNat && c.toNat < 160) then '\\' :: 'u' :: pad4 c.toNat
  else [c]

/-- A quoted string (external crate `async-graphql-value`, used through `Display` at
jit/model.rs:112). -/
def quote (s : Text) : Text := '"' :: (s.flatMap quoteChar ++ ['"'])

mutual
/-- `Display for async_graphql_value::Value` (external crate, used at jit/model.rs:112 and
document.rs:466).  `Binary` values are not part of a query document and left out. -/
def showQ : QVal → Text
  | .var n => '$' :: n
  | .null => ['n', 'u', 'l', 'l']
  | .bool b => boolText b
  | .int n => intText n
  | .float p => p
  | .str s => quote s
  | .enum s => s
  | .list l => '[' :: (joinWith ',' (showQs l) ++ [']'])
  | .obj kvs => '{' :: (joinWith ',' (showKvs kvs) ++ ['}'])
/-- The items of a list (external crate, see `showQ`, used at jit/model.rs:112). -/
def showQs : List QVal → List Text
  | [] => []
  | v :: l => showQ v :: showQs l
/-- The entries of an object (external crate, see `showQ`, used at jit/model.rs:112). -/
def showKvs : List (Text × QVal) → List Text
  | [] => []
  | kv :: l => showKv kv :: showKvs l
/-- One entry of an object (external crate, see `showQ`, used at jit/model.rs:112). -/
def showKv : Text × QVal → Text
  | (k, v) => k ++ ':' :: ' ' :: showQ v
end

/-! ## Fields -/

/-- `Arg<Input>` (jit/model.rs:98-105) without id, type and default (the default is not printed: only
arguments with a value are kept, graphql.rs:149). -/
structure GArg where
  name : Text
  value : Option QVal

/-- `Directive<Input>` (jit/model.rs:447-451). -/
structure GDir where
  name : Text
  args : List (Text × QVal)

/-- `Field<Input>` (jit/model.rs:172-195): the parts that matter for the text.  `name` is the name in the
schema, `out` the name in the response (the alias), `frag` the innermost fragment the field came from. -/
inductive GField where
  | mk (name out : Text) (ir : Option IR) (ty : Ty) (frag : Option Text) (args : List GArg)
      (dirs : List GDir) (sub : List GField)

/-- Accessor of `Field` (jit/model.rs:175). -/
def GField.name : GField → Text | .mk n _ _ _ _ _ _ _ => n
/-- Accessor of `Field` (jit/model.rs:178). -/
def GField.out : GField → Text | .mk _ o _ _ _ _ _ _ => o
/-- Accessor of `Field` (jit/model.rs:179). -/
def GField.ir : GField → Option IR | .mk _ _ i _ _ _ _ _ => i
/-- Accessor of `Field` (jit/model.rs:180). -/
def GField.ty : GField → Ty | .mk _ _ _ t _ _ _ _ => t
/-- Accessor of `Field` (jit/model.rs:190). -/
def GField.frag : GField → Option Text | .mk _ _ _ _ f _ _ _ => f
/-- Accessor of `Field` (jit/model.rs:188). -/
def GField.args : GField → List GArg | .mk _ _ _ _ _ a _ _ => a
/-- Accessor of `Field` (jit/model.rs:192). -/
def GField.dirs : GField → List GDir | .mk _ _ _ _ _ _ d _ => d
/-- Accessor of `Field` (jit/model.rs:189). -/
def GField.sub : GField → List GField | .mk _ _ _ _ _ _ _ s => s

/-! ## The text of a selection set -/

/-- `Display for Arg` (jit/model.rs:107-121) for an argument with a value. -/
def argText (n : Text) (v : QVal) : Text := n ++ ':' :: ' ' :: showQ v

/-- The arguments that are printed (graphql.rs:146-151). -/
def argTexts (as : List GArg) : List Text :=
  as.filterMap (fun a => a.value.map (fun v => argText a.name v))

/-- `format_selection_field_arguments` (graphql.rs:145-159).  `esc` stands for `escape_default`
(graphql.rs:157); the properties compare it with no escaping at all. -/
def argsText (esc : Text → Text) (as : List GArg) : Text :=
  let t := joinWith ',' (argTexts as)
  if t.isEmpty then [] else '(' :: (esc t ++ [')'])

/-- `to_mustache` (document.rs:454-458): a value that prints with a leading `$` becomes a template. -/
def toMustache : Text → Text
  | '$' :: n => '{' :: '{' :: (n ++ ['}', '}'])
  | t => t

/-- `is_null` (used at document.rs:465). -/
def isNull : QVal → Bool
  | .null => true
  | _ => false

/-- The arguments of a directive (document.rs:461-472, 320-325). -/
def dirArgTexts (as : List (Text × QVal)) : List Text :=
  as.filterMap (fun kv => if isNull kv.2 then none else some (kv.1 ++ ':' :: ' ' :: toMustache (showQ kv.2)))

/-- `print_directive` (document.rs:315-332). -/
def dirText (d : GDir) : Text :=
  let t := Verif.HttpKey.joinComma (dirArgTexts d.args)
  if t.isEmpty then '@' :: d.name else '@' :: (d.name ++ '(' :: (t ++ [')']))

/-- `print_directives` (document.rs:83-91) as it is used at graphql.rs:128-135. -/
def dirsText (esc : Text → Text) (ds : List GDir) : Text :=
  let t := joinWith ' ' (ds.map dirText)
  if t.isEmpty then [] else ' ' :: esc t

/-- Fields that `format_selection_set` leaves out (graphql.rs:70). -/
def ownResolver : Option IR → Bool
  | some (.io _) => true
  | some (.dynamic _) => true
  | _ => false

/-- The name a field is asked for (graphql.rs:73-77). -/
def upName (f : GField) : Text :=
  match f.ir with
  | some (.ctxPath (n :: _)) => n
  | _ => f.name

/-- `"__typename"` (graphql.rs:82, 110). -/
def typename : Text := ['_', '_', 't', 'y', 'p', 'e', 'n', 'a', 'm', 'e']

/-- What is known of a formatted field: its fragment, the name it is asked for and its text
(graphql.rs:78-92). -/
structure Item where
  frag : Option Text
  name : Text
  text : Text

/-- The keys of `fragments_fields` (graphql.rs:83-89), in the order in which they are first seen. -/
def fragKeys : List (Option Text) → List Text
  | [] => []
  | none :: l => fragKeys l
  | some k :: l => k :: (fragKeys l).filter (fun j => j != k)

/-- The fields of one fragment (graphql.rs:84-89). -/
def ofFrag (k : Text) (l : List Item) : List Item := l.filter (fun i => i.frag == some k)

/-- A fragment (graphql.rs:103-105). -/
def fragText (k : Text) (l : List Item) : Text :=
  ['.', '.', '.', ' ', 'o', 'n', ' '] ++ k ++ [' ', '{', ' ']
    ++ joinWith ' ' ((ofFrag k l).map (·.text)) ++ [' ', '}']

/-- The fields outside of fragments (graphql.rs:83, 90-92). -/
def normals (iface : Bool) (l : List Item) : List Item :=
  l.filter (fun i => !(iface && i.frag.isSome))

/-- The fragments' names, if the parent is an interface (graphql.rs:84). -/
def keysOf (iface : Bool) (l : List Item) : List Text :=
  if iface then fragKeys (l.map (·.frag)) else []

/-- `is_typename_requested` (graphql.rs:81-82). -/
def typenameAsked (l : List Item) : Bool := l.any (fun i => i.name == typename && i.frag.isNone)

/-- The end of `format_selection_set` (graphql.rs:97-113).  `ord` is the order in which the `HashMap` of
fragments is iterated: any order (the properties ask for a permutation).  It is a function of the keys
here; in the code two equal sets of keys may be iterated in two orders. -/
def assemble (ord : List Text → List Text) (iface : Bool) (l : List Item) : Option Text :=
  if l.isEmpty then none
  else
    let ts := (normals iface l).map (·.text)
      ++ (if iface && !typenameAsked l then [typename] else [])
      ++ (ord (keysOf iface l)).map (fun k => fragText k l)
    some (['{', ' '] ++ joinWith ' ' ts ++ [' ', '}'])

mutual
/-- `format_selection_set` (graphql.rs:61-95): the fields that are kept. -/
def items (esc : Text → Text) (ord : List Text → List Text) (ifs : Text → Bool) : List GField → List Item
  | [] => []
  | f :: l => if ownResolver f.ir then items esc ord ifs l else item esc ord ifs f :: items esc ord ifs l
/-- `format_selection_field` (graphql.rs:71-80, 116-143). -/
def item (esc : Text → Text) (ord : List Text → List Text) (ifs : Text → Bool) : GField → Item
  | .mk name out ir ty frag args dirs sub =>
    let n := upName (.mk name out ir ty frag args dirs sub)
    ⟨frag, n, n ++ argsText esc args ++ dirsText esc dirs ++
      (match assemble ord (ifs ty.name) (items esc ord ifs sub) with
       | none => []
       | some t => ' ' :: t)⟩
end

/-- `format_selection_set` (graphql.rs:61-114). -/
def selText (esc : Text → Text) (ord : List Text → List Text) (ifs : Text → Bool) (iface : Bool)
    (l : List GField) : Option Text := assemble ord iface (items esc ord ifs l)

/-! ## Who gets the text -/

mutual
/-- `IR::modify_io` (ir/model.rs:135-154): the calls that are changed. -/
def reached : IR → List Io
  | .io i => [i]
  | .cache _ i => [i]
  | .discriminate _ x => reached x
  | .protect _ x => reached x
  | .path x _ => reached x
  | .pipe a b => reached a ++ reached b
  | .entity m => reachedEnt m
  | .map x _ => reached x
  | .dynamic _ => []
  | .ctxPath _ => []
  | .merge _ => []
  | .service _ => []
/-- The values of the map (ir/model.rs:146-150). -/
def reachedEnt : List (Text × IR) → List Io
  | [] => []
  | kv :: l => reachedEntry kv ++ reachedEnt l
/-- One value of the map (ir/model.rs:147-149). -/
def reachedEntry : Text × IR → List Io
  | (_, x) => reached x
end

mutual
/-- `compute_selection_set` (graphql.rs:24-44): the calls that get a selection, with the field they belong
to and the text.  `gql` tells the calls to GraphQL upstreams (graphql.rs:31). -/
def computed (ord : List Text → List Text) (ifs : Text → Bool) (gql : Io → Bool) :
    List GField → List (GField × Io × Text)
  | [] => []
  | f :: l => computedField ord ifs gql f ++ computed ord ifs gql l
/-- One field of `compute_selection_set` (graphql.rs:28-43). -/
def computedField (ord : List Text → List Text) (ifs : Text → Bool) (gql : Io → Bool) :
    GField → List (GField × Io × Text)
  | .mk name out ir ty frag args dirs sub =>
    (match ir, selText escape ord ifs (ifs ty.name) sub with
     | some x, some t =>
       ((reached x).filter gql).map (fun i => (.mk name out ir ty frag args dirs sub, i, t))
     | _, _ => [])
    ++ computed ord ifs gql sub
end

/-! ## From the plan to the request -/

/-- `PathString for Variables` (jit/model.rs:23-28): the first part of the path names the variable.
`vars` gives the printed value. -/
def varPath (vars : Text → Option Text) : Verif.Mustache.Ctx
  | [] => none
  | n :: _ => vars n

/-- `Mustache::parse(&v).into()` (graphql.rs:37, request_template.rs:39-46) followed by
`Selection::resolve` (request_template.rs:31-36, input_resolver.rs:94-110). -/
def resolved (vars : Text → Option Text) (t : Text) : Text :=
  let m := Verif.Mustache.parse t
  if Verif.Mustache.isConst m then Verif.Mustache.print m else Verif.Mustache.render m (varPath vars)

/-- The request template after planning and input resolution (graphql.rs:37, input_resolver.rs:101-105):
its selection is the text for the field's own selection, when there is one. -/
def withSelection (t : GqlTemplate) (vars : Text → Option Text) (s : Option Text) : GqlTemplate :=
  match s with
  | none => t
  | some s => { t with fixedSelection := some (resolved vars s) }

/-! ## The selection of a call that the plan did not reach -/

/-- `RelatedFields` (ir/mod.rs:22-26): the fields a resolver also answers, by their name in the schema, with
the upstream's name.  The first entry of a name counts. -/
inductive Related where
  | mk (m : List (Text × Text × Related))

/-- The entries (ir/mod.rs:26). -/
def Related.entries : Related → List (Text × Text × Related)
  | .mk m => m

/-- What `create_related_fields` reads of a field (operators/graphql.rs:24-46): its name, whether it has a
resolver, the new name of `@modify` (the outer option: the directive, the inner one: its `name`) and its
type. -/
structure CField where
  name : Text
  hasResolver : Bool
  modify : Option (Option Text)
  ty : Text

/-- The types and unions of the configuration (config/config.rs:382-388). -/
structure Conf where
  types : List (Text × List CField)
  unions : List (Text × List Text)

mutual
/-- `create_related_fields` (operators/graphql.rs:12-53) with the set of visited types.  The depth `d` is
bounded by the number of types and unions, because every call below the first adds one to the visited
set; `none`: not finished within the depth. -/
def related (c : Conf) : Nat → Text → List Text → Option (Related × List Text)
  | 0, _, _ => none
  | d + 1, t, visited =>
    if visited.contains t then some (.mk [], visited)
    else
      match c.types.lookup t, c.unions.lookup t with
      | some fs, _ => relatedFields c d fs (t :: visited)
      | none, some us => relatedUnion c d us (t :: visited)
      | none, none => some (.mk [], t :: visited)
/-- The fields of a type (operators/graphql.rs:24-45).  Entries of a `HashMap` are replaced by later
ones: the later entry is put in front. -/
def relatedFields (c : Conf) : Nat → List CField → List Text → Option (Related × List Text)
  | 0, _, _ => none
  | _ + 1, [], visited => some (.mk [], visited)
  | d + 1, f :: fs, visited =>
    let key := match f.modify with
      | some m => m
      | none => some f.name
    match f.hasResolver, key with
    | false, some k =>
      match related c d f.ty visited with
      | none => none
      | some (r, v) =>
        match relatedFields c d fs v with
        | none => none
        | some (rs, v) => some (.mk (rs.entries ++ [(k, f.name, r)]), v)
    | _, _ => relatedFields c d fs visited
/-- The members of a union (operators/graphql.rs:46-50). -/
def relatedUnion (c : Conf) : Nat → List Text → List Text → Option (Related × List Text)
  | 0, _, _ => none
  | _ + 1, [], visited => some (.mk [], visited)
  | d + 1, t :: ts, visited =>
    match related c d t visited with
    | none => none
    | some (r, v) =>
      match relatedUnion c d ts v with
      | none => none
      | some (rs, v) => some (.mk (rs.entries ++ r.entries), v)
end

mutual
/-- `format_selection_set` (ir/eval_context.rs:126-144) on the fields made by `from_jit_field`
(ir/resolver_context_like.rs:93-125): they are looked up by their name in the response.  The filter on
type conditions (resolver_context_like.rs:98-101) is left out. -/
def relatedTexts (r : Related) : List GField → List Text
  | [] => []
  | f :: l => relatedText r f ++ relatedTexts r l
/-- `format_selection_field` (ir/eval_context.rs:146-171): nothing when the field is not related. -/
def relatedText (r : Related) : GField → List Text
  | .mk _ out _ _ _ args dirs sub =>
    match r.entries.lookup out with
    | none => []
    | some (name, r') =>
      [name ++ argsText escape args ++ dirsText escape dirs ++
        (let ts := relatedTexts r' sub
         if ts.isEmpty then [] else ' ' :: (['{', ' '] ++ joinWith ' ' ts ++ [' ', '}']))]
end

/-- The selection used when the template has none (request_template.rs:119-123, ir/eval_context.rs:120-144). -/
def fallback (r : Related) (l : List GField) : Text :=
  let ts := relatedTexts r l
  if ts.isEmpty then [] else ['{', ' '] ++ joinWith ' ' ts ++ [' ', '}']

end Verif.Gql
