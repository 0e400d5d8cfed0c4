import Verif.Subgraph.Model

/-!
# What the federation layer has to do

The `fields` of a `@key` are read as the GraphQL they are: a list of names, each with an optional selection in
braces.  What a resolver reads is said of the texts in which its templates are, without the walk of the model.
-/

namespace Verif.Subgraph

open Verif.Mustache (Text parse)
open Verif.Tmpl (exprs)
open Verif.HttpUrl (GVal)
open Verif.Merge (get)

/-! ## Reading a key -/

/-- The words of a text, separated by spaces. -/
def words : Text → Text → List Text
  | acc, [] => if acc.isEmpty then [] else [acc]
  | acc, c :: cs =>
    if c = ' ' then (if acc.isEmpty then words [] cs else acc :: words [] cs)
    else words (acc ++ [c]) cs

/-- The paths that a selection names, in order: `pre` is the field inside which we are and `last` the field
just named. -/
def readWords : List Text → List Text → Text → List (List Text)
  | [], _, _ => []
  | w :: ws, pre, last =>
    if w = ['{'] then readWords ws (pre ++ [last]) []
    else if w = ['}'] then readWords ws pre.dropLast []
    else (pre ++ [w]) :: readWords ws pre w

/-- The paths of fields that the `fields` of a `@key` name. -/
def keyPaths (fields : Text) : List (List Text) := readWords (words [] fields) [] []

/-- A path of the key with nothing selected inside. -/
def IsLeaf (fields : Text) (p : List Text) : Prop :=
  p ∈ keyPaths fields ∧ ∀ q ∈ keyPaths fields, p <+: q → q = p

/-! ## What a resolver reads -/

/-- A text in the values of a JSON value. -/
inductive ValText : GVal → Text → Prop
  | str (s : Text) : ValText (.str s) s
  | item {l : List GVal} {x : GVal} {s : Text} : x ∈ l → ValText x s → ValText (.list l) s
  | entry {kvs : List (Text × GVal)} {k : Text} {x : GVal} {s : Text} : (k, x) ∈ kvs → ValText x s →
      ValText (.obj kvs) s

/-- A text in a JSON value, also as the name of an entry. -/
inductive AnyText : GVal → Text → Prop
  | str (s : Text) : AnyText (.str s) s
  | item {l : List GVal} {x : GVal} {s : Text} : x ∈ l → AnyText x s → AnyText (.list l) s
  | name {kvs : List (Text × GVal)} {k : Text} {x : GVal} : (k, x) ∈ kvs → AnyText (.obj kvs) k
  | entry {kvs : List (Text × GVal)} {k : Text} {x : GVal} {s : Text} : (k, x) ∈ kvs → AnyText x s →
      AnyText (.obj kvs) s

/-- The texts that are rendered as templates when the resolver is evaluated. -/
inductive Rendered : Resolver → Text → Prop
  | httpUrl {u b h q} : Rendered (.http u b h q) u
  | httpBody {u s h q} : Rendered (.http u (some s) h q) s
  | httpHeader {u b h q k s} : (k, s) ∈ h → Rendered (.http u b h q) s
  | httpQuery {u b h q k s} : (k, s) ∈ q → Rendered (.http u b h q) s
  | grpcUrl {u m b h} : Rendered (.grpc u m b h) u
  | grpcBody {u m v h s} : AnyText v s → Rendered (.grpc u m (some v) h) s
  | grpcHeader {u m b h k s} : (k, s) ∈ h → Rendered (.grpc u m b h) s
  | gqlHeader {h a k s} : (k, s) ∈ h → Rendered (.graphql h a) s
  | gqlArg {h l k s} : (k, s) ∈ l → Rendered (.graphql h (some l)) s
  | callArg {steps step k v s} : step ∈ steps → (k, v) ∈ step → ValText v s → Rendered (.call steps) s
  | expr {v s} : ValText v s → Rendered (.expr v) s

/-- The template `s` has the expression `{{.head.p}}`. -/
def Mentions (s : Text) (head : Text) (p : List Text) : Prop := head :: p ∈ exprs (parse s)

/-- The resolver reads the path `p` of the representation. -/
def Reads (r : Resolver) (p : List Text) : Prop := ∃ s, Rendered r s ∧ Mentions s "value".toList p

/-- The texts of a resolver that are no templates but may look like ones: names of headers, parameters and
arguments, the method of `@grpc`, names of entries of values. -/
inductive NameText : Resolver → Text → Prop
  | httpHeader {u b h q k s} : (k, s) ∈ h → NameText (.http u b h q) k
  | httpQuery {u b h q k s} : (k, s) ∈ q → NameText (.http u b h q) k
  | grpcMethod {u m b h} : NameText (.grpc u m b h) m
  | grpcHeader {u m b h k s} : (k, s) ∈ h → NameText (.grpc u m b h) k
  | gqlHeader {h a k s} : (k, s) ∈ h → NameText (.graphql h a) k
  | gqlArg {h l k s} : (k, s) ∈ l → NameText (.graphql h (some l)) k
  | callArg {step steps k v} : (k, v) ∈ step → NameText (.call (step :: steps)) k
  | callIn {step steps k v s} : (k, v) ∈ step → AnyText v s → ¬ ValText v s → NameText (.call (step :: steps)) s
  | expr {v s} : AnyText v s → ¬ ValText v s → NameText (.expr v) s

/-- No later step of a call reads the representation. -/
def LaterStepsSilent : Resolver → Prop
  | .call (_ :: steps) => ∀ p, ¬ Reads (.call steps) p
  | _ => True

/-! ## Fields of types -/

/-- The path goes through fields of types, from the type `t` on. -/
inductive Chain (types : List (Text × TypeDef)) : Text → List Text → Prop
  | nil (t : Text) : Chain types t []
  | cons {t k : Text} {td : TypeDef} {f : Field} {ks : List Text} : get t types = some td →
      get k td.fields = some f → Chain types f.ty.name ks → Chain types t (k :: ks)

end Verif.Subgraph
