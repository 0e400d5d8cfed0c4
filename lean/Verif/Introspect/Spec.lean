import Verif.Introspect.Model

/-!
# What clients should get to know about a schema, independently of the model of the program
-/

namespace Verif.Introspect

open Verif.Mustache (Text)
open Verif.Exec (Ty)
open Verif.HttpUrl (GVal)
open Verif.Transform (get)

/-- A type in the notation of GraphQL. -/
def printTy : Ty → Text
  | .named n nn => n ++ (if nn then ['!'] else [])
  | .list t nn => '[' :: (printTy t ++ ']' :: (if nn then ['!'] else []))

/-- A reference in the notation of GraphQL. -/
def printRef : TRef → Text
  | .named n => n
  | .list t => '[' :: (printRef t ++ [']'])
  | .nonNull t => printRef t ++ ['!']

/-- The kinds of types. -/
inductive Kind where
  | interface
  | object
  | input
  | scalar
  | enum
  | union
  deriving DecidableEq

/-- Something that a client can ask about the type `t`. -/
inductive Fact where
  | kind (t : Text) (k : Kind)
  | descr (t d : Text)
  | field (t f printed : Text)
  | fieldDescr (t f d : Text)
  | arg (t f a printed : Text)
  | argDefault (t f a : Text) (v : GVal)
  | argDescr (t f a d : Text)
  | input (t f printed : Text)
  | inputDefault (t f : Text) (v : GVal)
  | inputDescr (t f d : Text)
  | implements (t i : Text)
  | value (t v : Text)
  | valueDescr (t v d : Text)
  | member (t m : Text)

/-- What the fields of an object or an interface say. -/
inductive FieldSays (t : Text) : FieldDef → Fact → Prop
  | field {f : FieldDef} : FieldSays t f (.field t f.name (printTy f.ty))
  | descr {f : FieldDef} {d : Text} : f.descr = some d → FieldSays t f (.fieldDescr t f.name d)
  | arg {f : FieldDef} {a : Input} : a ∈ f.args → FieldSays t f (.arg t f.name a.name (printTy a.ty))
  | argDefault {f : FieldDef} {a : Input} {v : GVal} : a ∈ f.args → a.dflt = some v →
      FieldSays t f (.argDefault t f.name a.name v)
  | argDescr {f : FieldDef} {a : Input} {d : Text} : a ∈ f.args → a.descr = some d →
      FieldSays t f (.argDescr t f.name a.name d)

/-- What a definition says. -/
inductive Says : Def → Fact → Prop
  | interface {n fs d is} : Says (.interface n fs d is) (.kind n .interface)
  | object {n fs d is} : Says (.object n fs d is) (.kind n .object)
  | input {n fs d} : Says (.input n fs d) (.kind n .input)
  | scalar {n d} : Says (.scalar n d) (.kind n .scalar)
  | enum {n vs d} : Says (.enum n vs d) (.kind n .enum)
  | union {n ts d} : Says (.union n ts d) (.kind n .union)
  | interfaceDescr {n fs d is} : Says (.interface n fs (some d) is) (.descr n d)
  | objectDescr {n fs d is} : Says (.object n fs (some d) is) (.descr n d)
  | inputDescr {n fs d} : Says (.input n fs (some d)) (.descr n d)
  | scalarDescr {n d} : Says (.scalar n (some d)) (.descr n d)
  | enumDescr {n vs d} : Says (.enum n vs (some d)) (.descr n d)
  | unionDescr {n ts d} : Says (.union n ts (some d)) (.descr n d)
  | interfaceField {n fs d is f x} : f ∈ fs → FieldSays n f x → Says (.interface n fs d is) x
  | objectField {n fs d is f x} : f ∈ fs → FieldSays n f x → Says (.object n fs d is) x
  | inputField {n fs d} {f : Input} : f ∈ fs → Says (.input n fs d) (.input n f.name (printTy f.ty))
  | inputFieldDefault {n fs d v} {f : Input} : f ∈ fs → f.dflt = some v → Says (.input n fs d) (.inputDefault n f.name v)
  | inputFieldDescr {n fs d t} {f : Input} : f ∈ fs → f.descr = some t → Says (.input n fs d) (.inputDescr n f.name t)
  | interfaceImplements {n fs d is i} : i ∈ is → Says (.interface n fs d is) (.implements n i)
  | objectImplements {n fs d is i} : i ∈ is → Says (.object n fs d is) (.implements n i)
  | value {n vs d v} : v ∈ vs → Says (.enum n vs d) (.value n v.1)
  | valueDescr {n vs d v t} : (v, some t) ∈ vs → Says (.enum n vs d) (.valueDescr n v t)
  | member {n ts d m} : m ∈ ts → Says (.union n ts d) (.member n m)

/-- What async-graphql tells about a field. -/
inductive FieldShows (t : Text) : DField → Fact → Prop
  | field {f : DField} : FieldShows t f (.field t f.name (printRef f.ty))
  | descr {f : DField} {d : Text} : f.descr = some d → FieldShows t f (.fieldDescr t f.name d)
  | arg {f : DField} {a : DInput} : a ∈ f.args → FieldShows t f (.arg t f.name a.name (printRef a.ty))
  | argDefault {f : DField} {a : DInput} {v : GVal} : a ∈ f.args → a.dflt = some v →
      FieldShows t f (.argDefault t f.name a.name v)
  | argDescr {f : DField} {a : DInput} {d : Text} : a ∈ f.args → a.descr = some d →
      FieldShows t f (.argDescr t f.name a.name d)

/-- What async-graphql tells about a registered type. -/
inductive Shows (n : Text) : DType → Fact → Prop
  | interface {fs d is} : Shows n (.interface fs d is) (.kind n .interface)
  | object {fs d is} : Shows n (.object fs d is) (.kind n .object)
  | input {fs d} : Shows n (.input fs d) (.kind n .input)
  | scalar {d} : Shows n (.scalar d) (.kind n .scalar)
  | enum {vs d} : Shows n (.enum vs d) (.kind n .enum)
  | union {ts d} : Shows n (.union ts d) (.kind n .union)
  | interfaceDescr {fs d is} : Shows n (.interface fs (some d) is) (.descr n d)
  | objectDescr {fs d is} : Shows n (.object fs (some d) is) (.descr n d)
  | inputDescr {fs d} : Shows n (.input fs (some d)) (.descr n d)
  | scalarDescr {d} : Shows n (.scalar (some d)) (.descr n d)
  | enumDescr {vs d} : Shows n (.enum vs (some d)) (.descr n d)
  | unionDescr {ts d} : Shows n (.union ts (some d)) (.descr n d)
  | interfaceField {fs d is f x} : f ∈ fs → FieldShows n f x → Shows n (.interface fs d is) x
  | objectField {fs d is f x} : f ∈ fs → FieldShows n f x → Shows n (.object fs d is) x
  | inputField {fs d} {f : DInput} : f ∈ fs → Shows n (.input fs d) (.input n f.name (printRef f.ty))
  | inputFieldDefault {fs d v} {f : DInput} : f ∈ fs → f.dflt = some v → Shows n (.input fs d) (.inputDefault n f.name v)
  | inputFieldDescr {fs d t} {f : DInput} : f ∈ fs → f.descr = some t → Shows n (.input fs d) (.inputDescr n f.name t)
  | interfaceImplements {fs d is i} : i ∈ is → Shows n (.interface fs d is) (.implements n i)
  | objectImplements {fs d is i} : i ∈ is → Shows n (.object fs d is) (.implements n i)
  | value {vs d v} : v ∈ vs → Shows n (.enum vs d) (.value n v.1)
  | valueDescr {vs d v t} : (v, some t) ∈ vs → Shows n (.enum vs d) (.valueDescr n v t)
  | member {ts d m} : m ∈ ts → Shows n (.union ts d) (.member n m)

/-- The schema tells `x`. -/
def Shown (s : Schema) (x : Fact) : Prop := ∃ n t, get s n = some t ∧ Shows n t x

/-- The type that something is about. -/
def Fact.about : Fact → Text
  | .kind t _ => t
  | .descr t _ => t
  | .field t _ _ => t
  | .fieldDescr t _ _ => t
  | .arg t _ _ _ => t
  | .argDefault t _ _ _ => t
  | .argDescr t _ _ _ => t
  | .input t _ _ => t
  | .inputDefault t _ _ => t
  | .inputDescr t _ _ => t
  | .implements t _ => t
  | .value t _ => t
  | .valueDescr t _ _ => t
  | .member t _ => t

/-- What is not told: descriptions of arguments and of values; of interfaces all but their fields and the types of
these; of unions the description. -/
def Lost : Def → Fact → Prop
  | _, .argDescr _ _ _ _ => True
  | _, .valueDescr _ _ _ => True
  | .interface _ _ _ _, .kind _ _ => False
  | .interface _ _ _ _, .field _ _ _ => False
  | .interface _ _ _ _, _ => True
  | .union _ _ _, .descr _ _ => True
  | _, _ => False

/-- All names of types in a definition. -/
def Def.names : Def → List Text
  | .interface _ fs _ is => fs.flatMap (fun f => f.ty.name :: f.args.map (·.ty.name)) ++ is
  | .object _ fs _ is => fs.flatMap (fun f => f.ty.name :: f.args.map (·.ty.name)) ++ is
  | .input _ fs _ => fs.map (·.ty.name)
  | .union _ ts _ => ts
  | _ => []

/-- There is a type of that name: it is defined, or a scalar of GraphQL or of tailcall. -/
def Exists (defs : List Def) (n : Text) : Prop := n ∈ predefined ∨ n ∈ customScalars ∨ ∃ d ∈ defs, d.name = n

/-- The types of the fields of a definition, without those of arguments. -/
def fieldNames (d : Def) : List Text :=
  match d with
  | .interface _ fs _ _ => fs.map (fun f => f.ty.name)
  | .object _ fs _ _ => fs.map (fun f => f.ty.name)
  | .input _ fs _ => fs.map (fun f => f.ty.name)
  | .scalar .. | .enum .. | .union .. => []

end Verif.Introspect
