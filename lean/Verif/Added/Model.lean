import Verif.Ir.Model
import Verif.Exec.Model
import Verif.Transform.Model

/-!
# Model of added fields and of the check for missing resolvers

`@addField` (src/core/blueprint/definitions.rs:86-242, 308-335, 393-535), the operators a field goes through
(definitions.rs:537-558), and the check that every field of an operation leads to a resolver
(src/core/blueprint/schema.rs:10-80).

Resolvers and their evaluation are those of `Verif.Ir`; a field carries what its resolvers are compiled to.
-/

namespace Verif.Added

open Verif.Mustache (Text)
open Verif.Exec (Ty)
open Verif.Ir (IR Discr parseUsize)
open Verif.Transform (get)

/-- `Type::into_required` (wrapping_type.rs:82-87). -/
def required : Ty → Ty
  | .named n _ => .named n true
  | .list t _ => .list t true

/-- `Type::into_nullable` (wrapping_type.rs:90-95). -/
def nullable : Ty → Ty
  | .named n _ => .named n false
  | .list t _ => .list t false

/-- `Type::into_single` (wrapping_type.rs:103-108). -/
def single : Ty → Ty
  | .named n nn => .named n nn
  | .list t _ => single t

/-- `Type::is_list` (wrapping_type.rs:77-79). -/
def isList : Ty → Bool
  | .named _ _ => false
  | .list _ _ => true

/-- `Field` (config/config.rs:182-226), as far as it matters here: the type, each resolver with the name of its
directive and what `compile_resolver` makes of it (operators/resolver.rs:17-56), the name given by `@modify`, whether
the field is left out, the age of its cache entries, `@protected`, and the discriminator if its type is a union or
an interface (union_resolver.rs:29-51, interface_resolver.rs:31-53). -/
structure Fld where
  ty : Ty
  resolvers : List (Text × Option IR)
  modify : Option Text
  omitted : Bool
  cache : Option Nat
  prot : Verif.Auth.Directive
  discr : Option Discr

/-- `AddField` (config/directives/add_field.rs:10-15). -/
structure Add where
  name : Text
  path : List Text

/-- `Type` (config/config.rs:108-133), as far as it matters here. -/
structure Typ where
  fields : List (Text × Fld)
  added : List Add
  implements : List Text
  cache : Option Nat
  prot : Verif.Auth.Directive

/-- The configuration (config/config.rs:66-102), as far as it matters here: the types, for each enum the map of its
aliases if it has any (operators/enum_alias.rs:18-36), the credentials, which types are inputs
(`input_types`, config/config.rs:472-480), which names are predefined scalars (scalar.rs:109-116), and the operations. -/
structure Config where
  types : List (Text × Typ)
  enums : List (Text × Option (List (Text × Text)))
  ext : Verif.Auth.Ext
  isInput : Text → Bool
  pre : Text → Bool
  query : Option Text
  mutation : Option Text

/-- The errors (blueprint/error.rs), without their traces: the path does not exist, it goes through a field with a
resolver, its first field is unknown (definitions.rs:475-523), the new name is one of an interface
(operators/modify.rs:23-24), the type of a field is unknown (definitions.rs:384-391), what `update_protected` refuses,
and the panic of `path[0]` for an empty path (definitions.rs:462). -/
inductive AErr where
  | noPath (field : Text)
  | hasResolver (directive type field : Text)
  | firstUnknown (field : Text)
  | inInterface
  | unknownType (name : Text)
  | auth (l : List Verif.Auth.PErr)
  | panic
  deriving DecidableEq

/-- `Valid`, with the errors in order (used at definitions.rs:101-242). -/
abbrev V (α : Type) := Except (List AErr) α

/-- `Valid::and` after failures (definitions.rs:114-136): the failures and then those of the rest. -/
def failed {α : Type} (es : List AErr) : V α → V α
  | .ok _ => .error es
  | .error es' => .error (es ++ es')

/-- The end of the object branch (definitions.rs:166-172). -/
def wrap (list required : Bool) : V Ty → V Ty
  | .ok t => .ok (if list then .list t required else t)
  | .error es => .error es

/-- `target_type_info` (definitions.rs:216-220). -/
def target (c : Config) (t : Ty) (info : Typ) (f : Text) : Option Typ :=
  match get info.fields f with
  | some _ => some info
  | none => get c.types t.name

/-- `process_path` (definitions.rs:191-242) with `process_field_within_type` (definitions.rs:101-186) in the place of
its call.  Of `field` only the type is used. -/
def processPath (c : Config) : List Text → Ty → Typ → Bool → V Ty
  | [], t, _, req => .ok (if req then required t else nullable t)
  | f :: r, t, info, req =>
    if (parseUsize f).isSome then processPath c r (single t) info false
    else
      match target c t info f with
      | none => .error [.noPath f]
      | some ti =>
        match get ti.fields f with
        | some nf =>
          if nf.resolvers.isEmpty then
            if c.pre nf.ty.name then processPath c r nf.ty ti (req && !nf.ty.isNullable)
            else
              match get c.types nf.ty.name with
              | some nti => wrap (isList nf.ty) req (processPath c r nf.ty nti (req && !nf.ty.isNullable))
              | none => .error [.noPath f]
          else failed (nf.resolvers.map (fun x => .hasResolver x.1 t.name f)) (processPath c r nf.ty ti req)
        | none =>
          match r with
          | h :: tl =>
            match get ti.fields h with
            | some nf => processPath c tl nf.ty ti req
            | none => .error [.noPath f]
          | [] => .error [.noPath f]

/-- The regular expression `^\d+$` (definitions.rs:310), for ASCII digits only. -/
def isNumeric (t : Text) : Bool := !t.isEmpty && t.all (fun c => '0' ≤ c && c ≤ '9')

/-- `item_is_numeric` (definitions.rs:308-313). -/
def hasIndex (p : List Text) : Bool := p.any isNumeric

/-- `FieldDefinition` (blueprint/blueprint.rs:123-131), as far as it matters here. -/
structure FieldDef where
  name : Text
  ofType : Ty
  resolver : Option IR

/-- `update_resolver_from_path` (definitions.rs:315-335). -/
def updateFromPath (c : Config) (path : List Text) (t : Ty) (info : Typ) (base : FieldDef) : V FieldDef :=
  match processPath c path t info false with
  | .error es => .error es
  | .ok ty => .ok { base with
      ofType := if hasIndex path then .named ty.name false else ty
      resolver := some (match base.resolver with
        | none => .ctxPath path
        | some r => .path r path) }

/-! ## The check for missing resolvers -/

/-- `validate_field_has_resolver` (schema.rs:46-66); `rec` checks a type: whether it succeeds, and the types visited. -/
def fieldWith (c : Config) (rec : Text → Typ → List Text → Option (Bool × List Text)) (f : Fld) (seen : List Text) :
    Option (Bool × List Text) :=
  if f.resolvers.isEmpty then
    match get c.types f.ty.name with
    | some t => rec f.ty.name t seen
    | none => some (false, seen)
  else some (true, seen)

/-- `Valid::from_iter` over the fields (schema.rs:38-40): all are looked at. -/
def fieldsWith (c : Config) (rec : Text → Typ → List Text → Option (Bool × List Text)) :
    List (Text × Fld) → List Text → Option (Bool × List Text)
  | [], seen => some (true, seen)
  | (_, f) :: r, seen =>
    match fieldWith c rec f seen with
    | none => none
    | some (b, seen1) =>
      match fieldsWith c rec r seen1 with
      | none => none
      | some (b', seen2) => some (b && b', seen2)

/-- `validate_type_has_resolvers` (schema.rs:27-43).  `none` means that the depth is used up. -/
def typeOk (c : Config) : Nat → Text → Typ → List Text → Option (Bool × List Text)
  | 0, _, _, _ => none
  | fuel + 1, name, t, seen =>
    if t.fields.isEmpty || seen.contains name then some (true, seen)
    else fieldsWith c (typeOk c fuel) t.fields (name :: seen)

/-- The depth that is always enough (see `C106_query`); the code (schema.rs:27-43) recurses without a bound. -/
def depth (c : Config) : Nat := c.types.length + 1

/-- Whether a check succeeds (`is_succeed`, used at schema.rs:58, definitions.rs:353). -/
def passes (r : Option (Bool × List Text)) : Bool := (r.map (·.1)).getD false

/-- `validate_query` (schema.rs:10-23). -/
def queryOk (c : Config) : Bool :=
  match c.query with
  | none => false
  | some q =>
    match get c.types q with
    | none => false
    | some t => passes (typeOk c (depth c) q t [])

/-- `validate_mutation` (schema.rs:68-80). -/
def mutationOk (c : Config) : Bool :=
  match c.mutation with
  | none => true
  | some m =>
    match get c.types m with
    | none => false
    | some t => passes (typeOk c (depth c) m t [])

/-! ## The operators of a field -/

/-- The end of `update_resolver` (operators/resolver.rs:73-78). -/
def compiled (f : Fld) : Option IR :=
  match f.resolvers with
  | [] => none
  | [(_, r)] => r
  | l => some (.merge (l.filterMap (·.2)))

/-- `update_modify` (operators/modify.rs:16-38). -/
def updateModify (c : Config) (outer : Typ) (f : Fld) (b : FieldDef) : V FieldDef :=
  match f.modify with
  | none => .ok b
  | some new =>
    if outer.implements.any (fun i => match get c.types i with
      | some t => (get t.fields new).isSome
      | none => false) then .error [.inInterface]
    else .ok { b with name := new, resolver := some (b.resolver.getD (.ctxPath [b.name])) }

/-- `fix_dangling_resolvers` (definitions.rs:343-363). -/
def fixDangling (c : Config) (f : Fld) (b : FieldDef) : FieldDef :=
  if f.resolvers.isEmpty && passes (fieldWith c (typeOk c (depth c)) f []) then
    { b with resolver := some (.dynamic (.value (.obj []))) }
  else b

/-- `update_cache_resolvers` (definitions.rs:367-382). -/
def updateCache (outer : Typ) (f : Fld) (b : FieldDef) : FieldDef :=
  { b with resolver := Verif.Ir.updateCache f.cache outer.cache b.resolver }

/-- The guard of a field (operators/protected.rs:16-73). -/
def guardOf (c : Config) (object : Text) (outer : Typ) (f : Fld) : Except (List Verif.Auth.PErr) (Option Verif.Auth.Auth) :=
  Verif.Auth.guard c.ext (c.isInput object) outer.prot f.prot (match get c.types f.ty.name with
    | some t => t.prot
    | none => none)

/-- `update_protected` (operators/protected.rs:8-90). -/
def updateProtected (c : Config) (object : Text) (outer : Typ) (f : Fld) (b : FieldDef) : V FieldDef :=
  match guardOf c object outer f with
  | .error es => .error [.auth es]
  | .ok none => .ok b
  | .ok (some a) => .ok { b with resolver := some (Verif.Ir.wrapProtected a b.name b.resolver) }

/-- `update_enum_alias` (operators/enum_alias.rs:11-41). -/
def updateEnum (c : Config) (f : Fld) (b : FieldDef) : FieldDef :=
  match get c.enums f.ty.name with
  | some (some m) => { b with resolver := b.resolver.map (fun r => .map r m) }
  | _ => b

/-- `update_union_resolver` and `update_interface_resolver` (union_resolver.rs:29-51, interface_resolver.rs:31-53). -/
def updateDiscr (f : Fld) (b : FieldDef) : FieldDef :=
  match f.discr with
  | some d => { b with resolver := some (.discriminate d (b.resolver.getD (.ctxPath [b.name]))) }
  | none => b

/-- `to_field_definition` (definitions.rs:537-558).  Simplified: once an operator fails, the errors of the later ones are
not collected. -/
def toFieldDef (c : Config) (object : Text) (outer : Typ) (name : Text) (f : Fld) : V FieldDef :=
  match updateModify c outer f ⟨name, f.ty, compiled f⟩ with
  | .error es => .error es
  | .ok b =>
    match updateProtected c object outer f (updateCache outer f (fixDangling c f b)) with
    | .error es => .error es
    | .ok b => .ok (updateDiscr f (updateEnum c f b))

/-- The path that is followed (definitions.rs:474-481). -/
def pathOf (f : Fld) (path : List Text) : List Text := if f.resolvers.isEmpty then path else path.drop 1

/-- `to_added_field` (definitions.rs:455-525). -/
def toAdded (c : Config) (object : Text) (outer : Typ) (a : Add) : V FieldDef :=
  match a.path with
  | [] => .error [.panic]
  | s :: _ =>
    match get outer.fields s with
    | none => .error [.firstUnknown s]
    | some f =>
      match toFieldDef c object outer a.name f with
      | .error es => .error es
      | .ok b => updateFromPath c (pathOf f a.path) f.ty outer b

/-- `Valid::from_iter` (definitions.rs:429-453, 527-529). -/
def all {α β : Type} (g : α → V β) : List α → V (List β)
  | [] => .ok []
  | x :: r =>
    match g x, all g r with
    | .ok y, .ok ys => .ok (y :: ys)
    | .error e, .ok _ => .error e
    | .ok _, .error e => .error e
    | .error e, .error e' => .error (e ++ e')

/-- One field (definitions.rs:434-445) with `validate_field_type_exist` (definitions.rs:384-391); `known` says that the
configuration contains the name (`Config::contains`, config/config.rs:413-417). -/
def toField (c : Config) (known : Text → Bool) (object : Text) (outer : Typ) (p : Text × Fld) : V FieldDef :=
  if c.pre p.2.ty.name || known p.2.ty.name then toFieldDef c object outer p.1 p.2
  else failed [.unknownType p.2.ty.name] (toFieldDef c object outer p.1 p.2)

/-- `to_fields` (definitions.rs:393-535). -/
def toFields (c : Config) (known : Text → Bool) (object : Text) (t : Typ) : V (List FieldDef) :=
  match all (toField c known object t) (t.fields.filter (fun p => !p.2.omitted)), all (toAdded c object t) t.added with
  | .ok l, .ok l' => .ok (l ++ l')
  | .error e, .ok _ => .error e
  | .ok _, .error e => .error e
  | .error e, .error e' => .error (e ++ e')

end Verif.Added
