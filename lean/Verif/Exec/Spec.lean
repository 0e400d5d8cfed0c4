import Verif.Exec.Model

/-!
# Specification of execution

The reference answers a selection the way the GraphQL specification describes it: object by
object, each field on its own parent object, without store, data paths or lifting over lists.
-/

namespace Verif.Exec

open Verif.Mustache (Text)
open Verif.HttpUrl (GVal)
open Verif.Ir (Res)

variable {σ : Type}

/-- The value at a list position. -/
def atPos : GVal → List Nat → Option GVal
  | v, [] => some v
  | .list l, i :: r => (l[i]?).bind (fun v => atPos v r)
  | _, _ :: _ => none

/-- Does a field of a fragment belong to an object? -/
def Applies (e : Env σ) (h : Hdr) (v : GVal) : Prop :=
  ∀ tc kvs t, h.tc = some tc → v = .obj kvs → Verif.Merge.get "__typename".toList kvs = some (.str t) →
    e.implements t tc = true

mutual
/-- The items of a list of any depth, in order. -/
def items : GVal → List GVal
  | .list l => itemsAll l
  | v => [v]
/-- Specification: the elements of a list, one after the other. -/
def itemsAll : List GVal → List GVal
  | [] => []
  | v :: r => items v ++ itemsAll r
end

/-- The fields of a selection, at every depth. -/
inductive InPlan : List Field → Field → Prop where
  | here {l f} : f ∈ l → InPlan l f
  | deeper {l g f} : g ∈ l → InPlan g.sub f → InPlan l f

/-- No field without resolver is renamed above a resolver. -/
def PlainNames (sel : List Field) : Prop :=
  ∀ f, InPlan sel f → f.hdr.ir = none → f.hdr.out ≠ f.hdr.name → ∀ g, InPlan f.sub g → g.hdr.ir = none

/-- How many of the items before a position satisfy `f`. -/
def rank (f : GVal → Bool) : GVal → List Nat → Nat
  | .list l, i :: p =>
    ((itemsAll (l.take i)).filter f).length + (match l[i]? with | some v => rank f v p | none => 0)
  | _, _ => 0

/-- The state after resolving a field on some items. -/
def after (e : Env σ) (h : Hdr) (s : σ) (l : List GVal) : σ :=
  l.foldl (fun s v => match v with | .null => s | v => (e.resolve s h (some v)).1) s

/-- What resolving a field on an item gives; a null parent is not resolved. -/
def resolved (e : Env σ) (h : Hdr) (s : σ) : GVal → Res
  | .null => .ok .null
  | v => (e.resolve s h (some v)).2

/-! ## The reference -/

/-- A variant of the enum the field is declared with. -/
def isVariant (e : Env σ) (t : Text) : GVal → Bool
  | .str s => e.enumOk t s
  | _ => false

/-- A single value stands for a list of one. -/
def asItems : GVal → List GVal
  | .list l => l
  | v => [v]

/-- The value of a custom scalar or of an enum; `none` if the field is neither. -/
def leafRule (e : Env σ) (h : Hdr) (v : GVal) : Option (Except Kind GVal) :=
  match h.scalar, h.isEnum with
  | some k, _ => some (if e.scalarOk k v = true then .ok v else .error .scalarInvalid)
  | none, true =>
    some (if (asItems v).all (isVariant e h.ty.name) = true then .ok v else .error .enumInvalid)
  | none, false => none

/-- No value where one is expected. -/
def absent (ty : Ty) : Except Kind GVal :=
  match ty with
  | .named _ true => .error .valueRequired
  | .list _ true => .error .valueRequired
  | _ => .ok .null

/-- A null in the data: a list type answers for its items. -/
def nullData : Ty → Except Kind GVal
  | .named n nn => absent (.named n nn)
  | .list t _ => absent t

/-- The selection of an object. -/
abbrev Sub := List (Text × GVal) → Except Kind (List (Text × GVal))

mutual
/-- The completion of a value: null, custom scalars and enums by their rules, objects by the
selection, lists item by item, anything else as it is. -/
def complete (e : Env σ) (h : Hdr) (sub : Sub) : GVal → Except Kind GVal
  | .null => nullData h.ty
  | .obj kvs =>
    match leafRule e h (.obj kvs) with
    | some r => r
    | none => (sub kvs).map .obj
  | .list l =>
    match leafRule e h (.list l) with
    | some r => r
    | none => (completes e h sub l).map .list
  | v =>
    match leafRule e h v with
    | some r => r
    | none => .ok v
/-- Specification: completion of the elements of a list; the first error is the result. -/
def completes (e : Env σ) (h : Hdr) (sub : Sub) : List GVal → Except Kind (List GVal)
  | [] => .ok []
  | v :: r => do
    let v ← complete e h sub v
    let r ← completes e h sub r
    return v :: r
end

/-- The name of the type of an object: what the data says, or the declared type. -/
def typeName (h : Hdr) (kvs : List (Text × GVal)) : Text :=
  match Verif.Merge.get "__typename".toList kvs with
  | some (.str s) => s
  | _ => h.ty.name

/-- Is a field of a fragment skipped for an object?  `Applies` as a test. -/
def belongs (e : Env σ) (h : Hdr) (kvs : List (Text × GVal)) : Bool :=
  match h.tc, Verif.Merge.get "__typename".toList kvs with
  | some tc, some (.str t) => e.implements t tc
  | _, _ => true

mutual
/-- The answer of one field of an object (`parent`, `none` for the root). -/
def answerField (e : Env σ) (R : Hdr → Option GVal → Res) :
    Field → Option (List (Text × GVal)) → Except Kind GVal
  | .mk h sub, parent =>
    match h.ir with
    | some _ =>
      match R h (parent.map .obj) with
      | .error x => .error (.resolver x)
      | .ok v =>
        match h.ty, v with
        | .list _ _, .list l => complete e h (answerSel e R sub h) (.list l)
        | .named _ _, .list _ => absent h.ty
        | .named _ _, v => complete e h (answerSel e R sub h) v
        | .list _ _, _ => absent h.ty
    | none =>
      match parent.bind (Verif.Merge.get h.name) with
      | some v => complete e h (answerSel e R sub h) v
      | none => absent h.ty
/-- The answer of a selection on an object: the fields that belong to the object, in order. -/
def answerSel (e : Env σ) (R : Hdr → Option GVal → Res) : List Field → Hdr → Sub
  | [], _, _ => .ok []
  | f :: r, h, kvs =>
    if belongs e f.hdr kvs then do
      let x ← if f.hdr.name = "__typename".toList then .ok (.str (typeName h kvs))
              else answerField e R f (some kvs)
      let rest ← answerSel e R r h kvs
      return (f.hdr.out, x) :: rest
    else answerSel e R r h kvs
end

/-- The answer of a root field. -/
def answerRoot (e : Env σ) (R : Hdr → Option GVal → Res) (root : Text) (f : Field) : Except Kind GVal :=
  if f.hdr.name = "__typename".toList ∧ f.hdr.ir.isNone then .ok (.str root) else answerField e R f none

/-- The answer of an operation: its root fields, in order. -/
def answerRoots (e : Env σ) (R : Hdr → Option GVal → Res) (root : Text) :
    List Field → Except Kind (List (Text × GVal))
  | [] => .ok []
  | f :: r => do
    let x ← answerRoot e R root f
    let rest ← answerRoots e R root r
    return (f.hdr.out, x) :: rest

/-- An object from a list of pairs: a repeated key keeps its first place and its last value. -/
def toObject (l : List (Text × GVal)) : List (Text × GVal) :=
  l.foldl (fun acc p =>
    if acc.any (fun q => q.1 = p.1) then acc.map (fun q => if q.1 = p.1 then p else q) else acc ++ [p]) []

/-- The answer of an operation. -/
def answer (e : Env σ) (R : Hdr → Option GVal → Res) (root : Text) (sel : List Field) : Except Kind GVal :=
  (answerRoots e R root sel).map (fun l => .obj (toObject l))

end Verif.Exec
