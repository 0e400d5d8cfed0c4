import Verif.Transform.Model
import Verif.Merge.Model

/-!
# Model of the refinement of generated configurations

`TypeMerger` with `Similarity` and `MergeableTypes` (src/core/config/transformer/merge_types),
`FlattenSingleField` (flatten_single_field.rs) and `ImproveTypeNames` (improve_type_names.rs).  Configurations
and their functions are those of `Verif.Transform`.

Functions whose end depends on the configuration count their depth; `none` means "not finished".
-/

namespace Verif.Refine

open Verif.Mustache (Text)
open Verif.Exec (Ty)
open Verif.Transform

/-- `Scalar::JSON.to_string()` (scalar.rs:43, used at merge_types/similarity.rs:69). -/
def json : Text := "JSON".toList

/-- `is_list` (wrapping_type.rs:77-79). -/
def isList : Ty → Bool
  | .named _ _ => false
  | .list _ _ => true

/-! ## Similarity -/

/-- The two stores of a comparison: `type_similarity_cache` (merge_types/similarity.rs:12) and `visited_type`
(merge_types/similarity.rs:43). -/
structure SState where
  cache : List ((Text × Text) × Bool)
  visited : List (Text × Text)
  deriving DecidableEq, Repr

/-- `PairMap::get` (merge_types/pair_map.rs:17-24) on the list of entries, newest first. -/
def cacheGet (l : List ((Text × Text) × Bool)) (a b : Text) : Option Bool :=
  match l.find? (fun e => e.1 = (a, b)) with
  | some e => some e.2
  | none => (l.find? (fun e => e.1 = (b, a))).map (·.2)

/-- `PairSet::contains` (merge_types/pair_set.rs:16-19). -/
def seen (l : List (Text × Text)) (a b : Text) : Bool := l.contains (a, b) || l.contains (b, a)

/-- What the loop over the fields ends with: the number of fields that are the same, or an early `return`, where
`none` is a failure (merge_types/similarity.rs:57-116). -/
inductive FRes where
  | done (k : Nat)
  | ret (r : Option Bool)
  deriving DecidableEq, Repr

/-- The loop of `similarity_inner` over the fields of the first type (merge_types/similarity.rs:59-117), given the
comparison of nested types. -/
def simFields (pre : Text → Bool) (c : Cfg)
    (rec : Text × TypeD → Text × TypeD → SState → Option (Option Bool × SState)) (f2s : List (Text × FieldD)) :
    List (Text × FieldD) → Nat → SState → Option (FRes × SState)
  | [], k, s => some (.done k, s)
  | (n, f1) :: r, k, s =>
    match get f2s n with
    | none => simFields pre c rec f2s r k s
    | some f2 =>
      let a := f1.ty.name
      let b := f2.ty.name
      if isScalar pre c a && isScalar pre c b then
        if a = b ∨ a = json ∨ b = json then
          if isList f1.ty = isList f2.ty then simFields pre c rec f2s r (k + 1) s
          else some (.ret none, s)
        else some (.ret none, s)
      else if a = b then
        if isList f1.ty = isList f2.ty then simFields pre c rec f2s r (k + 1) s
        else some (.ret none, s)
      else
        match get c.types a with
        | none => simFields pre c rec f2s r k s
        | some t1 =>
          match get c.types b with
          | none => simFields pre c rec f2s r k s
          | some t2 =>
            if seen s.visited a b then some (.ret (some true), s)
            else
              match rec (a, t1) (b, t2) { s with visited := (a, b) :: s.visited } with
              | none => none
              | some (none, s') => some (.ret none, s')
              | some (some v, s') => simFields pre c rec f2s r (k + if v then 1 else 0) s'

/-- `similarity_inner` (merge_types/similarity.rs:40-133), with fuel.  `ge k n` is the comparison
`k as f32 / n as f32 >= threshold`. -/
def sim (pre : Text → Bool) (c : Cfg) (ge : Nat → Nat → Bool) :
    Nat → Text × TypeD → Text × TypeD → SState → Option (Option Bool × SState)
  | 0, _, _, _ => none
  | fuel + 1, (n1, t1), (n2, t2), s =>
    match cacheGet s.cache n1 n2 with
    | some b => some (some b, s)
    | none =>
      match simFields pre c (sim pre c ge fuel) t2.fields t1.fields 0 s with
      | none => none
      | some (.ret r, s') => some (r, s')
      | some (.done k, s') =>
        let b := ge k (t1.fields.length + t2.fields.length - k)
        some (some b, { s' with cache := ((n1, n2), b) :: s'.cache })

/-- The comparison with the threshold `1.0` (merge_types/mergeable_types.rs:83-86): `0/0` is no number and not
greater.  Exact as long as the numbers of fields have an `f32`. -/
def one (k n : Nat) : Bool := decide (0 < n ∧ n ≤ k)

/-! ## MergeableTypes -/

/-- `MergeableTypes` (merge_types/mergeable_types.rs:9-15); the sets are lists without repetitions. -/
structure Kinds where
  ins : List Text
  mems : List Text
  outs : List Text
  ifaces : List Text
  deriving DecidableEq, Repr

/-- A `HashSet` from the list of its insertions (merge_types/mergeable_types.rs:18-26). -/
def toSet (l : List Text) : List Text := l.eraseDups

/-- `MergeableTypes::new` (merge_types/mergeable_types.rs:18-26, config/config.rs:483-488, 505-515).  The names of the
interfaces are the keys of `interfaces_types_map`; the recursion there, which does not end on interfaces that
implement one another, is left out, as its result is not used. -/
def kindsOf (pre : Text → Bool) (c : Cfg) (n : Nat) : Option Kinds :=
  match inputTypes pre c n, outputTypes pre c n with
  | some i, some o => some
    { ins := toSet i
      mems := toSet (c.unions.flatMap (fun u => u.2.types))
      outs := toSet o
      ifaces := toSet (c.types.flatMap (fun t => t.2.implements)) }
  | _, _ => none

/-- `are_input_type`, `are_union_type` and the like (merge_types/mergeable_types.rs:58-75). -/
def bothIn (l : List Text) (a b : Text) : Bool := l.contains a && l.contains b

/-- `get_threshold` (merge_types/mergeable_types.rs:82-93). -/
def threshold (k : Kinds) (given : Nat → Nat → Bool) (a b : Text) : Nat → Nat → Bool :=
  if bothIn k.ins a b || bothIn k.mems a b || bothIn k.ifaces a b then one else given

/-- `mergeable` (merge_types/mergeable_types.rs:99-104). -/
def mergeable (k : Kinds) (a b : Text) : Bool :=
  bothIn k.ins a b || bothIn k.mems a b || bothIn k.outs a b || bothIn k.ifaces a b

/-- Insertion into a sorted list; for `types.sort()` (merge_types/type_merger.rs:46). -/
def insertName (x : Text) : List Text → List Text
  | [] => [x]
  | y :: r => if Verif.Merge.tlt y x then y :: insertName x r else x :: y :: r

/-- `types.sort()` (merge_types/type_merger.rs:46). -/
def sortNames (l : List Text) : List Text := l.foldr insertName []

/-- The names that are looked at, some of them several times (merge_types/type_merger.rs:45-46,
merge_types/mergeable_types.rs:29-35). -/
def allNames (k : Kinds) : List Text := sortNames (k.ins ++ k.mems ++ k.outs ++ k.ifaces)

/-! ## The groups -/

/-- `visited_types` and the store of the comparisons (merge_types/type_merger.rs:38-40). -/
structure GState where
  visited : List Text
  cache : List ((Text × Text) × Bool)
  deriving DecidableEq, Repr

/-- `IndexSet::insert` (standard behaviour, used at merge_types/type_merger.rs:60, 84). -/
def addSet (l : List Text) (x : Text) : List Text := if l.contains x then l else l ++ [x]

/-- The inner loop: all types similar to the first one (merge_types/type_merger.rs:62-88). -/
def compareAll (pre : Text → Bool) (c : Cfg) (k : Kinds) (given : Nat → Nat → Bool) (fuel : Nat) (n1 : Text)
    (t1 : TypeD) : List Text → List Text → GState → Option (List Text × GState)
  | [], set, s => some (set, s)
  | n2 :: r, set, s =>
    if s.visited.contains n2 || !mergeable k n1 n2 then compareAll pre c k given fuel n1 t1 r set s
    else
      match get c.types n2 with
      | none => compareAll pre c k given fuel n1 t1 r set s
      | some t2 =>
        match sim pre c (threshold k given n1 n2) fuel (n1, t1) (n2, t2) ⟨s.cache, []⟩ with
        | none => none
        | some (res, s') =>
          if res = some true then
            compareAll pre c k given fuel n1 t1 r (addSet set n2) ⟨n2 :: n1 :: s.visited, s'.cache⟩
          else compareAll pre c k given fuel n1 t1 r set ⟨n1 :: s.visited, s'.cache⟩

/-- The outer loop (merge_types/type_merger.rs:50-93); `continue` leaves the counter as it is. -/
def groups (pre : Text → Bool) (c : Cfg) (k : Kinds) (given : Nat → Nat → Bool) (fuel : Nat) (all : List Text) :
    List Text → Nat → GState → Option (List (List Text))
  | [], _, _ => some []
  | n1 :: r, i, s =>
    match get c.types n1 with
    | none => groups pre c k given fuel all r (i + 1) s
    | some t1 =>
      if s.visited.contains n1 then groups pre c k given fuel all r i s
      else
        match compareAll pre c k given fuel n1 t1 (all.drop (i + 1)) [n1] s with
        | none => none
        | some (set, s') =>
          match groups pre c k given fuel all r (i + 1) s' with
          | none => none
          | some gs => some (if set.length > 1 then set :: gs else gs)

/-! ## Merging -/

/-- The closure of `and_modify` (merge_types/type_merger.rs:220-228, config/config.rs:229-233): the right field with the type `JSON` if one of
them has it. -/
def mergeField (old new : FieldD) : FieldD :=
  if old.ty.name = json ∨ new.ty.name = json then { new with ty := .named json false } else new

/-- The loop of `merge_type` over the fields (merge_types/type_merger.rs:216-230). -/
def mergeFields : List (Text × FieldD) → List (Text × FieldD) → List (Text × FieldD)
  | [], into => into
  | (n, f) :: r, into =>
    mergeFields r (Verif.Merge.insert n (match get into n with
      | some old => mergeField old f
      | none => f) into)

/-- `merge_type` (merge_types/type_merger.rs:205-233).  `join` merges what else there is of the two types, which are
their documentation and settings; resolvers and directives of the types are dropped. -/
def mergeType (join : Text → Text → Text) (t into : TypeD) : TypeD where
  fields := mergeFields t.fields into.fields
  implements := into.implements ++ t.implements
  info := join into.info t.info

/-- `Type::default()` (config/config.rs:107-133, used at merge_types/type_merger.rs:101). -/
def emptyType : TypeD := ⟨[], [], []⟩

/-- `format!("{}M{}", PREFIX, merge_counter)` (merge_types/type_merger.rs:102, generator/mod.rs:14). -/
def mergedName (k : Nat) : Text := "GEN__M".toList ++ Nat.toDigits 10 k

/-- The types of a group that exist (merge_types/type_merger.rs:104-105). -/
def found (types : List (Text × TypeD)) (g : List Text) : List (Text × TypeD) :=
  g.filterMap (fun n => (get types n).map (fun t => (n, t)))

/-- The second step (merge_types/type_merger.rs:100-116): the next number, the types and the mapping. -/
def mergeGroups (join : Text → Text → Text) : List (List Text) → Nat → List (Text × TypeD) → List (Text × Text) →
    Nat × List (Text × TypeD) × List (Text × Text)
  | [], k, types, l => (k, types, l)
  | g :: gs, k, types, l =>
    let fs := found types g
    if fs.isEmpty then mergeGroups join gs k types l
    else mergeGroups join gs (k + 1)
      (Verif.Merge.insert (mergedName k) (fs.foldl (fun acc p => mergeType join p.2 acc) emptyType) types)
      (fs.foldl (fun l p => insert l p.1 (mergedName k)) l)

/-- The third and fourth step (merge_types/type_merger.rs:118-194); the replacements are the same as those of
`RenameTypes`. -/
def replaceAll (types : List (Text × TypeD)) (l : List (Text × Text)) (c : Cfg) : Cfg :=
  removeTypes { c with
    types := types.map (fun p => (p.1, renameType l p.2))
    unions := c.unions.map (fun p => (p.1, renameUnion l p.2)) } (l.map (·.1))

/-- One run of the body of `merger` (merge_types/type_merger.rs:35-201): `some none` if nothing is to be merged. -/
def round (pre : Text → Bool) (join : Text → Text → Text) (given : Nat → Nat → Bool) (fuel k : Nat) (c : Cfg) :
    Option (Option (Nat × Cfg)) :=
  match kindsOf pre c fuel with
  | none => none
  | some ks =>
    match groups pre c ks given fuel (allNames ks) (allNames ks) 0 ⟨[], []⟩ with
    | none => none
    | some gs =>
      let m := mergeGroups join gs k c.types []
      if m.2.2.isEmpty then some none
      else some (some (m.1, replaceAll m.2.1 m.2.2 c))

/-- `merger` (merge_types/type_merger.rs:35-202). -/
def merger (pre : Text → Bool) (join : Text → Text → Text) (given : Nat → Nat → Bool) (fuel : Nat) :
    Nat → Nat → Cfg → Option Cfg
  | 0, _, _ => none
  | rounds + 1, k, c =>
    match round pre join given fuel k c with
    | none => none
    | some none => some c
    | some (some (k', c')) => merger pre join given fuel rounds k' c'

/-- `TypeMerger::transform` (merge_types/type_merger.rs:235-242): counts from one. -/
def mergeTypes (pre : Text → Bool) (join : Text → Text → Text) (given : Nat → Nat → Bool) (fuel rounds : Nat) (c : Cfg) :
    Option Cfg :=
  merger pre join given fuel rounds 1 c

/-! ## FlattenSingleField -/

/-- `get_single_field_path` (flatten_single_field.rs:12-54), with fuel: `none` is "not finished", `some none` is "no
path". -/
def singlePath (pre : Text → Bool) (c : Cfg) : Nat → List Text → Text → Text → Option (Option (List Text))
  | 0, _, _, _ => none
  | fuel + 1, visited, field, ty =>
    if visited.contains ty then some none
    else if isScalar pre c ty || (get c.enums ty).isSome then some (some [field])
    else
      match get c.types ty with
      | some ⟨[(f, fd)], _, _⟩ =>
        match singlePath pre c fuel (ty :: visited) f fd.ty.name with
        | none => none
        | some none => some none
        | some (some p) => some (some (field :: p))
      | _ => some none

/-- What becomes of a field (flatten_single_field.rs:68-82): with a path of several fields it is omitted, and a field
with its name and the path is added. -/
def flattenField (pre : Text → Bool) (c : Cfg) (fuel : Nat) (n : Text) (f : FieldD) : Option (Option (List Text)) :=
  (singlePath pre c fuel [] n f.ty.name).map (fun r =>
    match r with
    | some p => if p.length > 1 then some p else none
    | none => none)

/-! ## ImproveTypeNames -/

/-- `CandidateStats` (improve_type_names.rs:11-15). -/
structure Stats where
  frequency : Nat
  priority : Nat
  deriving DecidableEq, Repr

/-- The maps of candidates (improve_type_names.rs:18-22). -/
abbrev Cands := List (Text × List (Text × Stats))

/-- One more use of a candidate (improve_type_names.rs:93-116). -/
def addCand (cand : Text) (priority : Nat) (m : List (Text × Stats)) : List (Text × Stats) :=
  match get m cand with
  | some s => Verif.Merge.insert cand { s with frequency := s.frequency + 1 } m
  | none => Verif.Merge.insert cand ⟨1, priority⟩ m

/-- The inner loop of `generate` (improve_type_names.rs:84-117); `singular` is the function of the crate `pluralizer`,
`gen` says that a name starts with `PREFIX`. -/
def genFields (pre : Text → Bool) (singular : Text → Text) (gen : Text → Bool) (c : Cfg) (priority : Nat) :
    List (Text × FieldD) → Cands → Cands
  | [], m => m
  | (n, f) :: r, m =>
    if isScalar pre c f.ty.name || gen n then genFields pre singular gen c priority r m
    else genFields pre singular gen c priority r
      (Verif.Merge.insert f.ty.name (addCand (singular n) priority ((get m f.ty.name).getD [])) m)

/-- `generate` (improve_type_names.rs:82-120); `root` is `is_root_operation_type`. -/
def generate (pre : Text → Bool) (singular : Text → Text) (gen root : Text → Bool) (c : Cfg) :
    List (Text × TypeD) → Cands → Cands
  | [], m => m
  | (n, t) :: r, m =>
    generate pre singular gen root c r (genFields pre singular gen c (if root n then 0 else 1) t.fields m)

/-- The order of `max_by_key` (improve_type_names.rs:49-51). -/
def better (a b : Text × Stats) : Bool :=
  a.2.frequency < b.2.frequency || (a.2.frequency = b.2.frequency &&
    (a.2.priority < b.2.priority || (a.2.priority = b.2.priority && !Verif.Merge.tlt b.1 a.1)))

/-- `max_by_key` (improve_type_names.rs:49-51): the last of the greatest. -/
def best : List (Text × Stats) → Option (Text × Stats)
  | [] => none
  | x :: r => some (r.foldl (fun m y => if better m y then y else m) x)

/-- `converge` (improve_type_names.rs:36-62); `pascal` is `to_case(Case::Pascal)`. -/
def converge (pascal : Text → Text) (c : Cfg) : Cands → List Text → List (Text × Text)
  | [], _ => []
  | (ty, cands) :: r, taken =>
    match best (cands.filter (fun x => !taken.contains (pascal x.1) && (get c.types (pascal x.1)).isNone)) with
    | some x => (ty, pascal x.1) :: converge pascal c r (pascal x.1 :: taken)
    | none => converge pascal c r taken

/-- The new names (improve_type_names.rs:124-133). -/
def newNames (pre : Text → Bool) (singular pascal : Text → Text) (gen root : Text → Bool) (c : Cfg) : List (Text × Text) :=
  converge pascal c (generate pre singular gen root c c.types []) []

/-- `ImproveTypeNames::transform` (improve_type_names.rs:126-134). -/
def improve (pre : Text → Bool) (singular pascal : Text → Text) (gen root : Text → Bool) (c : Cfg) :
    Except (List Text) Cfg :=
  renameTypes (newNames pre singular pascal gen root c) c

end Verif.Refine
