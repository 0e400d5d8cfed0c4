import Verif.Federation.Lemmas

set_option linter.unusedSimpArgs false

/-!
# Properties of merging subgraph schemas (C25, C26, C27, C64)

The specification is the GraphQL notion of a value conforming to a type (`InOk` for inputs, `OutOk` for
outputs), written directly over schemas and independently of the merge.
-/

namespace Verif.Federation
open Verif.Mustache (Text)
open Verif.Merge (get remove keysOf get_none_iff get_mem)
open Verif.HttpUrl (GVal)

/-! ## C25: order independence of type merging -/

/-- The shape of a wrapped type: how many lists around which name. -/
def Ty.shape : Ty → Nat × Text
  | .named n _ => (0, n)
  | .list t _ => (t.shape.1 + 1, t.shape.2)

/-- The non-null flags of a wrapped type, from the outside in. -/
def Ty.flags : Ty → List Bool
  | .named _ nn => [nn]
  | .list t nn => nn :: t.flags

/-- **C25** Merging input types (and output types) does not depend on the order of the two sides. -/
theorem C25_type_merge_commutes (a b : Ty) :
    a.shrink b = b.shrink a ∧ a.expand b = b.expand a :=
  ⟨merge_comm (fun x y => Bool.or_comm x y) a b, merge_comm (fun x y => Bool.and_comm x y) a b⟩

example : (Ty.list (.named "A".toList true) false).shrink (.list (.named "A".toList false) true) =
    some (.list (.named "A".toList true) true) := by decide

/-- **C25** Merging does not depend on how merges are grouped; a failure in one grouping is a failure in the
other. -/
theorem C25_type_merge_associates (a b c : Ty) :
    (a.shrink b).bind (fun x => x.shrink c) = (b.shrink c).bind (fun x => a.shrink x) ∧
    (a.expand b).bind (fun x => x.expand c) = (b.expand c).bind (fun x => a.expand x) :=
  ⟨merge_assoc (fun x y z => Bool.or_assoc x y z) a b c, merge_assoc (fun x y z => Bool.and_assoc x y z) a b c⟩

/-- **C25** Merging a type with itself changes nothing. -/
theorem C25_type_merge_idempotent (a : Ty) : a.shrink a = some a ∧ a.expand a = some a :=
  ⟨merge_self (fun x => Bool.or_self x) a, merge_self (fun x => Bool.and_self x) a⟩

theorem merge_shape (f : Bool → Bool → Bool) (a b : Ty) :
    (Ty.merge f a b).isSome = true ↔ a.shape = b.shape := by
  induction a generalizing b with
  | named n nn => cases b with
    | named n' nn' => by_cases h : n = n' <;> simp [Ty.merge, Ty.shape, h]
    | list t nn' => simp [Ty.merge, Ty.shape]
  | list t nn ih => cases b with
    | named n' nn' => simp [Ty.merge, Ty.shape]
    | list t' nn' =>
      have := ih t'
      simp [Ty.merge, Option.isSome_map, this, Ty.shape, Prod.ext_iff]

theorem merge_flags (f : Bool → Bool → Bool) (a b m : Ty) (h : Ty.merge f a b = some m) :
    m.shape = a.shape ∧ m.flags = List.zipWith f a.flags b.flags := by
  induction a generalizing b m with
  | named n nn => cases b with
    | named n' nn' =>
      simp only [Ty.merge] at h
      split at h
      · cases h
      · simp at h; subst h; simp [Ty.shape, Ty.flags]
    | list t nn' => simp [Ty.merge] at h
  | list t nn ih => cases b with
    | named n' nn' => simp [Ty.merge] at h
    | list t' nn' =>
      simp only [Ty.merge, Option.map_eq_some_iff] at h
      obtain ⟨t'', h1, rfl⟩ := h
      obtain ⟨i1, i2⟩ := ih _ _ h1
      simp [Ty.shape, Ty.flags, i1, i2]

/-- **C25** Types merge exactly if they have the same name under the same number of lists, in either order:
incompatible shapes are rejected in both. -/
theorem C25_incompatible_shapes_rejected (a b : Ty) :
    ((a.shrink b).isSome = true ↔ a.shape = b.shape) ∧ ((b.shrink a).isSome = true ↔ a.shape = b.shape) ∧
    ((a.expand b).isSome = true ↔ a.shape = b.shape) ∧ ((b.expand a).isSome = true ↔ a.shape = b.shape) :=
  ⟨merge_shape _ a b, (merge_shape _ b a).trans eq_comm, merge_shape _ a b, (merge_shape _ b a).trans eq_comm⟩

example : (Ty.list (.named "A".toList true) false).shape ≠ (Ty.named "A".toList true).shape := by decide

/-- **C25** The wrapping of the merge: an input is non-null where either side is, an output where both are. -/
theorem C25_merged_wrapping (a b m : Ty) :
    (a.shrink b = some m → m.shape = a.shape ∧ m.flags = List.zipWith (fun x y => x || y) a.flags b.flags) ∧
    (a.expand b = some m → m.shape = a.shape ∧ m.flags = List.zipWith (fun x y => x && y) a.flags b.flags) :=
  ⟨merge_flags _ a b m, merge_flags _ a b m⟩

/-- What a client sees of a field: its type and the types of its arguments, not the defaults. -/
def FieldSame (a b : Option Field) : Prop :=
  match a, b with
  | none, none => True
  | some x, some y => x.ty = y.ty ∧ ∀ k, (get k x.args).map Arg.ty = (get k y.args).map Arg.ty
  | _, _ => False

theorem shrinkEntries_isSome {E : Type} {tyOf : E → Ty} {sh : E → E → Option E} {a b : List (Text × E)}
    (ha : (keysOf a).Nodup) (hb : (keysOf b).Nodup)
    (h1 : ∀ k x y, get k a = some x → get k b = some y → (sh x y).isSome = true)
    (h2 : ∀ k x, get k a = some x → get k b = none → (tyOf x).isNullable = true)
    (h3 : ∀ k y, get k a = none → get k b = some y → (tyOf y).isNullable = true) :
    (shrinkEntries tyOf sh a b).isSome = true := by
  induction b generalizing a with
  | nil =>
    unfold shrinkEntries
    rw [if_pos]; · rfl
    rw [List.all_eq_true]
    intro p hp
    obtain ⟨k, v⟩ := p
    exact h2 k v (get_of_mem ha hp) rfl
  | cons p r ih =>
    obtain ⟨n, o⟩ := p
    have hb' := nodup_cons_keys hb
    have hn : get n r = none := get_none_iff.mpr hb'.1
    have other : ∀ k, n ≠ k → get k ((n, o) :: r) = get k r := by
      intro k hk; simp [Merge.get, hk]
    have self : get n ((n, o) :: r) = some o := by simp [Merge.get]
    unfold shrinkEntries
    cases e : get n a with
    | some d =>
      simp only
      obtain ⟨s, hs⟩ := Option.isSome_iff_exists.mp (h1 n d o e self)
      have : (shrinkEntries tyOf sh (remove n a) r).isSome = true := by
        apply ih (nodup_remove ha) hb'.2
        · intro k x y hx hy
          rw [get_remove' ha] at hx
          by_cases ek : n = k
          · simp [ek] at hx
          · rw [if_neg ek] at hx
            exact h1 k x y hx (by rw [other k ek]; exact hy)
        · intro k x hx hy
          rw [get_remove' ha] at hx
          by_cases ek : n = k
          · simp [ek] at hx
          · rw [if_neg ek] at hx
            exact h2 k x hx (by rw [other k ek]; exact hy)
        · intro k y hx hy
          rw [get_remove' ha] at hx
          by_cases ek : n = k
          · subst ek; rw [hn] at hy; cases hy
          · rw [if_neg ek] at hx
            exact h3 k y hx (by rw [other k ek]; exact hy)
      obtain ⟨ms, hms⟩ := Option.isSome_iff_exists.mp this
      rw [hs, hms]; rfl
    | none =>
      simp only
      rw [if_pos (h3 n o e self)]
      apply ih ha hb'.2
      · intro k x y hx hy
        by_cases ek : n = k
        · subst ek; rw [hn] at hy; cases hy
        · exact h1 k x y hx (by rw [other k ek]; exact hy)
      · intro k x hx hy
        by_cases ek : n = k
        · subst ek; rw [e] at hx; cases hx
        · exact h2 k x hx (by rw [other k ek]; exact hy)
      · intro k y hx hy
        by_cases ek : n = k
        · subst ek; rw [hn] at hy; cases hy
        · exact h3 k y hx (by rw [other k ek]; exact hy)

theorem joinEntries_isSome {E : Type} {step : Text → E → E → Option E} {a b : List (Text × E)}
    (ha : (keysOf a).Nodup) (hb : (keysOf b).Nodup)
    (h1 : ∀ k x y, get k a = some x → get k b = some y → (step k x y).isSome = true) :
    (joinEntries step a b).isSome = true := by
  induction b generalizing a with
  | nil => simp [joinEntries]
  | cons p r ih =>
    obtain ⟨n, o⟩ := p
    have hb' := nodup_cons_keys hb
    have hn : get n r = none := get_none_iff.mpr hb'.1
    have other : ∀ k, n ≠ k → get k ((n, o) :: r) = get k r := by
      intro k hk; simp [Merge.get, hk]
    have self : get n ((n, o) :: r) = some o := by simp [Merge.get]
    unfold joinEntries
    cases e : get n a with
    | some d =>
      simp only
      obtain ⟨s, hs⟩ := Option.isSome_iff_exists.mp (h1 n d o e self)
      have : (joinEntries step (remove n a) r).isSome = true := by
        apply ih (nodup_remove ha) hb'.2
        intro k x y hx hy
        rw [get_remove' ha] at hx
        by_cases ek : n = k
        · simp [ek] at hx
        · rw [if_neg ek] at hx
          exact h1 k x y hx (by rw [other k ek]; exact hy)
      obtain ⟨ms, hms⟩ := Option.isSome_iff_exists.mp this
      rw [hs, hms]; rfl
    | none =>
      simp only [Option.isSome_map]
      apply ih ha hb'.2
      intro k x y hx hy
      by_cases ek : n = k
      · subst ek; rw [hn] at hy; cases hy
      · exact h1 k x y hx (by rw [other k ek]; exact hy)

/-- `shrinkEntries` succeeds on one order iff on the other, provided merging entries does. -/
theorem shrinkEntries_swap {E : Type} {tyOf : E → Ty} {sh : E → E → Option E} {a b : List (Text × E)}
    (ha : (keysOf a).Nodup) (hb : (keysOf b).Nodup)
    (hs : ∀ k x y, get k a = some x → get k b = some y → (sh x y).isSome = true → (sh y x).isSome = true)
    (h : (shrinkEntries tyOf sh a b).isSome = true) : (shrinkEntries tyOf sh b a).isSome = true := by
  obtain ⟨m, hm⟩ := Option.isSome_iff_exists.mp h
  apply shrinkEntries_isSome hb ha
  · intro k x y hx hy
    exact hs k y x hy hx ((get_shrinkEntries ha hb hm k).2.1 y x hy hx)
  · intro k x hx hy; exact (get_shrinkEntries ha hb hm k).2.2.2 x hy hx
  · intro k x hx hy; exact (get_shrinkEntries ha hb hm k).2.2.1 x hy hx

theorem Arg.shrink_ty {a b m : Arg} (h : a.shrink b = some m) : a.ty.shrink b.ty = some m.ty := by
  simp only [Arg.shrink, Option.map_eq_some_iff] at h
  obtain ⟨t, ht, rfl⟩ := h
  exact ht

theorem Arg.shrink_isSome_comm (a b : Arg) : (a.shrink b).isSome = (b.shrink a).isSome := by
  simp [Arg.shrink, (C25_type_merge_commutes a.ty b.ty).1]

theorem shrinkArgs_comm {a b : List (Text × Arg)} (ha : (keysOf a).Nodup) (hb : (keysOf b).Nodup) :
    (shrinkArgs a b).isSome = (shrinkArgs b a).isSome ∧
    ∀ m m', shrinkArgs a b = some m → shrinkArgs b a = some m' →
      ∀ k, (get k m).map Arg.ty = (get k m').map Arg.ty := by
  constructor
  · rw [Bool.eq_iff_iff]
    constructor
    · exact shrinkEntries_swap ha hb (fun k x y _ _ => by rw [Arg.shrink_isSome_comm]; exact id)
    · exact shrinkEntries_swap hb ha (fun k x y _ _ => by rw [Arg.shrink_isSome_comm]; exact id)
  · intro m m' h h' k
    rw [(get_shrinkEntries ha hb h k).1, (get_shrinkEntries hb ha h' k).1]
    cases get k a <;> cases get k b <;> simp only [shrunk, Option.map_none]
    rename_i x y
    simp only [Arg.shrink, Option.map_map, (C25_type_merge_commutes x.ty y.ty).1]
    rfl

theorem field_comm {a b : Field} (ha : (keysOf a.args).Nodup) (hb : (keysOf b.args).Nodup) :
    FieldSame (a.shrink b) (b.shrink a) ∧ FieldSame (a.expand b) (b.expand a) := by
  obtain ⟨h1, h2⟩ := shrinkArgs_comm ha hb
  have hc := C25_type_merge_commutes a.ty b.ty
  constructor
  · unfold Field.shrink
    rw [hc.1]
    cases b.ty.shrink a.ty <;> cases e : shrinkArgs a.args b.args <;> cases e' : shrinkArgs b.args a.args <;>
      simp_all [FieldSame]
  · unfold Field.expand
    rw [hc.2]
    cases b.ty.expand a.ty <;> cases e : shrinkArgs a.args b.args <;> cases e' : shrinkArgs b.args a.args <;>
      simp_all [FieldSame]

theorem FieldSame.isSome {a b : Option Field} (h : FieldSame a b) : a.isSome = b.isSome := by
  cases a <;> cases b <;> simp_all [FieldSame]

theorem FieldSame.rfl' (a : Option Field) : FieldSame a a := by
  cases a <;> simp [FieldSame]

/-- Keys of a type's fields and of their arguments are distinct (they are maps). -/
def TypeD.Distinct (d : TypeD) : Prop :=
  (keysOf d.fields).Nodup ∧ ∀ k f, get k d.fields = some f → (keysOf f.args).Nodup

/-- **C25** Merging two object types or two input types gives the same fields with the same types and the same
arguments whichever side comes first, and fails in both orders or in none. -/
theorem C25_object_merge_commutes (a b : TypeD) (ha : a.Distinct) (hb : b.Distinct) :
    (a.shrink b).isSome = (b.shrink a).isSome ∧ (a.expand b).isSome = (b.expand a).isSome ∧
    (∀ m m', a.shrink b = some m → b.shrink a = some m' →
      ∀ k, FieldSame (get k m.fields) (get k m'.fields)) ∧
    (∀ m m', a.expand b = some m → b.expand a = some m' →
      ∀ k, FieldSame (get k m.fields) (get k m'.fields)) := by
  obtain ⟨ha, ha'⟩ := ha
  obtain ⟨hb, hb'⟩ := hb
  refine ⟨?_, ?_, ?_, ?_⟩
  · simp only [TypeD.shrink, Option.isSome_map]
    rw [Bool.eq_iff_iff]
    constructor
    · exact shrinkEntries_swap ha hb
        (fun k x y hx hy h => by rw [← (field_comm (ha' k x hx) (hb' k y hy)).1.isSome]; exact h)
    · exact shrinkEntries_swap hb ha
        (fun k x y hx hy h => by rw [← (field_comm (hb' k x hx) (ha' k y hy)).1.isSome]; exact h)
  · simp only [TypeD.expand, Option.isSome_map]
    rw [Bool.eq_iff_iff]
    constructor
    · intro h
      obtain ⟨m, hm⟩ := Option.isSome_iff_exists.mp h
      apply joinEntries_isSome hb ha
      intro k x y hx hy
      rw [(field_comm (hb' k x hx) (ha' k y hy)).2.isSome]
      exact (get_joinEntries ha hb hm k).2 y x hy hx
    · intro h
      obtain ⟨m, hm⟩ := Option.isSome_iff_exists.mp h
      apply joinEntries_isSome ha hb
      intro k x y hx hy
      rw [(field_comm (ha' k x hx) (hb' k y hy)).2.isSome]
      exact (get_joinEntries hb ha hm k).2 y x hy hx
  · intro m m' h h' k
    simp only [TypeD.shrink, Option.map_eq_some_iff] at h h'
    obtain ⟨fs, h, rfl⟩ := h
    obtain ⟨fs', h', rfl⟩ := h'
    simp only
    rw [(get_shrinkEntries ha hb h k).1, (get_shrinkEntries hb ha h' k).1]
    cases e : get k a.fields <;> cases e' : get k b.fields <;> simp only [shrunk, FieldSame.rfl']
    exact (field_comm (ha' k _ e) (hb' k _ e')).1
  · intro m m' h h' k
    simp only [TypeD.expand, Option.map_eq_some_iff] at h h'
    obtain ⟨fs, h, rfl⟩ := h
    obtain ⟨fs', h', rfl⟩ := h'
    simp only
    rw [(get_joinEntries ha hb h k).1, (get_joinEntries hb ha h' k).1]
    cases e : get k a.fields <;> cases e' : get k b.fields <;> simp only [joined, FieldSame.rfl']
    exact (field_comm (ha' k _ e) (hb' k _ e')).2

/-- Two versions of an output type that differ in nullability and in fields. -/
def userA : TypeD := { fields := [
  ("id".toList, { ty := .named "ID".toList true }),
  ("name".toList, { ty := .named "String".toList true,
                    args := [("upper".toList, { ty := .named "Boolean".toList false })] })] }
/-- See `userA`. -/
def userB : TypeD := { fields := [
  ("name".toList, { ty := .named "String".toList false,
                    args := [("upper".toList, { ty := .named "Boolean".toList true })] }),
  ("age".toList, { ty := .named "Int".toList true })] }

example : userA.Distinct ∧ userB.Distinct ∧ (userA.expand userB).map (fun m => keysOf m.fields) =
    some ["name".toList, "age".toList, "id".toList] ∧ (userA.shrink userB).isSome = false := by
  refine ⟨⟨by decide, ?_⟩, ⟨by decide, ?_⟩, by decide, by decide⟩
  · intro k f h
    have := get_mem h
    simp [userA] at this
    rcases this with ⟨_, rfl⟩ | ⟨_, rfl⟩ <;> decide
  · intro k f h
    have := get_mem h
    simp [userB] at this
    rcases this with ⟨_, rfl⟩ | ⟨_, rfl⟩ <;> decide

/-- **C25** Enums: the variants of the merge do not depend on the order. -/
theorem C25_enum_merge_commutes (a b : List Text) (v : Text) :
    (v ∈ shrinkEnum a b ↔ v ∈ a ∧ v ∈ b) ∧ (v ∈ expandEnum a b ↔ v ∈ a ∨ v ∈ b) := by
  constructor
  · simp [shrinkEnum]
  · simp only [expandEnum, List.mem_append, List.mem_filter, Bool.not_eq_true', List.contains_eq_mem,
      decide_eq_false_iff_not]
    constructor
    · rintro (h | h)
      · exact .inl h
      · exact .inr h.1
    · rintro (h | h)
      · exact .inl h
      · by_cases e : v ∈ a
        · exact .inl e
        · exact .inr ⟨h, e⟩

/-- **C25, violated for defaults** The default value of an argument present on both sides depends on the order
of the subgraphs, so the same call means something else after swapping them. -/
theorem C25_violated_by_default_values : ∃ a b m m' : Arg, a.shrink b = some m ∧ b.shrink a = some m' ∧
    m.ty = m'.ty ∧ m.default ≠ m'.default :=
  ⟨{ ty := .named "Int".toList false, default := some "10".toList },
   { ty := .named "Int".toList false, default := some "20".toList }, _, _, rfl, rfl, rfl, by decide⟩

/-! ## Conformance of values -/

/-- The type does not admit null. -/
def Ty.Required : Ty → Prop
  | .named _ nn => nn = true
  | .list _ nn => nn = true

/-- A value is a legal input of a type, given which values the predefined scalars accept (`sc`). A missing
field counts as absent: defaults are already filled in. A custom scalar (a declared type without fields)
accepts every value but null. -/
inductive InOk (sc : Text → GVal → Prop) (c : Cfg) : Ty → GVal → Prop where
  | nullNamed (n) : InOk sc c (.named n false) .null
  | nullList (t) : InOk sc c (.list t false) .null
  | list {t nn vs} : (∀ v ∈ vs, InOk sc c t v) → InOk sc c (.list t nn) (.list vs)
  | enum {n nn variants e} : get n c.enums = some variants → e ∈ variants → InOk sc c (.named n nn) (.enum e)
  | union {n nn members m v} : get n c.unions = some members → m ∈ members → InOk sc c (.named m true) v →
      InOk sc c (.named n nn) v
  | obj {n nn d kvs} (tyOf : Text → Ty) : get n c.types = some d → d.fields ≠ [] →
      (∀ k v, (k, v) ∈ kvs → ∃ f, get k d.fields = some f ∧ f.ty = tyOf k) →
      (∀ k v, (k, v) ∈ kvs → InOk sc c (tyOf k) v) →
      (∀ k f, get k d.fields = some f → f.ty.Required → ∃ v, (k, v) ∈ kvs) →
      InOk sc c (.named n nn) (.obj kvs)
  | scalar {n nn d v} : get n c.types = some d → d.fields = [] → v ≠ .null → InOk sc c (.named n nn) v
  | predefined {n nn v} : get n c.types = none → get n c.enums = none → get n c.unions = none → sc n v →
      InOk sc c (.named n nn) v

/-- A value is a legal answer of a type. Unlike inputs, answers carry only the selected fields, and a value of
a type that implements an interface is a value of the interface. -/
inductive OutOk (sc : Text → GVal → Prop) (c : Cfg) : Ty → GVal → Prop where
  | nullNamed (n) : OutOk sc c (.named n false) .null
  | nullList (t) : OutOk sc c (.list t false) .null
  | list {t nn vs} : (∀ v ∈ vs, OutOk sc c t v) → OutOk sc c (.list t nn) (.list vs)
  | enum {n nn variants e} : get n c.enums = some variants → e ∈ variants → OutOk sc c (.named n nn) (.enum e)
  | union {n nn members m v} : get n c.unions = some members → m ∈ members → OutOk sc c (.named m true) v →
      OutOk sc c (.named n nn) v
  | iface {n nn m d v} : get m c.types = some d → n ∈ d.implements → OutOk sc c (.named m true) v →
      OutOk sc c (.named n nn) v
  | obj {n nn d kvs} (tyOf : Text → Ty) : get n c.types = some d → d.fields ≠ [] →
      (∀ k v, (k, v) ∈ kvs → ∃ f, get k d.fields = some f ∧ f.ty = tyOf k) →
      (∀ k v, (k, v) ∈ kvs → OutOk sc c (tyOf k) v) →
      OutOk sc c (.named n nn) (.obj kvs)
  | scalar {n nn d v} : get n c.types = some d → d.fields = [] → v ≠ .null → OutOk sc c (.named n nn) v
  | predefined {n nn v} : get n c.types = none → get n c.enums = none → get n c.unions = none → sc n v →
      OutOk sc c (.named n nn) v

/-- A set of arguments is a legal call of a field: all given arguments are declared and conform, and all
required ones are given. -/
def CallOk (sc : Text → GVal → Prop) (c : Cfg) (args : List (Text × Arg)) (vs : List (Text × GVal)) : Prop :=
  (∀ k v, (k, v) ∈ vs → ∃ a, get k args = some a ∧ InOk sc c a.ty v) ∧
  (∀ k a, get k args = some a → a.ty.Required → ∃ v, (k, v) ∈ vs)

/-! ## Well-formed subgraphs -/

/-- Specification: the name is a type, an enum or a union of the schema. -/
def Declared (c : Cfg) (n : Text) : Prop :=
  (∃ x, get n c.types = some x) ∨ (∃ x, get n c.enums = some x) ∨ (∃ x, get n c.unions = some x)

/-- A schema whose maps are maps, whose names have one meaning each, that declares all it refers to and does
not redefine predefined scalars. -/
structure WellFormed (pre : Text → Bool) (c : Cfg) : Prop where
  types : (keysOf c.types).Nodup
  enums : (keysOf c.enums).Nodup
  unions : (keysOf c.unions).Nodup
  distinct : ∀ n d, get n c.types = some d → d.Distinct
  typeOnly : ∀ n d, get n c.types = some d → get n c.enums = none ∧ get n c.unions = none
  enumOnly : ∀ n d, get n c.enums = some d → get n c.unions = none
  notPre : ∀ n, Declared c n → pre n = false
  fieldsDeclared : ∀ n d k f, get n c.types = some d → get k d.fields = some f →
    Declared c f.ty.name ∨ pre f.ty.name = true
  argsDeclared : ∀ n d k f j a, get n c.types = some d → get k d.fields = some f → get j f.args = some a →
    Declared c a.ty.name ∨ pre a.ty.name = true
  membersDeclared : ∀ n ms m, get n c.unions = some ms → m ∈ ms → Declared c m ∨ pre m = true

/-- A name declared in both subgraphs means the same sort of thing in both: object, custom scalar, enum or
union. -/
structure SameKinds (a b : Cfg) : Prop where
  types : ∀ n d, get n a.types = some d → get n b.enums = none ∧ get n b.unions = none
  enums : ∀ n d, get n a.enums = some d → get n b.types = none ∧ get n b.unions = none
  unions : ∀ n d, get n a.unions = some d → get n b.types = none ∧ get n b.enums = none
  scalars : ∀ n d e, get n a.types = some d → get n b.types = some e → (d.fields = [] ↔ e.fields = [])

theorem SameKinds.symm {a b : Cfg} (h : SameKinds a b) : SameKinds b a where
  types n d hd := by
    constructor
    · cases e : get n a.enums with
      | none => rfl
      | some x => have := (h.enums n x e).1; rw [hd] at this; cases this
    · cases e : get n a.unions with
      | none => rfl
      | some x => have := (h.unions n x e).1; rw [hd] at this; cases this
  enums n d hd := by
    constructor
    · cases e : get n a.types with
      | none => rfl
      | some x => have := (h.types n x e).1; rw [hd] at this; cases this
    · cases e : get n a.unions with
      | none => rfl
      | some x => have := (h.unions n x e).2; rw [hd] at this; cases this
  unions n d hd := by
    constructor
    · cases e : get n a.types with
      | none => rfl
      | some x => have := (h.types n x e).2; rw [hd] at this; cases this
    · cases e : get n a.enums with
      | none => rfl
      | some x => have := (h.enums n x e).2; rw [hd] at this; cases this
  scalars n d e hd he := (h.scalars n e d he hd).symm

theorem defined_of_declared {c : Cfg} {n : Text} (h : Declared c n) : defined c n = true := by
  rcases h with ⟨x, h⟩ | ⟨x, h⟩ | ⟨x, h⟩ <;> simp [defined, h]

/-! ## What the merge does to one side -/

/-- What the proof needs to know of a subgraph `a` and the merged schema `m` for inputs: on the names `good`,
`m` is at least as strict as `a`. -/
structure Narrows (a m : Cfg) (good : Text → Prop) : Prop where
  enum : ∀ n vs, good n → get n m.enums = some vs → ∃ va, get n a.enums = some va ∧ ∀ e ∈ vs, e ∈ va
  union : ∀ n, good n → get n m.unions = none
  typ : ∀ n d, good n → get n m.types = some d → ∃ x, get n a.types = some x ∧ (d.fields = [] ↔ x.fields = []) ∧
    (∀ k f, get k d.fields = some f → ∃ g, get k x.fields = some g ∧ Stricter f.ty g.ty) ∧
    (∀ k g, get k x.fields = some g → g.ty.Required →
      ∃ f, get k d.fields = some f ∧ f.ty.Required)
  closed : ∀ n x k g, good n → get n a.types = some x → get k x.fields = some g → good g.ty.name
  undeclared : ∀ n, good n → get n m.types = none → get n m.enums = none → get n m.unions = none →
    get n a.types = none ∧ get n a.enums = none ∧ get n a.unions = none

theorem Narrows.sound {sc : Text → GVal → Prop} {a m : Cfg} {good : Text → Prop} (h : Narrows a m good)
    {t : Ty} {v : GVal} (hv : InOk sc m t v) : ∀ t', Stricter t t' → good t'.name → InOk sc a t' v := by
  induction hv with
  | nullNamed n =>
    intro t' hs _
    cases hs with
    | @named _ _ y h => cases y with
      | false => exact .nullNamed _
      | true => simp at h
  | nullList t =>
    intro t' hs _
    cases hs with
    | @list _ _ _ y _ h => cases y with
      | false => exact .nullList _
      | true => simp at h
  | list _ ih =>
    intro t' hs hg
    cases hs with
    | list ht _ => exact .list (fun v hv => ih v hv _ ht hg)
  | enum he hm =>
    intro t' hs hg
    cases hs with
    | named _ =>
      obtain ⟨va, h1, h2⟩ := h.enum _ _ hg he
      exact .enum h1 (h2 _ hm)
  | union hu _ _ _ =>
    intro t' hs hg
    cases hs with
    | named _ => have := h.union _ hg; simp only [Ty.name] at this; rw [hu] at this; cases this
  | obj tyOf hd hne hdecl _ hreq ih =>
    intro t' hs hg
    cases hs with
    | named _ =>
      obtain ⟨x, h1, h2, h3, h4⟩ := h.typ _ _ hg hd
      refine .obj (fun k => ((get k x.fields).map Field.ty).getD (.named [] false)) h1 (fun e => hne (h2.mpr e))
        ?_ ?_ ?_
      · intro k v hk
        obtain ⟨f, hf, _⟩ := hdecl k v hk
        obtain ⟨g, hg', _⟩ := h3 k f hf
        exact ⟨g, hg', by simp [hg']⟩
      · intro k v hk
        obtain ⟨f, hf, hft⟩ := hdecl k v hk
        obtain ⟨g, hg', hst⟩ := h3 k f hf
        simp only [hg', Option.map_some, Option.getD_some]
        exact ih k v hk _ (hft ▸ hst) (h.closed _ _ _ _ hg h1 hg')
      · intro k g hg' hnn
        obtain ⟨f, hf, hfn⟩ := h4 k g hg' hnn
        exact hreq k f hf hfn
  | scalar hd he hv =>
    intro t' hs hg
    cases hs with
    | named _ =>
      obtain ⟨x, h1, h2, _, _⟩ := h.typ _ _ hg hd
      exact .scalar h1 (h2.mp he) hv
  | predefined h1 h2 h3 hsc =>
    intro t' hs hg
    cases hs with
    | named _ =>
      obtain ⟨i1, i2, i3⟩ := h.undeclared _ hg h1 h2 h3
      exact .predefined i1 i2 i3 hsc

/-- What the proof needs to know for outputs: on the names `good`, the merged schema `m` is at least as
permissive as `a`. -/
structure Widens (a m : Cfg) (good : Text → Prop) : Prop where
  enum : ∀ n va, good n → get n a.enums = some va → ∃ vs, get n m.enums = some vs ∧ ∀ e ∈ va, e ∈ vs
  union : ∀ n ms, good n → get n a.unions = some ms → ∃ ms', get n m.unions = some ms' ∧ ∀ x ∈ ms, x ∈ ms' ∧ good x
  typ : ∀ n x, good n → get n a.types = some x → ∃ d, get n m.types = some d ∧ (x.fields = [] ↔ d.fields = []) ∧
    (∀ k g, get k x.fields = some g → good g.ty.name ∧ ∃ f, get k d.fields = some f ∧ Stricter g.ty f.ty)
  iface : ∀ n x i, get n a.types = some x → i ∈ x.implements → good n ∧
    ∃ d, get n m.types = some d ∧ i ∈ d.implements
  undeclared : ∀ n, good n → get n a.types = none → get n a.enums = none → get n a.unions = none →
    get n m.types = none ∧ get n m.enums = none ∧ get n m.unions = none

theorem Widens.sound {sc : Text → GVal → Prop} {a m : Cfg} {good : Text → Prop} (h : Widens a m good)
    {t : Ty} {v : GVal} (hv : OutOk sc a t v) : ∀ t', Stricter t t' → good t.name → OutOk sc m t' v := by
  induction hv with
  | nullNamed n =>
    intro t' hs _
    cases hs with
    | @named _ _ y h => cases y with
      | false => exact .nullNamed _
      | true => simp at h
  | nullList t =>
    intro t' hs _
    cases hs with
    | @list _ _ _ y _ h => cases y with
      | false => exact .nullList _
      | true => simp at h
  | list _ ih =>
    intro t' hs hg
    cases hs with
    | list ht _ => exact .list (fun v hv => ih v hv _ ht hg)
  | enum he hm =>
    intro t' hs hg
    cases hs with
    | named _ =>
      obtain ⟨va, h1, h2⟩ := h.enum _ _ hg he
      exact .enum h1 (h2 _ hm)
  | union hu hm _ ih =>
    intro t' hs hg
    cases hs with
    | named _ =>
      obtain ⟨ms', h1, h2⟩ := h.union _ _ hg hu
      obtain ⟨h3, h4⟩ := h2 _ hm
      exact .union h1 h3 (ih _ (.refl _) h4)
  | iface hd hi _ ih =>
    intro t' hs _
    cases hs with
    | named _ =>
      obtain ⟨hg, d, h1, h2⟩ := h.iface _ _ _ hd hi
      exact .iface h1 h2 (ih _ (.refl _) hg)
  | obj tyOf hd hne hdecl _ ih =>
    intro t' hs hg
    cases hs with
    | named _ =>
      obtain ⟨x, h1, h2, h3⟩ := h.typ _ _ hg hd
      refine .obj (fun k => ((get k x.fields).map Field.ty).getD (.named [] false)) h1 (fun e => hne (h2.mpr e))
        ?_ ?_
      · intro k v hk
        obtain ⟨f, hf, _⟩ := hdecl k v hk
        obtain ⟨_, g, hg', _⟩ := h3 k f hf
        exact ⟨g, hg', by simp [hg']⟩
      · intro k v hk
        obtain ⟨f, hf, hft⟩ := hdecl k v hk
        obtain ⟨hgood, g, hg', hst⟩ := h3 k f hf
        simp only [hg', Option.map_some, Option.getD_some]
        exact ih k v hk _ (hft ▸ hst) (hft ▸ hgood)
  | scalar hd he hv =>
    intro t' hs hg
    cases hs with
    | named _ =>
      obtain ⟨x, h1, h2, _⟩ := h.typ _ _ hg hd
      exact .scalar h1 (h2.mp he) hv
  | predefined h1 h2 h3 hsc =>
    intro t' hs hg
    cases hs with
    | named _ =>
      obtain ⟨i1, i2, i3⟩ := h.undeclared _ hg h1 h2 h3
      exact .predefined i1 i2 i3 hsc

/-! ## What `unify` makes of each side -/

/-- Every field of `d` is at most as permissive as one of `x`, and required fields of `x` stay required. -/
def NarrowFields (d x : TypeD) : Prop :=
  (∀ k f, get k d.fields = some f → ∃ g, get k x.fields = some g ∧ Stricter f.ty g.ty) ∧
  (∀ k g, get k x.fields = some g → g.ty.Required → ∃ f, get k d.fields = some f ∧ f.ty.Required)

/-- Every field of `x` has a field in `d` that is at least as permissive. -/
def WideFields (x d : TypeD) : Prop :=
  ∀ k g, get k x.fields = some g → ∃ f, get k d.fields = some f ∧ Stricter g.ty f.ty

/-- The arguments of a merged field against those of one side. -/
def NarrowArgs (m a : List (Text × Arg)) : Prop :=
  (∀ k f, get k m = some f → ∃ g, get k a = some g ∧ Stricter f.ty g.ty) ∧
  (∀ k g, get k a = some g → g.ty.Required → ∃ f, get k m = some f ∧ f.ty.Required)

theorem required_iff {t : Ty} : t.Required ↔ t.isNullable = false := by
  cases t <;> simp [Ty.Required, Ty.isNullable]

theorem Stricter.required {a b : Ty} (h : Stricter a b) (hb : b.Required) : a.Required := by
  cases h with
  | named h => exact h hb
  | list _ h => exact h hb

theorem NarrowArgs.refl (a : List (Text × Arg)) : NarrowArgs a a :=
  ⟨fun _ f h => ⟨f, h, .refl _⟩, fun _ g h hr => ⟨g, h, hr⟩⟩

theorem shrinkArgs_narrow {a b m : List (Text × Arg)} (ha : (keysOf a).Nodup) (hb : (keysOf b).Nodup)
    (h : shrinkArgs a b = some m) : NarrowArgs m a ∧ NarrowArgs m b := by
  have key := fun k => get_shrinkEntries ha hb h k
  refine ⟨⟨?_, ?_⟩, ⟨?_, ?_⟩⟩
  · intro k f hf
    rw [(key k).1] at hf
    cases e : get k a <;> cases e' : get k b <;> rw [e, e'] at hf <;> simp only [shrunk] at hf <;> try cases hf
    exact ⟨_, rfl, (shrink_stricter (Arg.shrink_ty hf)).1⟩
  · intro k g hg hr
    cases e' : get k b with
    | none =>
      have := (key k).2.2.1 g hg e'
      rw [required_iff, this] at hr; cases hr
    | some y =>
      obtain ⟨f, hf⟩ := Option.isSome_iff_exists.mp ((key k).2.1 g y hg e')
      refine ⟨f, by rw [(key k).1, hg, e']; exact hf, (shrink_stricter (Arg.shrink_ty hf)).1.required hr⟩
  · intro k f hf
    rw [(key k).1] at hf
    cases e : get k a <;> cases e' : get k b <;> rw [e, e'] at hf <;> simp only [shrunk] at hf <;> try cases hf
    exact ⟨_, rfl, (shrink_stricter (Arg.shrink_ty hf)).2⟩
  · intro k g hg hr
    cases e' : get k a with
    | none =>
      have := (key k).2.2.2 g e' hg
      rw [required_iff, this] at hr; cases hr
    | some y =>
      obtain ⟨f, hf⟩ := Option.isSome_iff_exists.mp ((key k).2.1 y g e' hg)
      refine ⟨f, by rw [(key k).1, hg, e']; exact hf, (shrink_stricter (Arg.shrink_ty hf)).2.required hr⟩

theorem Field.shrink_spec {a b m : Field} (h : a.shrink b = some m) :
    a.ty.shrink b.ty = some m.ty ∧ shrinkArgs a.args b.args = some m.args := by
  unfold Field.shrink at h
  cases e : a.ty.shrink b.ty <;> cases e' : shrinkArgs a.args b.args <;> rw [e, e'] at h <;> simp at h
  subst h; simp

theorem Field.expand_spec {a b m : Field} (h : a.expand b = some m) :
    a.ty.expand b.ty = some m.ty ∧ shrinkArgs a.args b.args = some m.args := by
  unfold Field.expand at h
  cases e : a.ty.expand b.ty <;> cases e' : shrinkArgs a.args b.args <;> rw [e, e'] at h <;> simp at h
  subst h; simp

/-- Arguments of every field of `d` that `x` has too. -/
def NarrowAllArgs (d x : TypeD) : Prop :=
  ∀ k f g, get k d.fields = some f → get k x.fields = some g → NarrowArgs f.args g.args

theorem fields_nil_of {d : TypeD} (h : ∀ k, get k d.fields = none) : d.fields = [] := by
  cases e : d.fields with
  | nil => rfl
  | cons p r =>
    obtain ⟨k, v⟩ := p
    have := h k
    rw [e] at this
    simp [Merge.get] at this

theorem TypeD.shrink_spec {x y d : TypeD} (hx : x.Distinct) (hy : y.Distinct) (h : x.shrink y = some d) :
    (NarrowFields d x ∧ NarrowFields d y) ∧ (NarrowAllArgs d x ∧ NarrowAllArgs d y) ∧
    (x.fields = [] → y.fields = [] → d.fields = []) ∧ d.implements = x.implements ++ y.implements := by
  simp only [TypeD.shrink, Option.map_eq_some_iff] at h
  obtain ⟨fs, h, rfl⟩ := h
  have key := fun k => get_shrinkEntries hx.1 hy.1 h k
  refine ⟨⟨⟨?_, ?_⟩, ⟨?_, ?_⟩⟩, ⟨?_, ?_⟩, ?_, rfl⟩
  · intro k f hf
    simp only [(key k).1] at hf
    cases e : get k x.fields <;> cases e' : get k y.fields <;> rw [e, e'] at hf <;> simp only [shrunk] at hf <;> try cases hf
    exact ⟨_, rfl, (shrink_stricter (Field.shrink_spec hf).1).1⟩
  · intro k g hg hr
    cases e' : get k y.fields with
    | none =>
      have := (key k).2.2.1 g hg e'
      rw [required_iff, this] at hr; cases hr
    | some z =>
      obtain ⟨f, hf⟩ := Option.isSome_iff_exists.mp ((key k).2.1 g z hg e')
      refine ⟨f, by simp only [(key k).1, hg, e']; exact hf,
        (shrink_stricter (Field.shrink_spec hf).1).1.required hr⟩
  · intro k f hf
    simp only [(key k).1] at hf
    cases e : get k x.fields <;> cases e' : get k y.fields <;> rw [e, e'] at hf <;> simp only [shrunk] at hf <;> try cases hf
    exact ⟨_, rfl, (shrink_stricter (Field.shrink_spec hf).1).2⟩
  · intro k g hg hr
    cases e' : get k x.fields with
    | none =>
      have := (key k).2.2.2 g e' hg
      rw [required_iff, this] at hr; cases hr
    | some z =>
      obtain ⟨f, hf⟩ := Option.isSome_iff_exists.mp ((key k).2.1 z g e' hg)
      refine ⟨f, by simp only [(key k).1, hg, e']; exact hf,
        (shrink_stricter (Field.shrink_spec hf).1).2.required hr⟩
  · intro k f g hf hg
    simp only [(key k).1, hg] at hf
    cases e' : get k y.fields with
    | none => rw [e'] at hf; cases hf
    | some z =>
      rw [e'] at hf
      exact (shrinkArgs_narrow (hx.2 k g hg) (hy.2 k z e') (Field.shrink_spec hf).2).1
  · intro k f g hf hg
    simp only [(key k).1, hg] at hf
    cases e' : get k x.fields with
    | none => rw [e'] at hf; cases hf
    | some z =>
      rw [e'] at hf
      exact (shrinkArgs_narrow (hx.2 k z e') (hy.2 k g hg) (Field.shrink_spec hf).2).2
  · intro e _
    apply fields_nil_of
    intro k
    simp only [(key k).1, e]; rfl

theorem TypeD.expand_spec {x y d : TypeD} (hx : x.Distinct) (hy : y.Distinct) (h : x.expand y = some d) :
    (WideFields x d ∧ WideFields y d) ∧ (NarrowAllArgs d x ∧ NarrowAllArgs d y) ∧
    (x.fields = [] → y.fields = [] → d.fields = []) ∧ d.implements = x.implements ++ y.implements := by
  simp only [TypeD.expand, Option.map_eq_some_iff] at h
  obtain ⟨fs, h, rfl⟩ := h
  have key := fun k => get_joinEntries hx.1 hy.1 h k
  refine ⟨⟨?_, ?_⟩, ⟨?_, ?_⟩, ?_, rfl⟩
  · intro k g hg
    cases e' : get k y.fields with
    | none => exact ⟨g, by simp only [(key k).1, hg, e']; rfl, .refl _⟩
    | some z =>
      obtain ⟨f, hf⟩ := Option.isSome_iff_exists.mp ((key k).2 g z hg e')
      exact ⟨f, by simp only [(key k).1, hg, e']; exact hf, (expand_stricter (Field.expand_spec hf).1).1⟩
  · intro k g hg
    cases e' : get k x.fields with
    | none => exact ⟨g, by simp only [(key k).1, hg, e']; rfl, .refl _⟩
    | some z =>
      obtain ⟨f, hf⟩ := Option.isSome_iff_exists.mp ((key k).2 z g e' hg)
      exact ⟨f, by simp only [(key k).1, hg, e']; exact hf, (expand_stricter (Field.expand_spec hf).1).2⟩
  · intro k f g hf hg
    simp only [(key k).1, hg] at hf
    cases e' : get k y.fields with
    | none =>
      rw [e'] at hf
      simp only [joined, Option.some.injEq] at hf
      subst hf; exact .refl _
    | some z =>
      rw [e'] at hf
      exact (shrinkArgs_narrow (hx.2 k g hg) (hy.2 k z e') (Field.expand_spec hf).2).1
  · intro k f g hf hg
    simp only [(key k).1, hg] at hf
    cases e' : get k x.fields with
    | none =>
      rw [e'] at hf
      simp only [joined, Option.some.injEq] at hf
      subst hf; exact .refl _
    | some z =>
      rw [e'] at hf
      exact (shrinkArgs_narrow (hx.2 k z e') (hy.2 k g hg) (Field.expand_spec hf).2).2
  · intro e e'
    apply fields_nil_of
    intro k
    simp only [(key k).1, e, e']; rfl

/-- What became of a type that both sides declare, seen from a side with the given inputs and outputs. -/
structure TypeSide (input output : Bool) (x y d : TypeD) : Prop where
  narrow : input = true → NarrowFields d x
  wide : output = true → WideFields x d
  args : NarrowAllArgs d x
  empty : x.fields = [] → y.fields = [] → d.fields = []
  implements : ∀ i ∈ x.implements, i ∈ d.implements

theorem unifyType_side {A B : Module} {n : Text} {x y d : TypeD} (hx : x.Distinct) (hy : y.Distinct)
    (h : unifyType A B n x y = some d) :
    TypeSide (A.input.contains n) (A.output.contains n) x y d ∧
    TypeSide (B.input.contains n) (B.output.contains n) y x d := by
  have sh : ∀ i o i' o', o = false → o' = false → x.shrink y = some d →
      TypeSide i o x y d ∧ TypeSide i' o' y x d := by
    intro i o i' o' ho ho' h
    obtain ⟨⟨h1, h2⟩, ⟨h3, h4⟩, h5, h6⟩ := TypeD.shrink_spec hx hy h
    exact ⟨⟨fun _ => h1, by simp [ho], h3, h5, by simp +contextual [h6]⟩,
      ⟨fun _ => h2, by simp [ho'], h4, fun a b => h5 b a, by simp +contextual [h6]⟩⟩
  have ex : ∀ i o i' o', i = false → i' = false → x.expand y = some d →
      TypeSide i o x y d ∧ TypeSide i' o' y x d := by
    intro i o i' o' ho ho' h
    obtain ⟨⟨h1, h2⟩, ⟨h3, h4⟩, h5, h6⟩ := TypeD.expand_spec hx hy h
    exact ⟨⟨by simp [ho], fun _ => h1, h3, h5, by simp +contextual [h6]⟩,
      ⟨by simp [ho'], fun _ => h2, h4, fun a b => h5 b a, by simp +contextual [h6]⟩⟩
  unfold unifyType at h
  cases e1 : A.input.contains n <;> cases e2 : A.output.contains n <;> cases e3 : A.interfaces.contains n <;>
  cases e4 : B.input.contains n <;> cases e5 : B.output.contains n <;> cases e6 : B.interfaces.contains n <;>
  simp only [e1, e2, e3, e4, e5, e6, Bool.or_self, Bool.or_true, Bool.or_false, Bool.true_or,
    Bool.false_or] at h <;>
  first
  | exact sh _ _ _ _ rfl rfl h
  | exact ex _ _ _ _ rfl rfl h
  | cases h

/-- What became of an enum that both sides declare. -/
structure EnumSide (input output : Bool) (x d : List Text) : Prop where
  narrow : input = true → ∀ e ∈ d, e ∈ x
  wide : output = true → ∀ e ∈ x, e ∈ d

theorem unifyEnum_side {A B : Module} {n : Text} {x y d : List Text} (h : unifyEnum A B n x y = some d) :
    EnumSide (A.input.contains n) (A.output.contains n) x d ∧
    EnumSide (B.input.contains n) (B.output.contains n) y d := by
  have sh : ∀ i o i' o', o = false → o' = false → some (shrinkEnum x y) = some d →
      EnumSide i o x d ∧ EnumSide i' o' y d := by
    intro i o i' o' ho ho' h
    simp at h; subst h
    exact ⟨⟨fun _ e he => ((C25_enum_merge_commutes x y e).1.mp he).1, by simp [ho]⟩,
      ⟨fun _ e he => ((C25_enum_merge_commutes x y e).1.mp he).2, by simp [ho']⟩⟩
  have ex : ∀ i o i' o', i = false → i' = false → some (expandEnum x y) = some d →
      EnumSide i o x d ∧ EnumSide i' o' y d := by
    intro i o i' o' ho ho' h
    simp at h; subst h
    exact ⟨⟨by simp [ho], fun _ e he => ((C25_enum_merge_commutes x y e).2.mpr (.inl he))⟩,
      ⟨by simp [ho'], fun _ e he => ((C25_enum_merge_commutes x y e).2.mpr (.inr he))⟩⟩
  have eq : ∀ i o i' o', (if x = y then some x else none) = some d →
      EnumSide i o x d ∧ EnumSide i' o' y d := by
    intro i o i' o' h
    split at h
    · rename_i e; have h9 := Option.some.inj h; subst e; subst h9
      exact ⟨⟨fun _ _ h => h, fun _ _ h => h⟩, ⟨fun _ _ h => h, fun _ _ h => h⟩⟩
    · cases h
  unfold unifyEnum at h
  cases e1 : A.input.contains n <;> cases e2 : A.output.contains n <;>
  cases e4 : B.input.contains n <;> cases e5 : B.output.contains n <;>
  simp only [e1, e2, e4, e5] at h <;>
  first
  | exact sh _ _ _ _ rfl rfl h
  | exact ex _ _ _ _ rfl rfl h
  | exact eq _ _ _ _ h
  | cases h

theorem mem_uniteNames {a b : List Text} {x : Text} : x ∈ uniteNames a b ↔ x ∈ a ∨ x ∈ b :=
  (C25_enum_merge_commutes a b x).2

/-- How the merged schema relates to the side `A` of a merge with `B`. -/
structure Side (A B : Module) (m : Cfg) : Prop where
  type : ∀ n, match get n A.cfg.types, get n B.cfg.types, get n m.types with
    | some x, some y, d => ∃ d', d = some d' ∧ TypeSide (A.input.contains n) (A.output.contains n) x y d'
    | some x, none, d => d = some x
    | none, y, d => d = y
  enum : ∀ n, match get n A.cfg.enums, get n B.cfg.enums, get n m.enums with
    | some x, some _, d => ∃ d', d = some d' ∧ EnumSide (A.input.contains n) (A.output.contains n) x d'
    | some x, none, d => d = some x
    | none, y, d => d = y
  union : ∀ n, match get n A.cfg.unions, get n B.cfg.unions, get n m.unions with
    | some x, some _, d => ∃ d', d = some d' ∧ ∀ e ∈ x, e ∈ d'
    | some x, none, d => d = some x
    | none, y, d => d = y

theorem unify_sides {pre : Text → Bool} {A B M : Module} (hA : WellFormed pre A.cfg) (hB : WellFormed pre B.cfg)
    (h : unify A B = some M) : Side A B M.cfg ∧ Side B A M.cfg := by
  unfold unify at h
  cases h1 : joinEntries (unifyType A B) A.cfg.types B.cfg.types with
  | none => rw [h1] at h; simp at h
  | some types =>
  cases h2 : joinEntries (unifyEnum A B) A.cfg.enums B.cfg.enums with
  | none => rw [h1, h2] at h; simp at h
  | some enums =>
  cases h3 : unifyUnions A.cfg.unions B.cfg.unions with
  | none => rw [h1, h2, h3] at h; simp at h
  | some unions =>
  rw [h1, h2, h3] at h
  simp only [Option.some.injEq] at h
  subst h
  have k1 := fun n => get_joinEntries hA.types hB.types h1 n
  have k2 := fun n => get_joinEntries hA.enums hB.enums h2 n
  have k3 := fun n => get_joinEntries hA.unions hB.unions h3 n
  refine ⟨⟨?_, ?_, ?_⟩, ⟨?_, ?_, ?_⟩⟩
  · intro n
    simp only [(k1 n).1]
    cases e : get n A.cfg.types <;> cases e' : get n B.cfg.types <;> simp only [joined]
    rename_i x y
    obtain ⟨d, hd⟩ := Option.isSome_iff_exists.mp ((k1 n).2 x y e e')
    exact ⟨d, hd, (unifyType_side (hA.distinct n x e) (hB.distinct n y e') hd).1⟩
  · intro n
    simp only [(k2 n).1]
    cases e : get n A.cfg.enums <;> cases e' : get n B.cfg.enums <;> simp only [joined]
    rename_i x y
    obtain ⟨d, hd⟩ := Option.isSome_iff_exists.mp ((k2 n).2 x y e e')
    exact ⟨d, hd, (unifyEnum_side hd).1⟩
  · intro n
    simp only [(k3 n).1]
    cases e : get n A.cfg.unions <;> cases e' : get n B.cfg.unions <;> simp only [joined]
    exact ⟨_, rfl, fun e he => mem_uniteNames.mpr (.inl he)⟩
  · intro n
    simp only [(k1 n).1]
    cases e : get n A.cfg.types <;> cases e' : get n B.cfg.types <;> simp only [joined]
    rename_i x y
    obtain ⟨d, hd⟩ := Option.isSome_iff_exists.mp ((k1 n).2 x y e e')
    exact ⟨d, hd, (unifyType_side (hA.distinct n x e) (hB.distinct n y e') hd).2⟩
  · intro n
    simp only [(k2 n).1]
    cases e : get n A.cfg.enums <;> cases e' : get n B.cfg.enums <;> simp only [joined]
    rename_i x y
    obtain ⟨d, hd⟩ := Option.isSome_iff_exists.mp ((k2 n).2 x y e e')
    exact ⟨d, hd, (unifyEnum_side hd).2⟩
  · intro n
    simp only [(k3 n).1]
    cases e : get n A.cfg.unions <;> cases e' : get n B.cfg.unions <;> simp only [joined]
    exact ⟨_, rfl, fun e he => mem_uniteNames.mpr (.inr he)⟩

/-! ## Which names are classified -/

/-- Specification: the name is declared as a type without fields. -/
def CustomScalar (c : Cfg) (n : Text) : Prop := ∃ d, get n c.types = some d ∧ d.fields = []

theorem isScalar_false {pre : Text → Bool} {c : Cfg} (w : WellFormed pre c) {m : Text} (hd : Declared c m)
    (hs : ¬ CustomScalar c m) : isScalar pre c m = false := by
  unfold isScalar
  cases e : get m c.types with
  | none => exact w.notPre m hd
  | some d =>
    simp only [TypeD.scalar, List.isEmpty_eq_false_iff]
    exact fun h => hs ⟨d, e, h⟩

theorem moduleOf_spec {pre : Text → Bool} {fuel : Nat} {c : Cfg} {A : Module} (h : moduleOf pre fuel c = some A) :
    A.cfg = c ∧ inputTypes pre c fuel = some A.input ∧ outputTypes pre c fuel = some A.output := by
  unfold moduleOf at h
  cases e : inputTypes pre c fuel <;> cases e' : outputTypes pre c fuel <;> rw [e, e'] at h <;> simp at h
  subst h; simp

theorem closed_succ {pre : Text → Bool} {c : Cfg} (w : WellFormed pre c) {S : List Text}
    (hS : ClosedBut pre c S []) {n : Text} {x : TypeD} {k : Text} {g : Field} (hn : n ∈ S)
    (hx : get n c.types = some x) (hg : get k x.fields = some g) (hd : Declared c g.ty.name)
    (hs : ¬ CustomScalar c g.ty.name) : g.ty.name ∈ S := by
  apply hS n hn (by simp) _ _ (defined_of_declared hd)
  unfold successors
  rw [(w.typeOnly n x hx).2, hx]
  simp only [List.mem_filter, List.mem_map]
  exact ⟨⟨(k, g), get_mem hg, rfl⟩, by simp [isScalar_false w hd hs]⟩

/-- The names whose use in `A` is known to be as in `S`, or that mean the same everywhere. -/
def Good (pre : Text → Bool) (c : Cfg) (S : List Text) (n : Text) : Prop :=
  (Declared c n ∧ (CustomScalar c n ∨ n ∈ S)) ∨ (¬ Declared c n ∧ pre n = true)

theorem good_field {pre : Text → Bool} {c : Cfg} (w : WellFormed pre c) {S : List Text}
    (hS : ClosedBut pre c S []) {n : Text} {x : TypeD} {k : Text} {g : Field} (hn : Good pre c S n)
    (hx : get n c.types = some x) (hg : get k x.fields = some g) : Good pre c S g.ty.name := by
  have hnS : n ∈ S := by
    rcases hn with ⟨_, ⟨d, hd, he⟩ | h⟩ | ⟨h, _⟩
    · rw [hx] at hd; cases hd; rw [he] at hg; simp [Merge.get] at hg
    · exact h
    · exact absurd (.inl ⟨x, hx⟩) h
  by_cases hd : Declared c g.ty.name
  · left
    refine ⟨hd, ?_⟩
    by_cases hs : CustomScalar c g.ty.name
    · exact .inl hs
    · exact .inr (closed_succ w hS hnS hx hg hd hs)
  · right
    exact ⟨hd, (w.fieldsDeclared n x k g hx hg).resolve_left hd⟩

theorem good_arg {pre : Text → Bool} {fuel : Nat} {c : Cfg} (w : WellFormed pre c) {S : List Text}
    (hS : inputTypes pre c fuel = some S) {n : Text} {x : TypeD} {k j : Text} {g : Field} {a : Arg}
    (hx : get n c.types = some x) (hg : get k x.fields = some g) (ha : get j g.args = some a) :
    Good pre c S a.ty.name := by
  obtain ⟨_, h2, _⟩ := findAll_spec pre c fuel _ _ _ hS
  by_cases hd : Declared c a.ty.name
  · left
    refine ⟨hd, ?_⟩
    by_cases hs : CustomScalar c a.ty.name
    · exact .inl hs
    · right
      apply h2 _ _ (defined_of_declared hd)
      simp only [List.mem_filter, argTypes, List.mem_flatMap, List.mem_map]
      exact ⟨⟨(n, x), get_mem hx, (k, g), get_mem hg, (j, a), get_mem ha, rfl⟩,
        by simp [isScalar_false w hd hs]⟩
  · right
    exact ⟨hd, (w.argsDeclared n x k g j a hx hg ha).resolve_left hd⟩

theorem closed_inputs {pre : Text → Bool} {fuel : Nat} {c : Cfg} {S : List Text}
    (hS : inputTypes pre c fuel = some S) : ClosedBut pre c S [] :=
  (findAll_spec pre c fuel _ _ _ hS).2.2 (by intro n hn; cases hn)

theorem closed_outputs {pre : Text → Bool} {fuel : Nat} {c : Cfg} {S : List Text}
    (hS : outputTypes pre c fuel = some S) : ClosedBut pre c S [] :=
  (findAll_spec pre c fuel _ _ _ hS).2.2 (by intro n hn; cases hn)

theorem good_root {pre : Text → Bool} {fuel : Nat} {c : Cfg} {S : List Text}
    (hS : outputTypes pre c fuel = some S) {q : Text} (hq : c.query = some q ∨ c.mutation = some q)
    (hd : Declared c q) : Good pre c S q := by
  left
  refine ⟨hd, .inr ((findAll_spec pre c fuel _ _ _ hS).2.1 q ?_ (defined_of_declared hd))⟩
  rcases hq with h | h <;> simp [h]

/-! ## The two sides are sound -/

/-- Unions are not used as inputs. -/
def NoInputUnions (A : Module) : Prop := ∀ n ∈ A.input, get n A.cfg.unions = none

/-- No object type of `a` has lost all its fields in `m` (a type without fields is a scalar). -/
def NoneEmptied (a m : Cfg) : Prop :=
  ∀ n x d, get n a.types = some x → get n m.types = some d → d.fields = [] → x.fields = []

theorem narrows {pre : Text → Bool} {fuel : Nat} {A B : Module} {m : Cfg}
    (hm : moduleOf pre fuel A.cfg = some A) (wA : WellFormed pre A.cfg) (wB : WellFormed pre B.cfg)
    (sk : SameKinds A.cfg B.cfg) (side : Side A B m) (nu : NoInputUnions A) (ne : NoneEmptied A.cfg m) :
    Narrows A.cfg m (Good pre A.cfg A.input) where
  enum n vs hg hv := by
    have hs := side.enum n
    rw [hv] at hs
    cases e : get n A.cfg.enums with
    | none =>
      rw [e] at hs
      have hB := hs.symm
      exfalso
      rcases hg with ⟨hd, _⟩ | ⟨_, hp⟩
      · rcases hd with ⟨x, hx⟩ | ⟨x, hx⟩ | ⟨x, hx⟩
        · have := (sk.types n x hx).1; rw [hB] at this; cases this
        · rw [e] at hx; cases hx
        · have := (sk.unions n x hx).2; rw [hB] at this; cases this
      · have := wB.notPre n (.inr (.inl ⟨_, hB⟩)); rw [hp] at this; cases this
    | some x =>
      cases e' : get n B.cfg.enums with
      | none =>
        rw [e, e'] at hs
        simp at hs; subst hs
        exact ⟨_, rfl, fun _ h => h⟩
      | some y =>
        rw [e, e'] at hs
        simp only at hs
        obtain ⟨d', hd', hside⟩ := hs
        simp at hd'; subst hd'
        refine ⟨x, rfl, hside.narrow ?_⟩
        rcases hg with ⟨_, ⟨d, hd, _⟩ | h⟩ | ⟨h, _⟩
        · have := (wA.typeOnly n d hd).1; rw [e] at this; cases this
        · simpa using h
        · exact absurd (.inr (.inl ⟨x, e⟩)) h
  union n hg := by
    have hs := side.union n
    cases e : get n A.cfg.unions with
    | some x =>
      exfalso
      rcases hg with ⟨_, ⟨d, hd, _⟩ | h⟩ | ⟨h, _⟩
      · have := (wA.typeOnly n d hd).2; rw [e] at this; cases this
      · have := nu n h; rw [e] at this; cases this
      · exact h (.inr (.inr ⟨x, e⟩))
    | none =>
      rw [e] at hs
      simp only at hs
      rw [hs]
      cases e' : get n B.cfg.unions with
      | none => rfl
      | some y =>
        exfalso
        rcases hg with ⟨hd, _⟩ | ⟨_, hp⟩
        · rcases hd with ⟨x, hx⟩ | ⟨x, hx⟩ | ⟨x, hx⟩
          · have := (sk.types n x hx).2; rw [e'] at this; cases this
          · have := (sk.enums n x hx).2; rw [e'] at this; cases this
          · rw [e] at hx; cases hx
        · have := wB.notPre n (.inr (.inr ⟨_, e'⟩)); rw [hp] at this; cases this
  typ n d hg hd := by
    have hs := side.type n
    rw [hd] at hs
    cases e : get n A.cfg.types with
    | none =>
      rw [e] at hs
      have hB := hs.symm
      exfalso
      rcases hg with ⟨hd, _⟩ | ⟨_, hp⟩
      · rcases hd with ⟨x, hx⟩ | ⟨x, hx⟩ | ⟨x, hx⟩
        · rw [e] at hx; cases hx
        · have := (sk.enums n x hx).1; rw [hB] at this; cases this
        · have := (sk.unions n x hx).1; rw [hB] at this; cases this
      · have := wB.notPre n (.inl ⟨_, hB⟩); rw [hp] at this; cases this
    | some x =>
      cases e' : get n B.cfg.types with
      | none =>
        rw [e, e'] at hs
        simp at hs; subst hs
        exact ⟨_, rfl, Iff.rfl, fun k f hf => ⟨f, hf, .refl _⟩, fun k g hg hr => ⟨g, hg, hr⟩⟩
      | some y =>
        rw [e, e'] at hs
        simp only at hs
        obtain ⟨d', hd', hside⟩ := hs
        simp at hd'; subst hd'
        have hiff : d.fields = [] ↔ x.fields = [] :=
          ⟨fun h => ne n x d e hd h, fun h => hside.empty h ((sk.scalars n x y e e').mp h)⟩
        by_cases hin : n ∈ A.input
        · have := hside.narrow (by simpa using hin)
          exact ⟨x, rfl, hiff, this.1, this.2⟩
        · have hx0 : x.fields = [] := by
            rcases hg with ⟨_, ⟨d, hd, h0⟩ | h⟩ | ⟨h, _⟩
            · rw [e] at hd; cases hd; exact h0
            · exact absurd h hin
            · exact absurd (.inl ⟨x, e⟩) h
          have hd0 := hiff.mpr hx0
          refine ⟨x, rfl, hiff, ?_, ?_⟩
          · intro k f hf; rw [hd0] at hf; simp [Merge.get] at hf
          · intro k g hg; rw [hx0] at hg; simp [Merge.get] at hg
  closed n x k g hg hx hf := by
    obtain ⟨_, hi, _⟩ := moduleOf_spec hm
    exact good_field wA (closed_inputs hi) hg hx hf
  undeclared n _ h1 h2 h3 := by
    have s1 := side.type n
    have s2 := side.enum n
    have s3 := side.union n
    rw [h1] at s1; rw [h2] at s2; rw [h3] at s3
    refine ⟨?_, ?_, ?_⟩
    · cases e : get n A.cfg.types <;> cases e' : get n B.cfg.types <;> rw [e, e'] at s1 <;> simp_all
    · cases e : get n A.cfg.enums <;> cases e' : get n B.cfg.enums <;> rw [e, e'] at s2 <;> simp_all
    · cases e : get n A.cfg.unions <;> cases e' : get n B.cfg.unions <;> rw [e, e'] at s3 <;> simp_all

/-- Types that implement an interface are reached from the roots. -/
def ImplementersReached (A : Module) : Prop :=
  ∀ n x i, get n A.cfg.types = some x → i ∈ x.implements → n ∈ A.output

theorem good_member {pre : Text → Bool} {c : Cfg} (w : WellFormed pre c) {S : List Text}
    (hS : ClosedBut pre c S []) {n m : Text} {ms : List Text} (hn : Good pre c S n)
    (hx : get n c.unions = some ms) (hmem : m ∈ ms) : Good pre c S m := by
  have hnS : n ∈ S := by
    rcases hn with ⟨_, ⟨d, hd, he⟩ | h⟩ | ⟨h, _⟩
    · have := (w.typeOnly n d hd).2; rw [hx] at this; cases this
    · exact h
    · exact absurd (.inr (.inr ⟨ms, hx⟩)) h
  by_cases hd : Declared c m
  · left
    refine ⟨hd, .inr ?_⟩
    apply hS n hnS (by simp) _ _ (defined_of_declared hd)
    unfold successors
    rw [hx]; exact hmem
  · right
    exact ⟨hd, (w.membersDeclared n ms m hx hmem).resolve_left hd⟩

theorem widens {pre : Text → Bool} {fuel : Nat} {A B : Module} {m : Cfg}
    (hm : moduleOf pre fuel A.cfg = some A) (wA : WellFormed pre A.cfg) (wB : WellFormed pre B.cfg)
    (sk : SameKinds A.cfg B.cfg) (side : Side A B m) (ir : ImplementersReached A) :
    Widens A.cfg m (Good pre A.cfg A.output) where
  enum n va hg hv := by
    have hs := side.enum n
    rw [hv] at hs
    cases e' : get n B.cfg.enums with
    | none => rw [e'] at hs; exact ⟨va, hs, fun _ h => h⟩
    | some y =>
      rw [e'] at hs
      simp only at hs
      obtain ⟨d', hd', hside⟩ := hs
      refine ⟨d', hd', hside.wide ?_⟩
      rcases hg with ⟨_, ⟨d, hd, _⟩ | h⟩ | ⟨h, _⟩
      · have := (wA.typeOnly n d hd).1; rw [hv] at this; cases this
      · simpa using h
      · exact absurd (.inr (.inl ⟨va, hv⟩)) h
  union n ms hg hu := by
    obtain ⟨_, _, ho⟩ := moduleOf_spec hm
    have hgood := fun x hx => good_member wA (closed_outputs ho) hg hu (m := x) hx
    have hs := side.union n
    rw [hu] at hs
    cases e' : get n B.cfg.unions with
    | none => rw [e'] at hs; exact ⟨ms, hs, fun x h => ⟨h, hgood x h⟩⟩
    | some y =>
      rw [e'] at hs
      simp only at hs
      obtain ⟨d', hd', hside⟩ := hs
      exact ⟨d', hd', fun x h => ⟨hside x h, hgood x h⟩⟩
  typ n x hg hx := by
    obtain ⟨_, _, ho⟩ := moduleOf_spec hm
    have hgood := fun k g hk => good_field wA (closed_outputs ho) hg hx (k := k) (g := g) hk
    have hs := side.type n
    rw [hx] at hs
    cases e' : get n B.cfg.types with
    | none => rw [e'] at hs; exact ⟨x, hs, Iff.rfl, fun k g hk => ⟨hgood k g hk, g, hk, .refl _⟩⟩
    | some y =>
      rw [e'] at hs
      simp only at hs
      obtain ⟨d', hd', hside⟩ := hs
      by_cases hin : n ∈ A.output
      · have hw := hside.wide (by simpa using hin)
        refine ⟨d', hd', ⟨fun h => hside.empty h ((sk.scalars n x y hx e').mp h), ?_⟩,
          fun k g hk => ⟨hgood k g hk, hw k g hk⟩⟩
        intro h0
        apply fields_nil_of
        intro k
        cases ek : get k x.fields with
        | none => rfl
        | some g =>
          obtain ⟨f, hf, _⟩ := hw k g ek
          rw [h0] at hf; simp [Merge.get] at hf
      · have hx0 : x.fields = [] := by
          rcases hg with ⟨_, ⟨d, hd, h0⟩ | h⟩ | ⟨h, _⟩
          · rw [hx] at hd; cases hd; exact h0
          · exact absurd h hin
          · exact absurd (.inl ⟨x, hx⟩) h
        have hd0 := hside.empty hx0 ((sk.scalars n x y hx e').mp hx0)
        refine ⟨d', hd', ⟨fun _ => hd0, fun _ => hx0⟩, ?_⟩
        intro k g hk; rw [hx0] at hk; simp [Merge.get] at hk
  iface n x i hx hi := by
    refine ⟨.inl ⟨.inl ⟨x, hx⟩, .inr (ir n x i hx hi)⟩, ?_⟩
    have hs := side.type n
    rw [hx] at hs
    cases e' : get n B.cfg.types with
    | none => rw [e'] at hs; exact ⟨x, hs, hi⟩
    | some y =>
      rw [e'] at hs
      simp only at hs
      obtain ⟨d', hd', hside⟩ := hs
      exact ⟨d', hd', hside.implements i hi⟩
  undeclared n hg h1 h2 h3 := by
    have hp : pre n = true := by
      rcases hg with ⟨hd, _⟩ | ⟨_, hp⟩
      · rcases hd with ⟨x, hx⟩ | ⟨x, hx⟩ | ⟨x, hx⟩
        · rw [h1] at hx; cases hx
        · rw [h2] at hx; cases hx
        · rw [h3] at hx; cases hx
      · exact hp
    have hB : ¬ Declared B.cfg n := fun h => by have := wB.notPre n h; rw [hp] at this; cases this
    have s1 := side.type n
    have s2 := side.enum n
    have s3 := side.union n
    rw [h1] at s1; rw [h2] at s2; rw [h3] at s3
    simp only at s1 s2 s3
    rw [s1, s2, s3]
    refine ⟨?_, ?_, ?_⟩
    · cases e : get n B.cfg.types with
      | none => rfl
      | some x => exact absurd (.inl ⟨x, e⟩) hB
    · cases e : get n B.cfg.enums with
      | none => rfl
      | some x => exact absurd (.inr (.inl ⟨x, e⟩)) hB
    · cases e : get n B.cfg.unions with
      | none => rfl
      | some x => exact absurd (.inr (.inr ⟨x, e⟩)) hB

/-! ## C27: inputs -/

theorem callOk_of {sc : Text → GVal → Prop} {a m : Cfg} {good : Text → Prop} (h : Narrows a m good)
    {fm fa : List (Text × Arg)} (hn : NarrowArgs fm fa) (hg : ∀ k x, get k fa = some x → good x.ty.name)
    {vs : List (Text × GVal)} (hv : CallOk sc m fm vs) : CallOk sc a fa vs := by
  constructor
  · intro k v hk
    obtain ⟨x, hx, hok⟩ := hv.1 k v hk
    obtain ⟨y, hy, hst⟩ := hn.1 k x hx
    exact ⟨y, hy, h.sound hok _ hst (hg k y hy)⟩
  · intro k x hx hr
    obtain ⟨f, hf, hfr⟩ := hn.2 k x hx hr
    exact hv.2 k f hf hfr

theorem call_side {pre : Text → Bool} {fuel : Nat} {A B : Module} {m : Cfg} {sc : Text → GVal → Prop}
    (hm : moduleOf pre fuel A.cfg = some A) (wA : WellFormed pre A.cfg) (wB : WellFormed pre B.cfg)
    (sk : SameKinds A.cfg B.cfg) (side : Side A B m) (nu : NoInputUnions A) (ne : NoneEmptied A.cfg m)
    {T k : Text} {tA tM : TypeD} {fA fM : Field} (h1 : get T A.cfg.types = some tA)
    (h2 : get k tA.fields = some fA) (h3 : get T m.types = some tM) (h4 : get k tM.fields = some fM)
    {vs : List (Text × GVal)} (hv : CallOk sc m fM.args vs) : CallOk sc A.cfg fA.args vs := by
  obtain ⟨_, hi, _⟩ := moduleOf_spec hm
  refine callOk_of (narrows hm wA wB sk side nu ne) ?_ (fun j x hx => good_arg wA hi h1 h2 hx) hv
  have hs := side.type T
  rw [h1, h3] at hs
  cases e : get T B.cfg.types with
  | none =>
    rw [e] at hs
    simp at hs; subst hs
    rw [h2] at h4; simp at h4; subst h4
    exact .refl _
  | some y =>
    rw [e] at hs
    simp only at hs
    obtain ⟨d', hd', hside⟩ := hs
    simp at hd'; subst hd'
    exact hside.args k fM fA h4 h2

/-- **C27 (partial)** Every call that the merged schema accepts for a field is accepted, argument by argument
and as a whole, by every subgraph that has the field: all given arguments are known to the subgraph and
conform to its own types, however deeply nested, and no argument it requires is missing.

Missing: subgraphs in which the same name means different sorts of things, unions used as inputs, and input
types left without fields by the merge; for each of these the claim is false (theorems below). -/
theorem C27_merged_input_accepted_by_both_partial {pre : Text → Bool} {fuel : Nat} {A B M : Module}
    (sc : Text → GVal → Prop)
    (hA : moduleOf pre fuel A.cfg = some A) (hB : moduleOf pre fuel B.cfg = some B)
    (wA : WellFormed pre A.cfg) (wB : WellFormed pre B.cfg) (sk : SameKinds A.cfg B.cfg)
    (uA : NoInputUnions A) (uB : NoInputUnions B) (h : unify A B = some M)
    (eA : NoneEmptied A.cfg M.cfg) (eB : NoneEmptied B.cfg M.cfg)
    {T k : Text} {tM : TypeD} {fM : Field} (hT : get T M.cfg.types = some tM) (hk : get k tM.fields = some fM)
    {vs : List (Text × GVal)} (hv : CallOk sc M.cfg fM.args vs) :
    (∀ t f, get T A.cfg.types = some t → get k t.fields = some f → CallOk sc A.cfg f.args vs) ∧
    (∀ t f, get T B.cfg.types = some t → get k t.fields = some f → CallOk sc B.cfg f.args vs) := by
  obtain ⟨s1, s2⟩ := unify_sides wA wB h
  exact ⟨fun t f ht hf => call_side hA wA wB sk s1 uA eA ht hf hT hk hv,
    fun t f ht hf => call_side hB wB wA sk.symm s2 uB eB ht hf hT hk hv⟩

/-- **C27 (partial)** The same for a value of an input type used anywhere below an argument. -/
theorem C27_merged_input_value_partial {pre : Text → Bool} {fuel : Nat} {A B M : Module}
    (sc : Text → GVal → Prop)
    (hA : moduleOf pre fuel A.cfg = some A) (hB : moduleOf pre fuel B.cfg = some B)
    (wA : WellFormed pre A.cfg) (wB : WellFormed pre B.cfg) (sk : SameKinds A.cfg B.cfg)
    (uA : NoInputUnions A) (uB : NoInputUnions B) (h : unify A B = some M)
    (eA : NoneEmptied A.cfg M.cfg) (eB : NoneEmptied B.cfg M.cfg) {n : Text} {nn : Bool} {v : GVal}
    (hv : InOk sc M.cfg (.named n nn) v) :
    (Declared A.cfg n → n ∈ A.input → InOk sc A.cfg (.named n nn) v) ∧
    (Declared B.cfg n → n ∈ B.input → InOk sc B.cfg (.named n nn) v) := by
  obtain ⟨s1, s2⟩ := unify_sides wA wB h
  exact ⟨fun hd hn => (narrows hA wA wB sk s1 uA eA).sound hv _ (.refl _) (.inl ⟨hd, .inr hn⟩),
    fun hd hn => (narrows hB wB wA sk.symm s2 uB eB).sound hv _ (.refl _) (.inl ⟨hd, .inr hn⟩)⟩

/-! ## C26: outputs -/

/-- **C26 (partial)** Every answer a subgraph may give for a field of a type reached from its roots is a legal
answer of the same field of the merged schema, which therefore has that field.

Missing: subgraphs in which the same name means different sorts of things, and types that implement an
interface but are not reached by a field; for both the claim is false (theorems below). -/
theorem C26_subgraph_output_legal_in_merge_partial {pre : Text → Bool} {fuel : Nat} {A B M : Module}
    (sc : Text → GVal → Prop)
    (hA : moduleOf pre fuel A.cfg = some A) (hB : moduleOf pre fuel B.cfg = some B)
    (wA : WellFormed pre A.cfg) (wB : WellFormed pre B.cfg) (sk : SameKinds A.cfg B.cfg)
    (iA : ImplementersReached A) (iB : ImplementersReached B) (h : unify A B = some M) :
    (∀ T t k f, T ∈ A.output → get T A.cfg.types = some t → get k t.fields = some f →
      ∃ t' f', get T M.cfg.types = some t' ∧ get k t'.fields = some f' ∧
        ∀ v, OutOk sc A.cfg f.ty v → OutOk sc M.cfg f'.ty v) ∧
    (∀ T t k f, T ∈ B.output → get T B.cfg.types = some t → get k t.fields = some f →
      ∃ t' f', get T M.cfg.types = some t' ∧ get k t'.fields = some f' ∧
        ∀ v, OutOk sc B.cfg f.ty v → OutOk sc M.cfg f'.ty v) := by
  obtain ⟨s1, s2⟩ := unify_sides wA wB h
  constructor
  · intro T t k f hT ht hf
    have w := widens hA wA wB sk s1 iA
    obtain ⟨d, hd, _, hx⟩ := w.typ T t (.inl ⟨.inl ⟨t, ht⟩, .inr hT⟩) ht
    obtain ⟨hg, f', hf', hst⟩ := hx k f hf
    exact ⟨d, f', hd, hf', fun v hv => w.sound hv _ hst hg⟩
  · intro T t k f hT ht hf
    have w := widens hB wB wA sk.symm s2 iB
    obtain ⟨d, hd, _, hx⟩ := w.typ T t (.inl ⟨.inl ⟨t, ht⟩, .inr hT⟩) ht
    obtain ⟨hg, f', hf', hst⟩ := hx k f hf
    exact ⟨d, f', hd, hf', fun v hv => w.sound hv _ hst hg⟩

/-- **C26 (partial)** The whole answer to a query (or a mutation) of a subgraph is a legal answer of that type
in the merged schema. -/
theorem C26_subgraph_response_legal_in_merge_partial {pre : Text → Bool} {fuel : Nat} {A B M : Module}
    (sc : Text → GVal → Prop)
    (hA : moduleOf pre fuel A.cfg = some A) (hB : moduleOf pre fuel B.cfg = some B)
    (wA : WellFormed pre A.cfg) (wB : WellFormed pre B.cfg) (sk : SameKinds A.cfg B.cfg)
    (iA : ImplementersReached A) (iB : ImplementersReached B) (h : unify A B = some M) (q : Text) (v : GVal) :
    ((A.cfg.query = some q ∨ A.cfg.mutation = some q) → Declared A.cfg q →
      OutOk sc A.cfg (.named q true) v → OutOk sc M.cfg (.named q true) v) ∧
    ((B.cfg.query = some q ∨ B.cfg.mutation = some q) → Declared B.cfg q →
      OutOk sc B.cfg (.named q true) v → OutOk sc M.cfg (.named q true) v) := by
  obtain ⟨s1, s2⟩ := unify_sides wA wB h
  constructor
  · intro hq hd hv
    exact (widens hA wA wB sk s1 iA).sound hv _ (.refl _) (good_root (moduleOf_spec hA).2.2 hq hd)
  · intro hq hd hv
    exact (widens hB wB wA sk.symm s2 iB).sound hv _ (.refl _) (good_root (moduleOf_spec hB).2.2 hq hd)

/-- **C26 (partial)** The merged schema still serves the queries and mutations of each subgraph: its root types
are those of the subgraphs, if those that have one agree on the name. Missing: subgraphs with differently
named roots (below). -/
theorem C26_roots_kept_partial {A B M : Module} (h : unify A B = some M) (q : Text) :
    (A.cfg.query = some q → (B.cfg.query = none ∨ B.cfg.query = some q) → M.cfg.query = some q) ∧
    (B.cfg.query = some q → (A.cfg.query = none ∨ A.cfg.query = some q) → M.cfg.query = some q) ∧
    (A.cfg.mutation = some q → (B.cfg.mutation = none ∨ B.cfg.mutation = some q) → M.cfg.mutation = some q) ∧
    (B.cfg.mutation = some q → (A.cfg.mutation = none ∨ A.cfg.mutation = some q) → M.cfg.mutation = some q) := by
  have hM : M.cfg.query = unifyRoot A.cfg.query B.cfg.query ∧
      M.cfg.mutation = unifyRoot A.cfg.mutation B.cfg.mutation := by
    unfold unify at h
    cases h1 : joinEntries (unifyType A B) A.cfg.types B.cfg.types with
    | none => rw [h1] at h; simp at h
    | some types =>
    cases h2 : joinEntries (unifyEnum A B) A.cfg.enums B.cfg.enums with
    | none => rw [h1, h2] at h; simp at h
    | some enums =>
    cases h3 : unifyUnions A.cfg.unions B.cfg.unions with
    | none => rw [h1, h2, h3] at h; simp at h
    | some unions =>
    rw [h1, h2, h3] at h
    simp only [Option.some.injEq] at h
    subst h; exact ⟨rfl, rfl⟩
  rw [hM.1, hM.2]
  refine ⟨?_, ?_, ?_, ?_⟩ <;> rintro h1 (h2 | h2) <;> rw [h1, h2] <;> rfl

example : (unify { cfg := { query := none }, input := [], output := [], interfaces := [] }
    { cfg := { query := some "Query".toList }, input := [], output := [], interfaces := [] }).isSome = true := rfl

/-- **C26, violated** If the subgraphs name their query types differently, the left name wins and the queries
of the right subgraph can no longer be asked. -/
theorem C26_violated_by_root_names : ∃ A B M : Module, moduleOf (fun _ => true) 20 A.cfg = some A ∧
    moduleOf (fun _ => true) 20 B.cfg = some B ∧ unify A B = some M ∧
    (∃ t, B.cfg.query = some "QueryB".toList ∧ get "QueryB".toList B.cfg.types = some t ∧
      get "g".toList t.fields ≠ none) ∧
    ∀ q t, M.cfg.query = some q → get q M.cfg.types = some t → get "g".toList t.fields = none := by
  let f (n : String) : Text × Field := (n.toList, { ty := .named "Int".toList false })
  refine ⟨⟨{ query := some "QueryA".toList, types := [("QueryA".toList, { fields := [f "f"] })] }, [], ["QueryA".toList], []⟩,
    ⟨{ query := some "QueryB".toList, types := [("QueryB".toList, { fields := [f "g"] })] }, [], ["QueryB".toList], []⟩, _,
    rfl, rfl, rfl, ⟨_, rfl, rfl, by decide⟩, ?_⟩
  intro q t hq ht
  have hq : some "QueryA".toList = some q := hq
  simp only [Option.some.injEq] at hq
  subst hq
  have : some ({ fields := [f "f"] } : TypeD) = some t := ht
  simp only [Option.some.injEq] at this
  subst this
  decide

/-! ## Concrete subgraphs -/

/-- A checker for `WellFormed`, used for the examples. -/
def wfCheck (pre : Text → Bool) (c : Cfg) : Bool :=
  let ok (n : Text) : Bool := defined c n || pre n
  decide (keysOf c.types).Nodup && decide (keysOf c.enums).Nodup && decide (keysOf c.unions).Nodup &&
  c.types.all (fun t => decide (keysOf t.2.fields).Nodup && (get t.1 c.enums).isNone && (get t.1 c.unions).isNone &&
    !pre t.1 &&
    t.2.fields.all (fun f => decide (keysOf f.2.args).Nodup && ok f.2.ty.name &&
      f.2.args.all (fun a => ok a.2.ty.name))) &&
  c.enums.all (fun e => (get e.1 c.unions).isNone && !pre e.1) &&
  c.unions.all (fun u => !pre u.1 && u.2.all ok)

theorem declared_of_defined {c : Cfg} {n : Text} (h : defined c n = true) : Declared c n := by
  simp only [defined, Bool.or_eq_true, Option.isSome_iff_exists] at h
  rcases h with (h | h) | h
  · exact .inr (.inr h)
  · exact .inl h
  · exact .inr (.inl h)

theorem wellFormed_of {pre : Text → Bool} {c : Cfg} (h : wfCheck pre c = true) : WellFormed pre c := by
  simp only [wfCheck, Bool.and_eq_true, decide_eq_true_eq, List.all_eq_true, Bool.not_eq_true',
    Option.isNone_iff_eq_none, Bool.or_eq_true] at h
  obtain ⟨⟨⟨⟨⟨h1, h2⟩, h3⟩, h4⟩, h5⟩, h6⟩ := h
  have ok : ∀ n, (defined c n = true ∨ pre n = true) → Declared c n ∨ pre n = true :=
    fun n h => h.imp declared_of_defined id
  refine ⟨h1, h2, h3, ?_, ?_, ?_, ?_, ?_, ?_, ?_⟩
  · intro n d hd
    have := h4 _ (get_mem hd)
    exact ⟨this.1.1.1.1, fun k f hf => (this.2 _ (get_mem hf)).1.1⟩
  · intro n d hd
    have := h4 _ (get_mem hd)
    exact ⟨this.1.1.1.2, this.1.1.2⟩
  · intro n d hd; exact (h5 _ (get_mem hd)).1
  · intro n hd
    rcases hd with ⟨x, hx⟩ | ⟨x, hx⟩ | ⟨x, hx⟩
    · exact (h4 _ (get_mem hx)).1.2
    · exact (h5 _ (get_mem hx)).2
    · exact (h6 _ (get_mem hx)).1
  · intro n d k f hd hf; exact ok _ ((h4 _ (get_mem hd)).2 _ (get_mem hf)).1.2
  · intro n d k f j a hd hf ha; exact ok _ (((h4 _ (get_mem hd)).2 _ (get_mem hf)).2 _ (get_mem ha))
  · intro n ms m hms hm; exact ok _ ((h6 _ (get_mem hms)).2 m hm)

/-- A checker for `SameKinds`. -/
def skCheck (a b : Cfg) : Bool :=
  a.types.all (fun t => (get t.1 b.enums).isNone && (get t.1 b.unions).isNone &&
    (match get t.1 b.types with | some e => t.2.fields.isEmpty == e.fields.isEmpty | none => true)) &&
  a.enums.all (fun t => (get t.1 b.types).isNone && (get t.1 b.unions).isNone) &&
  a.unions.all (fun t => (get t.1 b.types).isNone && (get t.1 b.enums).isNone)

theorem sameKinds_of {a b : Cfg} (h : skCheck a b = true) : SameKinds a b := by
  simp only [skCheck, Bool.and_eq_true, List.all_eq_true, Option.isNone_iff_eq_none] at h
  obtain ⟨⟨h1, h2⟩, h3⟩ := h
  refine ⟨?_, ?_, ?_, ?_⟩
  · intro n d hd; exact (h1 _ (get_mem hd)).1
  · intro n d hd; exact h2 _ (get_mem hd)
  · intro n d hd; exact h3 _ (get_mem hd)
  · intro n d e hd he
    have := (h1 _ (get_mem hd)).2
    simp only [he, beq_iff_eq] at this
    rw [← List.isEmpty_iff, this, List.isEmpty_iff]

/-- `Scalar::is_predefined` for the scalars used in the examples. -/
def preEx (n : Text) : Bool :=
  n == "Int".toList || n == "String".toList || n == "Boolean".toList || n == "ID".toList

/-- Example data for the concrete cases below. -/
def tn (s : String) (nn : Bool := false) : Ty := .named s.toList nn
/-- Example data for the concrete cases below. -/
def fd (s : String) (ty : Ty) (args : List (Text × Arg) := []) : Text × Field := (s.toList, { ty := ty, args := args })

/-- `type Query { users(filter: Filter): [User] }`, `input Filter { name: String, role: Role! }`,
`enum Role { ADMIN USER }`, `type User { name: String! }`. -/
def subA : Cfg := {
  query := some "Query".toList
  types := [("Query".toList, { fields := [fd "users" (.list (tn "User") false) [("filter".toList, { ty := tn "Filter" })]] }),
    ("Filter".toList, { fields := [fd "name" (tn "String"), fd "role" (tn "Role" true)] }),
    ("User".toList, { fields := [fd "name" (tn "String" true)] })]
  enums := [("Role".toList, ["ADMIN".toList, "USER".toList])] }

/-- `type Query { users(filter: Filter!): [User!] }`, `input Filter { role: Role, age: Int }`,
`enum Role { USER GUEST }`, `type User { name: String, age: Int }`. -/
def subB : Cfg := {
  query := some "Query".toList
  types := [("Query".toList, { fields := [fd "users" (.list (tn "User" true) false) [("filter".toList, { ty := tn "Filter" true })]] }),
    ("Filter".toList, { fields := [fd "role" (tn "Role"), fd "age" (tn "Int")] }),
    ("User".toList, { fields := [fd "name" (tn "String"), fd "age" (tn "Int")] })]
  enums := [("Role".toList, ["USER".toList, "GUEST".toList])] }

/-- Example data for the concrete cases below. -/
def modA : Module := (moduleOf preEx 20 subA).getD ⟨{}, [], [], []⟩
/-- Example data for the concrete cases below. -/
def modB : Module := (moduleOf preEx 20 subB).getD ⟨{}, [], [], []⟩
/-- Example data for the concrete cases below. -/
def merged : Module := (unify modA modB).getD ⟨{}, [], [], []⟩

/-- What is left of the two subgraphs: `users(filter: Filter!): [User]`, `Filter { role: Role! }`,
`Role { USER }`, `User { name: String, age: Int }`. -/
example : unify modA modB = some merged ∧
    get "Filter".toList merged.cfg.types = some { fields := [fd "role" (tn "Role" true)] } ∧
    get "Role".toList merged.cfg.enums = some ["USER".toList] ∧
    get "User".toList merged.cfg.types = some { fields := [fd "name" (tn "String"), fd "age" (tn "Int")] } ∧
    get "Query".toList merged.cfg.types = some { fields := [
      fd "users" (.list (tn "User") false) [("filter".toList, { ty := tn "Filter" true })]] } :=
  ⟨rfl, by decide, by decide, by decide, by decide⟩

/-- The hypotheses of the theorems hold for the two subgraphs. -/
theorem example_hypotheses :
    moduleOf preEx 20 modA.cfg = some modA ∧ moduleOf preEx 20 modB.cfg = some modB ∧
    WellFormed preEx modA.cfg ∧ WellFormed preEx modB.cfg ∧ SameKinds modA.cfg modB.cfg ∧
    NoInputUnions modA ∧ NoInputUnions modB ∧ NoneEmptied modA.cfg merged.cfg ∧
    NoneEmptied modB.cfg merged.cfg ∧ ImplementersReached modA ∧ ImplementersReached modB ∧
    unify modA modB = some merged := by
  refine ⟨rfl, rfl, wellFormed_of (by decide), wellFormed_of (by decide), sameKinds_of (by decide), ?_, ?_, ?_,
    ?_, ?_, ?_, rfl⟩
  · intro n _; rfl
  · intro n _; rfl
  · have : ∀ p ∈ merged.cfg.types, p.2.fields ≠ [] := by decide
    intro n x d _ hd h0; exact absurd h0 (this _ (get_mem hd))
  · have : ∀ p ∈ merged.cfg.types, p.2.fields ≠ [] := by decide
    intro n x d _ hd h0; exact absurd h0 (this _ (get_mem hd))
  · have : ∀ p ∈ modA.cfg.types, p.2.implements = [] := by decide
    intro n x i hx hi; rw [this _ (get_mem hx)] at hi; cases hi
  · have : ∀ p ∈ modB.cfg.types, p.2.implements = [] := by decide
    intro n x i hx hi; rw [this _ (get_mem hx)] at hi; cases hi

/-- `users(filter: {role: USER})` is a call of the merged schema, hence of both subgraphs. -/
example : CallOk (fun _ _ => True) merged.cfg [("filter".toList, { ty := tn "Filter" true })]
    [("filter".toList, .obj [("role".toList, .enum "USER".toList)])] := by
  constructor
  · intro k v hk
    simp at hk
    obtain ⟨rfl, rfl⟩ := hk
    refine ⟨_, rfl, .obj (fun _ => tn "Role" true) (d := { fields := [fd "role" (tn "Role" true)] })
      (by decide) (by decide) ?_ ?_ ?_⟩
    · intro k v hk; simp at hk; obtain ⟨rfl, rfl⟩ := hk; exact ⟨_, rfl, rfl⟩
    · intro k v hk; simp at hk; obtain ⟨rfl, rfl⟩ := hk
      exact .enum (variants := ["USER".toList]) (by decide) (by decide)
    · intro k f hf _
      have := get_mem hf
      simp [fd] at this
      exact ⟨_, by simp [this.1]; rfl⟩
  · intro k a ha _
    have := get_mem ha
    simp at this
    exact ⟨_, by simp [this.1]; rfl⟩

/-- `{users: [{name: null, age: 3}]}` answered by B is legal in the merge; B may answer null where A may not. -/
example : OutOk (fun _ _ => True) modB.cfg (.list (tn "User" true) false)
    (.list [.obj [("name".toList, .null), ("age".toList, .int 3)]]) := by
  refine .list ?_
  intro v hv
  simp at hv; subst hv
  refine .obj (fun k => if k = "name".toList then tn "String" else tn "Int")
    (d := { fields := [fd "name" (tn "String"), fd "age" (tn "Int")] }) (by decide) (by decide) ?_ ?_
  · intro k v hk
    simp at hk
    rcases hk with ⟨rfl, rfl⟩ | ⟨rfl, rfl⟩
    · exact ⟨_, rfl, rfl⟩
    · exact ⟨_, rfl, rfl⟩
  · intro k v hk
    simp at hk
    rcases hk with ⟨rfl, rfl⟩ | ⟨rfl, rfl⟩
    · exact .nullNamed _
    · exact .predefined (by decide) (by decide) (by decide) trivial

/-! ## Where soundness fails -/

/-- `type Query { f(i: I): Int }` with the given definition of `I`. -/
def withInput (d : TypeD) (unions : List (Text × List Text) := []) (extra : List (Text × TypeD) := []) : Cfg := {
  query := some "Query".toList
  types := ("Query".toList, { fields := [fd "f" (tn "Int") [("i".toList, { ty := tn "I" })]] }) ::
    ((if unions.isEmpty then [("I".toList, d)] else []) ++ extra)
  unions := unions }

/-- Example data for the concrete cases below. -/
def mkMod (c : Cfg) : Module := (moduleOf preEx 20 c).getD ⟨{}, [], [], []⟩
/-- Example data for the concrete cases below. -/
def mkMerge (a b : Cfg) : Module := (unify (mkMod a) (mkMod b)).getD ⟨{}, [], [], []⟩

theorem inOk_int_not_obj {sc : Text → GVal → Prop} {c : Cfg} {n : Text} {nn : Bool} {d : TypeD} {i : Int}
    (h1 : get n c.types = some d) (h2 : d.fields ≠ []) (h3 : get n c.unions = none) :
    ¬ InOk sc c (.named n nn) (.int i) := by
  intro h
  cases h with
  | union h _ _ => rw [h3] at h; cases h
  | scalar h h0 _ => rw [h1] at h; cases h; exact h2 h0
  | predefined h _ _ _ => rw [h1] at h; cases h

/-- **C27, violated** Two versions of an input type without a common field (all optional) merge into a type
without fields, which is a custom scalar that accepts any value: `f(i: 3)` is accepted by the merged schema
and by neither subgraph. -/
theorem C27_violated_by_disjoint_input_types : ∃ A B M : Module,
    moduleOf preEx 20 A.cfg = some A ∧ moduleOf preEx 20 B.cfg = some B ∧
    WellFormed preEx A.cfg ∧ WellFormed preEx B.cfg ∧ SameKinds A.cfg B.cfg ∧ unify A B = some M ∧
    ∀ sc, InOk sc M.cfg (tn "I") (.int 3) ∧ ¬ InOk sc A.cfg (tn "I") (.int 3) ∧
      ¬ InOk sc B.cfg (tn "I") (.int 3) := by
  refine ⟨mkMod (withInput { fields := [fd "a" (tn "Int")] }), mkMod (withInput { fields := [fd "b" (tn "Int")] }),
    mkMerge (withInput { fields := [fd "a" (tn "Int")] }) (withInput { fields := [fd "b" (tn "Int")] }),
    rfl, rfl, wellFormed_of (by decide), wellFormed_of (by decide), sameKinds_of (by decide), rfl, ?_⟩
  intro sc
  exact ⟨.scalar (d := {}) (by decide) rfl (by intro h; cases h),
    inOk_int_not_obj (d := { fields := [fd "a" (tn "Int")] }) (by decide) (by decide) (by decide),
    inOk_int_not_obj (d := { fields := [fd "b" (tn "Int")] }) (by decide) (by decide) (by decide)⟩

/-- **C27, violated** Unions used as arguments are united, not intersected: a member known to B only is
accepted by the merge although A does not accept it. -/
theorem C27_violated_by_input_unions : ∃ A B M : Module,
    moduleOf preEx 20 A.cfg = some A ∧ moduleOf preEx 20 B.cfg = some B ∧
    WellFormed preEx A.cfg ∧ WellFormed preEx B.cfg ∧ SameKinds A.cfg B.cfg ∧ unify A B = some M ∧
    NoneEmptied A.cfg M.cfg ∧
    ∀ sc, (InOk sc M.cfg (tn "I") (.obj [("y".toList, .null)])) ∧
      ¬ InOk sc A.cfg (tn "I") (.obj [("y".toList, .null)]) := by
  let X : List (Text × TypeD) := [("X".toList, { fields := [fd "x" (tn "Int")] })]
  let Y : List (Text × TypeD) := [("Y".toList, { fields := [fd "y" (tn "Int")] })]
  refine ⟨mkMod (withInput {} [("I".toList, ["X".toList])] X), mkMod (withInput {} [("I".toList, ["Y".toList])] Y),
    mkMerge (withInput {} [("I".toList, ["X".toList])] X) (withInput {} [("I".toList, ["Y".toList])] Y),
    rfl, rfl, wellFormed_of (by decide), wellFormed_of (by decide), sameKinds_of (by decide), rfl, ?_, ?_⟩
  · have : ∀ p ∈ (mkMerge (withInput {} [("I".toList, ["X".toList])] X)
        (withInput {} [("I".toList, ["Y".toList])] Y)).cfg.types, p.2.fields ≠ [] := by decide
    intro n x d _ hd h0; exact absurd h0 (this _ (get_mem hd))
  intro sc
  constructor
  · refine .union (members := ["X".toList, "Y".toList]) (m := "Y".toList) (by decide) (by decide) ?_
    refine .obj (fun _ => tn "Int") (d := { fields := [fd "y" (tn "Int")] }) (by decide) (by decide) ?_ ?_ ?_
    · intro k v hk; simp at hk; obtain ⟨rfl, rfl⟩ := hk; exact ⟨_, rfl, rfl⟩
    · intro k v hk; simp at hk; obtain ⟨rfl, rfl⟩ := hk; exact .nullNamed _
    · intro k f hf hr
      have := get_mem hf
      simp [fd] at this
      rw [this.2] at hr
      cases hr
  · intro h
    have hX : ∀ nn, ¬ InOk sc (mkMod (withInput {} [("I".toList, ["X".toList])] X)).cfg (.named "X".toList nn)
        (.obj [("y".toList, .null)]) := by
      intro nn h
      have e : get "X".toList (mkMod (withInput {} [("I".toList, ["X".toList])] X)).cfg.types =
        some { fields := [fd "x" (tn "Int")] } := by decide
      have e2 : get "X".toList (mkMod (withInput {} [("I".toList, ["X".toList])] X)).cfg.unions = none := by decide
      cases h with
      | union h _ _ => rw [e2] at h; cases h
      | obj tyOf h _ h2 _ _ =>
        rw [e] at h; cases h
        obtain ⟨f, hf, _⟩ := h2 "y".toList .null (by simp)
        exact absurd hf (by simp [fd, Merge.get])
      | scalar h h0 _ => rw [e] at h; cases h; cases h0
      | predefined h _ _ _ => rw [e] at h; cases h
    have e : get "I".toList (mkMod (withInput {} [("I".toList, ["X".toList])] X)).cfg.types = none := by decide
    cases h with
    | union h hm h2 =>
      have : get "I".toList (mkMod (withInput {} [("I".toList, ["X".toList])] X)).cfg.unions =
        some ["X".toList] := by decide
      rw [this] at h; cases h
      simp at hm; subst hm
      exact hX _ h2
    | obj tyOf h _ _ _ _ => rw [e] at h; cases h
    | scalar h _ _ => rw [e] at h; cases h
    | predefined _ _ h _ => exact absurd h (by decide)

/-- **C26, C27, violated** A name that is a custom scalar in one subgraph and an object in the other is merged
as if both were objects: an answer that is legal in the first subgraph is not legal in the merged schema. -/
theorem C26_violated_by_scalar_and_object : ∃ A B M : Module,
    moduleOf preEx 20 A.cfg = some A ∧ moduleOf preEx 20 B.cfg = some B ∧
    WellFormed preEx A.cfg ∧ WellFormed preEx B.cfg ∧ unify A B = some M ∧
    ∀ sc, OutOk sc A.cfg (tn "X") (.int 3) ∧ ¬ OutOk sc M.cfg (tn "X") (.int 3) := by
  let a : Cfg := { query := some "Query".toList, types := [("Query".toList, { fields := [fd "f" (tn "X")] }), ("X".toList, {})] }
  let b : Cfg := { query := some "Query".toList, types := [("Query".toList, { fields := [fd "g" (tn "X")] }),
    ("X".toList, { fields := [fd "x" (tn "Int")] })] }
  refine ⟨mkMod a, mkMod b, mkMerge a b, rfl, rfl, wellFormed_of (by decide), wellFormed_of (by decide), rfl, ?_⟩
  intro sc
  refine ⟨.scalar (d := {}) (by decide) rfl (by intro h; cases h), ?_⟩
  intro h
  have e : get "X".toList (mkMerge a b).cfg.types = some { fields := [fd "x" (tn "Int")] } := by decide
  have e2 : get "X".toList (mkMerge a b).cfg.unions = none := by decide
  cases h with
  | union h _ _ => rw [e2] at h; cases h
  | iface h hi _ =>
    have : ∀ p ∈ (mkMerge a b).cfg.types, p.2.implements = [] := by decide
    rw [this _ (get_mem h)] at hi; cases hi
  | scalar h h0 _ => rw [e] at h; cases h; cases h0
  | predefined h _ _ _ => rw [e] at h; cases h

/-- **C26, violated** A type that A only returns through an interface is unknown as an output to the merge; if
B uses the name as an input the two are intersected and A's answers lose their fields. -/
theorem C26_violated_by_unreached_implementer : ∃ A B M : Module,
    moduleOf preEx 20 A.cfg = some A ∧ moduleOf preEx 20 B.cfg = some B ∧
    WellFormed preEx A.cfg ∧ WellFormed preEx B.cfg ∧ SameKinds A.cfg B.cfg ∧ unify A B = some M ∧
    ∀ sc, OutOk sc A.cfg (tn "Node") (.obj [("name".toList, .null)]) ∧
      ¬ OutOk sc M.cfg (tn "Node") (.obj [("name".toList, .null)]) := by
  let a : Cfg := { query := some "Query".toList, types := [("Query".toList, { fields := [fd "f" (tn "Node")] }),
    ("Node".toList, { fields := [fd "id" (tn "ID")] }),
    ("User".toList, { fields := [fd "id" (tn "ID"), fd "name" (tn "String")], implements := ["Node".toList] })] }
  let b : Cfg := {
    query := some "Query".toList
    types := [("Query".toList, { fields := [fd "g" (tn "Int") [("u".toList, { ty := tn "User" })]] }),
      ("User".toList, { fields := [fd "id" (tn "ID")] })] }
  refine ⟨mkMod a, mkMod b, mkMerge a b, rfl, rfl, wellFormed_of (by decide), wellFormed_of (by decide),
    sameKinds_of (by decide), rfl, ?_⟩
  intro sc
  constructor
  · refine .iface (m := "User".toList) (d := { fields := [fd "id" (tn "ID"), fd "name" (tn "String")], implements := ["Node".toList] })
      (by decide) (by decide) ?_
    refine .obj (fun _ => tn "String") (d := { fields := [fd "id" (tn "ID"), fd "name" (tn "String")], implements := ["Node".toList] })
      (by decide) (by decide) ?_ ?_
    · intro k v hk; simp at hk; obtain ⟨rfl, rfl⟩ := hk; exact ⟨_, rfl, rfl⟩
    · intro k v hk; simp at hk; obtain ⟨rfl, rfl⟩ := hk; exact .nullNamed _
  · have hno : ∀ p ∈ (mkMerge a b).cfg.types, get "name".toList p.2.fields = none ∧ p.2.fields ≠ [] := by decide
    have hpre : ∀ p ∈ (mkMerge a b).cfg.types, ∀ i ∈ p.2.implements, i = "Node".toList ∧ p.1 = "User".toList := by decide
    have key : ∀ t v, OutOk sc (mkMerge a b).cfg t v → (t.name = "Node".toList ∨ t.name = "User".toList) →
        v ≠ .obj [("name".toList, .null)] := by
      intro t v h
      induction h with
      | nullNamed => intro _ h; cases h
      | nullList => intro _ h; cases h
      | list => intro _ h; cases h
      | enum => intro _ h; cases h
      | union h _ _ _ =>
        have e2 : (mkMerge a b).cfg.unions = [] := by decide
        rw [e2] at h; cases h
      | iface h hi _ ih =>
        intro _
        exact ih (.inr (hpre _ (get_mem h) _ hi).2)
      | obj tyOf h _ h2 _ _ =>
        intro _ e; cases e
        obtain ⟨f, hf, _⟩ := h2 "name".toList .null (by simp)
        rw [(hno _ (get_mem h)).1] at hf; cases hf
      | scalar h h0 _ => exact absurd h0 (hno _ (get_mem h)).2
      | predefined h _ _ _ =>
        rintro (e | e)
        · simp only [Ty.name] at e; subst e; exact absurd h (by decide)
        · simp only [Ty.name] at e; subst e; exact absurd h (by decide)
    intro h
    exact key _ _ h (.inl rfl) rfl

/-! ## C64: subgraphs may share definitions -/

/-- **C64, violated** A subgraph that declares a custom scalar cannot be merged with an identical one (nor with
any other that declares the same scalar): scalars are never classified as inputs or outputs. -/
theorem C64_violated_by_shared_scalar : ∃ A : Module, moduleOf preEx 20 A.cfg = some A ∧
    WellFormed preEx A.cfg ∧ unify A A = none := by
  let a : Cfg := { query := some "Query".toList, types := [("Query".toList, { fields := [fd "f" (tn "When")] }), ("When".toList, {})] }
  exact ⟨mkMod a, rfl, wellFormed_of (by decide), rfl⟩

/-- Same, for every pair of subgraphs: a custom scalar in both makes the merge fail unless some field or
argument refers to it in a way that bypasses the scalar check (as a root or as a member of a union). -/
theorem C64_violated_by_any_shared_scalar {A B : Module} {n : Text} {x y : TypeD}
    (hA : (keysOf A.cfg.types).Nodup) (hB : (keysOf B.cfg.types).Nodup)
    (h1 : get n A.cfg.types = some x) (h2 : get n B.cfg.types = some y)
    (c1 : n ∉ A.input ∧ n ∉ A.output ∧ n ∉ A.interfaces) (c2 : n ∉ B.input ∧ n ∉ B.output ∧ n ∉ B.interfaces) :
    unify A B = none := by
  cases h : unify A B with
  | none => rfl
  | some M =>
    exfalso
    unfold unify at h
    cases e : joinEntries (unifyType A B) A.cfg.types B.cfg.types with
    | none => rw [e] at h; simp at h
    | some types =>
      have := (get_joinEntries hA hB e n).2 x y h1 h2
      simp [unifyType, c1, c2] at this

theorem joinEntries_self {E : Type} {step : Text → E → E → Option E} {g : E → E} {a : List (Text × E)}
    (h : ∀ n x, (n, x) ∈ a → step n x x = some (g x)) :
    joinEntries step a a = some (a.map (fun p => (p.1, g p.2))) := by
  induction a with
  | nil => rfl
  | cons p r ih =>
    obtain ⟨n, x⟩ := p
    unfold joinEntries
    simp only [Merge.get, if_true, remove, h n x (by simp), ih (fun n x hx => h n x (by simp [hx])), List.map_cons]

theorem shrinkEntries_self {E : Type} {tyOf : E → Ty} {sh : E → E → Option E} {a : List (Text × E)}
    (h : ∀ x, sh x x = some x) : shrinkEntries tyOf sh a a = some a := by
  induction a with
  | nil => rfl
  | cons p r ih =>
    obtain ⟨n, x⟩ := p
    unfold shrinkEntries
    simp only [Merge.get, if_true, remove, h x, ih]

theorem Arg.shrink_self (a : Arg) : a.shrink a = some a := by
  simp [Arg.shrink, (C25_type_merge_idempotent a.ty).1]

theorem Field.merge_self (f : Field) : f.shrink f = some f ∧ f.expand f = some f := by
  have h : shrinkArgs f.args f.args = some f.args := shrinkEntries_self Arg.shrink_self
  simp [Field.shrink, Field.expand, C25_type_merge_idempotent f.ty, h]

theorem TypeD.merge_self (d : TypeD) :
    d.shrink d = some { fields := d.fields, implements := d.implements ++ d.implements } ∧
    d.expand d = some { fields := d.fields, implements := d.implements ++ d.implements } := by
  have h1 : shrinkEntries Field.ty Field.shrink d.fields d.fields = some d.fields :=
    shrinkEntries_self (fun f => (Field.merge_self f).1)
  have h2 := joinEntries_self (a := d.fields) (step := fun _ => Field.expand) (g := id)
    (fun _ f _ => (Field.merge_self f).2)
  simp [TypeD.shrink, TypeD.expand, h1, h2]

theorem filter_not_self (a : List Text) : a.filter (fun v => !a.contains v) = [] := by
  rw [List.filter_eq_nil_iff]; intro v hv; simp [hv]

/-- **C64 (partial)** Merging a subgraph with an identical one succeeds and changes nothing, if each of its
types is used either as an input or as an output and each of its enums is used at all. Missing: custom
scalars and types that no field refers to, for which it fails (above). -/
theorem C64_identical_subgraphs_merge_partial (A : Module)
    (hT : ∀ n d, (n, d) ∈ A.cfg.types →
      (n ∈ A.input ∧ n ∉ A.output ∧ n ∉ A.interfaces) ∨ (n ∉ A.input ∧ (n ∈ A.output ∨ n ∈ A.interfaces)))
    (hE : ∀ n d, (n, d) ∈ A.cfg.enums → n ∈ A.input ∨ n ∈ A.output) :
    ∃ M, unify A A = some M ∧ M.cfg.query = A.cfg.query ∧ M.cfg.mutation = A.cfg.mutation ∧
      M.cfg.enums = A.cfg.enums ∧ M.cfg.unions = A.cfg.unions ∧
      M.cfg.types.map (fun t => (t.1, t.2.fields)) = A.cfg.types.map (fun t => (t.1, t.2.fields)) ∧
      M.input = A.input ∧ M.output = A.output ∧ M.interfaces = A.interfaces := by
  have h1 : joinEntries (unifyType A A) A.cfg.types A.cfg.types = some (A.cfg.types.map (fun p => (p.1,
      { fields := p.2.fields, implements := p.2.implements ++ p.2.implements }))) := by
    apply joinEntries_self (g := fun d : TypeD => { fields := d.fields, implements := d.implements ++ d.implements })
    intro n d hd
    have hm := TypeD.merge_self d
    rcases hT n d hd with ⟨h1, h2, h3⟩ | ⟨h1, h2 | h2⟩
    · simp [unifyType, h1, h2, h3, hm.1]
    · simp [unifyType, h1, h2, hm.2]
    · simp [unifyType, h1, h2, hm.2]
  have h2 : joinEntries (unifyEnum A A) A.cfg.enums A.cfg.enums = some A.cfg.enums := by
    rw [joinEntries_self (g := id)]
    · simp
    intro n d hd
    have e1 : shrinkEnum d d = d := by
      unfold shrinkEnum; rw [List.filter_eq_self]; intro v hv; simp [hv]
    have e2 : expandEnum d d = d := by unfold expandEnum; rw [filter_not_self]; simp
    by_cases hi : n ∈ A.input <;> by_cases ho : n ∈ A.output <;> simp [unifyEnum, hi, ho, e1, e2]
    rcases hE n d hd with h | h
    · exact absurd h hi
    · exact absurd h ho
  have h3 : unifyUnions A.cfg.unions A.cfg.unions = some A.cfg.unions := by
    unfold unifyUnions
    rw [joinEntries_self (g := id)]
    · simp
    intro n d hd
    simp [uniteNames, filter_not_self]
  have hr : ∀ x, unifyRoot x x = x := by intro x; cases x <;> rfl
  have hu : ∀ x, uniteNames x x = x := by intro x; simp [uniteNames, filter_not_self]
  refine ⟨_, by unfold unify; rw [h1, h2, h3], ?_⟩
  simp [hr, hu]

example : (∀ n d, (n, d) ∈ modA.cfg.types → (n ∈ modA.input ∧ n ∉ modA.output ∧ n ∉ modA.interfaces) ∨
      (n ∉ modA.input ∧ (n ∈ modA.output ∨ n ∈ modA.interfaces))) ∧
    (∀ n d, (n, d) ∈ modA.cfg.enums → n ∈ modA.input ∨ n ∈ modA.output) := by
  have h1 : ∀ p ∈ modA.cfg.types, (p.1 ∈ modA.input ∧ p.1 ∉ modA.output ∧ p.1 ∉ modA.interfaces) ∨
      (p.1 ∉ modA.input ∧ (p.1 ∈ modA.output ∨ p.1 ∈ modA.interfaces)) := by decide
  have h2 : ∀ p ∈ modA.cfg.enums, p.1 ∈ modA.input ∨ p.1 ∈ modA.output := by decide
  exact ⟨fun n d h => h1 (n, d) h, fun n d h => h2 (n, d) h⟩

end Verif.Federation
