import Verif.Input.Model

/-! # The specification of argument resolution and lemmas about the model -/

set_option linter.unusedSimpArgs false
set_option linter.unusedVariables false

namespace Verif.Input

open Verif.Mustache (Text)
open Verif.HttpUrl (GVal intText)
open Verif.Exec (Ty)

/-! ## The specification: the input rules of GraphQL -/

/-- The value of an object under a key. -/
def At (kvs : List (Text × GVal)) (k : Text) : Option GVal := (kvs.find? (fun p => p.1 == k)).map (·.2)

/-- A type that does not accept null. -/
def NonNull : Ty → Prop
  | .named _ nn => nn = true
  | .list _ nn => nn = true

/-- `Good ix ty v r`: the GraphQL rules for input values turn the value `v`, given for the type `ty`, into
`r`.  Null needs a nullable type.  A list is resolved item by item with the type of the items.  Each field
of an input object is resolved with the type of this field, an absent one from its default, and one that has
neither must be nullable and stays absent.  Other entries of an object are kept. -/
inductive Good (ix : Index) : Ty → GVal → GVal → Prop
  | null {ty : Ty} (h : ¬ NonNull ty) : Good ix ty .null .null
  | leaf {name : Text} {nn : Bool} {v : GVal} (h : ix name = none) (hv : v ≠ .null) :
      Good ix (.named name nn) v v
  | list {t : Ty} {nn : Bool} {vs rs : List GVal} (hl : vs.length = rs.length)
      (h : ∀ p ∈ vs.zip rs, Good ix t p.1 p.2) : Good ix (.list t nn) (.list vs) (.list rs)
  | obj {name : Text} {nn : Bool} {fs : List InField} {kvs rs : List (Text × GVal)} (res : Text → GVal)
      (h : ix name = some fs)
      (given : ∀ f ∈ fs, ∀ w, At kvs f.name = some w → Good ix f.ty w (res f.name))
      (givenAt : ∀ f ∈ fs, ∀ w, At kvs f.name = some w → At rs f.name = some (res f.name))
      (dflt : ∀ f ∈ fs, At kvs f.name = none → ∀ d, f.dflt = some d → Good ix f.ty d (res f.name))
      (dfltAt : ∀ f ∈ fs, At kvs f.name = none → ∀ d, f.dflt = some d → At rs f.name = some (res f.name))
      (absent : ∀ f ∈ fs, At kvs f.name = none → f.dflt = none → ¬ NonNull f.ty ∧ At rs f.name = none)
      (others : ∀ k, (∀ f ∈ fs, f.name ≠ k) → At rs k = At kvs k) :
      Good ix (.named name nn) (.obj kvs) (.obj rs)

/-- The resolved value of an argument: the given value, or the default if none was given. -/
def ArgSpec (ix : Index) (ty : Ty) (dflt given out : Option GVal) : Prop :=
  match given, dflt with
  | some v, _ => ∃ r, out = some r ∧ Good ix ty v r
  | none, some d => ∃ r, out = some r ∧ Good ix ty d r
  | none, none => ¬ NonNull ty ∧ out = none

/-- The values for which the code follows the rules.  Lists are given for lists and objects for input
types.  A null item is only given where the item type and the type that the code checks agree: `checked` is
what the code takes for "non-null" here.  The code checks an item of a list against the non-null flag of the
outermost list, and does not check the items of a list of scalars. -/
inductive Shaped (ix : Index) : Bool → Ty → GVal → Prop
  | null {checked : Bool} {ty : Ty} (h : NonNull ty ↔ checked = true) : Shaped ix checked ty .null
  | leaf {checked : Bool} {name : Text} {nn : Bool} {v : GVal} (h : ix name = none) (hv : v ≠ .null) :
      Shaped ix checked (.named name nn) v
  | list {checked : Bool} {t : Ty} {nn : Bool} {vs : List GVal}
      (h : ∀ v ∈ vs, Shaped ix (if (ix t.name).isSome then checked else false) t v) :
      Shaped ix checked (.list t nn) (.list vs)
  | obj {checked : Bool} {name : Text} {nn : Bool} {fs : List InField} {kvs : List (Text × GVal)}
      (h : ix name = some fs)
      (given : ∀ f ∈ fs, ∀ w, At kvs f.name = some w → Shaped ix (!f.ty.isNullable) f.ty w) :
      Shaped ix checked (.named name nn) (.obj kvs)

/-- A value for an argument, as in `Shaped`. -/
def ShapedArg (ix : Index) (ty : Ty) (v : GVal) : Prop := Shaped ix (!ty.isNullable) ty v

/-- A default for an argument: as in `Shaped`, and not null for a non-null type. -/
def ShapedDefault (ix : Index) (ty : Ty) (d : GVal) : Prop := ShapedArg ix ty d ∧ (d = .null → ¬ NonNull ty)

/-- The input types: distinct field names and defaults as in `ShapedDefault`. -/
def Sane (ix : Index) : Prop :=
  ∀ name fs, ix name = some fs →
    (fs.map (·.name)).Nodup ∧ ∀ f ∈ fs, ∀ d, f.dflt = some d → ShapedDefault ix f.ty d

/-! ## Lemmas -/

theorem nonNull_iff (ty : Ty) : NonNull ty ↔ ty.isNullable = false := by
  cases ty <;> simp [NonNull, Ty.isNullable]

theorem isNull_iff (v : GVal) : isNull v = true ↔ v = .null := by
  cases v <;> simp [isNull]

theorem getKey_eq (kvs : List (Text × GVal)) (k : Text) : getKey kvs k = At kvs k := by
  induction kvs with
  | nil => rfl
  | cons p r ih =>
    obtain ⟨k', v⟩ := p
    unfold getKey At
    by_cases h : k' = k
    · simp [h]
    · simp [h, ih, At]

theorem at_insert_self (kvs : List (Text × GVal)) (k : Text) (v : GVal) :
    At (insertKey kvs k v) k = some v := by
  induction kvs with
  | nil => simp [insertKey, At]
  | cons p r ih =>
    obtain ⟨k', v'⟩ := p
    unfold insertKey
    by_cases h : k' = k
    · simp [h, At]
    · simp only [h, if_false]
      unfold At at ih ⊢
      simp [h, ih]

theorem at_insert_ne (kvs : List (Text × GVal)) (k k2 : Text) (v : GVal) (hk : k ≠ k2) :
    At (insertKey kvs k v) k2 = At kvs k2 := by
  induction kvs with
  | nil => simp [insertKey, At, hk]
  | cons p r ih =>
    obtain ⟨k', v'⟩ := p
    unfold insertKey
    by_cases h : k' = k
    · subst h; simp [At, hk]
    · simp only [h, if_false]
      unfold At at ih ⊢
      by_cases h2 : k' = k2
      · simp [h2]
      · simp [h2, ih]

section loops
variable {rec : InField → Option GVal → Out (Option GVal)}

theorem fieldsLoop_ok : ∀ (fs : List InField) (kvs rs : List (Text × GVal)),
    (fs.map (·.name)).Nodup → fieldsLoop rec fs kvs = some (.ok rs) →
    (∀ f ∈ fs, ∃ o, rec f (At kvs f.name) = some (.ok o) ∧ (∀ v, o = some v → At rs f.name = some v)
      ∧ (o = none → At rs f.name = At kvs f.name))
    ∧ ∀ k, (∀ f ∈ fs, f.name ≠ k) → At rs k = At kvs k
  | [], kvs, rs, _, h => by
    unfold fieldsLoop at h
    injection h with h; injection h with h; subst h
    exact ⟨(by simp), fun _ _ => rfl⟩
  | f :: fs, kvs, rs, hn, h => by
    unfold fieldsLoop at h
    rw [getKey_eq] at h
    have hn' : (fs.map (·.name)).Nodup := (List.nodup_cons.mp hn).2
    have hf : ∀ g ∈ fs, g.name ≠ f.name := fun g hg he =>
      (List.nodup_cons.mp hn).1 (List.mem_map.mpr ⟨g, hg, he⟩)
    split at h
    · cases h
    · cases h
    · rename_i hr
      obtain ⟨h1, h2⟩ := fieldsLoop_ok fs kvs rs hn' h
      refine ⟨?_, fun k hk => h2 k (fun g hg => hk g (List.mem_cons_of_mem _ hg))⟩
      intro g hg
      rcases List.mem_cons.mp hg with rfl | hg
      · exact ⟨none, hr, (by simp), fun _ => h2 _ hf⟩
      · exact h1 g hg
    · rename_i v hr
      obtain ⟨h1, h2⟩ := fieldsLoop_ok fs _ rs hn' h
      refine ⟨?_, ?_⟩
      · intro g hg
        rcases List.mem_cons.mp hg with rfl | hg
        · refine ⟨some v, hr, ?_, (by simp)⟩
          intro v' hv'; injection hv' with hv'; subst hv'
          rw [h2 _ hf, at_insert_self]
        · obtain ⟨o, ho, h3, h4⟩ := h1 g hg
          rw [at_insert_ne _ _ _ _ (fun he => hf g hg he.symm)] at ho h4
          exact ⟨o, ho, h3, h4⟩
      · intro k hk
        rw [h2 k (fun g hg => hk g (List.mem_cons_of_mem _ hg)),
          at_insert_ne _ _ _ _ (hk f (List.mem_cons_self ..))]

theorem fieldsLoop_err : ∀ (fs : List InField) (kvs : List (Text × GVal)) (e : Err),
    (fs.map (·.name)).Nodup → fieldsLoop rec fs kvs = some (.error e) →
    ∃ f ∈ fs, rec f (At kvs f.name) = some (.error e)
  | [], kvs, e, _, h => by simp [fieldsLoop] at h
  | f :: fs, kvs, e, hn, h => by
    unfold fieldsLoop at h
    rw [getKey_eq] at h
    have hn' : (fs.map (·.name)).Nodup := (List.nodup_cons.mp hn).2
    have hf : ∀ g ∈ fs, g.name ≠ f.name := fun g hg he =>
      (List.nodup_cons.mp hn).1 (List.mem_map.mpr ⟨g, hg, he⟩)
    split at h
    · cases h
    · rename_i e' hr
      injection h with h; injection h with h; subst h
      exact ⟨f, List.mem_cons_self .., hr⟩
    · obtain ⟨g, hg, h1⟩ := fieldsLoop_err fs kvs e hn' h
      exact ⟨g, List.mem_cons_of_mem _ hg, h1⟩
    · obtain ⟨g, hg, h1⟩ := fieldsLoop_err fs _ e hn' h
      rw [at_insert_ne _ _ _ _ (fun he => hf g hg he.symm)] at h1
      exact ⟨g, List.mem_cons_of_mem _ hg, h1⟩

theorem fieldsLoop_none : ∀ (fs : List InField) (kvs : List (Text × GVal)),
    (fs.map (·.name)).Nodup → fieldsLoop rec fs kvs = none →
    ∃ f ∈ fs, rec f (At kvs f.name) = none
  | [], kvs, _, h => by simp [fieldsLoop] at h
  | f :: fs, kvs, hn, h => by
    unfold fieldsLoop at h
    rw [getKey_eq] at h
    have hn' : (fs.map (·.name)).Nodup := (List.nodup_cons.mp hn).2
    have hf : ∀ g ∈ fs, g.name ≠ f.name := fun g hg he =>
      (List.nodup_cons.mp hn).1 (List.mem_map.mpr ⟨g, hg, he⟩)
    split at h
    · rename_i hr
      exact ⟨f, List.mem_cons_self .., hr⟩
    · cases h
    · obtain ⟨g, hg, h1⟩ := fieldsLoop_none fs kvs hn' h
      exact ⟨g, List.mem_cons_of_mem _ hg, h1⟩
    · obtain ⟨g, hg, h1⟩ := fieldsLoop_none fs _ hn' h
      rw [at_insert_ne _ _ _ _ (fun he => hf g hg he.symm)] at h1
      exact ⟨g, List.mem_cons_of_mem _ hg, h1⟩

end loops

section items
variable {rec : Nat → GVal → Out (Option GVal)}

theorem itemsLoop_ok (P : GVal → GVal → Prop) : ∀ (vs : List GVal) (i : Nat) (rs : List GVal),
    (∀ v ∈ vs, ∀ i o, rec i v = some (.ok o) → ∃ r, o = some r ∧ P v r) →
    itemsLoop rec i vs = some (.ok rs) → vs.length = rs.length ∧ ∀ p ∈ vs.zip rs, P p.1 p.2
  | [], i, rs, _, h => by
    unfold itemsLoop at h
    injection h with h; injection h with h; subst h
    exact ⟨rfl, by simp⟩
  | v :: vs, i, rs, hp, h => by
    unfold itemsLoop at h
    split at h
    · cases h
    · cases h
    · cases h
    · rename_i r hr
      split at h
      · cases h
      · cases h
      · rename_i rs' hrs
        injection h with h; injection h with h; subst h
        obtain ⟨h1, h2⟩ := itemsLoop_ok P vs (i + 1) rs' (fun v hv => hp v (List.mem_cons_of_mem _ hv)) hrs
        obtain ⟨r', hr', hP⟩ := hp v (List.mem_cons_self ..) i _ hr
        injection hr' with hr'; subst hr'
        refine ⟨by simp [h1], ?_⟩
        intro p hpm
        rw [List.zip_cons_cons] at hpm
        rcases List.mem_cons.mp hpm with rfl | hpm
        · exact hP
        · exact h2 p hpm

theorem itemsLoop_err : ∀ (vs : List GVal) (i : Nat) (e : Err),
    itemsLoop rec i vs = some (.error e) →
    ∃ v ∈ vs, ∃ i, rec i v = some (.error e) ∨ rec i v = some (.ok none)
  | [], i, e, h => by simp [itemsLoop] at h
  | v :: vs, i, e, h => by
    unfold itemsLoop at h
    split at h
    · cases h
    · rename_i e' hr
      injection h with h; injection h with h; subst h
      exact ⟨v, List.mem_cons_self .., i, .inl hr⟩
    · rename_i hr
      exact ⟨v, List.mem_cons_self .., i, .inr hr⟩
    · split at h
      · cases h
      · rename_i e' hrs
        injection h with h; injection h with h; subst h
        obtain ⟨w, hw, j, h1⟩ := itemsLoop_err vs (i + 1) e' hrs
        exact ⟨w, List.mem_cons_of_mem _ hw, j, h1⟩
      · cases h

theorem itemsLoop_none : ∀ (vs : List GVal) (i : Nat),
    itemsLoop rec i vs = none → ∃ v ∈ vs, ∃ i, rec i v = none
  | [], i, h => by simp [itemsLoop] at h
  | v :: vs, i, h => by
    unfold itemsLoop at h
    split at h
    · rename_i hr; exact ⟨v, List.mem_cons_self .., i, hr⟩
    · cases h
    · cases h
    · split at h
      · rename_i hrs
        obtain ⟨w, hw, j, h1⟩ := itemsLoop_none vs (i + 1) hrs
        exact ⟨w, List.mem_cons_of_mem _ hw, j, h1⟩
      · cases h
      · cases h

end items

theorem wrap_ok {α : Type} {f : α → GVal} {x : Out α} {o : Option GVal} (h : wrap f x = some (.ok o)) :
    ∃ a, x = some (.ok a) ∧ o = some (f a) := by
  unfold wrap at h
  split at h
  · cases h
  · cases h
  · rename_i a
    injection h with h; injection h with h
    exact ⟨a, rfl, h.symm⟩

theorem wrap_err {α : Type} {f : α → GVal} {x : Out α} {e : Err} (h : wrap f x = some (.error e)) :
    x = some (.error e) := by
  unfold wrap at h
  split at h
  · cases h
  · injection h with h; injection h with h; subst h; rfl
  · cases h

theorem wrap_none {α : Type} {f : α → GVal} {x : Out α} (h : wrap f x = none) : x = none := by
  unfold wrap at h
  split at h
  · rfl
  · cases h
  · cases h

/-- A value that is given is parsed to a value. -/
theorem parse_given_some {n : Nat} {ix : Index} {p a : Text} {ty : Ty} {d : Option GVal} {v : GVal}
    {o : Option GVal} (h : parse n ix p a ty d (some v) = some (.ok o)) : ∃ r, o = some r := by
  cases n with
  | zero => simp [parse] at h
  | succ n =>
    unfold parse at h
    split at h
    · cases h
    · rename_i hc
      unfold choose at hc
      simp only [] at hc
      split at hc <;> cases hc
    · split at h
      · injection h with h; injection h with h; exact ⟨_, h.symm⟩
      · split at h
        · obtain ⟨r, _, h⟩ := wrap_ok h; exact ⟨_, h⟩
        · obtain ⟨r, _, h⟩ := wrap_ok h; exact ⟨_, h⟩
        · injection h with h; injection h with h; exact ⟨_, h.symm⟩

/-- An absent value with a default is parsed like the default. -/
theorem parse_default {n : Nat} {ix : Index} {p a : Text} {ty : Ty} {d : GVal}
    (hd : d = .null → ¬ NonNull ty) :
    parse n ix p a ty (some d) none = parse n ix p a ty (some d) (some d) := by
  cases n with
  | zero => rfl
  | succ n =>
    have : choose p a ty (some d) none = choose p a ty (some d) (some d) := by
      unfold choose
      simp only []
      by_cases hn : ty.isNullable = true
      · simp [hn]
      · have : isNull d = false := by
          cases hi : isNull d with
          | false => rfl
          | true => exact absurd ((nonNull_iff ty).mpr (by simpa using hn)) (hd ((isNull_iff d).mp hi))
        simp [this]
    unfold parse
    rw [this]

/-- The default does not matter for a given value. -/
theorem parse_given {n : Nat} {ix : Index} {p a : Text} {ty : Ty} {d d' : Option GVal} {v : GVal} :
    parse n ix p a ty d (some v) = parse n ix p a ty d' (some v) := by
  cases n with
  | zero => rfl
  | succ n => unfold parse; rfl

/-- Scalars, and lists of them, are what they are. -/
theorem good_scalars {ix : Index} : ∀ {ty : Ty} {v : GVal}, ix ty.name = none → Shaped ix false ty v →
    Good ix ty v v
  | ty, v, hn, h => by
    cases h with
    | null h => exact .null (fun hc => by have := h.mp hc; cases this)
    | leaf h hv => exact .leaf h hv
    | list h =>
      rename_i t nn vs
      refine .list rfl ?_
      intro p hp
      have hz : ∀ (l : List GVal), ∀ p ∈ l.zip l, p.1 = p.2 ∧ p.1 ∈ l := by
        intro l
        induction l with
        | nil => simp
        | cons x l ih =>
          intro p hp
          rw [List.zip_cons_cons] at hp
          rcases List.mem_cons.mp hp with rfl | hp
          · exact ⟨rfl, List.mem_cons_self ..⟩
          · exact ⟨(ih p hp).1, List.mem_cons_of_mem _ (ih p hp).2⟩
      obtain ⟨h1, h2⟩ := hz vs p hp
      rw [← h1]
      have hn' : ix t.name = none := hn
      have := h p.1 h2
      rw [hn'] at this
      exact good_scalars hn' this
    | obj h _ => rw [show ix (Ty.named _ _).name = ix _ from rfl] at hn; simp [Ty.name] at hn; rw [h] at hn; cases hn
termination_by ty => sizeOf ty

theorem shaped_ne_null {ix : Index} {c c' : Bool} {ty : Ty} {v : GVal} (hv : v ≠ .null)
    (hn : ix ty.name = none) (h : Shaped ix c ty v) : Shaped ix c' ty v := by
  cases h with
  | null h => exact absurd rfl hv
  | leaf h hv => exact .leaf h hv
  | list h =>
    rename_i t nn vs
    refine .list ?_
    have hn' : ix t.name = none := hn
    rw [hn'] at h ⊢
    exact h
  | obj h g => exact .obj h g

/-- What the parser does with a given value: exactly what the specification says. -/
theorem parse_spec {ix : Index} (hs : Sane ix) : ∀ (n : Nat) (p a : Text) (mty ty : Ty) (d : Option GVal)
    (v : GVal), mty.name = ty.name → Shaped ix (!mty.isNullable) ty v →
    (∀ o, parse n ix p a mty d (some v) = some (.ok o) → ∃ r, o = some r ∧ Good ix ty v r)
    ∧ (∀ e, parse n ix p a mty d (some v) = some (.error e) → ∀ r, ¬ Good ix ty v r)
  | 0, p, a, mty, ty, d, v, _, _ => by simp [parse]
  | n + 1, p, a, mty, ty, d, v, hname, hsh => by
    -- each field of an input type
    have hfield : ∀ (p : Text) (fs : List InField) (kvs : List (Text × GVal)) (name : Text),
        ix name = some fs →
        (∀ f ∈ fs, ∀ w, At kvs f.name = some w → Shaped ix (!f.ty.isNullable) f.ty w) →
        ∀ f ∈ fs,
        (∀ o, parse n ix p f.name f.ty f.dflt (At kvs f.name) = some (.ok o) →
          ArgSpec ix f.ty f.dflt (At kvs f.name) o)
        ∧ (∀ e, parse n ix p f.name f.ty f.dflt (At kvs f.name) = some (.error e) →
          ∀ o, ¬ ArgSpec ix f.ty f.dflt (At kvs f.name) o) := by
      intro p fs kvs name hfs hg f hf
      cases hk : At kvs f.name with
      | some w =>
        obtain ⟨h1, h2⟩ := parse_spec hs n p f.name f.ty f.ty f.dflt w rfl (hg f hf w hk)
        refine ⟨fun o ho => ?_, fun e he o ho => ?_⟩
        · unfold ArgSpec; exact h1 o ho
        · unfold ArgSpec at ho
          obtain ⟨r, _, hr⟩ := ho
          exact h2 e he r hr
      | none =>
        cases hd : f.dflt with
        | some d' =>
          obtain ⟨hd1, hd2⟩ := (hs name fs hfs).2 f hf d' hd
          rw [parse_default hd2]
          obtain ⟨h1, h2⟩ := parse_spec hs n p f.name f.ty f.ty (some d') d' rfl hd1
          refine ⟨fun o ho => ?_, fun e he o ho => ?_⟩
          · unfold ArgSpec; exact h1 o ho
          · unfold ArgSpec at ho
            obtain ⟨r, _, hr⟩ := ho
            exact h2 e he r hr
        | none =>
          refine ⟨fun o ho => ?_, fun e he o ho => ?_⟩
          · cases n with
            | zero => simp [parse] at ho
            | succ n =>
              unfold parse choose at ho
              simp only [] at ho
              by_cases hn : f.ty.isNullable = true
              · simp [hn] at ho
                unfold ArgSpec
                exact ⟨(fun hc => by rw [nonNull_iff, hn] at hc; cases hc), ho.symm⟩
              · simp [hn] at ho
          · cases n with
            | zero => simp [parse] at he
            | succ n =>
              unfold parse choose at he
              simp only [] at he
              by_cases hn : f.ty.isNullable = true
              · simp [hn] at he
              · unfold ArgSpec at ho
                exact ho.1 ((nonNull_iff _).mpr (by simpa using hn))
    by_cases hnull : v = .null
    · subst hnull
      have hc : NonNull ty ↔ (!mty.isNullable) = true := by
        cases hsh with
        | null h => exact h
        | leaf h hv => exact absurd rfl hv
      by_cases hn : mty.isNullable = true
      · have : parse (n + 1) ix p a mty d (some .null) = some (.ok (some .null)) := by
          unfold parse choose
          simp [hn]
          split <;> rfl
        rw [this]
        refine ⟨fun o ho => ?_, fun e he => by cases he⟩
        injection ho with ho; injection ho with ho
        exact ⟨.null, ho.symm, .null (fun h => by have := hc.mp h; simp [hn] at this)⟩
      · have : parse (n + 1) ix p a mty d (some .null) = some (.error (.argumentIsRequired a p)) := by
          unfold parse choose
          simp [hn, isNull]
        rw [this]
        refine ⟨(fun o ho => by cases ho), fun e he r hr => ?_⟩
        cases hr with
        | null h => exact h (hc.mpr (by simpa using hn))
        | leaf _ hv => exact hv rfl
    · have hch : choose p a mty d (some v) = .ok (some v) := by
        unfold choose
        have : isNull v = false := by
          cases hi : isNull v with
          | false => rfl
          | true => exact absurd ((isNull_iff v).mp hi) hnull
        simp [this]
      unfold parse
      rw [hch, hname]
      simp only []
      cases hix : ix ty.name with
      | none =>
        refine ⟨fun o ho => ?_, fun e he => by cases he⟩
        injection ho with ho; injection ho with ho
        exact ⟨v, ho.symm, good_scalars hix (shaped_ne_null hnull hix hsh)⟩
      | some fs =>
        obtain ⟨hnd, _⟩ := hs _ _ hix
        cases hsh with
        | null h => exact absurd rfl hnull
        | leaf h hv => simp only [Ty.name] at hix; rw [h] at hix; cases hix
        | obj h hg =>
          rename_i name nn fs' kvs
          simp only [Ty.name] at hix
          rw [h] at hix; injection hix with hix; subst hix
          simp only []
          refine ⟨fun o ho => ?_, fun e he r hr => ?_⟩
          · obtain ⟨rs, hl, ho⟩ := wrap_ok ho
            obtain ⟨h1, h2⟩ := fieldsLoop_ok _ _ _ hnd hl
            refine ⟨_, ho, ?_⟩
            refine .obj (fun k => (At rs k).getD .null) h ?_ ?_ ?_ ?_ ?_ h2
            · intro f hf w hw
              obtain ⟨o', ho', h3, _⟩ := h1 f hf
              have := (hfield _ _ _ _ h hg f hf).1 o' ho'
              rw [hw] at this
              unfold ArgSpec at this
              obtain ⟨r, hr, hgood⟩ := this
              rw [h3 r hr]; exact hgood
            · intro f hf w hw
              obtain ⟨o', ho', h3, _⟩ := h1 f hf
              have := (hfield _ _ _ _ h hg f hf).1 o' ho'
              rw [hw] at this
              unfold ArgSpec at this
              obtain ⟨r, hr, hgood⟩ := this
              rw [h3 r hr]; rfl
            · intro f hf hw d' hd'
              obtain ⟨o', ho', h3, _⟩ := h1 f hf
              have := (hfield _ _ _ _ h hg f hf).1 o' ho'
              rw [hw, hd'] at this
              unfold ArgSpec at this
              obtain ⟨r, hr, hgood⟩ := this
              rw [h3 r hr]; exact hgood
            · intro f hf hw d' hd'
              obtain ⟨o', ho', h3, _⟩ := h1 f hf
              have := (hfield _ _ _ _ h hg f hf).1 o' ho'
              rw [hw, hd'] at this
              unfold ArgSpec at this
              obtain ⟨r, hr, hgood⟩ := this
              rw [h3 r hr]; rfl
            · intro f hf hw hd'
              obtain ⟨o', ho', _, h4⟩ := h1 f hf
              have := (hfield _ _ _ _ h hg f hf).1 o' ho'
              rw [hw, hd'] at this
              unfold ArgSpec at this
              exact ⟨this.1, by rw [h4 this.2, hw]⟩
          · obtain ⟨f, hf, he⟩ := fieldsLoop_err _ _ _ hnd (wrap_err he)
            have hno := (hfield _ _ _ _ h hg f hf).2 e he
            cases hr with
            | leaf h' _ => rw [h] at h'; cases h'
            | obj res h' g1 g2 d1 d2 ab ot =>
              rw [h] at h'; injection h' with h'; subst h'
              cases hk : At kvs f.name with
              | some w =>
                refine hno (some (res f.name)) ?_
                rw [hk]; unfold ArgSpec
                exact ⟨_, rfl, g1 f hf w hk⟩
              | none =>
                cases hd : f.dflt with
                | some d' =>
                  refine hno (some (res f.name)) ?_
                  rw [hk, hd]; unfold ArgSpec
                  exact ⟨_, rfl, d1 f hf hk d' hd⟩
                | none =>
                  refine hno none ?_
                  rw [hk, hd]; unfold ArgSpec
                  exact ⟨(ab f hf hk hd).1, rfl⟩
        | list h =>
          rename_i t nn vs
          have hix' : ix t.name = some fs := hix
          rw [hix'] at h
          simp only [Option.isSome_some, if_true] at h
          simp only []
          refine ⟨fun o ho => ?_, fun e he r hr => ?_⟩
          · obtain ⟨rs, hl, ho⟩ := wrap_ok ho
            obtain ⟨h1, h2⟩ := itemsLoop_ok (Good ix t) vs 0 rs (fun v hv i o ho =>
              (parse_spec hs n _ _ mty t none v hname (h v hv)).1 o ho) hl
            exact ⟨_, ho, .list h1 h2⟩
          · obtain ⟨w, hw, i, he⟩ := itemsLoop_err vs 0 e (wrap_err he)
            have hbad : ∀ r, ¬ Good ix t w r := by
              rcases he with he | he
              · exact (parse_spec hs n _ _ mty t none w hname (h w hw)).2 e he
              · obtain ⟨r, hr⟩ := parse_given_some he
                cases hr
            cases hr with
            | list hl hz =>
              rename_i rs
              obtain ⟨j, hj, rfl⟩ := List.mem_iff_getElem.mp hw
              have : (vs[j], rs[j]'(hl ▸ hj)) ∈ vs.zip rs := by
                rw [List.mem_iff_getElem]
                exact ⟨j, (by rw [List.length_zip, ← hl]; omega), (by simp)⟩
              exact hbad _ (hz _ this)
termination_by n => n

end Verif.Input
