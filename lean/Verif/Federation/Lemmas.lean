import Verif.Federation.Model
import Verif.Merge.Lemmas

set_option linter.unusedSimpArgs false

namespace Verif.Federation
open Verif.Mustache (Text)
open Verif.Merge (get remove keysOf get_none_iff get_mem)
open Verif.HttpUrl (GVal)

/-! ## Association lists -/

theorem nodup_cons_keys {V : Type} {p : Text × V} {r : List (Text × V)} (h : (keysOf (p :: r)).Nodup) :
    p.1 ∉ keysOf r ∧ (keysOf r).Nodup := by
  simpa [keysOf] using h

theorem remove_sublist {V : Type} (k : Text) (m : List (Text × V)) : (remove k m).Sublist m := by
  induction m with
  | nil => exact .slnil
  | cons p r ih =>
    obtain ⟨k', v⟩ := p
    unfold remove
    split
    · exact List.sublist_cons_self _ _
    · exact ih.cons_cons _

theorem nodup_remove {V : Type} {k : Text} {m : List (Text × V)} (h : (keysOf m).Nodup) :
    (keysOf (remove k m)).Nodup :=
  List.Sublist.nodup ((remove_sublist k m).map _) h

theorem get_remove' {V : Type} {k j : Text} {m : List (Text × V)} (h : (keysOf m).Nodup) :
    get j (remove k m) = if k = j then none else get j m := by
  induction m with
  | nil => simp [remove, Merge.get]
  | cons p r ih =>
    obtain ⟨k', v⟩ := p
    have hb := nodup_cons_keys h
    unfold remove
    by_cases e : k' = k
    · subst e
      simp only [if_true, Merge.get]
      by_cases e' : k' = j
      · subst e'; simp [get_none_iff.mpr hb.1]
      · simp [e']
    · simp only [e, if_false, Merge.get, ih hb.2]
      by_cases e' : k' = j
      · subst e'; simp [Ne.symm e]
      · simp [e']

theorem get_of_mem {V : Type} {k : Text} {v : V} {m : List (Text × V)} (hn : (keysOf m).Nodup)
    (h : (k, v) ∈ m) : get k m = some v := by
  induction m with
  | nil => cases h
  | cons p r ih =>
    obtain ⟨k', v'⟩ := p
    have hb := nodup_cons_keys hn
    rcases List.mem_cons.mp h with h | h
    · simp at h; obtain ⟨rfl, rfl⟩ := h; simp [Merge.get]
    · have : k' ≠ k := by
        intro e; subst e
        exact hb.1 (List.mem_map.mpr ⟨_, h, rfl⟩)
      simp [Merge.get, this, ih hb.2 h]

/-- What `joinEntries` makes of two entries. -/
def joined {E : Type} (step : E → E → Option E) (x y : Option E) : Option E :=
  match x, y with
  | some x, some y => step x y
  | some x, none => some x
  | none, y => y

theorem get_joinEntries {E : Type} {step : Text → E → E → Option E} {a b m : List (Text × E)}
    (ha : (keysOf a).Nodup) (hb : (keysOf b).Nodup) (h : joinEntries step a b = some m) (k : Text) :
    get k m = joined (step k) (get k a) (get k b) ∧
      (∀ x y, get k a = some x → get k b = some y → (step k x y).isSome) := by
  induction b generalizing a m with
  | nil =>
    simp only [joinEntries, Option.some.injEq] at h
    subst h
    constructor
    · cases e : get k a <;> simp [joined, Merge.get]
    · intro x y _ hy; simp [Merge.get] at hy
  | cons p r ih =>
    obtain ⟨n, o⟩ := p
    have hb' := nodup_cons_keys hb
    unfold joinEntries at h
    cases e : get n a with
    | some d =>
      rw [e] at h
      simp only at h
      cases es : step n d o with
      | none => rw [es] at h; simp at h
      | some s =>
        cases er : joinEntries step (remove n a) r with
        | none => rw [es, er] at h; simp at h
        | some ms =>
          rw [es, er] at h
          simp only [Option.some.injEq] at h
          subst h
          obtain ⟨i1, i2⟩ := ih (nodup_remove ha) hb'.2 er
          rw [get_remove' ha] at i1 i2
          by_cases e' : n = k
          · subst e'
            simp only [Merge.get, if_true, e]
            refine ⟨by simp [joined, es], ?_⟩
            intro x y hx hy
            simp at hx hy
            subst hx; subst hy; simp [es]
          · simp only [Merge.get, e', if_false] at i1 i2 ⊢
            exact ⟨i1, i2⟩
    | none =>
      rw [e] at h
      simp only at h
      cases er : joinEntries step a r with
      | none => rw [er] at h; simp at h
      | some ms =>
        rw [er] at h
        simp only [Option.map_some, Option.some.injEq] at h
        subst h
        obtain ⟨i1, i2⟩ := ih ha hb'.2 er
        by_cases e' : n = k
        · subst e'
          simp [Merge.get, e, joined]
        · simp only [Merge.get, e', if_false]
          exact ⟨i1, i2⟩

theorem keys_joinEntries {E : Type} {step : Text → E → E → Option E} {a b m : List (Text × E)}
    (ha : (keysOf a).Nodup) (hb : (keysOf b).Nodup) (h : joinEntries step a b = some m) :
    (keysOf m).Nodup := by
  induction b generalizing a m with
  | nil =>
    simp only [joinEntries, Option.some.injEq] at h
    subst h; exact ha
  | cons p r ih =>
    obtain ⟨n, o⟩ := p
    have hb' := nodup_cons_keys hb
    have key : ∀ (a' ms : List (Text × E)), (keysOf a').Nodup → get n a' = none →
        joinEntries step a' r = some ms → n ∉ keysOf ms := by
      intro a' ms ha' hg hj
      have := (get_joinEntries ha' hb'.2 hj n).1
      rw [hg, get_none_iff.mpr hb'.1] at this
      exact get_none_iff.mp this
    unfold joinEntries at h
    cases e : get n a with
    | some d =>
      rw [e] at h
      simp only at h
      cases es : step n d o with
      | none => rw [es] at h; simp at h
      | some s =>
        cases er : joinEntries step (remove n a) r with
        | none => rw [es, er] at h; simp at h
        | some ms =>
          rw [es, er] at h
          simp only [Option.some.injEq] at h
          subst h
          have := key _ ms (nodup_remove ha) (by rw [get_remove' ha]; simp) er
          have h2 := ih (nodup_remove ha) hb'.2 er
          simpa [keysOf] using ⟨by simpa [keysOf] using this, h2⟩
    | none =>
      rw [e] at h
      simp only at h
      cases er : joinEntries step a r with
      | none => rw [er] at h; simp at h
      | some ms =>
        rw [er] at h
        simp only [Option.map_some, Option.some.injEq] at h
        subst h
        have := key _ ms ha e er
        have h2 := ih ha hb'.2 er
        simpa [keysOf] using ⟨by simpa [keysOf] using this, h2⟩

/-- What `shrinkEntries` makes of two entries. -/
def shrunk {E : Type} (sh : E → E → Option E) (x y : Option E) : Option E :=
  match x, y with
  | some x, some y => sh x y
  | _, _ => none

theorem get_shrinkEntries {E : Type} {tyOf : E → Ty} {sh : E → E → Option E} {a b m : List (Text × E)}
    (ha : (keysOf a).Nodup) (hb : (keysOf b).Nodup) (h : shrinkEntries tyOf sh a b = some m) (k : Text) :
    get k m = shrunk sh (get k a) (get k b) ∧
      (∀ x y, get k a = some x → get k b = some y → (sh x y).isSome) ∧
      (∀ x, get k a = some x → get k b = none → (tyOf x).isNullable = true) ∧
      (∀ y, get k a = none → get k b = some y → (tyOf y).isNullable = true) := by
  induction b generalizing a m with
  | nil =>
    unfold shrinkEntries at h
    split at h
    · rename_i hall
      simp only [Option.some.injEq] at h
      subst h
      refine ⟨by cases get k a <;> simp [shrunk, Merge.get], ?_, ?_, ?_⟩
      · intro x y _ hy; simp [Merge.get] at hy
      · intro x hx _
        exact (List.all_eq_true.mp hall) (k, x) (get_mem hx)
      · intro y _ hy; simp [Merge.get] at hy
    · cases h
  | cons p r ih =>
    obtain ⟨n, o⟩ := p
    have hb' := nodup_cons_keys hb
    unfold shrinkEntries at h
    cases e : get n a with
    | some d =>
      rw [e] at h
      simp only at h
      cases es : sh d o with
      | none => rw [es] at h; simp at h
      | some s =>
        cases er : shrinkEntries tyOf sh (remove n a) r with
        | none => rw [es, er] at h; simp at h
        | some ms =>
          rw [es, er] at h
          simp only [Option.some.injEq] at h
          subst h
          obtain ⟨i1, i2, i3, i4⟩ := ih (nodup_remove ha) hb'.2 er
          rw [get_remove' ha] at i1 i2 i3 i4
          by_cases e' : n = k
          · subst e'
            simp only [Merge.get, if_true, e]
            refine ⟨by simp [shrunk, es], ?_, ?_, ?_⟩
            · intro x y hx hy
              simp at hx hy
              subst hx; subst hy; simp [es]
            · intro x _ hy; simp at hy
            · intro y hx; simp at hx
          · simp only [Merge.get, e', if_false] at i1 i2 i3 i4 ⊢
            exact ⟨i1, i2, i3, i4⟩
    | none =>
      rw [e] at h
      simp only at h
      split at h
      · rename_i hnull
        obtain ⟨i1, i2, i3, i4⟩ := ih ha hb'.2 h
        by_cases e' : n = k
        · subst e'
          rw [get_none_iff.mpr hb'.1] at i1
          simp only [Merge.get, if_true, e] at i1 ⊢
          refine ⟨?_, ?_, ?_, ?_⟩
          · rw [i1]; rfl
          · intro x y hx; simp at hx
          · intro x hx; simp at hx
          · intro y _ hy; simp at hy; subst hy; exact hnull
        · simp only [Merge.get, e', if_false]
          exact ⟨i1, i2, i3, i4⟩
      · cases h

theorem keys_shrinkEntries {E : Type} {tyOf : E → Ty} {sh : E → E → Option E} {a b m : List (Text × E)}
    (ha : (keysOf a).Nodup) (hb : (keysOf b).Nodup) (h : shrinkEntries tyOf sh a b = some m) :
    (keysOf m).Nodup := by
  induction b generalizing a m with
  | nil =>
    unfold shrinkEntries at h
    split at h
    · simp only [Option.some.injEq] at h; subst h; simp [keysOf]
    · cases h
  | cons p r ih =>
    obtain ⟨n, o⟩ := p
    have hb' := nodup_cons_keys hb
    unfold shrinkEntries at h
    cases e : get n a with
    | some d =>
      rw [e] at h
      simp only at h
      cases es : sh d o with
      | none => rw [es] at h; simp at h
      | some s =>
        cases er : shrinkEntries tyOf sh (remove n a) r with
        | none => rw [es, er] at h; simp at h
        | some ms =>
          rw [es, er] at h
          simp only [Option.some.injEq] at h
          subst h
          have h1 := (get_shrinkEntries (nodup_remove ha) hb'.2 er n).1
          rw [get_none_iff.mpr hb'.1] at h1
          have h1 : n ∉ keysOf ms := get_none_iff.mp (by rw [h1]; cases get n (remove n a) <;> rfl)
          have h2 := ih (nodup_remove ha) hb'.2 er
          simpa [keysOf] using ⟨by simpa [keysOf] using h1, h2⟩
    | none =>
      rw [e] at h
      simp only at h
      split at h
      · exact ih ha hb'.2 h
      · cases h

/-! ## Wrapped types -/

theorem merge_comm {f : Bool → Bool → Bool} (hf : ∀ x y, f x y = f y x) (a b : Ty) :
    Ty.merge f a b = Ty.merge f b a := by
  induction a generalizing b with
  | named n nn => cases b with
    | named n' nn' =>
      simp only [Ty.merge]
      by_cases h : n = n'
      · subst h; simp [hf nn nn']
      · simp [h, Ne.symm h]
    | list t nn' => simp [Ty.merge]
  | list t nn ih => cases b with
    | named n' nn' => simp [Ty.merge]
    | list t' nn' => simp only [Ty.merge, ih t', hf nn nn']

theorem merge_self {f : Bool → Bool → Bool} (hf : ∀ x, f x x = x) (a : Ty) : Ty.merge f a a = some a := by
  induction a with
  | named n nn => simp [Ty.merge, hf]
  | list t nn ih => simp [Ty.merge, ih, hf]

theorem merge_assoc {f : Bool → Bool → Bool} (hf : ∀ x y z, f (f x y) z = f x (f y z)) (a b c : Ty) :
    (Ty.merge f a b).bind (fun x => Ty.merge f x c) = (Ty.merge f b c).bind (fun x => Ty.merge f a x) := by
  induction a generalizing b c with
  | named n nn => cases b with
    | named n' nn' => cases c with
      | named n'' nn'' =>
        simp only [Ty.merge]
        have := hf nn nn' nn''
        clear hf
        by_cases h : n = n' <;> by_cases h' : n' = n'' <;> simp_all [Ty.merge]
      | list t nn'' => simp only [Ty.merge]; by_cases h : n = n' <;> simp_all [Ty.merge]
    | list t nn' => cases c with
      | named n'' nn'' => simp [Ty.merge]
      | list t' nn'' => simp only [Ty.merge]; cases Ty.merge f t t' <;> simp [Ty.merge]
  | list t nn ih => cases b with
    | named n' nn' => cases c with
      | named n'' nn'' => simp only [Ty.merge]; by_cases h : n' = n'' <;> simp_all [Ty.merge]
      | list t nn'' => simp [Ty.merge]
    | list t' nn' => cases c with
      | named n'' nn'' => simp only [Ty.merge]; cases Ty.merge f t t' <;> simp [Ty.merge]
      | list t'' nn'' =>
        have := ih t' t''
        have hn := hf nn nn' nn''
        clear ih hf
        simp only [Ty.merge]
        cases h1 : Ty.merge f t t' <;> cases h2 : Ty.merge f t' t'' <;>
          simp only [h1, h2, Option.bind_some, Option.bind_none, Option.map_some, Option.map_none,
            Ty.merge, hn] at this ⊢
        · rw [← this]; rfl
        · rw [this]; rfl
        · rw [this]

/-- `a` is at least as strict as `b`: same shape and name, non-null wherever `b` is. -/
inductive Stricter : Ty → Ty → Prop where
  | named {n x y} : (y = true → x = true) → Stricter (.named n x) (.named n y)
  | list {t u x y} : Stricter t u → (y = true → x = true) → Stricter (.list t x) (.list u y)

theorem Stricter.refl (t : Ty) : Stricter t t := by
  induction t with
  | named n nn => exact .named id
  | list t nn ih => exact .list ih id

theorem Stricter.name {a b : Ty} (h : Stricter a b) : a.name = b.name := by
  induction h with
  | named _ => rfl
  | list _ _ ih => exact ih

theorem Stricter.nullable {a b : Ty} (h : Stricter a b) : a.isNullable = true → b.isNullable = true := by
  cases h with
  | named h => rename_i x y; cases x <;> cases y <;> simp_all [Ty.isNullable]
  | list _ h => rename_i x y; cases x <;> cases y <;> simp_all [Ty.isNullable]

theorem Stricter.trans {a b c : Ty} (h : Stricter a b) (h' : Stricter b c) : Stricter a c := by
  induction h generalizing c with
  | named h => cases h' with
    | named h' => exact .named (fun e => h (h' e))
  | list _ h ih => cases h' with
    | list ht h' => exact .list (ih ht) (fun e => h (h' e))

theorem shrink_stricter {a b m : Ty} (h : a.shrink b = some m) : Stricter m a ∧ Stricter m b := by
  unfold Ty.shrink at h
  induction a generalizing b m with
  | named n nn => cases b with
    | named n' nn' =>
      simp only [Ty.merge] at h
      by_cases e : n = n'
      · subst e
        simp at h
        subst h
        exact ⟨.named (by simp +contextual), .named (by simp +contextual)⟩
      · simp [e] at h
    | list t nn' => simp [Ty.merge] at h
  | list t nn ih => cases b with
    | named n' nn' => simp [Ty.merge] at h
    | list t' nn' =>
      simp only [Ty.merge] at h
      cases e : Ty.merge (fun x y => x || y) t t' with
      | none => rw [e] at h; simp at h
      | some t'' =>
        rw [e] at h
        simp at h
        subst h
        obtain ⟨h1, h2⟩ := ih e
        exact ⟨.list h1 (by simp +contextual), .list h2 (by simp +contextual)⟩

theorem expand_stricter {a b m : Ty} (h : a.expand b = some m) : Stricter a m ∧ Stricter b m := by
  unfold Ty.expand at h
  induction a generalizing b m with
  | named n nn => cases b with
    | named n' nn' =>
      simp only [Ty.merge] at h
      by_cases e : n = n'
      · subst e
        simp at h
        subst h
        exact ⟨.named (by simp +contextual), .named (by simp +contextual)⟩
      · simp [e] at h
    | list t nn' => simp [Ty.merge] at h
  | list t nn ih => cases b with
    | named n' nn' => simp [Ty.merge] at h
    | list t' nn' =>
      simp only [Ty.merge] at h
      cases e : Ty.merge (fun x y => x && y) t t' with
      | none => rw [e] at h; simp at h
      | some t'' =>
        rw [e] at h
        simp at h
        subst h
        obtain ⟨h1, h2⟩ := ih e
        exact ⟨.list h1 (by simp +contextual), .list h2 (by simp +contextual)⟩

/-! ## Connections -/

/-- What a name directly refers to: members of a union, non-scalar field types of a type. -/
def successors (pre : Text → Bool) (c : Cfg) (n : Text) : List Text :=
  match get n c.unions with
  | some members => members
  | none => match get n c.types with
    | some d => (d.fields.map (fun f => f.2.ty.name)).filter (fun m => !isScalar pre c m)
    | none => []

/-- The name is a union, a type or an enum of the configuration. -/
def defined (c : Cfg) (n : Text) : Bool :=
  (get n c.unions).isSome || (get n c.types).isSome || (get n c.enums).isSome

/-- Apart from the names still being visited, everything a member refers to is a member. -/
def ClosedBut (pre : Text → Bool) (c : Cfg) (S P : List Text) : Prop :=
  ∀ n ∈ S, n ∉ P → ∀ m ∈ successors pre c n, defined c m = true → m ∈ S

theorem find_spec (pre : Text → Bool) (c : Cfg) : ∀ fuel : Nat,
    (∀ n S S', findConnections pre c fuel n S = some S' →
      (∀ x ∈ S, x ∈ S') ∧ (defined c n = true → n ∈ S') ∧
      (∀ P, ClosedBut pre c S P → ClosedBut pre c S' P)) ∧
    (∀ ms S S', findMembers pre c fuel ms S = some S' →
      (∀ x ∈ S, x ∈ S') ∧ (∀ m ∈ ms, defined c m = true → m ∈ S') ∧
      (∀ P, ClosedBut pre c S P → ClosedBut pre c S' P)) ∧
    (∀ fs S S', findFields pre c fuel fs S = some S' →
      (∀ x ∈ S, x ∈ S') ∧
      (∀ f ∈ fs, isScalar pre c f.2.ty.name = false → defined c f.2.ty.name = true → f.2.ty.name ∈ S') ∧
      (∀ P, ClosedBut pre c S P → ClosedBut pre c S' P)) := by
  intro fuel
  induction fuel with
  | zero =>
    refine ⟨?_, ?_, ?_⟩
    · intro n S S' h; simp [findConnections] at h
    · intro ms S S' h
      cases ms with
      | nil => simp [findMembers] at h; subst h; simp
      | cons _ _ => simp [findMembers] at h
    · intro fs S S' h
      cases fs with
      | nil => simp [findFields] at h; subst h; simp
      | cons _ _ => simp [findFields] at h
  | succ fuel ih =>
    obtain ⟨ih1, ih2, ih3⟩ := ih
    have start : ∀ n S P, ClosedBut pre c S P → ClosedBut pre c (n :: S) (n :: P) := by
      intro n S P h x hx hxP m hm hd
      simp only [List.mem_cons, not_or] at hx hxP
      rcases hx with hx | hx
      · exact absurd hx hxP.1
      · exact List.mem_cons_of_mem _ (h x hx hxP.2 m hm hd)
    refine ⟨?_, ?_, ?_⟩
    · intro n S S' h
      unfold findConnections at h
      cases hu : get n c.unions with
      | some members =>
        rw [hu] at h
        simp only at h
        obtain ⟨h1, h2, h3⟩ := ih2 _ _ _ h
        refine ⟨fun x hx => h1 x (by simp [hx]), fun _ => h1 n (by simp), ?_⟩
        intro P hP x hx hxP m hm hd
        by_cases e : x = n
        · subst e
          simp only [successors, hu] at hm
          exact h2 m hm hd
        · exact h3 _ (start n S P hP) x hx (by simp [e, hxP]) m hm hd
      | none =>
        rw [hu] at h
        simp only at h
        cases ht : get n c.types with
        | some d =>
          rw [ht] at h
          simp only at h
          obtain ⟨h1, h2, h3⟩ := ih3 _ _ _ h
          refine ⟨fun x hx => h1 x (by simp [hx]), fun _ => h1 n (by simp), ?_⟩
          intro P hP x hx hxP m hm hd
          by_cases e : x = n
          · subst e
            simp only [successors, hu, ht, List.mem_filter, List.mem_map] at hm
            obtain ⟨⟨f, hf, rfl⟩, hs⟩ := hm
            exact h2 f hf (by simpa using hs) hd
          · exact h3 _ (start n S P hP) x hx (by simp [e, hxP]) m hm hd
        | none =>
          rw [ht] at h
          simp only at h
          cases he : get n c.enums with
          | some v =>
            rw [he] at h
            simp only [Option.some.injEq] at h
            subst h
            refine ⟨fun x hx => by simp [hx], fun _ => by simp, ?_⟩
            intro P hP x hx hxP m hm hd
            by_cases e : x = n
            · subst e
              simp [successors, hu, ht] at hm
            · exact start n S P hP x hx (by simp [e, hxP]) m hm hd
          | none =>
            rw [he] at h
            simp only [Option.some.injEq] at h
            subst h
            refine ⟨fun x hx => hx, ?_, fun P hP => hP⟩
            intro hd
            simp [defined, hu, ht, he] at hd
    · intro ms S S' h
      cases ms with
      | nil => simp [findMembers] at h; subst h; simp
      | cons m rest =>
        unfold findMembers at h
        cases h1 : findConnections pre c fuel m S with
        | none => rw [h1] at h; simp at h
        | some S1 =>
          rw [h1] at h
          simp only at h
          obtain ⟨a1, a2, a3⟩ := ih1 _ _ _ h1
          obtain ⟨b1, b2, b3⟩ := ih2 _ _ _ h
          refine ⟨fun x hx => b1 x (a1 x hx), ?_, fun P hP => b3 P (a3 P hP)⟩
          intro x hx hd
          rcases List.mem_cons.mp hx with rfl | hx
          · exact b1 _ (a2 hd)
          · exact b2 x hx hd
    · intro fs S S' h
      cases fs with
      | nil => simp [findFields] at h; subst h; simp
      | cons f rest =>
        unfold findFields at h
        split at h
        · cases h1 : findConnections pre c fuel f.2.ty.name S with
          | none => rw [h1] at h; simp at h
          | some S1 =>
            rw [h1] at h
            simp only at h
            obtain ⟨a1, a2, a3⟩ := ih1 _ _ _ h1
            obtain ⟨b1, b2, b3⟩ := ih3 _ _ _ h
            refine ⟨fun x hx => b1 x (a1 x hx), ?_, fun P hP => b3 P (a3 P hP)⟩
            intro x hx hs hd
            rcases List.mem_cons.mp hx with rfl | hx
            · exact b1 _ (a2 hd)
            · exact b2 x hx hs hd
        · rename_i hc
          obtain ⟨b1, b2, b3⟩ := ih3 _ _ _ h
          refine ⟨b1, ?_, b3⟩
          intro x hx hs hd
          rcases List.mem_cons.mp hx with rfl | hx
          · apply b1
            simp only [hs, Bool.not_false, Bool.and_true, Bool.not_eq_true', Bool.not_eq_false,
              List.contains_iff_mem, List.contains_eq_mem, decide_eq_true_eq, decide_eq_false_iff_not,
              Classical.not_not] at hc
            exact hc
          · exact b2 x hx hs hd

theorem findAll_spec (pre : Text → Bool) (c : Cfg) (fuel : Nat) (ns S S' : List Text)
    (h : findAll pre c fuel ns S = some S') :
    (∀ x ∈ S, x ∈ S') ∧ (∀ n ∈ ns, defined c n = true → n ∈ S') ∧
      (ClosedBut pre c S [] → ClosedBut pre c S' []) := by
  induction ns generalizing S with
  | nil => simp [findAll] at h; subst h; simp
  | cons n rest ih =>
    simp only [findAll, Option.bind_eq_some_iff] at h
    obtain ⟨S1, h1, h2⟩ := h
    obtain ⟨a1, a2, a3⟩ := (find_spec pre c fuel).1 _ _ _ h1
    obtain ⟨b1, b2, b3⟩ := ih _ h2
    refine ⟨fun x hx => b1 x (a1 x hx), ?_, fun hP => b3 (a3 [] hP)⟩
    intro x hx hd
    rcases List.mem_cons.mp hx with rfl | hx
    · exact b1 _ (a2 hd)
    · exact b2 x hx hd

end Verif.Federation
