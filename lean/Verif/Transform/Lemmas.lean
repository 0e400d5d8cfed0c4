import Verif.Transform.Model

set_option linter.unusedSimpArgs false

/-!
# Lookups in maps
-/

namespace Verif.Transform

open Verif.Mustache (Text)
open Verif.Exec (Ty)

/-- The entry of a map under a key. -/
def At {α : Type} (m : List (Text × α)) (k : Text) (a : α) : Prop :=
  (m.find? (fun p => p.1 = k)).map (·.2) = some a

/-- The map has no entry under a key. -/
def Lacks {α : Type} (m : List (Text × α)) (k : Text) : Prop := k ∉ m.map (·.1)

theorem get_some {α : Type} {l : List (Text × α)} {k : Text} {x : α} :
    get l k = some x ↔ At l k x := by
  induction l with
  | nil => simp [get, At]
  | cons p r ih =>
    obtain ⟨k', v⟩ := p
    by_cases h : k' = k
    · simp [get, At, h]
    · simp only [get, h, if_false, At, List.find?_cons, decide_false]
      simpa [At] using ih

theorem get_none {α : Type} {l : List (Text × α)} {k : Text} :
    get l k = none ↔ Lacks l k := by
  induction l with
  | nil => simp [get, Lacks]
  | cons p r ih =>
    obtain ⟨k', v⟩ := p
    by_cases h : k' = k
    · simp [get, Lacks, h]
    · simp only [get, h, if_false, ih, Lacks, List.map_cons, List.mem_cons, not_or]
      exact ⟨fun hh => ⟨fun e => h e.symm, hh⟩, fun hh => hh.2⟩

theorem at_unique {α : Type} {l : List (Text × α)} {k : Text} {x y : α} (hx : At l k x) (hy : At l k y) :
    x = y := by
  unfold At at hx hy
  rw [hx] at hy
  exact Option.some.inj hy

theorem at_not_lacks {α : Type} {l : List (Text × α)} {k : Text} {x : α} (hx : At l k x) : ¬ Lacks l k := by
  intro h
  rw [← get_some] at hx
  rw [← get_none] at h
  rw [h] at hx
  cases hx

theorem at_or_lacks {α : Type} (l : List (Text × α)) (k : Text) : (∃ x, At l k x) ∨ Lacks l k := by
  cases h : get l k with
  | some x => exact .inl ⟨x, get_some.1 h⟩
  | none => exact .inr (get_none.1 h)

theorem at_mem {α : Type} {l : List (Text × α)} {k : Text} {x : α} (h : At l k x) : (k, x) ∈ l := by
  unfold At at h
  cases hf : l.find? (fun p => p.1 = k) with
  | none => simp [hf] at h
  | some p =>
    rw [hf] at h
    simp only [Option.map_some, Option.some.injEq] at h
    have h1 := List.mem_of_find?_eq_some hf
    have h2 := List.find?_some hf
    simp only [decide_eq_true_eq] at h2
    obtain ⟨a, b⟩ := p
    simp only at h h2
    subst h; subst h2
    exact h1

theorem mem_not_lacks {α : Type} {l : List (Text × α)} {k : Text} {x : α} (h : (k, x) ∈ l) : ¬ Lacks l k := by
  intro hl
  exact hl (List.mem_map_of_mem (f := (·.1)) h)

theorem get_remove {α : Type} (l : List (Text × α)) (k j : Text) :
    get (remove l k) j = if j = k then none else get l j := by
  induction l with
  | nil => simp [remove, get]
  | cons p r ih =>
    obtain ⟨k', v⟩ := p
    unfold remove at ih ⊢
    by_cases h : k' = k
    · subst h
      simp only [List.filter_cons, ne_eq, not_true_eq_false, decide_false, Bool.false_eq_true, if_false, ih, get]
      by_cases hj : j = k'
      · simp [hj]
      · have hj' : ¬ k' = j := fun e => hj e.symm
        simp [hj, hj']
    · simp only [List.filter_cons, ne_eq, h, not_false_eq_true, decide_true, if_true, get, ih]
      by_cases hj : j = k
      · subst hj; simp [h]
      · simp [hj]

theorem get_insert {α : Type} (l : List (Text × α)) (k j : Text) (a : α) :
    get (insert l k a) j = if j = k then some a else get l j := by
  simp only [insert, get, get_remove]
  by_cases h : j = k
  · simp [h]
  · have h' : ¬ k = j := fun e => h e.symm
    simp [h, h']

theorem get_map {α β : Type} (l : List (Text × α)) (f : α → β) (k : Text) :
    get (l.map (fun p => (p.1, f p.2))) k = (get l k).map f := by
  induction l with
  | nil => rfl
  | cons p r ih =>
    simp only [List.map_cons, get]
    split <;> simp [ih]

end Verif.Transform
