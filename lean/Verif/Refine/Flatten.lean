import Verif.Refine.Props

/-!
# The paths of single fields
-/

namespace Verif.Refine

open Verif.Mustache (Text)
open Verif.Exec (Ty)
open Verif.Transform

/-- The name is a leaf: a scalar or an enum. -/
def Leaf (pre : Text → Bool) (c : Cfg) (n : Text) : Prop := Scal pre c n ∨ ¬ Lacks c.enums n

/-- Specification. From a field of a type there is only one way to go down, and it ends in a leaf: the path has the
names of the fields. -/
inductive OneWay (pre : Text → Bool) (c : Cfg) : Text → Text → List Text → Prop
  | leaf {f ty} : Leaf pre c ty → OneWay pre c f ty [f]
  | step {f ty t g gd p} : ¬ Leaf pre c ty → At c.types ty t → t.fields = [(g, gd)] → OneWay pre c g gd.ty.name p →
      OneWay pre c f ty (f :: p)

theorem leaf_iff {pre : Text → Bool} {c : Cfg} {n : Text} :
    (isScalar pre c n || (get c.enums n).isSome) = true ↔ Leaf pre c n := by
  rw [Bool.or_eq_true, isScalar_iff, Leaf, ← get_none]
  cases get c.enums n <;> simp

theorem OneWay.cons {pre : Text → Bool} {c : Cfg} {f ty : Text} {p : List Text} (h : OneWay pre c f ty p) :
    ∃ q, p = f :: q ∧ ∀ f', OneWay pre c f' ty (f' :: q) := by
  cases h with
  | leaf h => exact ⟨[], rfl, fun _ => .leaf h⟩
  | step h1 h2 h3 h4 => exact ⟨_, rfl, fun _ => .step h1 h2 h3 h4⟩

/-- The types not visited yet. -/
def left (c : Cfg) (v : List Text) : Nat := c.types.countP (fun p => !v.contains p.1)

theorem left_lt {c : Cfg} {v : List Text} {n : Text} {t : TypeD} (ht : get c.types n = some t)
    (hv : v.contains n = false) : left c (n :: v) < left c v := by
  refine countP_lt (fun p _ hp => ?_) (y := (n, t)) (at_mem (get_some.1 ht)) ?_ ?_
  · simp only [List.contains_cons, Bool.not_eq_true', Bool.or_eq_false_iff] at hp ⊢
    exact hp.2
  · simp only [hv, Bool.not_false]
  · simp

theorem singlePath_spec (pre : Text → Bool) (c : Cfg) : ∀ (fuel : Nat) (v : List Text) (f ty : Text), left c v < fuel →
    (∀ x ∈ v, ∀ g q, OneWay pre c g x q → ∃ g' q', OneWay pre c g' ty q' ∧ q'.length < q.length) →
    ∃ r, singlePath pre c fuel v f ty = some r ∧ ∀ p, r = some p ↔ OneWay pre c f ty p
  | 0, _, _, _, h, _ => absurd h (Nat.not_lt_zero _)
  | fuel + 1, v, f, ty, h, hv => by
    rw [singlePath]
    by_cases h1 : v.contains ty = true
    · rw [if_pos h1]
      refine ⟨none, rfl, fun p => ⟨fun hp => (by cases hp), fun hp => ?_⟩⟩
      exfalso
      have hm := List.contains_iff_mem.1 h1
      have hno : ∀ k g q, q.length ≤ k → ¬ OneWay pre c g ty q := by
        intro k
        induction k with
        | zero =>
          intro g q hk hq
          obtain ⟨q', rfl, _⟩ := hq.cons
          simp at hk
        | succ k ih =>
          intro g q hk hq
          obtain ⟨g', q', h2, h3⟩ := hv ty hm g q hq
          exact ih g' q' (by omega) h2
      exact hno p.length f p (Nat.le_refl _) hp
    · rw [if_neg h1]
      have h1' : v.contains ty = false := by simpa using h1
      by_cases h2 : (isScalar pre c ty || (get c.enums ty).isSome) = true
      · rw [if_pos h2]
        have hl := leaf_iff.1 h2
        refine ⟨some [f], rfl, fun p => ⟨fun hp => ?_, fun hp => ?_⟩⟩
        · cases hp
          exact .leaf hl
        · cases hp with
          | leaf _ => rfl
          | step hn _ _ _ => exact absurd hl hn
      · rw [if_neg h2]
        have hl := fun h => h2 (leaf_iff.2 h)
        have hnone : (∀ t, get c.types ty = some t → ∀ x, t.fields ≠ [x]) → ∀ p, (none : Option (List Text)) = some p ↔ OneWay pre c f ty p := by
          intro hno p
          refine ⟨fun hp => (by cases hp), fun hp => ?_⟩
          cases hp with
          | leaf h => exact absurd h hl
          | step _ ha hf _ => exact absurd hf (hno _ (get_some.2 ha) _)
        cases ht : get c.types ty with
        | none => exact ⟨none, rfl, hnone (fun t h => by rw [ht] at h; cases h)⟩
        | some t =>
          obtain ⟨fs, im, dd⟩ := t
          match fs with
          | [] => exact ⟨none, rfl, hnone (fun t h => by rw [ht] at h; cases h; intro x hx; cases hx)⟩
          | a :: b :: r => exact ⟨none, rfl, hnone (fun t h => by rw [ht] at h; cases h; intro x hx; cases hx)⟩
          | [(g, gd)] =>
            have hstep : ∀ f' p, OneWay pre c g gd.ty.name p → OneWay pre c f' ty (f' :: p) :=
              fun f' p hp => .step hl (get_some.1 ht) rfl hp
            have hback : ∀ f' p, OneWay pre c f' ty p → ∃ q, p = f' :: q ∧ OneWay pre c g gd.ty.name q := by
              intro f' p hp
              cases hp with
              | leaf h => exact absurd h hl
              | step _ ha hf hq =>
                rw [← at_unique (get_some.1 ht) ha] at hf
                cases hf
                exact ⟨_, rfl, hq⟩
            have hlt := left_lt ht h1'
            obtain ⟨r, hr, hs⟩ := singlePath_spec pre c fuel (ty :: v) g gd.ty.name (by omega) (by
              intro x hx g' q hq
              rcases List.mem_cons.1 hx with rfl | hx
              · obtain ⟨q', rfl, hq'⟩ := hback g' q hq
                exact ⟨g, q', hq', by simp⟩
              · obtain ⟨g2, q2, h3, h4⟩ := hv x hx g' q hq
                obtain ⟨q', rfl, hq'⟩ := hback g2 q2 h3
                exact ⟨g, q', hq', by simp at h4; omega⟩)
            simp only [hr]
            cases r with
            | none =>
              refine ⟨none, rfl, fun p => ⟨fun hp => (by cases hp), fun hp => ?_⟩⟩
              obtain ⟨q, rfl, hq⟩ := hback f p hp
              have := (hs q).2 hq
              cases this
            | some p0 =>
              refine ⟨some (f :: p0), rfl, fun p => ⟨fun hp => ?_, fun hp => ?_⟩⟩
              · cases hp
                exact hstep f p0 ((hs p0).1 rfl)
              · obtain ⟨q, rfl, hq⟩ := hback f p hp
                have := (hs q).2 hq
                cases this
                rfl

/-- A field is replaced exactly when there is one way down from its type and a field on it, and then by the names
along this way. The search always ends. -/
theorem C102_path (pre : Text → Bool) (c : Cfg) (fuel : Nat) (hf : c.types.length < fuel) (n : Text) (f : FieldD) :
    ∃ r, flattenField pre c fuel n f = some r ∧
      ∀ p, r = some p ↔ (OneWay pre c n f.ty.name p ∧ ¬ Leaf pre c f.ty.name) := by
  obtain ⟨r, h1, h2⟩ := singlePath_spec pre c fuel [] n f.ty.name
    (Nat.lt_of_le_of_lt List.countP_le_length hf) (fun _ h => by cases h)
  rw [flattenField, h1]
  refine ⟨_, rfl, fun p => ?_⟩
  have hlen : ∀ q, OneWay pre c n f.ty.name q → (q.length > 1 ↔ ¬ Leaf pre c f.ty.name) := by
    intro q hq
    cases hq with
    | leaf h => simp [h]
    | step h _ _ h4 =>
      obtain ⟨_, rfl, _⟩ := h4.cons
      simp [h]
  cases r with
  | none =>
    refine ⟨fun h => (by cases h), fun ⟨h, _⟩ => ?_⟩
    have := (h2 p).2 h
    cases this
  | some q =>
    have hq := (h2 q).1 rfl
    simp only
    by_cases h3 : q.length > 1
    · rw [if_pos h3]
      constructor
      · intro h
        cases h
        exact ⟨hq, (hlen _ hq).1 h3⟩
      · intro h
        exact (h2 p).2 h.1
    · rw [if_neg h3]
      refine ⟨fun h => (by cases h), fun ⟨h, h'⟩ => ?_⟩
      exact absurd ((hlen _ hq).2 h') h3

/-! ## A case: a page with one field, over a type with one field -/

/-- `type Query { posts: Page, users: Users } type Page { data: Items } type Items { ids: ID } type Users { a: ID b: ID }` -/
def flatCfg : Cfg where
  query := some "Query".toList
  mutation := none
  subscription := none
  types := [
    ("Query".toList, ⟨[("posts".toList, ⟨.named "Page".toList false, [], "r".toList⟩), ("users".toList, ⟨.named "Users".toList false, [], []⟩)], [], []⟩),
    ("Page".toList, ⟨[("data".toList, ⟨.named "Items".toList false, [], []⟩)], [], []⟩),
    ("Items".toList, ⟨[("ids".toList, ⟨.named "ID".toList false, [], []⟩)], [], []⟩),
    ("Loop".toList, ⟨[("next".toList, ⟨.named "Loop".toList false, [], []⟩)], [], []⟩),
    ("Users".toList, ⟨[("a".toList, ⟨.named "ID".toList false, [], []⟩), ("b".toList, ⟨.named "ID".toList false, [], []⟩)], [], []⟩)]
  unions := []
  enums := []

/-- `ID` is known. -/
def flatPre (n : Text) : Bool := n = "ID".toList

example : flattenField flatPre flatCfg 6 "posts".toList ⟨.named "Page".toList false, [], []⟩ =
    some (some ["posts".toList, "data".toList, "ids".toList]) := by decide +kernel

example : flattenField flatPre flatCfg 6 "users".toList ⟨.named "Users".toList false, [], []⟩ = some none := by decide +kernel

/-- A type that leads back to itself has no path. -/
example : flattenField flatPre flatCfg 6 "loop".toList ⟨.named "Loop".toList false, [], []⟩ = some none := by decide +kernel

example : ∃ r, flattenField flatPre flatCfg 6 "posts".toList ⟨.named "Page".toList false, [], []⟩ = some r ∧
    ∀ p, r = some p ↔ (OneWay flatPre flatCfg "posts".toList "Page".toList p ∧ ¬ Leaf flatPre flatCfg "Page".toList) :=
  C102_path flatPre flatCfg 6 (by decide) "posts".toList ⟨.named "Page".toList false, [], []⟩

end Verif.Refine
