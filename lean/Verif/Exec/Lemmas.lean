import Verif.Exec.Spec

/-!
# Lemmas about execution and synthesis
-/

namespace Verif.Exec

open Verif.Mustache (Text)
open Verif.HttpUrl (GVal)
open Verif.Ir (Res getTypeName)

set_option linter.unusedSimpArgs false

variable {σ : Type}

/-! ## Lists -/

mutual
theorem leaves_items (v : GVal) : leaves v = items v := by
  match v with
  | .list l => simp only [leaves, items]; exact leavesAll_items l
  | .null | .bool _ | .int _ | .float _ | .str _ | .enum _ | .obj _ => simp [leaves, items]
theorem leavesAll_items (l : List GVal) : leavesAll l = itemsAll l := by
  match l with
  | [] => rfl
  | v :: r => simp only [leavesAll, itemsAll]; rw [leaves_items v, leavesAll_items r]
end

theorem belongs_partOf (e : Env σ) (h : Hdr) (kvs : List (Text × GVal)) :
    partOf e h (.obj kvs) = belongs e h kvs := by
  unfold partOf belongs getTypeName Verif.Ir.typenameField
  cases h.tc with
  | none => rfl
  | some tc =>
    simp only []
    generalize Verif.Merge.get "__typename".toList kvs = q
    cases q with
    | none => rfl
    | some v => cases v <;> rfl

theorem valueType_typeName (h : Hdr) (kvs : List (Text × GVal)) :
    valueType h (.obj kvs) = typeName h kvs := by
  unfold valueType typeName getTypeName Verif.Ir.typenameField
  simp only []
  generalize Verif.Merge.get "__typename".toList kvs = q
  cases q with
  | none => rfl
  | some v => cases v <;> rfl

mutual
/-- A mapper that consumes one prepared result for each selected leaf acts like a plain mapper. -/
theorem mapRef_place (e : Env σ) (h : Hdr) (g : GVal → Res) (v : GVal) (rest : List Res) :
    (mapRef (place e h) (((leaves v).filter (partOf e h)).map g ++ rest) v).2
      = (mapRef (fun (_ : Unit) x => ((), if partOf e h x then g x else .ok .null)) () v).2 ∧
    (∀ w, (mapRef (fun (_ : Unit) x => ((), if partOf e h x then g x else .ok .null)) () v).2 = .ok w →
      (mapRef (place e h) (((leaves v).filter (partOf e h)).map g ++ rest) v).1 = rest) := by
  match v with
  | .list l =>
    simp only [mapRef, leaves]
    have := mapRefs_place e h g l rest
    revert this
    generalize mapRefs (place e h) (((leavesAll l).filter (partOf e h)).map g ++ rest) l = q
    generalize mapRefs (fun (_ : Unit) x => ((), if partOf e h x then g x else .ok .null)) () l = q'
    obtain ⟨s, r⟩ := q
    obtain ⟨s', r'⟩ := q'
    rintro ⟨rfl, h2⟩
    cases r with
    | error x => simp
    | ok y => simp only [] at h2 ⊢; exact ⟨trivial, fun w _ => h2 _ rfl⟩
  | .null | .bool _ | .int _ | .float _ | .str _ | .enum _ | .obj _ =>
    simp only [mapRef, leaves, List.filter]
    unfold place
    split <;> rename_i hp <;> simp [hp]
theorem mapRefs_place (e : Env σ) (h : Hdr) (g : GVal → Res) (l : List GVal) (rest : List Res) :
    (mapRefs (place e h) (((leavesAll l).filter (partOf e h)).map g ++ rest) l).2
      = (mapRefs (fun (_ : Unit) x => ((), if partOf e h x then g x else .ok .null)) () l).2 ∧
    (∀ w, (mapRefs (fun (_ : Unit) x => ((), if partOf e h x then g x else .ok .null)) () l).2 = .ok w →
      (mapRefs (place e h) (((leavesAll l).filter (partOf e h)).map g ++ rest) l).1 = rest) := by
  match l with
  | [] => simp [mapRefs, leavesAll]
  | v :: r =>
    simp only [mapRefs, leavesAll, List.filter_append, List.map_append, List.append_assoc]
    have h1 := mapRef_place e h g v (((leavesAll r).filter (partOf e h)).map g ++ rest)
    have h2 := mapRefs_place e h g r rest
    revert h1
    generalize mapRef (place e h) (((leaves v).filter (partOf e h)).map g ++
      (((leavesAll r).filter (partOf e h)).map g ++ rest)) v = q
    generalize mapRef (fun (_ : Unit) x => ((), if partOf e h x then g x else .ok .null)) () v = q'
    obtain ⟨s, x⟩ := q
    obtain ⟨s', x'⟩ := q'
    rintro ⟨rfl, h1⟩
    cases x with
    | error y => simp
    | ok y =>
      have hs : s = ((leavesAll r).filter (partOf e h)).map g ++ rest := h1 _ rfl
      subst hs
      simp only []
      revert h2
      generalize mapRefs (place e h) (((leavesAll r).filter (partOf e h)).map g ++ rest) r = q
      generalize mapRefs (fun (_ : Unit) x => ((), if partOf e h x then g x else .ok .null)) () r = q'
      obtain ⟨t, z⟩ := q
      obtain ⟨t', z'⟩ := q'
      rintro ⟨rfl, h2⟩
      cases z with
      | error y => simp
      | ok y => simp only [] at h2 ⊢; exact ⟨trivial, fun w _ => h2 _ rfl⟩
end

mutual
/-- What a plain mapper does at every position of the list. -/
theorem mapRef_pos (g : GVal → Res) (v w : GVal)
    (hw : (mapRef (fun (_ : Unit) x => ((), g x)) () v).2 = .ok w) (p : List Nat) (x : GVal)
    (hx : atPos v p = some x) :
    (isArr x = false → ∃ y, g x = .ok y ∧ atPos w p = some y) ∧
    (∀ k, x = .list k → ∃ k', atPos w p = some (.list k') ∧ k'.length = k.length) := by
  match v with
  | .list l =>
    simp only [mapRef] at hw
    have hall : ∀ l', (mapRefs (fun (_ : Unit) x => ((), g x)) () l).2 = .ok l' → l'.length = l.length ∧
        ∀ (i : Nat) v, l[i]? = some v → ∃ v', l'[i]? = some v' ∧ ∀ p x, atPos v p = some x →
          (isArr x = false → ∃ y, g x = .ok y ∧ atPos v' p = some y) ∧
          (∀ k, x = .list k → ∃ k', atPos v' p = some (.list k') ∧ k'.length = k.length) :=
      fun l' hl => mapRefs_pos g l l' hl
    revert hw hall
    generalize mapRefs (fun (_ : Unit) x => ((), g x)) () l = q
    obtain ⟨s, r⟩ := q
    cases r with
    | error y => intro hw; simp at hw
    | ok l' =>
      intro hw hall
      simp only [Except.ok.injEq] at hw
      subst hw
      obtain ⟨hlen, hall⟩ := hall l' rfl
      cases p with
      | nil =>
        simp only [atPos, Option.some.injEq] at hx
        subst hx
        refine ⟨by simp [isArr], ?_⟩
        intro k hk
        cases hk
        exact ⟨l', rfl, hlen⟩
      | cons i p =>
        simp only [atPos] at hx ⊢
        cases hi : l[i]? with
        | none => rw [hi] at hx; simp at hx
        | some vi =>
          rw [hi] at hx
          obtain ⟨v', hv', hp⟩ := hall i vi hi
          rw [hv']
          exact hp p x hx
  | .null | .bool _ | .int _ | .float _ | .str _ | .enum _ | .obj _ =>
    cases p with
    | cons i p => simp [atPos] at hx
    | nil =>
      simp only [atPos, Option.some.injEq] at hx
      subst hx
      simp only [mapRef] at hw
      exact ⟨fun _ => ⟨w, hw, rfl⟩, fun k hk => by cases hk⟩
theorem mapRefs_pos (g : GVal → Res) (l l' : List GVal)
    (hw : (mapRefs (fun (_ : Unit) x => ((), g x)) () l).2 = .ok l') :
    l'.length = l.length ∧ ∀ (i : Nat) v, l[i]? = some v → ∃ v', l'[i]? = some v' ∧ ∀ p x, atPos v p = some x →
      (isArr x = false → ∃ y, g x = .ok y ∧ atPos v' p = some y) ∧
      (∀ k, x = .list k → ∃ k', atPos v' p = some (.list k') ∧ k'.length = k.length) := by
  match l with
  | [] =>
    simp only [mapRefs, Except.ok.injEq] at hw
    subst hw
    simp
  | v :: r =>
    simp only [mapRefs] at hw
    have h1 := mapRef_pos g v
    have h2 := mapRefs_pos g r
    revert hw h1
    generalize mapRef (fun (_ : Unit) x => ((), g x)) () v = q
    obtain ⟨s, x⟩ := q
    cases x with
    | error y => intro hw; simp at hw
    | ok y =>
      simp only []
      intro hw h1
      revert hw h2
      generalize mapRefs (fun (_ : Unit) x => ((), g x)) () r = q
      obtain ⟨t, z⟩ := q
      cases z with
      | error y => intro _ hw; simp at hw
      | ok z =>
        intro h2 hw
        simp only [Except.ok.injEq] at hw
        subst hw
        obtain ⟨hl, h2⟩ := h2 z rfl
        refine ⟨by simp [hl], ?_⟩
        intro i u hu
        cases i with
        | zero =>
          simp only [List.getElem?_cons_zero, Option.some.injEq] at hu
          subst hu
          exact ⟨y, rfl, fun p x hx => h1 y rfl p x hx⟩
        | succ i =>
          simp only [List.getElem?_cons_succ] at hu ⊢
          exact h2 i u hu
end

theorem walk_atPos (v : GVal) (p : List Nat) (x : GVal) (h : atPos v p = some x) : walk v p = .found x := by
  induction p generalizing v with
  | nil => simp only [atPos, Option.some.injEq] at h; subst h; cases v <;> simp [walk]
  | cons i p ih =>
    cases v with
    | list l =>
      simp only [atPos] at h
      simp only [walk]
      cases hi : l[i]? with
      | none => rw [hi] at h; simp at h
      | some y => rw [hi] at h; exact ih y h
    | _ => simp [atPos] at h

theorem atPos_append (v : GVal) (p q : List Nat) : atPos v (p ++ q) = (atPos v p).bind (fun x => atPos x q) := by
  induction p generalizing v with
  | nil => cases v <;> simp [atPos]
  | cons i p ih =>
    cases v with
    | list l =>
      simp only [List.cons_append, atPos]
      cases l[i]? with
      | none => rfl
      | some y => simp only [Option.bind_some]; exact ih y
    | _ => simp [atPos]

end Verif.Exec
