import Verif.Input.Lemmas

/-! # Depth of the recursion: results do not depend on it, and when it is bounded -/

set_option linter.unusedSimpArgs false
set_option linter.unusedVariables false

namespace Verif.Input

open Verif.Mustache (Text)
open Verif.HttpUrl (GVal intText)
open Verif.Exec (Ty)

theorem fieldsLoop_mono {rec rec' : InField → Option GVal → Out (Option GVal)}
    (h : ∀ f w x, rec f w = some x → rec' f w = some x) : ∀ (fs : List InField) (kvs : List (Text × GVal)) x,
    fieldsLoop rec fs kvs = some x → fieldsLoop rec' fs kvs = some x
  | [], kvs, x, hx => hx
  | f :: fs, kvs, x, hx => by
    unfold fieldsLoop at hx ⊢
    cases hr : rec f (getKey kvs f.name) with
    | none => rw [hr] at hx; cases hx
    | some y =>
      rw [h _ _ _ hr]
      rw [hr] at hx
      match y, hx with
      | .error e, hx => exact hx
      | .ok none, hx => exact fieldsLoop_mono h fs kvs x hx
      | .ok (some v), hx => exact fieldsLoop_mono h fs _ x hx

theorem itemsLoop_mono {rec rec' : Nat → GVal → Out (Option GVal)}
    (h : ∀ i w x, rec i w = some x → rec' i w = some x) : ∀ (vs : List GVal) (i : Nat) x,
    itemsLoop rec i vs = some x → itemsLoop rec' i vs = some x
  | [], i, x, hx => hx
  | v :: vs, i, x, hx => by
    unfold itemsLoop at hx ⊢
    cases hr : rec i v with
    | none => rw [hr] at hx; cases hx
    | some y =>
      rw [h _ _ _ hr]
      rw [hr] at hx
      match y, hx with
      | .error e, hx => exact hx
      | .ok none, hx => exact hx
      | .ok (some r), hx =>
        simp only [] at hx ⊢
        cases hl : itemsLoop rec (i + 1) vs with
        | none => rw [hl] at hx; cases hx
        | some z => rw [itemsLoop_mono h vs (i + 1) z hl]; rw [hl] at hx; exact hx

theorem wrap_mono {α : Type} {f : α → GVal} {x x' : Out α} (h : ∀ y, x = some y → x' = some y) {z}
    (hz : wrap f x = some z) : wrap f x' = some z := by
  cases x with
  | none => cases hz
  | some y => rw [h y rfl]; exact hz

/-- A result does not depend on the depth. -/
theorem parse_mono : ∀ (n : Nat) {ix : Index} {p a : Text} {ty : Ty} {d v : Option GVal} {x},
    parse n ix p a ty d v = some x → parse (n + 1) ix p a ty d v = some x
  | 0, ix, p, a, ty, d, v, x, h => by simp [parse] at h
  | n + 1, ix, p, a, ty, d, v, x, h => by
    unfold parse at h ⊢
    revert h
    cases choose p a ty d v with
    | error e => exact id
    | ok o =>
      cases o with
      | none => exact id
      | some w =>
        simp only []
        cases ix ty.name with
        | none => exact id
        | some fs =>
          intro h
          cases w with
          | obj kvs => exact wrap_mono (fun y hy => fieldsLoop_mono (fun f w x hx => parse_mono n hx) _ _ _ hy) h
          | list vs => exact wrap_mono (fun y hy => itemsLoop_mono (fun i w x hx => parse_mono n hx) _ _ _ hy) h
          | _ => exact h

theorem parse_mono_le {n m : Nat} (hm : n ≤ m) {ix : Index} {p a : Text} {ty : Ty} {d v : Option GVal} {x}
    (h : parse n ix p a ty d v = some x) : parse m ix p a ty d v = some x := by
  induction hm with
  | refl => exact h
  | step _ ih => exact parse_mono _ ih

/-- One depth for all elements of a list. -/
theorem bound_list {α : Type} (P : α → Nat → Prop) : ∀ (l : List α),
    (∀ a ∈ l, ∃ n, ∀ m, n ≤ m → P a m) → ∃ n, ∀ a ∈ l, ∀ m, n ≤ m → P a m
  | [], _ => ⟨0, by simp⟩
  | a :: l, h => by
    obtain ⟨n1, h1⟩ := h a (List.mem_cons_self ..)
    obtain ⟨n2, h2⟩ := bound_list P l (fun b hb => h b (List.mem_cons_of_mem _ hb))
    refine ⟨max n1 n2, fun b hb m hm => ?_⟩
    rcases List.mem_cons.mp hb with rfl | hb
    · exact h1 m (by omega)
    · exact h2 b hb m (by omega)

/-- The parser finishes on a value. -/
def Fin (ix : Index) (name : Text) (v : GVal) : Prop :=
  ∃ n, ∀ m, n ≤ m → ∀ p a (ty : Ty) d, ty.name = name → parse m ix p a ty d (some v) ≠ none

theorem fin_of_const {ix : Index} {name : Text} {v : GVal}
    (h : ∀ n p a (ty : Ty) d, ty.name = name → parse (n + 1) ix p a ty d (some v) ≠ none) : Fin ix name v :=
  ⟨1, fun m hm p a ty d ht => by
    obtain ⟨k, rfl⟩ : ∃ k, m = k + 1 := ⟨m - 1, by omega⟩
    exact h k p a ty d ht⟩

theorem fin_scalar {ix : Index} {name : Text} (v : GVal) (hn : ix name = none) : Fin ix name v :=
  fin_of_const (fun n p a ty d ht h => by
    unfold parse at h
    rw [ht, hn] at h
    split at h <;> cases h)

theorem fin_plain {ix : Index} {name : Text} (v : GVal) (hv : ∀ kvs, v ≠ .obj kvs) (hv' : ∀ vs, v ≠ .list vs) :
    Fin ix name v :=
  fin_of_const (fun n p a ty d ht h => by
    unfold parse at h
    split at h
    · cases h
    · cases h
    · rename_i w hc
      have hw : w = v := by
        unfold choose at hc
        simp only [] at hc
        split at hc
        · cases hc
        · injection hc with hc; injection hc with hc; exact hc.symm
      subst hw
      split at h
      · cases h
      · split at h
        · exact hv _ rfl
        · exact hv' _ rfl
        · cases h)

theorem choose_given {p a : Text} {ty : Ty} {d : Option GVal} {v w : GVal}
    (h : choose p a ty d (some v) = .ok (some w)) : w = v := by
  unfold choose at h
  simp only [] at h
  split at h
  · cases h
  · injection h with h; injection h with h; exact h.symm

theorem choose_none_ne {p a : Text} {ty : Ty} {d : Option GVal} {v : GVal} :
    choose p a ty d (some v) ≠ .ok none := by
  intro h
  unfold choose at h
  simp only [] at h
  split at h <;> cases h

theorem fin_list {ix : Index} {name : Text} (vs : List GVal) (h : ∀ v ∈ vs, Fin ix name v) :
    Fin ix name (.list vs) := by
  obtain ⟨n, hn⟩ := bound_list (fun v m => ∀ p a (ty : Ty) d, ty.name = name →
    parse m ix p a ty d (some v) ≠ none) vs h
  refine ⟨n + 1, fun m hm p a ty d ht hp => ?_⟩
  obtain ⟨k, rfl⟩ : ∃ k, m = k + 1 := ⟨m - 1, by omega⟩
  unfold parse at hp
  split at hp
  · cases hp
  · cases hp
  · rename_i w hc
    have := choose_given hc
    subst this
    split at hp
    · cases hp
    · obtain ⟨v, hv, i, hi⟩ := itemsLoop_none _ _ (wrap_none hp)
      exact hn v hv k (by omega) _ _ ty none ht hi

theorem at_mem {kvs : List (Text × GVal)} {k : Text} {w : GVal} (h : At kvs k = some w) : (k, w) ∈ kvs := by
  unfold At at h
  rw [Option.map_eq_some_iff] at h
  obtain ⟨⟨k', w'⟩, hf, hw⟩ := h
  have h1 := List.mem_of_find?_eq_some hf
  have h2 := List.find?_some hf
  simp at h2 hw
  rw [h2, hw] at h1
  exact h1

theorem fin_obj {ix : Index} {name : Text} {fs : List InField} (hnd : (fs.map (·.name)).Nodup)
    (hix : ix name = some fs) (kvs : List (Text × GVal))
    (h : ∀ f ∈ fs, ∀ w, At kvs f.name = some w → Fin ix f.ty.name w)
    (hd : ∀ f ∈ fs, At kvs f.name = none → ∀ d, f.dflt = some d →
      Fin ix f.ty.name d ∧ (d = .null → ¬ NonNull f.ty)) :
    Fin ix name (.obj kvs) := by
  obtain ⟨n, hn⟩ := bound_list (fun f m => ∀ p, parse m ix p f.name f.ty f.dflt (At kvs f.name) ≠ none) fs (by
    intro f hf
    cases hk : At kvs f.name with
    | some w =>
      obtain ⟨n, hn⟩ := h f hf w hk
      exact ⟨n, fun m hm p => hn m hm p f.name f.ty f.dflt rfl⟩
    | none =>
      cases hdd : f.dflt with
      | some d =>
        obtain ⟨⟨n, hn⟩, hnull⟩ := hd f hf hk d hdd
        exact ⟨n, fun m hm p => by rw [parse_default hnull]; exact hn m hm p f.name f.ty _ rfl⟩
      | none =>
        refine ⟨1, fun m hm p hp => ?_⟩
        obtain ⟨k, rfl⟩ : ∃ k, m = k + 1 := ⟨m - 1, by omega⟩
        unfold parse choose at hp
        simp only [] at hp
        by_cases hnl : f.ty.isNullable = true
        · simp [hnl] at hp
        · simp [hnl] at hp)
  refine ⟨n + 1, fun m hm p a ty d ht hp => ?_⟩
  obtain ⟨k, rfl⟩ : ∃ k, m = k + 1 := ⟨m - 1, by omega⟩
  unfold parse at hp
  split at hp
  · cases hp
  · cases hp
  · rename_i w hc
    have := choose_given hc
    subst this
    rw [ht, hix] at hp
    simp only [] at hp
    obtain ⟨f, hf, hi⟩ := fieldsLoop_none _ _ hnd (wrap_none hp)
    exact hn f hf k (by omega) _ hi

/-- A value that the specification accepts is parsed within some depth. -/
theorem fin_of_good {ix : Index} (hs : Sane ix) {ty : Ty} {v r : GVal} (h : Good ix ty v r) :
    Fin ix ty.name v := by
  induction h with
  | null h => exact fin_plain _ (by simp) (by simp)
  | leaf h hv => exact fin_scalar _ h
  | list hl hz ih =>
    rename_i t nn vs rs
    refine fin_list vs ?_
    intro v hv
    obtain ⟨j, hj, rfl⟩ := List.mem_iff_getElem.mp hv
    have : (vs[j], rs[j]'(hl ▸ hj)) ∈ vs.zip rs := by
      rw [List.mem_iff_getElem]
      exact ⟨j, (by rw [List.length_zip, ← hl]; omega), (by simp)⟩
    exact ih _ this
  | obj res h g1 g2 d1 d2 ab ot ih1 ih2 =>
    refine fin_obj (hs _ _ h).1 h _ (fun f hf w hw => ih1 f hf w hw) (fun f hf hw d hd => ?_)
    exact ⟨ih2 f hf hw d hd, ((hs _ _ h).2 f hf d hd).2⟩

/-- A value without objects. -/
inductive Flat : GVal → Prop
  | plain {v : GVal} (h : ∀ kvs, v ≠ .obj kvs) (h' : ∀ vs, v ≠ .list vs) : Flat v
  | list {vs : List GVal} (h : ∀ v ∈ vs, Flat v) : Flat (.list vs)

theorem fin_flat {ix : Index} {name : Text} {v : GVal} (h : Flat v) : Fin ix name v := by
  induction h with
  | plain h h' => exact fin_plain _ h h'
  | list h ih => exact fin_list _ ih

/-- Without objects as defaults the parser finishes on every value. -/
theorem fin_all {ix : Index} (hn : ∀ name fs, ix name = some fs → (fs.map (·.name)).Nodup)
    (hd : ∀ name fs, ix name = some fs → ∀ f ∈ fs, ∀ d, f.dflt = some d →
      Flat d ∧ (d = .null → ¬ NonNull f.ty)) : ∀ (k : Nat) (v : GVal) (name : Text), sizeOf v < k →
    Fin ix name v
  | 0, v, name, h => by omega
  | k + 1, v, name, h => by
    cases v with
    | list vs =>
      refine fin_list vs (fun w hw => fin_all hn hd k w name ?_)
      have := List.sizeOf_lt_of_mem hw
      simp at h; omega
    | obj kvs =>
      cases hix : ix name with
      | none => exact fin_scalar _ hix
      | some fs =>
        refine fin_obj (hn _ _ hix) hix kvs (fun f hf w hw => fin_all hn hd k w _ ?_) (fun f hf _ d hdd => ?_)
        · have := List.sizeOf_lt_of_mem (at_mem hw)
          simp at h this; omega
        · obtain ⟨h1, h2⟩ := hd _ _ hix f hf d hdd
          exact ⟨fin_flat h1, h2⟩
    | null => exact fin_plain _ (by simp) (by simp)
    | bool b => exact fin_plain _ (by simp) (by simp)
    | int b => exact fin_plain _ (by simp) (by simp)
    | float b => exact fin_plain _ (by simp) (by simp)
    | str b => exact fin_plain _ (by simp) (by simp)
    | enum b => exact fin_plain _ (by simp) (by simp)

end Verif.Input
