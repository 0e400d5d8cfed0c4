import Verif.Exec.Lemmas

/-!
# C36: resolving a field below a list
-/

namespace Verif.Exec

open Verif.Mustache (Text)
open Verif.HttpUrl (GVal)
open Verif.Ir (Res getTypeName)

set_option linter.unusedSimpArgs false

variable {σ : Type}

/-- The number of leaves a field applies to. -/
def cnt (e : Env σ) (h : Hdr) (v : GVal) : Nat := ((items v).filter (partOf e h)).length
/-- Specification helper: the count over the elements of a list. -/
def cntAll (e : Env σ) (h : Hdr) (l : List GVal) : Nat := ((itemsAll l).filter (partOf e h)).length

theorem cntAll_cons (e : Env σ) (h : Hdr) (v : GVal) (r : List GVal) :
    cntAll e h (v :: r) = cnt e h v + cntAll e h r := by
  unfold cntAll cnt
  simp [itemsAll, List.filter_append]

/-- What the results in `rs` become at the positions of `v`. -/
def Positions (e : Env σ) (h : Hdr) (rs : List Res) (v w : GVal) : Prop :=
  ∀ p x, atPos v p = some x →
    (isArr x = false → partOf e h x = true →
      ∃ y, rs[rank (partOf e h) v p]? = some (.ok y) ∧ atPos w p = some y) ∧
    (isArr x = false → partOf e h x = false → atPos w p = some .null) ∧
    (∀ k, x = .list k → ∃ k', atPos w p = some (.list k') ∧ k'.length = k.length)

mutual
theorem mapRef_rank (e : Env σ) (h : Hdr) (v w : GVal) (rs : List Res)
    (hw : (mapRef (place e h) rs v).2 = .ok w) :
    (mapRef (place e h) rs v).1 = rs.drop (cnt e h v) ∧ Positions e h rs v w := by
  match v with
  | .list l =>
    simp only [mapRef] at hw ⊢
    have hall := mapRefs_rank e h l
    have hall := fun l' => hall l' rs
    revert hw hall
    generalize mapRefs (place e h) rs l = q
    obtain ⟨s, r⟩ := q
    cases r with
    | error y => intro hw; simp at hw
    | ok l' =>
      intro hw hall
      simp only [Except.ok.injEq] at hw
      subst hw
      obtain ⟨hs, hlen, hall⟩ := hall l' rfl
      refine ⟨by simpa [cnt, cntAll, items] using hs, ?_⟩
      intro p x hx
      cases p with
      | nil =>
        simp only [atPos, Option.some.injEq] at hx
        subst hx
        refine ⟨by simp [isArr], by simp [isArr], ?_⟩
        intro k hk
        cases hk
        exact ⟨l', rfl, hlen⟩
      | cons i p =>
        simp only [atPos] at hx ⊢
        cases hi : l[i]? with
        | none => rw [hi] at hx; simp at hx
        | some vi =>
          rw [hi] at hx
          obtain ⟨v', hv', hp⟩ := hall i vi hi
          rw [hv']
          have := hp p x hx
          rw [List.getElem?_drop] at this
          simpa [rank, hi, cntAll] using this
  | .null | .bool _ | .int _ | .float _ | .str _ | .enum _ | .obj _ =>
    simp only [mapRef] at hw ⊢
    unfold place at hw ⊢
    constructor
    · simp only [cnt, items, List.filter]
      split <;> rename_i hp
      · simp only [hp]
        cases rs with
        | nil => rw [if_pos hp] at hw; simp at hw
        | cons a b => simp
      · simp [hp]
    · intro p x hx
      cases p with
      | cons i p => simp [atPos] at hx
      | nil =>
        simp only [atPos, Option.some.injEq] at hx
        subst hx
        simp only [atPos, rank]
        refine ⟨fun _ hp => ?_, fun _ hp => ?_, fun k hk => by cases hk⟩
        · rw [if_pos hp] at hw
          cases rs with
          | nil => simp at hw
          | cons a b => simp only [] at hw; subst hw; exact ⟨w, rfl, rfl⟩
        · rw [if_neg (by simp [hp])] at hw
          simp only [Except.ok.injEq] at hw
          rw [hw]
theorem mapRefs_rank (e : Env σ) (h : Hdr) (l l' : List GVal) (rs : List Res)
    (hw : (mapRefs (place e h) rs l).2 = .ok l') :
    (mapRefs (place e h) rs l).1 = rs.drop (cntAll e h l) ∧ l'.length = l.length ∧
    ∀ (i : Nat) v, l[i]? = some v → ∃ v', l'[i]? = some v' ∧
      Positions e h (rs.drop (cntAll e h (l.take i))) v v' := by
  match l with
  | [] =>
    simp only [mapRefs, Except.ok.injEq] at hw
    subst hw
    simp [mapRefs, cntAll, itemsAll]
  | v :: r =>
    simp only [mapRefs] at hw ⊢
    have h1 := mapRef_rank e h v
    have h1 := fun w => h1 w rs
    have h2 := mapRefs_rank e h r
    revert hw h1
    generalize mapRef (place e h) rs v = q
    obtain ⟨s, x⟩ := q
    cases x with
    | error y => intro hw; simp at hw
    | ok y =>
      simp only []
      intro hw h1
      obtain ⟨hs, h1⟩ := h1 y rfl
      have h2 := fun l' => h2 l' s
      revert hw h2
      generalize mapRefs (place e h) s r = q
      obtain ⟨t, z⟩ := q
      cases z with
      | error y => intro hw; simp at hw
      | ok z =>
        intro hw h2
        simp only [Except.ok.injEq] at hw
        subst hw
        obtain ⟨ht, hl, h2⟩ := h2 z rfl
        simp only [] at ht hs ⊢
        subst hs
        refine ⟨by rw [ht, List.drop_drop, cntAll_cons], by simp [hl], ?_⟩
        intro i u hu
        cases i with
        | zero =>
          simp only [List.getElem?_cons_zero, Option.some.injEq] at hu
          subst hu
          refine ⟨y, rfl, ?_⟩
          simpa [cntAll, itemsAll] using h1
        | succ i =>
          simp only [List.getElem?_cons_succ] at hu ⊢
          obtain ⟨v', hv', hp⟩ := h2 i u hu
          refine ⟨v', hv', ?_⟩
          rw [List.take_succ_cons, cntAll_cons, ← List.drop_drop]
          exact hp
end

theorem callAll_nth (e : Env σ) (h : Hdr) (s : σ) (l : List GVal) (i : Nat) (v : GVal)
    (hv : l[i]? = some v) :
    (callAll e h s l).2[i]? = some (resolved e h (after e h s (l.take i)) v) := by
  induction l generalizing s i with
  | nil => simp at hv
  | cons a r ih =>
    simp only [callAll]
    cases i with
    | zero =>
      simp only [List.getElem?_cons_zero, Option.some.injEq] at hv
      subst hv
      simp only [List.getElem?_cons_zero, List.take_zero, after, List.foldl_nil, Option.some.injEq]
      cases a <;> simp [call, resolved]
    | succ i =>
      simp only [List.getElem?_cons_succ] at hv ⊢
      rw [ih _ _ hv]
      congr 2
      simp only [List.take_succ_cons, after, List.foldl_cons]
      congr 1
      cases a <;> simp [call]

theorem callAll_after (e : Env σ) (h : Hdr) (s : σ) (l : List GVal) :
    (callAll e h s l).1 = after e h s l := by
  induction l generalizing s with
  | nil => rfl
  | cons a r ih =>
    simp only [callAll, ih, after, List.foldl_cons]
    congr 1
    cases a <;> simp [call]

mutual
theorem rank_items (f : GVal → Bool) (v : GVal) (p : List Nat) (x : GVal) (hx : atPos v p = some x)
    (ha : isArr x = false) (hf : f x = true) :
    ((items v).filter f)[rank f v p]? = some x := by
  match v with
  | .list l =>
    cases p with
    | nil => simp only [atPos, Option.some.injEq] at hx; subst hx; simp [isArr] at ha
    | cons i p =>
      simp only [atPos] at hx
      cases hi : l[i]? with
      | none => rw [hi] at hx; simp at hx
      | some u =>
        rw [hi] at hx
        simp only [items, rank, hi]
        exact ranks_items f l i u hi p x hx ha hf
  | .null | .bool _ | .int _ | .float _ | .str _ | .enum _ | .obj _ =>
    cases p with
    | cons i p => simp [atPos] at hx
    | nil =>
      simp only [atPos, Option.some.injEq] at hx
      subst hx
      simp [items, rank, hf]
theorem ranks_items (f : GVal → Bool) (l : List GVal) (i : Nat) (u : GVal) (hi : l[i]? = some u) (p : List Nat)
    (x : GVal) (hx : atPos u p = some x) (ha : isArr x = false) (hf : f x = true) :
    ((itemsAll l).filter f)[((itemsAll (l.take i)).filter f).length + rank f u p]? = some x := by
  match l with
  | [] => simp at hi
  | v :: r =>
    cases i with
    | zero =>
      simp only [List.getElem?_cons_zero, Option.some.injEq] at hi
      have := rank_items f v p x (hi ▸ hx) ha hf
      rw [hi] at this
      simp only [List.take_zero, itemsAll, List.filter_nil, List.length_nil, Nat.zero_add, List.filter_append, hi]
      rw [List.getElem?_append_left]
      · exact this
      · exact (List.getElem?_eq_some_iff.1 this).1
    | succ i =>
      simp only [List.getElem?_cons_succ] at hi
      simp only [List.take_succ_cons, itemsAll, List.filter_append, List.length_append]
      rw [List.getElem?_append_right (by omega)]
      have := ranks_items f r i u hi p x hx ha hf
      rw [← this]
      congr 1
      omega
end

theorem applies_partOf (e : Env σ) (h : Hdr) (v : GVal) : Applies e h v ↔ partOf e h v = true := by
  unfold Applies partOf getTypeName Verif.Ir.typenameField
  generalize "__typename".toList = k
  constructor
  · intro hh
    cases htc : h.tc with
    | none => rfl
    | some tc =>
      cases v with
      | obj kvs =>
        simp only []
        cases hg : Verif.Merge.get k kvs with
        | none => rfl
        | some y =>
          cases y with
          | str s => exact hh tc kvs s htc rfl hg
          | _ => rfl
      | _ => rfl
  · intro hp tc kvs t h1 h2 h3
    subst h2
    simpa only [h1, h3] using hp

/-! ## The theorems -/

/-- The calls a field makes below a list: one for each item it applies to, in order. -/
theorem C36_calls_in_order (e : Env σ) (h : Hdr) (s : σ) (l : List GVal) (f : GVal → Bool)
    (hf : ∀ v, f v = true ↔ Applies e h v) :
    (execIr e h s (some (.list l))).1 = after e h s ((itemsAll l).filter f) := by
  have hff : f = partOf e h := by
    funext v
    rw [Bool.eq_iff_iff, hf, applies_partOf]
  subst hff
  simp only [execIr, leaves_items, items]
  rw [← callAll_after]

/-- C36: below a list of any depth, a field that succeeds has at every position of an item it
applies to the result computed from that very item, null at the other items, and lists of the same
length everywhere. -/
theorem C36_result_of_each_item (e : Env σ) (h : Hdr) (s : σ) (l : List GVal) (w : GVal) (f : GVal → Bool)
    (hf : ∀ v, f v = true ↔ Applies e h v) (hw : (execIr e h s (some (.list l))).2 = .ok w)
    (p : List Nat) (x : GVal) (hx : atPos (.list l) p = some x) :
    ((∀ k, x ≠ .list k) → Applies e h x → ∃ y, atPos w p = some y ∧
      resolved e h (after e h s (((itemsAll l).filter f).take (rank f (.list l) p))) x = .ok y) ∧
    ((∀ k, x ≠ .list k) → ¬ Applies e h x → atPos w p = some .null) ∧
    (∀ k, x = .list k → ∃ k', atPos w p = some (.list k') ∧ k'.length = k.length) := by
  have hff : f = partOf e h := by
    funext v
    rw [Bool.eq_iff_iff, hf, applies_partOf]
  subst hff
  simp only [execIr] at hw
  obtain ⟨-, hp⟩ := mapRef_rank e h (.list l) w _ hw
  obtain ⟨h1, h2, h3⟩ := hp p x hx
  have harr : (∀ k, x ≠ .list k) → isArr x = false := by
    intro hk
    cases x <;> simp [isArr]
    exact hk _ rfl
  refine ⟨?_, ?_, h3⟩
  · intro hk ha
    rw [applies_partOf] at ha
    obtain ⟨y, hy, hyw⟩ := h1 (harr hk) ha
    refine ⟨y, hyw, ?_⟩
    have hr := rank_items (partOf e h) (.list l) p x hx (harr hk) ha
    rw [leaves_items] at hy
    have := callAll_nth e h s _ _ _ hr
    rw [this] at hy
    simp only [items, Option.some.injEq] at hy
    exact hy
  · intro hk ha
    rw [applies_partOf] at ha
    exact h2 (harr hk) (by simpa using ha)

/-- The results in the order of the items. -/
theorem callAll_length (e : Env σ) (h : Hdr) (s : σ) (l : List GVal) : (callAll e h s l).2.length = l.length := by
  induction l generalizing s with
  | nil => rfl
  | cons a r ih => simp [callAll, ih]

mutual
theorem mapRef_err (e : Env σ) (h : Hdr) (v : GVal) (rs : List Res) (x : Verif.Ir.Err)
    (hn : cnt e h v ≤ rs.length) :
    (mapRef (place e h) rs v).2 = .error x ↔
      ∃ n, n < cnt e h v ∧ rs[n]? = some (.error x) ∧ ∀ m, m < n → ∃ y, rs[m]? = some (.ok y) := by
  match v with
  | .list l =>
    simp only [mapRef]
    have := mapRefs_err e h l rs x (by simpa [cnt, cntAll, items] using hn)
    have hc : cnt e h (.list l) = cntAll e h l := by simp [cnt, cntAll, items]
    rw [hc, ← this]
    rcases mapRefs (place e h) rs l with ⟨s, _ | y⟩ <;> simp
  | .null | .bool _ | .int _ | .float _ | .str _ | .enum _ | .obj _ =>
    simp only [mapRef]
    unfold place
    unfold cnt at hn ⊢
    simp only [items, List.filter] at hn ⊢
    split <;> rename_i hp <;> simp only [hp, List.length_cons, List.length_nil] at hn ⊢
    · cases rs with
      | nil => simp at hn
      | cons a b =>
        simp only []
        constructor
        · intro ha; exact ⟨0, by omega, by simp [ha], by intro m hm; omega⟩
        · rintro ⟨n, h1, h2, -⟩
          have : n = 0 := by omega
          subst this
          simpa using h2
    · simp
theorem mapRefs_err (e : Env σ) (h : Hdr) (l : List GVal) (rs : List Res) (x : Verif.Ir.Err)
    (hn : cntAll e h l ≤ rs.length) :
    (mapRefs (place e h) rs l).2 = .error x ↔
      ∃ n, n < cntAll e h l ∧ rs[n]? = some (.error x) ∧ ∀ m, m < n → ∃ y, rs[m]? = some (.ok y) := by
  match l with
  | [] => simp [mapRefs, cntAll, itemsAll]
  | v :: r =>
    rw [cntAll_cons] at hn ⊢
    simp only [mapRefs]
    have h1 := mapRef_err e h v rs
    have h1 := fun x => h1 x (by omega)
    have h1' := fun w => mapRef_rank e h v w rs
    have h3 : ∀ w, (mapRef (place e h) rs v).2 = .ok w → ∀ m, m < cnt e h v → ∃ y, rs[m]? = some (.ok y) := by
      intro w hw m
      induction m using Nat.strongRecOn with
      | ind m ih =>
        intro hm
        have hlt : m < rs.length := by omega
        cases hr : rs[m] with
        | ok y => exact ⟨y, by rw [List.getElem?_eq_getElem hlt, hr]⟩
        | error y =>
          have := (h1 y).2 ⟨m, hm, by rw [List.getElem?_eq_getElem hlt, hr], fun k hk => ih k hk (by omega)⟩
          rw [hw] at this
          cases this
    have h2 := mapRefs_err e h r
    revert h1 h1' h3
    generalize mapRef (place e h) rs v = q
    obtain ⟨s, a⟩ := q
    cases a with
    | error a =>
      intro h1 _ _
      simp only [Except.error.injEq]
      constructor
      · rintro rfl
        obtain ⟨n, g1, g2, g3⟩ := (h1 a).1 rfl
        exact ⟨n, by omega, g2, g3⟩
      · rintro ⟨n, g1, g2, g3⟩
        obtain ⟨n', g1', g2', g3'⟩ := (h1 a).1 rfl
        rcases Nat.lt_trichotomy n n' with hlt | heq | hgt
        · obtain ⟨y, hy⟩ := g3' n hlt
          rw [g2] at hy; cases hy
        · subst heq; rw [g2] at g2'; injection g2' with g2'; injection g2' with g2'; exact g2'.symm
        · obtain ⟨y, hy⟩ := g3 n' hgt
          rw [g2'] at hy; cases hy
    | ok a =>
      intro h1 h1' h3
      obtain ⟨hs, -⟩ := h1' a rfl
      simp only [] at hs
      subst hs
      simp only []
      have h2 := h2 (rs.drop (cnt e h v)) x (by simp; omega)
      refine Iff.trans (b := (mapRefs (place e h) (rs.drop (cnt e h v)) r).2 = .error x) ?_ ?_
      · rcases mapRefs (place e h) (rs.drop (cnt e h v)) r with ⟨s, _ | y⟩ <;> simp
      rw [h2]
      constructor
      · rintro ⟨n, g1, g2, g3⟩
        refine ⟨cnt e h v + n, by omega, by rw [← g2, List.getElem?_drop], ?_⟩
        intro m hm
        by_cases hlt : m < cnt e h v
        · exact h3 a rfl m hlt
        · obtain ⟨y, hy⟩ := g3 (m - cnt e h v) (by omega)
          rw [List.getElem?_drop] at hy
          refine ⟨y, ?_⟩
          rw [← hy]; congr 1; omega
      · rintro ⟨n, g1, g2, g3⟩
        by_cases hlt : n < cnt e h v
        · obtain ⟨y, hy⟩ := h3 a rfl n hlt
          rw [g2] at hy; cases hy
        · refine ⟨n - cnt e h v, by omega, ?_, ?_⟩
          · rw [List.getElem?_drop, ← g2]; congr 1; omega
          · intro m hm
            obtain ⟨y, hy⟩ := g3 (cnt e h v + m) (by omega)
            exact ⟨y, by rw [List.getElem?_drop]; exact hy⟩
end

/-- C36: a field fails below a list exactly when it fails on some item it applies to, and it fails
with the error of the first of them. -/
theorem C36_fails_with_first_error (e : Env σ) (h : Hdr) (s : σ) (l : List GVal) (x : Verif.Ir.Err)
    (f : GVal → Bool) (hf : ∀ v, f v = true ↔ Applies e h v) :
    (execIr e h s (some (.list l))).2 = .error x ↔
      ∃ n v, ((itemsAll l).filter f)[n]? = some v ∧
        resolved e h (after e h s (((itemsAll l).filter f).take n)) v = .error x ∧
        ∀ m u, m < n → ((itemsAll l).filter f)[m]? = some u →
          ∃ y, resolved e h (after e h s (((itemsAll l).filter f).take m)) u = .ok y := by
  have hff : f = partOf e h := by
    funext v
    rw [Bool.eq_iff_iff, hf, applies_partOf]
  subst hff
  simp only [execIr, leaves_items, items]
  have hlen := callAll_length e h s ((itemsAll l).filter (partOf e h))
  have hnth := callAll_nth e h s ((itemsAll l).filter (partOf e h))
  have hc : cnt e h (.list l) = ((itemsAll l).filter (partOf e h)).length := by simp [cnt, items]
  have herr := mapRef_err e h (.list l) (callAll e h s ((itemsAll l).filter (partOf e h))).2 x (by rw [hlen, hc]; exact Nat.le_refl _)
  rw [herr, hc]
  generalize (itemsAll l).filter (partOf e h) = its at *
  constructor
  · rintro ⟨n, h1, h2, h3⟩
    refine ⟨n, its[n], List.getElem?_eq_getElem h1, ?_, ?_⟩
    · rw [hnth n its[n] (List.getElem?_eq_getElem h1)] at h2
      injection h2
    · intro m u hm hu
      obtain ⟨y, hy⟩ := h3 m hm
      rw [hnth m u hu] at hy
      injection hy with hy
      exact ⟨y, hy⟩
  · rintro ⟨n, v, h1, h2, h3⟩
    refine ⟨n, (List.getElem?_eq_some_iff.1 h1).1, by rw [hnth n v h1, h2], ?_⟩
    intro m hm
    have hml : m < its.length := by have := (List.getElem?_eq_some_iff.1 h1).1; omega
    obtain ⟨y, hy⟩ := h3 m its[m] hm (List.getElem?_eq_getElem hml)
    exact ⟨y, by rw [hnth m its[m] (List.getElem?_eq_getElem hml), hy]⟩

end Verif.Exec
