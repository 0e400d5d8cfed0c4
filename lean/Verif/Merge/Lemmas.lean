import Verif.Merge.Model

set_option linter.unusedSimpArgs false

namespace Verif.Merge
open Verif.Mustache (Text)
open Verif.HttpUrl (GVal)

/-- Grouping does not matter. -/
def Assoc {α : Type} (f : α → α → α) : Prop := ∀ a b c, f (f a b) c = f a (f b c)

theorem assoc_right {α : Type} : Assoc (right : α → α → α) := fun _ _ _ => rfl

theorem assoc_vec {α : Type} : Assoc (mergeVec : List α → List α → List α) :=
  fun a b c => List.append_assoc a b c

theorem assoc_opt {α : Type} {f : α → α → α} (h : Assoc f) : Assoc (mergeOpt f) := by
  intro a b c
  cases a <;> cases b <;> cases c <;> simp [mergeOpt, h _ _ _]

theorem mergeOpt_none_left {α : Type} (f : α → α → α) (a : Option α) : mergeOpt f none a = a := by
  cases a <;> rfl

theorem mergeOpt_none_right {α : Type} (f : α → α → α) (a : Option α) : mergeOpt f a none = a := by
  cases a <;> rfl

/-! ## Sorted association lists -/

theorem get_insert {V : Type} (k j : Text) (v : V) (m : List (Text × V)) :
    get j (insert k v m) = if k = j then some v else get j m := by
  induction m with
  | nil => simp [insert, get]
  | cons p r ih =>
    obtain ⟨k', v'⟩ := p
    unfold insert
    split
    · rename_i e; subst e
      simp only [get]
      split <;> rfl
    · split
      · simp only [get]
      · rename_i hne _
        simp only [get, ih]
        by_cases h1 : k' = j
        · subst h1; simp [Ne.symm hne]
        · simp [h1]

theorem get_none_of_lt {V : Type} {k : Text} {m : List (Text × V)}
    (h : ∀ p ∈ m, tlt k p.1 = true) : get k m = none := by
  induction m with
  | nil => rfl
  | cons p r ih =>
    obtain ⟨k', v⟩ := p
    have h1 := h (k', v) (by simp)
    simp only at h1
    have : k' ≠ k := by
      intro e; subst e; rw [tlt_irrefl] at h1; cases h1
    simp only [get, if_neg this]
    exact ih (fun p hp => h p (by simp [hp]))

theorem get_remove {V : Type} {k j : Text} {m : List (Text × V)} (hs : Sorted m) :
    get j (remove k m) = if k = j then none else get j m := by
  induction m with
  | nil => simp [remove, get]
  | cons p r ih =>
    obtain ⟨k', v⟩ := p
    simp only [Sorted, List.pairwise_cons] at hs
    unfold remove
    split
    · rename_i e; subst e
      by_cases h : k' = j
      · subst h; simp only [if_true]; exact get_none_of_lt hs.1
      · simp [get, h]
    · rename_i hne
      simp only [get, ih hs.2]
      by_cases h : k' = j
      · subst h; simp [Ne.symm hne]
      · simp [h]

theorem get_mergeEntries {V : Type} (mv : V → V → V) (a b : List (Text × V)) (j : Text)
    (ha : Sorted a) (hb : Sorted b) :
    get j (mergeEntries mv a b) = mergeOpt mv (get j a) (get j b) := by
  induction b generalizing a with
  | nil => simp [mergeEntries, get, mergeOpt_none_right]
  | cons p r ih =>
    obtain ⟨k, v⟩ := p
    simp only [Sorted, List.pairwise_cons] at hb
    unfold mergeEntries
    simp only []
    rw [ih _ (sorted_insert (sorted_remove ha)) hb.2, get_insert, get_remove ha]
    by_cases h : k = j
    · subst h
      have : get k r = none := get_none_of_lt hb.1
      simp only [if_true, this, get, mergeOpt_none_right]
      cases get k a <;> rfl
    · simp [h, get]

theorem sorted_ext {V : Type} {a b : List (Text × V)} (ha : Sorted a) (hb : Sorted b)
    (h : ∀ j, get j a = get j b) : a = b := by
  induction a generalizing b with
  | nil => cases b with
    | nil => rfl
    | cons p r =>
      have := h p.1
      simp [get] at this
  | cons p r ih =>
    obtain ⟨k, v⟩ := p
    simp only [Sorted, List.pairwise_cons] at ha
    cases b with
    | nil => have := h k; simp [get] at this
    | cons q s =>
      obtain ⟨l, w⟩ := q
      simp only [Sorted, List.pairwise_cons] at hb
      have hkl : k = l := by
        apply Classical.byContradiction
        intro hne
        by_cases hlt : tlt k l = true
        · have h1 := h k
          have h2 : get k ((l, w) :: s) = none := by
            apply get_none_of_lt
            intro p hp
            rcases List.mem_cons.mp hp with rfl | hp
            · exact hlt
            · exact tlt_trans hlt (hb.1 p hp)
          rw [h2] at h1; simp [get] at h1
        · have hlt' : tlt l k = true := tlt_tri hne (by simpa using hlt)
          have h1 := h l
          have h2 : get l ((k, v) :: r) = none := by
            apply get_none_of_lt
            intro p hp
            rcases List.mem_cons.mp hp with rfl | hp
            · exact hlt'
            · exact tlt_trans hlt' (ha.1 p hp)
          rw [h2] at h1; simp [get] at h1
      subst hkl
      have hv := h k
      simp [get] at hv
      subst hv
      congr 1
      apply ih ha.2 hb.2
      intro j
      have hj := h j
      simp only [get] at hj
      by_cases e : k = j
      · subst e; rw [get_none_of_lt ha.1, get_none_of_lt hb.1]
      · simpa [e] using hj

theorem BMap.ext {V : Type} {a b : BMap V} (h : ∀ j, get j a.entries = get j b.entries) : a = b := by
  have := sorted_ext a.sorted b.sorted h
  cases a; cases b; simp_all

theorem get_merge {V : Type} (mv : V → V → V) (a b : BMap V) (j : Text) :
    get j (BMap.merge mv a b).entries = mergeOpt mv (get j a.entries) (get j b.entries) :=
  get_mergeEntries mv _ _ j a.sorted b.sorted

theorem assoc_map {V : Type} {mv : V → V → V} (h : Assoc mv) : Assoc (BMap.merge mv) := by
  intro a b c
  apply BMap.ext
  intro j
  simp only [get_merge]
  exact assoc_opt h _ _ _

theorem assoc_set : Assoc BSet.merge := assoc_map assoc_right

theorem map_empty_left {V : Type} (mv : V → V → V) (a : BMap V) : BMap.merge mv BMap.empty a = a := by
  apply BMap.ext; intro j; rw [get_merge]; exact mergeOpt_none_left _ _

theorem map_empty_right {V : Type} (mv : V → V → V) (a : BMap V) : BMap.merge mv a BMap.empty = a := by
  apply BMap.ext; intro j; rw [get_merge]; exact mergeOpt_none_right _ _

/-! ## Key-value vectors -/

theorem sorted_insertAll {kvs : List KeyValue} {m : List (Text × Text)} (h : Sorted m) :
    Sorted (insertAll kvs m) := by
  induction kvs generalizing m with
  | nil => exact h
  | cons p r ih => exact ih (sorted_insert h)

/-- The value of a variable in a list of assignments: the last assignment counts. -/
def lastOf (k : Text) : List KeyValue → Option Text
  | [] => none
  | kv :: rest => match lastOf k rest with
    | some v => some v
    | none => if kv.key = k then some kv.value else none

theorem get_insertAll (kvs : List KeyValue) (m : List (Text × Text)) (k : Text) :
    get k (insertAll kvs m) = (lastOf k kvs).or (get k m) := by
  induction kvs generalizing m with
  | nil => simp [insertAll, lastOf]
  | cons p r ih =>
    simp only [insertAll, ih, get_insert, lastOf]
    cases lastOf k r with
    | some v => rfl
    | none => by_cases h : p.key = k <;> simp [h]

theorem lastOf_map_sorted {m : List (Text × Text)} (h : Sorted m) (k : Text) :
    lastOf k (m.map (fun (k, v) => ({ key := k, value := v } : KeyValue))) = get k m := by
  induction m with
  | nil => rfl
  | cons p r ih =>
    obtain ⟨k', v⟩ := p
    simp only [Sorted, List.pairwise_cons] at h
    simp only [List.map_cons, lastOf, ih h.2, get]
    by_cases e : k' = k
    · subst e; rw [get_none_of_lt h.1]
    · simp only [e, if_false]; cases get k r <;> rfl

theorem lastOf_merge (a b : List KeyValue) (k : Text) :
    lastOf k (mergeKeyValueVecs a b) = (lastOf k b).or (lastOf k a) := by
  unfold mergeKeyValueVecs
  rw [lastOf_map_sorted (sorted_insertAll (sorted_insertAll List.Pairwise.nil)), get_insertAll,
    get_insertAll]
  simp [get]

theorem kv_map_inj : Function.Injective
    (fun (p : Text × Text) => ({ key := p.1, value := p.2 } : KeyValue)) := by
  rintro ⟨a, b⟩ ⟨c, d⟩ h; simp_all

theorem merge_vars_ext {a b c d : List KeyValue}
    (h : ∀ k, (lastOf k b).or (lastOf k a) = (lastOf k d).or (lastOf k c)) :
    mergeKeyValueVecs a b = mergeKeyValueVecs c d := by
  unfold mergeKeyValueVecs
  congr 1
  apply sorted_ext (sorted_insertAll (sorted_insertAll List.Pairwise.nil))
    (sorted_insertAll (sorted_insertAll List.Pairwise.nil))
  intro j
  simp only [get_insertAll, get, Option.or_none]
  exact h j

theorem assoc_vars : Assoc mergeKeyValueVecs := by
  intro a b c
  apply merge_vars_ext
  intro k
  rw [lastOf_merge, lastOf_merge, Option.or_assoc]

/-- Vectors of assignments that are sorted by key, each key once. -/
def Canonical (vars : List KeyValue) : Prop := vars.Pairwise (fun a b => tlt a.key b.key = true)

instance (vars : List KeyValue) : Decidable (Canonical vars) := by unfold Canonical; infer_instance

theorem canonical_merge (a b : List KeyValue) : Canonical (mergeKeyValueVecs a b) := by
  unfold mergeKeyValueVecs Canonical
  rw [List.pairwise_map]
  exact sorted_insertAll (sorted_insertAll List.Pairwise.nil)

theorem canonical_eq {a b : List KeyValue} (ha : Canonical a) (hb : Canonical b)
    (h : ∀ k, lastOf k a = lastOf k b) : a = b := by
  have e : ∀ x : List KeyValue, x = (x.map (fun kv => (kv.key, kv.value))).map
      (fun (p : Text × Text) => ({ key := p.1, value := p.2 } : KeyValue)) := by
    intro x
    induction x with
    | nil => rfl
    | cons p r ih => simp [← ih]
  have s : ∀ x : List KeyValue, Canonical x → Sorted (x.map (fun kv => (kv.key, kv.value))) := by
    intro x hx
    unfold Sorted
    rw [List.pairwise_map]
    exact hx
  rw [e a, e b]
  congr 1
  apply sorted_ext (s a ha) (s b hb)
  intro j
  rw [← lastOf_map_sorted (s a ha), ← lastOf_map_sorted (s b hb)]
  have := h j
  rw [e a, e b] at this
  exact this

theorem vars_empty_right {a : List KeyValue} (h : Canonical a) : mergeKeyValueVecs a [] = a := by
  apply canonical_eq (canonical_merge _ _) h
  intro k; rw [lastOf_merge]; simp [lastOf]

theorem vars_empty_left {a : List KeyValue} (h : Canonical a) : mergeKeyValueVecs [] a = a := by
  apply canonical_eq (canonical_merge _ _) h
  intro k; rw [lastOf_merge]; simp [lastOf]

/-! ## Index maps -/

/-- The keys of a map, in order. -/
def keysOf {V : Type} (m : List (Text × V)) : List Text := m.map (·.1)

theorem get_none_iff {V : Type} {k : Text} {m : List (Text × V)} : get k m = none ↔ k ∉ keysOf m := by
  induction m with
  | nil => simp [get, keysOf]
  | cons p r ih =>
    obtain ⟨k', v⟩ := p
    simp only [get, keysOf, List.map_cons, List.mem_cons, not_or] at *
    by_cases h : k' = k
    · simp [h]
    · simp only [h, if_false, ih, Ne.symm h, not_false_eq_true, true_and, ne_eq]

theorem list_ext_of_keys {V : Type} {a b : List (Text × V)} (hk : keysOf a = keysOf b)
    (hn : (keysOf a).Nodup) (h : ∀ k, get k a = get k b) : a = b := by
  induction a generalizing b with
  | nil => cases b with
    | nil => rfl
    | cons _ _ => simp [keysOf] at hk
  | cons p r ih => cases b with
    | nil => simp [keysOf] at hk
    | cons q s =>
      obtain ⟨k, v⟩ := p; obtain ⟨l, w⟩ := q
      simp only [keysOf, List.map_cons, List.cons.injEq, List.nodup_cons] at hk hn
      obtain ⟨rfl, hk⟩ := hk
      have hv := h k
      simp [get] at hv
      subst hv
      congr 1
      apply ih hk hn.2
      intro j
      by_cases e : k = j
      · subst e
        rw [get_none_iff.mpr hn.1, get_none_iff.mpr]
        have := hn.1; rw [hk] at this; exact this
      · have := h j; simpa [get, e] using this

theorem keys_upsert {V : Type} (mv : V → V → V) (k : Text) (v : V) (m : List (Text × V)) :
    keysOf (upsert mv k v m) = if k ∈ keysOf m then keysOf m else keysOf m ++ [k] := by
  induction m with
  | nil => simp [upsert, keysOf]
  | cons p r ih =>
    obtain ⟨k', v'⟩ := p
    unfold upsert
    by_cases h : k' = k
    · subst h; simp [keysOf]
    · have : ¬ k = k' := fun e => h e.symm
      simp only [h, if_false, keysOf, List.map_cons, List.mem_cons] at *
      rw [ih]
      by_cases h2 : k ∈ List.map (·.1) r <;> simp [h2, this]

theorem get_upsert {V : Type} (mv : V → V → V) (k j : Text) (v : V) (m : List (Text × V)) :
    get j (upsert mv k v m) = if k = j then some (match get k m with | some o => mv o v | none => v)
      else get j m := by
  induction m with
  | nil => simp [upsert, get]
  | cons p r ih =>
    obtain ⟨k', v'⟩ := p
    unfold upsert
    by_cases h : k' = k
    · subst h; by_cases e : k' = j <;> simp [get, e]
    · simp only [h, if_false, get, ih]
      by_cases e : k' = j
      · subst e
        have : ¬ k = k' := fun e => h e.symm
        simp [this]
      · simp [e]

/-- The keys of a merge: those of the left in their order, then the new ones of the right in theirs. -/
theorem keys_mergeIndex {V : Type} (mv : V → V → V) (a b : List (Text × V)) (hb : (keysOf b).Nodup) :
    keysOf (mergeIndex mv a b) = keysOf a ++ (keysOf b).filter (fun k => decide (k ∉ keysOf a)) := by
  induction b generalizing a with
  | nil => simp [mergeIndex, keysOf]
  | cons p r ih =>
    obtain ⟨k, v⟩ := p
    have hb' : k ∉ keysOf r ∧ (keysOf r).Nodup := by simpa [keysOf] using hb
    unfold mergeIndex
    rw [ih _ hb'.2, keys_upsert]
    by_cases h : k ∈ keysOf a
    · have : keysOf ((k, v) :: r) = k :: keysOf r := rfl
      rw [this, List.filter_cons]
      simp [h]
    · simp only [h, if_false]
      have : keysOf ((k, v) :: r) = k :: keysOf r := rfl
      rw [this, List.filter_cons]
      simp only [h, not_false_eq_true, decide_true, if_true, List.append_assoc, List.singleton_append]
      congr 2
      apply List.filter_congr
      intro x hx
      have : x ≠ k := fun e => hb'.1 (e ▸ hx)
      simp [this]

theorem get_mergeIndex {V : Type} (mv : V → V → V) (a b : List (Text × V)) (hb : (keysOf b).Nodup)
    (j : Text) : get j (mergeIndex mv a b) = mergeOpt mv (get j a) (get j b) := by
  induction b generalizing a with
  | nil => simp [mergeIndex, get, mergeOpt_none_right]
  | cons p r ih =>
    obtain ⟨k, v⟩ := p
    have hb' : k ∉ keysOf r ∧ (keysOf r).Nodup := by simpa [keysOf] using hb
    unfold mergeIndex
    rw [ih _ hb'.2, get_upsert]
    by_cases h : k = j
    · subst h
      simp only [if_true, get_none_iff.mpr hb'.1, mergeOpt_none_right, get]
      cases get k a <;> rfl
    · simp [h, get]

theorem nodup_mergeIndex {V : Type} (mv : V → V → V) {a b : List (Text × V)} (ha : (keysOf a).Nodup)
    (hb : (keysOf b).Nodup) : (keysOf (mergeIndex mv a b)).Nodup := by
  rw [keys_mergeIndex mv a b hb, List.nodup_append]
  refine ⟨ha, hb.filter _, ?_⟩
  intro x hx y hy e
  subst e
  simp at hy
  exact hy.2 hx

theorem keys_assoc (a b c : List Text) :
    (a ++ b.filter (fun k => decide (k ∉ a))) ++
      c.filter (fun k => decide (k ∉ a ++ b.filter (fun k => decide (k ∉ a)))) =
    a ++ (b ++ c.filter (fun k => decide (k ∉ b))).filter (fun k => decide (k ∉ a)) := by
  rw [List.append_assoc, List.filter_append, List.filter_filter]
  congr 2
  apply List.filter_congr
  intro x _
  by_cases h1 : x ∈ a <;> by_cases h2 : x ∈ b <;> simp [h1, h2]

theorem mergeIndex_assoc {V : Type} {mv : V → V → V} {a b c : List (Text × V)}
    (ha : (keysOf a).Nodup) (hb : (keysOf b).Nodup) (hc : (keysOf c).Nodup)
    (h : ∀ k x y z, get k a = some x → get k b = some y → get k c = some z →
      mv (mv x y) z = mv x (mv y z)) :
    mergeIndex mv (mergeIndex mv a b) c = mergeIndex mv a (mergeIndex mv b c) := by
  apply list_ext_of_keys
  · rw [keys_mergeIndex _ _ _ hc, keys_mergeIndex _ _ _ hb,
      keys_mergeIndex _ _ _ (nodup_mergeIndex mv hb hc), keys_mergeIndex _ _ _ hc]
    exact keys_assoc _ _ _
  · exact nodup_mergeIndex mv (nodup_mergeIndex mv ha hb) hc
  · intro k
    rw [get_mergeIndex _ _ _ hc, get_mergeIndex _ _ _ hb,
      get_mergeIndex _ _ _ (nodup_mergeIndex mv hb hc), get_mergeIndex _ _ _ hc]
    cases ea : get k a <;> cases eb : get k b <;> cases ec : get k c <;> simp [mergeOpt]
    exact h k _ _ _ ea eb ec

/-! ## Values -/

theorem setKey_upsert (mv : GVal → GVal → GVal) (k : Text) (v : GVal) (m : List (Text × GVal)) :
    (match get k m with
      | some old => setKey k (mv old v) m
      | none => m ++ [(k, v)]) = upsert mv k v m := by
  induction m with
  | nil => simp [get, upsert]
  | cons p r ih =>
    obtain ⟨k', v'⟩ := p
    by_cases h : k' = k
    · simp [get, h, setKey, upsert]
    · simp only [get, h, if_false, setKey, upsert]
      rw [← ih]
      cases get k r <;> rfl

theorem mergeConstKvs_eq (a b : List (Text × GVal)) : mergeConstKvs a b = mergeIndex mergeConst a b := by
  induction b generalizing a with
  | nil => simp [mergeConstKvs, mergeIndex]
  | cons p r ih =>
    obtain ⟨k, v⟩ := p
    simp only [mergeConstKvs, mergeIndex]
    rw [ih]
    congr 1
    have := setKey_upsert mergeConst k v a
    cases e : get k a <;> simp only [e] at this <;> exact this

theorem get_mem {V : Type} {k : Text} {m : List (Text × V)} {v : V} (h : get k m = some v) :
    (k, v) ∈ m := by
  induction m with
  | nil => simp [get] at h
  | cons p r ih =>
    obtain ⟨k', v'⟩ := p
    simp only [get] at h
    split at h
    · simp_all
    · simp [ih h]

/-! ## Resolvers -/

theorem mem_mergeResolvers (a b : List Opaque) (x : Opaque) :
    x ∈ mergeResolvers a b ↔ x ∈ a ∨ x ∈ b := by
  induction b generalizing a with
  | nil => simp [mergeResolvers]
  | cons r rest ih =>
    unfold mergeResolvers
    rw [ih]
    by_cases h : r ∈ a
    · simp [h]
      constructor
      · rintro (h | h) <;> simp [h]
      · rintro (h1 | rfl | h1) <;> simp_all
    · simp [h, or_assoc]

theorem mergeResolvers_append (a b c : List Opaque) :
    mergeResolvers a (b ++ c) = mergeResolvers (mergeResolvers a b) c := by
  induction b generalizing a with
  | nil => rfl
  | cons r rest ih => simp only [List.cons_append, mergeResolvers]; exact ih _

theorem mergeResolvers_skip (a b c : List Opaque) :
    mergeResolvers a (mergeResolvers b c) = mergeResolvers (mergeResolvers a b) c := by
  induction c generalizing b with
  | nil => rfl
  | cons r rest ih =>
    simp only [mergeResolvers]
    rw [ih]
    congr 1
    by_cases h : r ∈ b
    · have : r ∈ mergeResolvers a b := (mem_mergeResolvers _ _ _).mpr (.inr h)
      simp [h, this]
    · simp only [h, if_false, mergeResolvers_append]
      rfl

theorem assoc_resolvers : Assoc mergeResolvers := fun a b c => (mergeResolvers_skip a b c).symm

theorem resolvers_nodup {a b : List Opaque} (h : (a ++ b).Nodup) : mergeResolvers a b = a ++ b := by
  induction b generalizing a with
  | nil => simp [mergeResolvers]
  | cons r rest ih =>
    have hr : r ∉ a := by
      intro hm
      have := (List.nodup_append.mp h).2.2 r hm r (by simp)
      exact this rfl
    simp only [mergeResolvers, hr, if_false]
    rw [ih (by simpa using h)]
    simp

/-! ## Structs -/

theorem assoc_cors : Assoc Cors.merge := by
  intro a b c
  simp only [Cors.merge, Cors.mk.injEq]
  exact ⟨assoc_opt assoc_right _ _ _, assoc_vec _ _ _, assoc_vec _ _ _, assoc_vec _ _ _,
    assoc_opt assoc_right _ _ _, assoc_vec _ _ _, assoc_opt assoc_right _ _ _, assoc_vec _ _ _⟩

theorem assoc_headers : Assoc Headers.merge := by
  intro a b c
  simp only [Headers.merge, Headers.mk.injEq]
  exact ⟨assoc_opt assoc_right _ _ _, assoc_vec _ _ _, assoc_opt assoc_set _ _ _,
    assoc_opt assoc_right _ _ _, assoc_opt assoc_cors _ _ _⟩

theorem assoc_routes : Assoc Routes.merge := fun _ _ _ => rfl

theorem assoc_script : Assoc ScriptOptions.merge := by
  intro a b c
  simp only [ScriptOptions.merge, ScriptOptions.mk.injEq]
  exact assoc_opt assoc_right _ _ _

theorem assoc_server : Assoc Server.merge := by
  intro a b c
  simp only [Server.merge, Server.mk.injEq]
  exact ⟨assoc_opt assoc_right _ _ _, assoc_opt assoc_right _ _ _, assoc_opt assoc_right _ _ _,
    assoc_opt assoc_headers _ _ _, assoc_opt assoc_right _ _ _, assoc_opt assoc_right _ _ _,
    assoc_opt assoc_right _ _ _, assoc_opt assoc_right _ _ _, assoc_opt assoc_right _ _ _,
    assoc_opt assoc_right _ _ _, assoc_opt assoc_right _ _ _, assoc_opt assoc_right _ _ _,
    assoc_opt assoc_script _ _ _, assoc_opt assoc_right _ _ _, assoc_vars _ _ _,
    assoc_opt assoc_right _ _ _, assoc_opt assoc_right _ _ _, assoc_opt assoc_routes _ _ _⟩

theorem assoc_batch : Assoc Batch.merge := by
  intro a b c
  simp only [Batch.merge, Batch.mk.injEq]
  exact ⟨rfl, assoc_set _ _ _, assoc_opt assoc_right _ _ _⟩

theorem assoc_proxy : Assoc Proxy.merge := fun _ _ _ => rfl

theorem assoc_upstream : Assoc Upstream.merge := by
  intro a b c
  simp only [Upstream.merge, Upstream.mk.injEq]
  exact ⟨assoc_opt assoc_right _ _ _, assoc_opt assoc_set _ _ _, assoc_opt assoc_batch _ _ _,
    assoc_opt assoc_right _ _ _, assoc_opt assoc_right _ _ _, assoc_opt assoc_right _ _ _,
    assoc_opt assoc_right _ _ _, assoc_opt assoc_right _ _ _, assoc_opt assoc_right _ _ _,
    assoc_opt assoc_right _ _ _, assoc_opt assoc_right _ _ _, assoc_opt assoc_proxy _ _ _,
    assoc_opt assoc_right _ _ _, assoc_opt assoc_right _ _ _, assoc_opt assoc_right _ _ _,
    assoc_opt assoc_right _ _ _⟩

theorem assoc_schema : Assoc RootSchema.merge := by
  intro a b c
  simp only [RootSchema.merge, RootSchema.mk.injEq]
  exact ⟨assoc_opt assoc_right _ _ _, assoc_opt assoc_right _ _ _, assoc_opt assoc_right _ _ _⟩

theorem assoc_protected : Assoc Protected.merge := by
  intro a b c
  simp only [Protected.merge, Protected.mk.injEq]
  exact assoc_opt assoc_vec _ _ _

theorem assoc_type : Assoc TypeDef.merge := by
  intro a b c
  simp only [TypeDef.merge, TypeDef.mk.injEq]
  exact ⟨assoc_map assoc_right _ _ _, assoc_vec _ _ _, assoc_opt assoc_right _ _ _, assoc_set _ _ _,
    assoc_opt assoc_right _ _ _, assoc_opt assoc_protected _ _ _, assoc_resolvers _ _ _,
    assoc_vec _ _ _⟩

theorem assoc_members : Assoc Members.merge := by
  intro a b c
  simp only [Members.merge, Members.mk.injEq]
  exact ⟨assoc_set _ _ _, assoc_opt assoc_right _ _ _⟩

theorem telemetry_eq (a b : Telemetry) : (Telemetry.merge a b).exporter =
    mergeOpt right a.exporter b.exporter := by
  unfold Telemetry.merge
  simp only
  cases a.exporter <;> cases b.exporter <;> rfl

theorem assoc_telemetry : Assoc Telemetry.merge := by
  intro a b c
  have h : ∀ x y : Telemetry, x.exporter = y.exporter → x.requestHeaders = y.requestHeaders → x = y := by
    rintro ⟨_, _⟩ ⟨_, _⟩ h1 h2; simp_all
  apply h
  · simp only [telemetry_eq]; exact assoc_opt assoc_right _ _ _
  · simp [Telemetry.merge]

theorem assoc_config : Assoc Config.merge := by
  intro a b c
  simp only [Config.merge, Config.mk.injEq]
  exact ⟨assoc_server _ _ _, assoc_upstream _ _ _, assoc_schema _ _ _, assoc_map assoc_type _ _ _,
    assoc_map assoc_members _ _ _, assoc_map assoc_members _ _ _, assoc_vec _ _ _,
    assoc_telemetry _ _ _⟩

theorem assoc_extensions : Assoc Extensions.merge := by
  intro a b c
  simp only [Extensions.merge, Extensions.mk.injEq]
  exact ⟨assoc_map assoc_right _ _ _, assoc_opt assoc_right _ _ _, assoc_vec _ _ _, assoc_vec _ _ _,
    assoc_vec _ _ _, assoc_vec _ _ _, assoc_vec _ _ _⟩

end Verif.Merge
