import Verif.Refine.Exact

/-!
# Merging ends
-/

namespace Verif.Refine

open Verif.Mustache (Text)
open Verif.Exec (Ty)
open Verif.Transform

set_option linter.unusedSimpArgs false

/-! ## Comparisons end -/

/-- All pairs of names of types. -/
def allPairs (c : Cfg) : List (Text × Text) :=
  (c.types.map (·.1)).flatMap (fun a => (c.types.map (·.1)).map (fun b => (a, b)))

/-- The pairs of types that were not seen. -/
def unseen (c : Cfg) (v : List (Text × Text)) : Nat := (allPairs c).countP (fun p => !seen v p.1 p.2)

theorem seen_mono {v v' : List (Text × Text)} (h : ∀ p ∈ v, p ∈ v') {a b : Text} (hs : seen v a b = true) : seen v' a b = true := by
  rw [seen, Bool.or_eq_true, List.contains_iff_mem, List.contains_iff_mem] at hs ⊢
  exact hs.imp (h _) (h _)

theorem unseen_mono {c : Cfg} {v v' : List (Text × Text)} (h : ∀ p ∈ v, p ∈ v') : unseen c v' ≤ unseen c v := by
  refine List.countP_mono_left (fun p _ hp => ?_)
  cases hs : seen v p.1 p.2 with
  | false => rfl
  | true => rw [seen_mono h hs] at hp; cases hp

theorem countP_lt {α : Type} {p q : α → Bool} : ∀ {l : List α}, (∀ x ∈ l, p x = true → q x = true) →
    ∀ {y}, y ∈ l → q y = true → p y = false → l.countP p < l.countP q
  | x :: l, h, y, hy, hq, hp => by
    rw [List.countP_cons, List.countP_cons]
    rcases List.mem_cons.1 hy with rfl | hy
    · have := List.countP_mono_left (fun z hz => h z (List.mem_cons_of_mem _ hz))
      rw [hp, hq]
      simp only [Bool.false_eq_true, if_false, if_true]
      omega
    · have := countP_lt (fun z hz => h z (List.mem_cons_of_mem _ hz)) hy hq hp
      by_cases hx : p x = true
      · rw [hx, h x List.mem_cons_self hx]; simp only [if_true]; omega
      · rw [if_neg hx]; split <;> omega

theorem unseen_lt {c : Cfg} {v : List (Text × Text)} {a b : Text} {s t : TypeD} (ha : get c.types a = some s)
    (hb : get c.types b = some t) (hv : seen v a b = false) : unseen c ((a, b) :: v) < unseen c v := by
  refine countP_lt (fun p _ hp => ?_) (y := (a, b)) ?_ ?_ ?_
  · cases hs : seen v p.1 p.2 with
    | false => rfl
    | true => rw [seen_mono (fun q hq => List.mem_cons_of_mem _ hq) hs] at hp; cases hp
  · refine List.mem_flatMap.2 ⟨a, List.mem_map.2 ⟨(a, s), at_mem (get_some.1 ha), rfl⟩, ?_⟩
    exact List.mem_map.2 ⟨b, List.mem_map.2 ⟨(b, t), at_mem (get_some.1 hb), rfl⟩, rfl⟩
  · show (!seen v a b) = true
    rw [hv]; rfl
  · show (!seen ((a, b) :: v) a b) = false
    rw [seen, List.contains_iff_mem.2 List.mem_cons_self]; rfl

theorem simFields_finishes {pre : Text → Bool} {c : Cfg} {rec : Text × TypeD → Text × TypeD → SState → Option (Option Bool × SState)}
    {f2s : List (Text × FieldD)} {fuel : Nat}
    (hrec : ∀ x y s, unseen c s.visited < fuel → ∃ r s', rec x y s = some (r, s') ∧ ∀ p ∈ s.visited, p ∈ s'.visited) :
    ∀ (r : List (Text × FieldD)) (k : Nat) (s : SState), unseen c s.visited < fuel + 1 →
      ∃ res s', simFields pre c rec f2s r k s = some (res, s') ∧ ∀ p ∈ s.visited, p ∈ s'.visited
  | [], k, s, _ => ⟨_, s, rfl, fun _ h => h⟩
  | (n, f1) :: r, k, s, hs => by
    have next := simFields_finishes (pre := pre) (f2s := f2s) hrec r
    rw [simFields]
    cases h2 : get f2s n with
    | none => exact next k s hs
    | some f2 =>
      simp only []
      split
      · split
        · split
          · exact next _ s hs
          · exact ⟨_, s, rfl, fun _ h => h⟩
        · exact ⟨_, s, rfl, fun _ h => h⟩
      · split
        · split
          · exact next _ s hs
          · exact ⟨_, s, rfl, fun _ h => h⟩
        · cases ha : get c.types f1.ty.name with
          | none => exact next k s hs
          | some t1 =>
            simp only []
            cases hb : get c.types f2.ty.name with
            | none => exact next k s hs
            | some t2 =>
              simp only []
              split
              · exact ⟨_, s, rfl, fun _ h => h⟩
              · next hv =>
                have hv : seen s.visited f1.ty.name f2.ty.name = false := by
                  cases h : seen s.visited f1.ty.name f2.ty.name with
                  | false => rfl
                  | true => exact absurd h hv
                have hlt := unseen_lt ha hb hv
                obtain ⟨res, s', h1, h2⟩ := hrec (f1.ty.name, t1) (f2.ty.name, t2)
                  ⟨s.cache, (f1.ty.name, f2.ty.name) :: s.visited⟩ (by show unseen c ((f1.ty.name, f2.ty.name) :: s.visited) < fuel; omega)
                have hsub : ∀ p ∈ s.visited, p ∈ s'.visited := fun p hp => h2 p (List.mem_cons_of_mem _ hp)
                rw [h1]
                cases res with
                | none => exact ⟨_, s', rfl, hsub⟩
                | some v =>
                  simp only []
                  obtain ⟨res, s2, h3, h4⟩ := next (k + if v = true then 1 else 0) s' (by
                    have := unseen_mono (c := c) hsub
                    omega)
                  exact ⟨res, s2, h3, fun p hp => h4 p (hsub p hp)⟩

theorem sim_finishes (pre : Text → Bool) (c : Cfg) (ge : Nat → Nat → Bool) : ∀ (fuel : Nat) (x y : Text × TypeD) (s : SState),
    unseen c s.visited < fuel → ∃ r s', sim pre c ge fuel x y s = some (r, s') ∧ ∀ p ∈ s.visited, p ∈ s'.visited
  | 0, _, _, _, h => absurd h (Nat.not_lt_zero _)
  | fuel + 1, (n1, t1), (n2, t2), s, h => by
    rw [sim]
    cases cacheGet s.cache n1 n2 with
    | some b => exact ⟨_, s, rfl, fun _ h => h⟩
    | none =>
      simp only []
      obtain ⟨res, s', h1, h2⟩ := simFields_finishes (pre := pre) (f2s := t2.fields) (sim_finishes pre c ge fuel) t1.fields 0 s h
      rw [h1]
      cases res with
      | done k => exact ⟨_, _, rfl, h2⟩
      | ret r => exact ⟨_, _, rfl, h2⟩

theorem compareAll_finishes {pre : Text → Bool} {c : Cfg} {ks : Kinds} {given : Nat → Nat → Bool} {fuel : Nat} {n1 : Text} {t1 : TypeD}
    (hf : unseen c [] < fuel) : ∀ (r set : List Text) (s : GState), ∃ q, compareAll pre c ks given fuel n1 t1 r set s = some q
  | [], set, s => ⟨_, rfl⟩
  | n2 :: r, set, s => by
    have next := compareAll_finishes (pre := pre) (c := c) (ks := ks) (given := given) (n1 := n1) (t1 := t1) hf r
    rw [compareAll]
    split
    · exact next _ _
    · cases get c.types n2 with
      | none => exact next _ _
      | some t2 =>
        simp only []
        obtain ⟨res, s', h, _⟩ := sim_finishes pre c (threshold ks given n1 n2) fuel (n1, t1) (n2, t2) ⟨s.cache, []⟩ hf
        rw [h]
        simp only []
        split
        · exact next _ _
        · exact next _ _

theorem groups_finishes {pre : Text → Bool} {c : Cfg} {ks : Kinds} {given : Nat → Nat → Bool} {fuel : Nat} {all : List Text}
    (hf : unseen c [] < fuel) : ∀ (r : List Text) (i : Nat) (s : GState), ∃ q, groups pre c ks given fuel all r i s = some q
  | [], i, s => ⟨_, rfl⟩
  | n1 :: r, i, s => by
    have next := groups_finishes (pre := pre) (c := c) (ks := ks) (given := given) (all := all) hf r
    rw [groups]
    cases get c.types n1 with
    | none => exact next _ _
    | some t1 =>
      simp only []
      split
      · exact next _ _
      · obtain ⟨⟨set, s'⟩, h⟩ := compareAll_finishes (pre := pre) (c := c) (ks := ks) (given := given) (n1 := n1) (t1 := t1) hf
          (all.drop (i + 1)) [n1] s
        rw [h]
        simp only []
        obtain ⟨gs, h⟩ := next (i + 1) s'
        rw [h]
        exact ⟨_, rfl⟩

/-! ## Rounds end -/

/-- Enough depth for one round. -/
def depth (c : Cfg) : Nat :=
  2 * (c.unions.length + (c.types.length + c.enums.length)) + 3 + (c.types.length * c.types.length + 1)

theorem unseen_le (c : Cfg) (v : List (Text × Text)) : unseen c v ≤ c.types.length * c.types.length := by
  refine Nat.le_trans List.countP_le_length ?_
  rw [allPairs, List.length_flatMap]
  simp only [List.length_map, List.map_const', List.sum_replicate_nat]
  exact Nat.le_refl _

theorem rest_le (c : Cfg) (set : List Text) : rest c set ≤ c.unions.length + (c.types.length + c.enums.length) := by
  refine Nat.le_trans (List.length_filter_le _ _) ?_
  simp only [List.length_append, List.length_map]
  exact Nat.le_refl _

theorem kindsOf_finishes {pre : Text → Bool} {c : Cfg} (hw : Wf pre c) {fuel : Nat} (hf : depth c ≤ fuel) : ∃ ks, kindsOf pre c fuel = some ks := by
  have enough : ∀ x set, (1 ≤ fuel ∧ ((∃ u, At c.unions x u) → 2 * rest c (x :: set) + 3 ≤ fuel) ∧
      (Decl c x → 2 * rest c (x :: set) + 2 ≤ fuel)) := by
    intro x set
    have := rest_le c (x :: set)
    rw [depth] at hf
    refine ⟨by omega, fun _ => by omega, fun _ => by omega⟩
  obtain ⟨ins, hi, _⟩ := connMembers_finishes (conn_finishes pre c hw.flat fuel)
    ((argNames c).filter (fun x => !isScalar pre c x)) [] (fun x _ set' _ => enough x set')
  obtain ⟨outs, ho, _⟩ := connMembers_finishes (conn_finishes pre c hw.flat fuel)
    (c.query.toList ++ c.mutation.toList) [] (fun x _ set' _ => enough x set')
  rw [kindsOf, inputTypes, hi, outputTypes, ho]
  exact ⟨_, rfl⟩

theorem round_finishes {pre : Text → Bool} {join : Text → Text → Text} {given : Nat → Nat → Bool} {c : Cfg} (hw : Wf pre c)
    {fuel k : Nat} (hf : depth c ≤ fuel) : ∃ o, round pre join given fuel k c = some o := by
  obtain ⟨ks, hk⟩ := kindsOf_finishes hw hf
  obtain ⟨gs, hg⟩ := groups_finishes (pre := pre) (c := c) (ks := ks) (given := given) (all := allNames ks) (fuel := fuel)
    (by have := unseen_le c []; rw [depth] at hf; omega) (allNames ks) 0 ⟨[], []⟩
  rw [round, hk]
  simp only [hg]
  split
  · exact ⟨_, rfl⟩
  · exact ⟨_, rfl⟩

/-! ## Every round leaves fewer types -/

theorem mInsert_length {V : Type} (k : Text) (v : V) : ∀ m : List (Text × V), (Verif.Merge.insert k v m).length ≤ m.length + 1
  | [] => Nat.le_refl _
  | (k', v') :: r => by
    have := mInsert_length k v r
    rw [Verif.Merge.insert]
    split
    · simp only [List.length_cons]; omega
    · split
      · simp only [List.length_cons]; omega
      · simp only [List.length_cons]; omega

theorem mergeGroups_length {join : Text → Text → Text} : ∀ {gs : List (List Text)} {k : Nat} {types : List (Text × TypeD)} {l : List (Text × Text)},
    (mergeGroups join gs k types l).2.1.length ≤ types.length + gs.length
  | [], k, types, l => Nat.le_refl _
  | g :: gs, k, types, l => by
    rw [mergeGroups]
    split
    · have := mergeGroups_length (join := join) (gs := gs) (k := k) (types := types) (l := l)
      rw [List.length_cons]; omega
    · refine Nat.le_trans (mergeGroups_length (gs := gs)) ?_
      have := mInsert_length (mergedName k) ((found types g).foldl (fun acc p => mergeType join p.2 acc) emptyType) types
      rw [List.length_cons]; omega

theorem insert_keys {l : List (Text × Text)} (h : (l.map (·.1)).Nodup) (k v : Text) : ((insert l k v).map (·.1)).Nodup := by
  rw [Verif.Transform.insert, List.map_cons, List.nodup_cons]
  refine ⟨?_, (h.sublist ((List.filter_sublist).map _))⟩
  intro hk
  obtain ⟨p, hp, e⟩ := List.mem_map.1 hk
  rw [remove, List.mem_filter] at hp
  simp only [decide_not, Bool.not_eq_true', decide_eq_false_iff_not] at hp
  exact hp.2 e

theorem insertAll_keys (name : Text) : ∀ (fs : List (Text × TypeD)) (l : List (Text × Text)), (l.map (·.1)).Nodup →
    ((fs.foldl (fun l p => insert l p.1 name) l).map (·.1)).Nodup
  | [], l, h => h
  | p :: r, l, h => by
    rw [List.foldl_cons]
    exact insertAll_keys name r _ (insert_keys h _ _)

theorem mergeGroups_keys {join : Text → Text → Text} : ∀ {gs : List (List Text)} {k : Nat} {types : List (Text × TypeD)} {l : List (Text × Text)},
    (l.map (·.1)).Nodup → ((mergeGroups join gs k types l).2.2.map (·.1)).Nodup
  | [], k, types, l, h => h
  | g :: gs, k, types, l, h => by
    rw [mergeGroups]
    split
    · exact mergeGroups_keys h
    · exact mergeGroups_keys (insertAll_keys _ _ _ h)

theorem remove_length {α : Type} {k : Text} : ∀ {m : List (Text × α)}, k ∈ m.map (·.1) → (remove m k).length < m.length
  | p :: r, h => by
    rw [remove, List.filter_cons]
    by_cases e : p.1 = k
    · rw [if_neg (by simp [e]), List.length_cons]
      exact Nat.lt_succ_of_le (List.length_filter_le _ _)
    · rw [if_pos (by simp [e]), List.length_cons, List.length_cons]
      rw [List.map_cons, List.mem_cons] at h
      have := remove_length (h.resolve_left (fun h => e h.symm))
      rw [remove] at this
      omega

theorem removeTypes_length : ∀ {ks : List Text} {c : Cfg}, ks.Nodup → (∀ x ∈ ks, x ∈ c.types.map (·.1)) →
    (removeTypes c ks).types.length + ks.length ≤ c.types.length ∧ (removeTypes c ks).unions.length ≤ c.unions.length
  | [], c, _, _ => ⟨Nat.le_refl _, Nat.le_refl _⟩
  | k :: r, c, hn, hk => by
    rw [List.nodup_cons] at hn
    rw [removeTypes]
    have h1 := remove_length (hk k List.mem_cons_self)
    obtain ⟨i1, i2⟩ := removeTypes_length (ks := r) (c := { c with types := remove c.types k, unions := remove c.unions k }) hn.2 (by
      intro x hx
      obtain ⟨p, hp, rfl⟩ := List.mem_map.1 (hk x (List.mem_cons_of_mem _ hx))
      refine List.mem_map.2 ⟨p, ?_, rfl⟩
      show p ∈ remove c.types k
      rw [remove, List.mem_filter]
      refine ⟨hp, ?_⟩
      simp only [decide_not, Bool.not_eq_true', decide_eq_false_iff_not]
      intro e
      exact hn.1 (e ▸ hx))
    refine ⟨?_, Nat.le_trans i2 (List.length_filter_le _ _)⟩
    simp only [] at i1
    rw [List.length_cons]
    omega

theorem flatten_length : ∀ {gs : List (List Text)}, (∀ g ∈ gs, 1 < g.length) → 2 * gs.length ≤ gs.flatten.length
  | [], _ => Nat.le_refl _
  | g :: gs, h => by
    have h1 := h g List.mem_cons_self
    have h2 := flatten_length (gs := gs) (fun x hx => h x (List.mem_cons_of_mem _ hx))
    rw [List.flatten_cons, List.length_append, List.length_cons]
    omega

theorem round_smaller {pre : Text → Bool} {join : Text → Text → Text} {given : Nat → Nat → Bool} {fuel k k' : Nat} {c c' : Cfg}
    (hf : FreshFrom k c) (h : round pre join given fuel k c = some (some (k', c'))) :
    c'.types.length < c.types.length ∧ c'.unions.length ≤ c.unions.length ∧ c'.enums = c.enums := by
  rw [round] at h
  cases hk : kindsOf pre c fuel with
  | none => rw [hk] at h; cases h
  | some ks =>
    rw [hk] at h
    simp only [] at h
    cases hg : groups pre c ks given fuel (allNames ks) (allNames ks) 0 ⟨[], []⟩ with
    | none => rw [hg] at h; cases h
    | some gs =>
      rw [hg] at h
      simp only [] at h
      obtain ⟨hnd, hgr⟩ := groups_spec (I := fun _ => True) (P := fun _ _ => True)
        (fun _ _ _ _ _ _ _ _ _ _ _ => ⟨trivial, fun _ => trivial⟩) hg trivial
      have hty : ∀ x ∈ gs.flatten, (get c.types x).isSome := by
        intro x hx
        obtain ⟨g, hg1, hg2⟩ := List.mem_flatten.1 hx
        exact (hgr g hg1).1.types x hg2
      have hfr : ∀ j, k ≤ j → mergedName j ∉ gs.flatten := by
        intro j hj hx
        have := hty _ hx
        rw [get_none.2 (hf.types j hj)] at this
        cases this
      obtain ⟨i1, i2, i3⟩ := mergeGroups_spec (join := join) (types0 := c.types) (gs := gs) (k := k) (types := c.types) (l := [])
        (fun g hg' => (hgr g hg').1.two) hty hnd hfr (fun _ _ => rfl)
      split at h
      · cases h
      · next hne =>
        simp only [Option.some.injEq, Prod.mk.injEq] at h
        obtain ⟨rfl, rfl⟩ := h
        have hkeys : ∀ x, x ∈ (mergeGroups join gs k c.types []).2.2.map (·.1) ↔ x ∈ gs.flatten := by
          intro x
          rw [get_keys, i3]
          cases ha : assign k gs x with
          | none =>
            rw [Option.or]
            simp [assign_none.1 ha]
            rfl
          | some y =>
            obtain ⟨_, _, _, _, g, hg1, hg2⟩ := assign_some ha
            simp only [Option.or, Option.isSome_some, true_iff]
            exact List.mem_flatten.2 ⟨g, hg1, hg2⟩
        have hgs : 0 < gs.length := by
          cases gs with
          | nil => exact absurd rfl hne
          | cons _ _ => exact Nat.succ_pos _
        have hlen := hnd.length_le_of_subset (fun x hx => (hkeys x).2 hx)
        have h2 := flatten_length (fun g hg' => (hgr g hg').1.two)
        obtain ⟨j1, j2⟩ := removeTypes_length
          (ks := (mergeGroups join gs k c.types []).2.2.map (·.1))
          (c := { c with
            types := (mergeGroups join gs k c.types []).2.1.map (fun p => (p.1, renameType (mergeGroups join gs k c.types []).2.2 p.2))
            unions := c.unions.map (fun p => (p.1, renameUnion (mergeGroups join gs k c.types []).2.2 p.2)) })
          (mergeGroups_keys (l := []) List.Pairwise.nil) (by
            intro x hx
            have hx' := (hkeys x).1 hx
            have : (get (mergeGroups join gs k c.types []).2.1 x).isSome := by
              rw [i2]
              obtain ⟨t, ht⟩ := Option.isSome_iff_exists.1 (hty x hx')
              rw [ht]
              cases made join c.types k gs x <;> rfl
            obtain ⟨t, ht⟩ := Option.isSome_iff_exists.1 this
            show x ∈ ((mergeGroups join gs k c.types []).2.1.map (fun p => (p.1, renameType (mergeGroups join gs k c.types []).2.2 p.2))).map (·.1)
            rw [List.map_map]
            exact List.mem_map.2 ⟨(x, t), at_mem (get_some.1 ht), rfl⟩)
        have hl := mergeGroups_length (join := join) (gs := gs) (k := k) (types := c.types) (l := [])
        simp only [List.length_map] at j1 j2 hlen
        refine ⟨?_, ?_, ?_⟩
        · rw [replaceAll]
          omega
        · rw [replaceAll]
          exact j2
        · rw [replaceAll, (removeTypes_get _ _ []).2.2.1]

theorem depth_mono {c c' : Cfg} (h1 : c'.types.length ≤ c.types.length) (h2 : c'.unions.length ≤ c.unions.length)
    (h3 : c'.enums = c.enums) : depth c' ≤ depth c := by
  have := Nat.mul_le_mul h1 h1
  rw [depth, depth, h3]
  omega

/-- The rounds end. -/
theorem merger_finishes {pre : Text → Bool} {join : Text → Text → Text} {given : Nat → Nat → Bool} :
    ∀ {rounds fuel k : Nat} {c : Cfg}, Wf pre c → FreshFrom k c → depth c ≤ fuel → c.types.length < rounds →
    ∃ c', merger pre join given fuel rounds k c = some c'
  | 0, _, _, _, _, _, _, h => absurd h (Nat.not_lt_zero _)
  | rounds + 1, fuel, k, c, hw, hf, hd, hr => by
    obtain ⟨o, ho⟩ := round_finishes (join := join) (given := given) (k := k) hw hd
    rw [merger, ho]
    cases o with
    | none => exact ⟨c, rfl⟩
    | some q =>
      obtain ⟨k', c'⟩ := q
      obtain ⟨_, _, _, _, r⟩ := round_spec (I := fun _ => True) (P := fun _ _ => True)
        (fun _ _ _ _ _ _ _ _ _ _ _ _ _ => ⟨trivial, fun _ => trivial⟩) trivial hw hf ho
      obtain ⟨s1, s2, s3⟩ := round_smaller hf ho
      exact merger_finishes (r.wf_next hw hf) (r.fresh_next hw hf)
        (Nat.le_trans (depth_mono (Nat.le_of_lt s1) s2 s3) hd) (by omega)

end Verif.Refine
