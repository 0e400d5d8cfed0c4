import Verif.Refine.Groups

/-!
# One round of merging, and all of them
-/

namespace Verif.Refine

open Verif.Mustache (Text)
open Verif.Exec (Ty)
open Verif.Transform

set_option linter.unusedSimpArgs false

/-- What is known of a round that merges something. -/
structure Round (P : Text → Text → Prop) (join : Text → Text → Text) (ks : Kinds) (k : Nat) (c : Cfg) (k' : Nat) (c' : Cfg)
    (gs : List (List Text)) (l : List (Text × Text)) : Prop where
  group : ∀ g ∈ gs, Group c ks P g
  nodup : gs.flatten.Nodup
  some : gs ≠ []
  next : k' = k + gs.length
  names : ∀ x, get l x = assign k gs x
  types : ∀ y, get c'.types y = if y ∈ gs.flatten then none else ((made join c.types k gs y).or (get c.types y)).map (mapType (newName l))
  unions : ∀ y, get c'.unions y = (get c.unions y).map (renameUnion l)
  enums : c'.enums = c.enums
  query : c'.query = c.query
  mutation : c'.mutation = c.mutation
  subscription : c'.subscription = c.subscription

theorem get_keys {l : List (Text × Text)} {x : Text} : x ∈ l.map (·.1) ↔ (get l x).isSome := by
  constructor
  · intro h
    cases hg : get l x with
    | none => exact absurd h (get_none.1 hg)
    | some _ => rfl
  · intro h
    refine Classical.byContradiction (fun hn => ?_)
    rw [get_none.2 hn] at h; cases h

theorem at_isSome {α : Type} {m : List (Text × α)} {k : Text} : (get m k).isSome ↔ ¬ Lacks m k := by
  rw [← get_none]
  cases get m k <;> simp

theorem round_spec {pre : Text → Bool} {join : Text → Text → Text} {given : Nat → Nat → Bool} {fuel k k' : Nat} {c c' : Cfg}
    {I : List ((Text × Text) × Bool) → Prop} {P : Text → Text → Prop}
    (hok : ∀ ks, kindsOf pre c fuel = some ks → SimOk pre c ks given fuel I P) (hI : I [])
    (hw : Wf pre c) (hf : FreshFrom k c) (h : round pre join given fuel k c = some (some (k', c'))) :
    ∃ ks gs l, kindsOf pre c fuel = some ks ∧ Round P join ks k c k' c' gs l := by
  rw [round] at h
  cases hk : kindsOf pre c fuel with
  | none => rw [hk] at h; cases h
  | some ks =>
    rw [hk] at h
    simp only [] at h
    cases hg : groups pre c ks given fuel (allNames ks) (allNames ks) 0 ⟨[], []⟩ with
    | none => rw [hg] at h; cases h
    | some gs =>
      rw [hg] at h
      simp only [] at h
      obtain ⟨hnd, hgr⟩ := groups_spec (hok ks hk) hg hI
      have hty : ∀ x ∈ gs.flatten, (get c.types x).isSome := by
        intro x hx
        obtain ⟨g, hg1, hg2⟩ := List.mem_flatten.1 hx
        exact (hgr g hg1).1.types x hg2
      have hfr : ∀ j, k ≤ j → mergedName j ∉ gs.flatten := by
        intro j hj hx
        have := hty _ hx
        rw [get_none.2 (hf.types j hj)] at this
        cases this
      obtain ⟨i1, i2, i3⟩ := mergeGroups_spec (join := join) (types0 := c.types) (gs := gs) (k := k) (types := c.types) (l := [])
        (fun g hg' => (hgr g hg').1.two) hty hnd hfr (fun _ _ => rfl)
      split at h
      · cases h
      · next hne =>
        simp only [Option.some.injEq, Prod.mk.injEq] at h
        obtain ⟨rfl, rfl⟩ := h
        have hnames : ∀ x, get (mergeGroups join gs k c.types []).2.2 x = assign k gs x := by
          intro x
          rw [i3 x]
          cases assign k gs x <;> rfl
        have hkeys : ∀ x, x ∈ (mergeGroups join gs k c.types []).2.2.map (·.1) ↔ x ∈ gs.flatten := by
          intro x
          rw [get_keys, hnames]
          cases ha : assign k gs x with
          | none => simp [assign_none.1 ha]
          | some y =>
            obtain ⟨_, _, _, _, g, hg1, hg2⟩ := assign_some ha
            simp only [Option.isSome_some, true_iff]
            exact List.mem_flatten.2 ⟨g, hg1, hg2⟩
        refine ⟨ks, gs, (mergeGroups join gs k c.types []).2.2, rfl, fun g hg' => (hgr g hg').1, hnd, ?_, i1, hnames, ?_, ?_, ?_, ?_, ?_, ?_⟩
        · rintro rfl
          exact hne rfl
        · intro y
          rw [replaceAll, (removeTypes_get _ _ y).1]
          simp only []
          rw [get_map, i2 y]
          by_cases hy : y ∈ gs.flatten
          · rw [if_pos ((hkeys y).2 hy), if_pos hy]
          · rw [if_neg (fun h' => hy ((hkeys y).1 h')), if_neg hy]
            exact congrArg (fun f => Option.map f _) (funext (fun t => renameType_eq _ t))
        · intro y
          rw [replaceAll, (removeTypes_get _ _ y).2.1]
          simp only []
          rw [get_map]
          split
          · next hy =>
            have := hty y ((hkeys y).1 hy)
            obtain ⟨t, ht⟩ := Option.isSome_iff_exists.1 this
            cases hu : get c.unions y with
            | none => rfl
            | some u => exact (hw.apart y t u (get_some.1 ht) (get_some.1 hu)).elim
          · rfl
        · rw [replaceAll, (removeTypes_get _ _ []).2.2.1]
        · rw [replaceAll, (removeTypes_get _ _ []).2.2.2.1]
        · rw [replaceAll, (removeTypes_get _ _ []).2.2.2.2.1]
        · rw [replaceAll, (removeTypes_get _ _ []).2.2.2.2.2]

namespace Round

variable {P : Text → Text → Prop} {join : Text → Text → Text} {ks : Kinds} {k : Nat} {c : Cfg} {k' : Nat} {c' : Cfg}
  {gs : List (List Text)} {l : List (Text × Text)}

theorem isType (r : Round P join ks k c k' c' gs l) {x : Text} (hx : x ∈ gs.flatten) : (get c.types x).isSome := by
  obtain ⟨g, hg1, hg2⟩ := List.mem_flatten.1 hx
  exact (r.group g hg1).types x hg2

theorem fresh (r : Round P join ks k c k' c' gs l) (hf : FreshFrom k c) {j : Nat} (hj : k ≤ j) : mergedName j ∉ gs.flatten := by
  intro hx
  have := r.isType hx
  rw [get_none.2 (hf.types j hj)] at this
  cases this

/-- Where a name goes. -/
theorem sigma (r : Round P join ks k c k' c' gs l) (x : Text) : (x ∉ gs.flatten ∧ newName l x = x) ∨
    (x ∈ gs.flatten ∧ assign k gs x = Option.some (newName l x) ∧ ∃ j, k ≤ j ∧ j < k' ∧ newName l x = mergedName j) := by
  cases ha : assign k gs x with
  | none =>
    refine .inl ⟨assign_none.1 ha, ?_⟩
    rw [newName, r.names, ha]; rfl
  | some y =>
    obtain ⟨j, h1, h2, h3, g, hg1, hg2⟩ := assign_some ha
    have : newName l x = y := by rw [newName, r.names, ha]; rfl
    rw [this]
    exact .inr ⟨List.mem_flatten.2 ⟨g, hg1, hg2⟩, rfl, j, h1, by rw [r.next]; exact h2, h3⟩

theorem sigma_fix (r : Round P join ks k c k' c' gs l) {x : Text} (h : x ∉ gs.flatten) : newName l x = x := by
  rcases r.sigma x with ⟨_, h'⟩ | ⟨h', _⟩
  · exact h'
  · exact absurd h' h

theorem sigma_twice (r : Round P join ks k c k' c' gs l) (hf : FreshFrom k c) (x : Text) :
    newName l (newName l x) = newName l x := by
  rcases r.sigma x with ⟨_, h'⟩ | ⟨_, _, j, hj, _, h'⟩
  · rw [h', h']
  · rw [h']
    exact r.sigma_fix (r.fresh hf hj)

/-- What there is in the new configuration: the merged types and those that were left. -/
theorem cases (r : Round P join ks k c k' c' gs l) {y : Text} {t' : TypeD} (h : get c'.types y = Option.some t') :
    (∃ g ∈ gs, t' = mapType (newName l) (mergeAll join (found c.types g) emptyType) ∧ (∀ x, x ∈ g ↔ assign k gs x = Option.some y) ∧
      ∃ j, k ≤ j ∧ j < k' ∧ y = mergedName j) ∨
    (y ∉ gs.flatten ∧ ∃ t, get c.types y = Option.some t ∧ t' = mapType (newName l) t) := by
  rw [r.types y] at h
  split at h
  · cases h
  · next hy =>
    obtain ⟨t, ht, e⟩ := Option.map_eq_some_iff.1 h
    cases hm : made join c.types k gs y with
    | none =>
      rw [hm] at ht
      exact .inr ⟨hy, t, ht, e.symm⟩
    | some t0 =>
      rw [hm] at ht
      cases ht
      obtain ⟨⟨j, h1, h2, h3⟩, g, hg, e2, hx⟩ := made_some r.nodup hm
      exact .inl ⟨g, hg, by rw [← e, e2], fun x => (hx x).symm, j, h1, by rw [r.next]; exact h2, h3⟩

theorem get_made (r : Round P join ks k c k' c' gs l) (hf : FreshFrom k c) {x : Text} (h : x ∈ gs.flatten) :
    ∃ g ∈ gs, x ∈ g ∧ (∀ z, z ∈ g ↔ assign k gs z = Option.some (newName l x)) ∧
      get c'.types (newName l x) = Option.some (mapType (newName l) (mergeAll join (found c.types g) emptyType)) := by
  rcases r.sigma x with ⟨h', _⟩ | ⟨_, ha, j, hj, _, e⟩
  · exact absurd h h'
  · obtain ⟨t, ht⟩ := made_of_assign (join := join) (types0 := c.types) ha
    obtain ⟨_, g, hg, e2, hx⟩ := made_some r.nodup ht
    refine ⟨g, hg, (hx x).1 ha, fun z => (hx z).symm, ?_⟩
    rw [r.types, if_neg (by rw [e]; exact r.fresh hf hj), ht, e2]
    rfl

theorem get_left (r : Round P join ks k c k' c' gs l) (hf : FreshFrom k c) {x : Text} {t : TypeD} (h : x ∉ gs.flatten)
    (ht : get c.types x = Option.some t) : get c'.types x = Option.some (mapType (newName l) t) := by
  rw [r.types, if_neg h, ht]
  cases hm : made join c.types k gs x with
  | none => rfl
  | some t0 =>
    obtain ⟨⟨j, h1, _, h3⟩, _⟩ := made_some r.nodup hm
    rw [h3, get_none.2 (hf.types j h1)] at ht
    cases ht

theorem found_sorted {pre : Text → Bool} (hw : Wf pre c) (g : List Text) : ∀ p ∈ found c.types g, Verif.Merge.Sorted p.2.fields := by
  intro p hp
  exact hw.fields p.1 p.2 (get_some.1 (found_mem.1 hp).2)

/-- One round is a merging. -/
theorem merged {pre : Text → Bool} (r : Round P join ks k c k' c' gs l) (hw : Wf pre c) (hf : FreshFrom k c) :
    Merged (newName l) c c' where
  kept := by
    intro n t ht
    by_cases hn : n ∈ gs.flatten
    · obtain ⟨g, hg, hng, _, hg'⟩ := r.get_made hf hn
      refine ⟨_, get_some.1 hg', fun f fd hfd => ?_⟩
      have := mergeAll_kept (join := join) (into := emptyType) (found_sorted hw g) f
        (.inr ⟨(n, t), found_mem.2 ⟨hng, get_some.2 ht⟩, by rw [get_some.2 hfd]; rfl⟩)
      obtain ⟨fd', hfd'⟩ := Option.isSome_iff_exists.1 this
      exact ⟨_, (at_mapFields _ _ _ _).2 ⟨fd', get_some.1 hfd', rfl⟩⟩
    · rw [r.sigma_fix hn]
      refine ⟨_, get_some.1 (r.get_left hf hn (get_some.2 ht)), fun f fd hfd => ?_⟩
      exact ⟨_, (at_mapFields _ _ _ _).2 ⟨fd, hfd, rfl⟩⟩
  froms := by
    intro n' t' f fd' ht' hfd'
    rcases r.cases (get_some.2 ht') with ⟨g, hg, rfl, hx, _⟩ | ⟨hn, t, ht, rfl⟩
    · obtain ⟨fd, hfd, rfl⟩ := (at_mapFields _ _ _ _).1 hfd'
      rcases mergeAll_from (join := join) (found_sorted hw g) (get_some.2 hfd) with h | ⟨p, hp, fd0, hfd0, ha, hi, hty⟩
      · cases h
      · obtain ⟨hp1, hp2⟩ := found_mem.1 hp
        refine ⟨p.1, p.2, fd0, ?_, get_some.1 hp2, get_some.1 hfd0, hi, ?_, ?_⟩
        · rw [newName, r.names, (hx p.1).1 hp1]; rfl
        · rw [mapField, mapField, ha]
        · rcases hty with e | e
          · left; rw [mapField, e]
          · right
            rw [mapField, e]
            show Ty.named (newName l json) false = _
            rw [r.sigma_fix (fun h => by
              have := r.isType h
              rw [get_none.2 hw.json.2] at this
              cases this)]
    · obtain ⟨fd, hfd, rfl⟩ := (at_mapFields _ _ _ _).1 hfd'
      exact ⟨n', t, fd, r.sigma_fix hn, get_some.1 ht, hfd, rfl, rfl, .inl rfl⟩
  types := by
    intro n' t' ht'
    rcases r.cases (get_some.2 ht') with ⟨g, hg, _, hx, _⟩ | ⟨hn, t, ht, _⟩
    · obtain ⟨a, _, e, _⟩ := (r.group g hg).first
      have ha : a ∈ g := by rw [e]; exact List.mem_cons_self
      obtain ⟨t, ht⟩ := Option.isSome_iff_exists.1 ((r.group g hg).types a ha)
      refine ⟨a, t, ?_, get_some.1 ht⟩
      rw [newName, r.names, (hx a).1 ha]; rfl
    · exact ⟨n', t, r.sigma_fix hn, get_some.1 ht⟩
  alone := by
    intro n t ht h
    have hn : n ∉ gs.flatten := by
      intro hn
      obtain ⟨g, hg, hng, hx, _⟩ := r.get_made hf hn
      have hgr := r.group g hg
      have hall : ∀ z ∈ g, z = n := by
        intro z hz
        obtain ⟨s, hs⟩ := Option.isSome_iff_exists.1 (hgr.types z hz)
        refine h z s (get_some.1 hs) ?_
        rw [newName, r.names, (hx z).1 hz]; rfl
      have h2 := hgr.two
      have hnd := hgr.nodup
      match g, h2, hnd, hall with
      | a :: b :: r, _, hnd, hall =>
        rw [List.nodup_cons] at hnd
        apply hnd.1
        rw [hall a List.mem_cons_self, ← hall b (List.mem_cons_of_mem _ List.mem_cons_self)]
        exact List.mem_cons_self
    exact ⟨r.sigma_fix hn, get_some.1 (r.get_left hf hn (get_some.2 ht))⟩
  unions := by
    intro n u hu
    have : get c'.unions n = Option.some (renameUnion l u) := by rw [r.unions, get_some.2 hu]; rfl
    refine ⟨_, get_some.1 this, rfl, fun y => ?_⟩
    rw [renameUnion]
    simp only [List.mem_map, List.mem_append, List.mem_filter]
    constructor
    · rintro ⟨x, hx | ⟨z, ⟨hz, _⟩, rfl⟩, rfl⟩
      · exact ⟨x, hx.1, rfl⟩
      · exact ⟨z, hz, (r.sigma_twice hf z).symm⟩
    · rintro ⟨x, hx, rfl⟩
      by_cases ho : (get l x).isSome = true
      · exact ⟨newName l x, .inr ⟨x, ⟨hx, ho⟩, rfl⟩, r.sigma_twice hf x⟩
      · refine ⟨x, .inl ⟨hx, ?_⟩, rfl⟩
        rw [Bool.not_eq_true', ← Bool.not_eq_true, List.contains_iff_mem, List.mem_filter]
        exact fun h => ho h.2
  unions' := by
    intro n u' hu'
    have := get_some.2 hu'
    rw [r.unions] at this
    obtain ⟨u, hu, _⟩ := Option.map_eq_some_iff.1 this
    exact ⟨u, get_some.1 hu⟩
  impls := by
    intro n' t' ht' i'
    rcases r.cases (get_some.2 ht') with ⟨g, hg, rfl, hx, _⟩ | ⟨hn, t, ht, rfl⟩
    · rw [mapType]
      simp only [List.mem_map]
      constructor
      · rintro ⟨i, hi, rfl⟩
        rcases mergeAll_impls.1 hi with hi | ⟨p, hp, hi⟩
        · cases hi
        · obtain ⟨hp1, hp2⟩ := found_mem.1 hp
          refine ⟨p.1, p.2, i, ?_, get_some.1 hp2, hi, rfl⟩
          rw [newName, r.names, (hx p.1).1 hp1]; rfl
      · rintro ⟨n, t, i, e, ht, hi, rfl⟩
        refine ⟨i, mergeAll_impls.2 (.inr ⟨(n, t), found_mem.2 ⟨(hx n).2 ?_, get_some.2 ht⟩, hi⟩), rfl⟩
        rcases r.sigma n with ⟨hn, h'⟩ | ⟨_, ha, _⟩
        · -- the made name is not the name of a type
          obtain ⟨a, _, ea, _⟩ := (r.group g hg).first
          have ha : a ∈ g := by rw [ea]; exact List.mem_cons_self
          obtain ⟨j, hj, _, ej, _⟩ := assign_some ((hx a).1 ha)
          rw [← e, h'] at ej
          rw [ej, ← get_some, get_none.2 (hf.types j hj)] at ht
          cases ht
        · rw [← e]; exact ha
    · rw [mapType]
      simp only [List.mem_map]
      constructor
      · rintro ⟨i, hi, rfl⟩
        exact ⟨n', t, i, r.sigma_fix hn, get_some.1 ht, hi, rfl⟩
      · rintro ⟨n, t2, i, e, ht2, hi, rfl⟩
        rcases r.sigma n with ⟨_, h'⟩ | ⟨_, _, j, hj, _, h'⟩
        · rw [h'] at e
          subst e
          rw [at_unique ht2 (get_some.1 ht)] at hi
          exact ⟨i, hi, rfl⟩
        · rw [← e, h', get_none.2 (hf.types j hj)] at ht
          cases ht
  others := by
    intro n hn _
    apply r.sigma_fix
    intro h
    have := r.isType h
    rw [get_none.2 hn] at this
    cases this
  enums := r.enums
  query := r.query
  mutation := r.mutation
  subscription := r.subscription

theorem json_fix {pre : Text → Bool} (r : Round P join ks k c k' c' gs l) (hw : Wf pre c) : newName l json = json := by
  apply r.sigma_fix
  intro h
  have := r.isType h
  rw [get_none.2 hw.json.2] at this
  cases this

theorem json_ne (j : Nat) : json ≠ mergedName j := by
  intro h
  have := congrArg List.head? h
  exact absurd this (by
    show json.head? ≠ Option.some 'G'
    decide)

/-- The next names are fresh again. -/
theorem fresh_next {pre : Text → Bool} (r : Round P join ks k c k' c' gs l) (hw : Wf pre c) (hf : FreshFrom k c) :
    FreshFrom k' c' := by
  have hm := r.merged hw hf
  have hk : k ≤ k' := by rw [r.next]; omega
  have hs : ∀ x, (∀ j, k ≤ j → x ≠ mergedName j) → ∀ j, k' ≤ j → newName l x ≠ mergedName j := by
    intro x hx j hj e
    rcases r.sigma x with ⟨_, h'⟩ | ⟨_, _, i, hi, hi', h'⟩
    · rw [h'] at e
      exact hx j (by omega) e
    · rw [h'] at e
      have := mergedName_inj e
      omega
  refine ⟨fun j hj => ?_, fun j hj => ?_, fun j hj n u' hu' => ?_, fun j hj n' t' f fd' ht' hfd' => ?_,
    fun j hj n' t' f fd' a ht' hfd' ha => ?_, fun j hj n' t' ht' hi => ?_⟩
  · rw [← get_none]
    cases hg : get c'.types (mergedName j) with
    | none => rfl
    | some t' =>
      obtain ⟨n, t, e, ht⟩ := hm.types _ _ (get_some.1 hg)
      refine (hs n (fun i hi en => ?_) j hj e).elim
      rw [en, ← get_some, get_none.2 (hf.types i hi)] at ht
      cases ht
  · rw [← get_none, r.unions, get_none.2 (hf.unions j (by omega))]; rfl
  · obtain ⟨u, hu⟩ := hm.unions' n u' hu'
    obtain ⟨u2, hu2, _, hmem⟩ := hm.unions n u hu
    rw [at_unique hu' hu2, hmem]
    rintro ⟨x, hx, e⟩
    refine hs x (fun i hi en => ?_) j hj e
    exact hf.members i hi n u hu (en ▸ hx)
  · obtain ⟨n, t, fd, _, ht, hfd, _, _, hty⟩ := hm.froms n' t' f fd' ht' hfd'
    rcases hty with e | e
    · rw [e, mapTy_name]
      exact hs _ (fun i hi => hf.fields i hi n t f fd ht hfd) j hj
    · rw [e]
      exact json_ne j
  · obtain ⟨n, t, fd, _, ht, hfd, _, ea, _⟩ := hm.froms n' t' f fd' ht' hfd'
    rw [ea, mapField] at ha
    obtain ⟨b, hb, rfl⟩ := List.mem_map.1 ha
    simp only [mapTy_name]
    exact hs _ (fun i hi => hf.args i hi n t f fd b ht hfd hb) j hj
  · obtain ⟨n, t, i, _, ht, hi, e⟩ := (hm.impls n' t' ht' _).1 hi
    exact hs i (fun m hm' e' => hf.impls m hm' n t ht (e' ▸ hi)) j hj e

/-- A new configuration is as good as the old one. -/
theorem wf_next {pre : Text → Bool} (r : Round P join ks k c k' c' gs l) (hw : Wf pre c) (hf : FreshFrom k c) : Wf pre c' := by
  have hm := r.merged hw hf
  refine ⟨fun n' t' ht' => ?_, fun n t u ht hu => ?_, fun x u' m hu' hmem => ?_, hw.json.1, ?_⟩
  · rcases r.cases (get_some.2 ht') with ⟨g, hg, rfl, _⟩ | ⟨_, t, ht, rfl⟩
    · exact sorted_mapFields (mergeAll_sorted (by exact List.Pairwise.nil))
    · exact sorted_mapFields (hw.fields _ _ (get_some.1 ht))
  · obtain ⟨u0, hu0⟩ := hm.unions' n u hu
    rcases r.cases (get_some.2 ht) with ⟨g, hg, _, _, j, hj, _, e⟩ | ⟨_, t0, ht0, _⟩
    · rw [e, ← get_some, get_none.2 (hf.unions j hj)] at hu0
      cases hu0
    · exact hw.apart n t0 u0 (get_some.1 ht0) hu0
  · obtain ⟨u, hu⟩ := hm.unions' x u' hu'
    obtain ⟨u2, hu2, _, hmem2⟩ := hm.unions x u hu
    rw [at_unique hu' hu2, hmem2] at hmem
    obtain ⟨z, hz, e⟩ := hmem
    rw [← get_none, r.unions]
    rcases r.sigma z with ⟨_, h'⟩ | ⟨_, _, i, hi, _, h'⟩
    · rw [← e, h', get_none.2 (hw.flat x u z hu hz)]; rfl
    · rw [← e, h', get_none.2 (hf.unions i hi)]; rfl
  · rw [← get_none]
    cases hg : get c'.types json with
    | none => rfl
    | some t' =>
      rcases r.cases hg with ⟨g, hgm, _, _, j, _, _, e⟩ | ⟨_, t, ht, _⟩
      · exact (json_ne j e).elim
      · rw [get_none.2 hw.json.2] at ht
        cases ht

end Round

/-- Merging twice is merging. -/
theorem Merged.trans {pre : Text → Bool} {σ τ : Text → Text} {c c1 c2 : Cfg} (hw : Wf pre c1) (h1 : Merged σ c c1)
    (h2 : Merged τ c1 c2) (hn : ∀ y t, At c1.types y t → (∃ t0, At c.types y t0) ∨ ∃ j, 0 < j ∧ y = mergedName j) :
    Merged (τ ∘ σ) c c2 where
  kept := by
    intro n t ht
    obtain ⟨t1, ht1, hk1⟩ := h1.kept n t ht
    obtain ⟨t2, ht2, hk2⟩ := h2.kept _ t1 ht1
    refine ⟨t2, ht2, fun f fd hfd => ?_⟩
    obtain ⟨fd1, hfd1⟩ := hk1 f fd hfd
    exact hk2 f fd1 hfd1
  froms := by
    intro n2 t2 f fd2 ht2 hfd2
    obtain ⟨n1, t1, fd1, e1, ht1, hfd1, i1, a1, y1⟩ := h2.froms n2 t2 f fd2 ht2 hfd2
    obtain ⟨n, t, fd, e0, ht, hfd, i0, a0, y0⟩ := h1.froms n1 t1 f fd1 ht1 hfd1
    refine ⟨n, t, fd, by rw [Function.comp, e0, e1], ht, hfd, i1.trans i0, ?_, ?_⟩
    · rw [a1, ← mapField_comp]
      simp only [mapField] at a0 ⊢
      rw [a0]
    · rcases y1 with y1 | y1
      · rcases y0 with y0 | y0
        · left; rw [y1, y0, mapTy_comp]
        · right
          rw [y1, y0]
          show Ty.named (τ json) false = _
          rw [h2.others json hw.json.2 (fun j _ => Round.json_ne j)]
      · exact .inr y1
  types := by
    intro n2 t2 ht2
    obtain ⟨n1, t1, e1, ht1⟩ := h2.types n2 t2 ht2
    obtain ⟨n, t, e, ht⟩ := h1.types n1 t1 ht1
    exact ⟨n, t, by rw [Function.comp, e, e1], ht⟩
  alone := by
    intro n t ht h
    obtain ⟨e1, ht1⟩ := h1.alone n t ht (fun m s hm e => h m s hm (by rw [Function.comp, e]; rfl))
    obtain ⟨e2, ht2⟩ := h2.alone n _ ht1 (fun m1 s1 hm1 e => by
      obtain ⟨m, s, em, hm⟩ := h1.types m1 s1 hm1
      have := h m s hm (by rw [Function.comp, em, e, Function.comp, e1])
      rw [← em, this, e1])
    refine ⟨by rw [Function.comp, e1, e2], ?_⟩
    rw [← mapType_comp]
    exact ht2
  unions := by
    intro n u hu
    obtain ⟨u1, hu1, i1, m1⟩ := h1.unions n u hu
    obtain ⟨u2, hu2, i2, m2⟩ := h2.unions n u1 hu1
    refine ⟨u2, hu2, i2.trans i1, fun y => ?_⟩
    rw [m2]
    constructor
    · rintro ⟨x, hx, e⟩
      obtain ⟨z, hz, e'⟩ := (m1 x).1 hx
      exact ⟨z, hz, by rw [Function.comp, e', e]⟩
    · rintro ⟨z, hz, e⟩
      exact ⟨σ z, (m1 _).2 ⟨z, hz, rfl⟩, e⟩
  unions' := by
    intro n u2 hu2
    obtain ⟨u1, hu1⟩ := h2.unions' n u2 hu2
    exact h1.unions' n u1 hu1
  impls := by
    intro n2 t2 ht2 i2
    rw [h2.impls n2 t2 ht2 i2]
    constructor
    · rintro ⟨n1, t1, i1, e1, ht1, hi1, f1⟩
      obtain ⟨n, t, i, e, ht, hi, f⟩ := (h1.impls n1 t1 ht1 i1).1 hi1
      exact ⟨n, t, i, by rw [Function.comp, e, e1], ht, hi, by rw [Function.comp, f, f1]⟩
    · rintro ⟨n, t, i, e, ht, hi, f⟩
      obtain ⟨t1, ht1, _⟩ := h1.kept n t ht
      exact ⟨σ n, t1, σ i, e, ht1, (h1.impls _ t1 ht1 _).2 ⟨n, t, i, rfl, ht, hi, rfl⟩, f⟩
  others := by
    intro n hl hj
    have e := h1.others n hl hj
    rw [Function.comp, e]
    refine h2.others n ?_ hj
    rw [← get_none]
    cases hg : get c1.types n with
    | none => rfl
    | some t =>
      rcases hn n t (get_some.1 hg) with ⟨t0, ht0⟩ | ⟨j, h0, ej⟩
      · rw [← get_some, get_none.2 hl] at ht0; cases ht0
      · exact (hj j h0 ej).elim
  enums := h2.enums.trans h1.enums
  query := h2.query.trans h1.query
  mutation := h2.mutation.trans h1.mutation
  subscription := h2.subscription.trans h1.subscription

theorem Merged.refl (c : Cfg) : Merged id c c := by
  have hid : ∀ t : Ty, mapTy id t = t := fun t => mapTy_id t id rfl
  have hf : ∀ f : FieldD, mapField id f = f := by
    intro f
    simp only [mapField, hid]
    have : f.args.map (fun a => (a.1, ({ a.2 with ty := a.2.ty } : ArgD))) = f.args := List.map_id f.args
    rw [this]
  have ht : ∀ t : TypeD, mapType id t = t := by
    intro t
    simp only [mapType, hf]
    have h1 : t.fields.map (fun p => (p.1, p.2)) = t.fields := List.map_id t.fields
    have h2 : t.implements.map id = t.implements := List.map_id _
    rw [h1, h2]
  refine ⟨fun n t h => ⟨t, h, fun f fd hfd => ⟨fd, hfd⟩⟩, fun n t f fd h1 h2 => ⟨n, t, fd, rfl, h1, h2, rfl, by rw [hf], .inl (hid _).symm⟩,
    fun n t h => ⟨n, t, rfl, h⟩, fun n t h _ => ⟨rfl, by rw [ht]; exact h⟩, fun n u h => ⟨u, h, rfl, fun y => ?_⟩, fun n u h => ⟨u, h⟩,
    fun n t h i => ⟨fun hi => ⟨n, t, i, rfl, h, hi, rfl⟩, fun ⟨m, s, j, e, hs, hj, ej⟩ => ?_⟩, fun _ _ _ => rfl, rfl, rfl, rfl, rfl⟩
  · exact ⟨fun h => ⟨y, h, rfl⟩, fun ⟨x, h, e⟩ => by cases e; exact h⟩
  · cases e; cases ej
    rw [at_unique h hs]; exact hj

end Verif.Refine
