import Verif.UnionIn.Walk

/-!
# Lemmas on the values that are accepted
-/

namespace Verif.UnionIn

open Verif.Mustache (Text)
open Verif.Exec (Ty)
open Verif.Merge (get tlt)

set_option linter.unusedSimpArgs false

/-! ## The fields of the outcome -/

theorem outs_mem {R} {fs o : List (Text × Field)} (h : Outs R fs o) {x} (hx : x ∈ o) :
    ∃ k f p, (k, f) ∈ fs ∧ R p f ∧ x ∈ mapArgs p k f := by
  induction h with
  | nil => cases hx
  | @cons p name f fs o hr _ ih =>
    rcases List.mem_append.1 hx with hx | hx
    · exact ⟨name, f, p, List.mem_cons_self, hr, hx⟩
    · obtain ⟨k, f', p', hm, h⟩ := ih hx
      exact ⟨k, f', p', List.mem_cons_of_mem _ hm, h⟩

theorem outs_of {R} {fs o : List (Text × Field)} (h : Outs R fs o) {k f} (hx : (k, f) ∈ fs) :
    ∃ p, R p f ∧ ∀ x ∈ mapArgs p k f, x ∈ o := by
  induction h with
  | nil => cases hx
  | @cons p name f' fs o hr _ ih =>
    rcases List.mem_cons.1 hx with hx | hx
    · cases hx; exact ⟨p, hr, fun x hx => List.mem_append_left _ hx⟩
    · obtain ⟨p', hr', h⟩ := ih hx
      exact ⟨p', hr', fun x hx => List.mem_append_right _ (h x hx)⟩

theorem outs_nodup {R} {fs o : List (Text × Field)} (h : Outs R fs o) (hn : (fs.map (·.1)).Nodup)
    (ha : ∀ k ∈ fs.map (·.1), ∀ j ∈ fs.map (·.1), ∀ s, k ≠ j ++ 'V' :: 'a' :: 'r' :: s) : (o.map (·.1)).Nodup := by
  induction h with
  | nil => simp
  | @cons p name f fs o hr ho ih =>
    rw [List.map_cons, List.nodup_cons] at hn
    rw [List.map_append, List.nodup_append]
    refine ⟨walk_nodup, ih hn.2 (fun k hk j hj => ha k (List.mem_cons_of_mem _ hk) j (List.mem_cons_of_mem _ hj)), ?_⟩
    intro a ha' b hb hab
    obtain ⟨x, hx, rfl⟩ := List.mem_map.1 ha'
    obtain ⟨y, hy, rfl⟩ := List.mem_map.1 hb
    obtain ⟨k, f', p', hm, _, hy⟩ := outs_mem ho hy
    obtain ⟨s, hs, hxs⟩ := walk_name hx
    obtain ⟨r, hr', hyr⟩ := walk_name hy
    have hk : k ∈ fs.map (·.1) := List.mem_map_of_mem (f := (·.1)) hm
    have := apart_split hs hr' (ha name (by simp) k (List.mem_cons_of_mem _ hk)) (ha k (List.mem_cons_of_mem _ hk) name (by simp))
      (by rw [← hxs, hab, hyr])
    exact hn.1 (this ▸ hk)

theorem outs_plain {R} {fs o : List (Text × Field)} (h : Outs R fs o) (ha : ∀ k f, (k, f) ∈ fs → f.args = []) : o = fs := by
  induction h with
  | nil => rfl
  | @cons p name f fs o hr _ ih =>
    rw [ih fun k f hm => ha k f (List.mem_cons_of_mem _ hm)]
    have : mapArgs p name f = [(name, f)] :=
      walk_plain fun a t hm => by rw [ha name f List.mem_cons_self] at hm; cases hm
    rw [this]; rfl

/-! ## Types that stay -/

/-- What is asked of a configuration whose types get copies. -/
structure Wf (c : Config) : Prop where
  maps : Maps c
  names : Names c
  apart : ∀ n t, (n, t) ∈ c.types → Apart t
  inhabited : Inhabited c

theorem field_lookup {c : Config} (hW : Wf c) {made n t o} (hn : (n, t) ∈ c.types) (h : Outs (Noted c made) t.fields o)
    {k f} : get k o.reverse = some f ↔ (k, f) ∈ o := by
  have hnd := outs_nodup h (hW.maps.fields n t hn) (hW.apart n t hn)
  rw [get_reverse hnd]
  exact ⟨mem_of_get, get_of_mem hnd⟩

theorem mapArgs_ne {c : Config} (hW : Wf c) {made p k f} (hn : (f.args.map (·.1)).Nodup) (h : Noted c made p f) :
    ∃ x, x ∈ mapArgs p k f ∧ x.2.args.length = f.args.length := by
  have hg : ChoiceA p f.args (fun a => (get a f.args).bind fun t => (unionOf p t.name).bind fun us =>
      us.head?.map fun u => withName u t) := by
    refine ⟨fun a t us ha hu => ?_, fun a ha => ?_⟩
    · have hne := (h a t us ha hu).ne_nil hW.inhabited hW.maps
      simp only [get_of_mem hn ha, Option.bind_some, hu]
      cases us with
      | nil => exact absurd rfl hne
      | cons u r => exact ⟨u, List.mem_cons_self, rfl⟩
    · cases hg : get a f.args with
      | none => rfl
      | some t =>
        cases hu : unionOf p t.name with
        | none => simp only [Option.bind_some, hu, Option.bind_none]
        | some us => exact (ha t us (mem_of_get hg) hu).elim
  obtain ⟨s, _, hm⟩ := walk_intro (name := k) (f := f) hn hg
  exact ⟨_, hm, by simp [substA]⟩

theorem fits_nn {c : Config} {n nn nn' v} (h : Fits c (.named n nn) v) (hv : v ≠ .null) : Fits c (.named n nn') v := by
  cases h with
  | null => exact absurd rfl hv
  | scalar h1 h2 => exact .scalar h1 h2
  | member h1 h2 h3 h4 => exact .member h1 h2 h3 h4
  | obj h1 h2 h3 h4 h5 => exact .obj h1 h2 h3 h4 h5

theorem keep_fwd {c c' : Config} (hW : Wf c) (hD : Done c c'.types) (hU : c'.unions = c.unions) {ty v}
    (h : Fits c ty v) : Clean ty.name → Fits c' ty v := by
  induction h with
  | null h => exact fun _ => .null h
  | list _ ih => exact fun hc => .list fun v hv => ih v hv hc
  | scalar h1 h2 => exact fun hc => .scalar (hU ▸ h1) (hD.fresh _ hc h2)
  | @member n nn ms m v h1 h2 h3 _ ih =>
    exact fun hc => .member (hU ▸ h1) h2 h3 (ih ((hW.names.unions _ _ h1).2 m h2))
  | @obj n nn t o h1 h2 h3 _ h5 ih =>
    intro hc
    obtain ⟨out, hg, houts⟩ := hD.orig n t h2
    have hmem := mem_of_get h2
    have hfn := hW.maps.fields n t hmem
    have ho : out = t.fields := outs_plain houts fun k f hm => h3 k f (get_of_mem hfn hm)
    subst ho
    have hrev : ∀ k, get k t.fields.reverse = get k t.fields := fun k => get_reverse hfn
    refine .obj (hU ▸ h1) hg (fun k f hk => ?_) (fun k f hk => ?_) (fun x hx => ?_)
    · exact h3 k f ((hrev k).symm.trans hk)
    · have hk : get k t.fields = some f := (hrev k).symm.trans hk
      exact ih k f hk (hW.names.fields n t hmem k f (mem_of_get hk))
    · show (get x.1 t.fields.reverse).isSome = true
      rw [hrev]; exact h5 x hx

theorem keep_bwd {c c' : Config} (hW : Wf c) (hD : Done c c'.types) (hU : c'.unions = c.unions) {ty v}
    (h : Fits c' ty v) : Clean ty.name → Fits c ty v := by
  induction h with
  | null h => exact fun _ => .null h
  | list _ ih => exact fun hc => .list fun v hv => ih v hv hc
  | @scalar n nn s h1 h2 =>
    intro hc
    refine .scalar (hU ▸ h1) ?_
    cases hg : get n c.types with
    | none => rfl
    | some t =>
      obtain ⟨o, ho, _⟩ := hD.orig n t hg
      rw [h2] at ho; cases ho
  | @member n nn ms m v h1 h2 h3 _ ih =>
    intro hc
    have h1 : get n c.unions = some ms := hU ▸ h1
    exact .member h1 h2 h3 (ih ((hW.names.unions _ _ h1).2 m h2))
  | @obj n nn t' o h1 h2 h3 _ h5 ih =>
    intro hc
    cases hg : get n c.types with
    | none => rw [hD.fresh n hc hg] at h2; cases h2
    | some t =>
      have hmem := mem_of_get hg
      have hfn := hW.maps.fields n t hmem
      obtain ⟨out, ho, houts⟩ := hD.orig n t hg
      rw [h2] at ho
      cases ho
      have ha : ∀ k f, (k, f) ∈ t.fields → f.args = [] := by
        intro k f hm
        obtain ⟨p, hr, hall⟩ := outs_of houts hm
        obtain ⟨x, hx, hl⟩ := mapArgs_ne hW (k := k) (hW.maps.args n t hmem k f hm) hr
        have := h3 x.1 x.2 ((field_lookup hW hmem houts).2 (hall x hx))
        rw [this] at hl
        exact List.eq_nil_of_length_eq_zero hl.symm
      have ho : out = t.fields := outs_plain houts ha
      subst ho
      have hrev : ∀ k, get k t.fields.reverse = get k t.fields := fun k => get_reverse hfn
      refine .obj (hU ▸ h1) hg (fun k f hk => ha k f (mem_of_get hk)) (fun k f hk => ?_) (fun x hx => ?_)
      · exact ih k f ((hrev k).trans hk) (hW.names.fields n t hmem k f (mem_of_get hk))
      · rw [← hrev]; exact h5 x hx

/-! ## Types that are replaced -/

theorem get_subst (g : Text → Option Text) (k : Text) : ∀ fs : List (Text × Field),
    get k (subst g fs) = (get k fs).map fun f => { f with ty := chosen g k f.ty }
  | [] => rfl
  | (k', f) :: r => by
    show get k ((k', _) :: subst g r) = _
    rw [get_cons, get_cons, get_subst g k r]
    by_cases h : k' = k
    · rw [if_pos h, if_pos h]; subst h; rfl
    · rw [if_neg h, if_neg h]

theorem fits_withName {c c' : Config} {n m : Text} (h : ∀ nn v, Fits c' (.named m nn) v → Fits c (.named n nn) v) :
    ∀ (ty : Ty) v, ty.name = n → Fits c' (withName m ty) v → Fits c ty v
  | .named n' nn, v, hn, hf => by
    have hn : n' = n := hn
    subst hn
    exact h nn v hf
  | .list t nn, v, hn, hf => by
    have hf : Fits c' (.list (withName m t) nn) v := hf
    cases hf with
    | null h => exact .null h
    | list hv => exact .list fun v hv' => fits_withName h t v hn (hv v hv')

theorem cover_bwd {c c' : Config} (hW : Wf c) (hD : Done c c'.types) (hU : c'.unions = c.unions) {n us}
    (h : Covers c c'.types n us) : ∀ m ∈ us, ∀ nn v, Fits c' (.named m nn) v → Fits c (.named n nn) v := by
  induction h with
  | @union n ms p hu _ ih =>
    intro m hm nn v hf
    by_cases hv : v = .null
    · subst hv
      refine .null ?_
      cases hf with
      | null h => exact h
      | member _ _ h _ => exact absurd rfl h
    obtain ⟨k, hk, ⟨us, hus, hmu⟩ | ⟨hus, rfl⟩⟩ := mem_members.1 hm
    · exact .member hu hk hv (ih k us hk hus m hmu true v (fits_nn hf hv))
    · exact .member hu hk hv (keep_bwd hW hD hU (fits_nn hf hv) ((hW.names.unions _ _ hu).2 m hk))
  | @made n t p hu ht _ hne hc ih =>
    intro m hm nn v hf
    obtain ⟨x, hx, rfl⟩ := List.mem_map.1 hm
    have hmem := mem_of_get ht
    have hfn := hW.maps.fields n t hmem
    have hufn := unionFields_nodup (p := p) hfn
    obtain ⟨g, hg, hx2⟩ := create_elim hufn hx
    have hl := hD.look x.1 x.2 (hc x hx)
    obtain ⟨r, hr, hr', hr''⟩ := create_name hx
    have hnc : ¬ Clean x.1 := by
      rcases hr' with h | ⟨s, h⟩
      · exact absurd h (hr'' hne)
      · rw [hr, h]; exact not_clean
    have hun : get x.1 c'.unions = none := by
      cases hh : get x.1 c'.unions with
      | none => rfl
      | some ms => exact absurd (hW.names.unions x.1 ms (hU ▸ hh)).1 hnc
    cases hf with
    | null h => exact .null h
    | scalar h1 h2 => rw [hl] at h2; cases h2
    | member h1 => rw [hun] at h1; cases h1
    | obj h1 h2 h3 h4 h5 =>
      rw [hl] at h2
      cases h2
      rw [hx2] at h3 h4 h5
      simp only [get_subst] at h3 h4 h5
      refine .obj hu ht (fun k f hk => ?_) (fun k f hk => ?_) (fun y hy => ?_)
      · exact h3 k { f with ty := chosen g k f.ty } (by rw [hk]; rfl)
      · have hfit := h4 k { f with ty := chosen g k f.ty } (by rw [hk]; rfl)
        simp only at hfit
        have hkm := mem_of_get hk
        by_cases hkn : k ∈ (unionFields p t.fields).map (·.1)
        · obtain ⟨⟨k', us⟩, hku, rfl⟩ := List.mem_map.1 hkn
          obtain ⟨u, hu', hgk⟩ := hg.some _ us hku
          obtain ⟨f', hf', hus⟩ := mem_unionFields.1 hku
          have : f' = f := by
            have := get_of_mem hfn hf'
            rw [hk] at this; cases this; rfl
          subst this
          rw [chosen, hgk] at hfit
          exact fits_withName (ih _ f' us hf' hus u hu') f'.ty _ rfl hfit
        · rw [chosen, hg.none k hkn] at hfit
          exact keep_bwd hW hD hU hfit (hW.names.fields n t hmem k f hkm)
      · have := h5 y hy
        rw [Option.isSome_map] at this
        exact this

theorem cover_fwd {c c' : Config} (hW : Wf c) (hS : Single c) (hD : Done c c'.types) (hU : c'.unions = c.unions) {n us}
    (h : Covers c c'.types n us) : ∀ nn v, Fits c (.named n nn) v → ∃ m ∈ us, Fits c' (.named m nn) v := by
  induction h with
  | @union n ms p hu hcov ih =>
    intro nn v hf
    by_cases hv : v = .null
    · subst hv
      obtain ⟨m, hm⟩ := List.exists_mem_of_ne_nil _ ((Covers.union hu hcov).ne_nil hW.inhabited hW.maps)
      refine ⟨m, hm, .null ?_⟩
      cases hf with
      | null h => exact h
      | member _ _ h _ => exact absurd rfl h
    cases hf with
    | null => exact absurd rfl hv
    | scalar h1 => rw [hu] at h1; cases h1
    | obj h1 => rw [hu] at h1; cases h1
    | @member _ _ ms' k _ h1 h2 h3 h4 =>
      rw [hu] at h1
      cases h1
      cases hp : unionOf p k with
      | none =>
        exact ⟨k, mem_members.2 ⟨k, h2, .inr ⟨hp, rfl⟩⟩,
          fits_nn (keep_fwd hW hD hU h4 ((hW.names.unions _ _ hu).2 k h2)) hv⟩
      | some us =>
        obtain ⟨m, hm, hfm⟩ := ih k us h2 hp true v h4
        exact ⟨m, mem_members.2 ⟨k, h2, .inl ⟨us, hp, hm⟩⟩, fits_nn hfm hv⟩
  | @made n t p hu ht hcov hne hc ih =>
    intro nn v hf
    have hmem := mem_of_get ht
    have hfn := hW.maps.fields n t hmem
    have hufn := unionFields_nodup (p := p) hfn
    by_cases hv : v = .null
    · subst hv
      obtain ⟨m, hm⟩ := List.exists_mem_of_ne_nil _ ((Covers.made hu ht hcov hne hc).ne_nil hW.inhabited hW.maps)
      refine ⟨m, hm, .null ?_⟩
      cases hf with
      | null h => exact h
      | member h _ _ _ => rw [hu] at h; cases h
    cases hf with
    | null => exact absurd rfl hv
    | scalar _ h2 => rw [ht] at h2; cases h2
    | member h1 => rw [hu] at h1; cases h1
    | @obj _ _ t' o h1 h2 h3 h4 h5 =>
      rw [ht] at h2
      cases h2
      have hex : ∀ k, ∃ r : Option Text, (∀ us, (k, us) ∈ unionFields p t.fields → ∃ u ∈ us, r = some u) ∧
          (k ∉ (unionFields p t.fields).map (·.1) → r = none) ∧
          ∀ u f, r = some u → get k t.fields = some f → Fits c' (withName u f.ty) ((get k o).getD .null) := by
        intro k
        by_cases hkn : k ∈ (unionFields p t.fields).map (·.1)
        · obtain ⟨⟨k', us⟩, hku, rfl⟩ := List.mem_map.1 hkn
          obtain ⟨f, hf, hus⟩ := mem_unionFields.1 hku
          have hgf := get_of_mem hfn hf
          have hfit := h4 k' f hgf
          have hb : Bears c f.ty.name := (hcov k' f us hf hus).bears hW.maps
          have hnl : f.ty.isList ≠ true := fun hl => hS.fields n t hmem k' f hf hl hb
          suffices hT : ∃ u ∈ us, Fits c' (withName u f.ty) ((get k' o).getD .null) by
            obtain ⟨u, hu', hfu⟩ := hT
            refine ⟨some u, fun us' hus' => ?_, fun h => absurd hkn h, fun u' f' hu'' hf'' => ?_⟩
            · have e1 := get_of_mem hufn hus'
              have e2 := get_of_mem hufn hku
              rw [e1] at e2; cases e2
              exact ⟨u, hu', rfl⟩
            · cases hu''
              have hf'' : get k' t.fields = some f' := hf''
              rw [hgf] at hf''; cases hf''; exact hfu
          have hih := ih k' f us hf hus
          revert hfit hih hnl
          cases f.ty with
          | named nm nn' => intro hfit hnl hih; exact hih nn' _ hfit
          | list t' nn' => intro _ hnl _; exact absurd rfl hnl
        · refine ⟨none, fun us hus => absurd (List.mem_map_of_mem (f := (·.1)) hus) hkn, fun _ => rfl, fun u f h => by cases h⟩
      obtain ⟨g, hg⟩ := Classical.axiomOfChoice hex
      have hch : Choice g (unionFields p t.fields) := ⟨fun f us hm => (hg f).1 us hm, fun f hf => (hg f).2.1 hf⟩
      obtain ⟨m, hm⟩ := create_intro (n := n) (t := t) hufn hch
      refine ⟨m, List.mem_map_of_mem (f := (·.1)) hm, ?_⟩
      have hl := hD.look _ _ (hc _ hm)
      obtain ⟨r, hr, hr', hr''⟩ := create_name hm
      have hnc : ¬ Clean m := by
        rcases hr' with h | ⟨s, h⟩
        · exact absurd h (hr'' hne)
        · have hr : m = n ++ r := hr
          rw [hr, h]; exact not_clean
      have hun : get m c'.unions = none := by
        cases hh : get m c'.unions with
        | none => rfl
        | some ms => exact absurd (hW.names.unions m ms (hU ▸ hh)).1 hnc
      refine .obj hun hl (fun k f hk => ?_) (fun k f hk => ?_) (fun y hy => ?_)
      · simp only [get_subst] at hk
        obtain ⟨f', hf', rfl⟩ := Option.map_eq_some_iff.1 hk
        exact h3 k f' hf'
      · simp only [get_subst] at hk
        obtain ⟨f', hf', rfl⟩ := Option.map_eq_some_iff.1 hk
        simp only [chosen]
        cases hgk : g k with
        | some u => exact (hg k).2.2 u f' hgk hf'
        | none => exact keep_fwd hW hD hU (h4 k f' hf') (hW.names.fields n t hmem k f' (mem_of_get hf'))
      · simp only [get_subst, Option.isSome_map]
        exact h5 y hy

/-! ## Arguments -/

theorem get_substA (g : Text → Option Ty) (k : Text) : ∀ as : List (Text × Ty),
    get k (substA g as) = (get k as).map fun t => (g k).getD t
  | [] => rfl
  | (k', t) :: r => by
    have e : substA g ((k', t) :: r) = (k', (g k').getD t) :: substA g r := by
      simp only [substA, List.map_cons]
      cases g k' <;> rfl
    rw [e, get_cons, get_cons, get_substA g k r]
    by_cases h : k' = k
    · rw [if_pos h, if_pos h]; subst h; rfl
    · rw [if_neg h, if_neg h]

theorem keys_substA (g : Text → Option Ty) (as : List (Text × Ty)) : (substA g as).map (·.1) = as.map (·.1) := by
  simp only [substA, List.map_map]
  refine List.map_congr_left fun x _ => ?_
  simp only [Function.comp]
  cases g x.1 <;> rfl

end Verif.UnionIn
