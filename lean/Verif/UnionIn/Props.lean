import Verif.UnionIn.Values

/-!
# Properties of the replacement of unions in arguments
-/

namespace Verif.UnionIn

open Verif.Mustache (Text)
open Verif.Exec (Ty)
open Verif.Merge (get tlt)

set_option linter.unusedSimpArgs false

/-! ## Types without a union -/

/-- There is no union inside the type of the outcome. -/
inductive FreeIn (c : Config) (made : List (Text × Typ)) : Text → Prop
  | leaf {m} : get m c.unions = none → get m c.types = none → Clean m → FreeIn c made m
  | orig {m t} : get m c.unions = none → get m c.types = some t →
      (∀ k f, (k, f) ∈ t.fields → FreeIn c made f.ty.name) → FreeIn c made m
  | copy {m t} : (m, t) ∈ made → ¬ Clean m → (∀ k f, (k, f) ∈ t.fields → FreeIn c made f.ty.name) → FreeIn c made m

theorem FreeIn.mono {c : Config} {made made' : List (Text × Typ)} (h : ∀ x ∈ made, x ∈ made') {m}
    (hf : FreeIn c made m) : FreeIn c made' m := by
  induction hf with
  | leaf h1 h2 h3 => exact .leaf h1 h2 h3
  | orig h1 h2 _ ih => exact .orig h1 h2 ih
  | copy h1 h2 _ ih => exact .copy (h _ h1) h2 ih

theorem outs_ty {c : Config} (hM : Maps c) {R} {n t o} (hn : (n, t) ∈ c.types) (h : Outs R t.fields o) {k' f'}
    (hm : (k', f') ∈ o) : ∃ k f, (k, f) ∈ t.fields ∧ f'.ty = f.ty := by
  obtain ⟨k, f, p, hf, _, hx⟩ := outs_mem h hm
  obtain ⟨g, s, _, _, _, h2⟩ := walk_elim (hM.args n t hn k f hf) hx
  have h2 : f' = { f with args := substA g f.args } := h2
  exact ⟨k, f, hf, by rw [h2]⟩

theorem FreeIn.free {c c' : Config} (hM : Maps c) (hN : Names c) (hD : Done c c'.types) (hU : c'.unions = c.unions) {m}
    (hf : FreeIn c c'.types m) : ¬ Bears c' m := by
  induction hf with
  | leaf h1 h2 h3 =>
    intro hb
    cases hb with
    | union h => rw [hU, h1] at h; cases h
    | field h => rw [hD.fresh _ h3 h2] at h; cases h
  | @orig m t h1 h2 _ ih =>
    intro hb
    cases hb with
    | union h => rw [hU, h1] at h; cases h
    | field h hk hb =>
      obtain ⟨o, ho, houts⟩ := hD.orig m t h2
      rw [ho] at h
      cases h
      obtain ⟨k', f', hf', hty⟩ := outs_ty hM (mem_of_get h2) houts (List.mem_reverse.1 (mem_of_get hk))
      exact ih k' f' hf' (hty ▸ hb)
  | @copy m t h1 h2 _ ih =>
    intro hb
    cases hb with
    | union h => exact h2 (hN.unions m _ (hU ▸ h)).1
    | field h hk hb =>
      rw [hD.look m t h1] at h
      cases h
      exact ih _ _ (mem_of_get hk) hb

/-- The name is that of a type or a union. -/
def IsDef (c : Config) (n : Text) : Prop := get n c.unions ≠ none ∨ get n c.types ≠ none

/-- It is noted what stands for the name, unless it is no type. -/
def Known (c : Config) (st : St) (n : Text) : Prop := get n st.presence ≠ none ∨ ¬ IsDef c n

/-- What is noted has no union inside. -/
structure Free (c : Config) (st : St) : Prop where
  us : ∀ n us, unionOf st.presence n = some us → ∀ m ∈ us, FreeIn c st.made m
  no : ∀ n, get n st.presence = some .noUnion → FreeIn c st.made n

/-- The types that are entered and not done with. -/
def Pending (c : Config) (st : St) (x : Text) : Prop := x ∈ st.visited ∧ get x st.presence = none ∧ IsDef c x

theorem Known.mono {c : Config} {st st' : St} (h : Mono st st') {n} (hk : Known c st n) : Known c st' n := by
  rcases hk with hk | hk
  · cases hg : get n st.presence with
    | none => exact absurd hg hk
    | some v => exact .inl (by rw [h.kept n v hg]; intro h; cases h)
  · exact .inr hk

/-- What is known and not a union has no union inside. -/
theorem free_of_known {c : Config} {st : St} (hF : Free c st) {n} (hk : Known c st n) (hc : Clean n)
    (hu : unionOf st.presence n = none) : FreeIn c st.made n := by
  unfold unionOf at hu
  cases hg : get n st.presence with
  | none =>
    rcases hk with hk | hk
    · exact absurd hg hk
    · unfold IsDef at hk
      rw [not_or] at hk
      exact .leaf (Classical.not_not.1 hk.1) (Classical.not_not.1 hk.2) hc
  | some v =>
    cases v with
    | noUnion => exact hF.no n hg
    | union us => rw [hg] at hu; cases hu

theorem collectAll_free {c : Config} {fuel : Nat} {rank : Text → Nat}
    (ih : ∀ n st st', collect c fuel n st = some st' → Free c st → (∀ x, Pending c st x → rank n < rank x) →
      Free c st' ∧ Known c st' n ∧ ∀ x, Pending c st' x → Pending c st x) :
    ∀ ns st st', collectAll (collect c fuel) ns st = some st' → Free c st →
      (∀ n ∈ ns, ∀ x, Pending c st x → rank n < rank x) →
      Free c st' ∧ (∀ n ∈ ns, Known c st' n) ∧ ∀ x, Pending c st' x → Pending c st x
  | [], st, st', h, hF, _ => by
    cases h; exact ⟨hF, fun n hn => (by cases hn), fun _ h => h⟩
  | n :: r, st, st', h, hF, hr => by
    simp only [collectAll] at h
    cases h1 : collect c fuel n st with
    | none => rw [h1] at h; cases h
    | some s =>
      rw [h1] at h
      obtain ⟨hF', hK, hP⟩ := ih n st s h1 hF (hr n List.mem_cons_self)
      obtain ⟨hF'', hK', hP'⟩ := collectAll_free ih r s st' h hF'
        (fun m hm x hx => hr m (List.mem_cons_of_mem _ hm) x (hP x hx))
      refine ⟨hF'', fun m hm => ?_, fun x hx => hP x (hP' x hx)⟩
      rcases List.mem_cons.1 hm with rfl | hm
      · exact hK.mono (collectAll_mono (collect_mono _) _ _ _ h)
      · exact hK' m hm

theorem pending_done {c : Config} {st s : St} {n : Text} {p made}
    (hP : ∀ x, Pending c s x → Pending c { st with visited := n :: st.visited } x) {x}
    (hx : Pending c { s with presence := (n, p) :: s.presence, made := made } x) : Pending c st x := by
  obtain ⟨h1, h2, h3⟩ := hx
  have h2 : get x ((n, p) :: s.presence) = none := h2
  rw [get_cons] at h2
  by_cases hn : n = x
  · rw [if_pos hn] at h2; cases h2
  · rw [if_neg hn] at h2
    obtain ⟨q1, q2, q3⟩ := hP x ⟨h1, h2, h3⟩
    rcases List.mem_cons.1 q1 with q1 | q1
    · exact absurd q1.symm hn
    · exact ⟨q1, q2, q3⟩

theorem collect_free {c : Config} (hM : Maps c) (hN : Names c) {rank : Text → Nat}
    (hru : ∀ n ms, get n c.unions = some ms → ∀ m ∈ ms, rank m < rank n)
    (hrt : ∀ n t, get n c.types = some t → ∀ k f, (k, f) ∈ t.fields → rank f.ty.name < rank n) :
    ∀ fuel n st st', collect c fuel n st = some st' → Free c st → (∀ x, Pending c st x → rank n < rank x) →
      Free c st' ∧ Known c st' n ∧ ∀ x, Pending c st' x → Pending c st x
  | 0, _, _, _, h, _, _ => by cases h
  | fuel + 1, n, st, st', h, hF, hr => by
    have ih := collectAll_free (collect_free hM hN hru hrt fuel)
    have hF0 : Free c { st with visited := n :: st.visited } := ⟨hF.us, hF.no⟩
    have hr0 : ∀ k, rank k < rank n → ∀ x, Pending c { st with visited := n :: st.visited } x → rank k < rank x := by
      intro k hk x ⟨h1, h2, h3⟩
      rcases List.mem_cons.1 h1 with h1 | h1
      · rw [h1]; exact hk
      · exact Nat.lt_trans hk (hr x ⟨h1, h2, h3⟩)
    have hself : ∀ (p : Presence) (q : List (Text × Presence)), get n ((n, p) :: q) ≠ none := by
      intro p q; rw [get_cons, if_pos rfl]; intro h; cases h
    cases collect_call h with
    | known hk =>
      refine ⟨hF, ?_, fun _ h => h⟩
      by_cases hp : get n st.presence = none
      · rcases hk with hk | hk
        · exact .inl hk
        · refine .inr fun hd => ?_
          exact Nat.lt_irrefl _ (hr n ⟨hk, hp, hd⟩)
      · exact .inl hp
    | leaf hp hv hu ht =>
      have hnd : ¬ IsDef c n := fun hd => by
        rcases hd with hd | hd
        · exact hd hu
        · exact hd ht
      refine ⟨hF0, .inr hnd, fun x ⟨h1, h2, h3⟩ => ?_⟩
      rcases List.mem_cons.1 h1 with h1 | h1
      · exact absurd (h1 ▸ h3) hnd
      · exact ⟨h1, h2, h3⟩
    | @union ms s hp hv hu hs =>
      obtain ⟨hF', hK, hP⟩ := ih ms _ s hs hF0 fun m hm => hr0 m (hru n ms hu m hm)
      refine ⟨⟨fun m us hm => ?_, fun m hm => ?_⟩, .inl (hself _ _), fun x hx => pending_done (made := s.made) hP hx⟩
      · rw [unionOf_cons] at hm
        by_cases hnm : n = m
        · rw [if_pos hnm] at hm
          cases hm
          intro x hx
          obtain ⟨k, hk, ⟨us, hus, hmu⟩ | ⟨hus, rfl⟩⟩ := mem_members.1 hx
          · exact hF'.us k us hus x hmu
          · exact free_of_known hF' (hK x hk) ((hN.unions n ms hu).2 x hk) hus
        · rw [if_neg hnm] at hm; exact hF'.us m us hm
      · have hm : get m ((n, _) :: s.presence) = _ := hm
        rw [get_cons] at hm
        by_cases hnm : n = m
        · rw [if_pos hnm] at hm; cases hm
        · rw [if_neg hnm] at hm; exact hF'.no m hm
    | @plain t s hp hv hu ht hs he =>
      obtain ⟨hF', hK, hP⟩ := ih _ _ s hs hF0 fun m hm => by
        obtain ⟨⟨k, f⟩, hf, rfl⟩ := List.mem_map.1 hm
        exact hr0 _ (hrt n t ht k f hf)
      refine ⟨⟨fun m us hm => ?_, fun m hm => ?_⟩, .inl (hself _ _), fun x hx => pending_done (made := s.made) hP hx⟩
      · rw [unionOf_cons] at hm
        by_cases hnm : n = m
        · rw [if_pos hnm] at hm; cases hm
        · rw [if_neg hnm] at hm; exact hF'.us m us hm
      · have hm : get m ((n, _) :: s.presence) = _ := hm
        rw [get_cons] at hm
        by_cases hnm : n = m
        · subst hnm
          refine .orig hu ht fun k f hf => ?_
          refine free_of_known hF' (hK _ (List.mem_map_of_mem (f := fun f : Text × Field => f.2.ty.name) hf))
            (hN.fields n t (mem_of_get ht) k f hf) ?_
          cases hus : unionOf s.presence f.ty.name with
          | none => rfl
          | some us =>
            have := mem_unionFields.2 ⟨f, hf, hus⟩
            rw [he] at this; cases this
        · rw [if_neg hnm] at hm; exact hF'.no m hm
    | @made t s hp hv hu ht hs hne =>
      obtain ⟨hF', hK, hP⟩ := ih _ _ s hs hF0 fun m hm => by
        obtain ⟨⟨k, f⟩, hf, rfl⟩ := List.mem_map.1 hm
        exact hr0 _ (hrt n t ht k f hf)
      have hmono : ∀ x ∈ s.made, x ∈ (create n t (unionFields s.presence t.fields)).reverse ++ s.made :=
        fun x hx => List.mem_append_right _ hx
      have hufn := unionFields_nodup (p := s.presence) (hM.fields n t (mem_of_get ht))
      refine ⟨⟨fun m us hm => ?_, fun m hm => ?_⟩, .inl (hself _ _), fun x hx => pending_done hP hx⟩
      · rw [unionOf_cons] at hm
        by_cases hnm : n = m
        · subst hnm
          rw [if_pos rfl] at hm
          cases hm
          intro x hx
          obtain ⟨y, hy, rfl⟩ := List.mem_map.1 hx
          obtain ⟨g, hg, hy2⟩ := create_elim hufn hy
          refine .copy (t := y.2) (List.mem_append_left _ (List.mem_reverse.2 hy)) ?_ fun k f hf => ?_
          · obtain ⟨r, hr, hr', hr''⟩ := create_name hy
            rcases hr' with h | ⟨q, h⟩
            · exact absurd h (hr'' hne)
            · rw [hr, h]; exact not_clean
          · rw [hy2] at hf
            obtain ⟨⟨k', f'⟩, hf', he⟩ := List.mem_map.1 hf
            cases he
            simp only [chosen]
            by_cases hkn : k' ∈ (unionFields s.presence t.fields).map (·.1)
            · obtain ⟨⟨k'', us⟩, hku, rfl⟩ := List.mem_map.1 hkn
              obtain ⟨u, hu', hgk⟩ := hg.some _ us hku
              obtain ⟨f'', hf'', hus⟩ := mem_unionFields.1 hku
              rw [hgk]
              simp only [withName_name]
              exact (hF'.us _ us hus u hu').mono hmono
            · rw [hg.none k' hkn]
              refine (free_of_known hF' (hK _ (List.mem_map_of_mem (f := fun f : Text × Field => f.2.ty.name) hf'))
                (hN.fields n t (mem_of_get ht) k' f' hf') ?_).mono hmono
              cases hus : unionOf s.presence f'.ty.name with
              | none => rfl
              | some us =>
                exact absurd (List.mem_map_of_mem (f := (·.1)) (mem_unionFields.2 ⟨f', hf', hus⟩)) hkn
        · rw [if_neg hnm] at hm; exact fun x hx => (hF'.us m us hm x hx).mono hmono
      · have hm : get m ((n, _) :: s.presence) = _ := hm
        rw [get_cons] at hm
        by_cases hnm : n = m
        · rw [if_pos hnm] at hm; cases hm
        · rw [if_neg hnm] at hm; exact (hF'.no m hm).mono hmono

/-! ## C95: the fields put in the place of another -/

/-- The replacement ends, whatever the types. -/
theorem C95_ends (c : Config) : ∃ c', transform c = some c' := by
  obtain ⟨st, h⟩ := visitTypes_some (c := c) c.types ⟨[], [], []⟩
  exact ⟨_, by unfold transform; rw [h]; rfl⟩

/-- Each type is kept, and the unions are. -/
theorem C95_kept {c c' : Config} (hM : Maps c) (hN : Names c) (h : transform c = some c') :
    c'.unions = c.unions ∧ ∀ n t, get n c.types = some t → ∃ t', get n c'.types = some t' ∧ t'.rest = t.rest := by
  obtain ⟨hD, hU⟩ := transform_done hM hN h
  refine ⟨hU, fun n t hn => ?_⟩
  obtain ⟨o, ho, _⟩ := hD.orig n t hn
  exact ⟨_, ho, rfl⟩

/-- Each field of the outcome is one of before, marked with the choices.  It gives what that gave
and has the same arguments, and the values that it accepts were accepted before. -/
theorem C95_sound {c c' : Config} (hW : Wf c) (h : transform c = some c') {n t t' k' f'}
    (ht : get n c.types = some t) (ht' : get n c'.types = some t') (hf' : get k' t'.fields = some f') :
    ∃ k f s, get k t.fields = some f ∧ k' = k ++ s ∧ Marks s ∧ f'.ty = f.ty ∧ f'.rest = f.rest ∧
      f'.args.map (·.1) = f.args.map (·.1) ∧ ∀ vals, Accepts c' f' vals → Accepts c f vals := by
  obtain ⟨hD, hU⟩ := transform_done hW.maps hW.names h
  obtain ⟨o, ho, houts⟩ := hD.orig n t ht
  rw [ht'] at ho
  cases ho
  have hmem := mem_of_get ht
  obtain ⟨k, f, p, hf, hr, hx⟩ := outs_mem houts ((field_lookup hW hmem houts).1 hf')
  have han := hW.maps.args n t hmem k f hf
  obtain ⟨g, s, hg, hs, h1, h2⟩ := walk_elim han hx
  have h2 : f' = { f with args := substA g f.args } := h2
  subst h2
  refine ⟨k, f, s, get_of_mem (hW.maps.fields n t hmem) hf, h1, hs, rfl, rfl, keys_substA g _, ?_⟩
  intro vals hv a ty ha
  have ham := mem_of_get ha
  have hfit := hv a ((g a).getD ty) (by rw [get_substA, ha]; rfl)
  cases hu : unionOf p ty.name with
  | some us =>
    obtain ⟨u, hu', hga⟩ := hg.pick a ty us ham hu
    rw [hga, Option.getD_some] at hfit
    exact fits_withName (cover_bwd hW hD hU (hr a ty us ham hu) u hu') ty _ rfl hfit
  | none =>
    have hga : g a = none := hg.keep a fun t' us ha' hus => by
      have := get_of_mem han ha'
      rw [ha] at this; cases this
      rw [hu] at hus; cases hus
    rw [hga, Option.getD_none] at hfit
    exact keep_bwd hW hD hU hfit (hW.names.args n t hmem k f hf a ty ham)

/-- Values that were accepted are accepted by one of the fields put in the place.  What is missing
for all: lists of values with a union inside, names with two underscores, names with the mark of a
choice, unions without members. -/
theorem C95_covered_partial {c c' : Config} (hW : Wf c) (hS : Single c) (h : transform c = some c') {n t k f vals}
    (ht : get n c.types = some t) (hf : get k t.fields = some f) (hv : Accepts c f vals) :
    ∃ t' f' s, get n c'.types = some t' ∧ Marks s ∧ get (k ++ s) t'.fields = some f' ∧ f'.ty = f.ty ∧
      f'.rest = f.rest ∧ Accepts c' f' vals := by
  obtain ⟨hD, hU⟩ := transform_done hW.maps hW.names h
  obtain ⟨o, ho, houts⟩ := hD.orig n t ht
  have hmem := mem_of_get ht
  have hfm := mem_of_get hf
  obtain ⟨p, hr, hall⟩ := outs_of houts hfm
  have han := hW.maps.args n t hmem k f hfm
  have hex : ∀ a, ∃ r : Option Ty, (∀ ty us, (a, ty) ∈ f.args → unionOf p ty.name = some us →
      ∃ u ∈ us, r = some (withName u ty)) ∧
      ((∀ ty us, (a, ty) ∈ f.args → unionOf p ty.name = some us → False) → r = none) ∧
      ∀ ty, get a f.args = some ty → Fits c' (r.getD ty) (vals a) := by
    intro a
    cases ha : get a f.args with
    | none =>
      refine ⟨none, fun ty us hm => ?_, fun _ => rfl, fun ty h => by cases h⟩
      rw [get_of_mem han hm] at ha; cases ha
    | some ty =>
      have ham := mem_of_get ha
      have hfit := hv a ty ha
      cases hu : unionOf p ty.name with
      | none =>
        refine ⟨none, fun ty' us hm hus => ?_, fun _ => rfl, fun ty' h => ?_⟩
        · have := get_of_mem han hm
          rw [ha] at this; cases this
          rw [hu] at hus; cases hus
        · cases h
          exact keep_fwd hW hD hU hfit (hW.names.args n t hmem k f hfm a ty ham)
      | some us =>
        have hcov := hr a ty us ham hu
        have hnl : ty.isList ≠ true := fun hl => hS.args n t hmem k f hfm a ty ham hl (hcov.bears hW.maps)
        suffices hT : ∃ u ∈ us, Fits c' (withName u ty) (vals a) by
          obtain ⟨u, hu', hfu⟩ := hT
          refine ⟨some (withName u ty), fun ty' us' hm hus => ?_, fun hno => (hno ty us ham hu).elim, fun ty' h => ?_⟩
          · have := get_of_mem han hm
            rw [ha] at this; cases this
            rw [hu] at hus; cases hus
            exact ⟨u, hu', rfl⟩
          · cases h; exact hfu
        have hih := cover_fwd hW hS hD hU hcov
        revert hfit hih hnl
        cases ty with
        | named nm nn' => intro hfit hnl hih; exact hih nn' _ hfit
        | list t' nn' => intro _ hnl _; exact absurd rfl hnl
  obtain ⟨g, hg⟩ := Classical.axiomOfChoice hex
  have hch : ChoiceA p f.args g := ⟨fun a ty us => (hg a).1 ty us, fun a => (hg a).2.1⟩
  obtain ⟨s, hs, hm⟩ := walk_intro (name := k) (f := f) han hch
  refine ⟨_, _, s, ho, hs, (field_lookup hW hmem houts).2 (hall _ hm), rfl, rfl, ?_⟩
  intro a ty ha
  have ha : get a (substA g f.args) = some ty := ha
  rw [get_substA] at ha
  obtain ⟨ty', hty', rfl⟩ := Option.map_eq_some_iff.1 ha
  exact (hg a).2.2 ty' hty'

/-- A field without a union inside its arguments is as it was. -/
theorem C95_untouched {c c' : Config} (hW : Wf c) (h : transform c = some c') {n t k f}
    (ht : get n c.types = some t) (hf : get k t.fields = some f)
    (hb : ∀ a ty, get a f.args = some ty → ¬ Bears c ty.name) :
    ∃ t', get n c'.types = some t' ∧ get k t'.fields = some f := by
  obtain ⟨hD, hU⟩ := transform_done hW.maps hW.names h
  obtain ⟨o, ho, houts⟩ := hD.orig n t ht
  have hmem := mem_of_get ht
  have hfm := mem_of_get hf
  obtain ⟨p, hr, hall⟩ := outs_of houts hfm
  have han := hW.maps.args n t hmem k f hfm
  refine ⟨_, ho, (field_lookup hW hmem houts).2 (hall _ ?_)⟩
  have : mapArgs p k f = [(k, f)] := walk_plain fun a ty ha => by
    cases hu : unionOf p ty.name with
    | none => rfl
    | some us => exact (hb a ty (get_of_mem han ha) ((hr a ty us ha hu).bears hW.maps)).elim
  rw [this]; exact List.mem_cons_self

/-! ## C96: no union is left -/

/-- Of the types of a configuration in which no type is inside itself, no argument has a union
inside any more.  What is missing for all: types that are inside themselves, and names with two
underscores. -/
theorem C96_no_union_left_partial {c c' : Config} (hM : Maps c) (hN : Names c) (hA : Acyclic c)
    (h : transform c = some c') {n t t' k f a ty} (ht : get n c.types = some t) (ht' : get n c'.types = some t')
    (hf : get k t'.fields = some f) (ha : get a f.args = some ty) : ¬ Bears c' ty.name := by
  obtain ⟨hD, hU⟩ := transform_done hM hN h
  obtain ⟨rank, hru, hrt⟩ := hA
  unfold transform at h
  obtain ⟨st, hst, rfl⟩ := Option.map_eq_some_iff.1 h
  obtain ⟨⟨done, _, hnd, _⟩, _, hall⟩ := visitTypes_spec
    (I := fun done st => Inv c done st ∧ Free c st ∧ ∀ x, ¬ Pending c st x)
    (R := fun made p f => ∀ a ty, (a, ty) ∈ f.args → Clean ty.name →
      (∀ us, unionOf p ty.name = some us → ∀ m ∈ us, FreeIn c made m) ∧
      (unionOf p ty.name = none → FreeIn c made ty.name))
    (fun made made' p f hm hr a ty ha hc => ⟨fun us hus m hmu => ((hr a ty ha hc).1 us hus m hmu).mono hm,
      fun hus => ((hr a ty ha hc).2 hus).mono hm⟩)
    (fun f done st st' hd hi hc => by
      obtain ⟨hi, hF, hP⟩ := hi
      have hi' := collectAll_inv (collect_inv hN (fun x hx => clean_of_mem hN (hd x hx)) _) _ _ _ hc hi
      obtain ⟨hF', hK, hP'⟩ := collectAll_free (collect_free hM hN hru hrt _) _ _ _ hc hF
        (fun n _ x hx => (hP x hx).elim)
      refine ⟨⟨hi', hF', fun x hx => hP x (hP' x hx)⟩, fun a ty ha hcl => ⟨fun us hus => hF'.us _ us hus, fun hus => ?_⟩⟩
      exact free_of_known hF' (hK _ (List.mem_map_of_mem (f := fun a : Text × Ty => a.2.name) ha)) hcl hus)
    (fun done st name t hn hd hi => by
      refine ⟨inv_add hN hn hd hi.1, ⟨fun m us hus x hx => ?_, fun m hm => ?_⟩, hi.2.2⟩
      · exact (hi.2.1.us m us hus x hx).mono fun y hy => List.mem_cons_of_mem _ hy
      · exact (hi.2.1.no m hm).mono fun y hy => List.mem_cons_of_mem _ hy) c.types [] ⟨[], [], []⟩ st hst
    ⟨⟨fun n us h => (by simp [unionOf, Verif.Merge.get] at h), List.nodup_nil, fun m hm => (by cases hm)⟩,
      ⟨fun n us h => (by simp [unionOf, Verif.Merge.get] at h), fun n h => (by simp [Verif.Merge.get] at h)⟩,
      fun x hx => (by cases hx.1)⟩
    (fun x hx => (by cases hx)) (fun x hx => hx) hM.types (fun x _ hx => (by cases hx))
  have hmem := mem_of_get ht
  obtain ⟨o, ho, houts⟩ := hall n t hmem
  rw [hD.look _ _ ho] at ht'
  cases ht'
  obtain ⟨k0, f0, p, hf0, hr, hx⟩ := outs_mem houts (List.mem_reverse.1 (mem_of_get hf))
  have han := hM.args n t hmem k0 f0 hf0
  obtain ⟨g, s, hg, hs, h1, h2⟩ := walk_elim han hx
  have h2 : f = { f0 with args := substA g f0.args } := h2
  subst h2
  have ha : get a (substA g f0.args) = some ty := ha
  rw [get_substA] at ha
  obtain ⟨ty', hty', rfl⟩ := Option.map_eq_some_iff.1 ha
  have ham := mem_of_get hty'
  obtain ⟨hr1, hr2⟩ := hr a ty' ham (hN.args n t hmem k0 f0 hf0 a ty' ham)
  refine FreeIn.free hM hN hD hU ?_
  cases hu : unionOf p ty'.name with
  | some us =>
    obtain ⟨u, hu', hga⟩ := hg.pick a ty' us ham hu
    rw [hga, Option.getD_some, withName_name]
    exact hr1 us hu u hu'
  | none =>
    have hga : g a = none := hg.keep a fun t' us ha' hus => by
      have := get_of_mem han ha'
      rw [hty'] at this; cases this
      rw [hu] at hus; cases hus
    rw [hga, Option.getD_none]
    exact hr2 hu

/-! ## Concrete cases -/

/-- A check of the names: there is no underscore. -/
def noUnderscore (n : Text) : Bool := n.all (· != '_')

theorem clean_of_noUnderscore {n : Text} (h : noUnderscore n = true) : Clean n := by
  intro a b he
  have hd := congrArg List.dropLast he
  rw [List.dropLast_concat, List.dropLast_append_of_ne_nil (by simp)] at hd
  have hm : '_' ∈ n := by rw [hd]; simp [List.dropLast]
  unfold noUnderscore at h
  rw [List.all_eq_true] at h
  simpa using h _ hm

/-- A check of all that is asked of a configuration. -/
def wfB (c : Config) : Bool :=
  decide ((c.types.map (·.1)).Nodup)
  && (c.types.all fun x => noUnderscore x.1 && decide ((x.2.fields.map (·.1)).Nodup)
    && (x.2.fields.all fun k => x.2.fields.all fun j => !(j.1 ++ ['V', 'a', 'r']).isPrefixOf k.1)
    && (x.2.fields.all fun f => noUnderscore f.2.ty.name && decide ((f.2.args.map (·.1)).Nodup)
      && f.2.args.all fun a => noUnderscore a.2.name))
  && (c.unions.all fun x => noUnderscore x.1 && !x.2.isEmpty && x.2.all noUnderscore)

theorem wf_of_wfB {c : Config} (h : wfB c = true) : Wf c := by
  simp only [wfB, Bool.and_eq_true, List.all_eq_true, decide_eq_true_eq] at h
  obtain ⟨⟨h1, h2⟩, h3⟩ := h
  refine ⟨⟨h1, fun n t hn => (h2 _ hn).1.1.2, fun n t hn k f hf => ((h2 _ hn).2 _ hf).1.2⟩,
    ⟨fun n t hn => clean_of_noUnderscore (h2 _ hn).1.1.1, fun n ms hn => ?_,
      fun n t hn k f hf => clean_of_noUnderscore ((h2 _ hn).2 _ hf).1.1,
      fun n t hn k f hf a ty ha => clean_of_noUnderscore (((h2 _ hn).2 _ hf).2 _ ha)⟩, fun n t hn k hk j hj s he => ?_,
    fun n ms hn he => ?_⟩
  · have := h3 _ (mem_of_get hn)
    exact ⟨clean_of_noUnderscore this.1.1, fun m hm => clean_of_noUnderscore (this.2 m hm)⟩
  · obtain ⟨x, hx, rfl⟩ := List.mem_map.1 hk
    obtain ⟨y, hy, rfl⟩ := List.mem_map.1 hj
    have := (h2 _ hn).1.2 x hx y hy
    rw [he] at this
    have hp : (y.1 ++ ['V', 'a', 'r']).isPrefixOf (y.1 ++ 'V' :: 'a' :: 'r' :: s) = true := by
      rw [List.isPrefixOf_iff_prefix]
      exact ⟨s, by simp⟩
    rw [hp] at this
    cases this
  · have := (h3 _ (mem_of_get hn)).1.2
    rw [he] at this
    cases this

/-- A nullable type. -/
def nm (s : String) : Ty := .named s.toList false

/-- A field without arguments. -/
def plainF (s t : String) : Text × Field := (s.toList, ⟨nm t, [], 0⟩)

/-- A type. -/
def typ (s : String) (fs : List (Text × Field)) : Text × Typ := (s.toList, ⟨fs, 0⟩)

/-- A union. -/
def uni (s : String) (ms : List String) : Text × List Text := (s.toList, ms.map String.toList)

/-- A field whose first argument is a union with a union inside one member, and whose second is a
list of numbers. -/
def ex : Config :=
  ⟨[typ "A" [plainF "a" "Int"], typ "B" [plainF "b" "W"], typ "C" [plainF "c" "Int"], typ "D" [plainF "d" "Int"],
    typ "Query" [("ids".toList, ⟨nm "Int", [("of".toList, .list (nm "Int") true)], 1⟩),
      ("q".toList, ⟨nm "C", [("n".toList, .list (nm "Int") false), ("x".toList, .named "U".toList true)], 2⟩)]],
   [uni "U" ["A", "B"], uni "W" ["C", "D"]]⟩

theorem ex_wf : Wf ex := wf_of_wfB (by decide +kernel)

theorem ex_int : ¬ Bears ex "Int".toList := by
  intro h
  cases h with
  | union h => rw [show get "Int".toList ex.unions = none by decide +kernel] at h; cases h
  | @field _ t k f h => exact absurd h (by rw [show get "Int".toList ex.types = none by decide +kernel]; intro h; cases h)

/-- The names of the types of lists. -/
def listNames (c : Config) : List Text :=
  c.types.flatMap fun x => x.2.fields.flatMap fun f =>
    (if f.2.ty.isList then [f.2.ty.name] else []) ++ (f.2.args.filter fun a => a.2.isList).map fun a => a.2.name

theorem single_of {c : Config} (h : ∀ n ∈ listNames c, ¬ Bears c n) : Single c := by
  refine ⟨fun n t hn k f hf hl => h _ ?_, fun n t hn k f hf a ty ha hl => h _ ?_⟩
  · refine List.mem_flatMap.2 ⟨_, hn, List.mem_flatMap.2 ⟨_, hf, List.mem_append_left _ ?_⟩⟩
    simp only [hl, if_true, List.mem_singleton]
  · refine List.mem_flatMap.2 ⟨_, hn, List.mem_flatMap.2 ⟨_, hf, List.mem_append_right _ ?_⟩⟩
    exact List.mem_map.2 ⟨_, List.mem_filter.2 ⟨ha, hl⟩, rfl⟩

theorem ex_single : Single ex := by
  refine single_of fun n hn => ?_
  have : n = "Int".toList := by
    have e : listNames ex = ["Int".toList, "Int".toList] := by decide +kernel
    rw [e] at hn
    simpa using hn
  rw [this]; exact ex_int

/-- The field is replaced by three, and two copies of `B` are made. -/
theorem ex_out : (transform ex).map (fun c => c.types.map fun x => (String.ofList x.1, x.2.fields.map fun f =>
      (String.ofList f.1, f.2.args.map fun a => String.ofList a.2.name, String.ofList f.2.ty.name))) =
    some [("Query", [("qVar2", ["Int", "B__b1"], "C"), ("qVar1", ["Int", "B__b0"], "C"), ("qVar0", ["Int", "A"], "C"),
        ("ids", ["Int"], "Int")]),
      ("B__b1", [("b", [], "D")]), ("B__b0", [("b", [], "C")]),
      ("D", [("d", [], "Int")]), ("C", [("c", [], "Int")]), ("B", [("b", [], "W")]), ("A", [("a", [], "Int")])] := by
  decide +kernel

/-- The value `{b: {d: 7}}`. -/
def exVals : Text → V := fun a =>
  if a = "x".toList then .obj [("b".toList, .obj [("d".toList, .scalar 7)])] else .list [.scalar 1]

theorem ex_accepts : Accepts ex ⟨nm "C", [("n".toList, .list (nm "Int") false), ("x".toList, .named "U".toList true)], 2⟩
    exVals := by
  have hint : ∀ s, Fits ex (nm "Int") (.scalar s) := fun s => .scalar (by decide +kernel) (by decide +kernel)
  have hd : Fits ex (.named "D".toList true) (.obj [("d".toList, .scalar 7)]) := by
    refine .obj (t := ⟨[plainF "d" "Int"], 0⟩) (by decide +kernel) (by decide +kernel) ?_ ?_ ?_
    · intro k f hf
      have := mem_of_get hf
      simp only [List.mem_singleton] at this; cases this; rfl
    · intro k f hf
      have := mem_of_get hf
      simp only [List.mem_singleton] at this; cases this
      exact hint 7
    · intro x hx; simp only [List.mem_singleton] at hx; subst hx; decide +kernel
  have hb : Fits ex (.named "B".toList true) (.obj [("b".toList, .obj [("d".toList, .scalar 7)])]) := by
    refine .obj (t := ⟨[plainF "b" "W"], 0⟩) (by decide +kernel) (by decide +kernel) ?_ ?_ ?_
    · intro k f hf
      have := mem_of_get hf
      simp only [List.mem_singleton] at this; cases this; rfl
    · intro k f hf
      have := mem_of_get hf
      simp only [List.mem_singleton] at this; cases this
      exact .member (ms := ["C".toList, "D".toList]) (m := "D".toList) (by decide +kernel) (by simp)
        (by intro h; cases h) hd
    · intro x hx; simp only [List.mem_singleton] at hx; subst hx; decide +kernel
  intro a t ha
  have := mem_of_get ha
  simp only [List.mem_cons, List.not_mem_nil, or_false] at this
  rcases this with h | h
  · cases h
    show Fits ex (.list (nm "Int") false) (.list [.scalar 1])
    refine .list fun v hv => ?_
    simp only [List.mem_singleton] at hv
    subst hv
    exact hint 1
  · cases h
    show Fits ex (.named "U".toList true) (.obj _)
    exact .member (ms := ["A".toList, "B".toList]) (m := "B".toList) (by decide +kernel) (by simp)
      (by intro h; cases h) hb

/-- One of the fields put in the place takes that value. -/
example : ∃ c' t' f' s, transform ex = some c' ∧ get "Query".toList c'.types = some t' ∧ Marks s ∧
    get ("q".toList ++ s) t'.fields = some f' ∧ f'.ty = nm "C" ∧ f'.rest = 2 ∧ Accepts c' f' exVals := by
  obtain ⟨c', h⟩ := C95_ends ex
  obtain ⟨t', f', s, h'⟩ := C95_covered_partial (n := "Query".toList) (k := "q".toList) ex_wf ex_single h rfl rfl ex_accepts
  exact ⟨c', t', f', s, h, h'⟩

/-- The types and the unions of the case are kept. -/
example : ∃ c', transform ex = some c' ∧ c'.unions = ex.unions ∧
    ∃ t', get "Query".toList c'.types = some t' ∧ t'.rest = 0 := by
  obtain ⟨c', h⟩ := C95_ends ex
  obtain ⟨h1, h2⟩ := C95_kept ex_wf.maps ex_wf.names h
  exact ⟨c', h, h1, h2 "Query".toList _ rfl⟩

/-- What a field of the outcome takes was accepted before. -/
example : ∃ c' t' f', transform ex = some c' ∧ get "Query".toList c'.types = some t' ∧
    get "qVar1".toList t'.fields = some f' ∧
    ∃ k f s, "qVar1".toList = k ++ s ∧ Marks s ∧ get k (ex.types[4]).2.fields = some f ∧
      ∀ vals, Accepts c' f' vals → Accepts ex f vals := by
  obtain ⟨c', h⟩ := C95_ends ex
  have hq : ((transform ex).bind fun c => (get "Query".toList c.types).bind fun t => get "qVar1".toList t.fields).isSome = true := by
    decide +kernel
  rw [h, Option.bind_some] at hq
  cases ht' : get "Query".toList c'.types with
  | none => rw [ht'] at hq; cases hq
  | some t' =>
    rw [ht', Option.bind_some] at hq
    cases hf' : get "qVar1".toList t'.fields with
    | none => rw [hf'] at hq; cases hq
    | some f' =>
      obtain ⟨k, f, s, h1, h2, h3, _, _, _, h4⟩ := C95_sound (n := "Query".toList) ex_wf h rfl ht' hf'
      exact ⟨c', t', f', h, ht', hf', k, f, s, h2, h3, h1, h4⟩

/-- The field with a list of numbers is as it was. -/
example : ∃ c' t', transform ex = some c' ∧ get "Query".toList c'.types = some t' ∧
    get "ids".toList t'.fields = some ⟨nm "Int", [("of".toList, .list (nm "Int") true)], 1⟩ := by
  obtain ⟨c', h⟩ := C95_ends ex
  obtain ⟨t', h1, h2⟩ := C95_untouched (n := "Query".toList) (k := "ids".toList) ex_wf h rfl rfl (by
    intro a ty ha
    have := mem_of_get ha
    simp only [List.mem_singleton] at this
    cases this
    exact ex_int)
  exact ⟨c', t', h, h1, h2⟩

/-- A measure of the types of the case. -/
theorem ex_acyclic : Acyclic ex := by
  refine ⟨fun n => if n = "Query".toList then 9 else if n = "U".toList then 5 else if n = "B".toList then 4 else
    if n = "W".toList then 3 else if n = "Int".toList then 0 else 1, fun n ms hn m hm => ?_, fun n t hn k f hf => ?_⟩
  · have := mem_of_get hn
    have hall : ∀ x ∈ ex.unions, ∀ m ∈ x.2, (fun n => if n = "Query".toList then 9 else if n = "U".toList then 5 else
      if n = "B".toList then 4 else if n = "W".toList then 3 else if n = "Int".toList then 0 else 1) m <
      (fun n => if n = "Query".toList then 9 else if n = "U".toList then 5 else
      if n = "B".toList then 4 else if n = "W".toList then 3 else if n = "Int".toList then 0 else 1) x.1 := by decide +kernel
    exact hall _ this m hm
  · have := mem_of_get hn
    have hall : ∀ x ∈ ex.types, ∀ f ∈ x.2.fields, (fun n => if n = "Query".toList then 9 else if n = "U".toList then 5 else
      if n = "B".toList then 4 else if n = "W".toList then 3 else if n = "Int".toList then 0 else 1) f.2.ty.name <
      (fun n => if n = "Query".toList then 9 else if n = "U".toList then 5 else
      if n = "B".toList then 4 else if n = "W".toList then 3 else if n = "Int".toList then 0 else 1) x.1 := by decide +kernel
    exact hall _ this _ hf

/-- No union is left in the arguments of the case. -/
example {c' t' k f a ty} (h : transform ex = some c') (ht' : get "Query".toList c'.types = some t')
    (hf : get k t'.fields = some f) (ha : get a f.args = some ty) : ¬ Bears c' ty.name :=
  C96_no_union_left_partial ex_wf.maps ex_wf.names ex_acyclic h (n := "Query".toList) rfl ht' hf ha

/-! ## Where it goes wrong -/

/-- A list of a union. -/
def exList : Config :=
  ⟨[typ "A" [("a".toList, ⟨.named "Int".toList true, [], 0⟩)], typ "B" [("b".toList, ⟨.named "Int".toList true, [], 0⟩)],
    typ "Query" [("q".toList, ⟨nm "Int", [("x".toList, .list (nm "U") false)], 0⟩)]], [uni "U" ["A", "B"]]⟩

/-- A type inside itself, next to a union. -/
def exCycle : Config :=
  ⟨[typ "A" [plainF "a" "Int"], typ "B" [plainF "b" "Int"],
    typ "Query" [("q".toList, ⟨nm "Int", [("x".toList, nm "T")], 0⟩)],
    typ "T" [plainF "next" "T", plainF "u" "U"]], [uni "U" ["A", "B"]]⟩

/-- A type inside itself keeps the union: the copies have the type itself inside. -/
theorem C96_no_union_left_violated_by_cycle : ∃ c c' : Config, Maps c ∧ Names c ∧ transform c = some c' ∧
    ∃ t' k f a ty, get "Query".toList c'.types = some t' ∧ get k t'.fields = some f ∧ get a f.args = some ty ∧
      Bears c' ty.name := by
  obtain ⟨c', h⟩ := C95_ends exCycle
  have hw : Wf exCycle := wf_of_wfB (by decide +kernel)
  refine ⟨exCycle, c', hw.maps, hw.names, h, ?_⟩
  have h1 : (transform exCycle).map (fun c => (get "Query".toList c.types, get "T__u0".toList c.types,
      get "T".toList c.types, c.unions)) =
      some (some ⟨[("qVar1".toList, ⟨nm "Int", [("x".toList, nm "T__u1")], 0⟩),
          ("qVar0".toList, ⟨nm "Int", [("x".toList, nm "T__u0")], 0⟩)], 0⟩,
        some ⟨[plainF "next" "T", plainF "u" "A"], 0⟩, some ⟨[plainF "u" "U", plainF "next" "T"], 0⟩, exCycle.unions) := by
    rfl
  rw [h] at h1
  simp only [Option.map_some, Option.some.injEq, Prod.mk.injEq] at h1
  refine ⟨_, "qVar0".toList, _, "x".toList, nm "T__u0", h1.1, rfl, rfl, ?_⟩
  refine .field (k := "next".toList) h1.2.1 rfl (.field (k := "u".toList) h1.2.2.1 rfl (.union (ms := ["A".toList, "B".toList]) ?_))
  rw [h1.2.2.2]
  decide +kernel

/-- Two members in one list are accepted by none of the fields put in the place. -/
theorem C95_covered_violated_by_list : ∃ (c c' : Config) (vals : Text → V), Wf c ∧ transform c = some c' ∧
    ∃ t k f, get "Query".toList c.types = some t ∧ get k t.fields = some f ∧ Accepts c f vals ∧
      ∃ t', get "Query".toList c'.types = some t' ∧ ∀ k' f', get k' t'.fields = some f' → ¬ Accepts c' f' vals := by
  obtain ⟨c', h⟩ := C95_ends exList
  have hw : Wf exList := wf_of_wfB (by decide +kernel)
  refine ⟨exList, c', fun _ => .list [.obj [("a".toList, .scalar 1)], .obj [("b".toList, .scalar 1)]], hw, h,
    _, "q".toList, _, rfl, rfl, ?_, ?_⟩
  · intro a t ha
    have := mem_of_get ha
    simp only [List.mem_singleton] at this
    cases this
    have hint : ∀ s, Fits exList (.named "Int".toList true) (.scalar s) := fun s => .scalar (by decide +kernel) (by decide +kernel)
    refine .list fun v hv => ?_
    simp only [List.mem_cons, List.not_mem_nil, or_false] at hv
    rcases hv with rfl | rfl
    · refine .member (ms := ["A".toList, "B".toList]) (m := "A".toList) (by decide +kernel) (by simp) (by intro h; cases h) ?_
      refine .obj (t := ⟨[("a".toList, ⟨.named "Int".toList true, [], 0⟩)], 0⟩) (by decide +kernel) (by decide +kernel) ?_ ?_ ?_
      · intro k f hf
        have := mem_of_get hf
        simp only [List.mem_singleton] at this; cases this; rfl
      · intro k f hf
        have := mem_of_get hf
        simp only [List.mem_singleton] at this; cases this
        exact hint 1
      · intro x hx; simp only [List.mem_singleton] at hx; subst hx; decide +kernel
    · refine .member (ms := ["A".toList, "B".toList]) (m := "B".toList) (by decide +kernel) (by simp) (by intro h; cases h) ?_
      refine .obj (t := ⟨[("b".toList, ⟨.named "Int".toList true, [], 0⟩)], 0⟩) (by decide +kernel) (by decide +kernel) ?_ ?_ ?_
      · intro k f hf
        have := mem_of_get hf
        simp only [List.mem_singleton] at this; cases this; rfl
      · intro k f hf
        have := mem_of_get hf
        simp only [List.mem_singleton] at this; cases this
        exact hint 1
      · intro x hx; simp only [List.mem_singleton] at hx; subst hx; decide +kernel
  · have h1 : (transform exList).map (fun c => (get "Query".toList c.types, get "A".toList c.types,
        get "B".toList c.types, get "A".toList c.unions, get "B".toList c.unions)) =
        some (some ⟨[("qVar1".toList, ⟨nm "Int", [("x".toList, .list (nm "B") false)], 0⟩),
          ("qVar0".toList, ⟨nm "Int", [("x".toList, .list (nm "A") false)], 0⟩)], 0⟩,
        some ⟨[("a".toList, ⟨.named "Int".toList true, [], 0⟩)], 0⟩,
        some ⟨[("b".toList, ⟨.named "Int".toList true, [], 0⟩)], 0⟩, none, none) := by
      rfl
    rw [h] at h1
    simp only [Option.map_some, Option.some.injEq, Prod.mk.injEq] at h1
    obtain ⟨hq, hA, hB, hAu, hBu⟩ := h1
    refine ⟨_, hq, fun k' f' hf' hacc => ?_⟩
    have := mem_of_get hf'
    simp only [List.mem_cons, List.not_mem_nil, or_false] at this
    rcases this with hx | hx
    · cases hx
      have hfit := hacc "x".toList (.list (nm "B") false) rfl
      cases hfit with
      | list hall =>
        have := hall (.obj [("a".toList, .scalar 1)]) List.mem_cons_self
        cases this with
        | member hu => rw [hBu] at hu; cases hu
        | obj _ ht _ _ hk =>
          rw [hB] at ht; cases ht
          have := hk ("a".toList, .scalar 1) List.mem_cons_self
          revert this; decide +kernel
    · cases hx
      have hfit := hacc "x".toList (.list (nm "A") false) rfl
      cases hfit with
      | list hall =>
        have := hall (.obj [("b".toList, .scalar 1)]) (List.mem_cons_of_mem _ List.mem_cons_self)
        cases this with
        | member hu => rw [hAu] at hu; cases hu
        | obj _ ht _ _ hk =>
          rw [hA] at ht; cases ht
          have := hk ("b".toList, .scalar 1) List.mem_cons_self
          revert this; decide +kernel

/-- A field named like another one with a mark. -/
def exClash : Config :=
  ⟨[typ "A" [plainF "a" "Int"], typ "B" [plainF "b" "Int"],
    typ "Query" [("q".toList, ⟨nm "Int", [("x".toList, nm "U")], 0⟩), plainF "qVar0" "A"]], [uni "U" ["A", "B"]]⟩

/-- A field named like another one with a mark takes the place of the copy: the first member is
accepted nowhere any more. -/
theorem C95_covered_violated_by_name : ∃ c c' : Config, Maps c ∧ Names c ∧ Inhabited c ∧ transform c = some c' ∧
    ∃ t, get "Query".toList c'.types = some t ∧ (∃ f, get "qVar1".toList t.fields = some f ∧ f.args.map (fun a => a.2.name) = ["B".toList]) ∧
      (∀ k f, get k t.fields = some f → f.args.map (fun a => a.2.name) ≠ ["A".toList]) := by
  obtain ⟨c', h⟩ := C95_ends exClash
  refine ⟨exClash, c', ⟨by decide +kernel, ?_, ?_⟩, ⟨?_, ?_, ?_, ?_⟩, ?_, h, ?_⟩
  · have : ∀ x ∈ exClash.types, (x.2.fields.map (·.1)).Nodup := by decide +kernel
    exact fun n t hn => this _ hn
  · have : ∀ x ∈ exClash.types, ∀ f ∈ x.2.fields, (f.2.args.map (·.1)).Nodup := by decide +kernel
    exact fun n t hn k f hf => this _ hn _ hf
  · have : ∀ x ∈ exClash.types, noUnderscore x.1 = true := by decide +kernel
    exact fun n t hn => clean_of_noUnderscore (this _ hn)
  · have : ∀ x ∈ exClash.unions, noUnderscore x.1 = true ∧ ∀ m ∈ x.2, noUnderscore m = true := by decide +kernel
    exact fun n ms hn => ⟨clean_of_noUnderscore (this _ (mem_of_get hn)).1,
      fun m hm => clean_of_noUnderscore ((this _ (mem_of_get hn)).2 m hm)⟩
  · have : ∀ x ∈ exClash.types, ∀ f ∈ x.2.fields, noUnderscore f.2.ty.name = true := by decide +kernel
    exact fun n t hn k f hf => clean_of_noUnderscore (this _ hn _ hf)
  · have : ∀ x ∈ exClash.types, ∀ f ∈ x.2.fields, ∀ a ∈ f.2.args, noUnderscore a.2.name = true := by decide +kernel
    exact fun n t hn k f hf a ty ha => clean_of_noUnderscore (this _ hn _ hf _ ha)
  · have : ∀ x ∈ exClash.unions, x.2 ≠ [] := by decide +kernel
    exact fun n ms hn => this _ (mem_of_get hn)
  · have h1 : (transform exClash).map (fun c => get "Query".toList c.types) =
        some (some ⟨[plainF "qVar0" "A", ("qVar1".toList, ⟨nm "Int", [("x".toList, nm "B")], 0⟩),
          ("qVar0".toList, ⟨nm "Int", [("x".toList, nm "A")], 0⟩)], 0⟩) := by decide +kernel
    rw [h] at h1
    simp only [Option.map_some, Option.some.injEq] at h1
    refine ⟨_, h1, ⟨_, rfl, rfl⟩, ?_⟩
    intro k f hf
    have hall : ∀ k ∈ ["qVar0".toList, "qVar1".toList], ∀ f, get k [plainF "qVar0" "A",
        ("qVar1".toList, (⟨nm "Int", [("x".toList, nm "B")], 0⟩ : Field)),
        ("qVar0".toList, ⟨nm "Int", [("x".toList, nm "A")], 0⟩)] = some f → f.args.map (fun a => a.2.name) ≠ ["A".toList] := by
      intro k hk f hf
      simp only [List.mem_cons, List.not_mem_nil, or_false] at hk
      rcases hk with rfl | rfl
      · cases hf; decide +kernel
      · cases hf; decide +kernel
    refine hall k ?_ f hf
    have := List.mem_map_of_mem (f := (·.1)) (mem_of_get hf)
    simp only [List.map_cons, List.map_nil, plainF, List.mem_cons, List.not_mem_nil, or_false] at this ⊢
    rcases this with h | h | h
    · exact .inl h
    · exact .inr h
    · exact .inl h

/-- A union without members takes the field away. -/
theorem C95_covered_violated_by_empty_union : ∃ c c' : Config, Maps c ∧ transform c = some c' ∧
    (∃ t k f, get "Query".toList c.types = some t ∧ get k t.fields = some f) ∧
    ∃ t', get "Query".toList c'.types = some t' ∧ t'.fields = [] := by
  obtain ⟨c', h⟩ := C95_ends ⟨[typ "Query" [("q".toList, ⟨nm "Int", [("x".toList, nm "U")], 0⟩)]], [uni "U" []]⟩
  refine ⟨_, c', ⟨by decide +kernel, ?_, ?_⟩, h, ⟨_, "q".toList, _, rfl, rfl⟩, ?_⟩
  · intro n t hn
    simp only [List.mem_singleton] at hn
    cases hn
    decide +kernel
  · intro n t hn k f hf
    simp only [List.mem_singleton] at hn
    cases hn
    simp only [List.mem_singleton] at hf
    cases hf
    decide +kernel
  · have h1 : (transform ⟨[typ "Query" [("q".toList, ⟨nm "Int", [("x".toList, nm "U")], 0⟩)]], [uni "U" []]⟩).map
        (fun c => get "Query".toList c.types) = some (some ⟨[], 0⟩) := by decide +kernel
    rw [h] at h1
    simp only [Option.map_some, Option.some.injEq] at h1
    exact ⟨_, h1, rfl⟩

/-- A type named like a copy takes its place: the argument is of a type that was never meant. -/
theorem C95_sound_violated_by_type_name : ∃ c c' : Config, Maps c ∧ transform c = some c' ∧
    (∃ t f, get "Query".toList c.types = some t ∧ get "q".toList t.fields = some f ∧
      f.args.map (fun a => a.2.name) = ["T".toList]) ∧
    (∃ t, get "T".toList c.types = some t ∧ t.fields.map (·.1) = ["u".toList]) ∧
    ∃ t' f' x, get "Query".toList c'.types = some t' ∧ get "qVar0".toList t'.fields = some f' ∧
      f'.args.map (fun a => a.2.name) = ["T__u0".toList] ∧ get "T__u0".toList c'.types = some x ∧
      x.fields.map (·.1) = ["z".toList] := by
  obtain ⟨c', h⟩ := C95_ends ⟨[typ "A" [plainF "a" "Int"], typ "Query" [("q".toList, ⟨nm "Int", [("x".toList, nm "T")], 0⟩)],
    typ "T" [plainF "u" "U"], typ "T__u0" [plainF "z" "Int"]], [uni "U" ["A"]]⟩
  refine ⟨_, c', ⟨by decide +kernel, ?_, ?_⟩, h, ⟨_, _, rfl, rfl, rfl⟩, ⟨_, rfl, rfl⟩, ?_⟩
  · intro n t hn
    simp only [List.mem_cons, List.not_mem_nil, or_false] at hn
    rcases hn with hn | hn | hn | hn <;> cases hn <;> decide +kernel
  · intro n t hn k f hf
    simp only [List.mem_cons, List.not_mem_nil, or_false] at hn
    rcases hn with hn | hn | hn | hn <;> cases hn <;> simp only [List.mem_singleton] at hf <;> cases hf <;> decide +kernel
  · have h1 : (transform ⟨[typ "A" [plainF "a" "Int"],
        typ "Query" [("q".toList, ⟨nm "Int", [("x".toList, nm "T")], 0⟩)],
        typ "T" [plainF "u" "U"], typ "T__u0" [plainF "z" "Int"]], [uni "U" ["A"]]⟩).map
        (fun c => (get "Query".toList c.types, get "T__u0".toList c.types)) =
        some (some ⟨[("qVar0".toList, ⟨nm "Int", [("x".toList, nm "T__u0")], 0⟩)], 0⟩,
          some ⟨[plainF "z" "Int"], 0⟩) := by rfl
    rw [h] at h1
    simp only [Option.map_some, Option.some.injEq, Prod.mk.injEq] at h1
    exact ⟨_, _, _, h1.1, rfl, rfl, h1.2, rfl⟩

end Verif.UnionIn
