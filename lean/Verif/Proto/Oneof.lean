import Verif.Proto.Fields

/-!
# The members of unions and the choices in oneofs
-/

namespace Verif.Proto

open Verif.Mustache (Text)
open Verif.Exec (Ty)
open Verif.Transform (At Lacks get insert get_some get_none get_insert)

set_option linter.unusedSimpArgs false

/-- A field of a group that is chosen is required. -/
def req (x : Text × Fld) : Text × Fld := (x.1, { x.2 with ty := required x.2.ty })

/-- What is taken from one group. -/
def Picked (g : List (Text × Fld)) (y : Option (Text × Fld)) : Prop :=
  (∃ x, g = [x] ∧ y = some x) ∨ (g.length ≠ 1 ∧ (y = none ∨ ∃ x ∈ g, y = some (req x)))

/-- What is taken from each group. -/
inductive Chosen : List (List (Text × Fld)) → List (Option (Text × Fld)) → Prop
  | nil : Chosen [] []
  | cons {g r y c} : Picked g y → Chosen r c → Chosen (g :: r) (y :: c)

theorem chosen_at {gs c} (h : Chosen gs c) : c.length = gs.length ∧ ∀ (o : Nat) g y, gs[o]? = some g → c[o]? = some y → Picked g y := by
  induction h with
  | nil => exact ⟨rfl, fun o g y h => by cases h⟩
  | cons hp _ ih =>
    refine ⟨by simp [ih.1], ?_⟩
    intro o g y h1 h2
    cases o with
    | zero =>
      simp only [List.getElem?_cons_zero, Option.some.injEq] at h1 h2
      rw [← h1, ← h2]; exact hp
    | succ o =>
      simp only [List.getElem?_cons_succ] at h1 h2
      exact ih.2 o g y h1 h2

theorem chosen_of {R : Nat → Option (Text × Fld) → Prop} {gs : List (List (Text × Fld))}
    (h : ∀ (o : Nat) g, gs[o]? = some g → ∃ y, Picked g y ∧ R o y) : ∃ c, Chosen gs c ∧ ∀ (o : Nat) y, c[o]? = some y → R o y := by
  induction gs generalizing R with
  | nil => exact ⟨[], .nil, fun o y h => by cases h⟩
  | cons g r ih =>
    obtain ⟨y, h1, h2⟩ := h 0 g rfl
    obtain ⟨c, h3, h4⟩ := ih (R := fun o y => R (o + 1) y) (fun o g' hg => h (o + 1) g' (by simpa using hg))
    refine ⟨y :: c, .cons h1 h3, ?_⟩
    intro o z hz
    cases o with
    | zero => simp only [List.getElem?_cons_zero, Option.some.injEq] at hz; rw [← hz]; exact h2
    | succ o => exact h4 o z (by simpa using hz)

/-- A type with the chosen fields. -/
def Typ.with (t : Typ) (c : List (Option (Text × Fld))) : Typ := { t with fields := putFields (c.filterMap id) t.fields }

theorem with_none (t : Typ) (c : List (Option (Text × Fld))) : t.with (none :: c) = t.with c := rfl

theorem with_some (t : Typ) (x : Text × Fld) (c : List (Option (Text × Fld))) : t.with (some x :: c) = (t.put x.1 x.2).with c := rfl

/-- Each member is for a choice. -/
theorem collect_chosen {gs : List (List (Text × Fld))} {name : Text} {t : Typ} : ∀ x ∈ collect gs name t, ∃ c, Chosen gs c ∧ x.2 = t.with c := by
  induction gs generalizing name t with
  | nil =>
    intro x hx
    rw [collect] at hx
    rw [List.mem_singleton.1 hx]
    exact ⟨[], .nil, rfl⟩
  | cons g r ih =>
    intro x hx
    by_cases hg : g.length = 1
    · obtain ⟨y, rfl⟩ := List.length_eq_one_iff.1 hg
      rw [collect] at hx
      obtain ⟨c, h1, h2⟩ := ih x hx
      exact ⟨some y :: c, .cons (.inl ⟨y, rfl, rfl⟩) h1, by rw [h2, with_some]⟩
    · rw [collect_other g r _ t hg] at hx
      rcases List.mem_append.1 hx with hx | hx
      · obtain ⟨c, h1, h2⟩ := ih x hx
        exact ⟨none :: c, .cons (.inr ⟨hg, .inl rfl⟩) h1, by rw [h2, with_none]⟩
      · obtain ⟨y, hy, hx⟩ := List.mem_flatMap.1 hx
        obtain ⟨c, h1, h2⟩ := ih x hx
        refine ⟨some (req y.1) :: c, .cons (.inr ⟨hg, .inr ⟨y.1, ?_, rfl⟩⟩) h1, by rw [h2, with_some]; rfl⟩
        exact List.fst_mem_of_mem_zipIdx hy

/-- There is a member for each choice. -/
theorem chosen_collect {gs : List (List (Text × Fld))} {c : List (Option (Text × Fld))} (h : Chosen gs c) (name : Text) (t : Typ) :
    ∃ n, (n, t.with c) ∈ collect gs name t := by
  induction h generalizing name t with
  | nil => exact ⟨name, by rw [collect]; exact List.mem_singleton.2 rfl⟩
  | @cons g r y c hp _ ih =>
    rcases hp with ⟨x, rfl, rfl⟩ | ⟨hg, rfl | ⟨x, hx, rfl⟩⟩
    · rw [collect, with_some]
      exact ih _ _
    · rw [collect_other g r _ t hg, with_none]
      obtain ⟨n, hn⟩ := ih (name ++ "__Var".toList) t
      exact ⟨n, List.mem_append_left _ hn⟩
    · rw [collect_other g r _ t hg, with_some]
      obtain ⟨i, hi⟩ := List.mem_iff_getElem?.1 hx
      obtain ⟨n, hn⟩ := ih (name ++ "__Var".toList ++ digits i) (t.put (req x).1 (req x).2)
      refine ⟨n, List.mem_append_right _ (List.mem_flatMap.2 ⟨(x, i), ?_, hn⟩)⟩
      exact List.mem_zipIdx_iff_getElem?.2 hi

theorem collect_ne (gs : List (List (Text × Fld))) (name : Text) (t : Typ) : 1 ≤ (collect gs name t).length := by
  induction gs generalizing name t with
  | nil => rw [collect]; simp
  | cons g r ih =>
    by_cases hg : g.length = 1
    · obtain ⟨y, rfl⟩ := List.length_eq_one_iff.1 hg
      rw [collect]; exact ih _ _
    · rw [collect_other g r _ t hg, List.length_append]
      have := ih (name ++ "__Var".toList) t
      omega

theorem collect_one {gs : List (List (Text × Fld))} (h : ∀ g ∈ gs, g.length ≤ 1) (name : Text) (t : Typ) : (collect gs name t).length = 1 := by
  induction gs generalizing name t with
  | nil => rw [collect]; rfl
  | cons g r ih =>
    have ih := fun n t => ih (fun g hg => h g (List.mem_cons_of_mem _ hg)) n t
    by_cases hg : g.length = 1
    · obtain ⟨y, rfl⟩ := List.length_eq_one_iff.1 hg
      rw [collect]; exact ih _ _
    · have h0 : g = [] := List.length_eq_zero_iff.1 (by have := h g (by simp); omega)
      rw [collect_other g r _ t hg, h0]
      simpa using ih (name ++ "__Var".toList) t

theorem collect_many {gs : List (List (Text × Fld))} (h : ∃ g ∈ gs, 2 ≤ g.length) (name : Text) (t : Typ) : (collect gs name t).length ≠ 1 := by
  induction gs generalizing name t with
  | nil => obtain ⟨g, hg, _⟩ := h; cases hg
  | cons g r ih =>
    obtain ⟨g', hg', hl⟩ := h
    rcases List.mem_cons.1 hg' with rfl | hg'
    · have h1 : g'.length ≠ 1 := by omega
      rw [collect_other g' r _ t h1, List.length_append]
      have h2 := collect_ne r (name ++ "__Var".toList) t
      have h3 : 1 ≤ (g'.zipIdx.flatMap (fun x => collect r (name ++ "__Var".toList ++ digits x.2)
          (t.put x.1.1 { x.1.2 with ty := required x.1.2.ty }))).length := by
        cases g' with
        | nil => simp at hl
        | cons a b =>
          rw [List.zipIdx_cons, List.flatMap_cons, List.length_append]
          have := collect_ne r (name ++ "__Var".toList ++ digits 0) (t.put a.1 { a.2 with ty := required a.2.ty })
          simp only at this ⊢
          omega
      omega
    · have ih := fun n t => ih ⟨g', hg', hl⟩ n t
      by_cases hg : g.length = 1
      · obtain ⟨y, rfl⟩ := List.length_eq_one_iff.1 hg
        rw [collect]; exact ih _ _
      · rw [collect_other g r _ t hg, List.length_append]
        have := ih (name ++ "__Var".toList) t
        have h2 := collect_ne r (name ++ "__Var".toList) t
        omega

/-! ## What the groups of a message are -/

/-- The fields of a message with what is made of them. -/
structure Made (files : List (List Text × FileD)) (camel : Text → Text) (m : MsgD) (l : List (FieldD × Fld)) (fs : List (Text × Fld))
    (gs : List (List (Text × Fld))) : Prop where
  fields : l.map (·.1) = m.fields
  types : ∀ x ∈ l, ∀ t, FieldTy files x.1 t → x.2.ty = t
  base : ∀ k fd, At fs k fd ↔ ∃ x ∈ l, x.1.oneof = none ∧ k = camel x.1.name ∧ fd = x.2
  group : ∀ o g, gs[o]? = some g → g = (l.filter (fun x => x.1.oneof = some o)).map (fun x => (camel x.1.name, x.2))
  bound : ∀ f ∈ m.fields, ∀ o, f.oneof = some o → o < gs.length
  names : (l.map (fun x => camel x.1.name)).Nodup

theorem made {files : List (List Text × FileD)} (hf : Files files) {camel : Text → Text} {m : MsgD} (hn : FieldNames camel m) {c : Comments}
    {maps : List Text} (hk : Known files m maps) {p : List Nat} {fs : List (Text × Fld)} {gs : List (List (Text × Fld))}
    (h : fieldsOf camel c maps p 0 m.fields ([], List.replicate m.oneofs []) = .ok (fs, gs)) :
    ∃ l, Made files camel m l fs gs ∧ gs.length = m.oneofs ∧ ∀ j f fd, l[j]? = some (f, fd) → fd.doc = c (p ++ [2, j]) := by
  obtain ⟨l, e1, e2, e3, e4, e5, e6⟩ := fieldsOf_made h
  have hmem : ∀ x ∈ l, x.1 ∈ m.fields := fun x hx => by rw [← e1]; exact List.mem_map.2 ⟨x, hx, rfl⟩
  have hname : ∀ x ∈ l, fieldName camel x.1 = camel x.1.name := fun x hx => fieldName_word camel (hn.words _ (hmem x hx))
  have hnod : (l.map (fun x => camel x.1.name)).Nodup := by
    have := hn.distinct
    rw [← e1, List.map_map] at this
    exact this
  refine ⟨l, ⟨e1, ?_, ?_, ?_, ?_, hnod⟩, by rw [e4, List.length_replicate], fun j f fd hj => by simpa using (e2 j f fd hj).2⟩
  · intro x hx t ht
    obtain ⟨j, hj⟩ := List.mem_iff_getElem?.1 hx
    exact fieldType_spec hf hk (hmem x hx) ht (e2 j x.1 x.2 hj).1
  · intro k fd
    have e7 : fs = putFields ((l.filter (fun x => x.1.oneof.isNone)).map (fun x => (fieldName camel x.1, x.2))) [] := by
      rw [e3, putFields, List.foldl_map]
    have hnod' : (((l.filter (fun x => x.1.oneof.isNone)).map (fun x => (fieldName camel x.1, x.2))).map (·.1)).Nodup := by
      rw [List.map_map]
      have e8 : (l.filter (fun x => x.1.oneof.isNone)).map ((fun x => x.1) ∘ fun x => (fieldName camel x.1, x.2)) =
          (l.filter (fun x => x.1.oneof.isNone)).map (fun x => camel x.1.name) :=
        List.map_congr_left (fun x hx => hname x (List.mem_filter.1 hx).1)
      rw [e8]
      exact hnod.sublist ((List.filter_sublist).map _)
    rw [e7, putFields_get _ _ hnod']
    constructor
    · rintro (h1 | ⟨_, h1⟩)
      · obtain ⟨x, hx, e⟩ := List.mem_map.1 h1
        obtain ⟨hx, ho⟩ := List.mem_filter.1 hx
        simp only [Prod.mk.injEq] at e
        exact ⟨x, hx, by simpa using ho, by rw [← hname x hx]; exact e.1.symm, e.2.symm⟩
      · rw [← get_some] at h1; cases h1
    · rintro ⟨x, hx, ho, rfl, rfl⟩
      exact .inl (List.mem_map.2 ⟨x, List.mem_filter.2 ⟨hx, by simp [ho]⟩, by rw [hname x hx]⟩)
  · intro o g hg
    have ho : o < m.oneofs := by
      have := (List.getElem?_eq_some_iff.1 hg).1
      rw [e4, List.length_replicate] at this
      exact this
    have := e6 o [] (by rw [List.getElem?_replicate, if_pos ho])
    rw [hg, List.nil_append] at this
    rw [Option.some.inj this]
    exact List.map_congr_left (fun x hx => by rw [hname x (List.mem_filter.1 hx).1])
  · intro f hf' o ho
    rw [e4]
    exact e5 f hf' o ho

theorem made_unique {files camel m l fs gs} (h : Made files camel m l fs gs) {x y : FieldD × Fld} (hx : x ∈ l) (hy : y ∈ l)
    (e : camel x.1.name = camel y.1.name) : x = y := nodup_inj h.names hx hy e

theorem made_alone {files camel m l fs gs} (h : Made files camel m l fs gs) {o : Nat} {g : List (Text × Fld)} (hg : gs[o]? = some g) :
    g.length = 1 ↔ Alone m o := by
  rw [h.group o g hg, List.length_map, Alone, ← h.fields, List.filter_map, List.length_map]
  rfl

theorem made_field {files camel m l fs gs} (h : Made files camel m l fs gs) {f : FieldD} (hf : f ∈ m.fields) : ∃ fd, (f, fd) ∈ l := by
  rw [← h.fields] at hf
  obtain ⟨x, hx, rfl⟩ := List.mem_map.1 hf
  exact ⟨x.2, hx⟩

theorem chosen_sub {gs c} (h : Chosen gs c) : ∀ x ∈ c.filterMap id, x.1 ∈ gs.flatten.map (·.1) := by
  induction h with
  | nil => intro x hx; cases hx
  | @cons g r y c hp _ ih =>
    intro x hx
    rw [List.flatten_cons, List.map_append, List.mem_append]
    cases y with
    | none => exact .inr (ih x hx)
    | some y =>
      have hx : x ∈ y :: c.filterMap id := hx
      rcases List.mem_cons.1 hx with rfl | hx
      · left
        rcases hp with ⟨z, rfl, e⟩ | ⟨_, e | ⟨z, hz, e⟩⟩
        · cases e; simp
        · cases e
        · cases e; exact List.mem_map.2 ⟨z, hz, rfl⟩
      · exact .inr (ih x hx)

theorem chosen_nodup {gs c} (h : Chosen gs c) (hn : (gs.flatten.map (·.1)).Nodup) : ((c.filterMap id).map (·.1)).Nodup := by
  induction h with
  | nil => simp
  | @cons g r y c hp hc ih =>
    rw [List.flatten_cons, List.map_append, List.nodup_append] at hn
    cases y with
    | none => exact ih hn.2.1
    | some y =>
      show (y.1 :: (c.filterMap id).map (·.1)).Nodup
      rw [List.nodup_cons]
      refine ⟨fun hm => ?_, ih hn.2.1⟩
      obtain ⟨x, hx, e⟩ := List.mem_map.1 hm
      have h1 := chosen_sub hc x hx
      have h2 : y.1 ∈ g.map (·.1) := by
        rcases hp with ⟨z, rfl, e⟩ | ⟨_, e | ⟨z, hz, e⟩⟩
        · cases e; simp
        · cases e
        · cases e; exact List.mem_map.2 ⟨z, hz, rfl⟩
      exact hn.2.2 _ h2 _ h1 e.symm

theorem made_flatten {files camel m l fs gs} (h : Made files camel m l fs gs) : (gs.flatten.map (·.1)).Nodup := by
  rw [List.Nodup, List.pairwise_map, List.pairwise_flatten]
  have hmem : ∀ (o : Nat) g, gs[o]? = some g → ∀ x ∈ g, ∃ y ∈ l, y.1.oneof = some o ∧ x.1 = camel y.1.name := by
    intro o g hg x hx
    rw [h.group o g hg] at hx
    obtain ⟨y, hy, rfl⟩ := List.mem_map.1 hx
    obtain ⟨hy, ho⟩ := List.mem_filter.1 hy
    exact ⟨y, hy, by simpa using ho, rfl⟩
  constructor
  · intro g hg
    obtain ⟨o, ho⟩ := List.mem_iff_getElem?.1 hg
    have : (g.map (·.1)).Nodup := by
      rw [h.group o g ho, List.map_map]
      exact h.names.sublist ((List.filter_sublist).map _)
    rw [List.Nodup, List.pairwise_map] at this
    exact this
  · rw [List.pairwise_iff_getElem]
    intro i j hi hj hij x hx y hy e
    obtain ⟨x', hx', ho, ex⟩ := hmem i _ (List.getElem?_eq_getElem hi) x hx
    obtain ⟨y', hy', ho', ey⟩ := hmem j _ (List.getElem?_eq_getElem hj) y hy
    rw [ex, ey] at e
    have := made_unique h hx' hy' e
    rw [this, ho'] at ho
    cases ho
    omega

/-- A type with the fields of a choice fits it. -/
theorem fits_of {files camel m l fs gs} (h : Made files camel m l fs gs) {c : List (Option (Text × Fld))} (hc : Chosen gs c)
    {pick : Nat → Option Text} (hp : ∀ (o : Nat) g y, gs[o]? = some g → g.length ≠ 1 → c[o]? = some y → y.map (·.1) = pick o) (T : Typ)
    (hT : T.fields = putFields (c.filterMap id) fs) : Fits files camel m pick T := by
  have hat := chosen_at hc
  have hget := putFields_get (c.filterMap id) fs (chosen_nodup hc (made_flatten h))
  rw [← hT] at hget
  -- what is taken comes from a field of the group
  have taken : ∀ z ∈ c.filterMap id, ∃ (o : Nat) (g : List (Text × Fld)) (x : FieldD × Fld), gs[o]? = some g ∧ c[o]? = some (some z) ∧ x ∈ l ∧
      x.1.oneof = some o ∧ z.1 = camel x.1.name ∧ (g.length = 1 → z.2 = x.2) ∧ (g.length ≠ 1 → z.2 = { x.2 with ty := required x.2.ty }) := by
    intro z hz
    obtain ⟨y, hy, e⟩ := List.mem_filterMap.1 hz
    simp only [id] at e
    subst e
    obtain ⟨o, ho⟩ := List.mem_iff_getElem?.1 hy
    have hol : o < gs.length := by
      have := (List.getElem?_eq_some_iff.1 ho).1
      rw [hat.1] at this
      exact this
    have hg := List.getElem?_eq_getElem hol
    have mem : ∀ w ∈ gs[o], ∃ x ∈ l, x.1.oneof = some o ∧ w = (camel x.1.name, x.2) := by
      intro w hw
      rw [h.group o _ hg] at hw
      obtain ⟨x, hx, rfl⟩ := List.mem_map.1 hw
      obtain ⟨hx, hxo⟩ := List.mem_filter.1 hx
      exact ⟨x, hx, by simpa using hxo, rfl⟩
    rcases hat.2 o _ _ hg ho with ⟨w, e1, e2⟩ | ⟨h1, h2 | ⟨w, hw, e2⟩⟩
    · cases e2
      obtain ⟨x, hx, hxo, e3⟩ := mem z (by rw [e1]; simp)
      exact ⟨o, _, x, hg, ho, hx, hxo, by rw [e3], fun _ => by rw [e3], fun hl => absurd (by rw [e1]; rfl) hl⟩
    · cases h2
    · obtain ⟨x, hx, hxo, e3⟩ := mem w hw
      cases e2
      refine ⟨o, _, x, hg, ho, hx, hxo, by rw [e3]; rfl, fun hl => absurd hl h1, fun _ => by rw [e3]; rfl⟩
  have fromGroup : ∀ f ∈ m.fields, ∀ o, f.oneof = some o → ∀ fd, At T.fields (camel f.name) fd →
      ∃ g fd', gs[o]? = some g ∧ (f, fd') ∈ l ∧ c[o]? = some (some (camel f.name, fd)) ∧ (g.length = 1 → fd = fd') ∧
        (g.length ≠ 1 → fd = { fd' with ty := required fd'.ty }) := by
    intro f hf o ho fd ha
    obtain ⟨fd', hfd⟩ := made_field h hf
    rcases (hget _ _).1 ha with hz | ⟨_, hb⟩
    · obtain ⟨o', g, x, k1, k2, k3, k4, k5, k6, k7⟩ := taken _ hz
      have := made_unique h hfd k3 k5
      subst this
      rw [ho] at k4
      cases k4
      exact ⟨g, fd', k1, k3, k2, k6, k7⟩
    · obtain ⟨x, hx, hxo, e, _⟩ := (h.base _ _).1 hb
      have := made_unique h hfd hx e
      subst this
      rw [ho] at hxo
      cases hxo
  refine ⟨?_, ?_, ?_, ?_⟩
  · intro k fd ha
    rcases (hget _ _).1 ha with hz | ⟨_, hb⟩
    · obtain ⟨o, g, x, _, _, hx, _, e, _⟩ := taken _ hz
      exact ⟨x.1, by rw [← h.fields]; exact List.mem_map.2 ⟨x, hx, rfl⟩, e.symm⟩
    · obtain ⟨x, hx, _, e, _⟩ := (h.base _ _).1 hb
      exact ⟨x.1, by rw [← h.fields]; exact List.mem_map.2 ⟨x, hx, rfl⟩, e.symm⟩
  · intro f hf
    constructor
    · rintro ⟨fd, ha⟩ o ho
      obtain ⟨g, fd', k1, k2, k3, _⟩ := fromGroup f hf o ho fd ha
      by_cases hl : g.length = 1
      · exact .inl ((made_alone h k1).1 hl)
      · exact .inr (hp o g _ k1 hl k3).symm
    · intro hall
      obtain ⟨fd', hfd⟩ := made_field h hf
      cases ho : f.oneof with
      | none =>
        refine ⟨fd', (hget _ _).2 (.inr ⟨fun hm => ?_, (h.base _ _).2 ⟨(f, fd'), hfd, ho, rfl, rfl⟩⟩)⟩
        obtain ⟨z, hz, e⟩ := List.mem_map.1 hm
        obtain ⟨o, g, x, _, _, hx, hxo, e2, _⟩ := taken z hz
        rw [e] at e2
        have := made_unique h hfd hx e2
        subst this
        rw [ho] at hxo
        cases hxo
      | some o =>
        have hol := h.bound f hf o ho
        have hg := List.getElem?_eq_getElem hol
        have hcl : o < c.length := by rw [hat.1]; exact hol
        have hco := List.getElem?_eq_getElem hcl
        have hin : (camel f.name, fd') ∈ gs[o] := by
          rw [h.group o _ hg]
          exact List.mem_map.2 ⟨(f, fd'), List.mem_filter.2 ⟨hfd, by simp [ho]⟩, rfl⟩
        have intoS : ∀ z, c[o] = some z → z ∈ c.filterMap id := by
          intro z hz
          rw [hz] at hco
          exact List.mem_filterMap.2 ⟨some z, List.mem_of_getElem? hco, rfl⟩
        rcases hat.2 o _ _ hg hco with ⟨w, e1, e2⟩ | ⟨h1, _⟩
        · rw [e1, List.mem_singleton] at hin
          have := intoS w e2
          rw [← hin] at this
          exact ⟨fd', (hget _ _).2 (.inl this)⟩
        · rcases hall o ho with ha | ha
          · exact absurd ((made_alone h hg).2 ha) h1
          · have := hp o _ _ hg h1 hco
            rw [ha] at this
            cases hcc : c[o] with
            | none => rw [hcc] at this; cases this
            | some z =>
              rw [hcc] at this
              have e3 : z.1 = camel f.name := Option.some.inj this
              refine ⟨z.2, (hget _ _).2 (.inl ?_)⟩
              rw [← e3]
              exact intoS z hcc
  · intro f hf o fd t ho hal ha ht
    obtain ⟨g, fd', k1, k2, k3, k4, k5⟩ := fromGroup f hf o ho fd ha
    have hl : g.length ≠ 1 := fun e => hal ((made_alone h k1).1 e)
    rw [k5 hl]
    have := h.types _ k2 t ht
    simp only at this ⊢
    rw [this]
    cases t <;> rfl
  · intro f hf fd t hal ha ht
    cases ho : f.oneof with
    | some o =>
      obtain ⟨g, fd', k1, k2, k3, k4, k5⟩ := fromGroup f hf o ho fd ha
      rw [k4 ((made_alone h k1).2 (hal o ho))]
      exact h.types _ k2 t ht
    | none =>
      rcases (hget _ _).1 ha with hz | ⟨_, hb⟩
      · obtain ⟨o, g, x, _, _, hx, hxo, e2, _⟩ := taken _ hz
        obtain ⟨fd', hfd⟩ := made_field h hf
        have := made_unique h hfd hx e2
        subst this
        rw [ho] at hxo
        cases hxo
      · obtain ⟨x, hx, hxo, e, rfl⟩ := (h.base _ _).1 hb
        obtain ⟨fd', hfd⟩ := made_field h hf
        have := made_unique h hfd hx e
        subst this
        exact h.types _ hx t ht

/-- Each member fits a choice. -/
theorem member_fits {files camel m l fs gs} (h : Made files camel m l fs gs) {name : Text} {t : Typ} (ht : t.fields = fs) :
    ∀ x ∈ collect gs name t, ∃ pick, Choice camel m pick ∧ ∀ T : Typ, T.fields = x.2.fields → Fits files camel m pick T := by
  intro x hx
  obtain ⟨c, hc, e⟩ := collect_chosen x hx
  have hat := chosen_at hc
  refine ⟨fun o => (c[o]?.getD none).map (·.1), ?_, ?_⟩
  · intro o k hk
    cases hco : c[o]? with
    | none => simp only [hco] at hk; cases hk
    | some y =>
      simp only [hco, Option.getD_some] at hk
      have hol : o < gs.length := by
        have := (List.getElem?_eq_some_iff.1 hco).1
        rw [hat.1] at this
        exact this
      have hg := List.getElem?_eq_getElem hol
      have mem : ∀ w ∈ gs[o], ∃ f ∈ m.fields, f.oneof = some o ∧ camel f.name = w.1 := by
        intro w hw
        rw [h.group o _ hg] at hw
        obtain ⟨x, hx, rfl⟩ := List.mem_map.1 hw
        obtain ⟨hx, hxo⟩ := List.mem_filter.1 hx
        exact ⟨x.1, by rw [← h.fields]; exact List.mem_map.2 ⟨x, hx, rfl⟩, by simpa using hxo, rfl⟩
      rcases hat.2 o _ _ hg hco with ⟨w, e1, rfl⟩ | ⟨_, rfl | ⟨w, hw, rfl⟩⟩
      · obtain ⟨f, k1, k2, k3⟩ := mem w (by rw [e1]; simp)
        exact ⟨f, k1, k2, by rw [k3]; exact Option.some.inj hk⟩
      · cases hk
      · obtain ⟨f, k1, k2, k3⟩ := mem w hw
        exact ⟨f, k1, k2, by rw [k3]; exact Option.some.inj hk⟩
  · intro T hT
    refine fits_of h hc ?_ T (by rw [hT, e, Typ.with, ht])
    intro o g y _ _ hy
    simp only [hy, Option.getD_some]

/-- Each choice has a member. -/
theorem choice_member {files camel m l fs gs} (h : Made files camel m l fs gs) {pick : Nat → Option Text} (hp : Choice camel m pick) (name : Text)
    {t : Typ} (ht : t.fields = fs) : ∃ x ∈ collect gs name t, ∀ T : Typ, T.fields = x.2.fields → Fits files camel m pick T := by
  obtain ⟨c, hc, hr⟩ := chosen_of (gs := gs) (R := fun o y => ∀ g, gs[o]? = some g → g.length ≠ 1 → y.map (·.1) = pick o) (by
    intro o g hg
    by_cases hl : g.length = 1
    · obtain ⟨x, rfl⟩ := List.length_eq_one_iff.1 hl
      refine ⟨some x, .inl ⟨x, rfl, rfl⟩, fun g' hg' hl' => ?_⟩
      rw [hg] at hg'
      cases hg'
      exact absurd rfl hl'
    · cases hk : pick o with
      | none => exact ⟨none, .inr ⟨hl, .inl rfl⟩, fun _ _ _ => rfl⟩
      | some k =>
        obtain ⟨f, k1, k2, k3⟩ := hp o k hk
        obtain ⟨fd, hfd⟩ := made_field h k1
        have hin : (camel f.name, fd) ∈ g := by
          rw [h.group o _ hg]
          exact List.mem_map.2 ⟨(f, fd), List.mem_filter.2 ⟨hfd, by simp [k2]⟩, rfl⟩
        exact ⟨some (req (camel f.name, fd)), .inr ⟨hl, .inr ⟨_, hin, rfl⟩⟩, fun _ _ _ => by rw [← k3]; rfl⟩)
  obtain ⟨n, hn⟩ := chosen_collect hc name t
  refine ⟨_, hn, fun T hT => fits_of h hc (fun o g y hg hl hy => hr o y hy g hg hl) T (by rw [hT, Typ.with, ht])⟩

end Verif.Proto
