import Verif.Refine.Names

/-!
# Giving types their proposed names
-/

namespace Verif.Refine

open Verif.Mustache (Text)
open Verif.Exec (Ty)
open Verif.Transform

/-- The new names are free: no union and no enum has one. -/
def NamesFree (names : List (Text × Text)) (c : Cfg) : Prop := ∀ m ∈ names.map (·.2), Lacks c.unions m ∧ Lacks c.enums m

/-- Every field has a type that is a scalar or declared. -/
def TypesKnown (pre : Text → Bool) (c : Cfg) : Prop :=
  ∀ p ∈ c.types, ∀ f ∈ p.2.fields, Scal pre c f.2.ty.name ∨ Declared c f.2.ty.name

theorem used {pre : Text → Bool} {singular : Text → Text} {gen root : Text → Bool} {c : Cfg} {n s : Text}
    (h : times (uses pre singular gen root c) n s ≠ 0) :
    ∃ p ∈ c.types, ∃ f ∈ p.2.fields, f.2.ty.name = n ∧ singular f.1 = s ∧ ¬ Scal pre c n ∧ gen f.1 = false := by
  rw [times] at h
  obtain ⟨u, hu⟩ := List.exists_mem_of_length_pos (Nat.pos_of_ne_zero h)
  rw [usesOf, List.mem_filter, uses, List.mem_flatMap] at hu
  obtain ⟨⟨p, hp, hu⟩, he⟩ := hu
  obtain ⟨f, hf, rfl⟩ := List.mem_map.1 hu
  rw [List.mem_filter, Bool.not_eq_true', Bool.or_eq_false_iff] at hf
  simp only [Bool.and_eq_true, decide_eq_true_eq] at he
  refine ⟨p, hp, f, hf.1, he.1, he.2, fun hs => ?_, hf.2.2⟩
  rw [← he.1, ← isScalar_iff, hf.2.1] at hs
  cases hs

theorem newNames_sane {pre : Text → Bool} {singular pascal : Text → Text} {gen root : Text → Bool} {c : Cfg}
    (hf : NamesFree (newNames pre singular pascal gen root c) c) (hk : TypesKnown pre c) :
    Sane (newNames pre singular pascal gen root c) c ∧ ∀ p ∈ newNames pre singular pascal gen root c, Declared c p.1 := by
  obtain ⟨h1, h2, h3, h4⟩ := C103_distinct pre singular pascal gen root c
  have hd : ∀ n ∈ (newNames pre singular pascal gen root c).map (·.1), Declared c n := by
    intro n hn
    obtain ⟨s, hs⟩ := h4 n hn
    obtain ⟨p, hp, f, hf, rfl, _, hns, _⟩ := used hs
    exact (hk p hp f hf).resolve_left hns
  refine ⟨⟨h1, h2, fun m hm ho => ?_, h3, fun m hm => (hf m hm).1, fun m hm => (hf m hm).2⟩,
    fun p hp => hd _ (List.mem_map_of_mem (f := (·.1)) hp)⟩
  exact hd m ho ⟨h3 m hm, (hf m hm).2, (hf m hm).1⟩

/-- When no new name is that of a union or an enum, and the fields have types that are known, then every type, union
and enum is there under its new name with all references renamed, and there is nothing else. Missing: the names of
unions and enums are not looked at, see the counterexample. -/
theorem C103_content_partial (pre : Text → Bool) (singular pascal : Text → Text) (gen root : Text → Bool) (c : Cfg)
    (hf : NamesFree (newNames pre singular pascal gen root c) c) (hk : TypesKnown pre c) :
    ∃ c', improve pre singular pascal gen root c = .ok c' ∧
      let names := newNames pre singular pascal gen root c
      (∀ k k' t, At c.types k t → Becomes names k k' → ∃ t', At c'.types k' t' ∧ RType names t t') ∧
      (∀ k k' u, At c.unions k u → Becomes names k k' → ∃ u', At c'.unions k' u' ∧ RUnion names u u') ∧
      (∀ k k' e, At c.enums k e → Becomes names k k' → At c'.enums k' e) ∧
      (∀ k' t', At c'.types k' t' → ∃ k t, Becomes names k k' ∧ At c.types k t) ∧
      (∀ k' u', At c'.unions k' u' → ∃ k u, Becomes names k k' ∧ At c.unions k u) ∧
      (∀ k' e, At c'.enums k' e → ∃ k, Becomes names k k' ∧ At c.enums k e) := by
  obtain ⟨h1, h2⟩ := newNames_sane hf hk
  obtain ⟨c', h⟩ := (C53_errors_partial _ c h1).1.2 h2
  exact ⟨c', h, C53_content_partial _ c c' h1 h⟩

theorem each_nil {α : Type} {R : α → α → Prop} {a b : List (Text × α)} (h : Each R a b) : a = [] ↔ b = [] := by
  cases h <;> simp

theorem second_inj : ∀ {l : List (Text × Text)} {a b m : Text}, (l.map (·.2)).Nodup → (a, m) ∈ l → (b, m) ∈ l → a = b
  | p :: r, a, b, m, hd, ha, hb => by
    rw [List.map_cons, List.nodup_cons] at hd
    rcases List.mem_cons.1 ha with ha1 | ha1 <;> rcases List.mem_cons.1 hb with hb1 | hb1
    · rw [← ha1] at hb1
      cases hb1
      rfl
    · rw [← ha1] at hd
      exact absurd (List.mem_map_of_mem (f := (·.2)) hb1) hd.1
    · rw [← hb1] at hd
      exact absurd (List.mem_map_of_mem (f := (·.2)) ha1) hd.1
    · exact second_inj hd.2 ha1 hb1

/-- When also no new name is that of a known scalar, then names of scalars stay names of scalars, and other names do
not become such. -/
theorem C103_scalars_partial (pre : Text → Bool) (singular pascal : Text → Text) (gen root : Text → Bool) (c c' : Cfg)
    (hf : NamesFree (newNames pre singular pascal gen root c) c) (hk : TypesKnown pre c)
    (hp : ∀ m ∈ (newNames pre singular pascal gen root c).map (·.2), pre m = false)
    (h : improve pre singular pascal gen root c = .ok c') (n n' : Text) (hn : Scal pre c n ∨ Declared c n)
    (hb : Becomes (newNames pre singular pascal gen root c) n n') :
    Scal pre c' n' ↔ Scal pre c n := by
  obtain ⟨h1, _⟩ := newNames_sane hf hk
  obtain ⟨c1, h2, a1, _, _, a4, _, _⟩ := C103_content_partial pre singular pascal gen root c hf hk
  rw [h] at h2
  cases h2
  have hnew : ∀ m ∈ (newNames pre singular pascal gen root c).map (·.2), ¬ (Scal pre c m ∨ Declared c m) := by
    intro m hm hc
    rcases hc with (⟨t, ht, _⟩ | ⟨_, hpm⟩) | hd
    · exact at_not_lacks ht (h1.freshT m hm)
    · rw [hp m hm] at hpm
      cases hpm
    · exact hd ⟨h1.freshT m hm, h1.freshE m hm, h1.freshU m hm⟩
  have hnosc : ∀ m, (n, m) ∈ newNames pre singular pascal gen root c → ¬ Scal pre c n := by
    intro m hm
    obtain ⟨s, hs⟩ := (C103_distinct pre singular pascal gen root c).2.2.2 n (List.mem_map_of_mem (f := (·.1)) hm)
    obtain ⟨_, _, _, _, rfl, _, hns, _⟩ := used hs
    exact hns
  have hinj : ∀ k, Becomes (newNames pre singular pascal gen root c) k n' → (∃ t, At c.types k t) → k = n := by
    rintro k hk1 ⟨t, ht⟩
    rcases hb with hb | ⟨_, hb⟩
    · rcases hk1 with hk1 | ⟨_, hk1⟩
      · exact second_inj h1.news hk1 hb
      · rw [hk1] at ht
        exact absurd (h1.freshT _ (List.mem_map_of_mem (f := (·.2)) hb)) (at_not_lacks ht)
    · rcases hk1 with hk1 | ⟨_, hk1⟩
      · rw [← hb] at hk1
        exact absurd hn (hnew _ (List.mem_map_of_mem (f := (·.2)) hk1))
      · rw [hk1, hb]
  constructor
  · rintro (⟨t', ht', hfs⟩ | ⟨hl, hpn⟩)
    · obtain ⟨k, t, hkb, hkt⟩ := a4 n' t' ht'
      obtain rfl := hinj k hkb ⟨t, hkt⟩
      obtain ⟨t2, ht2, hr⟩ := a1 k n' t hkt hb
      rw [at_unique ht' ht2] at hfs
      exact .inl ⟨t, hkt, (each_nil hr.1).2 hfs⟩
    · rcases hb with hb | ⟨hnk, rfl⟩
      · rw [hp n' (List.mem_map_of_mem (f := (·.2)) hb)] at hpn
        cases hpn
      · rcases at_or_lacks c.types n with ⟨t, ht⟩ | hl2
        · obtain ⟨t', ht', _⟩ := a1 n n t ht (.inr ⟨hnk, rfl⟩)
          exact absurd hl (at_not_lacks ht')
        · exact .inr ⟨hl2, hpn⟩
  · intro hs
    rcases hb with hb | ⟨hnk, rfl⟩
    · exact absurd hs (hnosc n' hb)
    · rcases hs with ⟨t, ht, hfs⟩ | ⟨hl, hpn⟩
      · obtain ⟨t', ht', hr⟩ := a1 n n t ht (.inr ⟨hnk, rfl⟩)
        exact .inl ⟨t', ht', (each_nil hr.1).1 hfs⟩
      · rcases at_or_lacks c'.types n with ⟨t', ht'⟩ | hl2
        · obtain ⟨k, t, hkb, hkt⟩ := a4 n t' ht'
          obtain rfl := hinj k hkb ⟨t, hkt⟩
          exact absurd hl (at_not_lacks hkt)
        · exact .inr ⟨hl2, hpn⟩

/-! ## A case: two types made up, one used twice -/

/-- Takes away an `s` at the end. -/
def noS (n : Text) : Text := if n.getLast? = some 's' then n.dropLast else n

/-- A capital first letter. -/
def cap : Text → Text
  | [] => []
  | a :: r => a.toUpper :: r

/-- `Query` is the operation. -/
def isQ (n : Text) : Bool := n = "Query".toList

/-- `type Query { users: [T1], all: [T1] } type T1 { id: ID, friends: [T1], boss: T1, posts: [T2] } type T2 { user: T1, kind: E, title: ID }
enum E { A }` -/
def impCfg : Cfg where
  query := some "Query".toList
  mutation := none
  subscription := none
  types := [
    ("Query".toList, ⟨[("all".toList, ⟨.list (.named "T1".toList false) false, [], []⟩), ("users".toList, ⟨.list (.named "T1".toList false) false, [], []⟩)], [], []⟩),
    ("T1".toList, ⟨[("boss".toList, ⟨.named "T1".toList false, [], []⟩), ("id".toList, ⟨.named "ID".toList false, [], []⟩), ("posts".toList, ⟨.list (.named "T2".toList false) false, [], []⟩)], [], "1".toList⟩),
    ("T2".toList, ⟨[("kind".toList, ⟨.named "E".toList false, [], []⟩), ("title".toList, ⟨.named "ID".toList false, [], []⟩), ("user".toList, ⟨.named "T1".toList false, [], []⟩)], [], "2".toList⟩)]
  unions := []
  enums := [("E".toList, "A".toList)]

/-- No name of a field is made up. -/
def noGen (_ : Text) : Bool := false

theorem impNames : newNames flatPre noS cap noGen isQ impCfg =
    [("E".toList, "Kind".toList), ("T1".toList, "User".toList), ("T2".toList, "Post".toList)] := by decide +kernel

/-- `User` is given twice, the others once. -/
example : times (uses flatPre noS noGen isQ impCfg) "T1".toList "user".toList = 2 ∧
    times (uses flatPre noS noGen isQ impCfg) "T1".toList "boss".toList = 0 ∧
    times (uses flatPre noS noGen isQ impCfg) "T1".toList "bos".toList = 1 ∧
    times (uses flatPre noS noGen isQ impCfg) "T1".toList "all".toList = 1 := by decide +kernel

theorem impFree : NamesFree (newNames flatPre noS cap noGen isQ impCfg) impCfg := by
  rw [impNames]
  unfold NamesFree Lacks
  decide +kernel

theorem impKnown : TypesKnown flatPre impCfg := by
  have h : ∀ p ∈ impCfg.types, ∀ f ∈ p.2.fields, isScalar flatPre impCfg f.2.ty.name = true ∨ Declared impCfg f.2.ty.name := by
    unfold Declared Lacks
    decide +kernel
  intro p hp f hf
  exact (h p hp f hf).imp isScalar_iff.1 id

example : ∃ s, "User".toList = cap s ∧ times (uses flatPre noS noGen isQ impCfg) "T1".toList s ≠ 0 ∧
    ∀ s', times (uses flatPre noS noGen isQ impCfg) "T1".toList s' ≠ 0 → Lacks impCfg.types (cap s') →
      cap s' ∉ [("E".toList, "Kind".toList)].map (·.2) → NoBetter (uses flatPre noS noGen isQ impCfg) "T1".toList s' s :=
  C103_best flatPre noS cap noGen isQ impCfg [("E".toList, "Kind".toList)] [("T2".toList, "Post".toList)] "T1".toList "User".toList impNames

example : ∃ c', improve flatPre noS cap noGen isQ impCfg = .ok c' ∧ (∃ t, At c'.types "User".toList t ∧ t.info = "1".toList) ∧
    At c'.enums "Kind".toList "A".toList := by
  obtain ⟨c', h, h1, _, h3, _⟩ := C103_content_partial flatPre noS cap noGen isQ impCfg impFree impKnown
  refine ⟨c', h, ?_, ?_⟩
  · obtain ⟨t', h4, h5⟩ := h1 "T1".toList "User".toList _ (get_some.1 (by rfl)) (.inl (by rw [impNames]; decide +kernel))
    exact ⟨t', h4, h5.2.1⟩
  · exact h3 "E".toList "Kind".toList _ (get_some.1 (by rfl)) (.inl (by rw [impNames]; decide +kernel))

example (c' : Cfg) (h : improve flatPre noS cap noGen isQ impCfg = .ok c') : Scal flatPre c' "ID".toList ↔ Scal flatPre impCfg "ID".toList :=
  C103_scalars_partial flatPre noS cap noGen isQ impCfg c' impFree impKnown (by rw [impNames]; decide +kernel) h _ _
    (.inl (isScalar_iff.1 (by decide +kernel))) (.inr ⟨by rw [impNames]; decide +kernel, rfl⟩)

/-- A type that is used by one field, whose name would be that of another type, keeps its name. -/
example : ¬ Lacks ({ impCfg with types := ("Post".toList, emptyType) :: impCfg.types } : Cfg).types (cap "post".toList) ∨
    cap "post".toList ∈ (newNames flatPre noS cap noGen isQ { impCfg with types := ("Post".toList, emptyType) :: impCfg.types }).map (·.2) :=
  C103_kept flatPre noS cap noGen isQ { impCfg with types := ("Post".toList, emptyType) :: impCfg.types } "T2".toList "post".toList
    (by decide +kernel) (by decide +kernel)

/-! ## Where the names are wrong -/

/-- Names of enums are not looked at: a type gets the name of an enum, and then both have it. -/
theorem C103_violated_by_enum : ∃ (c c' : Cfg), TypesKnown flatPre c ∧ improve flatPre noS cap noGen isQ c = .ok c' ∧
    (∀ n, Lacks c.types n ∨ Lacks c.enums n) ∧ ∃ n, ¬ Lacks c'.types n ∧ ¬ Lacks c'.enums n := by
  let c2 : Cfg := { impCfg with
    types := [("Query".toList, ⟨[("kind".toList, ⟨.named "T2".toList false, [], []⟩)], [], []⟩),
      ("T2".toList, ⟨[("id".toList, ⟨.named "ID".toList false, [], []⟩)], [], []⟩)]
    enums := [("Kind".toList, "A".toList)] }
  refine ⟨c2, { c2 with
    types := [("Kind".toList, ⟨[("id".toList, ⟨.named "ID".toList false, [], []⟩)], [], []⟩),
      ("Query".toList, ⟨[("kind".toList, ⟨.named "Kind".toList false, [], []⟩)], [], []⟩)] }, ?_, by rfl, ?_, "Kind".toList, ?_, ?_⟩
  · have h : ∀ p ∈ c2.types, ∀ f ∈ p.2.fields, isScalar flatPre c2 f.2.ty.name = true ∨ Declared c2 f.2.ty.name := by
      unfold Declared Lacks
      decide +kernel
    intro p hp f hf
    exact (h p hp f hf).imp isScalar_iff.1 id
  · intro n
    by_cases e : n = "Kind".toList
    · left
      rw [e]
      unfold Lacks
      decide +kernel
    · right
      intro hm
      exact e (by simpa [c2] using hm)
  · unfold Lacks
    decide +kernel
  · unfold Lacks
    decide +kernel

/-- Names of scalars are not looked at: a type gets the name of a scalar, and fields that were of the scalar are then of
this type. -/
theorem C103_violated_by_scalar : ∃ (c c' : Cfg) (pre : Text → Bool) (n : Text), TypesKnown pre c ∧
    NamesFree (newNames pre noS cap noGen isQ c) c ∧ improve pre noS cap noGen isQ c = .ok c' ∧
    Scal pre c n ∧ Becomes (newNames pre noS cap noGen isQ c) n n ∧ ¬ Scal pre c' n ∧
    (∃ p ∈ c.types, ∃ f ∈ p.2.fields, f.2.ty.name = n) := by
  let pre : Text → Bool := fun n => n = "ID".toList || n = "Date".toList
  let c : Cfg := { impCfg with
    types := [("Query".toList, ⟨[("date".toList, ⟨.named "T1".toList false, [], []⟩), ("now".toList, ⟨.named "Date".toList false, [], []⟩)], [], []⟩),
      ("T1".toList, ⟨[("from".toList, ⟨.named "Date".toList false, [], []⟩), ("to".toList, ⟨.named "Date".toList false, [], []⟩)], [], []⟩)] }
  have hn : newNames pre noS cap noGen isQ c = [("T1".toList, "Date".toList)] := by decide +kernel
  refine ⟨c, { c with
    types := [("Date".toList, ⟨[("from".toList, ⟨.named "Date".toList false, [], []⟩), ("to".toList, ⟨.named "Date".toList false, [], []⟩)], [], []⟩),
      ("Query".toList, ⟨[("date".toList, ⟨.named "Date".toList false, [], []⟩), ("now".toList, ⟨.named "Date".toList false, [], []⟩)], [], []⟩)] },
    pre, "Date".toList, ?_, ?_, by rfl, isScalar_iff.1 (by decide +kernel), .inr ⟨by rw [hn]; decide +kernel, rfl⟩, fun h => ?_, ?_⟩
  · have h : ∀ p ∈ c.types, ∀ f ∈ p.2.fields, isScalar pre c f.2.ty.name = true ∨ Declared c f.2.ty.name := by
      unfold Declared Lacks
      decide +kernel
    intro p hp f hf
    exact (h p hp f hf).imp isScalar_iff.1 id
  · rw [hn]
    unfold NamesFree Lacks
    decide +kernel
  · have := isScalar_iff.2 h
    revert this
    decide +kernel
  · exact ⟨_, List.mem_cons_self, ("now".toList, _), List.mem_cons_of_mem _ List.mem_cons_self, rfl⟩

end Verif.Refine
