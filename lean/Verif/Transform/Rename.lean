import Verif.Transform.Lemmas

set_option linter.unusedSimpArgs false

/-!
# Renaming types (C53)
-/

namespace Verif.Transform

open Verif.Mustache (Text)
open Verif.Exec (Ty)

/-! ## Specification -/

/-- What becomes of a name: it is renamed or kept. -/
def Becomes (names : List (Text × Text)) (a b : Text) : Prop :=
  (a, b) ∈ names ∨ (a ∉ names.map (·.1) ∧ a = b)

/-- A type expression with its name replaced. -/
inductive RTy (names : List (Text × Text)) : Ty → Ty → Prop
  | named (a b nn) : Becomes names a b → RTy names (.named a nn) (.named b nn)
  | list (t t' nn) : RTy names t t' → RTy names (.list t nn) (.list t' nn)

/-- Two maps with the same keys in the same order and related values. -/
inductive Each {α : Type} (R : α → α → Prop) : List (Text × α) → List (Text × α) → Prop
  | nil : Each R [] []
  | cons (k a b r s) : R a b → Each R r s → Each R ((k, a) :: r) ((k, b) :: s)

/-- An argument with its type renamed. -/
def RArg (names : List (Text × Text)) (a b : ArgD) : Prop := RTy names a.ty b.ty ∧ b.info = a.info

/-- A field with its type and the types of its arguments renamed. -/
def RField (names : List (Text × Text)) (f g : FieldD) : Prop :=
  RTy names f.ty g.ty ∧ Each (RArg names) f.args g.args ∧ g.info = f.info

/-- A type with all references renamed. -/
def RType (names : List (Text × Text)) (t s : TypeD) : Prop :=
  Each (RField names) t.fields s.fields ∧ s.info = t.info ∧
  ∀ y, y ∈ s.implements ↔ ∃ x, x ∈ t.implements ∧ Becomes names x y

/-- A union with its members renamed. -/
def RUnion (names : List (Text × Text)) (u v : UnionD) : Prop :=
  v.info = u.info ∧ ∀ y, y ∈ v.types ↔ ∃ x, x ∈ u.types ∧ Becomes names x y

/-- The new names are distinct, not declared, and not renamed themselves. -/
structure Sane (names : List (Text × Text)) (c : Cfg) : Prop where
  olds : (names.map (·.1)).Nodup
  news : (names.map (·.2)).Nodup
  apart : ∀ n ∈ names.map (·.2), n ∉ names.map (·.1)
  freshT : ∀ n ∈ names.map (·.2), Lacks c.types n
  freshU : ∀ n ∈ names.map (·.2), Lacks c.unions n
  freshE : ∀ n ∈ names.map (·.2), Lacks c.enums n

/-- The name is declared. -/
def Declared (c : Cfg) (n : Text) : Prop := ¬ (Lacks c.types n ∧ Lacks c.enums n ∧ Lacks c.unions n)

/-! ## The first loop -/

/-- All renamings of the keys of one map. -/
def rekeys {α : Type} : List (Text × Text) → List (Text × α) → List (Text × α)
  | [], m => m
  | (o, n) :: r, m => rekeys r (rekey m o n)

theorem get_rekey {α : Type} {m : List (Text × α)} {o n : Text} (hon : n ≠ o) (hf : get m n = none) (j : Text) :
    get (rekey m o n) j = if j = n then get m o else if j = o then none else get m j := by
  unfold rekey
  cases ho : get m o with
  | none =>
    simp only [ho]
    by_cases h1 : j = n
    · simp [h1, hf]
    · by_cases h2 : j = o
      · simp [h1, h2, ho]
      · simp [h1, h2]
  | some a =>
    simp only [ho, get_insert, get_remove]

theorem becomes_head {o n a : Text} {r : List (Text × Text)} {b : Text} (hne : a ≠ o) :
    Becomes ((o, n) :: r) a b ↔ Becomes r a b := by
  unfold Becomes
  simp only [List.mem_cons, Prod.mk.injEq, List.map_cons, not_or]
  constructor
  · rintro ((⟨h, _⟩ | h) | ⟨⟨_, h⟩, e⟩)
    · exact absurd h hne
    · exact .inl h
    · exact .inr ⟨h, e⟩
  · rintro (h | ⟨h, e⟩)
    · exact .inl (.inr h)
    · exact .inr ⟨⟨hne, h⟩, e⟩

theorem becomes_of_head {o n b : Text} {r : List (Text × Text)} (hd : o ∉ r.map (·.1)) :
    Becomes ((o, n) :: r) o b ↔ b = n := by
  unfold Becomes
  simp only [List.mem_cons, Prod.mk.injEq, List.map_cons, not_or]
  constructor
  · rintro ((⟨_, h⟩ | h) | ⟨⟨h, _⟩, e⟩)
    · exact h
    · exact absurd (List.mem_map_of_mem (f := (·.1)) h) hd
    · simp at h
  · rintro rfl
    exact .inl (.inl ⟨trivial, rfl⟩)

theorem becomes_kept {n b : Text} {r : List (Text × Text)} (hd : n ∉ r.map (·.1)) :
    Becomes r n b ↔ b = n := by
  unfold Becomes
  constructor
  · rintro (h | ⟨_, e⟩)
    · exact absurd (List.mem_map_of_mem (f := (·.1)) h) hd
    · exact e.symm
  · rintro rfl
    exact .inr ⟨hd, rfl⟩

theorem rekeys_spec {α : Type} : ∀ (names : List (Text × Text)) (m : List (Text × α)),
    (names.map (·.1)).Nodup → (names.map (·.2)).Nodup → (∀ n ∈ names.map (·.2), n ∉ names.map (·.1)) →
    (∀ n ∈ names.map (·.2), get m n = none) →
    (∀ k k', k ∉ names.map (·.2) → Becomes names k k' → get (rekeys names m) k' = get m k) ∧
    (∀ k' a, get (rekeys names m) k' = some a → ∃ k, Becomes names k k' ∧ get m k = some a)
  | [], m, _, _, _, _ => by
    refine ⟨fun k k' _ h => ?_, fun k' a h => ⟨k', .inr ⟨by simp, rfl⟩, h⟩⟩
    rcases h with h | ⟨_, rfl⟩
    · cases h
    · rfl
  | (o, n) :: r, m, ho, hn, ha, hf => by
    simp only [List.map_cons, List.nodup_cons] at ho hn
    simp only [List.map_cons, List.mem_cons, not_or, forall_eq_or_imp] at ha hf
    obtain ⟨⟨hno, hnr⟩, har⟩ := ha
    have hg := get_rekey (m := m) hno hf.1
    obtain ⟨ihA, ihB⟩ := rekeys_spec r (rekey m o n) ho.2 hn.2 (fun x hx => (har x hx).2)
      (fun x hx => by
        rw [hg, if_neg, if_neg]
        · exact hf.2 x hx
        · exact (har x hx).1
        · rintro rfl
          exact hn.1 hx)
    simp only [rekeys]
    constructor
    · intro k k' hk hb
      simp only [List.map_cons, List.mem_cons, not_or] at hk
      by_cases hko : k = o
      · subst hko
        rw [becomes_of_head ho.1] at hb
        subst hb
        rw [ihA k' k' hn.1 ((becomes_kept hnr).2 rfl), hg, if_pos rfl]
      · rw [becomes_head hko] at hb
        rw [ihA k k' hk.2 hb, hg, if_neg hk.1, if_neg hko]
    · intro k' a h
      obtain ⟨k, hb, hk⟩ := ihB k' a h
      rw [hg] at hk
      by_cases hkn : k = n
      · subst hkn
        rw [if_pos rfl] at hk
        rw [becomes_kept hnr] at hb
        subst hb
        exact ⟨o, (becomes_of_head ho.1).2 rfl, hk⟩
      · rw [if_neg hkn] at hk
        by_cases hko : k = o
        · simp [hko] at hk
        · rw [if_neg hko] at hk
          exact ⟨k, (becomes_head hko).2 hb, hk⟩

/-- The keys of all three maps are renamed, whatever the names. -/
theorem renameLoop_maps : ∀ (names : List (Text × Text)) (c : Cfg),
    (renameLoop names c).2.1.types = rekeys names c.types ∧
    (renameLoop names c).2.1.enums = rekeys names c.enums ∧
    (renameLoop names c).2.1.unions = rekeys names c.unions ∧
    (renameLoop names c).2.1.subscription = c.subscription
  | [], c => ⟨rfl, rfl, rfl, rfl⟩
  | (o, n) :: r, c => by
    simp only [renameLoop, rekeys]
    split
    · have ih := renameLoop_maps r (renameStep c o n)
      exact ih
    · rename_i hd
      have ih := renameLoop_maps r c
      simp only [declared, Bool.or_eq_true, not_or, Bool.not_eq_true, Option.isSome_eq_false_iff,
        Option.isNone_iff_eq_none] at hd
      simp only [rekey, hd]
      exact ih

theorem declared_iff {c : Cfg} {n : Text} : declared c n = true ↔ Declared c n := by
  unfold declared Declared
  rw [← get_none, ← get_none, ← get_none]
  cases get c.types n <;> cases get c.enums n <;> cases get c.unions n <;> simp

/-- The names stay sane for the rest of the loop. -/
theorem sane_step {o n : Text} {r : List (Text × Text)} {c : Cfg} (h : Sane ((o, n) :: r) c) :
    Sane r (renameStep c o n) ∧ (∀ x, x ≠ n → x ≠ o → declared (renameStep c o n) x = declared c x) := by
  obtain ⟨ho, hn, ha, hT, hU, hE⟩ := h
  simp only [List.map_cons, List.nodup_cons] at ho hn
  simp only [List.map_cons, List.mem_cons, not_or, forall_eq_or_imp] at ha hT hU hE
  obtain ⟨⟨hno, hnr⟩, har⟩ := ha
  have gT := get_rekey (m := c.types) hno (get_none.2 hT.1)
  have gU := get_rekey (m := c.unions) hno (get_none.2 hU.1)
  have gE := get_rekey (m := c.enums) hno (get_none.2 hE.1)
  have ne1 : ∀ x ∈ r.map (·.2), x ≠ n := by rintro x hx rfl; exact hn.1 hx
  refine ⟨⟨ho.2, hn.2, fun x hx => (har x hx).2, fun x hx => ?_, fun x hx => ?_, fun x hx => ?_⟩, fun x h1 h2 => ?_⟩
  · rw [← get_none]
    simp only [renameStep]
    rw [gT, if_neg (ne1 x hx), if_neg (har x hx).1]
    exact get_none.2 (hT.2 x hx)
  · rw [← get_none]
    simp only [renameStep]
    rw [gU, if_neg (ne1 x hx), if_neg (har x hx).1]
    exact get_none.2 (hU.2 x hx)
  · rw [← get_none]
    simp only [renameStep]
    rw [gE, if_neg (ne1 x hx), if_neg (har x hx).1]
    exact get_none.2 (hE.2 x hx)
  · simp only [declared, renameStep, gT, gU, gE, h1, h2, if_false]

theorem sane_tail {p : Text × Text} {r : List (Text × Text)} {c : Cfg} (h : Sane (p :: r) c) : Sane r c := by
  obtain ⟨ho, hn, ha, hT, hU, hE⟩ := h
  simp only [List.map_cons, List.nodup_cons] at ho hn
  simp only [List.map_cons, List.mem_cons, not_or, forall_eq_or_imp] at ha hT hU hE
  exact ⟨ho.2, hn.2, fun x hx => (ha.2 x hx).2, hT.2, hU.2, hE.2⟩

/-- The errors and the lookup table. -/
theorem renameLoop_lists : ∀ (names : List (Text × Text)) (c : Cfg), Sane names c →
    (renameLoop names c).1 = (names.map (·.1)).filter (fun o => !declared c o) ∧
    (renameLoop names c).2.2 = names.filter (fun p => declared c p.1)
  | [], c, _ => ⟨rfl, rfl⟩
  | (o, n) :: r, c, h => by
    have hs := h
    obtain ⟨ho, hn, ha, _, _, _⟩ := hs
    simp only [List.map_cons, List.nodup_cons] at ho
    simp only [List.map_cons, List.mem_cons, not_or, forall_eq_or_imp] at ha
    simp only [renameLoop]
    by_cases hd : declared c o = true
    · simp only [hd, if_true]
      obtain ⟨hst, hdec⟩ := sane_step h
      obtain ⟨i1, i2⟩ := renameLoop_lists r _ hst
      have hsame : ∀ x ∈ r.map (·.1), declared (renameStep c o n) x = declared c x := by
        intro x hx
        apply hdec
        · rintro rfl; exact ha.1.2 hx
        · rintro rfl; exact ho.1 hx
      constructor
      · rw [i1]
        simp only [List.map_cons, List.filter_cons, hd, Bool.not_true, Bool.false_eq_true, if_false]
        exact List.filter_congr (fun x hx => by rw [hsame x hx])
      · rw [i2]
        simp only [List.filter_cons, hd, if_true]
        congr 1
        exact List.filter_congr (fun p hp => hsame p.1 (List.mem_map_of_mem (f := (·.1)) hp))
    · simp only [hd, Bool.false_eq_true, if_false]
      obtain ⟨i1, i2⟩ := renameLoop_lists r c (sane_tail h)
      have hd' : declared c o = false := by simpa using hd
      constructor
      · rw [i1]; simp [List.filter_cons, hd']
      · rw [i2]; simp [List.filter_cons, hd']

/-! ## The replacements -/

theorem newName_becomes (names : List (Text × Text)) (hd : (names.map (·.1)).Nodup) (x y : Text) :
    Becomes names x y ↔ y = newName names x := by
  unfold newName
  cases hg : get names x with
  | none =>
    rw [becomes_kept (get_none.1 hg)]
    rfl
  | some b =>
    have hm := at_mem (get_some.1 hg)
    simp only [Option.getD_some]
    constructor
    · rintro (h | ⟨h, _⟩)
      · have : ∀ l : List (Text × Text), (l.map (·.1)).Nodup → ∀ p ∈ l, get l p.1 = some p.2 := by
          intro l
          induction l with
          | nil => intro _ p hp; cases hp
          | cons a l ih =>
            intro hd p hp
            simp only [List.map_cons, List.nodup_cons] at hd
            rcases List.mem_cons.1 hp with rfl | hp
            · simp [get]
            · have hne : a.1 ≠ p.1 := fun e => hd.1 (e ▸ List.mem_map_of_mem (f := (·.1)) hp)
              simp only [get, hne, if_false]
              exact ih hd.2 p hp
        have := this names hd (x, y) h
        rw [hg] at this
        exact (Option.some.inj this).symm
      · exact absurd (List.mem_map_of_mem (f := (·.1)) hm) h
    · rintro rfl
      exact .inl hm

theorem withName_rty (names : List (Text × Text)) {b : Text} : ∀ t : Ty, Becomes names t.name b → RTy names t (withName b t)
  | .named a nn, h => .named a b nn h
  | .list t nn, h => .list t _ nn (withName_rty names t h)

theorem keep_rty (names : List (Text × Text)) : ∀ t : Ty, Becomes names t.name t.name → RTy names t t
  | .named a nn, h => .named a a nn h
  | .list t nn, h => .list t _ nn (keep_rty names t h)

theorem renameTy_rty (names : List (Text × Text)) (hd : (names.map (·.1)).Nodup) (t : Ty) :
    RTy names t (renameTy names t) := by
  unfold renameTy
  have hb := newName_becomes names hd t.name
  unfold newName at hb
  cases hg : get names t.name with
  | none =>
    simp only [hg, Option.getD_none] at hb
    exact keep_rty names t ((hb _).2 rfl)
  | some b =>
    simp only [hg, Option.getD_some] at hb
    exact withName_rty names t ((hb _).2 rfl)

theorem each_map {α : Type} {R : α → α → Prop} {f : α → α} (h : ∀ a, R a (f a)) :
    ∀ l : List (Text × α), Each R l (l.map (fun p => (p.1, f p.2)))
  | [] => .nil
  | (k, a) :: r => .cons k a (f a) r _ (h a) (each_map h r)

theorem renameType_rtype (names : List (Text × Text)) (hd : (names.map (·.1)).Nodup) (t : TypeD) :
    RType names t (renameType names t) := by
  refine ⟨?_, rfl, fun y => ?_⟩
  · refine each_map (R := RField names) (f := fun fd => { fd with
      ty := renameTy names fd.ty
      args := fd.args.map (fun a => (a.1, { a.2 with ty := renameTy names a.2.ty })) }) (fun f => ?_) t.fields
    refine ⟨renameTy_rty names hd f.ty, ?_, rfl⟩
    exact each_map (R := RArg names) (f := fun a => { a with ty := renameTy names a.ty })
      (fun a => ⟨renameTy_rty names hd a.ty, rfl⟩) f.args
  · simp only [renameType, List.mem_map]
    constructor
    · rintro ⟨x, hx, rfl⟩; exact ⟨x, hx, (newName_becomes names hd _ _).2 rfl⟩
    · rintro ⟨x, hx, hb⟩; exact ⟨x, hx, ((newName_becomes names hd _ _).1 hb).symm⟩

theorem newName_twice {names : List (Text × Text)} (ha : ∀ n ∈ names.map (·.2), n ∉ names.map (·.1)) (x : Text) :
    newName names (newName names x) = newName names x := by
  unfold newName
  cases hg : get names x with
  | none => simp only [Option.getD_none, hg]
  | some b =>
    have hm := at_mem (get_some.1 hg)
    have := ha b (List.mem_map_of_mem (f := (·.2)) hm)
    simp only [Option.getD_some, get_none.2 this, Option.getD_none]

theorem renameUnion_runion (names : List (Text × Text)) (hd : (names.map (·.1)).Nodup)
    (ha : ∀ n ∈ names.map (·.2), n ∉ names.map (·.1)) (u : UnionD) :
    RUnion names u (renameUnion names u) := by
  refine ⟨rfl, fun y => ?_⟩
  have hone : (∃ x, x ∈ u.types ∧ Becomes names x y) ↔ ∃ x, x ∈ u.types ∧ y = newName names x := by
    constructor
    · rintro ⟨x, hx, hb⟩; exact ⟨x, hx, (newName_becomes names hd _ _).1 hb⟩
    · rintro ⟨x, hx, hb⟩; exact ⟨x, hx, (newName_becomes names hd _ _).2 hb⟩
  rw [hone]
  simp only [renameUnion, List.mem_map, List.mem_append, List.mem_filter, Bool.not_eq_true',
    List.contains_eq_mem, decide_eq_false_iff_not]
  constructor
  · rintro ⟨z, (⟨hz, _⟩ | ⟨x, ⟨hx, _⟩, rfl⟩), rfl⟩
    · exact ⟨z, hz, rfl⟩
    · exact ⟨x, hx, newName_twice ha x⟩
  · rintro ⟨x, hx, rfl⟩
    by_cases hs : (get names x).isSome = true
    · exact ⟨newName names x, .inr ⟨x, ⟨hx, hs⟩, rfl⟩, newName_twice ha x⟩
    · exact ⟨x, .inl ⟨hx, fun h => hs h.2⟩, rfl⟩

/-! ## The operation types -/

theorem renameLoop_roots : ∀ (names : List (Text × Text)) (c : Cfg), Sane names c →
    (∀ q, c.query = some q → ∃ t, get c.types q = some t) →
    (∀ m, c.mutation = some m → ∃ t, get c.types m = some t) →
    (∀ q, c.query = some q → c.mutation ≠ some q) →
    (∀ q q', c.query = some q → Becomes names q q' → (renameLoop names c).2.1.query = some q') ∧
    (∀ m m', c.mutation = some m → Becomes names m m' → (renameLoop names c).2.1.mutation = some m') ∧
    (c.query = none → (renameLoop names c).2.1.query = none) ∧
    (c.mutation = none → (renameLoop names c).2.1.mutation = none)
  | [], c, _, _, _, _ => by
    refine ⟨fun q q' h hb => ?_, fun q q' h hb => ?_, fun h => h, fun h => h⟩
    · rcases hb with hb | ⟨_, rfl⟩
      · cases hb
      · exact h
    · rcases hb with hb | ⟨_, rfl⟩
      · cases hb
      · exact h
  | (o, n) :: r, c, hS, hq, hm, hqm => by
    have hs := hS
    obtain ⟨ho, hn, ha, hT, _, _⟩ := hs
    simp only [List.map_cons, List.nodup_cons] at ho hn
    simp only [List.map_cons, List.mem_cons, not_or, forall_eq_or_imp] at ha hT
    obtain ⟨⟨hno, hnr⟩, har⟩ := ha
    simp only [renameLoop]
    by_cases hd : declared c o = true
    · simp only [hd, if_true]
      have gT := get_rekey (m := c.types) hno (get_none.2 hT.1)
      have hnT := get_none.2 hT.1
      have typed_ne : ∀ {x t}, get c.types x = some t → x ≠ n := by
        rintro x t hx rfl
        rw [hnT] at hx
        cases hx
      -- the operation types after the step
      have eq : ∀ q, c.query = some q → (renameStep c o n).query = some (if q = o then n else q) := by
        intro q h
        obtain ⟨t, ht⟩ := hq q h
        by_cases e : q = o
        · subst e; simp [renameStep, h, ht]
        · simp [renameStep, h, e]
      have em : ∀ m, c.mutation = some m → (renameStep c o n).mutation = some (if m = o then n else m) := by
        intro m h
        obtain ⟨t, ht⟩ := hm m h
        by_cases e : m = o
        · subst e
          have hne : c.query ≠ some m := fun hq' => hqm m hq' h
          simp [renameStep, h, ht, hne]
        · simp [renameStep, h, e]
      have typed : ∀ x t, get c.types x = some t →
          ∃ t', get (renameStep c o n).types (if x = o then n else x) = some t' := by
        intro x t hx
        refine ⟨t, ?_⟩
        simp only [renameStep]
        rw [gT]
        by_cases e : x = o
        · subst e; simpa using hx
        · simp [e, typed_ne hx, hx]
      have qn : c.query = none → (renameStep c o n).query = none := by
        intro h; simp [renameStep, h]
      have mn : c.mutation = none → (renameStep c o n).mutation = none := by
        intro h; simp [renameStep, h]
      obtain ⟨i1, i2, i3, i4⟩ := renameLoop_roots r (renameStep c o n) (sane_step hS).1
        (fun q h => by
          cases hcq : c.query with
          | none => rw [qn hcq] at h; cases h
          | some q0 =>
            rw [eq q0 hcq] at h
            cases h
            obtain ⟨t, ht⟩ := hq q0 hcq
            exact typed q0 t ht)
        (fun m h => by
          cases hcq : c.mutation with
          | none => rw [mn hcq] at h; cases h
          | some q0 =>
            rw [em q0 hcq] at h
            cases h
            obtain ⟨t, ht⟩ := hm q0 hcq
            exact typed q0 t ht)
        (fun q h h' => by
          cases hcq : c.query with
          | none => rw [qn hcq] at h; cases h
          | some q0 =>
            rw [eq q0 hcq] at h
            cases hcm : c.mutation with
            | none => rw [mn hcm] at h'; cases h'
            | some m0 =>
              rw [em m0 hcm] at h'
              have hne : q0 ≠ m0 := fun e => hqm q0 hcq (e ▸ hcm)
              obtain ⟨t, ht⟩ := hq q0 hcq
              obtain ⟨t', ht'⟩ := hm m0 hcm
              have e := h.trans h'.symm
              simp only [Option.some.injEq] at e
              by_cases e1 : q0 = o <;> by_cases e2 : m0 = o
              · exact hne (e1.trans e2.symm)
              · simp only [e1, e2, if_true, if_false] at e
                exact typed_ne ht' e.symm
              · simp only [e1, e2, if_true, if_false] at e
                exact typed_ne ht e
              · simp only [e1, e2, if_false] at e
                exact hne e)
      refine ⟨fun q q' h hb => ?_, fun q q' h hb => ?_, fun h => i3 (qn h), fun h => i4 (mn h)⟩
      · by_cases e : q = o
        · subst e
          rw [becomes_of_head ho.1] at hb
          subst hb
          exact i1 q' q' (by rw [eq q h]; simp) ((becomes_kept hnr).2 rfl)
        · rw [becomes_head e] at hb
          exact i1 q q' (by rw [eq q h]; simp [e]) hb
      · by_cases e : q = o
        · subst e
          rw [becomes_of_head ho.1] at hb
          subst hb
          exact i2 q' q' (by rw [em q h]; simp) ((becomes_kept hnr).2 rfl)
        · rw [becomes_head e] at hb
          exact i2 q q' (by rw [em q h]; simp [e]) hb
    · simp only [hd, Bool.false_eq_true, if_false]
      obtain ⟨i1, i2, i3, i4⟩ := renameLoop_roots r c (sane_tail hS) hq hm hqm
      have hno : ∀ x t, get c.types x = some t → x ≠ o := by
        rintro x t hx rfl
        apply hd
        simp [declared, hx]
      refine ⟨fun q q' h hb => ?_, fun q q' h hb => ?_, i3, i4⟩
      · obtain ⟨t, ht⟩ := hq q h
        exact i1 q q' h ((becomes_head (hno q t ht)).1 hb)
      · obtain ⟨t, ht⟩ := hm q h
        exact i2 q q' h ((becomes_head (hno q t ht)).1 hb)

/-! ## C53 -/

theorem filter_none {names : List (Text × Text)} {c : Cfg}
    (h : (names.map (·.1)).filter (fun o => !declared c o) = []) :
    names.filter (fun p => declared c p.1) = names := by
  rw [List.filter_eq_self]
  intro p hp
  have := List.filter_eq_nil_iff.1 h p.1 (List.mem_map_of_mem (f := (·.1)) hp)
  simpa using this

theorem renameTypes_ok {names : List (Text × Text)} {c c' : Cfg} (h : renameTypes names c = .ok c') :
    (renameLoop names c).1 = [] ∧ c' = { (renameLoop names c).2.1 with
      types := (renameLoop names c).2.1.types.map (fun p => (p.1, renameType (renameLoop names c).2.2 p.2))
      unions := (renameLoop names c).2.1.unions.map (fun p => (p.1, renameUnion (renameLoop names c).2.2 p.2)) } := by
  unfold renameTypes at h
  generalize renameLoop names c = x at h ⊢
  obtain ⟨es, c1, l⟩ := x
  cases es with
  | cons e es => simp at h
  | nil => simp only [Except.ok.injEq] at h; exact ⟨rfl, h.symm⟩

/-- With new names that are distinct and not used yet, every type, union and enum is kept under its new
name with all references renamed, and there is nothing else. -/
theorem C53_content_partial (names : List (Text × Text)) (c c' : Cfg) (hs : Sane names c)
    (h : renameTypes names c = .ok c') :
    (∀ k k' t, At c.types k t → Becomes names k k' → ∃ t', At c'.types k' t' ∧ RType names t t') ∧
    (∀ k k' u, At c.unions k u → Becomes names k k' → ∃ u', At c'.unions k' u' ∧ RUnion names u u') ∧
    (∀ k k' e, At c.enums k e → Becomes names k k' → At c'.enums k' e) ∧
    (∀ k' t', At c'.types k' t' → ∃ k t, Becomes names k k' ∧ At c.types k t) ∧
    (∀ k' u', At c'.unions k' u' → ∃ k u, Becomes names k k' ∧ At c.unions k u) ∧
    (∀ k' e, At c'.enums k' e → ∃ k, Becomes names k k' ∧ At c.enums k e) := by
  obtain ⟨h1, rfl⟩ := renameTypes_ok h
  obtain ⟨l1, l2⟩ := renameLoop_lists names c hs
  obtain ⟨m1, m2, m3, _⟩ := renameLoop_maps names c
  rw [h1] at l1
  rw [filter_none l1.symm] at l2
  rw [m1, m2, m3, l2]
  obtain ⟨ho, hn, ha, hT, hU, hE⟩ := hs
  have fT := rekeys_spec names c.types ho hn ha (fun x hx => get_none.2 (hT x hx))
  have fU := rekeys_spec names c.unions ho hn ha (fun x hx => get_none.2 (hU x hx))
  have fE := rekeys_spec names c.enums ho hn ha (fun x hx => get_none.2 (hE x hx))
  refine ⟨fun k k' t ht hb => ?_, fun k k' u hu hb => ?_, fun k k' e he hb => ?_, fun k' t' ht => ?_,
    fun k' u' hu => ?_, fun k' e he => ?_⟩
  · refine ⟨renameType names t, ?_, renameType_rtype names ho t⟩
    rw [← get_some, get_map, fT.1 k k' (fun hk => at_not_lacks ht (hT k hk)) hb, get_some.2 ht]
    rfl
  · refine ⟨renameUnion names u, ?_, renameUnion_runion names ho ha u⟩
    rw [← get_some, get_map, fU.1 k k' (fun hk => at_not_lacks hu (hU k hk)) hb, get_some.2 hu]
    rfl
  · rw [← get_some, fE.1 k k' (fun hk => at_not_lacks he (hE k hk)) hb, get_some.2 he]
  · rw [← get_some, get_map, Option.map_eq_some_iff] at ht
    obtain ⟨t, ht, _⟩ := ht
    obtain ⟨k, hb, hk⟩ := fT.2 k' t ht
    exact ⟨k, t, hb, get_some.1 hk⟩
  · rw [← get_some, get_map, Option.map_eq_some_iff] at hu
    obtain ⟨t, ht, _⟩ := hu
    obtain ⟨k, hb, hk⟩ := fU.2 k' t ht
    exact ⟨k, t, hb, get_some.1 hk⟩
  · rw [← get_some] at he
    obtain ⟨k, hb, hk⟩ := fE.2 k' e he
    exact ⟨k, hb, get_some.1 hk⟩

/-- With such names the operation types are renamed with their types. -/
theorem C53_operations_partial (names : List (Text × Text)) (c c' : Cfg) (hs : Sane names c)
    (hq : ∀ q, c.query = some q → ∃ t, At c.types q t) (hm : ∀ m, c.mutation = some m → ∃ t, At c.types m t)
    (hne : ∀ q, c.query = some q → c.mutation ≠ some q) (h : renameTypes names c = .ok c') :
    (∀ q q', c.query = some q → Becomes names q q' → c'.query = some q') ∧
    (∀ m m', c.mutation = some m → Becomes names m m' → c'.mutation = some m') ∧
    (c.query = none → c'.query = none) ∧ (c.mutation = none → c'.mutation = none) := by
  obtain ⟨_, rfl⟩ := renameTypes_ok h
  exact renameLoop_roots names c hs (fun q h => (hq q h).imp (fun _ => get_some.2))
    (fun q h => (hm q h).imp (fun _ => get_some.2)) hne

/-- With such names the renaming fails exactly when some name is not declared, and reports exactly those. -/
theorem C53_errors_partial (names : List (Text × Text)) (c : Cfg) (hs : Sane names c) :
    ((∃ c', renameTypes names c = .ok c') ↔ ∀ p ∈ names, Declared c p.1) ∧
    (∀ es, renameTypes names c = .error es →
      ∀ o, o ∈ es ↔ o ∈ names.map (·.1) ∧ ¬ Declared c o) := by
  obtain ⟨l1, _⟩ := renameLoop_lists names c hs
  unfold renameTypes
  generalize hx : renameLoop names c = x at l1 ⊢
  obtain ⟨es, c1, l⟩ := x
  simp only at l1
  have hmem : ∀ o, o ∈ es ↔ o ∈ names.map (·.1) ∧ ¬ Declared c o := by
    intro o
    rw [l1, List.mem_filter, ← declared_iff]
    simp
  cases es with
  | nil =>
    refine ⟨⟨fun _ p hp => ?_, fun _ => ⟨_, rfl⟩⟩, fun es h => by cases h⟩
    apply Classical.byContradiction
    intro hd
    have := (hmem p.1).2 ⟨List.mem_map_of_mem (f := (·.1)) hp, hd⟩
    cases this
  | cons e es =>
    refine ⟨⟨(fun ⟨c', h⟩ => by cases h), fun h => ?_⟩, fun es' h => ?_⟩
    · obtain ⟨h1, h2⟩ := (hmem e).1 List.mem_cons_self
      obtain ⟨p, hp, rfl⟩ := List.mem_map.1 h1
      exact absurd (h p hp) h2
    · simp only [Except.error.injEq] at h
      subst h
      exact hmem

/-- A configuration with two operation types, an interface, a union and an enum. -/
def renCfg : Cfg where
  types := [
    (['A'], ⟨[(['f'], ⟨.list (.named ['B'] true) false, [(['x'], ⟨.named ['E'] true, ['d']⟩)], ['h']⟩)], [['I']], ['a']⟩),
    (['B'], ⟨[(['b'], ⟨.named ['A'] false, [], []⟩)], [], ['b']⟩),
    (['I'], ⟨[], [], []⟩),
    (['Q'], ⟨[(['u'], ⟨.named ['U'] false, [], []⟩)], [], []⟩),
    (['M'], ⟨[], [], []⟩)]
  unions := [(['U'], ⟨[['A'], ['B']], []⟩)]
  enums := [(['E'], ['e'])]
  query := some ['Q']
  mutation := some ['M']
  subscription := none

/-- `A → A2`, `E → E2`, `M → M2`, `U → U2`, `I → I2`. -/
def renNames : List (Text × Text) :=
  [(['A'], ['A','2']), (['E'], ['E','2']), (['M'], ['M','2']), (['U'], ['U','2']), (['I'], ['I','2'])]

theorem renSane : Sane renNames renCfg :=
  ⟨by decide, by decide, by decide, by unfold Lacks; decide, by unfold Lacks; decide, by unfold Lacks; decide⟩

example : Sane renNames renCfg ∧ renameTypes renNames renCfg = .ok {
    types := [
      (['I','2'], ⟨[], [], []⟩),
      (['M','2'], ⟨[], [], []⟩),
      (['A','2'], ⟨[(['f'], ⟨.list (.named ['B'] true) false, [(['x'], ⟨.named ['E','2'] true, ['d']⟩)], ['h']⟩)], [['I','2']], ['a']⟩),
      (['B'], ⟨[(['b'], ⟨.named ['A','2'] false, [], []⟩)], [], ['b']⟩),
      (['Q'], ⟨[(['u'], ⟨.named ['U','2'] false, [], []⟩)], [], []⟩)]
    unions := [(['U','2'], ⟨[['B'], ['A','2']], []⟩)]
    enums := [(['E','2'], ['e'])]
    query := some ['Q']
    mutation := some ['M','2']
    subscription := none } := ⟨renSane, by rfl⟩

example : Sane [(['A'], ['A','2']), (['X'], ['Y'])] renCfg ∧
    renameTypes [(['A'], ['A','2']), (['X'], ['Y'])] renCfg = .error [['X']] :=
  ⟨⟨by decide, by decide, by decide, by unfold Lacks; decide, by unfold Lacks; decide, by unfold Lacks; decide⟩, by rfl⟩

/-- Renaming onto an existing type destroys that type. -/
theorem C53_violated_by_existing_name :
    ∃ (names : List (Text × Text)) (c c' : Cfg) (k : Text) (t : TypeD), renameTypes names c = .ok c' ∧
      At c.types k t ∧ k ∉ names.map (·.1) ∧ ∀ k' t', At c'.types k' t' → t'.info ≠ t.info := by
  refine ⟨[(['A'], ['B'])], { renCfg with unions := [] }, _, ['B'], _, rfl, rfl, by decide, ?_⟩
  intro k' t' h
  have hm := at_mem h
  simp [renCfg, renameLoop, renameStep, rekey, declared, insert, remove, get, renameType] at hm
  rcases hm with ⟨_, rfl⟩ | ⟨_, rfl⟩ | ⟨_, rfl⟩ | ⟨_, rfl⟩ <;> decide

/-- Exchanging two names destroys one of the types. -/
theorem C53_violated_by_swap :
    ∃ (names : List (Text × Text)) (c c' : Cfg) (k : Text) (t : TypeD), renameTypes names c = .ok c' ∧
      (names.map (·.1)).Nodup ∧ (names.map (·.2)).Nodup ∧
      At c.types k t ∧ ∀ k' t', At c'.types k' t' → t'.info ≠ t.info := by
  refine ⟨[(['A'], ['B']), (['B'], ['A'])], { renCfg with unions := [] }, _, ['B'], _, rfl, by decide, by decide, rfl, ?_⟩
  intro k' t' h
  have hm := at_mem h
  simp [renCfg, renameLoop, renameStep, rekey, declared, insert, remove, get, renameType] at hm
  rcases hm with ⟨_, rfl⟩ | ⟨_, rfl⟩ | ⟨_, rfl⟩ | ⟨_, rfl⟩ <;> decide

/-- Members of a union are renamed twice: after `B → C` and `A → B` no type is lost, but the member `A` of
the union has become `C`. -/
theorem C53_violated_by_union_chain :
    ∃ (names : List (Text × Text)) (c c' : Cfg) (k : Text) (u u' : UnionD) (x y : Text),
      renameTypes names c = .ok c' ∧ (names.map (·.1)).Nodup ∧ (names.map (·.2)).Nodup ∧
      At c.unions k u ∧ At c'.unions k u' ∧ x ∈ u.types ∧ (x, y) ∈ names ∧ y ∉ u'.types ∧
      c'.types.length = c.types.length := by
  refine ⟨[(['B'], ['C']), (['A'], ['B'])], { renCfg with unions := [(['U'], ⟨[['A'], ['I']], []⟩)] }, _,
    ['U'], _, _, ['A'], ['B'], rfl, by decide, by decide, rfl, rfl, by simp, by simp, ?_, rfl⟩
  decide

/-- The subscription type keeps its old name. -/
theorem C53_violated_by_subscription :
    ∃ (names : List (Text × Text)) (c c' : Cfg) (s : Text), Sane names c ∧ renameTypes names c = .ok c' ∧
      c.subscription = some s ∧ Declared c s ∧ c'.subscription = some s ∧ ¬ Declared c' s := by
  refine ⟨[(['M'], ['M','2'])], { renCfg with mutation := none, subscription := some ['M'] }, _, ['M'],
    ⟨by decide, by decide, by decide, by unfold Lacks; decide, by unfold Lacks; decide, by unfold Lacks; decide⟩,
    rfl, rfl, ?_, rfl, ?_⟩
  · unfold Declared Lacks; decide
  · unfold Declared Lacks; decide

/-- A type that serves both as query and mutation type is renamed as query type only. -/
theorem C53_violated_by_shared_operation_type :
    ∃ (names : List (Text × Text)) (c c' : Cfg) (m : Text), Sane names c ∧ renameTypes names c = .ok c' ∧
      c.mutation = some m ∧ Declared c m ∧ c'.mutation = some m ∧ ¬ Declared c' m := by
  refine ⟨[(['Q'], ['R'])], { renCfg with mutation := some ['Q'] }, _, ['Q'],
    ⟨by decide, by decide, by decide, by unfold Lacks; decide, by unfold Lacks; decide, by unfold Lacks; decide⟩,
    rfl, rfl, ?_, rfl, ?_⟩
  · unfold Declared Lacks; decide
  · unfold Declared Lacks; decide

end Verif.Transform
