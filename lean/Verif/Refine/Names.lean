import Verif.Refine.Flatten
import Verif.Transform.Rename

/-!
# The names proposed for types
-/

namespace Verif.Refine

open Verif.Mustache (Text)
open Verif.Exec (Ty)
open Verif.Transform

/-! ## Specification -/

/-- Specification. Every use of a type by a field that counts: the name of the type, the candidate that the name of the
field gives, and whether the field is of an operation (0) or not (1), in the order of the configuration. -/
def uses (pre : Text → Bool) (singular : Text → Text) (gen root : Text → Bool) (c : Cfg) : List (Text × Text × Nat) :=
  c.types.flatMap (fun p =>
    (p.2.fields.filter (fun f => !(isScalar pre c f.2.ty.name || gen f.1))).map
      (fun f => (f.2.ty.name, singular f.1, if root p.1 then 0 else 1)))

/-- The uses of a type that give one candidate. -/
def usesOf (l : List (Text × Text × Nat)) (n s : Text) : List (Text × Text × Nat) := l.filter (fun u => u.1 = n && u.2.1 = s)

/-- How often a candidate is given. -/
def times (l : List (Text × Text × Nat)) (n s : Text) : Nat := (usesOf l n s).length

/-- Whether the first use is of an operation. -/
def rank (l : List (Text × Text × Nat)) (n s : Text) : Nat := ((usesOf l n s).head?.map (·.2.2)).getD 0

/-- One candidate is no better than the other: it is used less often, or as often and its first use is of an operation,
or it is not later in the order of names. -/
def NoBetter (l : List (Text × Text × Nat)) (n a b : Text) : Prop :=
  times l n a < times l n b ∨ (times l n a = times l n b ∧
    (rank l n a < rank l n b ∨ (rank l n a = rank l n b ∧ Verif.Merge.tlt b a = false)))

/-! ## The counts -/

/-- What the maps say of a candidate. -/
def stat (m : Cands) (n s : Text) : Option Stats := (get m n).bind (fun x => get x s)

/-- Both levels of the maps are sorted. -/
def Tidy (m : Cands) : Prop := Verif.Merge.Sorted m ∧ ∀ p ∈ m, Verif.Merge.Sorted p.2

theorem mem_mInsert {V : Type} {k : Text} {v : V} : ∀ {m : List (Text × V)} {p : Text × V}, p ∈ Verif.Merge.insert k v m →
    p = (k, v) ∨ p ∈ m
  | [], p, h => by
    rw [Verif.Merge.insert] at h
    exact .inl (List.mem_singleton.1 h)
  | (k', v') :: r, p, h => by
    rw [Verif.Merge.insert] at h
    split at h
    · rcases List.mem_cons.1 h with h | h
      · exact .inl h
      · exact .inr (List.mem_cons_of_mem _ h)
    · split at h
      · rcases List.mem_cons.1 h with h | h
        · exact .inl h
        · exact .inr h
      · rcases List.mem_cons.1 h with h | h
        · exact .inr (h ▸ List.mem_cons_self)
        · exact (mem_mInsert h).imp id (List.mem_cons_of_mem _)

/-- One more use. -/
def more (o : Option Stats) (p : Nat) : Option Stats := some (match o with
  | none => ⟨1, p⟩
  | some st => { st with frequency := st.frequency + 1 })

theorem addCand_get (cand : Text) (p : Nat) (m : List (Text × Stats)) (s : Text) :
    get (addCand cand p m) s = if cand = s then more (get m s) p else get m s := by
  rw [addCand]
  split
  · rename_i st h
    rw [get_mInsert]
    by_cases e : cand = s
    · rw [if_pos e, if_pos e, ← e, h]
      rfl
    · rw [if_neg e, if_neg e]
  · rename_i h
    rw [get_mInsert]
    by_cases e : cand = s
    · rw [if_pos e, if_pos e, ← e, h]
      rfl
    · rw [if_neg e, if_neg e]

theorem addCand_sorted {cand : Text} {p : Nat} {m : List (Text × Stats)} (h : Verif.Merge.Sorted m) :
    Verif.Merge.Sorted (addCand cand p m) := by
  rw [addCand]
  split <;> exact Verif.Merge.sorted_insert h

theorem tidy_get {m : Cands} (h : Tidy m) (n : Text) : Verif.Merge.Sorted ((get m n).getD []) := by
  cases hg : get m n with
  | none => exact List.Pairwise.nil
  | some x => exact h.2 (n, x) (at_mem (get_some.1 hg))

theorem step_stat (m : Cands) (ty cand : Text) (p : Nat) (n s : Text) :
    stat (Verif.Merge.insert ty (addCand cand p ((get m ty).getD [])) m) n s =
      if ty = n ∧ cand = s then more (stat m n s) p else stat m n s := by
  rw [stat, get_mInsert]
  by_cases e : ty = n
  · subst e
    rw [if_pos rfl, Option.bind_some, addCand_get, stat]
    have : get ((get m ty).getD []) s = (get m ty).bind (fun x => get x s) := by
      cases get m ty <;> rfl
    rw [this]
    by_cases e2 : cand = s
    · rw [if_pos e2, if_pos ⟨rfl, e2⟩]
    · rw [if_neg e2, if_neg (fun h => e2 h.2)]
  · rw [if_neg e, if_neg (fun h => e h.1)]
    rfl

theorem step_tidy {m : Cands} (h : Tidy m) (ty cand : Text) (p : Nat) :
    Tidy (Verif.Merge.insert ty (addCand cand p ((get m ty).getD [])) m) := by
  refine ⟨Verif.Merge.sorted_insert h.1, fun q hq => ?_⟩
  rcases mem_mInsert hq with rfl | hq
  · exact addCand_sorted (tidy_get h ty)
  · exact h.2 q hq

/-- Several more uses. -/
def mores (o : Option Stats) : List (Text × Text × Nat) → Option Stats
  | [] => o
  | u :: r => mores (more o u.2.2) r

theorem mores_append (o : Option Stats) (a b : List (Text × Text × Nat)) : mores o (a ++ b) = mores (mores o a) b := by
  induction a generalizing o with
  | nil => rfl
  | cons u r ih => exact ih _

/-- The uses by some fields. -/
def fieldUses (pre : Text → Bool) (singular : Text → Text) (gen : Text → Bool) (c : Cfg) (p : Nat) (l : List (Text × FieldD)) :
    List (Text × Text × Nat) :=
  (l.filter (fun f => !(isScalar pre c f.2.ty.name || gen f.1))).map (fun f => (f.2.ty.name, singular f.1, p))

theorem genFields_spec (pre : Text → Bool) (singular : Text → Text) (gen : Text → Bool) (c : Cfg) (p : Nat) :
    ∀ (l : List (Text × FieldD)) (m : Cands), Tidy m → Tidy (genFields pre singular gen c p l m) ∧
      ∀ n s, stat (genFields pre singular gen c p l m) n s = mores (stat m n s) (usesOf (fieldUses pre singular gen c p l) n s)
  | [], m, h => ⟨h, fun _ _ => rfl⟩
  | (k, f) :: r, m, h => by
    rw [genFields]
    by_cases e : (isScalar pre c f.ty.name || gen k) = true
    · rw [if_pos e]
      have : fieldUses pre singular gen c p ((k, f) :: r) = fieldUses pre singular gen c p r := by
        rw [fieldUses, List.filter_cons_of_neg (by simp only [e]; decide)]
        rfl
      rw [this]
      exact genFields_spec pre singular gen c p r m h
    · rw [if_neg e]
      have : fieldUses pre singular gen c p ((k, f) :: r) = (f.ty.name, singular k, p) :: fieldUses pre singular gen c p r := by
        rw [fieldUses, List.filter_cons_of_pos (by
          have e' : (isScalar pre c f.ty.name || gen k) = false := by simpa using e
          simp only [e']; decide)]
        rfl
      rw [this]
      obtain ⟨h1, h2⟩ := genFields_spec pre singular gen c p r _ (step_tidy h f.ty.name (singular k) p)
      refine ⟨h1, fun n s => ?_⟩
      rw [h2, step_stat, usesOf, usesOf, List.filter_cons]
      by_cases e2 : f.ty.name = n ∧ singular k = s
      · rw [if_pos e2, if_pos (by simp [e2.1, e2.2])]
        rfl
      · rw [if_neg e2, if_neg (by simpa using e2)]

theorem generate_spec (pre : Text → Bool) (singular : Text → Text) (gen root : Text → Bool) (c : Cfg) :
    ∀ (l : List (Text × TypeD)) (m : Cands), Tidy m → Tidy (generate pre singular gen root c l m) ∧
      ∀ n s, stat (generate pre singular gen root c l m) n s = mores (stat m n s)
        (usesOf (l.flatMap (fun p => fieldUses pre singular gen c (if root p.1 then 0 else 1) p.2.fields)) n s)
  | [], m, h => ⟨h, fun _ _ => rfl⟩
  | (k, t) :: r, m, h => by
    rw [generate]
    obtain ⟨h1, h2⟩ := genFields_spec pre singular gen c (if root k then 0 else 1) t.fields m h
    obtain ⟨h3, h4⟩ := generate_spec pre singular gen root c r _ h1
    refine ⟨h3, fun n s => ?_⟩
    rw [h4, h2, ← mores_append, List.flatMap_cons, usesOf, usesOf, usesOf, List.filter_append]

theorem mores_some (st : Stats) : ∀ l : List (Text × Text × Nat), mores (some st) l = some ⟨st.frequency + l.length, st.priority⟩
  | [] => rfl
  | u :: r => by
    rw [mores, more, mores_some _ r]
    simp only [List.length_cons]
    rw [Nat.add_assoc, Nat.add_comm 1]

theorem mores_none (l : List (Text × Text × Nat)) : mores none l =
    if l = [] then none else some ⟨l.length, (l.head?.map (·.2.2)).getD 0⟩ := by
  cases l with
  | nil => rfl
  | cons u r =>
    rw [mores, more, mores_some, if_neg (by simp)]
    simp [Nat.add_comm]

/-- The maps of candidates that `generate` gives. -/
def cands (pre : Text → Bool) (singular : Text → Text) (gen root : Text → Bool) (c : Cfg) : Cands :=
  generate pre singular gen root c c.types []

theorem cands_spec (pre : Text → Bool) (singular : Text → Text) (gen root : Text → Bool) (c : Cfg) :
    Tidy (cands pre singular gen root c) ∧ ∀ n s, stat (cands pre singular gen root c) n s =
      let l := uses pre singular gen root c
      if times l n s = 0 then none else some ⟨times l n s, rank l n s⟩ := by
  obtain ⟨h1, h2⟩ := generate_spec pre singular gen root c c.types [] ⟨List.Pairwise.nil, fun _ h => by cases h⟩
  refine ⟨h1, fun n s => ?_⟩
  rw [cands, h2]
  have : stat ([] : Cands) n s = none := rfl
  rw [this, mores_none]
  show (if usesOf (uses pre singular gen root c) n s = [] then _ else _) = _
  simp only [times, rank, List.length_eq_zero_iff]
  rfl

/-- A candidate is in the maps with its count, exactly when it is used. -/
theorem mem_cands {pre : Text → Bool} {singular : Text → Text} {gen root : Text → Bool} {c : Cfg} {n : Text}
    {l : List (Text × Stats)} (h : (n, l) ∈ cands pre singular gen root c) (s : Text) (st : Stats) :
    (s, st) ∈ l ↔ times (uses pre singular gen root c) n s ≠ 0 ∧
      st = ⟨times (uses pre singular gen root c) n s, rank (uses pre singular gen root c) n s⟩ := by
  obtain ⟨h1, h2⟩ := cands_spec pre singular gen root c
  have hg : get (cands pre singular gen root c) n = some l := get_some.2 (at_of_mem_sorted h1.1 h)
  have hs := h2 n s
  rw [stat, hg, Option.bind_some] at hs
  have hm : (s, st) ∈ l ↔ get l s = some st :=
    ⟨fun h' => get_some.2 (at_of_mem_sorted (h1.2 _ h) h'), fun h' => at_mem (get_some.1 h')⟩
  rw [hm, hs]
  simp only []
  by_cases e : times (uses pre singular gen root c) n s = 0
  · rw [if_pos e]
    simp [e]
  · rw [if_neg e]
    simp [e, eq_comm]

/-! ## The best candidate -/

theorem better_iff {a b : Text × Stats} : better a b = true ↔ a.2.frequency < b.2.frequency ∨ (a.2.frequency = b.2.frequency ∧
    (a.2.priority < b.2.priority ∨ (a.2.priority = b.2.priority ∧ Verif.Merge.tlt b.1 a.1 = false))) := by
  simp [better]

theorem ntlt_trans {a b c : Text} (h1 : Verif.Merge.tlt b a = false) (h2 : Verif.Merge.tlt c b = false) :
    Verif.Merge.tlt c a = false := by
  cases h : Verif.Merge.tlt c a with
  | false => rfl
  | true =>
    by_cases e : b = c
    · subst e
      rw [h1] at h
      cases h
    · have h3 := Verif.Merge.tlt_tri (fun x => e x.symm) h2
      have h4 := Verif.Merge.tlt_trans h3 h
      rw [h1] at h4
      cases h4

theorem ntlt_total (a b : Text) : Verif.Merge.tlt b a = false ∨ Verif.Merge.tlt a b = false := by
  cases h : Verif.Merge.tlt b a with
  | false => exact .inl rfl
  | true =>
    right
    cases h2 : Verif.Merge.tlt a b with
    | false => rfl
    | true =>
      have := Verif.Merge.tlt_trans h h2
      rw [Verif.Merge.tlt_irrefl] at this
      cases this

theorem better_refl (a : Text × Stats) : better a a = true :=
  better_iff.2 (.inr ⟨rfl, .inr ⟨rfl, Verif.Merge.tlt_irrefl _⟩⟩)

theorem better_trans {a b c : Text × Stats} (h1 : better a b = true) (h2 : better b c = true) : better a c = true := by
  rw [better_iff] at h1 h2 ⊢
  rcases h1 with h1 | ⟨h1, h1'⟩
  · left
    rcases h2 with h2 | ⟨h2, _⟩ <;> omega
  · rcases h2 with h2 | ⟨h2, h2'⟩
    · left
      omega
    · right
      refine ⟨h1.trans h2, ?_⟩
      rcases h1' with h3 | ⟨h3, h3'⟩
      · left
        rcases h2' with h4 | ⟨h4, _⟩ <;> omega
      · rcases h2' with h4 | ⟨h4, h4'⟩
        · left
          omega
        · exact .inr ⟨h3.trans h4, ntlt_trans h3' h4'⟩

theorem better_total {a b : Text × Stats} (h : ¬ better a b = true) : better b a = true := by
  rw [better_iff] at h ⊢
  by_cases h1 : b.2.frequency < a.2.frequency
  · exact .inl h1
  · right
    have h2 : b.2.frequency = a.2.frequency := by
      have : ¬ a.2.frequency < b.2.frequency := fun h' => h (.inl h')
      omega
    refine ⟨h2, ?_⟩
    by_cases h3 : b.2.priority < a.2.priority
    · exact .inl h3
    · right
      have h4 : b.2.priority = a.2.priority := by
        have : ¬ a.2.priority < b.2.priority := fun h' => h (.inr ⟨h2.symm, .inl h'⟩)
        omega
      refine ⟨h4, ?_⟩
      rcases ntlt_total b.1 a.1 with h5 | h5
      · exact h5
      · exact absurd (.inr ⟨h2.symm, .inr ⟨h4.symm, h5⟩⟩) h

theorem bestFold : ∀ (r : List (Text × Stats)) (x : Text × Stats),
    (r.foldl (fun m y => if better m y then y else m) x) ∈ x :: r ∧
      ∀ y ∈ x :: r, better y (r.foldl (fun m y => if better m y then y else m) x) = true
  | [], x => ⟨List.mem_cons_self, fun y h => by rw [List.mem_singleton.1 h]; exact better_refl x⟩
  | a :: r, x => by
    rw [List.foldl_cons]
    by_cases e : better x a = true
    · rw [if_pos e]
      obtain ⟨h1, h2⟩ := bestFold r a
      refine ⟨List.mem_cons_of_mem _ h1, fun y hy => ?_⟩
      rcases List.mem_cons.1 hy with rfl | hy
      · exact better_trans e (h2 a List.mem_cons_self)
      · exact h2 y hy
    · rw [if_neg e]
      obtain ⟨h1, h2⟩ := bestFold r x
      refine ⟨?_, fun y hy => ?_⟩
      · rcases List.mem_cons.1 h1 with h | h
        · rw [h]
          exact List.mem_cons_self
        · exact List.mem_cons_of_mem _ (List.mem_cons_of_mem _ h)
      · rcases List.mem_cons.1 hy with rfl | hy
        · exact h2 y List.mem_cons_self
        · rcases List.mem_cons.1 hy with rfl | hy
          · exact better_trans (better_total e) (h2 x List.mem_cons_self)
          · exact h2 y (List.mem_cons_of_mem _ hy)

theorem best_some {l : List (Text × Stats)} {x : Text × Stats} (h : best l = some x) :
    x ∈ l ∧ ∀ y ∈ l, better y x = true := by
  cases l with
  | nil => cases h
  | cons a r =>
    rw [best, Option.some.injEq] at h
    subst h
    exact bestFold r a

theorem best_none {l : List (Text × Stats)} (h : best l = none) : l = [] := by
  cases l with
  | nil => rfl
  | cons a r => cases h

/-! ## The names taken -/

/-- The name is neither taken nor that of a type. -/
def Avail (c : Cfg) (taken : List Text) (m : Text) : Prop := m ∉ taken ∧ Lacks c.types m

theorem avail_iff {c : Cfg} {taken : List Text} {m : Text} :
    (!taken.contains m && (get c.types m).isNone) = true ↔ Avail c taken m := by
  rw [Avail, ← get_none, Bool.and_eq_true, Bool.not_eq_true', Option.isNone_iff_eq_none, ← List.contains_iff_mem]
  cases taken.contains m <;> simp

theorem converge_some (pascal : Text → Text) (c : Cfg) : ∀ (cs : Cands) (taken : List Text) (l1 : List (Text × Text)) (n m : Text)
    (l2 : List (Text × Text)), converge pascal c cs taken = l1 ++ (n, m) :: l2 →
    ∃ l x, (n, l) ∈ cs ∧ x ∈ l ∧ m = pascal x.1 ∧ Avail c (taken ++ l1.map (·.2)) m ∧
      ∀ y ∈ l, Avail c (taken ++ l1.map (·.2)) (pascal y.1) → better y x = true
  | [], taken, l1, n, m, l2, h => by
    rw [converge] at h
    cases l1 <;> cases h
  | (ty, cd) :: r, taken, l1, n, m, l2, h => by
    rw [converge] at h
    cases hb : best (cd.filter (fun x => !taken.contains (pascal x.1) && (get c.types (pascal x.1)).isNone)) with
    | none =>
      rw [hb] at h
      obtain ⟨l, x, h1, h2⟩ := converge_some pascal c r taken l1 n m l2 h
      exact ⟨l, x, List.mem_cons_of_mem _ h1, h2⟩
    | some x =>
      rw [hb] at h
      obtain ⟨hx, hy⟩ := best_some hb
      rw [List.mem_filter] at hx
      cases l1 with
      | nil =>
        cases h
        refine ⟨cd, x, List.mem_cons_self, hx.1, rfl, ?_, fun y h1 h2 => ?_⟩
        · rw [List.map_nil, List.append_nil]
          exact avail_iff.1 hx.2
        · rw [List.map_nil, List.append_nil] at h2
          exact hy y (List.mem_filter.2 ⟨h1, avail_iff.2 h2⟩)
      | cons a l1 =>
        rw [List.cons_append, List.cons.injEq] at h
        obtain ⟨rfl, h⟩ := h
        obtain ⟨l, z, h1, h2, h3, h4, h5⟩ := converge_some pascal c r (pascal x.1 :: taken) l1 n m l2 h
        have hav : ∀ m, Avail c (pascal x.1 :: taken ++ l1.map (·.2)) m ↔ Avail c (taken ++ ((ty, pascal x.1) :: l1).map (·.2)) m := by
          intro m
          simp only [Avail, List.map_cons, List.mem_append, List.mem_cons, not_or, and_assoc]
          constructor
          · rintro ⟨a, b, c, d⟩
            exact ⟨b, a, c, d⟩
          · rintro ⟨a, b, c, d⟩
            exact ⟨b, a, c, d⟩
        exact ⟨l, z, List.mem_cons_of_mem _ h1, h2, h3, (hav _).1 h4, fun y hy ha => h5 y hy ((hav _).2 ha)⟩

theorem converge_keys (pascal : Text → Text) (c : Cfg) : ∀ (cs : Cands) (taken : List Text),
    ((converge pascal c cs taken).map (·.1)).Sublist (cs.map (·.1))
  | [], _ => List.Sublist.refl _
  | (ty, cd) :: r, taken => by
    rw [converge]
    split
    · exact (converge_keys pascal c r _).cons_cons _
    · exact (converge_keys pascal c r _).cons _

theorem converge_news (pascal : Text → Text) (c : Cfg) : ∀ (cs : Cands) (taken : List Text),
    ((converge pascal c cs taken).map (·.2)).Nodup ∧ ∀ m ∈ (converge pascal c cs taken).map (·.2), Avail c taken m
  | [], _ => ⟨List.Pairwise.nil, fun _ h => by cases h⟩
  | (ty, cd) :: r, taken => by
    rw [converge]
    split
    · rename_i x hb
      have hx := List.mem_filter.1 (best_some hb).1
      obtain ⟨h1, h2⟩ := converge_news pascal c r (pascal x.1 :: taken)
      refine ⟨?_, fun m hm => ?_⟩
      · rw [List.map_cons, List.nodup_cons]
        exact ⟨fun h => (h2 _ h).1 List.mem_cons_self, h1⟩
      · rw [List.map_cons] at hm
        rcases List.mem_cons.1 hm with rfl | hm
        · exact avail_iff.1 hx.2
        · exact ⟨fun h => (h2 m hm).1 (List.mem_cons_of_mem _ h), (h2 m hm).2⟩
    · exact converge_news pascal c r taken

theorem converge_none (pascal : Text → Text) (c : Cfg) : ∀ (cs : Cands) (taken : List Text) (n : Text) (l : List (Text × Stats)),
    (n, l) ∈ cs → n ∉ (converge pascal c cs taken).map (·.1) → ∀ x ∈ l,
      pascal x.1 ∈ taken ∨ ¬ Lacks c.types (pascal x.1) ∨ pascal x.1 ∈ (converge pascal c cs taken).map (·.2)
  | (ty, cd) :: r, taken, n, l, h, hn, x, hx => by
    rw [converge] at hn ⊢
    cases hb : best (cd.filter (fun x => !taken.contains (pascal x.1) && (get c.types (pascal x.1)).isNone)) with
    | none =>
      rw [hb] at hn
      rcases List.mem_cons.1 h with h | h
      · cases h
        have he := best_none hb
        by_cases ha : Avail c taken (pascal x.1)
        · have : x ∈ cd.filter (fun x => !taken.contains (pascal x.1) && (get c.types (pascal x.1)).isNone) :=
            List.mem_filter.2 ⟨hx, avail_iff.2 ha⟩
          rw [he] at this
          cases this
        · by_cases h1 : pascal x.1 ∈ taken
          · exact .inl h1
          · exact .inr (.inl (fun h2 => ha ⟨h1, h2⟩))
      · exact converge_none pascal c r taken n l h hn x hx
    | some y =>
      rw [hb] at hn
      simp only [List.map_cons, List.mem_cons, not_or] at hn ⊢
      rcases List.mem_cons.1 h with h | h
      · cases h
        exact absurd rfl hn.1
      · rcases converge_none pascal c r _ n l h hn.2 x hx with h1 | h1 | h1
        · rcases List.mem_cons.1 h1 with h1 | h1
          · exact .inr (.inr (.inl h1))
          · exact .inl h1
        · exact .inr (.inl h1)
        · exact .inr (.inr (.inr h1))

/-! ## Properties -/

/-- A type gets the name that its fields give most often, among the names that are neither those of types nor given to
types before it; with the same count the name that is first used outside the operations, then the later one in the
order of names. -/
theorem C103_best (pre : Text → Bool) (singular pascal : Text → Text) (gen root : Text → Bool) (c : Cfg)
    (l1 l2 : List (Text × Text)) (n m : Text) (h : newNames pre singular pascal gen root c = l1 ++ (n, m) :: l2) :
    ∃ s, m = pascal s ∧ times (uses pre singular gen root c) n s ≠ 0 ∧
      ∀ s', times (uses pre singular gen root c) n s' ≠ 0 → Lacks c.types (pascal s') → pascal s' ∉ l1.map (·.2) →
        NoBetter (uses pre singular gen root c) n s' s := by
  obtain ⟨l, x, h1, h2, h3, h4, h5⟩ := converge_some pascal c _ _ l1 n m l2 h
  obtain ⟨s, st⟩ := x
  obtain ⟨hs, rfl⟩ := (mem_cands h1 s st).1 h2
  refine ⟨s, h3, hs, fun s' hs' hl hn => ?_⟩
  have := h5 (s', _) ((mem_cands h1 s' _).2 ⟨hs', rfl⟩) ⟨by rw [List.nil_append]; exact hn, hl⟩
  exact better_iff.1 this

/-- A type that fields use keeps its name only when every name they give is that of a type or is given to another. -/
theorem C103_kept (pre : Text → Bool) (singular pascal : Text → Text) (gen root : Text → Bool) (c : Cfg) (n s : Text)
    (hs : times (uses pre singular gen root c) n s ≠ 0) (hn : n ∉ (newNames pre singular pascal gen root c).map (·.1)) :
    ¬ Lacks c.types (pascal s) ∨ pascal s ∈ (newNames pre singular pascal gen root c).map (·.2) := by
  obtain ⟨h1, h2⟩ := cands_spec pre singular gen root c
  have h3 := h2 n s
  simp only [if_neg hs] at h3
  rw [stat] at h3
  cases hg : get (cands pre singular gen root c) n with
  | none => rw [hg] at h3; cases h3
  | some l =>
    rw [hg, Option.bind_some] at h3
    rcases converge_none pascal c _ [] n l (at_mem (get_some.1 hg)) hn (s, _) (at_mem (get_some.1 h3)) with h | h
    · cases h
    · exact h

/-- The new names are distinct and no names of types, no type gets two, and only types that fields use get one. -/
theorem C103_distinct (pre : Text → Bool) (singular pascal : Text → Text) (gen root : Text → Bool) (c : Cfg) :
    ((newNames pre singular pascal gen root c).map (·.1)).Nodup ∧ ((newNames pre singular pascal gen root c).map (·.2)).Nodup ∧
      (∀ m ∈ (newNames pre singular pascal gen root c).map (·.2), Lacks c.types m) ∧
      (∀ n ∈ (newNames pre singular pascal gen root c).map (·.1), ∃ s, times (uses pre singular gen root c) n s ≠ 0) := by
  obtain ⟨h1, _⟩ := cands_spec pre singular gen root c
  obtain ⟨h3, h4⟩ := converge_news pascal c (cands pre singular gen root c) []
  refine ⟨(nodup_of_sorted h1.1).sublist (converge_keys pascal c _ []), h3, fun m hm => (h4 m hm).2, fun n hn => ?_⟩
  obtain ⟨p, hp, rfl⟩ := List.mem_map.1 hn
  obtain ⟨l1, l2, he⟩ := List.append_of_mem hp
  obtain ⟨s, _, hs, _⟩ := C103_best pre singular pascal gen root c l1 l2 p.1 p.2 he
  exact ⟨s, hs⟩

end Verif.Refine
