import Verif.Added.Spec

/-!
# C106: the check for missing resolvers
-/

namespace Verif.Added

open Verif.Mustache (Text)
open Verif.Exec (Ty)
open Verif.Transform (At Lacks get get_some get_none at_mem)

set_option linter.unusedSimpArgs false

/-- The types not visited yet. -/
def left (c : Config) (seen : List Text) : Nat := c.types.countP (fun p => !seen.contains p.1)

theorem countP_less {α : Type} {p q : α → Bool} : ∀ {l : List α}, (∀ x ∈ l, p x = true → q x = true) → ∀ {y}, y ∈ l → q y = true →
    p y = false → l.countP p < l.countP q
  | [], _, _, hy, _, _ => by cases hy
  | x :: r, h, y, hy, hq, hp => by
    rw [List.countP_cons, List.countP_cons]
    have hle : r.countP p ≤ r.countP q := List.countP_mono_left (fun z hz => h z (List.mem_cons_of_mem _ hz))
    rcases List.mem_cons.1 hy with rfl | hy
    · rw [hq, hp]; simp; omega
    · have := countP_less (fun z hz => h z (List.mem_cons_of_mem _ hz)) hy hq hp
      have hx := h x List.mem_cons_self
      cases hpx : p x with
      | false => simp; split <;> omega
      | true => rw [hx hpx]; simp; omega

theorem left_less {c : Config} {seen : List Text} {n : Text} {t : Typ} (ht : get c.types n = some t)
    (hv : n ∉ seen) : left c (n :: seen) < left c seen := by
  refine countP_less (fun p _ hp => ?_) (y := (n, t)) (at_mem (get_some.1 ht)) ?_ ?_
  · simp only [List.contains_cons, Bool.not_eq_true', Bool.or_eq_false_iff] at hp ⊢
    exact hp.2
  · simpa using hv
  · simp

theorem left_mono {c : Config} {s s' : List Text} (h : ∀ x ∈ s, x ∈ s') : left c s' ≤ left c s :=
  List.countP_mono_left (fun p _ hp => by
    simp only [Bool.not_eq_true', ← Bool.not_eq_true, List.contains_iff_mem] at hp ⊢
    exact fun hm => hp (h _ hm))

/-- A field has a resolver, or its type is empty or visited. -/
def Fine (c : Config) (seen : List Text) (fd : Fld) : Prop :=
  fd.resolvers ≠ [] ∨ ∃ t, get c.types fd.ty.name = some t ∧ (t.fields = [] ∨ fd.ty.name ∈ seen)

/-- All fields of a type are fine. -/
def Good (c : Config) (seen : List Text) (n : Text) : Prop :=
  ∀ t, get c.types n = some t → ∀ f fd, (f, fd) ∈ t.fields → Fine c seen fd

theorem Fine.mono {c : Config} {s s' : List Text} {fd : Fld} (h : ∀ x ∈ s, x ∈ s') : Fine c s fd → Fine c s' fd
  | .inl a => .inl a
  | .inr ⟨t, a, .inl b⟩ => .inr ⟨t, a, .inl b⟩
  | .inr ⟨t, a, .inr b⟩ => .inr ⟨t, a, .inr (h _ b)⟩

/-- What a check of a type does. -/
def Checks (c : Config) (k : Nat) (rec : Text → Typ → List Text → Option (Bool × List Text)) : Prop :=
  ∀ n t seen, get c.types n = some t → left c seen < k → ∃ b seen', rec n t seen = some (b, seen') ∧
    (∀ x ∈ seen, x ∈ seen') ∧
    (b = true → (t.fields = [] ∨ n ∈ seen') ∧ ∀ m ∈ seen', m ∈ seen ∨ Good c seen' m) ∧
    (b = false → ¬ Resolved c n)

theorem resolved_next {c : Config} {n : Text} {t t' : Typ} {f : Text} {fd : Fld} (h : Resolved c n) (ht : At c.types n t)
    (hf : (f, fd) ∈ t.fields) (hr : fd.resolvers = []) (ht' : At c.types fd.ty.name t') : Resolved c fd.ty.name := by
  have key : ∀ m, Reach c fd.ty.name m → Reach c n m := by
    intro m hm
    induction hm with
    | here => exact .field .here ht hf hr ht'
    | field _ h1 h2 h3 h4 ih => exact .field ih h1 h2 h3 h4
  exact fun m s g gd hm => h m s g gd (key m hm)

theorem fieldsWith_spec {c : Config} {k : Nat} {rec : Text → Typ → List Text → Option (Bool × List Text)} (hrec : Checks c k rec)
    {n : Text} {t : Typ} (ht : At c.types n t) : ∀ (l : List (Text × Fld)) (seen : List Text), (∀ p ∈ l, p ∈ t.fields) → left c seen < k →
    ∃ b seen', fieldsWith c rec l seen = some (b, seen') ∧ (∀ x ∈ seen, x ∈ seen') ∧
      (b = true → (∀ f fd, (f, fd) ∈ l → Fine c seen' fd) ∧ ∀ m ∈ seen', m ∈ seen ∨ Good c seen' m) ∧
      (b = false → ¬ Resolved c n)
  | [], seen, _, _ => ⟨true, seen, rfl, fun _ h => h, fun _ => ⟨fun _ _ h => (by cases h), fun m hm => .inl hm⟩, fun h => (by cases h)⟩
  | (f, fd) :: r, seen, hl, hk => by
    have h1 : ∃ b seen', fieldWith c rec fd seen = some (b, seen') ∧ (∀ x ∈ seen, x ∈ seen') ∧
        (b = true → Fine c seen' fd ∧ ∀ m ∈ seen', m ∈ seen ∨ Good c seen' m) ∧ (b = false → ¬ Resolved c n) := by
      rw [fieldWith]
      by_cases hr : fd.resolvers.isEmpty = true
      · have hr' := List.isEmpty_iff.1 hr
        rw [if_pos hr]
        cases hg : get c.types fd.ty.name with
        | none =>
          refine ⟨false, seen, rfl, fun _ h => h, fun h => (by cases h), fun _ hres => ?_⟩
          rcases hres n t f fd .here ht (hl _ List.mem_cons_self) with h | ⟨t', h⟩
          · exact h hr'
          · rw [← get_some, hg] at h; cases h
        | some t' =>
          obtain ⟨b, seen', e, h2, h3, h4⟩ := hrec _ t' seen hg hk
          refine ⟨b, seen', e, h2, fun hb => ⟨.inr ⟨t', hg, (h3 hb).1⟩, (h3 hb).2⟩, fun hb hres => h4 hb ?_⟩
          exact resolved_next hres ht (hl _ List.mem_cons_self) hr' (get_some.1 hg)
      · rw [if_neg hr]
        exact ⟨true, seen, rfl, fun _ h => h, fun _ => ⟨.inl (fun e => hr (List.isEmpty_iff.2 e)), fun m hm => .inl hm⟩, fun h => (by cases h)⟩
    obtain ⟨b, seen1, e1, h2, h3, h4⟩ := h1
    obtain ⟨b', seen2, e2, k2, k3, k4⟩ := fieldsWith_spec hrec ht r seen1 (fun p hp => hl p (List.mem_cons_of_mem _ hp))
      (Nat.lt_of_le_of_lt (left_mono h2) hk)
    refine ⟨b && b', seen2, ?_, fun x hx => k2 x (h2 x hx), fun hb => ?_, fun hb => ?_⟩
    · rw [fieldsWith, e1]
      simp only [e2]
    · rw [Bool.and_eq_true] at hb
      obtain ⟨i1, i2⟩ := h3 hb.1
      obtain ⟨j1, j2⟩ := k3 hb.2
      refine ⟨fun g gd hg => ?_, fun m hm => ?_⟩
      · rcases List.mem_cons.1 hg with e | hg
        · cases e; exact i1.mono k2
        · exact j1 g gd hg
      · rcases j2 m hm with hm | hm
        · rcases i2 m hm with hm | hm
          · exact .inl hm
          · exact .inr (fun t ht f fd hf => (hm t ht f fd hf).mono k2)
        · exact .inr hm
    · cases b with
      | false => exact h4 rfl
      | true => exact k4 (by simpa using hb)

theorem typeOk_spec (c : Config) : ∀ fuel, Checks c fuel (typeOk c fuel)
  | 0 => fun _ _ _ _ h => absurd h (Nat.not_lt_zero _)
  | fuel + 1 => by
    intro n t seen ht hk
    rw [typeOk]
    by_cases h : (t.fields.isEmpty || seen.contains n) = true
    · rw [if_pos h]
      refine ⟨true, seen, rfl, fun _ h => h, fun _ => ⟨?_, fun m hm => .inl hm⟩, fun h => (by cases h)⟩
      rw [Bool.or_eq_true, List.isEmpty_iff, List.contains_iff_mem] at h
      exact h
    · rw [if_neg h]
      rw [Bool.or_eq_true, not_or, List.contains_iff_mem] at h
      obtain ⟨b, seen', e, h1, h2, h3⟩ := fieldsWith_spec (typeOk_spec c fuel) (get_some.1 ht) t.fields (n :: seen) (fun _ h => h)
        (Nat.lt_of_lt_of_le (left_less ht h.2) (Nat.le_of_lt_succ hk))
      refine ⟨b, seen', e, fun x hx => h1 x (List.mem_cons_of_mem _ hx), fun hb => ⟨.inr (h1 n List.mem_cons_self), fun m hm => ?_⟩, h3⟩
      rcases (h2 hb).2 m hm with hm | hm
      · rcases List.mem_cons.1 hm with rfl | hm
        · right
          intro t' ht' f fd hf
          rw [ht] at ht'
          cases ht'
          exact (h2 hb).1 f fd hf
        · exact .inl hm
      · exact .inr hm

theorem passes_type {c : Config} {n : Text} {t : Typ} (ht : get c.types n = some t) :
    passes (typeOk c (depth c) n t []) = true ↔ Resolved c n := by
  obtain ⟨b, seen, e, _, h2, h3⟩ := typeOk_spec c (depth c) n t [] ht (Nat.lt_succ_of_le List.countP_le_length)
  rw [e, passes]
  show b = true ↔ _
  cases b with
  | false => exact ⟨fun h => (by cases h), fun h => absurd h (h3 rfl)⟩
  | true =>
    refine ⟨fun _ => ?_, fun _ => rfl⟩
    obtain ⟨h4, h5⟩ := h2 rfl
    have hgood : ∀ m ∈ seen, Good c seen m := fun m hm => (h5 m hm).resolve_left (fun h => (by cases h))
    have hreach : ∀ m, Reach c n m → (∃ t, get c.types m = some t ∧ t.fields = []) ∨ m ∈ seen := by
      intro m hm
      induction hm with
      | here => exact h4.imp (fun h => ⟨t, ht, h⟩) id
      | @field m s f fd s' _ k1 k2 k3 k4 ih =>
        have hms : m ∈ seen := by
          rcases ih with ⟨s0, e0, e1⟩ | ih
          · rw [← get_some, e0] at k1
            cases k1
            rw [e1] at k2
            cases k2
          · exact ih
        rcases hgood m hms s (get_some.2 k1) f fd k2 with h | ⟨t', h, h'⟩
        · exact absurd k3 h
        · exact h'.imp (fun h'' => ⟨t', h, h''⟩) id
    intro m s f fd hm hs hf
    rcases hreach m hm with ⟨s0, e0, e1⟩ | hm
    · rw [← get_some, e0] at hs
      cases hs
      rw [e1] at hf
      cases hf
    · rcases hgood m hm s (get_some.2 hs) f fd hf with h | ⟨t', h, _⟩
      · exact .inl h
      · exact .inr ⟨t', get_some.1 h⟩

/-- The query is accepted exactly if it is there and every field one gets to from it by fields without resolvers has a
resolver or a type of the configuration. -/
theorem C106_query (c : Config) : queryOk c = true ↔ ∃ q t, c.query = some q ∧ At c.types q t ∧ Resolved c q := by
  rw [queryOk]
  cases hq : c.query with
  | none => exact ⟨fun h => (by cases h), fun ⟨_, _, h, _⟩ => (by cases h)⟩
  | some q =>
    simp only []
    cases ht : get c.types q with
    | none => exact ⟨fun h => (by cases h), fun ⟨_, _, h, h', _⟩ => (by cases h; rw [← get_some, ht] at h'; cases h')⟩
    | some t =>
      simp only []
      rw [passes_type ht]
      exact ⟨fun h => ⟨q, t, rfl, get_some.1 ht, h⟩, fun ⟨_, _, h, _, h'⟩ => (by cases h; exact h')⟩

/-- So is the mutation, which may be missing. -/
theorem C106_mutation (c : Config) : mutationOk c = true ↔ ∀ m, c.mutation = some m → (∃ t, At c.types m t) ∧ Resolved c m := by
  rw [mutationOk]
  cases hq : c.mutation with
  | none => exact ⟨fun _ _ h => (by cases h), fun _ => rfl⟩
  | some m =>
    simp only []
    cases ht : get c.types m with
    | none =>
      refine ⟨fun h => (by cases h), fun h => ?_⟩
      obtain ⟨⟨t, h⟩, _⟩ := h m rfl
      rw [← get_some, ht] at h
      cases h
    | some t =>
      simp only []
      rw [passes_type ht]
      exact ⟨fun h _ e => (by cases e; exact ⟨⟨t, get_some.1 ht⟩, h⟩), fun h => (h m rfl).2⟩

theorem passes_field {c : Config} {f : Fld} : passes (fieldWith c (typeOk c (depth c)) f []) = true ↔
    f.resolvers ≠ [] ∨ ((∃ t, At c.types f.ty.name t) ∧ Resolved c f.ty.name) := by
  rw [fieldWith]
  by_cases hr : f.resolvers.isEmpty = true
  · rw [if_pos hr]
    have hr' := List.isEmpty_iff.1 hr
    cases hg : get c.types f.ty.name with
    | none =>
      refine ⟨fun h => (by cases h), fun h => ?_⟩
      rcases h with h | ⟨⟨t, h⟩, _⟩
      · exact absurd hr' h
      · rw [← get_some, hg] at h; cases h
    | some t =>
      simp only []
      rw [passes_type hg]
      exact ⟨fun h => .inr ⟨⟨t, get_some.1 hg⟩, h⟩, fun h => h.elim (fun h => absurd hr' h) (·.2)⟩
  · rw [if_neg hr]
    exact ⟨fun _ => .inl (fun e => hr (List.isEmpty_iff.2 e)), fun _ => rfl⟩

/-- A field without a resolver is given an empty object exactly if everything below it has resolvers. -/
theorem C106_empty_object (c : Config) (f : Fld) (b : FieldDef) (hb : b.resolver ≠ some (.dynamic (.value (.obj [])))) :
    (fixDangling c f b).resolver = some (.dynamic (.value (.obj []))) ↔
      f.resolvers = [] ∧ (∃ t, At c.types f.ty.name t) ∧ Resolved c f.ty.name := by
  rw [fixDangling]
  split
  · next h =>
    rw [Bool.and_eq_true, List.isEmpty_iff, passes_field] at h
    exact ⟨fun _ => ⟨h.1, h.2.resolve_left (fun e => e h.1)⟩, fun _ => rfl⟩
  · next h =>
    rw [Bool.and_eq_true, List.isEmpty_iff, passes_field] at h
    exact ⟨fun e => absurd e hb, fun ⟨h1, h2⟩ => absurd ⟨h1, .inr h2⟩ h⟩

end Verif.Added
