import Verif.Transform.Lemmas

set_option linter.unusedSimpArgs false

/-!
# Flattening nested unions (C51)
-/

namespace Verif.Transform

open Verif.Mustache (Text)
open Verif.Exec (Ty)

/-! ## Specification -/

/-- A type that is not a union and is a member, possibly through other unions. -/
inductive Leaf (us : List (Text × UnionD)) : List Text → Text → Prop
  | direct (ms x) : x ∈ ms → Lacks us x → Leaf us ms x
  | nested (ms t u x) : t ∈ ms → At us t u → Leaf us u.types x → Leaf us ms x

/-- A way down through nested unions: every name is a union and a member of the one before. -/
inductive Chain (us : List (Text × UnionD)) : List Text → List Text → Prop
  | one (ms t u) : t ∈ ms → At us t u → Chain us ms [t]
  | cons (ms t u p) : t ∈ ms → At us t u → Chain us u.types p → Chain us ms (t :: p)

/-- A union that contains itself. -/
def Recursive (us : List (Text × UnionD)) (n : Text) : Prop :=
  ∃ u p, At us n u ∧ Chain us u.types p ∧ p.getLast? = some n

/-- A union is nested in another one in two ways. -/
def Twice (us : List (Text × UnionD)) (ms : List Text) : Prop :=
  ∃ p q, Chain us ms p ∧ Chain us ms q ∧ p ≠ q ∧ p.getLast? = q.getLast?

/-! ## Chains -/

theorem chain_ne {us : List (Text × UnionD)} {ms p : List Text} (h : Chain us ms p) : p ≠ [] := by
  cases h <;> simp

theorem chain_mono {us : List (Text × UnionD)} {ms ms' p : List Text} (h : Chain us ms p)
    (hs : ∀ x ∈ ms, x ∈ ms') : Chain us ms' p := by
  cases h with
  | one _ t u h1 h2 => exact .one _ _ _ (hs _ h1) h2
  | cons _ t u p h1 h2 h3 => exact .cons _ _ _ _ (hs _ h1) h2 h3

theorem chain_nil {us : List (Text × UnionD)} {p : List Text} (h : Chain us [] p) : False := by
  cases h with
  | one _ t u h1 h2 => cases h1
  | cons _ t u p h1 h2 h3 => cases h1

/-- A chain starts at the first member or is one of the other members. -/
theorem chain_split {us : List (Text × UnionD)} {t : Text} {r p : List Text} (h : Chain us (t :: r) p) :
    (p = [t] ∧ ∃ u, At us t u) ∨ (∃ u q, At us t u ∧ p = t :: q ∧ Chain us u.types q) ∨ Chain us r p := by
  cases h with
  | one _ x u h1 h2 =>
    rcases List.mem_cons.1 h1 with rfl | h1
    · exact .inl ⟨rfl, u, h2⟩
    · exact .inr (.inr (.one _ _ _ h1 h2))
  | cons _ x u p h1 h2 h3 =>
    rcases List.mem_cons.1 h1 with rfl | h1
    · exact .inr (.inl ⟨u, p, h2, rfl, h3⟩)
    · exact .inr (.inr (.cons _ _ _ _ h1 h2 h3))

theorem chain_head {us : List (Text × UnionD)} {ms p : List Text} (h : Chain us ms p) :
    ∃ x q, p = x :: q ∧ x ∈ ms := by
  cases h with
  | one _ x u h1 h2 => exact ⟨x, [], rfl, h1⟩
  | cons _ x u p h1 h2 h3 => exact ⟨x, p, rfl, h1⟩

/-- The last names of the chains. -/
def Ends (us : List (Text × UnionD)) (ms : List Text) (x : Text) : Prop :=
  ∃ p, Chain us ms p ∧ p.getLast? = some x

theorem ends_of_cons {us : List (Text × UnionD)} {t x : Text} {u : UnionD} {ms : List Text} (hm : t ∈ ms)
    (hu : At us t u) (h : Ends us u.types x) : Ends us ms x := by
  obtain ⟨p, hp, hx⟩ := h
  refine ⟨t :: p, .cons _ _ _ _ hm hu hp, ?_⟩
  rw [List.getLast?_cons]
  simp [hx]

theorem last_cons {t : Text} {q : List Text} (h : q ≠ []) : (t :: q).getLast? = q.getLast? := by
  cases q with
  | nil => exact absurd rfl h
  | cons a r => rfl

/-! ## An accepted walk -/

/-- What an accepted walk over members establishes. -/
structure Walked (us : List (Text × UnionD)) (ms : List Text) (s s' : UState) : Prop where
  before : ∀ x, Ends us ms x → x ∉ s.seen
  after : ∀ x, Ends us ms x → x ∈ s'.seen
  keep : ∀ x ∈ s.seen, x ∈ s'.seen
  once : ¬ Twice us ms
  leaves : ∀ x, x ∈ s'.leaves ↔ x ∈ s.leaves ∨ Leaf us ms x

theorem walkMembers_ok (us : List (Text × UnionD))
    (rec : UnionD → UState → Option (List Text × UState))
    (hrec : ∀ u s s', rec u s = some ([], s') → Walked us u.types s s') :
    ∀ (ms : List Text) (s s' : UState), walkMembers us rec ms s = some ([], s') → Walked us ms s s'
  | [], s, s', h => by
    simp only [walkMembers, Option.some.injEq, Prod.mk.injEq, true_and] at h
    subst h
    refine ⟨fun x h => ?_, fun x h => ?_, fun x h => h, ?_, fun x => ?_⟩
    · obtain ⟨p, hp, _⟩ := h; exact (chain_nil hp).elim
    · obtain ⟨p, hp, _⟩ := h; exact (chain_nil hp).elim
    · rintro ⟨p, q, hp, _⟩; exact chain_nil hp
    · constructor
      · exact .inl
      · rintro (h | h)
        · exact h
        · cases h with
          | direct _ _ h1 _ => cases h1
          | nested _ _ _ _ h1 _ _ => cases h1
  | t :: r, s, s', h => by
    simp only [walkMembers] at h
    cases hg : get us t with
    | none =>
      simp only [hg] at h
      have ih := walkMembers_ok us rec hrec r _ s' h
      have hno : ∀ u, ¬ At us t u := fun u hu => by rw [get_some.2 hu] at hg; cases hg
      have hch : ∀ p, Chain us (t :: r) p → Chain us r p := by
        intro p hp
        rcases chain_split hp with ⟨_, u, hu⟩ | ⟨u, _, hu, _⟩ | h
        · exact (hno u hu).elim
        · exact (hno u hu).elim
        · exact h
      refine ⟨fun x ⟨p, hp, hx⟩ => ih.before x ⟨p, hch p hp, hx⟩, fun x ⟨p, hp, hx⟩ => ih.after x ⟨p, hch p hp, hx⟩,
        ih.keep, ?_, fun x => ?_⟩
      · rintro ⟨p, q, hp, hq, h⟩; exact ih.once ⟨p, q, hch p hp, hch q hq, h⟩
      · rw [ih.leaves]
        have hins : x ∈ (if s.leaves.contains t then s.leaves else t :: s.leaves) ↔ x ∈ s.leaves ∨ x = t := by
          by_cases hc : t ∈ s.leaves
          · simp only [List.contains_iff_mem, hc, if_true]
            exact ⟨.inl, fun h => h.elim id (fun e => e ▸ hc)⟩
          · simp only [List.contains_iff_mem, hc, if_false, List.mem_cons]
            exact Or.comm
        rw [hins]
        constructor
        · rintro ((h | rfl) | h)
          · exact .inl h
          · exact .inr (.direct _ _ List.mem_cons_self (get_none.1 hg))
          · cases h with
            | direct _ _ h1 h2 => exact .inr (.direct _ _ (List.mem_cons_of_mem _ h1) h2)
            | nested _ t' u _ h1 h2 h3 => exact .inr (.nested _ _ _ _ (List.mem_cons_of_mem _ h1) h2 h3)
        · rintro (h | h)
          · exact .inl (.inl h)
          · cases h with
            | direct _ _ h1 h2 =>
              rcases List.mem_cons.1 h1 with rfl | h1
              · exact .inl (.inr rfl)
              · exact .inr (.direct _ _ h1 h2)
            | nested _ t' u _ h1 h2 h3 =>
              rcases List.mem_cons.1 h1 with rfl | h1
              · exact (hno u h2).elim
              · exact .inr (.nested _ _ _ _ h1 h2 h3)
    | some u =>
      simp only [hg] at h
      have hu := get_some.1 hg
      by_cases hs : s.seen.contains t = true
      · simp only [hs, if_true] at h
        split at h
        · simp at h
        · cases h
      · simp only [hs, Bool.false_eq_true, if_false] at h
        have hns : t ∉ s.seen := by simpa using hs
        cases hr : rec u { s with seen := t :: s.seen } with
        | none => simp [hr] at h
        | some p =>
          obtain ⟨es, s1⟩ := p
          simp only [hr] at h
          cases hm : walkMembers us rec r s1 with
          | none => simp [hm] at h
          | some p =>
            obtain ⟨es', s2⟩ := p
            simp only [hm, Option.some.injEq, Prod.mk.injEq, List.append_eq_nil_iff] at h
            obtain ⟨⟨rfl, rfl⟩, rfl⟩ := h
            have h1 := hrec u _ s1 hr
            have h2 := walkMembers_ok us rec hrec r s1 s2 hm
            -- where the chains over all members end
            have ends1 : ∀ x, x = t ∨ Ends us u.types x → x ∈ s1.seen ∧ x ∉ s.seen := by
              rintro x (rfl | hx)
              · exact ⟨h1.keep _ List.mem_cons_self, hns⟩
              · exact ⟨h1.after x hx, fun hxs => h1.before x hx (List.mem_cons_of_mem _ hxs)⟩
            have hsplit : ∀ p, Chain us (t :: r) p →
                (p = [t]) ∨ (∃ q, p = t :: q ∧ Chain us u.types q) ∨ Chain us r p := by
              intro p hp
              rcases chain_split hp with ⟨h, _⟩ | ⟨u', q, hu', hq, hc⟩ | h
              · exact .inl h
              · have := at_unique hu hu'
                subst this
                exact .inr (.inl ⟨q, hq, hc⟩)
              · exact .inr (.inr h)
            have hends : ∀ x, Ends us (t :: r) x → (x = t ∨ Ends us u.types x) ∨ Ends us r x := by
              rintro x ⟨p, hp, hx⟩
              rcases hsplit p hp with rfl | ⟨q, rfl, hq⟩ | hc
              · simp at hx; exact .inl (.inl hx.symm)
              · rw [last_cons (chain_ne hq)] at hx
                exact .inl (.inr ⟨q, hq, hx⟩)
              · exact .inr ⟨p, hc, hx⟩
            have hkeep : ∀ x ∈ s.seen, x ∈ s1.seen := fun x hx => h1.keep x (List.mem_cons_of_mem _ hx)
            refine ⟨fun x hx => ?_, fun x hx => ?_, fun x hx => h2.keep x (hkeep x hx), ?_, fun x => ?_⟩
            · rcases hends x hx with h | h
              · exact (ends1 x h).2
              · exact fun hxs => h2.before x h (hkeep x hxs)
            · rcases hends x hx with h | h
              · exact h2.keep x (ends1 x h).1
              · exact h2.after x h
            · rintro ⟨p, q, hp, hq, hne, hl⟩
              obtain ⟨x, hx⟩ : ∃ x, p.getLast? = some x := by
                cases hpl : p.getLast? with
                | some x => exact ⟨x, rfl⟩
                | none => exact absurd (List.getLast?_eq_none_iff.1 hpl) (chain_ne hp)
              have hy : q.getLast? = some x := hl ▸ hx
              rcases hsplit p hp with rfl | ⟨p', rfl, hp'⟩ | hc
              · have hxt : t = x := by simpa using hx
                subst hxt
                rcases hsplit q hq with rfl | ⟨q', rfl, hq'⟩ | hc'
                · exact hne rfl
                · rw [last_cons (chain_ne hq')] at hy
                  exact h1.before t ⟨q', hq', hy⟩ List.mem_cons_self
                · exact h2.before t ⟨q, hc', hy⟩ (ends1 t (.inl rfl)).1
              · rw [last_cons (chain_ne hp')] at hx
                rcases hsplit q hq with rfl | ⟨q', rfl, hq'⟩ | hc'
                · have : t = x := by simpa using hy
                  subst this
                  exact h1.before t ⟨p', hp', hx⟩ List.mem_cons_self
                · rw [last_cons (chain_ne hq')] at hy
                  exact h1.once ⟨p', q', hp', hq', fun e => hne (by rw [e]), by rw [hx, hy]⟩
                · exact h2.before x ⟨q, hc', hy⟩ (ends1 x (.inr ⟨p', hp', hx⟩)).1
              · rcases hsplit q hq with rfl | ⟨q', rfl, hq'⟩ | hc'
                · have : t = x := by simpa using hy
                  subst this
                  exact h2.before t ⟨p, hc, hx⟩ (ends1 t (.inl rfl)).1
                · rw [last_cons (chain_ne hq')] at hy
                  exact h2.before x ⟨p, hc, hx⟩ (ends1 x (.inr ⟨q', hq', hy⟩)).1
                · exact h2.once ⟨p, q, hc, hc', hne, hl⟩
            · rw [h2.leaves, h1.leaves]
              constructor
              · rintro ((h | h) | h)
                · exact .inl h
                · exact .inr (.nested _ _ _ _ List.mem_cons_self hu h)
                · cases h with
                  | direct _ _ h1 h2 => exact .inr (.direct _ _ (List.mem_cons_of_mem _ h1) h2)
                  | nested _ t' u _ h1 h2 h3 => exact .inr (.nested _ _ _ _ (List.mem_cons_of_mem _ h1) h2 h3)
              · rintro (h | h)
                · exact .inl (.inl h)
                · cases h with
                  | direct _ _ h1 h2 =>
                    rcases List.mem_cons.1 h1 with rfl | h1
                    · exact (at_not_lacks hu h2).elim
                    · exact .inr (.direct _ _ h1 h2)
                  | nested _ t' u' _ h1 h2 h3 =>
                    rcases List.mem_cons.1 h1 with rfl | h1
                    · have := at_unique hu h2
                      subst this
                      exact .inl (.inr h3)
                    · exact .inr (.nested _ _ _ _ h1 h2 h3)

theorem walkUnion_ok (us : List (Text × UnionD)) : ∀ (n : Nat) (u : UnionD) (s s' : UState),
    walkUnion us n u s = some ([], s') → Walked us u.types s s'
  | 0, _, _, _, h => by simp [walkUnion] at h
  | n + 1, u, s, s', h => walkMembers_ok us (walkUnion us n) (walkUnion_ok us n) u.types s s' h

/-! ## A walk without repetition is accepted -/

theorem walkMembers_no_error (us : List (Text × UnionD)) (hnd : ∀ n u, At us n u → u.types.Nodup)
    (rec : UnionD → UState → Option (List Text × UState))
    (hrec : ∀ u s es s', rec u s = some (es, s') → u.types.Nodup → ¬ Twice us u.types →
      (∀ x, Ends us u.types x → x ∉ s.seen) →
      es = [] ∧ ∀ x ∈ s'.seen, x ∈ s.seen ∨ Ends us u.types x) :
    ∀ (ms : List Text) (s : UState) (es : List Text) (s' : UState),
      walkMembers us rec ms s = some (es, s') → ms.Nodup → ¬ Twice us ms →
      (∀ x, Ends us ms x → x ∉ s.seen) →
      es = [] ∧ ∀ x ∈ s'.seen, x ∈ s.seen ∨ Ends us ms x
  | [], s, es, s', h, _, _, _ => by
    simp only [walkMembers, Option.some.injEq, Prod.mk.injEq] at h
    obtain ⟨rfl, rfl⟩ := h
    exact ⟨rfl, fun x hx => .inl hx⟩
  | t :: r, s, es, s', h, hd, htw, hb => by
    have hd' := List.nodup_cons.1 hd
    have up : ∀ {p}, Chain us r p → Chain us (t :: r) p := fun hp =>
      chain_mono hp (fun x hx => List.mem_cons_of_mem _ hx)
    have htw' : ¬ Twice us r := by
      rintro ⟨p, q, hp, hq, h⟩; exact htw ⟨p, q, up hp, up hq, h⟩
    simp only [walkMembers] at h
    cases hg : get us t with
    | none =>
      simp only [hg] at h
      obtain ⟨h1, h2⟩ := walkMembers_no_error us hnd rec hrec r _ es s' h hd'.2 htw'
        (fun x ⟨p, hp, hx⟩ => hb x ⟨p, up hp, hx⟩)
      refine ⟨h1, fun x hx => ?_⟩
      rcases h2 x hx with h | ⟨p, hp, hx⟩
      · exact .inl h
      · exact .inr ⟨p, up hp, hx⟩
    | some u =>
      have hu := get_some.1 hg
      simp only [hg] at h
      have hone : Chain us (t :: r) [t] := .one _ _ _ List.mem_cons_self hu
      have hcons : ∀ {p}, Chain us u.types p → Chain us (t :: r) (t :: p) := fun hp =>
        .cons _ _ _ _ List.mem_cons_self hu hp
      have hns : t ∉ s.seen := hb t ⟨[t], hone, rfl⟩
      have hs : ¬ s.seen.contains t = true := by simpa using hns
      simp only [hs, if_false] at h
      cases hr : rec u { s with seen := t :: s.seen } with
      | none => simp [hr] at h
      | some p =>
        obtain ⟨es1, s1⟩ := p
        simp only [hr] at h
        cases hm : walkMembers us rec r s1 with
        | none => simp [hm] at h
        | some p =>
          obtain ⟨es2, s2⟩ := p
          simp only [hm, Option.some.injEq, Prod.mk.injEq] at h
          obtain ⟨rfl, rfl⟩ := h
          obtain ⟨e1, k1⟩ := hrec u _ es1 s1 hr (hnd t u hu)
            (by
              rintro ⟨p, q, hp, hq, hne, hl⟩
              refine htw ⟨t :: p, t :: q, hcons hp, hcons hq, fun e => hne (List.cons.inj e).2, ?_⟩
              rw [last_cons (chain_ne hp), last_cons (chain_ne hq), hl])
            (by
              rintro x ⟨p, hp, hx⟩ hxs
              rcases List.mem_cons.1 hxs with rfl | hxs
              · refine htw ⟨x :: p, [x], hcons hp, hone, ?_, ?_⟩
                · intro e
                  exact chain_ne hp (List.cons.inj e).2
                · rw [last_cons (chain_ne hp), hx]; rfl
              · exact hb x ⟨t :: p, hcons hp, by rw [last_cons (chain_ne hp), hx]⟩ hxs)
          have seen1 : ∀ x ∈ s1.seen, x ∈ s.seen ∨ ∃ p, Chain us (t :: r) (t :: p) ∧ (t :: p).getLast? = some x := by
            intro x hx
            rcases k1 x hx with h | ⟨p, hp, hx⟩
            · rcases List.mem_cons.1 h with rfl | h
              · exact .inr ⟨[], hone, rfl⟩
              · exact .inl h
            · exact .inr ⟨p, hcons hp, by rw [last_cons (chain_ne hp), hx]⟩
          obtain ⟨e2, k2⟩ := walkMembers_no_error us hnd rec hrec r s1 es2 _ hm hd'.2 htw'
            (by
              rintro x ⟨q, hq, hx⟩ hxs
              rcases seen1 x hxs with h | ⟨p, hp, hx'⟩
              · exact hb x ⟨q, up hq, hx⟩ h
              · refine htw ⟨t :: p, q, hp, up hq, ?_, by rw [hx, hx']⟩
                rintro rfl
                obtain ⟨y, q, he, hy⟩ := chain_head hq
                have := (List.cons.inj he).1
                subst this
                exact hd'.1 hy)
          refine ⟨by simp [e1, e2], fun x hx => ?_⟩
          rcases k2 x hx with h | ⟨p, hp, hx⟩
          · rcases seen1 x h with h | ⟨p, hp, hx⟩
            · exact .inl h
            · exact .inr ⟨_, hp, hx⟩
          · exact .inr ⟨p, up hp, hx⟩

theorem walkUnion_no_error (us : List (Text × UnionD)) (hnd : ∀ n u, At us n u → u.types.Nodup) :
    ∀ (n : Nat) (u : UnionD) (s : UState) (es : List Text) (s' : UState),
      walkUnion us n u s = some (es, s') → u.types.Nodup → ¬ Twice us u.types →
      (∀ x, Ends us u.types x → x ∉ s.seen) →
      es = [] ∧ ∀ x ∈ s'.seen, x ∈ s.seen ∨ Ends us u.types x
  | 0, _, _, _, _, h => by simp [walkUnion] at h
  | n + 1, u, s, es, s', h =>
    walkMembers_no_error us hnd (walkUnion us n) (walkUnion_no_error us hnd n) u.types s es s' h

/-! ## Termination -/

/-- The unions not seen yet. -/
def unseen (us : List (Text × UnionD)) (seen : List Text) : List Text :=
  (us.map (·.1)).filter (fun x => !seen.contains x)

theorem filter_le {p q : Text → Bool} (h : ∀ x, p x = true → q x = true) :
    ∀ l : List Text, (l.filter p).length ≤ (l.filter q).length
  | [] => by simp
  | a :: l => by
    have ih := filter_le h l
    simp only [List.filter_cons]
    by_cases ha : p a = true
    · simp only [ha, h a ha, if_true, List.length_cons]; omega
    · simp only [ha, Bool.false_eq_true, if_false]
      split
      · simp only [List.length_cons]; omega
      · omega

theorem unseen_mono {us : List (Text × UnionD)} {a b : List Text} (h : ∀ x ∈ a, x ∈ b) :
    (unseen us b).length ≤ (unseen us a).length := by
  apply filter_le
  intro x hx
  simp at hx ⊢
  exact fun hxa => hx (h x hxa)

theorem unseen_lt {us : List (Text × UnionD)} {t : Text} {seen : List Text} {u : UnionD} (hu : At us t u)
    (hn : t ∉ seen) : (unseen us (t :: seen)).length < (unseen us seen).length := by
  have hmem : t ∈ us.map (·.1) := List.mem_map_of_mem (f := (·.1)) (at_mem hu)
  unfold unseen
  generalize us.map (·.1) = l at hmem
  induction l with
  | nil => cases hmem
  | cons a r ih =>
    have hle : (r.filter (fun x => !(t :: seen).contains x)).length ≤ (r.filter (fun x => !seen.contains x)).length := by
      apply filter_le
      intro x hx
      simp at hx ⊢
      exact hx.2
    simp only [List.filter_cons]
    by_cases ha : a = t
    · subst ha
      have e1 : (!(a :: seen).contains a) = false := by simp
      have e2 : (!seen.contains a) = true := by simpa using hn
      simp only [e1, e2, Bool.false_eq_true, if_false, if_true, List.length_cons]
      omega
    · have hmr : t ∈ r := by
        rcases List.mem_cons.1 hmem with h | h
        · exact absurd h.symm ha
        · exact h
      have := ih hmr
      by_cases has : a ∈ seen
      · simpa [has] using this
      · have e1 : (!(t :: seen).contains a) = true := by simp [ha, has]
        have e2 : (!seen.contains a) = true := by simpa using has
        simp only [e1, e2, if_true, List.length_cons]
        omega

theorem walkMembers_finishes (us : List (Text × UnionD)) (n : Nat)
    (rec : UnionD → UState → Option (List Text × UState))
    (hrec : ∀ u s, (unseen us s.seen).length < n →
      ∃ es s', rec u s = some (es, s') ∧ ∀ x ∈ s.seen, x ∈ s'.seen) :
    ∀ (ms : List Text) (s : UState), (unseen us s.seen).length < n + 1 →
      ∃ es s', walkMembers us rec ms s = some (es, s') ∧ ∀ x ∈ s.seen, x ∈ s'.seen
  | [], s, _ => ⟨[], s, rfl, fun _ h => h⟩
  | t :: r, s, hn => by
    cases hg : get us t with
    | none =>
      obtain ⟨es, s', h, hk⟩ := walkMembers_finishes us n rec hrec r
        { s with leaves := if s.leaves.contains t then s.leaves else t :: s.leaves } hn
      exact ⟨es, s', by simp only [walkMembers, hg, h], hk⟩
    | some u =>
      by_cases hs : s.seen.contains t = true
      · obtain ⟨es, s', h, hk⟩ := walkMembers_finishes us n rec hrec r s hn
        exact ⟨t :: es, s', by simp only [walkMembers, hg, hs, if_true, h], hk⟩
      · have hns : t ∉ s.seen := by simpa using hs
        have hlt := unseen_lt (get_some.1 hg) hns
        obtain ⟨es, s1, h, hk⟩ := hrec u { s with seen := t :: s.seen } (by
          have : (unseen us (t :: s.seen)).length < n := by omega
          exact this)
        have hk' : ∀ x ∈ s.seen, x ∈ s1.seen := fun x hx => hk x (List.mem_cons_of_mem _ hx)
        obtain ⟨es', s2, h', hk2⟩ := walkMembers_finishes us n rec hrec r s1 (by
          have := unseen_mono (us := us) hk'
          omega)
        exact ⟨es ++ es', s2, by simp only [walkMembers, hg, hs, Bool.false_eq_true, if_false, h, h'],
          fun x hx => hk2 x (hk' x hx)⟩

theorem walkUnion_finishes (us : List (Text × UnionD)) : ∀ (n : Nat) (u : UnionD) (s : UState),
    (unseen us s.seen).length < n → ∃ es s', walkUnion us n u s = some (es, s') ∧ ∀ x ∈ s.seen, x ∈ s'.seen
  | 0, _, _, h => by omega
  | n + 1, u, s, h => walkMembers_finishes us n (walkUnion us n) (walkUnion_finishes us n) u.types s h

theorem visitLoop_finishes (us : List (Text × UnionD)) (n : Nat) (hn : us.length < n) :
    ∀ l, ∃ r, visitLoop us n l = some r
  | [] => ⟨_, rfl⟩
  | (name, u) :: r => by
    obtain ⟨⟨es', r'⟩, h⟩ := visitLoop_finishes us n hn r
    have hle : (unseen us []).length ≤ us.length := by
      unfold unseen
      have := List.length_filter_le (fun x : Text => !([] : List Text).contains x) (us.map (·.1))
      simpa using this
    obtain ⟨es, s', h', _⟩ := walkUnion_finishes us n u ⟨[], []⟩ (by
      have : (unseen us []).length < n := by omega
      exact this)
    simp only [visitLoop, h', h]
    exact ⟨_, rfl⟩

/-! ## The loop over the unions -/

theorem visitLoop_ok (us : List (Text × UnionD)) (n : Nat) :
    ∀ (l r : List (Text × UnionD)), visitLoop us n l = some ([], r) →
      (∀ p ∈ l, ¬ Twice us p.2.types) ∧
      (∀ k, (get l k = none ∧ get r k = none) ∨
        ∃ u u', get l k = some u ∧ get r k = some u' ∧ u'.info = u.info ∧
          ∀ x, x ∈ u'.types ↔ Leaf us u.types x)
  | [], r, h => by
    simp only [visitLoop, Option.some.injEq, Prod.mk.injEq, true_and] at h
    subst h
    exact ⟨by simp, fun k => .inl ⟨rfl, rfl⟩⟩
  | (name, u) :: l, r, h => by
    simp only [visitLoop] at h
    cases hw : walkUnion us n u ⟨[], []⟩ with
    | none => simp [hw] at h
    | some p =>
      obtain ⟨es, s⟩ := p
      cases hv : visitLoop us n l with
      | none => simp [hw, hv] at h
      | some q =>
        obtain ⟨es', r'⟩ := q
        simp only [hw, hv, Option.some.injEq, Prod.mk.injEq, List.append_eq_nil_iff, List.map_eq_nil_iff] at h
        obtain ⟨⟨rfl, rfl⟩, rfl⟩ := h
        obtain ⟨i1, i2⟩ := visitLoop_ok us n l r' hv
        have hok := walkUnion_ok us n u _ s hw
        refine ⟨?_, fun k => ?_⟩
        · intro p hp
          rcases List.mem_cons.1 hp with rfl | hp
          · exact hok.once
          · exact i1 p hp
        · simp only [List.isEmpty_nil, if_true]
          by_cases hk : name = k
          · refine .inr ⟨u, { u with types := s.leaves }, by simp [get, hk], by simp [get, hk], rfl, fun x => ?_⟩
            rw [hok.leaves]
            simp
          · simp only [get, hk, if_false]
            exact i2 k

theorem visitLoop_no_error (us : List (Text × UnionD)) (hnd : ∀ n u, At us n u → u.types.Nodup) (n : Nat) :
    ∀ (l : List (Text × UnionD)) (es : List UErr) (r : List (Text × UnionD)), visitLoop us n l = some (es, r) →
      (∀ p ∈ l, p.2.types.Nodup ∧ ¬ Twice us p.2.types) → es = []
  | [], es, r, h, _ => by
    simp only [visitLoop, Option.some.injEq, Prod.mk.injEq] at h
    exact h.1.symm
  | (name, u) :: l, es, r, h, hall => by
    simp only [visitLoop] at h
    cases hw : walkUnion us n u ⟨[], []⟩ with
    | none => simp [hw] at h
    | some p =>
      obtain ⟨es1, s⟩ := p
      cases hv : visitLoop us n l with
      | none => simp [hw, hv] at h
      | some q =>
        obtain ⟨es2, r'⟩ := q
        simp only [hw, hv, Option.some.injEq, Prod.mk.injEq] at h
        obtain ⟨rfl, _⟩ := h
        have e2 := visitLoop_no_error us hnd n l es2 r' hv (fun p hp => hall p (List.mem_cons_of_mem _ hp))
        have hp := hall (name, u) List.mem_cons_self
        have e1 := (walkUnion_no_error us hnd n u _ es1 s hw hp.1 hp.2 (by simp)).1
        simp [e1, e2]

/-! ## The errors -/

theorem walkMembers_errors (us : List (Text × UnionD))
    (rec : UnionD → UState → Option (List Text × UState))
    (hrec : ∀ u s es s', rec u s = some (es, s') → ∀ e ∈ es, Ends us u.types e) :
    ∀ (ms : List Text) (s : UState) (es : List Text) (s' : UState),
      walkMembers us rec ms s = some (es, s') → ∀ e ∈ es, Ends us ms e
  | [], s, es, s', h, e, he => by
    simp only [walkMembers, Option.some.injEq, Prod.mk.injEq] at h
    rw [← h.1] at he
    cases he
  | t :: r, s, es, s', h, e, he => by
    have up : ∀ {x}, Ends us r x → Ends us (t :: r) x := fun ⟨p, hp, hx⟩ =>
      ⟨p, chain_mono hp (fun x hx => List.mem_cons_of_mem _ hx), hx⟩
    simp only [walkMembers] at h
    cases hg : get us t with
    | none =>
      simp only [hg] at h
      exact up (walkMembers_errors us rec hrec r _ es s' h e he)
    | some u =>
      simp only [hg] at h
      have hu := get_some.1 hg
      by_cases hs : s.seen.contains t = true
      · simp only [hs, if_true] at h
        cases hm : walkMembers us rec r s with
        | none => simp [hm] at h
        | some p =>
          obtain ⟨es1, s1⟩ := p
          simp only [hm, Option.some.injEq, Prod.mk.injEq] at h
          rw [← h.1] at he
          rcases List.mem_cons.1 he with rfl | he
          · exact ⟨[e], .one _ _ _ List.mem_cons_self hu, rfl⟩
          · exact up (walkMembers_errors us rec hrec r s es1 s1 hm e he)
      · simp only [hs, Bool.false_eq_true, if_false] at h
        cases hr : rec u { s with seen := t :: s.seen } with
        | none => simp [hr] at h
        | some p =>
          obtain ⟨es1, s1⟩ := p
          simp only [hr] at h
          cases hm : walkMembers us rec r s1 with
          | none => simp [hm] at h
          | some p =>
            obtain ⟨es2, s2⟩ := p
            simp only [hm, Option.some.injEq, Prod.mk.injEq] at h
            rw [← h.1] at he
            rcases List.mem_append.1 he with he | he
            · exact ends_of_cons List.mem_cons_self hu (hrec u _ es1 s1 hr e he)
            · exact up (walkMembers_errors us rec hrec r s1 es2 s2 hm e he)

theorem walkUnion_errors (us : List (Text × UnionD)) : ∀ (n : Nat) (u : UnionD) (s : UState) (es : List Text)
    (s' : UState), walkUnion us n u s = some (es, s') → ∀ e ∈ es, Ends us u.types e
  | 0, _, _, _, _, h => by simp [walkUnion] at h
  | n + 1, u, s, es, s', h => walkMembers_errors us (walkUnion us n) (walkUnion_errors us n) u.types s es s' h

theorem visitLoop_errors (us : List (Text × UnionD)) (n : Nat) :
    ∀ (l : List (Text × UnionD)) (es : List UErr) (r : List (Text × UnionD)), visitLoop us n l = some (es, r) →
      (∀ e ∈ es, ∃ p ∈ l, e.trace = [p.1] ∧ Ends us p.2.types e.recursive) ∧
      (∀ p ∈ l, Twice us p.2.types → ∃ e ∈ es, e.trace = [p.1])
  | [], es, r, h => by
    simp only [visitLoop, Option.some.injEq, Prod.mk.injEq] at h
    rw [← h.1]
    exact ⟨by simp, by simp⟩
  | (name, u) :: l, es, r, h => by
    simp only [visitLoop] at h
    cases hw : walkUnion us n u ⟨[], []⟩ with
    | none => simp [hw] at h
    | some p =>
      obtain ⟨es1, s⟩ := p
      cases hv : visitLoop us n l with
      | none => simp [hw, hv] at h
      | some q =>
        obtain ⟨es2, r'⟩ := q
        simp only [hw, hv, Option.some.injEq, Prod.mk.injEq] at h
        obtain ⟨rfl, _⟩ := h
        obtain ⟨i1, i2⟩ := visitLoop_errors us n l es2 r' hv
        constructor
        · intro e he
          rcases List.mem_append.1 he with he | he
          · obtain ⟨t, ht, rfl⟩ := List.mem_map.1 he
            exact ⟨(name, u), List.mem_cons_self, rfl, walkUnion_errors us n u _ es1 s hw t ht⟩
          · obtain ⟨p, hp, h⟩ := i1 e he
            exact ⟨p, List.mem_cons_of_mem _ hp, h⟩
        · intro p hp ht
          rcases List.mem_cons.1 hp with rfl | hp
          · cases es1 with
            | nil => exact ((walkUnion_ok us n u _ s hw).once ht).elim
            | cons t es1 => exact ⟨⟨[name], t⟩, by simp, rfl⟩
          · obtain ⟨e, he, h⟩ := i2 p hp ht
            exact ⟨e, List.mem_append_right _ he, h⟩

theorem nestedUnions_ok {c c' : Cfg} {n : Nat} (h : nestedUnions c n = some (.ok c')) :
    ∃ r, visitLoop c.unions n c.unions = some ([], r) ∧ c' = { c with unions := r } := by
  unfold nestedUnions at h
  split at h
  · cases h
  · rename_i r hv
    simp only [Option.some.injEq, Except.ok.injEq] at h
    exact ⟨r, hv, h.symm⟩
  · simp at h

theorem twice_of_recursive {us : List (Text × UnionD)} {n : Text} (h : Recursive us n) :
    ∃ u, At us n u ∧ Twice us u.types := by
  obtain ⟨u, p, hu, hp, hl⟩ := h
  refine ⟨u, hu, p, p ++ p, hp, ?_, ?_, ?_⟩
  · -- the chain can be repeated
    have app : ∀ {ms q}, Chain us ms q → q.getLast? = some n → Chain us ms (q ++ p) := by
      intro ms q hq
      induction hq with
      | one ms t u' h1 h2 =>
        intro hl
        have : t = n := by simpa using hl
        subst this
        have := at_unique h2 hu
        subst this
        exact .cons _ _ _ _ h1 h2 hp
      | cons ms t u' q h1 h2 h3 ih =>
        intro hl
        rw [last_cons (chain_ne h3)] at hl
        exact .cons _ _ _ _ h1 h2 (ih hl)
    exact app hp hl
  · intro e
    have h1 := congrArg List.length e
    simp only [List.length_append] at h1
    have h2 : p.length ≠ 0 := fun h => chain_ne hp (List.length_eq_zero_iff.1 h)
    omega
  · rw [List.getLast?_append]
    simp [hl]

/-! ## C51 -/

/-- When the unions are accepted, every union has exactly its leaf members, and nothing else changes. -/
theorem C51_exact (c c' : Cfg) (n : Nat) (h : nestedUnions c n = some (.ok c')) :
    (∀ k, Lacks c.unions k ↔ Lacks c'.unions k) ∧
    (∀ k u, At c.unions k u → ∃ u', At c'.unions k u' ∧ u'.info = u.info ∧
      ∀ x, x ∈ u'.types ↔ Leaf c.unions u.types x) ∧
    c'.types = c.types ∧ c'.enums = c.enums ∧ c'.query = c.query ∧ c'.mutation = c.mutation ∧
    c'.subscription = c.subscription := by
  obtain ⟨r, hv, rfl⟩ := nestedUnions_ok h
  obtain ⟨_, h2⟩ := visitLoop_ok c.unions n c.unions r hv
  refine ⟨fun k => ?_, fun k u hu => ?_, rfl, rfl, rfl, rfl, rfl⟩
  · rw [← get_none, ← get_none]
    rcases h2 k with ⟨a, b⟩ | ⟨u, u', a, b, _⟩
    · simp [a, b]
    · simp [a, b]
  · rcases h2 k with ⟨a, b⟩ | ⟨u0, u', a, b, hi, hx⟩
    · rw [get_some.2 hu] at a; cases a
    · rw [get_some.2 hu] at a
      cases a
      exact ⟨u', get_some.1 b, hi, hx⟩

/-- When the unions are accepted, no member of a union is a union. -/
theorem C51_flat (c c' : Cfg) (n : Nat) (h : nestedUnions c n = some (.ok c')) (k : Text) (u : UnionD)
    (hu : At c'.unions k u) : ∀ x ∈ u.types, Lacks c'.unions x := by
  obtain ⟨h1, h2, _⟩ := C51_exact c c' n h
  intro x hx
  rcases at_or_lacks c.unions k with ⟨u0, hu0⟩ | hl
  · obtain ⟨u', hu', _, hleaf⟩ := h2 k u0 hu0
    have := at_unique hu hu'
    subst this
    have hl := (hleaf x).1 hx
    have : Lacks c.unions x := by
      clear hleaf hx
      generalize u0.types = ms at hl
      induction hl with
      | direct _ _ _ h => exact h
      | nested _ _ _ _ _ _ _ ih => exact ih
    exact (h1 x).1 this
  · exact (at_not_lacks hu ((h1 k).1 hl)).elim

/-- A recursive union is rejected. -/
theorem C51_recursive_rejected (c c' : Cfg) (n : Nat) (k : Text) (hr : Recursive c.unions k) :
    nestedUnions c n ≠ some (.ok c') := by
  intro h
  obtain ⟨r, hv, _⟩ := nestedUnions_ok h
  obtain ⟨h1, _⟩ := visitLoop_ok c.unions n c.unions r hv
  obtain ⟨u, hu, ht⟩ := twice_of_recursive hr
  exact h1 (k, u) (at_mem hu) ht

/-- The unions are rejected exactly when some union is nested in another one in two ways. -/
theorem C51_rejected_iff_partial (c : Cfg) (n : Nat) (r : Except (List UErr) Cfg)
    (hk : (c.unions.map (·.1)).Nodup) (hnd : ∀ k u, At c.unions k u → u.types.Nodup)
    (h : nestedUnions c n = some r) :
    (∃ es, r = .error es) ↔ ∃ k u, At c.unions k u ∧ Twice c.unions u.types := by
  have at_of_mem : ∀ p ∈ c.unions, At c.unions p.1 p.2 := by
    have : ∀ l : List (Text × UnionD), (l.map (·.1)).Nodup → ∀ p ∈ l, get l p.1 = some p.2 := by
      intro l
      induction l with
      | nil => intro _ p hp; cases hp
      | cons a l ih =>
        intro hd p hp
        simp only [List.map_cons, List.nodup_cons] at hd
        rcases List.mem_cons.1 hp with rfl | hp
        · simp [get]
        · have hne : a.1 ≠ p.1 := fun e => hd.1 (e ▸ List.mem_map_of_mem (f := (·.1)) hp)
          simp only [get, hne, if_false]
          exact ih hd.2 p hp
    intro p hp
    exact get_some.1 (this c.unions hk p hp)
  constructor
  · rintro ⟨es, rfl⟩
    apply Classical.byContradiction
    intro hno
    unfold nestedUnions at h
    cases hv : visitLoop c.unions n c.unions with
    | none => simp [hv] at h
    | some q =>
      obtain ⟨es', r'⟩ := q
      have := visitLoop_no_error c.unions hnd n c.unions es' r' hv (fun p hp =>
        ⟨hnd p.1 p.2 (at_of_mem p hp), fun ht => hno ⟨p.1, p.2, at_of_mem p hp, ht⟩⟩)
      subst this
      simp [hv] at h
  · rintro ⟨k, u, hu, ht⟩
    cases r with
    | error es => exact ⟨es, rfl⟩
    | ok c' =>
      obtain ⟨r', hv, _⟩ := nestedUnions_ok h
      exact ((visitLoop_ok c.unions n c.unions r' hv).1 (k, u) (at_mem hu) ht).elim

/-- Every union that is recursive is reported under its own name, and every error names a declared union and
a union that is nested in it. -/
theorem C51_errors (c : Cfg) (n : Nat) (es : List UErr) (h : nestedUnions c n = some (.error es)) :
    (∀ k, Recursive c.unions k → ∃ e ∈ es, e.trace = [k]) ∧
    (∀ e ∈ es, ∃ p ∈ c.unions, e.trace = [p.1] ∧ ∃ q, Chain c.unions p.2.types q ∧ q.getLast? = some e.recursive) := by
  have hv : ∃ r, visitLoop c.unions n c.unions = some (es, r) := by
    unfold nestedUnions at h
    split at h
    · cases h
    · simp at h
    · rename_i e es' r hv
      simp only [Option.some.injEq, Except.error.injEq] at h
      exact ⟨r, by rw [hv, h]⟩
  obtain ⟨r, hv⟩ := hv
  obtain ⟨h1, h2⟩ := visitLoop_errors c.unions n c.unions es r hv
  refine ⟨fun k hk => ?_, h1⟩
  obtain ⟨u, hu, ht⟩ := twice_of_recursive hk
  exact h2 (k, u) (at_mem hu) ht

/-- Flattening always ends. -/
theorem C51_terminates (c : Cfg) (n : Nat) (hn : c.unions.length < n) : ∃ r, nestedUnions c n = some r := by
  obtain ⟨⟨es, r⟩, h⟩ := visitLoop_finishes c.unions n hn c.unions
  unfold nestedUnions
  cases es with
  | nil => exact ⟨_, by simp only [h]; rfl⟩
  | cons e es => exact ⟨_, by simp only [h]; rfl⟩

/-- Unions `U = V | A`, `V = W | B`, `W = A | C`. -/
def nestCfg : Cfg where
  types := []
  unions := [(['U'], ⟨[['V'], ['A']], ['d']⟩), (['V'], ⟨[['W'], ['B']], []⟩), (['W'], ⟨[['A'], ['C']], []⟩)]
  enums := []
  query := none
  mutation := none
  subscription := none

example : nestedUnions nestCfg 4 = some (.ok { nestCfg with
    unions := [(['U'], ⟨[['B'], ['C'], ['A']], ['d']⟩), (['V'], ⟨[['B'], ['C'], ['A']], []⟩),
      (['W'], ⟨[['C'], ['A']], []⟩)] }) := by rfl

/-- `U = V | A`, `V = W`, `W = U`: recursive. -/
def recCfg : Cfg :=
  { nestCfg with unions := [(['U'], ⟨[['V'], ['A']], []⟩), (['V'], ⟨[['W']], []⟩), (['W'], ⟨[['U']], []⟩)] }

example : Recursive recCfg.unions ['V'] ∧
    nestedUnions recCfg 4 = some (.error [⟨[['U']], ['V']⟩, ⟨[['V']], ['W']⟩, ⟨[['W']], ['U']⟩]) :=
  ⟨⟨_, [['W'], ['U'], ['V']], rfl,
      .cons _ _ _ _ List.mem_cons_self rfl (.cons _ _ _ _ List.mem_cons_self rfl (.one _ _ _ List.mem_cons_self rfl)), rfl⟩,
    rfl⟩

/-- `U = V | W`, `V = X | A`, `W = X | B`, `X = C`: not recursive. -/
def diamondCfg : Cfg :=
  { nestCfg with unions := [(['U'], ⟨[['V'], ['W']], []⟩), (['V'], ⟨[['X'], ['A']], []⟩),
      (['W'], ⟨[['X'], ['B']], []⟩), (['X'], ⟨[['C']], []⟩)] }

example : (diamondCfg.unions.map (·.1)).Nodup ∧
    nestedUnions diamondCfg 5 = some (.error [⟨[['U']], ['X']⟩]) := ⟨by decide, by rfl⟩

/-- A union that reaches another one in two ways is rejected as recursive although none is. -/
theorem C51_violated_by_diamond :
    ∃ (c : Cfg) (n : Nat) (es : List UErr), nestedUnions c n = some (.error es) ∧
      ∀ k, ¬ Recursive c.unions k := by
  refine ⟨diamondCfg, 5, _, rfl, ?_⟩
  rintro k ⟨u, p, hu, hp, hl⟩
  -- a rank that decreases along members
  let rank : Text → Nat := fun t => if t = ['U'] then 3 else if t = ['X'] then 1 else if t = ['V'] then 2 else
    if t = ['W'] then 2 else 0
  have key : ∀ {ms q}, Chain diamondCfg.unions ms q → ∀ r, (∀ m ∈ ms, rank m < r) →
      ∀ x, q.getLast? = some x → rank x < r := by
    intro ms q hq
    induction hq with
    | one ms t u h1 h2 =>
      intro r hr x hx
      have : t = x := by simpa using hx
      exact this ▸ hr t h1
    | cons ms t u q h1 h2 h3 ih =>
      intro r hr x hx
      rw [last_cons (chain_ne h3)] at hx
      refine Nat.lt_trans (ih (rank t) ?_ x hx) (hr t h1)
      intro m hm
      have hmem := at_mem h2
      simp only [diamondCfg, List.mem_cons, List.not_mem_nil, or_false, Prod.mk.injEq] at hmem
      rcases hmem with ⟨rfl, rfl⟩ | ⟨rfl, rfl⟩ | ⟨rfl, rfl⟩ | ⟨rfl, rfl⟩ <;>
        · simp only [List.mem_cons, List.not_mem_nil, or_false] at hm
          rcases hm with rfl | rfl <;> decide
  have hlt := key hp (rank k) (by
    intro m hm
    have hmem := at_mem hu
    simp only [diamondCfg, List.mem_cons, List.not_mem_nil, or_false, Prod.mk.injEq] at hmem
    rcases hmem with ⟨rfl, rfl⟩ | ⟨rfl, rfl⟩ | ⟨rfl, rfl⟩ | ⟨rfl, rfl⟩ <;>
      · simp only [List.mem_cons, List.not_mem_nil, or_false] at hm
        rcases hm with rfl | rfl <;> decide) k hl
  exact Nat.lt_irrefl _ hlt

end Verif.Transform
