import Verif.Npo.Lemmas

/-!
# Properties of the N + 1 report
-/

namespace Verif.Npo

open Verif.Mustache (Text)
open Verif.Exec (Ty)
open Verif.Merge (get)

set_option linter.unusedSimpArgs false

/-! ## Specification -/

/-- What a report has to be about: a chain of fields from the query type that offends, an entity
whose resolver makes a call for each object, or a chain from an entity with a batched resolver. -/
inductive Real (c : Config) : List Seg → Prop
  | query {q p b n f} : c.query = some q → Offends c false q p b n f → Real c (names p n)
  | entity {e t} : (e, t) ∈ c.types → Alone t.resolvers → Real c [.entity e]
  | inside {e t p b n f} : (e, t) ∈ c.types → t.resolvers ≠ [] → ¬ Alone t.resolvers →
      Offends c true e p b n f → Real c (.entity e :: names p n)

/-- Where a chain starts, and whether there are many objects. -/
inductive Start (c : Config) : Bool → Text → Prop
  | query {q} : c.query = some q → Start c false q
  | entity {e t} : (e, t) ∈ c.types → t.resolvers ≠ [] → ¬ Alone t.resolvers → Start c true e

/-- A path of the report is a chain that ends with the field `n` of the type `b`. -/
def EndsWith (c : Config) (ps : Paths) (b n : Text) : Prop :=
  (∃ q p, c.query = some q ∧ Path c q p b ∧ names p n ∈ ps) ∨
  (∃ e p, Path c e p b ∧ Seg.entity e :: names p n ∈ ps)

/-! ## The whole search -/

theorem has_ne {s : RSet} : hasResolver s = true ↔ s ≠ [] := by
  cases s <;> simp [hasResolver]

/-- What the loop over the entities keeps. -/
structure Top (c : Config) (done : List (Text × Typ)) (ps : Paths) (s : Cache) : Prop where
  sound : Sound c s
  real : ∀ ch ∈ ps, Real c ch
  closed : Closed c s
  shown : ∀ x, Has s x → ∀ n, Bad c x n → EndsWith c ps x.1 n
  alone : ∀ e t, (e, t) ∈ done → Alone t.resolvers → [Seg.entity e] ∈ ps
  start : ∀ e t, (e, t) ∈ done → t.resolvers ≠ [] → ¬ Alone t.resolvers → Has s (e, true)

theorem EndsWith.weaken {c : Config} {ps ps' : Paths} {b n} (h : EndsWith c ps b n)
    (hp : ∀ x ∈ ps, x ∈ ps') : EndsWith c ps' b n := by
  rcases h with ⟨q, p, h1, h2, h3⟩ | ⟨e, p, h1, h2⟩
  · exact .inl ⟨q, p, h1, h2, hp _ h3⟩
  · exact .inr ⟨e, p, h1, hp _ h2⟩

theorem entities_good (c : Config) (fuel : Nat) : ∀ (ts done : List (Text × Typ)) (ps : Paths) (s : Cache),
    done ++ ts = c.types → left c s < fuel → Top c done ps s →
    ∃ ps' s', entities c fuel ts ps s = some ps' ∧ Top c c.types ps' s' ∧ (∀ x, Has s x → Has s' x)
  | [], done, ps, s, he, _, h => by
    rw [List.append_nil] at he; subst he
    exact ⟨ps, s, rfl, h, fun _ h => h⟩
  | (e, t) :: rest, done, ps, s, he, hf, h => by
    have hm : (e, t) ∈ c.types := by rw [← he]; simp
    have he' : (done ++ [(e, t)]) ++ rest = c.types := by rw [← he]; simp
    simp only [entities]
    split
    · rename_i hr
      split
      · rename_i hb
        have hna := (batched_iff _ hr).mp hb
        obtain ⟨found, s', hit, st⟩ := iter_good c fuel s (some (.entity e)) e true h.sound hf
        rw [hit]
        suffices hT : Top c (done ++ [(e, t)]) (ps ++ under (some (.entity e)) found) s' by
          obtain ⟨ps', s'', h1, h2, h3⟩ := entities_good c fuel rest _ _ s' he'
            (Nat.lt_of_le_of_lt (left_le st.mono) hf) hT
          exact ⟨ps', s'', h1, h2, fun x hx => h3 x (st.mono x hx)⟩
        refine ⟨st.sound, ?_, ?_, ?_, ?_, ?_⟩
        · intro ch hch
          rcases List.mem_append.mp hch with h' | h'
          · exact h.real ch h'
          · obtain ⟨ch', hch', rfl⟩ := List.mem_map.mp h'
            obtain ⟨p, b, n, f, rfl, ho⟩ := st.leads ch' hch'
            exact .inside hm (has_ne.mp hr) hna ho
        · intro x hx y hy
          by_cases hxs : Has s x
          · exact st.mono _ (h.closed x hxs y hy)
          · exact st.closed x hx hxs y hy
        · intro x hx n hb'
          by_cases hxs : Has s x
          · exact (h.shown x hxs n hb').weaken fun y hy => List.mem_append.mpr (.inl hy)
          · obtain ⟨p, hp, hpm⟩ := st.shown x hx hxs n hb'
            exact .inr ⟨e, p, hp, List.mem_append.mpr (.inr (List.mem_map.mpr ⟨_, hpm, rfl⟩))⟩
        · intro e' t' hm' ha
          rcases List.mem_append.mp hm' with h' | h'
          · exact List.mem_append.mpr (.inl (h.alone e' t' h' ha))
          · rw [List.mem_singleton] at h'; cases h'; exact absurd ha hna
        · intro e' t' hm' h1 h2
          rcases List.mem_append.mp hm' with h' | h'
          · exact st.mono _ (h.start e' t' h' h1 h2)
          · rw [List.mem_singleton] at h'; cases h'; exact st.key
      · rename_i hb
        have ha : Alone t.resolvers := (alone_iff _).mp (by rw [hr]; simpa using hb)
        refine entities_good c fuel rest _ (ps ++ [[.entity e]]) s he' hf ⟨h.sound, ?_, h.closed, ?_, ?_, ?_⟩
        · intro ch hch
          rcases List.mem_append.mp hch with h' | h'
          · exact h.real ch h'
          · rw [List.mem_singleton] at h'; subst h'; exact .entity hm ha
        · intro x hx n hb'
          exact (h.shown x hx n hb').weaken fun y hy => List.mem_append.mpr (.inl hy)
        · intro e' t' hm' ha'
          rcases List.mem_append.mp hm' with h' | h'
          · exact List.mem_append.mpr (.inl (h.alone e' t' h' ha'))
          · rw [List.mem_singleton] at h'; cases h'; simp
        · intro e' t' hm' h1 h2
          rcases List.mem_append.mp hm' with h' | h'
          · exact h.start e' t' h' h1 h2
          · rw [List.mem_singleton] at h'; cases h'; exact absurd ha h2
    · rename_i hr
      have hnil : t.resolvers = [] := by
        by_cases hn : t.resolvers = []
        · exact hn
        · exact absurd (has_ne.mpr hn) hr
      refine entities_good c fuel rest _ ps s he' hf ⟨h.sound, h.real, h.closed, h.shown, ?_, ?_⟩
      · intro e' t' hm' ha'
        rcases List.mem_append.mp hm' with h' | h'
        · exact h.alone e' t' h' ha'
        · rw [List.mem_singleton] at h'; cases h'
          obtain ⟨r, hr', _⟩ := ha'
          rw [hnil] at hr'; cases hr'
      · intro e' t' hm' h1 h2
        rcases List.mem_append.mp hm' with h' | h'
        · exact h.start e' t' h' h1 h2
        · rw [List.mem_singleton] at h'; cases h'; exact absurd hnil h1

theorem left_nil (c : Config) (fuel : Nat) (h : depth c ≤ fuel) : left c [] < fuel := by
  have h1 : left c [] ≤ (keysOf c).length := by
    unfold left; exact List.length_filter_le _ _
  rw [length_keysOf] at h1
  unfold depth at h
  omega

theorem find_good (c : Config) (fuel : Nat) (hd : depth c ≤ fuel) : ∃ ps s, findWith c fuel = some ps ∧
    Top c c.types ps s ∧ (∀ q, c.query = some q → Has s (q, false)) := by
  have hsound : Sound c [] := by intro k v h; cases h
  have hnone : ∀ x, ¬ Has [] x := by rintro x ⟨v, h⟩; cases h
  unfold findWith
  cases hq : c.query with
  | none =>
    obtain ⟨ps, s, h1, h2, _⟩ := entities_good c fuel c.types [] [] [] rfl (left_nil c fuel hd)
      ⟨hsound, by simp, fun x h => absurd h (hnone x), fun x h => absurd h (hnone x), by simp, by simp⟩
    exact ⟨ps, s, h1, h2, by intro q h; cases h⟩
  | some q =>
    obtain ⟨found, s', hit, st⟩ := iter_good c fuel [] none q false hsound (left_nil c fuel hd)
    simp only [hit, under]
    suffices hT : Top c [] found s' by
      obtain ⟨ps, s, h1, h2, h3⟩ := entities_good c fuel c.types [] found s' rfl
        (Nat.lt_of_le_of_lt (left_le st.mono) (left_nil c fuel hd)) hT
      exact ⟨ps, s, h1, h2, by intro q' h; cases h; exact h3 _ st.key⟩
    refine ⟨st.sound, ?_, fun x h => st.closed x h (hnone x), ?_, by simp, by simp⟩
    · intro ch hch
      obtain ⟨p, b, n, f, rfl, ho⟩ := st.leads ch hch
      exact .query hq ho
    · intro x hx n hb
      obtain ⟨p, hp, hm⟩ := st.shown x hx (hnone x) n hb
      exact .inl ⟨q, p, hq, hp, hm⟩

/-! ## C92 -/

/-- C92: the search ends on every configuration, cyclic or not, with a recursion no deeper than
twice the number of types. -/
theorem C92_search_ends (c : Config) : ∃ ps, find c = some ps := by
  obtain ⟨ps, _, h, _⟩ := find_good c (depth c) (Nat.le_refl _)
  exact ⟨ps, h⟩

/-- C92: each reported path is a chain of fields that exist, with a list on the way, to a field
whose resolver makes a call for each object; or an entity that is not batched; or a chain from an
entity. -/
theorem C92_reported_paths_are_real (c : Config) (ps : Paths) (h : find c = some ps) (ch : List Seg)
    (hm : ch ∈ ps) : Real c ch := by
  obtain ⟨ps', _, h', ht, _⟩ := find_good c (depth c) (Nat.le_refl _)
  unfold find at h; rw [h'] at h; cases h
  exact ht.real ch hm

/-- C92: each field that is the first to offend on some chain is the end of a reported path. -/
theorem C92_first_offences_are_reported (c : Config) (ps : Paths) (h : find c = some ps) {many a p b n f}
    (hs : Start c many a) (ho : Offends c many a p b n f) (hf : First c many a p) : EndsWith c ps b n := by
  obtain ⟨ps', s, h', ht, hq⟩ := find_good c (depth c) (Nat.le_refl _)
  unfold find at h; rw [h'] at h; cases h
  have hk : Has s (a, many) := by
    cases hs with
    | query h => exact hq _ h
    | entity h1 h2 h3 => exact ht.start _ _ h1 h2 h3
  have hb := reach ht.closed p many a b n f hk ho hf
  obtain ⟨t, h1, h2⟩ := ho.last
  exact ht.shown _ hb n ⟨rfl, t, f, h1, h2, ho.alone⟩

/-- C92: each entity whose resolver makes a call for each object is reported. -/
theorem C92_entities_are_reported (c : Config) (ps : Paths) (h : find c = some ps) {e t}
    (hm : (e, t) ∈ c.types) (ha : Alone t.resolvers) : [Seg.entity e] ∈ ps := by
  obtain ⟨ps', s, h', ht, hq⟩ := find_good c (depth c) (Nat.le_refl _)
  unfold find at h; rw [h'] at h; cases h
  exact ht.alone e t hm ha

/-- C92: nothing is reported exactly when there is nothing to report. -/
theorem C92_silent_iff (c : Config) : find c = some [] ↔ ∀ ch, ¬ Real c ch := by
  constructor
  · intro h ch hr
    have key : ∀ many a p b n f, Start c many a → ¬ Offends c many a p b n f := by
      intro many a p b n f hs ho
      obtain ⟨p', b', n', f', ho', hf'⟩ := first_of p.length p b n f (Nat.le_refl _) ho
      rcases C92_first_offences_are_reported c [] h hs ho' hf' with ⟨_, _, _, _, hm⟩ | ⟨_, _, _, hm⟩
      · cases hm
      · cases hm
    cases hr with
    | query hq ho => exact key _ _ _ _ _ _ (.query hq) ho
    | entity hm ha => cases C92_entities_are_reported c [] h hm ha
    | inside hm h1 h2 ho => exact key _ _ _ _ _ _ (.entity hm h1 h2) ho
  · intro h
    obtain ⟨ps, hp⟩ := C92_search_ends c
    cases ps with
    | nil => exact hp
    | cons ch rest => exact absurd (C92_reported_paths_are_real c _ hp ch List.mem_cons_self) (h ch)

/-- C92: a deeper recursion would find the same things (silence does not depend on the bound). -/
theorem C92_bound_is_enough (c : Config) (fuel : Nat) (hd : depth c ≤ fuel) :
    findWith c fuel = some [] ↔ find c = some [] := by
  have key : ∀ fuel, depth c ≤ fuel → (findWith c fuel = some [] ↔ ∀ ch, ¬ Real c ch) := by
    intro fuel hd
    obtain ⟨ps, s, h', ht, hq⟩ := find_good c fuel hd
    rw [h']
    constructor
    · intro h ch hr
      cases h
      have key : ∀ many a p b n f, Start c many a → ¬ Offends c many a p b n f := by
        intro many a p b n f hs ho
        obtain ⟨p', b', n', f', ho', hf'⟩ := first_of p.length p b n f (Nat.le_refl _) ho
        have hk : Has s (a, many) := by
          cases hs with
          | query h => exact hq _ h
          | entity h1 h2 h3 => exact ht.start _ _ h1 h2 h3
        have hb := reach ht.closed p' many a b' n' f' hk ho' hf'
        obtain ⟨t, h1, h2⟩ := ho'.last
        rcases ht.shown _ hb n' ⟨rfl, t, f', h1, h2, ho'.alone⟩ with ⟨_, _, _, _, hm⟩ | ⟨_, _, _, hm⟩
        · cases hm
        · cases hm
      cases hr with
      | query hq ho => exact key _ _ _ _ _ _ (.query hq) ho
      | entity hm ha => cases ht.alone _ _ hm ha
      | inside hm h1 h2 ho => exact key _ _ _ _ _ _ (.entity hm h1 h2) ho
    · intro h
      cases ps with
      | nil => rfl
      | cons ch rest => exact absurd (ht.real ch List.mem_cons_self) (h ch)
  rw [key fuel hd, ← C92_silent_iff]

/-! ### The printed report -/

/-- A name as in GraphQL: not empty, without spaces, quotes and line breaks. -/
def Plain (n : Text) : Prop := n ≠ [] ∧ ∀ x ∈ n, x ≠ ' ' ∧ x ≠ '"' ∧ x ≠ '\n' ∧ x ≠ '('

/-- The names of a path are plain. -/
def PlainPath (p : List Seg) : Prop := p ≠ [] ∧ ∀ x ∈ p, match x with
  | .field n => Plain n
  | .entity n => Plain n

/-- The lines of a text. -/
def lines : Text → List Text
  | [] => [[]]
  | '\n' :: rest => [] :: lines rest
  | x :: rest => match lines rest with
    | [] => [[x]]
    | l :: ls => (x :: l) :: ls

theorem split_at {s t x y : Text} {z : Char} (hs : ∀ a ∈ s, a ≠ z) (ht : ∀ a ∈ t, a ≠ z)
    (hx : x = [] ∨ ∃ x', x = z :: x') (hy : y = [] ∨ ∃ y', y = z :: y') (h : s ++ x = t ++ y) :
    s = t ∧ x = y := by
  induction s generalizing t with
  | nil =>
    cases t with
    | nil => exact ⟨rfl, h⟩
    | cons b t =>
      rcases hx with rfl | ⟨x', rfl⟩
      · cases h
      · simp at h; exact absurd h.1.symm (ht b List.mem_cons_self)
  | cons a s ih =>
    cases t with
    | nil =>
      rcases hy with rfl | ⟨y', rfl⟩
      · cases h
      · simp at h; exact absurd h.1 (hs a List.mem_cons_self)
    | cons b t =>
      simp only [List.cons_append, List.cons.injEq] at h
      obtain ⟨h1, h2⟩ := ih (fun c hc => hs c (List.mem_cons_of_mem _ hc))
        (fun c hc => ht c (List.mem_cons_of_mem _ hc)) h.2
      exact ⟨by rw [h.1, h1], h2⟩

/-- The front of a printed entity. -/
def entityHead : Text := "__entities(representations: [{ __typename: \"".toList
/-- The end of a printed entity. -/
def entityTail : Text := "\"}])".toList

theorem show_entity (n : Text) : (Seg.entity n).show = entityHead ++ n ++ entityTail := rfl

theorem entityTail_eq : ∃ t, entityTail = '"' :: t := ⟨"}])".toList, by decide⟩

theorem entityHead_eq : ∃ t, entityHead = "__entities(representations:".toList ++ ' ' :: t :=
  ⟨"[{ __typename: \"".toList, by decide⟩

theorem entityHead_ne : entityHead ≠ [] := by decide

theorem entityHead_lines : ∀ x ∈ entityHead, x ≠ '\n' := by decide

theorem entityTail_lines : ∀ x ∈ entityTail, x ≠ '\n' := by decide

theorem show_split {a b : Seg} {x y : Text}
    (ha : match a with | .field n => Plain n | .entity n => Plain n)
    (hb : match b with | .field n => Plain n | .entity n => Plain n)
    (hx : x = [] ∨ ∃ x', x = ' ' :: x') (hy : y = [] ∨ ∃ y', y = ' ' :: y')
    (h : a.show ++ x = b.show ++ y) : a = b ∧ x = y := by
  have bad : ∀ (n m : Text) (x y : Text), Plain n → (x = [] ∨ ∃ x', x = ' ' :: x') →
      n ++ x ≠ entityHead ++ y := by
    intro n m x y hn hx h
    -- the text before the first space has a parenthesis on the right only
    obtain ⟨t, ht⟩ := entityHead_eq
    rw [ht, List.append_assoc] at h
    obtain ⟨h3, _⟩ := split_at (z := ' ') (fun c hc => (hn.2 c hc).1) (by decide) hx (.inr ⟨_, rfl⟩) h
    have : '(' ∈ n := by rw [h3]; decide
    exact (hn.2 _ this).2.2.2 rfl
  cases a with
  | field n =>
    cases b with
    | field m =>
      have h : n ++ x = m ++ y := h
      obtain ⟨h1, h2⟩ := split_at (z := ' ') (fun c hc => (ha.2 c hc).1) (fun c hc => (hb.2 c hc).1) hx hy h
      exact ⟨by rw [h1], h2⟩
    | entity m =>
      rw [show_entity, List.append_assoc, List.append_assoc] at h
      exact absurd h (bad n m x _ ha hx)
  | entity n =>
    cases b with
    | field m =>
      rw [show_entity, List.append_assoc, List.append_assoc] at h
      exact absurd h.symm (bad m n y _ hb hy)
    | entity m =>
      rw [show_entity, show_entity] at h
      simp only [List.append_assoc] at h
      have h := List.append_cancel_left h
      obtain ⟨t, ht⟩ := entityTail_eq
      rw [ht] at h
      obtain ⟨h1, h2⟩ := split_at (z := '"') (fun c hc => (ha.2 c hc).2.1) (fun c hc => (hb.2 c hc).2.1)
        (.inr ⟨_, rfl⟩) (.inr ⟨_, rfl⟩) h
      exact ⟨by rw [h1], List.append_cancel_left (as := '"' :: t) h2⟩

theorem show_ne {a : Seg} (ha : match a with | .field n => Plain n | .entity n => Plain n) : a.show ≠ [] := by
  cases a with
  | field n => exact ha.1
  | entity n =>
    rw [show_entity]
    intro h
    rw [List.append_eq_nil_iff, List.append_eq_nil_iff] at h
    exact entityHead_ne h.1.1

theorem nest_ne {p : List Seg} (hp : PlainPath p) : nest (p.map Seg.show) ≠ [] := by
  cases p with
  | nil => exact absurd rfl hp.1
  | cons a rest =>
    simp only [List.map_cons, nest]
    split
    · exact show_ne (hp.2 a List.mem_cons_self)
    · simp [show_ne (hp.2 a List.mem_cons_self)]

theorem open_lines : ∀ x ∈ " { ".toList, x ≠ '\n' := by decide
theorem close_lines : ∀ x ∈ " }".toList, x ≠ '\n' := by decide
theorem query_lines : ∀ x ∈ "query { ".toList, x ≠ '\n' := by decide
theorem query_ne : "query { ".toList ≠ [] := by decide
theorem open_eq : ∃ t, " { ".toList = ' ' :: t := ⟨"{ ".toList, by decide⟩
theorem close_eq : ∃ t, " }".toList = ' ' :: t := ⟨"}".toList, by decide⟩

theorem nest_inj : ∀ (p q : List Seg), PlainPath p → PlainPath q →
    nest (p.map Seg.show) = nest (q.map Seg.show) → p = q
  | [], _, hp, _, _ => absurd rfl hp.1
  | _ :: _, [], _, hq, _ => absurd rfl hq.1
  | a :: p, b :: q, hp, hq, h => by
    have form : ∀ (a : Seg) (p : List Seg), PlainPath (a :: p) → ∃ x, nest ((a :: p).map Seg.show) = a.show ++ x ∧
        ((x = [] ∧ p = []) ∨ (∃ y, x = " { ".toList ++ y ++ " }".toList ∧ y = nest (p.map Seg.show) ∧ PlainPath p)) := by
      intro a p hp
      simp only [List.map_cons, nest]
      by_cases hn : p = []
      · subst hn
        exact ⟨[], by simp [nest], .inl ⟨rfl, rfl⟩⟩
      · have hpp : PlainPath p := ⟨hn, fun x hx => hp.2 x (List.mem_cons_of_mem _ hx)⟩
        have := nest_ne hpp
        refine ⟨_, ?_, .inr ⟨_, rfl, rfl, hpp⟩⟩
        rw [if_neg (by simpa using this)]
        simp only [List.append_assoc]
    obtain ⟨x, hx, hx'⟩ := form a p hp
    obtain ⟨y, hy, hy'⟩ := form b q hq
    rw [hx, hy] at h
    obtain ⟨h1, h2⟩ := show_split (hp.2 a List.mem_cons_self) (hq.2 b List.mem_cons_self)
      (by rcases hx' with ⟨h, _⟩ | ⟨y, h, _⟩
          · exact .inl h
          · obtain ⟨t, ht⟩ := open_eq
            rw [ht] at h
            exact .inr ⟨_, h⟩)
      (by rcases hy' with ⟨h, _⟩ | ⟨y, h, _⟩
          · exact .inl h
          · obtain ⟨t, ht⟩ := open_eq
            rw [ht] at h
            exact .inr ⟨_, h⟩) h
    subst h1
    rcases hx' with ⟨hx1, hp1⟩ | ⟨u, hx1, hu, hpp⟩ <;> rcases hy' with ⟨hy1, hq1⟩ | ⟨v, hy1, hv, hqq⟩
    · rw [hp1, hq1]
    · rw [hx1, hy1] at h2
      obtain ⟨t, ht⟩ := open_eq
      rw [ht] at h2; cases h2
    · rw [hx1, hy1] at h2
      obtain ⟨t, ht⟩ := open_eq
      rw [ht] at h2; cases h2
    · rw [hx1, hy1] at h2
      have h3 := List.append_cancel_right h2
      have h4 := List.append_cancel_left h3
      rw [hu, hv] at h4
      rw [nest_inj p q hpp hqq h4]

theorem lines_ne : ∀ s : Text, lines s ≠ []
  | [] => by simp [lines]
  | x :: rest => by
    by_cases hx : x = '\n'
    · subst hx; simp [lines.eq_2]
    · rw [lines.eq_3 _ _ (by simpa using hx)]
      cases lines rest <;> simp

theorem lines_append (s q : Text) (hq : ∀ x ∈ q, x ≠ '\n') : lines (s ++ '\n' :: q) = lines s ++ [q] := by
  have hl : ∀ q : Text, (∀ x ∈ q, x ≠ '\n') → lines q = [q] := by
    intro q hq
    induction q with
    | nil => rfl
    | cons x rest ih =>
      have := hq x List.mem_cons_self
      rw [lines.eq_3 _ _ (by simpa using this), ih fun y hy => hq y (List.mem_cons_of_mem _ hy)]
  induction s with
  | nil => simp only [List.nil_append, lines.eq_2, hl q hq]; rfl
  | cons x rest ih =>
    by_cases hx : x = '\n'
    · subst hx
      simp only [List.cons_append, lines.eq_2, ih]
    · rw [List.cons_append, lines.eq_3 _ _ (by simpa using hx), lines.eq_3 _ _ (by simpa using hx), ih]
      cases hl : lines rest with
      | nil => exact absurd hl (lines_ne rest)
      | cons l ls => rfl

theorem show_lines {a : Seg} (ha : match a with | .field n => Plain n | .entity n => Plain n) :
    ∀ x ∈ a.show, x ≠ '\n' := by
  cases a with
  | field n => exact fun x hx => (ha.2 x hx).2.2.1
  | entity n =>
    intro x hx
    rw [show_entity, List.mem_append, List.mem_append] at hx
    rcases hx with (hx | hx) | hx
    · exact entityHead_lines x hx
    · exact (ha.2 x hx).2.2.1
    · exact entityTail_lines x hx

theorem nest_lines : ∀ p : List Seg, (∀ x ∈ p, match x with | .field n => Plain n | .entity n => Plain n) →
    ∀ x ∈ nest (p.map Seg.show), x ≠ '\n'
  | [], _ => by simp [nest]
  | a :: p, h => by
    intro x hx
    simp only [List.map_cons, nest] at hx
    split at hx
    · exact show_lines (h a List.mem_cons_self) x hx
    · rw [List.mem_append, List.mem_append, List.mem_append] at hx
      rcases hx with ((hx | hx) | hx) | hx
      · exact show_lines (h a List.mem_cons_self) x hx
      · exact open_lines x hx
      · exact nest_lines p (fun y hy => h y (List.mem_cons_of_mem _ hy)) x hx
      · exact close_lines x hx

theorem showPath_lines {p : List Seg} (hp : PlainPath p) : ∀ x ∈ showPath p, x ≠ '\n' := by
  intro x hx
  unfold showPath at hx
  rw [List.mem_append, List.mem_append] at hx
  rcases hx with (hx | hx) | hx
  · exact query_lines x hx
  · exact nest_lines p hp.2 x hx
  · exact close_lines x hx

/-- C92: two different paths are printed differently. -/
theorem C92_printed_paths_differ (p q : List Seg) (hp : PlainPath p) (hq : PlainPath q)
    (h : showPath p = showPath q) : p = q := by
  unfold showPath at h
  exact nest_inj p q hp hq (List.append_cancel_left (List.append_cancel_right h))

/-- C92: the printed report has one line for each path, and the number shown is the number of
lines. -/
theorem C92_one_line_each (ps : Paths) (hn : ps ≠ []) (hp : ∀ p ∈ ps, PlainPath p) :
    lines (message ps).2 = ps.map showPath ∧ (lines (message ps).2).length = (message ps).1 := by
  have hq : ∀ p, PlainPath p → showPath p ≠ [] := by
    intro p _ h
    unfold showPath at h
    rw [List.append_eq_nil_iff, List.append_eq_nil_iff] at h
    exact query_ne h.1.1
  have key : ∀ (ps : Paths) (s : Text) (ls : List Text), (∀ p ∈ ps, PlainPath p) → s ≠ [] → lines s = ls →
      lines ((ps.map showPath).foldl (fun s q => if s.isEmpty then q else s ++ '\n' :: q) s) =
        ls ++ ps.map showPath := by
    intro ps
    induction ps with
    | nil => intro s ls _ _ h; simpa using h
    | cons p rest ih =>
      intro s ls hp hs h
      simp only [List.map_cons, List.foldl_cons]
      rw [if_neg (by simpa using hs)]
      rw [ih _ (ls ++ [showPath p]) (fun x hx => hp x (List.mem_cons_of_mem _ hx)) (by simp)
        (by rw [lines_append _ _ (showPath_lines (hp p List.mem_cons_self)), h])]
      simp
  have h1 : lines (message ps).2 = ps.map showPath := by
    cases ps with
    | nil => exact absurd rfl hn
    | cons p rest =>
      simp only [message, showPaths, List.map_cons, List.foldl_cons, List.isEmpty_nil, if_true]
      have hp0 := hp p List.mem_cons_self
      rw [key rest _ [showPath p] (fun x hx => hp x (List.mem_cons_of_mem _ hx)) (hq p hp0)]
      · rfl
      · have := lines_append [] (showPath p) (showPath_lines hp0)
        simpa [lines.eq_2, lines.eq_1] using this
  exact ⟨h1, by rw [h1]; simp [message]⟩

/-! ### Examples -/

/-- A nullable type, or a nullable list of it. -/
def nm (s : String) (l : Bool := false) : Ty := if l then .list (.named s.toList false) false else .named s.toList false
/-- A field. -/
def fld (s : String) (ty : Ty) (r : RSet := []) : Text × Field := (s.toList, ⟨ty, r⟩)
/-- A type. -/
def obj (s : String) (fs : List (Text × Field)) (impl : List Text := []) (r : RSet := []) : Text × Typ :=
  (s.toList, ⟨fs, impl, r⟩)

/-- Posts with an author and the posts of the author: a cycle. -/
def demo : Config where
  query := some "Query".toList
  mutation := none
  types := [
    obj "Post" [fld "author" (nm "User") [.http []], fld "likes" (nm "User" true) [.http ["id".toList]]],
    obj "Query" [fld "posts" (nm "Post" true) [.http []], fld "user" (nm "User")],
    obj "User" [fld "name" (nm "String"), fld "photo" (nm "Photo") [.grpc []], fld "posts" (nm "Post" true)] [] [.graphql true]]
  unions := []

example : find demo = some [
    [.field "posts".toList, .field "author".toList],
    [.field "posts".toList, .field "likes".toList, .field "photo".toList],
    [.field "user".toList, .field "posts".toList, .field "author".toList],
    [.field "user".toList, .field "posts".toList, .field "likes".toList, .field "photo".toList],
    [.entity "User".toList, .field "photo".toList]] := by decide +kernel

example : message [[.field "posts".toList, .field "author".toList], [.entity "User".toList, .field "photo".toList]]
    = (2, ("query { posts { author } }\n" ++
        "query { __entities(representations: [{ __typename: \"User\"}]) { photo } }").toList) := by decide +kernel

/-- The hypotheses of `C92_first_offences_are_reported` hold for `likes` and `photo` of `demo`. -/
example : ∃ p f, Start demo false "Query".toList ∧ Offends demo false "Query".toList p "User".toList "photo".toList f ∧
    p.map (·.1) = ["posts".toList, "likes".toList] := by
  refine ⟨[fld "posts" (nm "Post" true) [.http []], fld "likes" (nm "User" true) [.http ["id".toList]]],
    (fld "photo" (nm "Photo") [.grpc []]).2, .query rfl, ⟨?_, ?_, ?_, ?_⟩, rfl⟩
  · exact .cons (t := (demo.types[1]).2) rfl (List.mem_cons_self)
      (.cons (t := (demo.types[0]).2) rfl (List.mem_cons_of_mem _ List.mem_cons_self) .nil)
  · exact ⟨(demo.types[2]).2, rfl, List.mem_cons_of_mem _ List.mem_cons_self⟩
  · exact ⟨_, List.mem_cons_self, fun h => by cases h with | grpc h => exact h rfl⟩
  · exact .inr ⟨_, List.mem_cons_self, rfl⟩

/-- A configuration with nothing to report. -/
example : find { demo with types := [obj "Query" [fld "user" (nm "User") [.http []]],
    obj "User" [fld "name" (nm "String"), fld "photo" (nm "Photo") [.http []]]] } = some [] := by decide +kernel

example : PlainPath [.field "posts".toList, .entity "User".toList] := by
  refine ⟨by simp, ?_⟩
  intro x hx
  simp only [List.mem_cons, List.not_mem_nil, or_false] at hx
  rcases hx with rfl | rfl
  · exact ⟨by decide, by decide⟩
  · exact ⟨by decide, by decide⟩

end Verif.Npo
