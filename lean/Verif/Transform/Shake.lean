import Verif.Transform.Lemmas

set_option linter.unusedSimpArgs false

/-!
# Removing unused types (C50)
-/

namespace Verif.Transform

open Verif.Mustache (Text)
open Verif.Exec (Ty)

/-! ## Specification -/

/-- A type is used by the operations: it is the query or mutation type, or a member, an interface, or the
type of a field or an argument of a used type. -/
inductive Used (c : Cfg) : Text → Prop
  | query (n) : c.query = some n → Used c n
  | mutation (n) : c.mutation = some n → Used c n
  | member (n u m) : Used c n → At c.unions n u → m ∈ u.types → Used c m
  | field (n t k f) : Used c n → At c.types n t → (k, f) ∈ t.fields → Used c f.ty.name
  | arg (n t k f k' a) : Used c n → At c.types n t → (k, f) ∈ t.fields → (k', a) ∈ f.args →
      Used c a.ty.name
  | interface (n t i) : Used c n → At c.types n t → i ∈ t.implements → Used c i

/-- No name is declared both as a type and as a union. -/
def Apart (c : Cfg) : Prop := ∀ n t u, At c.types n t → At c.unions n u → False

/-! ## The walk -/

/-- The names a declared name refers to. -/
def refs (c : Cfg) (n : Text) : List Text :=
  match get c.unions n with
  | some u => u.types
  | none => match get c.types n with
    | some t => typeRefs t
    | none => []

/-- The name is a type or a union. -/
def Known (c : Cfg) (n : Text) : Prop := (get c.unions n).isSome ∨ (get c.types n).isSome

theorem used_refs {c : Cfg} {n m : Text} (hu : Used c n) (h : m ∈ refs c n) : Used c m := by
  unfold refs at h
  split at h
  · rename_i u hu'
    exact .member n u m hu (get_some.1 hu') h
  · split at h
    · rename_i t ht
      have ht := get_some.1 ht
      unfold typeRefs at h
      rcases List.mem_append.1 h with h | h
      · obtain ⟨p, hp, h⟩ := List.mem_flatMap.1 h
        rcases List.mem_append.1 h with h | h
        · obtain ⟨a, ha, rfl⟩ := List.mem_map.1 h
          exact .arg n t p.1 p.2 a.1 a.2 hu ht hp ha
        · simp only [List.mem_singleton] at h
          subst h
          exact .field n t p.1 p.2 hu ht hp
      · exact .interface n t m hu ht h
    · cases h

theorem walk_spec (c : Cfg) : ∀ (n : Nat) (set stack r : List Text),
    walk c n set stack = some r →
    (∀ x ∈ set, Known c x) →
    (∀ x ∈ set, ∀ y ∈ refs c x, Known c y → y ∈ set ∨ y ∈ stack) →
    (∀ x ∈ set, x ∈ r) ∧ (∀ x ∈ stack, Known c x → x ∈ r) ∧
    (∀ x ∈ r, Known c x) ∧
    (∀ x ∈ r, ∀ y ∈ refs c x, Known c y → y ∈ r) ∧
    (∀ P : Text → Prop, (∀ x ∈ set, P x) → (∀ x ∈ stack, P x) → (∀ x y, P x → y ∈ refs c x → P y) →
      ∀ x ∈ r, P x)
  | 0, set, stack, r, h, _, _ => by simp [walk] at h
  | n + 1, set, [], r, h, hk, hc => by
    simp only [walk, Option.some.injEq] at h
    subst h
    refine ⟨fun x hx => hx, by simp, hk, fun x hx y hy hky => ?_, fun P h1 _ _ => h1⟩
    rcases hc x hx y hy hky with h | h
    · exact h
    · cases h
  | n + 1, set, name :: stack, r, h, hk, hc => by
    simp only [walk] at h
    by_cases hin : set.contains name = true
    · simp only [hin, if_true] at h
      have hmem : name ∈ set := by simpa using hin
      obtain ⟨h1, h2, h3, h4, h5⟩ := walk_spec c n set stack r h hk (fun x hx y hy hky => by
        rcases hc x hx y hy hky with h | h
        · exact .inl h
        · rcases List.mem_cons.1 h with rfl | h
          · exact .inl hmem
          · exact .inr h)
      refine ⟨h1, fun x hx hkx => ?_, h3, h4, fun P p1 p2 p3 => h5 P p1 (fun x hx => p2 x (List.mem_cons_of_mem _ hx)) p3⟩
      rcases List.mem_cons.1 hx with rfl | hx
      · exact h1 _ hmem
      · exact h2 x hx hkx
    · simp only [hin, Bool.false_eq_true, if_false] at h
      -- the name is put into the set
      have step : ∀ new : List Text, (∀ x, x ∈ new ↔ x ∈ refs c name) → Known c name →
          walk c n (name :: set) (new ++ stack) = some r →
          (∀ x ∈ set, x ∈ r) ∧ (∀ x ∈ name :: stack, Known c x → x ∈ r) ∧
          (∀ x ∈ r, Known c x) ∧
          (∀ x ∈ r, ∀ y ∈ refs c x, Known c y → y ∈ r) ∧
          (∀ P : Text → Prop, (∀ x ∈ set, P x) → (∀ x ∈ name :: stack, P x) →
            (∀ x y, P x → y ∈ refs c x → P y) → ∀ x ∈ r, P x) := by
        intro new hnew hkn hw
        obtain ⟨h1, h2, h3, h4, h5⟩ := walk_spec c n (name :: set) (new ++ stack) r hw
          (fun x hx => by
            rcases List.mem_cons.1 hx with rfl | hx
            · exact hkn
            · exact hk x hx)
          (fun x hx y hy hky => by
            rcases List.mem_cons.1 hx with rfl | hx
            · exact .inr (List.mem_append_left _ ((hnew y).2 hy))
            · rcases hc x hx y hy hky with h | h
              · exact .inl (List.mem_cons_of_mem _ h)
              · rcases List.mem_cons.1 h with rfl | h
                · exact .inl List.mem_cons_self
                · exact .inr (List.mem_append_right _ h))
        refine ⟨fun x hx => h1 x (List.mem_cons_of_mem _ hx), fun x hx hkx => ?_, h3, h4,
          fun P p1 p2 p3 => h5 P ?_ ?_ p3⟩
        · rcases List.mem_cons.1 hx with rfl | hx
          · exact h1 _ List.mem_cons_self
          · exact h2 x (List.mem_append_right _ hx) hkx
        · intro x hx
          rcases List.mem_cons.1 hx with rfl | hx
          · exact p2 _ List.mem_cons_self
          · exact p1 x hx
        · intro x hx
          rcases List.mem_append.1 hx with hx | hx
          · exact p3 name x (p2 _ List.mem_cons_self) ((hnew x).1 hx)
          · exact p2 x (List.mem_cons_of_mem _ hx)
      cases hu : get c.unions name with
      | some u =>
        simp only [hu] at h
        exact step u.types.reverse (by simp [refs, hu]) (.inl (by simp [hu])) h
      | none =>
        simp only [hu] at h
        cases ht : get c.types name with
        | some t =>
          simp only [ht] at h
          exact step (typeRefs t).reverse (by simp [refs, hu, ht]) (.inr (by simp [ht])) h
        | none =>
          simp only [ht] at h
          have hnk : ¬ Known c name := by simp [Known, hu, ht]
          obtain ⟨h1, h2, h3, h4, h5⟩ := walk_spec c n set stack r h hk (fun x hx y hy hky => by
            rcases hc x hx y hy hky with h | h
            · exact .inl h
            · rcases List.mem_cons.1 h with rfl | h
              · exact absurd hky hnk
              · exact .inr h)
          refine ⟨h1, fun x hx hkx => ?_, h3, h4, fun P p1 p2 p3 => h5 P p1 (fun x hx => p2 x (List.mem_cons_of_mem _ hx)) p3⟩
          rcases List.mem_cons.1 hx with rfl | hx
          · exact absurd hkx hnk
          · exact h2 x hx hkx

/-- The names found are the known names among the used ones. -/
theorem usedNames_iff {c : Cfg} (ha : Apart c) {n : Nat} {r : List Text} (h : usedNames c n = some r) (x : Text) :
    x ∈ r ↔ Used c x ∧ Known c x := by
  obtain ⟨_, h2, h3, h4, h5⟩ := walk_spec c n [] (roots c) r h (by simp) (by simp)
  constructor
  · intro hx
    refine ⟨h5 (Used c) (by simp) (fun y hy => ?_) (fun x y hx hy => used_refs hx hy) x hx, h3 x hx⟩
    simp only [roots, List.mem_append, Option.mem_toList] at hy
    rcases hy with hy | hy
    · exact .mutation _ hy
    · exact .query _ hy
  · rintro ⟨hu, hk⟩
    -- every used name is in the result once it is known
    have key : ∀ y, Used c y → Known c y → y ∈ r := by
      intro y hy
      induction hy with
      | query n hq => intro hk; exact h2 n (by simp [roots, hq]) hk
      | mutation n hq => intro hk; exact h2 n (by simp [roots, hq]) hk
      | member n u m _ hat hm ih =>
        intro hk
        have hg := get_some.2 hat
        refine h4 n (ih (.inl (by simp [hg]))) m ?_ hk
        simp [refs, hg, hm]
      | field n t k f _ hat hm ih =>
        intro hk
        have hg := get_some.2 hat
        have hnu : get c.unions n = none := by
          cases hu : get c.unions n with
          | none => rfl
          | some u => exact (ha n t u hat (get_some.1 hu)).elim
        refine h4 n (ih (.inr (by simp [hg]))) _ ?_ hk
        simp only [refs, hg, hnu, typeRefs]
        exact List.mem_append_left _ (List.mem_flatMap.2 ⟨(k, f), hm, by simp⟩)
      | arg n t k f k' a _ hat hm hm' ih =>
        intro hk
        have hg := get_some.2 hat
        have hnu : get c.unions n = none := by
          cases hu : get c.unions n with
          | none => rfl
          | some u => exact (ha n t u hat (get_some.1 hu)).elim
        refine h4 n (ih (.inr (by simp [hg]))) _ ?_ hk
        simp only [refs, hg, hnu, typeRefs]
        refine List.mem_append_left _ (List.mem_flatMap.2 ⟨(k, f), hm, List.mem_append_left _ ?_⟩)
        exact List.mem_map.2 ⟨(k', a), hm', rfl⟩
      | interface n t i _ hat hm ih =>
        intro hk
        have hg := get_some.2 hat
        have hnu : get c.unions n = none := by
          cases hu : get c.unions n with
          | none => rfl
          | some u => exact (ha n t u hat (get_some.1 hu)).elim
        refine h4 n (ih (.inr (by simp [hg]))) _ ?_ hk
        simp only [refs, hg, hnu, typeRefs]
        exact List.mem_append_right _ hm
    exact key x hu hk

/-! ## Removal -/

theorem removeTypes_get (l : List Text) : ∀ (c : Cfg) (x : Text),
    get (removeTypes c l).types x = (if x ∈ l then none else get c.types x) ∧
    get (removeTypes c l).unions x = (if x ∈ l then none else get c.unions x) ∧
    (removeTypes c l).enums = c.enums ∧ (removeTypes c l).query = c.query ∧
    (removeTypes c l).mutation = c.mutation ∧ (removeTypes c l).subscription = c.subscription := by
  induction l with
  | nil => intro c x; simp [removeTypes]
  | cons k r ih =>
    intro c x
    simp only [removeTypes]
    obtain ⟨h1, h2, h3, h4, h5, h6⟩ := ih { c with types := remove c.types k, unions := remove c.unions k } x
    refine ⟨?_, ?_, h3, h4, h5, h6⟩
    · rw [h1]
      simp only [get_remove, List.mem_cons]
      by_cases hx : x = k <;> by_cases hr : x ∈ r <;> simp [hx, hr]
    · rw [h2]
      simp only [get_remove, List.mem_cons]
      by_cases hx : x = k <;> by_cases hr : x ∈ r <;> simp [hx, hr]

theorem mem_keys_of_get {α : Type} {l : List (Text × α)} {k : Text} {x : α} (h : get l k = some x) :
    k ∈ l.map (·.1) := by
  have := at_mem (get_some.1 h)
  exact List.mem_map_of_mem (f := (·.1)) this

/-! ## Termination -/

/-- The declared names that are not in the set. -/
def fresh (c : Cfg) (set : List Text) : List Text :=
  (c.unions.map (·.1) ++ c.types.map (·.1)).filter (fun x => !set.contains x)

theorem fresh_lt {c : Cfg} {set : List Text} {name : Text} (hk : Known c name) (hn : name ∉ set) :
    (fresh c (name :: set)).length < (fresh c set).length := by
  unfold fresh
  have hmem : name ∈ c.unions.map (·.1) ++ c.types.map (·.1) := by
    rcases hk with h | h
    · obtain ⟨u, hu⟩ := Option.isSome_iff_exists.1 h
      exact List.mem_append_left _ (mem_keys_of_get hu)
    · obtain ⟨u, hu⟩ := Option.isSome_iff_exists.1 h
      exact List.mem_append_right _ (mem_keys_of_get hu)
  generalize c.unions.map (·.1) ++ c.types.map (·.1) = l at hmem
  induction l with
  | nil => cases hmem
  | cons a r ih =>
    have hle : ∀ r : List Text, (r.filter (fun x => !(name :: set).contains x)).length
        ≤ (r.filter (fun x => !set.contains x)).length := by
      intro r
      induction r with
      | nil => simp
      | cons b r ih =>
        simp only [List.filter_cons]
        by_cases hb : b ∈ set
        · simpa [hb] using ih
        · by_cases hbn : b = name
          · simp [hb, hbn]
            simp [hbn] at ih
            have : name ∉ set := hn
            simp [this]
            omega
          · simpa [hb, hbn] using ih
    simp only [List.filter_cons]
    by_cases ha : a = name
    · subst ha
      have := hle r
      simp [hn] at this ⊢
      omega
    · have hmr : name ∈ r := by
        rcases List.mem_cons.1 hmem with h | h
        · exact absurd h.symm ha
        · exact h
      have := ih hmr
      by_cases has : a ∈ set
      · simpa [has] using this
      · simp [has, ha] at this ⊢
        omega

theorem walk_terminates (c : Cfg) : ∀ (k : Nat) (stack set : List Text), (fresh c set).length = k →
    ∃ n r, walk c n set stack = some r := by
  intro k
  induction k using Nat.strongRecOn with
  | ind k ihk =>
    intro stack
    induction stack with
    | nil => intro set _; exact ⟨1, set, rfl⟩
    | cons name stack ih =>
      intro set hk
      by_cases hin : name ∈ set
      · obtain ⟨n, r, h⟩ := ih set hk
        exact ⟨n + 1, r, by simp [walk, hin, h]⟩
      · cases hu : get c.unions name with
        | some u =>
          have hlt := fresh_lt (c := c) (set := set) (name := name) (.inl (by simp [hu])) hin
          obtain ⟨n, r, h⟩ := ihk _ (hk ▸ hlt) (u.types.reverse ++ stack) (name :: set) rfl
          exact ⟨n + 1, r, by simp [walk, hin, hu, h]⟩
        | none =>
          cases ht : get c.types name with
          | some t =>
            have hlt := fresh_lt (c := c) (set := set) (name := name) (.inr (by simp [ht])) hin
            obtain ⟨n, r, h⟩ := ihk _ (hk ▸ hlt) ((typeRefs t).reverse ++ stack) (name :: set) rfl
            exact ⟨n + 1, r, by simp [walk, hin, hu, ht, h]⟩
          | none =>
            obtain ⟨n, r, h⟩ := ih set hk
            exact ⟨n + 1, r, by simp [walk, hin, hu, ht, h]⟩

/-! ## C50 -/

/-- Removing unused types keeps every used type and union unchanged, removes every other one, and changes
nothing else. -/
theorem C50_exact (c c' : Cfg) (n : Nat) (ha : Apart c) (h : shake c n = some c') :
    (∀ x t, At c'.types x t ↔ At c.types x t ∧ Used c x) ∧
    (∀ x u, At c'.unions x u ↔ At c.unions x u ∧ Used c x) ∧
    c'.enums = c.enums ∧ c'.query = c.query ∧ c'.mutation = c.mutation ∧
    c'.subscription = c.subscription := by
  simp only [shake, unusedTypes, Option.map_map, Option.map_eq_some_iff, Function.comp] at h
  obtain ⟨used, hused, rfl⟩ := h
  have hiff := fun x => usedNames_iff ha hused x
  have hrem := removeTypes_get
    ((c.types.map (·.1) ++ c.unions.map (·.1)).filter (fun k => !used.contains k)) c
  refine ⟨fun x t => ?_, fun x u => ?_, (hrem []).2.2⟩
  · rw [← get_some, ← get_some, (hrem x).1]
    constructor
    · intro hg
      split at hg
      · cases hg
      · rename_i hx
        refine ⟨hg, ?_⟩
        have hkey := mem_keys_of_get hg
        have : x ∈ used := by
          apply Classical.byContradiction
          intro hnu
          exact hx (List.mem_filter.2 ⟨List.mem_append_left _ hkey, by simpa using hnu⟩)
        exact ((hiff x).1 this).1
    · rintro ⟨hg, hu⟩
      have : x ∈ used := (hiff x).2 ⟨hu, .inr (by simp [hg])⟩
      rw [if_neg]
      · exact hg
      · intro hx
        have := (List.mem_filter.1 hx).2
        simp_all
  · rw [← get_some, ← get_some, (hrem x).2.1]
    constructor
    · intro hg
      split at hg
      · cases hg
      · rename_i hx
        refine ⟨hg, ?_⟩
        have hkey := mem_keys_of_get hg
        have : x ∈ used := by
          apply Classical.byContradiction
          intro hnu
          exact hx (List.mem_filter.2 ⟨List.mem_append_right _ hkey, by simpa using hnu⟩)
        exact ((hiff x).1 this).1
    · rintro ⟨hg, hu⟩
      have : x ∈ used := (hiff x).2 ⟨hu, .inl (by simp [hg])⟩
      rw [if_neg]
      · exact hg
      · intro hx
        have := (List.mem_filter.1 hx).2
        simp_all

/-- The search for used types always ends, also for cyclic types. -/
theorem C50_terminates (c : Cfg) : ∃ n c', shake c n = some c' := by
  obtain ⟨n, r, h⟩ := walk_terminates c _ (roots c) [] rfl
  exact ⟨n, _, by simp only [shake, unusedTypes, usedNames, h, Option.map_some]; rfl⟩

/-- Removing unused types twice is the same as once. -/
theorem C50_idempotent (c c' c'' : Cfg) (n m : Nat) (ha : Apart c) (h : shake c n = some c')
    (h' : shake c' m = some c'') : ∀ x, get c''.types x = get c'.types x ∧ get c''.unions x = get c'.unions x := by
  obtain ⟨t1, u1, e1, q1, m1, s1⟩ := C50_exact c c' n ha h
  have ha' : Apart c' := fun x t u ht hu => ha x t u ((t1 x t).1 ht).1 ((u1 x u).1 hu).1
  obtain ⟨t2, u2, _⟩ := C50_exact c' c'' m ha' h'
  have hused : ∀ x, Used c x → Used c' x := by
    intro x hx
    induction hx with
    | query n hq => exact .query n (q1 ▸ hq)
    | mutation n hq => exact .mutation n (m1 ▸ hq)
    | member n u m hn hat hm ih => exact .member n u m ih ((u1 n u).2 ⟨hat, hn⟩) hm
    | field n t k f hn hat hm ih => exact .field n t k f ih ((t1 n t).2 ⟨hat, hn⟩) hm
    | arg n t k f k' a hn hat hm hm' ih => exact .arg n t k f k' a ih ((t1 n t).2 ⟨hat, hn⟩) hm hm'
    | interface n t i hn hat hm ih => exact .interface n t i ih ((t1 n t).2 ⟨hat, hn⟩) hm
  have ext : ∀ {α : Type} {a b : List (Text × α)} {x : Text},
      (∀ t, At a x t ↔ At b x t) → get a x = get b x := by
    intro α a b x hab
    cases hb : get b x with
    | some t => exact get_some.2 ((hab t).2 (get_some.1 hb))
    | none =>
      cases ha : get a x with
      | none => rfl
      | some t => rw [get_some.2 ((hab t).1 (get_some.1 ha))] at hb; cases hb
  intro x
  refine ⟨ext (fun t => ?_), ext (fun u => ?_)⟩
  · exact ⟨fun h => ((t2 x t).1 h).1, fun h => (t2 x t).2 ⟨h, hused x ((t1 x t).1 h).2⟩⟩
  · exact ⟨fun h => ((u2 x u).1 h).1, fun h => (u2 x u).2 ⟨h, hused x ((u1 x u).1 h).2⟩⟩

/-- A configuration: the query refers to an interface, an input and a union; a cycle, an unused type and
an implementing type. -/
def shakeCfg : Cfg where
  types := [
    (['Q'], ⟨[(['a'], ⟨.named ['I'] false, [(['x'], ⟨.named ['P'] true, []⟩)], []⟩),
              (['u'], ⟨.list (.named ['U'] true) false, [], []⟩)], [], []⟩),
    (['I'], ⟨[(['f'], ⟨.named ['I','n','t'] false, [], []⟩)], [], []⟩),
    (['T'], ⟨[(['f'], ⟨.named ['I','n','t'] false, [], []⟩)], [['I']], []⟩),
    (['P'], ⟨[(['p'], ⟨.named ['P'] false, [], []⟩)], [], []⟩),
    (['A'], ⟨[(['b'], ⟨.named ['B'] false, [], []⟩)], [], []⟩),
    (['B'], ⟨[(['a'], ⟨.named ['A'] false, [], []⟩)], [], []⟩),
    (['S'], ⟨[(['s'], ⟨.named ['A'] false, [], []⟩)], [], []⟩),
    (['Z'], ⟨[(['z'], ⟨.named ['Q'] false, [], []⟩)], [], []⟩)]
  unions := [(['U'], ⟨[['A'], ['I']], []⟩), (['V'], ⟨[['Z']], []⟩)]
  enums := [(['E'], [])]
  query := some ['Q']
  mutation := none
  subscription := some ['S']

theorem shakeCfg_apart : Apart shakeCfg := by
  intro n t u ht hu
  have h1 := at_mem ht
  have h2 := at_mem hu
  have h3 := List.mem_map_of_mem (f := (·.1)) h1
  have h4 := List.mem_map_of_mem (f := (·.1)) h2
  simp only [shakeCfg, List.map_cons, List.map_nil, List.mem_cons, List.not_mem_nil, or_false] at h3 h4
  rcases h4 with h4 | h4 <;> subst h4 <;> simp at h3

example : Apart shakeCfg ∧ (shake shakeCfg 40).map (fun c => (c.types.map (·.1), c.unions.map (·.1)))
    = some ([['Q'], ['I'], ['P'], ['A'], ['B']], [['U']]) := ⟨shakeCfg_apart, by rfl⟩

/-- The only type that implements an interface is removed although the query returns the interface. -/
theorem C50_violated_by_implementing_type :
    ∃ (c c' : Cfg) (n : Nat) (i x : Text) (t : TypeD), shake c n = some c' ∧ Used c i ∧
      At c.types x t ∧ i ∈ t.implements ∧ ∀ y t', At c'.types y t' → i ∉ t'.implements := by
  refine ⟨shakeCfg, (shake shakeCfg 40).getD shakeCfg, 40, ['I'], ['T'], _, by rfl, ?_, rfl, by simp, ?_⟩
  · have h : At shakeCfg.types ['Q'] (shakeCfg.types[0]'(by decide)).2 := by rfl
    exact .field ['Q'] _ ['a'] _ (.query _ rfl) h List.mem_cons_self
  · intro y t' h
    have hm := at_mem h
    have : (shake shakeCfg 40).getD shakeCfg = { shakeCfg with
        types := [
          (['Q'], ⟨[(['a'], ⟨.named ['I'] false, [(['x'], ⟨.named ['P'] true, []⟩)], []⟩),
              (['u'], ⟨.list (.named ['U'] true) false, [], []⟩)], [], []⟩),
          (['I'], ⟨[(['f'], ⟨.named ['I','n','t'] false, [], []⟩)], [], []⟩),
          (['P'], ⟨[(['p'], ⟨.named ['P'] false, [], []⟩)], [], []⟩),
          (['A'], ⟨[(['b'], ⟨.named ['B'] false, [], []⟩)], [], []⟩),
          (['B'], ⟨[(['a'], ⟨.named ['A'] false, [], []⟩)], [], []⟩)]
        unions := [(['U'], ⟨[['A'], ['I']], []⟩)] } := by rfl
    rw [this] at hm
    simp only [List.mem_cons, List.not_mem_nil, or_false, Prod.mk.injEq] at hm
    rcases hm with ⟨_, rfl⟩ | ⟨_, rfl⟩ | ⟨_, rfl⟩ | ⟨_, rfl⟩ | ⟨_, rfl⟩ <;> simp

/-- The type of the subscriptions is removed. -/
theorem C50_violated_by_subscription :
    ∃ (c c' : Cfg) (n : Nat) (s : Text) (t : TypeD), shake c n = some c' ∧ c'.subscription = some s ∧
      At c.types s t ∧ Lacks c'.types s := by
  refine ⟨shakeCfg, (shake shakeCfg 40).getD shakeCfg, 40, ['S'], _, by rfl, by rfl, rfl, ?_⟩
  rw [← get_none]
  rfl

end Verif.Transform
