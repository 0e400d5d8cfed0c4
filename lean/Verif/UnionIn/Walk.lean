import Verif.UnionIn.Lemmas

/-!
# Lemmas on what the walk leaves behind
-/

namespace Verif.UnionIn

open Verif.Mustache (Text)
open Verif.Exec (Ty)
open Verif.Merge (get tlt)

set_option linter.unusedSimpArgs false

/-! ## Arguments -/

/-- The choices made for the arguments, put in. -/
def substA (g : Text → Option Ty) (as : List (Text × Ty)) : List (Text × Ty) :=
  as.map fun x => match g x.1 with | some t => (x.1, t) | none => x

/-- The choices are among the members. -/
structure ChoiceA (p : List (Text × Presence)) (as : List (Text × Ty)) (g : Text → Option Ty) : Prop where
  pick : ∀ a t us, (a, t) ∈ as → unionOf p t.name = some us → ∃ u ∈ us, g a = some (withName u t)
  keep : ∀ a, (∀ t us, (a, t) ∈ as → unionOf p t.name = some us → False) → g a = none

theorem substA_none (as : List (Text × Ty)) : substA (fun _ => none) as = as := by
  induction as with
  | nil => rfl
  | cons x r ih => simp only [substA, List.map_cons] at ih ⊢; rw [ih]

theorem substA_setArg {g : Text → Option Ty} {a : Text} {t : Ty} (hg : g a = none) (as : List (Text × Ty)) :
    substA g (as.map fun x => if x.1 = a then (a, t) else x) = substA (fun k => if k = a then some t else g k) as := by
  simp only [substA, List.map_map]
  refine List.map_congr_left ?_
  intro x _
  simp only [Function.comp]
  by_cases hx : x.1 = a
  · simp [hx, hg]
  · simp [hx]

theorem walk_elim {p : List (Text × Presence)} : ∀ {as : List (Text × Ty)} {name f x}, (as.map (·.1)).Nodup →
    x ∈ walkArgs p as name f → ∃ g s, ChoiceA p as g ∧ Marks s ∧ x.1 = name ++ s ∧
      x.2 = { f with args := substA g f.args }
  | [], name, f, x, _, h => by
    simp only [walkArgs, List.mem_singleton] at h
    subst h
    exact ⟨fun _ => none, [], ⟨fun _ _ _ h => (by cases h), fun _ _ => rfl⟩, .nil, by simp, by rw [substA_none]⟩
  | (a, t) :: rest, name, f, x, hn, h => by
    rw [List.map_cons, List.nodup_cons] at hn
    simp only [walkArgs] at h
    split at h
    · rename_i us hus
      obtain ⟨⟨u, i⟩, hu, hx⟩ := List.mem_flatMap.1 h
      obtain ⟨g, s, hg, hs, h1, h2⟩ := walk_elim hn.2 hx
      have hga : g a = none := hg.keep a fun t' us' hm _ => hn.1 (List.mem_map_of_mem (f := (·.1)) hm)
      refine ⟨fun k => if k = a then some (withName u t) else g k, 'V' :: 'a' :: 'r' :: Nat.toDigits 10 i ++ s,
        ⟨fun a' t' us' hm hus' => ?_, fun a' h' => ?_⟩, .cons hs, ?_, ?_⟩
      · rcases List.mem_cons.1 hm with hm | hm
        · cases hm
          rw [hus] at hus'; cases hus'
          exact ⟨u, List.fst_mem_of_mem_zipIdx hu, if_pos rfl⟩
        · obtain ⟨u', hu', hgu⟩ := hg.pick a' t' us' hm hus'
          refine ⟨u', hu', ?_⟩
          rw [if_neg]
          · exact hgu
          · intro hh; exact hn.1 (hh ▸ List.mem_map_of_mem (f := (·.1)) hm)
      · by_cases hh : a' = a
        · subst hh; exact (h' t us List.mem_cons_self hus).elim
        · rw [if_neg hh]; exact hg.keep a' fun t' us' hm => h' t' us' (List.mem_cons_of_mem _ hm)
      · rw [h1]; simp [List.append_assoc]
      · rw [h2]
        simp only [setArg, Field.mk.injEq, true_and, and_true]
        exact substA_setArg hga _
    · rename_i hus
      obtain ⟨g, s, hg, hs, h1, h2⟩ := walk_elim hn.2 h
      refine ⟨g, s, ⟨fun a' t' us' hm hus' => ?_, fun a' h' => ?_⟩, hs, h1, h2⟩
      · rcases List.mem_cons.1 hm with hm | hm
        · cases hm; rw [hus] at hus'; cases hus'
        · exact hg.pick a' t' us' hm hus'
      · exact hg.keep a' fun t' us' hm => h' t' us' (List.mem_cons_of_mem _ hm)

theorem walk_intro {p : List (Text × Presence)} : ∀ {as : List (Text × Ty)} {name f g}, (as.map (·.1)).Nodup →
    ChoiceA p as g → ∃ s, Marks s ∧ (name ++ s, { f with args := substA g f.args }) ∈ walkArgs p as name f
  | [], name, f, g, _, hg => by
    have : g = fun _ => none := funext fun k => hg.keep k (fun _ _ h => by cases h)
    subst this
    exact ⟨[], .nil, by rw [substA_none]; simp [walkArgs]⟩
  | (a, t) :: rest, name, f, g, hn, hg => by
    rw [List.map_cons, List.nodup_cons] at hn
    simp only [walkArgs]
    split
    · rename_i us hus
      obtain ⟨u, hu, hga⟩ := hg.pick a t us List.mem_cons_self hus
      obtain ⟨i, hi⟩ := zipIdx_of_mem hu
      have hg' : ChoiceA p rest (fun k => if k = a then none else g k) := by
        refine ⟨fun a' t' us' hm hus' => ?_, fun a' h' => ?_⟩
        · obtain ⟨u', hu', h⟩ := hg.pick a' t' us' (List.mem_cons_of_mem _ hm) hus'
          refine ⟨u', hu', ?_⟩
          rw [if_neg]
          · exact h
          · intro hh; exact hn.1 (hh ▸ List.mem_map_of_mem (f := (·.1)) hm)
        · by_cases hh : a' = a
          · rw [if_pos hh]
          · rw [if_neg hh]
            refine hg.keep a' fun t' us' hm => ?_
            rcases List.mem_cons.1 hm with hm | hm
            · cases hm; exact absurd rfl hh
            · exact h' t' us' hm
      obtain ⟨s, hs, hm⟩ := walk_intro (name := name ++ 'V' :: 'a' :: 'r' :: Nat.toDigits 10 i)
        (f := setArg f a (withName u t)) hn.2 hg'
      refine ⟨'V' :: 'a' :: 'r' :: Nat.toDigits 10 i ++ s, .cons hs, ?_⟩
      refine List.mem_flatMap.2 ⟨(u, i), hi, ?_⟩
      have he : substA (fun k => if k = a then none else g k) (setArg f a (withName u t)).args = substA g f.args := by
        simp only [setArg]
        rw [substA_setArg (by simp)]
        congr 1
        funext k
        by_cases hk : k = a
        · simp [hk, hga]
        · simp [hk]
      rw [he] at hm
      rw [List.append_assoc] at hm
      exact hm
    · rename_i hus
      refine walk_intro hn.2 ⟨fun a' t' us' hm => hg.pick a' t' us' (List.mem_cons_of_mem _ hm), fun a' h' => ?_⟩
      refine hg.keep a' fun t' us' hm hus' => ?_
      rcases List.mem_cons.1 hm with hm | hm
      · cases hm; rw [hus] at hus'; cases hus'
      · exact h' t' us' hm hus'

theorem walk_plain {p : List (Text × Presence)} : ∀ {as : List (Text × Ty)} {name f},
    (∀ a t, (a, t) ∈ as → unionOf p t.name = none) → walkArgs p as name f = [(name, f)]
  | [], name, f, _ => rfl
  | (a, t) :: rest, name, f, h => by
    simp only [walkArgs, h a t List.mem_cons_self]
    exact walk_plain fun a' t' hm => h a' t' (List.mem_cons_of_mem _ hm)

theorem marks_head {s : Text} (h : Marks s) : s = [] ∨ ∃ r, s = 'V' :: 'a' :: 'r' :: r := by
  cases h with
  | nil => exact .inl rfl
  | cons _ => exact .inr ⟨_, rfl⟩

theorem walk_name {p : List (Text × Presence)} : ∀ {as : List (Text × Ty)} {name f x},
    x ∈ walkArgs p as name f → ∃ s, Marks s ∧ x.1 = name ++ s
  | [], name, f, x, h => by
    simp only [walkArgs, List.mem_singleton] at h
    subst h
    exact ⟨[], .nil, by simp⟩
  | (a, t) :: rest, name, f, x, h => by
    simp only [walkArgs] at h
    split at h
    · obtain ⟨⟨u, i⟩, hu, hx⟩ := List.mem_flatMap.1 h
      obtain ⟨s, hs, h1⟩ := walk_name hx
      exact ⟨_, .cons (i := i) hs, by rw [h1]; simp [List.append_assoc]⟩
    · exact walk_name h

theorem walk_nodup {p : List (Text × Presence)} : ∀ {as : List (Text × Ty)} {name f},
    ((walkArgs p as name f).map (·.1)).Nodup
  | [], name, f => by simp [walkArgs]
  | (a, t) :: rest, name, f => by
    simp only [walkArgs]
    split
    · rename_i us _
      refine nodup_flatMap_idx _ _ us 0 (fun u i _ => walk_nodup) ?_
      intro u i v j hij x hx y hy he
      obtain ⟨r, hr, hr'⟩ := walk_name hx
      obtain ⟨s, hs, hs'⟩ := walk_name hy
      rw [hr', hs'] at he
      simp only [List.append_assoc] at he
      have he := List.append_cancel_left he
      simp only [List.cons_append, List.cons.injEq, true_and] at he
      refine hij (digits_split ?_ ?_ he)
      · intro d q hq; rcases marks_head hr with h | ⟨s, h⟩ <;> rw [h] at hq <;> cases hq; rfl
      · intro d q hq; rcases marks_head hs with h | ⟨s, h⟩ <;> rw [h] at hq <;> cases hq; rfl
    · exact walk_nodup

/-- Names that are apart stay so with marks behind. -/
theorem apart_split {k j s r : Text} (hs : Marks s) (hr : Marks r) (hkj : ∀ q, k ≠ j ++ 'V' :: 'a' :: 'r' :: q)
    (hjk : ∀ q, j ≠ k ++ 'V' :: 'a' :: 'r' :: q) (h : k ++ s = j ++ r) : k = j := by
  have key : ∀ {k j s r : Text}, Marks s → Marks r → (∀ q, j ≠ k ++ 'V' :: 'a' :: 'r' :: q) →
      ∀ x, j = k ++ x → s = x ++ r → x = [] := by
    intro k j s r hs hr hj x hx hsx
    rcases marks_head hs with h | ⟨q, h⟩
    · rw [h] at hsx
      exact (List.append_eq_nil_iff.1 hsx.symm).1
    · rw [h] at hsx
      match x with
      | [] => rfl
      | [a] =>
        simp only [List.cons_append, List.nil_append, List.cons.injEq] at hsx
        rcases marks_head hr with h' | ⟨q', h'⟩ <;> rw [h'] at hsx <;> simp at hsx
      | [a, b] =>
        simp only [List.cons_append, List.nil_append, List.cons.injEq] at hsx
        rcases marks_head hr with h' | ⟨q', h'⟩ <;> rw [h'] at hsx <;> simp at hsx
      | a :: b :: d :: x =>
        simp only [List.cons_append, List.cons.injEq] at hsx
        exact absurd (by rw [hx, ← hsx.1, ← hsx.2.1, ← hsx.2.2.1]) (hj x)
  rcases List.append_eq_append_iff.1 h with ⟨x, hx, hy⟩ | ⟨x, hx, hy⟩
  · have := key hs hr hjk x hx hy
    rw [hx, this, List.append_nil]
  · have := key hr hs hkj x hx hy
    rw [hx, this, List.append_nil]

/-! ## What stands for a type -/

/-- The names stand for the type, with the copies that they need among those made. -/
inductive Covers (c : Config) (made : List (Text × Typ)) : Text → List Text → Prop
  | union {n ms p} : get n c.unions = some ms →
      (∀ k us, k ∈ ms → unionOf p k = some us → Covers c made k us) → Covers c made n (members p ms)
  | made {n t p} : get n c.unions = none → get n c.types = some t →
      (∀ k f us, (k, f) ∈ t.fields → unionOf p f.ty.name = some us → Covers c made f.ty.name us) →
      unionFields p t.fields ≠ [] → (∀ x ∈ create n t (unionFields p t.fields), x ∈ made) →
      Covers c made n ((create n t (unionFields p t.fields)).map (·.1))

theorem Covers.mono {c : Config} {made made' : List (Text × Typ)} (hm : ∀ x ∈ made, x ∈ made') {n us}
    (h : Covers c made n us) : Covers c made' n us := by
  induction h with
  | union hu _ ih => exact .union hu ih
  | made hu ht _ hne hc ih => exact .made hu ht ih hne fun x hx => hm x (hc x hx)

theorem mem_setInsert {x y : Text} : ∀ {s : List Text}, y ∈ setInsert x s ↔ y = x ∨ y ∈ s
  | [] => by simp [setInsert]
  | z :: r => by
    simp only [setInsert]
    split
    · rename_i h; subst h; simp
    · split
      · simp
      · simp only [List.mem_cons, mem_setInsert]
        constructor
        · rintro (h | h | h)
          · exact .inr (.inl h)
          · exact .inl h
          · exact .inr (.inr h)
        · rintro (h | h | h)
          · exact .inr (.inl h)
          · exact .inl h
          · exact .inr (.inr h)

theorem mem_foldInsert {y : Text} : ∀ {l s : List Text}, y ∈ l.foldl (fun s x => setInsert x s) s ↔ y ∈ l ∨ y ∈ s
  | [], s => by simp
  | x :: r, s => by
    rw [List.foldl_cons, mem_foldInsert, mem_setInsert, List.mem_cons]
    constructor
    · rintro (h | h | h)
      · exact .inl (.inr h)
      · exact .inl (.inl h)
      · exact .inr h
    · rintro ((h | h) | h)
      · exact .inr (.inl h)
      · exact .inl h
      · exact .inr (.inr h)

theorem mem_members {p : List (Text × Presence)} {ms : List Text} {m : Text} :
    m ∈ members p ms ↔ ∃ k ∈ ms, (∃ us, unionOf p k = some us ∧ m ∈ us) ∨ (unionOf p k = none ∧ m = k) := by
  unfold members
  rw [mem_foldInsert, List.mem_flatMap]
  constructor
  · rintro (⟨k, hk, hm⟩ | h)
    · refine ⟨k, hk, ?_⟩
      split at hm
      · rename_i us hus; exact .inl ⟨us, hus, hm⟩
      · rename_i hus; exact .inr ⟨hus, by simpa using hm⟩
    · cases h
  · rintro ⟨k, hk, ⟨us, hus, hm⟩ | ⟨hus, hm⟩⟩
    · exact .inl ⟨k, hk, by rw [hus]; exact hm⟩
    · exact .inl ⟨k, hk, by rw [hus]; simp [hm]⟩

theorem mem_unionFields {p : List (Text × Presence)} {fs : List (Text × Field)} {k us} :
    (k, us) ∈ unionFields p fs ↔ ∃ f, (k, f) ∈ fs ∧ unionOf p f.ty.name = some us := by
  unfold unionFields
  rw [List.mem_filterMap]
  constructor
  · rintro ⟨⟨k', f⟩, hm, h⟩
    cases hu : unionOf p f.ty.name with
    | none => rw [hu] at h; cases h
    | some us' => rw [hu] at h; cases h; exact ⟨f, hm, hu⟩
  · rintro ⟨f, hm, hu⟩
    exact ⟨(k, f), hm, by simp only [hu]; rfl⟩

theorem unionFields_nodup {p : List (Text × Presence)} : ∀ {fs : List (Text × Field)}, (fs.map (·.1)).Nodup →
    ((unionFields p fs).map (·.1)).Nodup
  | [], _ => by simp [unionFields]
  | (k, f) :: r, h => by
    rw [List.map_cons, List.nodup_cons] at h
    have ih := unionFields_nodup (p := p) h.2
    unfold unionFields at ih ⊢
    rw [List.filterMap_cons]
    cases hu : unionOf p f.ty.name with
    | none => simp only [Option.map_none]; exact ih
    | some us =>
      simp only [Option.map_some, List.map_cons, List.nodup_cons]
      refine ⟨fun hm => h.1 ?_, ih⟩
      obtain ⟨⟨k', us'⟩, hx, hk⟩ := List.mem_map.1 hm
      obtain ⟨f', hf', _⟩ := mem_unionFields.1 hx
      exact hk ▸ List.mem_map_of_mem (f := (·.1)) hf'

theorem Covers.bears {c : Config} {made n us} (hM : Maps c) (h : Covers c made n us) : Bears c n := by
  induction h with
  | union hu _ _ => exact .union hu
  | @made n t p hu ht _ hne _ ih =>
    obtain ⟨⟨k, us⟩, hx⟩ := List.exists_mem_of_ne_nil _ hne
    obtain ⟨f, hf, hus⟩ := mem_unionFields.1 hx
    exact .field ht (get_of_mem (hM.fields _ _ (mem_of_get ht)) hf) (ih k f us hf hus)

theorem Covers.ne_nil {c : Config} {made n us} (hI : Inhabited c) (hM : Maps c) (h : Covers c made n us) : us ≠ [] := by
  induction h with
  | @union n ms p hu _ ih =>
    obtain ⟨k, hk⟩ := List.exists_mem_of_ne_nil _ (hI _ _ hu)
    intro he
    cases hp : unionOf p k with
    | none =>
      have : k ∈ members p ms := mem_members.2 ⟨k, hk, .inr ⟨hp, rfl⟩⟩
      rw [he] at this; cases this
    | some us =>
      obtain ⟨u, hu'⟩ := List.exists_mem_of_ne_nil _ (ih k us hk hp)
      have : u ∈ members p ms := mem_members.2 ⟨k, hk, .inl ⟨us, hp, hu'⟩⟩
      rw [he] at this; cases this
  | @made n t p hu ht _ hne _ ih =>
    have hn := unionFields_nodup (p := p) (hM.fields _ _ (mem_of_get ht))
    have hg : Choice (fun k => ((get k (unionFields p t.fields)).bind fun us => us.head?)) (unionFields p t.fields) := by
      refine ⟨fun f us hf => ?_, fun f hf => ?_⟩
      · obtain ⟨f', hf', hus⟩ := mem_unionFields.1 hf
        have := ih f f' us hf' hus
        simp only [get_of_mem hn hf, Option.bind_some]
        cases us with
        | nil => exact absurd rfl this
        | cons u r => exact ⟨u, List.mem_cons_self, rfl⟩
      · simp only [get_none.2 hf, Option.bind_none]
    obtain ⟨m, hm⟩ := create_intro (n := n) (t := t) hn hg
    intro he
    have := List.mem_map_of_mem (f := (·.1)) hm
    rw [he] at this; cases this

/-! ## What holds throughout -/

/-- What is noted is so, and what is made has names of its own. -/
structure Inv (c : Config) (done : List Text) (st : St) : Prop where
  covers : ∀ n us, unionOf st.presence n = some us → Covers c st.made n us
  nodup : (st.made.map (·.1)).Nodup
  keys : ∀ m ∈ st.made.map (·.1), m ∈ done ∨
    ∃ n s, Clean n ∧ get n st.presence ≠ none ∧ m = n ++ '_' :: '_' :: s

theorem unionOf_cons {p : List (Text × Presence)} {n m v} : unionOf ((n, v) :: p) m =
    if n = m then (match v with | .union us => some us | .noUnion => none) else unionOf p m := by
  unfold unionOf
  rw [get_cons]
  by_cases h : n = m
  · rw [if_pos h, if_pos h]; cases v <;> rfl
  · rw [if_neg h, if_neg h]

theorem keys_cons {p : List (Text × Presence)} {n v} {x : Text} (h : get x p ≠ none) : get x ((n, v) :: p) ≠ none := by
  rw [get_cons]
  by_cases hh : n = x
  · rw [if_pos hh]; intro h; cases h
  · rw [if_neg hh]; exact h

theorem collectAll_inv {I : St → Prop} {visit : Text → St → Option St}
    (hv : ∀ n st st', visit n st = some st' → I st → I st') :
    ∀ ns st st', collectAll visit ns st = some st' → I st → I st'
  | [], st, st', h, hi => by cases h; exact hi
  | n :: r, st, st', h, hi => by
    simp only [collectAll] at h
    cases h1 : visit n st with
    | none => rw [h1] at h; cases h
    | some s => rw [h1] at h; exact collectAll_inv hv r _ _ h (hv _ _ _ h1 hi)

theorem inv_visit {c : Config} {done st n} (h : Inv c done st) : Inv c done { st with visited := n :: st.visited } :=
  ⟨h.covers, h.nodup, h.keys⟩

theorem collect_inv {c : Config} {done : List Text} (hN : Names c) (hd : ∀ x ∈ done, Clean x) :
    ∀ fuel n st st', collect c fuel n st = some st' → Inv c done st → Inv c done st'
  | 0, _, _, _, h, _ => by cases h
  | fuel + 1, n, st, st', h, hi => by
    have ih := collectAll_inv (collect_inv hN hd fuel)
    cases collect_call h with
    | known => exact hi
    | leaf => exact inv_visit hi
    | @union ms s hp hv hu hs =>
      have hi' := ih _ _ _ hs (inv_visit hi)
      refine ⟨fun m us hm => ?_, hi'.nodup, fun m hm => ?_⟩
      · rw [unionOf_cons] at hm
        by_cases hnm : n = m
        · subst hnm
          rw [if_pos rfl] at hm
          cases hm
          exact .union hu fun k us _ hk => hi'.covers k us hk
        · rw [if_neg hnm] at hm; exact hi'.covers m us hm
      · rcases hi'.keys m hm with h | ⟨x, r, hx, hg, he⟩
        · exact .inl h
        · exact .inr ⟨x, r, hx, keys_cons hg, he⟩
    | @plain t s hp hv hu ht hs he =>
      have hi' := ih _ _ _ hs (inv_visit hi)
      refine ⟨fun m us hm => ?_, hi'.nodup, fun m hm => ?_⟩
      · rw [unionOf_cons] at hm
        by_cases hnm : n = m
        · rw [if_pos hnm] at hm; cases hm
        · rw [if_neg hnm] at hm; exact hi'.covers m us hm
      · rcases hi'.keys m hm with h | ⟨x, r, hx, hg, he⟩
        · exact .inl h
        · exact .inr ⟨x, r, hx, keys_cons hg, he⟩
    | @made t s hp hv hu ht hs hne =>
      have hi' := ih _ _ _ hs (inv_visit hi)
      have hpn : get n s.presence = none :=
        ((collectAll_mono (collect_mono (c := c) fuel) _ _ _ hs).presence n List.mem_cons_self).trans hp
      have hcl : Clean n := hN.types n t (mem_of_get ht)
      have hmono : ∀ x ∈ s.made, x ∈ (create n t (unionFields s.presence t.fields)).reverse ++ s.made :=
        fun x hx => List.mem_append_right _ hx
      refine ⟨fun m us hm => ?_, ?_, fun m hm => ?_⟩
      · rw [unionOf_cons] at hm
        by_cases hnm : n = m
        · subst hnm
          rw [if_pos rfl] at hm
          cases hm
          exact .made hu ht (fun k f us _ hk => (hi'.covers _ us hk).mono hmono) hne
            fun x hx => List.mem_append_left _ (List.mem_reverse.2 hx)
        · rw [if_neg hnm] at hm; exact (hi'.covers m us hm).mono hmono
      · show (((create n t (unionFields s.presence t.fields)).reverse ++ s.made).map (·.1)).Nodup
        rw [List.map_append, List.nodup_append, List.map_reverse]
        refine ⟨(List.reverse_perm _).nodup_iff.2 create_nodup, hi'.nodup, ?_⟩
        intro a ha b hb hab
        rw [List.mem_reverse] at ha
        obtain ⟨x, hx, rfl⟩ := List.mem_map.1 ha
        obtain ⟨r, hr, hr', hr''⟩ := create_name hx
        rcases hr' with h | ⟨q, h⟩
        · exact hr'' hne h
        · rw [h] at hr
          rcases hi'.keys b hb with h' | ⟨m, q', hm, hg, he⟩
          · exact not_clean (hr ▸ hab ▸ hd b h')
          · have := clean_split hcl hm (by rw [← hr, hab, he])
            exact hg (this ▸ hpn)
      · have hm : m ∈ (((create n t (unionFields s.presence t.fields)).reverse ++ s.made).map (·.1)) := hm
        rw [List.map_append, List.mem_append] at hm
        rcases hm with hm | hm
        · rw [List.map_reverse, List.mem_reverse] at hm
          obtain ⟨x, hx, rfl⟩ := List.mem_map.1 hm
          obtain ⟨r, hr, hr', hr''⟩ := create_name hx
          rcases hr' with h | ⟨q, h⟩
          · exact absurd h (hr'' hne)
          · refine .inr ⟨n, q, hcl, ?_, by rw [hr, h]⟩
            show get n ((n, _) :: s.presence) ≠ none
            rw [get_cons, if_pos rfl]; intro h; cases h
        · rcases hi'.keys m hm with h | ⟨x, r, hx, hg, he⟩
          · exact .inl h
          · exact .inr ⟨x, r, hx, keys_cons hg, he⟩

/-! ## The loops -/

/-- The fields put in the place of those of a type, each by what is noted at its time. -/
inductive Outs (R : List (Text × Presence) → Field → Prop) : List (Text × Field) → List (Text × Field) → Prop
  | nil : Outs R [] []
  | cons {p name f fs o} : R p f → Outs R fs o → Outs R ((name, f) :: fs) (mapArgs p name f ++ o)

theorem Outs.mono {R R' : List (Text × Presence) → Field → Prop} (h : ∀ p f, R p f → R' p f) {fs o}
    (ho : Outs R fs o) : Outs R' fs o := by
  induction ho with
  | nil => exact .nil
  | cons hr _ ih => exact .cons (h _ _ hr) ih

theorem visitFields_spec {c : Config} {I : St → Prop} {R : List (Text × Typ) → List (Text × Presence) → Field → Prop}
    (hR : ∀ made made' p f, (∀ x ∈ made, x ∈ made') → R made p f → R made' p f)
    (hstep : ∀ (f : Field) st st', I st → collectAll (collect c (depth c)) (f.args.map fun a => a.2.name) st = some st' →
      I st' ∧ R st'.made st'.presence f) :
    ∀ fs out st out' st', visitFields c fs out st = some (out', st') → I st →
      I st' ∧ (∀ x ∈ st.made, x ∈ st'.made) ∧ ∃ o, out' = out ++ o ∧ Outs (R st'.made) fs o
  | [], out, st, out', st', h, hi => by
    cases h; exact ⟨hi, fun _ h => h, [], by simp, .nil⟩
  | (name, f) :: rest, out, st, out', st', h, hi => by
    simp only [visitFields] at h
    cases h1 : collectAll (collect c (depth c)) (f.args.map fun a => a.2.name) st with
    | none => rw [h1] at h; cases h
    | some s =>
      rw [h1] at h
      obtain ⟨hi', hr⟩ := hstep f st s hi h1
      obtain ⟨hi'', hm, o, ho, houts⟩ := visitFields_spec hR hstep rest _ _ _ _ h hi'
      refine ⟨hi'', fun x hx => hm x ((collectAll_mono (collect_mono _) _ _ _ h1).made x hx),
        mapArgs s.presence name f ++ o, by rw [ho]; simp [List.append_assoc], .cons (hR _ _ _ _ hm hr) houts⟩

theorem visitTypes_spec {c : Config} {I : List Text → St → Prop} {R : List (Text × Typ) → List (Text × Presence) → Field → Prop}
    (hR : ∀ made made' p f, (∀ x ∈ made, x ∈ made') → R made p f → R made' p f)
    (hstep : ∀ (f : Field) done st st', (∀ x ∈ done, x ∈ c.types.map (·.1)) → I done st →
      collectAll (collect c (depth c)) (f.args.map fun a => a.2.name) st = some st' →
      I done st' ∧ R st'.made st'.presence f)
    (hadd : ∀ done st name t, name ∈ c.types.map (·.1) → name ∉ done → I done st →
      I (name :: done) { st with made := (name, t) :: st.made }) :
    ∀ ts done st st', visitTypes c ts st = some st' → I done st → (∀ x ∈ done, x ∈ c.types.map (·.1)) →
      (∀ x ∈ ts.map (·.1), x ∈ c.types.map (·.1)) →
      (ts.map (·.1)).Nodup → (∀ x ∈ ts.map (·.1), x ∉ done) →
      (∃ done', (∀ x ∈ done', x ∈ c.types.map (·.1)) ∧ I done' st') ∧ (∀ x ∈ st.made, x ∈ st'.made) ∧
      ∀ n t, (n, t) ∈ ts → ∃ o, (n, { t with fields := o.reverse }) ∈ st'.made ∧ Outs (R st'.made) t.fields o
  | [], done, st, st', h, hi, hd, _, _, _ => by
    cases h; exact ⟨⟨done, hd, hi⟩, fun _ h => h, fun _ _ h => by cases h⟩
  | (name, t) :: rest, done, st, st', h, hi, hd, ht, hn, hdis => by
    simp only [visitTypes] at h
    rw [List.map_cons, List.nodup_cons] at hn
    cases h1 : visitFields c t.fields [] st with
    | none => rw [h1] at h; cases h
    | some r =>
      obtain ⟨out, s⟩ := r
      rw [h1] at h
      obtain ⟨hi', hm, o, ho, houts⟩ := visitFields_spec hR (fun f st st' => hstep f done st st' hd) _ _ _ _ _ h1 hi
      rw [List.nil_append] at ho
      subst ho
      have hname : name ∈ c.types.map (·.1) := ht _ (by simp)
      obtain ⟨hI, hm', hall⟩ := visitTypes_spec hR hstep hadd rest (name :: done) _ _ h
        (hadd done s name _ hname (hdis name (by simp)) hi')
        (fun x hx => by
          rcases List.mem_cons.1 hx with rfl | hx
          · exact hname
          · exact hd x hx)
        (fun x hx => ht x (List.mem_cons_of_mem _ hx)) hn.2
        (fun x hx hx' => by
          rcases List.mem_cons.1 hx' with rfl | hx'
          · exact hn.1 hx
          · exact hdis x (List.mem_cons_of_mem _ hx) hx')
      refine ⟨hI, fun x hx => hm' x (List.mem_cons_of_mem _ (hm x hx)), fun n t' hnt => ?_⟩
      rcases List.mem_cons.1 hnt with hnt | hnt
      · cases hnt
        refine ⟨out, hm' _ List.mem_cons_self, houts.mono fun p f hr => hR _ _ _ _ ?_ hr⟩
        exact fun x hx => hm' x (List.mem_cons_of_mem _ hx)
      · exact hall n t' hnt

/-- What is noted for the arguments of a field is so. -/
def Noted (c : Config) (made : List (Text × Typ)) (p : List (Text × Presence)) (f : Field) : Prop :=
  ∀ a ty us, (a, ty) ∈ f.args → unionOf p ty.name = some us → Covers c made ty.name us

/-- The types of the outcome. -/
structure Done (c : Config) (made : List (Text × Typ)) : Prop where
  orig : ∀ n t, get n c.types = some t → ∃ o, get n made = some { t with fields := o.reverse } ∧
    Outs (Noted c made) t.fields o
  fresh : ∀ n, Clean n → get n c.types = none → get n made = none
  look : ∀ m t, (m, t) ∈ made → get m made = some t

theorem inv_add {c : Config} {done st name t} (hN : Names c) (hn : name ∈ c.types.map (·.1)) (hd : name ∉ done)
    (h : Inv c done st) : Inv c (name :: done) { st with made := (name, t) :: st.made } := by
  obtain ⟨⟨n', t'⟩, hx, rfl⟩ := List.mem_map.1 hn
  refine ⟨fun m us hm => (h.covers m us hm).mono fun x hx => List.mem_cons_of_mem _ hx, ?_, fun m hm => ?_⟩
  · show (List.map (·.1) ((n', t) :: st.made)).Nodup
    rw [List.map_cons, List.nodup_cons]
    refine ⟨fun hm => ?_, h.nodup⟩
    rcases h.keys _ hm with h' | ⟨m, s, _, _, he⟩
    · exact hd h'
    · have he : n' = m ++ '_' :: '_' :: s := he
      exact not_clean (he ▸ hN.types _ _ hx)
  · rcases List.mem_cons.1 hm with hm | hm
    · exact .inl (hm ▸ List.mem_cons_self)
    · rcases h.keys m hm with h' | h'
      · exact .inl (List.mem_cons_of_mem _ h')
      · exact .inr h'

theorem clean_of_mem {c : Config} (hN : Names c) {x : Text} (h : x ∈ c.types.map (·.1)) : Clean x := by
  obtain ⟨⟨n, t⟩, hx, rfl⟩ := List.mem_map.1 h
  exact hN.types n t hx

theorem transform_done {c c' : Config} (hM : Maps c) (hN : Names c) (h : transform c = some c') :
    Done c c'.types ∧ c'.unions = c.unions := by
  unfold transform at h
  obtain ⟨st, hst, rfl⟩ := Option.map_eq_some_iff.1 h
  refine ⟨?_, rfl⟩
  obtain ⟨⟨done, hd, hi⟩, _, hall⟩ := visitTypes_spec (I := Inv c) (R := Noted c)
    (fun made made' p f hm hr a ty us ha hu => (hr a ty us ha hu).mono hm)
    (fun f done st st' hd hi hc => by
      have hi' := collectAll_inv (collect_inv hN (fun x hx => clean_of_mem hN (hd x hx)) _) _ _ _ hc hi
      exact ⟨hi', fun a ty us _ hu => hi'.covers _ us hu⟩)
    (fun done st name t hn hd hi => inv_add hN hn hd hi) c.types [] ⟨[], [], []⟩ st hst
    ⟨fun n us h => (by simp [unionOf, Verif.Merge.get] at h), List.nodup_nil, fun m hm => (by cases hm)⟩ (fun x hx => (by cases hx)) (fun x hx => hx) hM.types
    (fun x _ hx => by cases hx)
  refine ⟨fun n t hn => ?_, fun n hc hn => ?_, fun m t hm => get_of_mem hi.nodup hm⟩
  · obtain ⟨o, ho, houts⟩ := hall n t (mem_of_get hn)
    exact ⟨o, get_of_mem hi.nodup ho, houts⟩
  · rw [get_none]
    intro hm
    rcases hi.keys n hm with h' | ⟨m, s, _, _, he⟩
    · exact get_none.1 hn (hd n h')
    · exact not_clean (he ▸ hc)

end Verif.UnionIn
