import Verif.UnionIn.Spec

/-!
# Lemmas on unions in arguments
-/

namespace Verif.UnionIn

open Verif.Mustache (Text)
open Verif.Exec (Ty)
open Verif.Merge (get tlt)

set_option linter.unusedSimpArgs false

/-! ## Lookups -/

theorem get_cons {α : Type} (k k' : Text) (v : α) (r) :
    get k ((k', v) :: r) = if k' = k then some v else get k r := rfl

theorem mem_of_get {α : Type} {k : Text} {v : α} : ∀ {l : List (Text × α)}, get k l = some v → (k, v) ∈ l
  | [], h => by cases h
  | (k', v') :: r, h => by
    rw [get_cons] at h
    by_cases hk : k' = k
    · rw [if_pos hk] at h; cases h; subst hk; exact List.mem_cons_self
    · rw [if_neg hk] at h; exact List.mem_cons_of_mem _ (mem_of_get h)

theorem get_none {α : Type} {k : Text} : ∀ {l : List (Text × α)}, get k l = none ↔ k ∉ l.map (·.1)
  | [] => by simp [Verif.Merge.get]
  | (k', v') :: r => by
    rw [get_cons]
    by_cases hk : k' = k
    · rw [if_pos hk]; simp [hk]
    · rw [if_neg hk, get_none]; simp [Ne.symm hk]

theorem get_of_mem {α : Type} {k : Text} {v : α} : ∀ {l : List (Text × α)}, (l.map (·.1)).Nodup → (k, v) ∈ l →
    get k l = some v
  | (k', v') :: r, hn, h => by
    rw [get_cons]
    rw [List.map_cons, List.nodup_cons] at hn
    rcases List.mem_cons.1 h with h | h
    · cases h; rw [if_pos rfl]
    · by_cases hk : k' = k
      · exact absurd (List.mem_map_of_mem (f := (·.1)) h) (hk ▸ hn.1)
      · rw [if_neg hk]; exact get_of_mem hn.2 h

theorem get_isSome_of_mem {α : Type} {k : Text} {l : List (Text × α)} (h : k ∈ l.map (·.1)) :
    ∃ v, get k l = some v := by
  cases hg : get k l with
  | none => exact absurd h (get_none.1 hg)
  | some v => exact ⟨v, rfl⟩

theorem get_reverse {α : Type} {k : Text} {l : List (Text × α)} (hn : (l.map (·.1)).Nodup) :
    get k l.reverse = get k l := by
  have hn' : (l.reverse.map (·.1)).Nodup := by
    rw [List.map_reverse]; exact (List.reverse_perm _).nodup_iff.2 hn
  cases hg : get k l with
  | none => rw [get_none] at hg ⊢; rw [List.map_reverse, List.mem_reverse]; exact hg
  | some v => exact get_of_mem hn' (List.mem_reverse.2 (mem_of_get hg))

/-! ## The walk ends -/

/-- The names that are still to be entered. -/
def left (c : Config) (st : St) : Nat :=
  ((c.types.map (·.1) ++ c.unions.map (·.1)).filter fun k => !st.visited.contains k).length

theorem filter_len_mono {p q : Text → Bool} (h : ∀ x, p x = true → q x = true) : ∀ l : List Text,
    (l.filter p).length ≤ (l.filter q).length
  | [] => by simp
  | x :: r => by
    have := filter_len_mono h r
    cases hp : p x with
    | false => cases hq : q x <;> simp [List.filter, hp, hq] <;> omega
    | true => simp [List.filter, hp, h x hp]; omega

theorem filter_len_lt {p q : Text → Bool} (h : ∀ x, p x = true → q x = true) {n : Text} (hq : q n = true)
    (hp : p n = false) : ∀ l : List Text, n ∈ l → (l.filter p).length < (l.filter q).length
  | x :: r, hm => by
    have hle := filter_len_mono h r
    rcases List.mem_cons.1 hm with rfl | hm
    · simp [List.filter, hp, hq]; omega
    · have := filter_len_lt h hq hp r hm
      cases hpx : p x with
      | false => cases hqx : q x <;> simp [List.filter, hpx, hqx] <;> omega
      | true => simp [List.filter, hpx, h x hpx]; omega

theorem left_mono {c : Config} {st st' : St} (h : ∀ x ∈ st.visited, x ∈ st'.visited) : left c st' ≤ left c st := by
  refine filter_len_mono ?_ _
  intro x hx
  simp only [Bool.not_eq_true', List.contains_eq_mem, decide_eq_false_iff_not] at hx ⊢
  exact fun hh => hx (h x hh)

theorem left_lt {c : Config} {st : St} {n : Text} (hv : n ∉ st.visited)
    (hn : n ∈ c.types.map (·.1) ++ c.unions.map (·.1)) :
    left c { st with visited := n :: st.visited } < left c st := by
  refine filter_len_lt (n := n) ?_ ?_ ?_ _ hn
  · intro x hx
    simp only [Bool.not_eq_true', List.contains_eq_mem, decide_eq_false_iff_not] at hx ⊢
    exact fun hh => hx (List.mem_cons_of_mem _ hh)
  · simp [hv]
  · simp

/-- What is visited stays so, and of what was visited before nothing new is noted. -/
structure Mono (st st' : St) : Prop where
  visited : ∀ x ∈ st.visited, x ∈ st'.visited
  presence : ∀ x ∈ st.visited, get x st'.presence = get x st.presence
  kept : ∀ x v, get x st.presence = some v → get x st'.presence = some v
  made : ∀ x ∈ st.made, x ∈ st'.made

theorem Mono.refl (st : St) : Mono st st := ⟨fun _ h => h, fun _ _ => rfl, fun _ _ h => h, fun _ h => h⟩

theorem Mono.trans {a b d : St} (h : Mono a b) (h' : Mono b d) : Mono a d :=
  ⟨fun x hx => h'.visited x (h.visited x hx),
    fun x hx => (h'.presence x (h.visited x hx)).trans (h.presence x hx),
    fun x v hx => h'.kept x v (h.kept x v hx), fun x hx => h'.made x (h.made x hx)⟩

theorem collectAll_mono {visit : Text → St → Option St} (hv : ∀ n st st', visit n st = some st' → Mono st st') :
    ∀ ns st st', collectAll visit ns st = some st' → Mono st st'
  | [], st, st', h => by cases h; exact Mono.refl _
  | n :: r, st, st', h => by
    simp only [collectAll] at h
    cases h1 : visit n st with
    | none => rw [h1] at h; cases h
    | some s => rw [h1] at h; exact (hv _ _ _ h1).trans (collectAll_mono hv r _ _ h)

/-- The ways in which a call goes. -/
inductive Call (c : Config) (fuel : Nat) (n : Text) (st : St) : St → Prop
  | known : (get n st.presence ≠ none ∨ n ∈ st.visited) → Call c fuel n st st
  | leaf : get n st.presence = none → n ∉ st.visited → get n c.unions = none → get n c.types = none →
      Call c fuel n st { st with visited := n :: st.visited }
  | union {ms st'} : get n st.presence = none → n ∉ st.visited → get n c.unions = some ms →
      collectAll (collect c fuel) ms { st with visited := n :: st.visited } = some st' →
      Call c fuel n st { st' with presence := (n, .union (members st'.presence ms)) :: st'.presence }
  | plain {t st'} : get n st.presence = none → n ∉ st.visited → get n c.unions = none → get n c.types = some t →
      collectAll (collect c fuel) (t.fields.map fun f => f.2.ty.name) { st with visited := n :: st.visited } = some st' →
      unionFields st'.presence t.fields = [] →
      Call c fuel n st { st' with presence := (n, .noUnion) :: st'.presence }
  | made {t st'} : get n st.presence = none → n ∉ st.visited → get n c.unions = none → get n c.types = some t →
      collectAll (collect c fuel) (t.fields.map fun f => f.2.ty.name) { st with visited := n :: st.visited } = some st' →
      unionFields st'.presence t.fields ≠ [] →
      Call c fuel n st { st' with
        presence := (n, .union ((create n t (unionFields st'.presence t.fields)).map (·.1))) :: st'.presence
        made := (create n t (unionFields st'.presence t.fields)).reverse ++ st'.made }

theorem collect_call {c : Config} {fuel n st st'} (h : collect c (fuel + 1) n st = some st') :
    Call c fuel n st st' := by
  simp only [collect] at h
  split at h
  · rename_i hk
    cases h
    refine .known ?_
    rw [Bool.or_eq_true] at hk
    rcases hk with hk | hk
    · left; intro hn; rw [hn] at hk; cases hk
    · right; simpa using hk
  · rename_i hk
    rw [Bool.or_eq_true, not_or] at hk
    have hp : get n st.presence = none := by
      cases hg : get n st.presence with
      | none => rfl
      | some v => exact absurd (by rw [hg]; rfl) hk.1
    have hv : n ∉ st.visited := by simpa using hk.2
    split at h
    · rename_i ms hu
      split at h
      · cases h
      · rename_i s hs; cases h; exact .union hp hv hu hs
    · rename_i hu
      split at h
      · rename_i ht; cases h; exact .leaf hp hv hu ht
      · rename_i t ht
        split at h
        · cases h
        · rename_i s hs
          split at h
          · rename_i he; cases h; exact .plain hp hv hu ht hs (by simpa using he)
          · rename_i he; cases h; exact .made hp hv hu ht hs (by simpa using he)

theorem mono_visit {st : St} {n : Text} : Mono st { st with visited := n :: st.visited } :=
  ⟨fun _ h => List.mem_cons_of_mem _ h, fun _ _ => rfl, fun _ _ h => h, fun _ h => h⟩

theorem mono_add {st st' : St} {n : Text} {p m} (hp : get n st.presence = none) (hv : n ∉ st.visited)
    (h : Mono { st with visited := n :: st.visited } st') :
    Mono st { st' with presence := (n, p) :: st'.presence, made := m ++ st'.made } := by
  refine ⟨fun x hx => h.visited x (List.mem_cons_of_mem _ hx), fun x hx => ?_, fun x v hx => ?_,
    fun x hx => List.mem_append_right _ (h.made x hx)⟩
  · show get x ((n, p) :: st'.presence) = _
    rw [get_cons, if_neg (fun hh : n = x => hv (by rw [hh]; exact hx))]
    exact h.presence x (List.mem_cons_of_mem _ hx)
  · show get x ((n, p) :: st'.presence) = _
    rw [get_cons, if_neg (fun hh : n = x => by rw [← hh, hp] at hx; cases hx)]
    exact h.kept x v hx

theorem collect_mono {c : Config} : ∀ fuel n st st', collect c fuel n st = some st' → Mono st st'
  | 0, _, _, _, h => by cases h
  | fuel + 1, n, st, st', h => by
    have ih := collect_mono (c := c) fuel
    cases collect_call h with
    | known => exact Mono.refl _
    | leaf => exact mono_visit
    | union hp hv hu hs => exact mono_add (m := []) hp hv (collectAll_mono ih _ _ _ hs)
    | plain hp hv hu ht hs he => exact mono_add (m := []) hp hv (collectAll_mono ih _ _ _ hs)
    | made hp hv hu ht hs he => exact mono_add hp hv (collectAll_mono ih _ _ _ hs)

theorem collectAll_some {c : Config} {fuel : Nat}
    (ih : ∀ n st, left c st < fuel → ∃ st', collect c fuel n st = some st') :
    ∀ ns st, left c st < fuel → ∃ st', collectAll (collect c fuel) ns st = some st'
  | [], st, _ => ⟨st, rfl⟩
  | n :: r, st, h => by
    obtain ⟨s, hs⟩ := ih n st h
    obtain ⟨s', hs'⟩ := collectAll_some ih r s
      (Nat.lt_of_le_of_lt (left_mono (collect_mono _ _ _ _ hs).visited) h)
    exact ⟨s', by simp only [collectAll, hs]; exact hs'⟩

theorem collect_some {c : Config} : ∀ fuel n st, left c st < fuel → ∃ st', collect c fuel n st = some st'
  | 0, _, _, h => by omega
  | fuel + 1, n, st, h => by
    have ih := collectAll_some (c := c) (collect_some fuel)
    simp only [collect]
    split
    · exact ⟨st, rfl⟩
    · rename_i hk
      rw [Bool.or_eq_true, not_or] at hk
      have hv : n ∉ st.visited := by simpa using hk.2
      split
      · rename_i ms hu
        have hm : n ∈ c.unions.map (·.1) := List.mem_map_of_mem (f := (·.1)) (mem_of_get hu)
        obtain ⟨s, hs⟩ := ih ms { st with visited := n :: st.visited } (by have := left_lt hv (List.mem_append_right (c.types.map (·.1)) hm); omega)
        rw [hs]; exact ⟨_, rfl⟩
      · split
        · exact ⟨_, rfl⟩
        · rename_i t ht
          have hm : n ∈ c.types.map (·.1) := List.mem_map_of_mem (f := (·.1)) (mem_of_get ht)
          obtain ⟨s, hs⟩ := ih (t.fields.map fun f => f.2.ty.name) { st with visited := n :: st.visited }
            (by have := left_lt hv (List.mem_append_left (c.unions.map (·.1)) hm); omega)
          rw [hs]
          dsimp only
          split
          · exact ⟨_, rfl⟩
          · exact ⟨_, rfl⟩

theorem left_lt_depth (c : Config) (st : St) : left c st < depth c := by
  have := List.length_filter_le (fun k => !st.visited.contains k) (c.types.map (·.1) ++ c.unions.map (·.1))
  simp only [left, depth, List.length_append, List.length_map] at this ⊢
  omega

theorem visitFields_some {c : Config} : ∀ fs out st, ∃ r, visitFields c fs out st = some r
  | [], out, st => ⟨_, rfl⟩
  | (name, f) :: rest, out, st => by
    obtain ⟨s, hs⟩ := collectAll_some (c := c) (collect_some (depth c)) (f.args.map fun a => a.2.name) st
      (left_lt_depth c st)
    simp only [visitFields, hs]
    exact visitFields_some rest _ _

theorem visitTypes_some {c : Config} : ∀ ts st, ∃ r, visitTypes c ts st = some r
  | [], st => ⟨_, rfl⟩
  | (name, t) :: rest, st => by
    obtain ⟨⟨o, s⟩, hs⟩ := visitFields_some (c := c) t.fields [] st
    simp only [visitTypes, hs]
    exact visitTypes_some rest _

/-! ## Copies of types -/

theorem withName_name (n : Text) : ∀ t : Ty, (withName n t).name = n
  | .named _ _ => rfl
  | .list t _ => withName_name n t

theorem withName_self : ∀ t : Ty, withName t.name t = t
  | .named _ _ => rfl
  | .list t nn => by
    show Ty.list (withName t.name t) nn = _
    rw [withName_self t]

theorem withName_nullable (n : Text) : ∀ t : Ty, (withName n t).isNullable = t.isNullable
  | .named _ _ => rfl
  | .list _ _ => rfl

/-- The choice made for a field, put in. -/
def chosen (g : Text → Option Text) (k : Text) (t : Ty) : Ty :=
  match g k with
  | some u => withName u t
  | none => t

/-- The choices made for the fields, put in. -/
def subst (g : Text → Option Text) (fs : List (Text × Field)) : List (Text × Field) :=
  fs.map fun x => (x.1, { x.2 with ty := chosen g x.1 x.2.ty })

/-- The choices are among the members. -/
structure Choice (g : Text → Option Text) (ufs : List (Text × List Text)) : Prop where
  some : ∀ f us, (f, us) ∈ ufs → ∃ u ∈ us, g f = some u
  none : ∀ f, f ∉ ufs.map (·.1) → g f = none

theorem subst_none (fs : List (Text × Field)) : subst (fun _ => none) fs = fs := by
  induction fs with
  | nil => rfl
  | cons x r ih => simp only [subst, chosen, List.map_cons] at ih ⊢; rw [ih]

theorem subst_setTy {g : Text → Option Text} {f u : Text} (hg : g f = none) (fs : List (Text × Field)) :
    subst g (fs.map fun x => if x.1 = f then (x.1, { x.2 with ty := withName u x.2.ty }) else x)
      = subst (fun k => if k = f then some u else g k) fs := by
  simp only [subst, List.map_map]
  refine List.map_congr_left ?_
  intro x _
  simp only [Function.comp]
  by_cases hx : x.1 = f
  · simp [hx, chosen, hg]
  · simp [hx, chosen]

theorem create_elim : ∀ {ufs : List (Text × List Text)} {n t x}, (ufs.map (·.1)).Nodup → x ∈ create n t ufs →
    ∃ g, Choice g ufs ∧ x.2 = { t with fields := subst g t.fields }
  | [], n, t, x, _, h => by
    simp only [create, List.mem_singleton] at h
    subst h
    exact ⟨fun _ => none, ⟨fun _ _ h => (by cases h), fun _ _ => rfl⟩, by rw [subst_none]⟩
  | (f, us) :: rest, n, t, x, hn, h => by
    simp only [create, List.mem_flatMap] at h
    obtain ⟨⟨u, i⟩, hu, hx⟩ := h
    rw [List.map_cons, List.nodup_cons] at hn
    obtain ⟨g, hg, he⟩ := create_elim hn.2 hx
    refine ⟨fun k => if k = f then some u else g k, ⟨fun f' us' hf => ?_, fun f' hf => ?_⟩, ?_⟩
    · rcases List.mem_cons.1 hf with hf | hf
      · cases hf
        exact ⟨u, (List.fst_mem_of_mem_zipIdx hu), if_pos rfl⟩
      · obtain ⟨u', hu', hgu⟩ := hg.some f' us' hf
        refine ⟨u', hu', ?_⟩
        rw [if_neg]
        · exact hgu
        · intro hh; exact hn.1 (hh ▸ List.mem_map_of_mem (f := (·.1)) hf)
    · simp only [List.map_cons, List.mem_cons, not_or] at hf
      rw [if_neg hf.1]; exact hg.none f' hf.2
    · rw [he]
      simp only [setTy, Typ.mk.injEq, and_true]
      exact subst_setTy (hg.none f hn.1) _

theorem zipIdx_of_mem {us : List Text} {u : Text} (h : u ∈ us) : ∃ i, (u, i) ∈ us.zipIdx := by
  obtain ⟨i, hi, hu⟩ := List.mem_iff_getElem.1 h
  exact ⟨i, List.mem_zipIdx_iff_getElem?.2 (by rw [List.getElem?_eq_getElem hi, hu])⟩

theorem create_intro : ∀ {ufs : List (Text × List Text)} {n t} {g : Text → Option Text}, (ufs.map (·.1)).Nodup →
    Choice g ufs → ∃ m, (m, { t with fields := subst g t.fields }) ∈ create n t ufs
  | [], n, t, g, _, hg => by
    have : g = fun _ => none := funext fun k => hg.none k (by simp)
    subst this
    exact ⟨n, by rw [subst_none]; simp [create]⟩
  | (f, us) :: rest, n, t, g, hn, hg => by
    rw [List.map_cons, List.nodup_cons] at hn
    obtain ⟨u, hu, hgf⟩ := hg.some f us List.mem_cons_self
    obtain ⟨i, hi⟩ := zipIdx_of_mem hu
    have hg' : Choice (fun k => if k = f then none else g k) rest := by
      refine ⟨fun f' us' hf => ?_, fun f' hf => ?_⟩
      · obtain ⟨u', hu', h⟩ := hg.some f' us' (List.mem_cons_of_mem _ hf)
        refine ⟨u', hu', ?_⟩
        rw [if_neg]
        · exact h
        · intro hh; exact hn.1 (hh ▸ List.mem_map_of_mem (f := (·.1)) hf)
      · by_cases hh : f' = f
        · rw [if_pos hh]
        · rw [if_neg hh]; exact hg.none f' (by simp [hh]; simpa using hf)
    obtain ⟨m, hm⟩ := create_intro (n := n ++ '_' :: '_' :: f ++ Nat.toDigits 10 i) (t := setTy t f u) hn.2 hg'
    refine ⟨m, ?_⟩
    simp only [create, List.mem_flatMap]
    refine ⟨(u, i), hi, ?_⟩
    have he : subst (fun k => if k = f then none else g k) (setTy t f u).fields = subst g t.fields := by
      simp only [setTy]
      rw [subst_setTy (by simp)]
      congr 1
      funext k
      by_cases hk : k = f
      · simp [hk, hgf]
      · simp [hk]
    rw [he] at hm
    exact hm

/-! ## Names -/

theorem digit_of_mem {c : Char} {n : Nat} (h : c ∈ Nat.toDigits 10 n) : c.isDigit = true :=
  Nat.isDigit_of_mem_toDigits (by decide) (by decide) h

theorem toDigits_inj {a b : Nat} (h : Nat.toDigits 10 a = Nat.toDigits 10 b) : a = b := by
  rw [← Nat.ofDigitChars_ten_toDigits (n := a), h, Nat.ofDigitChars_ten_toDigits]

/-- What follows the digits of a choice. -/
def NoDigit (r : Text) : Prop := ∀ d s, r = d :: s → d.isDigit = false

theorem takeWhile_digits {i : Nat} {r : Text} (h : NoDigit r) :
    (Nat.toDigits 10 i ++ r).takeWhile Char.isDigit = Nat.toDigits 10 i := by
  rw [List.takeWhile_append_of_pos (fun a ha => digit_of_mem ha)]
  cases r with
  | nil => simp
  | cons d s => rw [List.takeWhile_cons, h d s rfl]; simp

theorem digits_split {i j : Nat} {r s : Text} (hr : NoDigit r) (hs : NoDigit s)
    (h : Nat.toDigits 10 i ++ r = Nat.toDigits 10 j ++ s) : i = j := by
  have := congrArg (List.takeWhile Char.isDigit) h
  rw [takeWhile_digits hr, takeWhile_digits hs] at this
  exact toDigits_inj this

theorem create_name : ∀ {ufs : List (Text × List Text)} {n t x}, x ∈ create n t ufs →
    ∃ r, x.1 = n ++ r ∧ (r = [] ∨ ∃ s, r = '_' :: '_' :: s) ∧ (ufs ≠ [] → r ≠ [])
  | [], n, t, x, h => by
    simp only [create, List.mem_singleton] at h
    subst h
    exact ⟨[], by simp, .inl rfl, fun hh => absurd rfl hh⟩
  | (f, us) :: rest, n, t, x, h => by
    simp only [create, List.mem_flatMap] at h
    obtain ⟨⟨u, i⟩, hu, hx⟩ := h
    obtain ⟨r, hr, _⟩ := create_name hx
    refine ⟨'_' :: '_' :: f ++ Nat.toDigits 10 i ++ r, ?_, .inr ⟨_, rfl⟩, fun _ h => by simp at h⟩
    rw [hr]; simp [List.append_assoc]

theorem nodup_flatMap_idx {β : Type} (F : Text × Nat → List β) (name : β → Text) :
    ∀ (us : List Text) (k : Nat), (∀ u i, (u, i) ∈ us.zipIdx k → ((F (u, i)).map name).Nodup) →
    (∀ u i v j, i ≠ j → ∀ x ∈ F (u, i), ∀ y ∈ F (v, j), name x ≠ name y) →
    (((us.zipIdx k).flatMap F).map name).Nodup
  | [], k, _, _ => by simp
  | u :: r, k, h1, h2 => by
    rw [List.zipIdx_cons, List.flatMap_cons, List.map_append, List.nodup_append]
    refine ⟨h1 u k (by rw [List.zipIdx_cons]; exact List.mem_cons_self),
      nodup_flatMap_idx F name r (k + 1) (fun v i hv => h1 v i (by rw [List.zipIdx_cons]; exact List.mem_cons_of_mem _ hv)) h2, ?_⟩
    intro a ha b hb
    obtain ⟨x, hx, rfl⟩ := List.mem_map.1 ha
    obtain ⟨y, hy, rfl⟩ := List.mem_map.1 hb
    obtain ⟨⟨v, j⟩, hv, hy⟩ := List.mem_flatMap.1 hy
    have := (List.mem_zipIdx hv).1
    exact h2 u k v j (by omega) x hx y hy

theorem create_nodup : ∀ {ufs : List (Text × List Text)} {n t}, ((create n t ufs).map (·.1)).Nodup
  | [], n, t => by simp [create]
  | (f, us) :: rest, n, t => by
    simp only [create]
    refine nodup_flatMap_idx _ _ us 0 (fun u i _ => create_nodup) ?_
    intro u i v j hij x hx y hy he
    obtain ⟨r, hr, hr', _⟩ := create_name hx
    obtain ⟨s, hs, hs', _⟩ := create_name hy
    rw [hr, hs] at he
    simp only [List.append_assoc] at he
    have he := List.append_cancel_left he
    simp only [List.cons_append, List.cons.injEq, true_and] at he
    have he := List.append_cancel_left he
    refine hij (digits_split ?_ ?_ he)
    · intro d q hq; rcases hr' with h | ⟨s, h⟩ <;> rw [h] at hq <;> cases hq; rfl
    · intro d q hq; rcases hs' with h | ⟨s, h⟩ <;> rw [h] at hq <;> cases hq; rfl

/-- A clean name is what comes before the first two underscores. -/
theorem clean_split : ∀ {n m a b : Text}, Clean n → Clean m → n ++ '_' :: '_' :: a = m ++ '_' :: '_' :: b → n = m := by
  have key : ∀ {n m a b : Text}, Clean m → n.length < m.length → n ++ '_' :: '_' :: a = m ++ '_' :: '_' :: b → False := by
    intro n m a b hm hl h
    have h1 : ∃ x, m = n ++ '_' :: x := by
      rcases List.append_eq_append_iff.1 h with ⟨x, hx, hy⟩ | ⟨x, hx, hy⟩
      · cases x with
        | nil => rw [List.append_nil] at hx; rw [hx] at hl; omega
        | cons d x =>
          simp only [List.cons_append, List.cons.injEq] at hy
          rw [← hy.1] at hx
          exact ⟨x, hx⟩
      · rw [hx, List.length_append] at hl; omega
    obtain ⟨x, rfl⟩ := h1
    rw [List.append_assoc] at h
    have h := List.append_cancel_left h
    simp only [List.cons_append, List.cons.injEq, true_and] at h
    cases x with
    | nil =>
      exact hm n [] (by simp)
    | cons d x =>
      simp only [List.cons_append, List.cons.injEq] at h
      rw [← h.1] at hm
      exact hm n (x ++ ['_']) (by simp)
  intro n m a b hn hm h
  rcases Nat.lt_trichotomy n.length m.length with hl | hl | hl
  · exact (key hm hl h).elim
  · exact (List.append_inj h hl).1
  · exact (key hn hl h.symm).elim

theorem not_clean {n s : Text} : ¬ Clean (n ++ '_' :: '_' :: s) := fun h => h n (s ++ ['_']) (by simp)

end Verif.UnionIn
