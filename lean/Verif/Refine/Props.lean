import Verif.Refine.Ends

/-!
# Theorems about merging types (C100, C101)
-/

namespace Verif.Refine

open Verif.Mustache (Text)
open Verif.Exec (Ty)
open Verif.Transform

set_option linter.unusedSimpArgs false

theorem Round.old_or_made {P : Text → Text → Prop} {join : Text → Text → Text} {ks : Kinds} {k : Nat} {c : Cfg} {k' : Nat} {c' : Cfg}
    {gs : List (List Text)} {l : List (Text × Text)} (r : Round P join ks k c k' c' gs l) (hk : 0 < k) :
    ∀ y t, At c'.types y t → (∃ t0, At c.types y t0) ∨ ∃ j, 0 < j ∧ y = mergedName j := by
  intro y t ht
  rcases r.cases (get_some.2 ht) with ⟨_, _, _, _, j, hj, _, e⟩ | ⟨_, t0, ht0, _⟩
  · exact .inr ⟨j, by omega, e⟩
  · exact .inl ⟨t0, get_some.1 ht0⟩

theorem merger_merged {pre : Text → Bool} {join : Text → Text → Text} {given : Nat → Nat → Bool} {fuel : Nat} :
    ∀ {rounds k : Nat} {c c' : Cfg}, 0 < k → Wf pre c → FreshFrom k c → merger pre join given fuel rounds k c = some c' →
    (∃ σ, Merged σ c c') ∧ Wf pre c' ∧ ∃ k', round pre join given fuel k' c' = some none
  | 0, _, _, _, _, _, _, h => by rw [merger] at h; cases h
  | rounds + 1, k, c, c', hk, hw, hf, h => by
    rw [merger] at h
    cases hr : round pre join given fuel k c with
    | none => rw [hr] at h; cases h
    | some o =>
      rw [hr] at h
      cases o with
      | none =>
        cases h
        exact ⟨⟨id, Merged.refl c⟩, hw, k, hr⟩
      | some q =>
        obtain ⟨k1, c1⟩ := q
        simp only [] at h
        obtain ⟨_, _, l, _, r⟩ := round_spec (I := fun _ => True) (P := fun _ _ => True)
          (fun _ _ _ _ _ _ _ _ _ _ _ _ _ => ⟨trivial, fun _ => trivial⟩) trivial hw hf hr
        have hw1 := r.wf_next hw hf
        obtain ⟨⟨τ, hm⟩, hw', hk'⟩ := merger_merged (by rw [r.next]; omega) hw1 (r.fresh_next hw hf) h
        exact ⟨⟨_, (r.merged hw hf).trans hw1 hm (r.old_or_made hk)⟩, hw', hk'⟩

theorem merger_exact {pre : Text → Bool} {join : Text → Text → Text} {fuel : Nat} :
    ∀ {rounds k : Nat} {c c' : Cfg}, 0 < k → Wf pre c → FreshFrom k c → OneType pre c →
    merger pre join one fuel rounds k c = some c' →
    Wf pre c' ∧ ∃ σ k', Merged σ c c' ∧ Exact pre k k' σ c c'
  | 0, _, _, _, _, _, _, _, h => by rw [merger] at h; cases h
  | rounds + 1, k, c, c', hk, hw, hf, ho, h => by
    rw [merger] at h
    cases hr : round pre join one fuel k c with
    | none => rw [hr] at h; cases h
    | some o =>
      rw [hr] at h
      cases o with
      | none =>
        cases h
        exact ⟨hw, id, k, Merged.refl c, Exact.refl pre k c⟩
      | some q =>
        obtain ⟨k1, c1⟩ := q
        simp only [] at h
        obtain ⟨_, _, l, _, r⟩ := round_spec (I := StoreFor pre c (fun _ _ => True)) (P := AlikeN pre c)
          (fun ks _ => simOk_one hw ho ks fuel) (fun a b h => by cases h) hw hf hr
        have hw1 := r.wf_next hw hf
        have hf1 := r.fresh_next hw hf
        have hm1 := r.merged hw hf
        have he1 := r.exact hw hf
        obtain ⟨hw', τ, k2, hm, he⟩ := merger_exact (by rw [r.next]; omega) hw1 hf1 (he1.oneType hf hw1 hm1 ho) h
        exact ⟨hw', _, k2, hm1.trans hw1 hm (r.old_or_made hk), he1.trans hf hw1 hm1 hm he⟩

/-! ## C100: what merging does to a configuration -/

/-- Merging ends, if no union is a member of a union and the names it makes are new. -/
theorem C100_ends {pre : Text → Bool} (join : Text → Text → Text) (given : Nat → Nat → Bool) {c : Cfg} (hw : Wf pre c)
    (hf : FreshFrom 1 c) : ∃ N, ∀ fuel rounds, N ≤ fuel → N ≤ rounds → ∃ c', mergeTypes pre join given fuel rounds c = some c' := by
  refine ⟨depth c + (c.types.length + 1), fun fuel rounds h1 h2 => ?_⟩
  exact merger_finishes hw hf (by omega) (by omega)

/-- Every type has a place with all its fields, nothing else comes in, and types that are alone stay as they are. -/
theorem C100_merged {pre : Text → Bool} {join : Text → Text → Text} {given : Nat → Nat → Bool} {fuel rounds : Nat} {c c' : Cfg}
    (hw : Wf pre c) (hf : FreshFrom 1 c) (h : mergeTypes pre join given fuel rounds c = some c') :
    (∃ σ, Merged σ c c') ∧ Wf pre c' :=
  ⟨(merger_merged (by decide) hw hf h).1, (merger_merged (by decide) hw hf h).2.1⟩

/-- A name is known: declared or predefined. -/
def Known (pre : Text → Bool) (c : Cfg) (x : Text) : Prop := Decl c x ∨ pre x = true

/-- All names that types and unions use are known. -/
structure Closed (pre : Text → Bool) (c : Cfg) : Prop where
  fields : ∀ n t f fd, At c.types n t → At t.fields f fd → Known pre c fd.ty.name
  args : ∀ n t f fd a, At c.types n t → At t.fields f fd → a ∈ fd.args → Known pre c a.2.ty.name
  impls : ∀ n t i, At c.types n t → i ∈ t.implements → Known pre c i
  members : ∀ n u m, At c.unions n u → m ∈ u.types → Known pre c m

/-- No name is lost: what was known is known under its new name. -/
theorem C100_closed {pre : Text → Bool} {join : Text → Text → Text} {given : Nat → Nat → Bool} {fuel rounds : Nat} {c c' : Cfg}
    (hw : Wf pre c) (hf : FreshFrom 1 c) (hc : Closed pre c) (h : mergeTypes pre join given fuel rounds c = some c') :
    Closed pre c' := by
  obtain ⟨⟨σ, hm⟩, hw'⟩ := C100_merged hw hf h
  have hk : ∀ x, (∀ j, 1 ≤ j → x ≠ mergedName j) → Known pre c x → Known pre c' (σ x) := by
    intro x hx hk
    rcases at_or_lacks c.types x with ⟨t, ht⟩ | hl
    · obtain ⟨t', ht', _⟩ := hm.kept x t ht
      exact .inl (.inr (.inl ⟨t', ht'⟩))
    · rw [hm.others x hl hx]
      rcases hk with (⟨u, hu⟩ | ⟨t, ht⟩ | ⟨e, he⟩) | hp
      · obtain ⟨u', hu', _⟩ := hm.unions x u hu
        exact .inl (.inl ⟨u', hu'⟩)
      · exact (at_not_lacks ht hl).elim
      · exact .inl (.inr (.inr ⟨e, by rw [hm.enums]; exact he⟩))
      · exact .inr hp
  refine ⟨fun n' t' f fd' ht' hfd' => ?_, fun n' t' f fd' a ht' hfd' ha => ?_, fun n' t' i' ht' hi' => ?_, fun n u' m' hu' hm' => ?_⟩
  · obtain ⟨n, t, fd, _, ht, hfd, _, _, e⟩ := hm.froms n' t' f fd' ht' hfd'
    rcases e with e | e
    · rw [e, mapTy_name]
      exact hk _ (fun j hj => hf.fields j hj n t f fd ht hfd) (hc.fields n t f fd ht hfd)
    · rw [e]
      exact .inr hw'.json.1
  · obtain ⟨n, t, fd, _, ht, hfd, _, ea, _⟩ := hm.froms n' t' f fd' ht' hfd'
    rw [ea, mapField] at ha
    obtain ⟨b, hb, rfl⟩ := List.mem_map.1 ha
    simp only [mapTy_name]
    exact hk _ (fun j hj => hf.args j hj n t f fd b ht hfd hb) (hc.args n t f fd b ht hfd hb)
  · obtain ⟨n, t, i, _, ht, hi, rfl⟩ := (hm.impls n' t' ht' i').1 hi'
    exact hk i (fun j hj e => hf.impls j hj n t ht (e ▸ hi)) (hc.impls n t i ht hi)
  · obtain ⟨u, hu⟩ := hm.unions' n u' hu'
    obtain ⟨u2, hu2, _, hmem⟩ := hm.unions n u hu
    rw [at_unique hu' hu2, hmem] at hm'
    obtain ⟨x, hx, rfl⟩ := hm'
    exact hk x (fun j hj e => hf.members j hj n u hu (e ▸ hx)) (hc.members n u x hu hx)

/-! ### Again -/

theorem insertAll_some (name : Text) : ∀ (fs : List (Text × TypeD)) (l : List (Text × Text)), fs ≠ [] ∨ l ≠ [] →
    fs.foldl (fun l p => insert l p.1 name) l ≠ []
  | [], l, h => h.elim (fun h => absurd rfl h) id
  | p :: r, l, _ => by
    rw [List.foldl_cons]
    exact insertAll_some name r _ (.inr (by rw [Verif.Transform.insert]; simp))

theorem mergeGroups_some {join : Text → Text → Text} : ∀ {gs : List (List Text)} {k : Nat} {types : List (Text × TypeD)} {l : List (Text × Text)},
    (l ≠ [] ∨ ∃ g ∈ gs, found types g ≠ []) → (∀ g ∈ gs, ∀ x ∈ g, (get types x).isSome) → (mergeGroups join gs k types l).2.2 ≠ []
  | [], k, types, l, h, _ => by
    rcases h with h | ⟨g, hg, _⟩
    · exact h
    · cases hg
  | g :: gs, k, types, l, h, hs => by
    rw [mergeGroups]
    split
    · next he =>
      refine mergeGroups_some ?_ (fun g' hg' => hs g' (List.mem_cons_of_mem _ hg'))
      rcases h with h | ⟨g', hg', hf⟩
      · exact .inl h
      · rcases List.mem_cons.1 hg' with rfl | hg'
        · exact absurd (List.isEmpty_iff.1 he) hf
        · exact .inr ⟨g', hg', hf⟩
    · next he =>
      refine mergeGroups_some (.inl (insertAll_some _ _ _ (.inl (fun e => he (List.isEmpty_iff.2 e))))) (fun g' hg' x hx => ?_)
      rw [get_mInsert]
      split
      · rfl
      · exact hs g' (List.mem_cons_of_mem _ hg') x hx

/-- Whether there is something to merge does not depend on the number. -/
theorem round_none {pre : Text → Bool} {join : Text → Text → Text} {given : Nat → Nat → Bool} {fuel k j : Nat} {c : Cfg}
    (h : round pre join given fuel k c = some none) : round pre join given fuel j c = some none := by
  rw [round] at h ⊢
  cases hk : kindsOf pre c fuel with
  | none => rw [hk] at h; cases h
  | some ks =>
    rw [hk] at h
    simp only [] at h ⊢
    cases hg : groups pre c ks given fuel (allNames ks) (allNames ks) 0 ⟨[], []⟩ with
    | none => rw [hg] at h; cases h
    | some gs =>
      rw [hg] at h
      simp only [] at h ⊢
      obtain ⟨_, hgr⟩ := groups_spec (I := fun _ => True) (P := fun _ _ => True)
        (fun _ _ _ _ _ _ _ _ _ _ _ => ⟨trivial, fun _ => trivial⟩) hg trivial
      cases gs with
      | nil => rfl
      | cons g gs =>
        exfalso
        have : (mergeGroups join (g :: gs) k c.types []).2.2 ≠ [] := by
          refine mergeGroups_some (.inr ⟨g, List.mem_cons_self, ?_⟩) (fun g' hg' x hx => (hgr g' hg').1.types x hx)
          obtain ⟨a, r, e, _⟩ := (hgr g List.mem_cons_self).1.first
          have ha : a ∈ g := by rw [e]; exact List.mem_cons_self
          obtain ⟨t, ht⟩ := Option.isSome_iff_exists.1 ((hgr g List.mem_cons_self).1.types a ha)
          intro hn
          have := (found_mem (p := (a, t))).2 ⟨ha, ht⟩
          rw [hn] at this
          cases this
        split at h
        · next he => exact this (List.isEmpty_iff.1 he)
        · cases h

/-- What is merged has nothing more to merge. -/
theorem C100_idempotent {pre : Text → Bool} {join : Text → Text → Text} {given : Nat → Nat → Bool} {fuel rounds : Nat} {c c' : Cfg}
    (hw : Wf pre c) (hf : FreshFrom 1 c) (h : mergeTypes pre join given fuel rounds c = some c') :
    mergeTypes pre join given fuel rounds c' = some c' := by
  obtain ⟨_, _, k, hk⟩ := merger_merged (by decide) hw hf h
  cases rounds with
  | zero => rw [mergeTypes, merger] at h; cases h
  | succ n => rw [mergeTypes, merger, round_none hk]

/-! ### What is merged with what -/

/-- Two types are used in the same way: as inputs, as outputs, as members of unions or as interfaces. -/
def SameUse (pre : Text → Bool) (c : Cfg) (a b : Text) : Prop :=
  (InRef pre c a ∧ InRef pre c b) ∨ (OutRef pre c a ∧ OutRef pre c b) ∨
  ((∃ n u, (n, u) ∈ c.unions ∧ a ∈ u.types) ∧ ∃ n u, (n, u) ∈ c.unions ∧ b ∈ u.types) ∨
  ((∃ n t, (n, t) ∈ c.types ∧ a ∈ t.implements) ∧ ∃ n t, (n, t) ∈ c.types ∧ b ∈ t.implements)

theorem bothIn_iff {l : List Text} {a b : Text} : bothIn l a b = true ↔ a ∈ l ∧ b ∈ l := by
  rw [bothIn, Bool.and_eq_true, List.contains_iff_mem, List.contains_iff_mem]

theorem mem_toSet {l : List Text} {x : Text} : x ∈ toSet l ↔ x ∈ l := by rw [toSet, List.mem_eraseDups]

theorem mergeable_same {pre : Text → Bool} {c : Cfg} (hn : (c.types.map (·.1)).Nodup) (hap : Apart c) {fuel : Nat} {ks : Kinds}
    (hk : kindsOf pre c fuel = some ks) {a b : Text} (h : mergeable ks a b = true) : SameUse pre c a b := by
  rw [kindsOf] at hk
  cases hi : inputTypes pre c fuel with
  | none => rw [hi] at hk; cases hk
  | some i =>
    cases ho : outputTypes pre c fuel with
    | none => rw [hi, ho] at hk; cases hk
    | some o =>
      rw [hi, ho] at hk
      simp only [Option.some.injEq] at hk
      subst hk
      simp only [mergeable, Bool.or_eq_true, bothIn_iff, mem_toSet] at h
      rcases h with ((h | h) | h) | h
      · exact .inl ⟨((inputTypes_iff hn hap hi a).1 h.1).1, ((inputTypes_iff hn hap hi b).1 h.2).1⟩
      · refine .inr (.inr (.inl ⟨?_, ?_⟩))
        · obtain ⟨⟨n, u⟩, hu, hx⟩ := List.mem_flatMap.1 h.1; exact ⟨n, u, hu, hx⟩
        · obtain ⟨⟨n, u⟩, hu, hx⟩ := List.mem_flatMap.1 h.2; exact ⟨n, u, hu, hx⟩
      · exact .inr (.inl ⟨((outputTypes_iff hap ho a).1 h.1).1, ((outputTypes_iff hap ho b).1 h.2).1⟩)
      · refine .inr (.inr (.inr ⟨?_, ?_⟩))
        · obtain ⟨⟨n, u⟩, hu, hx⟩ := List.mem_flatMap.1 h.1; exact ⟨n, u, hu, hx⟩
        · obtain ⟨⟨n, u⟩, hu, hx⟩ := List.mem_flatMap.1 h.2; exact ⟨n, u, hu, hx⟩

/-- In every round, all types that are merged into one are used in the same way as one of them. -/
theorem C100_uses {pre : Text → Bool} {join : Text → Text → Text} {given : Nat → Nat → Bool} {fuel k k' : Nat} {c c' : Cfg}
    (hw : Wf pre c) (hf : FreshFrom k c) (hn : (c.types.map (·.1)).Nodup)
    (h : round pre join given fuel k c = some (some (k', c'))) :
    ∃ σ, Merged σ c c' ∧ ∀ n t, At c.types n t → σ n = n ∨ ∃ r, σ r = σ n ∧ ∀ x s, At c.types x s → σ x = σ n →
      x = r ∨ SameUse pre c r x := by
  obtain ⟨ks, gs, l, hk, r⟩ := round_spec (I := fun _ => True) (P := fun _ _ => True)
    (fun _ _ _ _ _ _ _ _ _ _ _ _ _ => ⟨trivial, fun _ => trivial⟩) trivial hw hf h
  refine ⟨newName l, r.merged hw hf, fun n t ht => ?_⟩
  by_cases hin : n ∈ gs.flatten
  · right
    obtain ⟨g, hg, hng, hx, _⟩ := r.get_made hf hin
    obtain ⟨a, rest, e, hr⟩ := (r.group g hg).first
    have ha : a ∈ g := by rw [e]; exact List.mem_cons_self
    have hto : ∀ z ∈ g, newName l z = newName l n := by
      intro z hz
      conv => lhs; rw [newName]
      rw [r.names, (hx z).1 hz]; rfl
    refine ⟨a, hto a ha, fun x s hs hxn => ?_⟩
    have hxg : x ∈ g := by
      rcases r.sigma x with ⟨_, h'⟩ | ⟨_, ha', _⟩
      · exfalso
        rcases r.sigma n with ⟨hn', _⟩ | ⟨_, _, j, hj, _, ej⟩
        · exact hn' hin
        · rw [← h', hxn, ej, ← get_some, get_none.2 (hf.types j hj)] at hs
          cases hs
      · rw [hx x, ← hxn]; exact ha'
    rw [e] at hxg
    rcases List.mem_cons.1 hxg with rfl | hxg
    · exact .inl rfl
    · exact .inr (mergeable_same hn hw.apart hk (hr x hxg).2)
  · exact .inl (r.sigma_fix hin)

/-! ## C101: the same can be asked for -/

/-- With the threshold one, if fields of one name have one type, exactly the same paths can be asked for from every type
that was there, and they lead to the same types, but for `JSON` in the place of other scalars. -/
theorem C101_paths_partial {pre : Text → Bool} {join : Text → Text → Text} {fuel rounds : Nat} {c c' : Cfg}
    (hw : Wf pre c) (hf : FreshFrom 1 c) (ho : OneType pre c) (h : mergeTypes pre join one fuel rounds c = some c') :
    ∃ σ, Merged σ c c' ∧ ∀ n t, At c.types n t → ∀ p,
      (∀ m, Leads c n p m → ∃ m', Leads c' (σ n) p m' ∧ (m' = σ m ∨ (Scal pre c m ∧ m' = "JSON".toList))) ∧
      (∀ m', Leads c' (σ n) p m' → ∃ m, Leads c n p m ∧ (m' = σ m ∨ (Scal pre c m ∧ m' = "JSON".toList))) := by
  obtain ⟨hw', σ, k', hm, he⟩ := merger_exact (by decide) hw hf ho h
  refine ⟨σ, hm, fun n t ht p => ⟨fun m hl => ?_, fun m' hl => ?_⟩⟩
  · obtain ⟨m', h1, h2⟩ := he.leads hl
    exact ⟨m', h1, h2.imp id (fun h => ⟨isScalar_iff.1 h.1, h.2⟩)⟩
  · obtain ⟨m, h1, h2⟩ := he.leads_back hf hw' (fun j hj e => by
      rw [e] at ht
      exact at_not_lacks ht (hf.types j hj)) hl
    exact ⟨m, h1, h2.imp id (fun h => ⟨isScalar_iff.1 h.1, h.2⟩)⟩

/-- And a field is a list exactly if it was, but for `JSON`. -/
theorem C101_lists_partial {pre : Text → Bool} {join : Text → Text → Text} {fuel rounds : Nat} {c c' : Cfg}
    (hw : Wf pre c) (hf : FreshFrom 1 c) (ho : OneType pre c) (h : mergeTypes pre join one fuel rounds c = some c') :
    ∃ σ, Merged σ c c' ∧ ∀ n t f fd, At c.types n t → At t.fields f fd → ∃ t' fd', At c'.types (σ n) t' ∧ At t'.fields f fd' ∧
      ((fd'.ty.name = σ fd.ty.name ∧ ((∃ e nn, fd'.ty = .list e nn) ↔ ∃ e nn, fd.ty = .list e nn)) ∨
        (fd'.ty.name = "JSON".toList ∧ Scal pre c fd.ty.name)) := by
  obtain ⟨hw', σ, k', hm, he⟩ := merger_exact (by decide) hw hf ho h
  have hl : ∀ t : Ty, isList t = true ↔ ∃ e nn, t = .list e nn := by
    intro t
    cases t with
    | named a nn => exact ⟨fun h => (by cases h), fun ⟨_, _, h⟩ => (by cases h)⟩
    | list e nn => exact ⟨fun _ => ⟨e, nn, rfl⟩, fun _ => rfl⟩
  refine ⟨σ, hm, fun n t f fd ht hfd => ?_⟩
  obtain ⟨t', fd', h1, h2, h3⟩ := he.fwd n t f fd ht hfd
  refine ⟨t', fd', h1, h2, h3.imp (fun ⟨a, b⟩ => ⟨a, ?_⟩) (fun ⟨a, b⟩ => ⟨a, isScalar_iff.1 b⟩)⟩
  rw [← hl, ← hl, b]

end Verif.Refine
