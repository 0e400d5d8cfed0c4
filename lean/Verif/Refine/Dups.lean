import Verif.Refine.Props

/-!
# No type is left twice, and inputs are merged only when they are alike
-/

namespace Verif.Refine

open Verif.Mustache (Text)
open Verif.Exec (Ty)
open Verif.Transform

set_option linter.unusedSimpArgs false

/-! ## Types compared strictly -/

/-- Two types are both inputs, both members of unions, or both interfaces. -/
def StrictUse (pre : Text → Bool) (c : Cfg) (a b : Text) : Prop :=
  (InRef pre c a ∧ InRef pre c b) ∨
  ((∃ n u, (n, u) ∈ c.unions ∧ a ∈ u.types) ∧ ∃ n u, (n, u) ∈ c.unions ∧ b ∈ u.types) ∨
  ((∃ n t, (n, t) ∈ c.types ∧ a ∈ t.implements) ∧ ∃ n t, (n, t) ∈ c.types ∧ b ∈ t.implements)

theorem kindsOf_eq {pre : Text → Bool} {c : Cfg} {fuel : Nat} {ks : Kinds} (hk : kindsOf pre c fuel = some ks) :
    ∃ i o, inputTypes pre c fuel = some i ∧ outputTypes pre c fuel = some o ∧ ks.ins = toSet i ∧
      ks.mems = toSet (c.unions.flatMap (fun u => u.2.types)) ∧ ks.outs = toSet o ∧
      ks.ifaces = toSet (c.types.flatMap (fun t => t.2.implements)) := by
  rw [kindsOf] at hk
  cases hi : inputTypes pre c fuel with
  | none => rw [hi] at hk; cases hk
  | some i =>
    cases ho : outputTypes pre c fuel with
    | none => rw [hi, ho] at hk; cases hk
    | some o =>
      rw [hi, ho] at hk
      simp only [Option.some.injEq] at hk
      subst hk
      exact ⟨i, o, rfl, rfl, rfl, rfl, rfl, rfl⟩

theorem mem_pairs {c : Cfg} {x : Text} : x ∈ c.unions.flatMap (fun u => u.2.types) ↔ ∃ n u, (n, u) ∈ c.unions ∧ x ∈ u.types := by
  rw [List.mem_flatMap]
  exact ⟨fun ⟨⟨n, u⟩, h⟩ => ⟨n, u, h⟩, fun ⟨n, u, h⟩ => ⟨(n, u), h⟩⟩

theorem mem_ifaces {c : Cfg} {x : Text} : x ∈ c.types.flatMap (fun t => t.2.implements) ↔ ∃ n t, (n, t) ∈ c.types ∧ x ∈ t.implements := by
  rw [List.mem_flatMap]
  exact ⟨fun ⟨⟨n, u⟩, h⟩ => ⟨n, u, h⟩, fun ⟨n, u, h⟩ => ⟨(n, u), h⟩⟩

theorem strict_one {pre : Text → Bool} {c : Cfg} (hn : (c.types.map (·.1)).Nodup) (hap : Apart c) {fuel : Nat} {ks : Kinds}
    (hk : kindsOf pre c fuel = some ks) {given : Nat → Nat → Bool} {a b : Text} {s t : TypeD} (ha : At c.types a s)
    (hb : At c.types b t) (h : StrictUse pre c a b) : threshold ks given a b = one := by
  obtain ⟨i, o, hi, ho, e1, e2, e3, e4⟩ := kindsOf_eq hk
  rw [threshold, if_pos]
  simp only [Bool.or_eq_true, bothIn_iff, e1, e2, e4, mem_toSet]
  rcases h with ⟨h1, h2⟩ | ⟨h1, h2⟩ | ⟨h1, h2⟩
  · exact .inl (.inl ⟨(inputTypes_iff hn hap hi a).2 ⟨h1, .inr (.inl ⟨s, ha⟩)⟩, (inputTypes_iff hn hap hi b).2 ⟨h2, .inr (.inl ⟨t, hb⟩)⟩⟩)
  · exact .inl (.inr ⟨mem_pairs.2 h1, mem_pairs.2 h2⟩)
  · exact .inr ⟨mem_ifaces.2 h1, mem_ifaces.2 h2⟩

theorem bothIn_comm (l : List Text) (a b : Text) : bothIn l a b = bothIn l b a := Bool.and_comm _ _

theorem threshold_comm (ks : Kinds) (given : Nat → Nat → Bool) (a b : Text) : threshold ks given a b = threshold ks given b a := by
  simp only [threshold, bothIn_comm _ a b]

theorem mergeable_comm (ks : Kinds) (a b : Text) : mergeable ks a b = mergeable ks b a := by
  simp only [mergeable, bothIn_comm _ a b]

/-- Whatever the threshold, in every round types that are inputs, members of unions or interfaces are merged with
another such only if they are alike, if fields of one name have one type. -/
theorem C101_strict_partial {pre : Text → Bool} {join : Text → Text → Text} {given : Nat → Nat → Bool} {fuel k k' : Nat} {c c' : Cfg}
    (hw : Wf pre c) (hf : FreshFrom k c) (hn : (c.types.map (·.1)).Nodup) (ho : OneType pre c)
    (h : round pre join given fuel k c = some (some (k', c'))) :
    ∃ σ, Merged σ c c' ∧ ∀ n t, At c.types n t → σ n = n ∨ ∃ r, σ r = σ n ∧ ∀ x s, At c.types x s → σ x = σ n →
      x = r ∨ (StrictUse pre c r x → ∃ tr, At c.types r tr ∧ Alike pre c tr s) := by
  obtain ⟨ks, gs, l, hk, r⟩ := round_spec
    (I := StoreFor pre c (fun a b => ∀ ks, kindsOf pre c fuel = some ks → threshold ks given a b = one))
    (P := fun a b => (∀ ks, kindsOf pre c fuel = some ks → threshold ks given a b = one) → AlikeN pre c a b)
    (fun ks hks => simOk_strict hw ho ks fuel (fun a b hab ks hks => by rw [threshold_comm]; exact hab ks hks)
      (fun a b hab => hab ks hks)) (fun _ _ h => by cases h) hw hf h
  refine ⟨newName l, r.merged hw hf, fun n t ht => ?_⟩
  by_cases hin : n ∈ gs.flatten
  · right
    obtain ⟨g, hg, hng, hx, _⟩ := r.get_made hf hin
    obtain ⟨a, rest, e, hr⟩ := (r.group g hg).first
    have ha : a ∈ g := by rw [e]; exact List.mem_cons_self
    have hto : ∀ z ∈ g, newName l z = newName l n := by
      intro z hz
      conv => lhs; rw [newName]
      rw [r.names, (hx z).1 hz]; rfl
    refine ⟨a, hto a ha, fun x s hs hxn => ?_⟩
    have hxg : x ∈ g := by
      rcases r.sigma x with ⟨_, h'⟩ | ⟨_, ha', _⟩
      · exfalso
        rcases r.sigma n with ⟨hn', _⟩ | ⟨_, _, j, hj, _, ej⟩
        · exact hn' hin
        · rw [← h', hxn, ej, ← get_some, get_none.2 (hf.types j hj)] at hs
          cases hs
      · rw [hx x, ← hxn]; exact ha'
    rw [e] at hxg
    rcases List.mem_cons.1 hxg with rfl | hxg
    · exact .inl rfl
    · right
      intro hst
      obtain ⟨ta, hta⟩ := Option.isSome_iff_exists.1 ((r.group g hg).types a ha)
      obtain ⟨s1, s2, h1, h2, h3⟩ := (hr x hxg).1 (fun ks hks => strict_one hn hw.apart hks (get_some.1 hta) hs hst)
      rw [at_unique hs h2]
      exact ⟨s1, h1, h3⟩
  · exact .inl (r.sigma_fix hin)

/-! ## Types with the same fields -/

/-- Two types have the same fields: names, types and whether they are lists. -/
def SameFields (s t : TypeD) : Prop :=
  s.fields.map (fun p => (p.1, p.2.ty.name, isList p.2.ty)) = t.fields.map (fun p => (p.1, p.2.ty.name, isList p.2.ty))

theorem SameFields.length {s t : TypeD} (h : SameFields s t) : s.fields.length = t.fields.length := by
  have := congrArg List.length h
  simpa using this

theorem same_get : ∀ {a b : List (Text × FieldD)}, a.map (fun p => (p.1, p.2.ty.name, isList p.2.ty)) =
    b.map (fun p => (p.1, p.2.ty.name, isList p.2.ty)) → ∀ f, (get a f).map (fun d => (d.ty.name, isList d.ty)) =
      (get b f).map (fun d => (d.ty.name, isList d.ty))
  | [], [], _, _ => rfl
  | [], _ :: _, h, _ => by cases h
  | _ :: _, [], h, _ => by cases h
  | (n, x) :: a, (m, y) :: b, h, f => by
    simp only [List.map_cons, List.cons.injEq, Prod.mk.injEq] at h
    obtain ⟨⟨rfl, h1, h2⟩, h3⟩ := h
    rw [Verif.Transform.get, Verif.Transform.get]
    by_cases e : n = f
    · rw [if_pos e, if_pos e]
      simp only [Option.map_some, h1, h2]
    · rw [if_neg e, if_neg e]
      exact same_get h3 f

theorem simFields_same {pre : Text → Bool} {c : Cfg} {rec : Text × TypeD → Text × TypeD → SState → Option (Option Bool × SState)}
    {f2s : List (Text × FieldD)} : ∀ {r : List (Text × FieldD)} {k : Nat} {s : SState},
    (∀ n a, (n, a) ∈ r → ∃ b, get f2s n = some b ∧ a.ty.name = b.ty.name ∧ isList a.ty = isList b.ty) →
    simFields pre c rec f2s r k s = some (.done (k + r.length), s)
  | [], k, s, _ => rfl
  | (n, f1) :: r, k, s, h => by
    obtain ⟨b, hb, e1, e2⟩ := h n f1 List.mem_cons_self
    have ih : simFields pre c rec f2s r (k + 1) s = some (.done (k + 1 + r.length), s) :=
      simFields_same (fun n a hna => h n a (List.mem_cons_of_mem _ hna))
    rw [simFields, hb]
    simp only [e1, e2, if_true, true_or, ite_self, ih]
    rw [List.length_cons, Nat.add_assoc, Nat.add_comm 1]

/-- Types with the same fields are not stored as different. -/
def SameStored (c : Cfg) (l : List ((Text × Text) × Bool)) : Prop :=
  ∀ a b v, ((a, b), v) ∈ l → ∀ s t, get c.types a = some s → get c.types b = some t → SameFields s t → s.fields ≠ [] → v = true

/-- Two numbers that are the same pass. -/
def Full (ge : Nat → Nat → Bool) : Prop := ∀ k, 0 < k → ge k k = true

theorem simFields_kept {pre : Text → Bool} {c : Cfg} {rec : Text × TypeD → Text × TypeD → SState → Option (Option Bool × SState)}
    {f2s : List (Text × FieldD)}
    (hrec : ∀ a s b t st r st', get c.types a = some s → get c.types b = some t → SameStored c st.cache →
      rec (a, s) (b, t) st = some (r, st') → SameStored c st'.cache) :
    ∀ {r : List (Text × FieldD)} {k : Nat} {s : SState} {res : FRes} {s' : SState},
    simFields pre c rec f2s r k s = some (res, s') → SameStored c s.cache → SameStored c s'.cache
  | [], k, s, res, s', h, hI => by
    rw [simFields] at h
    cases h
    exact hI
  | (n, f1) :: r, k, s, res, s', h, hI => by
    rw [simFields] at h
    cases h2 : get f2s n with
    | none => rw [h2] at h; exact simFields_kept hrec h hI
    | some f2 =>
      rw [h2] at h
      simp only [] at h
      split at h
      · split at h
        · split at h
          · exact simFields_kept hrec h hI
          · cases h; exact hI
        · cases h; exact hI
      · split at h
        · split at h
          · exact simFields_kept hrec h hI
          · cases h; exact hI
        · cases ha : get c.types f1.ty.name with
          | none => rw [ha] at h; exact simFields_kept hrec h hI
          | some t1 =>
            rw [ha] at h
            simp only [] at h
            cases hb : get c.types f2.ty.name with
            | none => rw [hb] at h; exact simFields_kept hrec h hI
            | some t2 =>
              rw [hb] at h
              simp only [] at h
              split at h
              · cases h; exact hI
              · cases hr : rec (f1.ty.name, t1) (f2.ty.name, t2) { s with visited := (f1.ty.name, f2.ty.name) :: s.visited } with
                | none => rw [hr] at h; cases h
                | some q =>
                  obtain ⟨v, s1⟩ := q
                  rw [hr] at h
                  have hI1 := hrec _ _ _ _ _ _ _ ha hb (by exact hI) hr
                  cases v with
                  | none => cases h; exact hI1
                  | some v => exact simFields_kept hrec h hI1

theorem cacheGet_same {c : Cfg} {l : List ((Text × Text) × Bool)} {a b : Text} {s t : TypeD} {v : Bool} (hI : SameStored c l)
    (ha : get c.types a = some s) (hb : get c.types b = some t) (hs : SameFields s t) (hne : s.fields ≠ [])
    (h : cacheGet l a b = some v) : v = true := by
  rw [cacheGet] at h
  cases h1 : l.find? (fun e => e.1 = (a, b)) with
  | some e =>
    rw [h1] at h
    simp only [Option.some.injEq] at h
    have hm := List.mem_of_find?_eq_some h1
    have he := List.find?_some h1
    simp only [decide_eq_true_eq] at he
    obtain ⟨k, w⟩ := e
    simp only at he h
    subst he h
    exact hI a b w hm s t ha hb hs hne
  | none =>
    rw [h1] at h
    simp only [] at h
    obtain ⟨e, h2, hv⟩ := Option.map_eq_some_iff.1 h
    have hm := List.mem_of_find?_eq_some h2
    have he := List.find?_some h2
    simp only [decide_eq_true_eq] at he
    obtain ⟨k, w⟩ := e
    simp only at he hv
    subst he hv
    refine hI b a w hm t s hb ha hs.symm (fun e => hne ?_)
    have := hs.length
    rw [e] at this
    exact List.length_eq_zero_iff.1 this

theorem sim_same {pre : Text → Bool} {c : Cfg} (hw : Wf pre c) {ge : Nat → Nat → Bool} (hge : Full ge) :
    ∀ {fuel : Nat} {a b : Text} {s t : TypeD} {st st' : SState} {r : Option Bool}, get c.types a = some s → get c.types b = some t →
    SameStored c st.cache → sim pre c ge fuel (a, s) (b, t) st = some (r, st') →
    SameStored c st'.cache ∧ (SameFields s t → s.fields ≠ [] → r = some true)
  | 0, _, _, _, _, _, _, _, _, _, _, h => by rw [sim] at h; cases h
  | fuel + 1, a, b, s, t, st, st', r, ha, hb, hI, h => by
    rw [sim] at h
    cases hc : cacheGet st.cache a b with
    | some v =>
      rw [hc] at h
      simp only [Option.some.injEq, Prod.mk.injEq] at h
      obtain ⟨rfl, rfl⟩ := h
      exact ⟨hI, fun h1 h2 => by rw [cacheGet_same hI ha hb h1 h2 hc]⟩
    | none =>
      rw [hc] at h
      simp only [] at h
      have hsame : SameFields s t → simFields pre c (sim pre c ge fuel) t.fields s.fields 0 st = some (.done s.fields.length, st) := by
        intro hs
        have := simFields_same (pre := pre) (c := c) (rec := sim pre c ge fuel) (f2s := t.fields) (r := s.fields) (k := 0) (s := st) (by
          intro n x hx
          have hg := get_some.2 (at_of_mem_sorted (hw.fields a s (get_some.1 ha)) hx)
          have h1 := same_get hs n
          rw [hg] at h1
          cases h2 : get t.fields n with
          | none => rw [h2] at h1; cases h1
          | some y =>
            rw [h2] at h1
            simp only [Option.map_some, Option.some.injEq, Prod.mk.injEq] at h1
            exact ⟨y, rfl, h1.1, h1.2⟩)
        rw [Nat.zero_add] at this
        exact this
      cases hf : simFields pre c (sim pre c ge fuel) t.fields s.fields 0 st with
      | none => rw [hf] at h; cases h
      | some q =>
        obtain ⟨fr, s1⟩ := q
        rw [hf] at h
        have hI1 := simFields_kept (fun a s b t st r st' ha hb hI h => (sim_same hw hge ha hb hI h).1) hf hI
        cases fr with
        | ret v =>
          simp only [Option.some.injEq, Prod.mk.injEq] at h
          obtain ⟨rfl, rfl⟩ := h
          refine ⟨hI1, fun hs hne => ?_⟩
          have := hsame hs
          rw [hf] at this
          cases this
        | done k =>
          simp only [Option.some.injEq, Prod.mk.injEq] at h
          obtain ⟨rfl, rfl⟩ := h
          have key : SameFields s t → s.fields ≠ [] → ge k (s.fields.length + t.fields.length - k) = true := by
            intro hs hne
            have := hsame hs
            rw [hf] at this
            simp only [Option.some.injEq, Prod.mk.injEq, FRes.done.injEq] at this
            rw [this.1, ← hs.length, Nat.add_sub_cancel]
            exact hge _ (List.length_pos_iff.2 hne)
          refine ⟨?_, fun hs hne => by rw [key hs hne]⟩
          intro a' b' v hm
          rcases List.mem_cons.1 hm with e | hm
          · simp only [Prod.mk.injEq] at e
            obtain ⟨⟨rfl, rfl⟩, rfl⟩ := e
            intro s' t' hs' ht' h1 h2
            rw [ha] at hs'
            rw [hb] at ht'
            cases hs'
            cases ht'
            exact key h1 h2
          · exact hI1 a' b' v hm

theorem full_one : Full one := fun k hk => by rw [one, decide_eq_true_eq]; exact ⟨hk, Nat.le_refl k⟩

theorem full_threshold {given : Nat → Nat → Bool} (h : Full given) (ks : Kinds) (a b : Text) : Full (threshold ks given a b) := by
  rw [threshold]
  split
  · exact full_one
  · exact h

theorem compareAll_keeps {pre : Text → Bool} {c : Cfg} {k : Kinds} {given : Nat → Nat → Bool} {fuel : Nat} {n1 : Text} {t1 : TypeD} :
    ∀ {r set set' : List Text} {s s' : GState}, compareAll pre c k given fuel n1 t1 r set s = some (set', s') →
    set.length ≤ set'.length
  | [], set, set', s, s', h => by
    rw [compareAll] at h
    cases h
    exact Nat.le_refl _
  | n2 :: r, set, set', s, s', h => by
    rw [compareAll] at h
    split at h
    · exact compareAll_keeps h
    · cases h2 : get c.types n2 with
      | none => rw [h2] at h; exact compareAll_keeps h
      | some t2 =>
        rw [h2] at h
        simp only [] at h
        cases hs : sim pre c (threshold k given n1 n2) fuel (n1, t1) (n2, t2) ⟨s.cache, []⟩ with
        | none => rw [hs] at h; cases h
        | some q =>
          rw [hs] at h
          simp only [] at h
          split at h
          · refine Nat.le_trans ?_ (compareAll_keeps h)
            rcases addSet_cases set n2 with ⟨_, e⟩ | ⟨_, e⟩
            · rw [e]; exact Nat.le_refl _
            · rw [e, List.length_append]; exact Nat.le_add_right _ _
          · exact compareAll_keeps h

theorem compareAll_none {pre : Text → Bool} {c : Cfg} (hw : Wf pre c) {k : Kinds} {given : Nat → Nat → Bool} (hge : Full given)
    {fuel : Nat} {n1 : Text} {t1 : TypeD} (ht1 : get c.types n1 = some t1) :
    ∀ {r set' : List Text} {s s' : GState}, compareAll pre c k given fuel n1 t1 r [n1] s = some (set', s') → ¬ set'.length > 1 →
    SameStored c s.cache →
    SameStored c s'.cache ∧ (∀ x ∈ s'.visited, x = n1 ∨ x ∈ s.visited) ∧
      ∀ x ∈ r, x ∉ s.visited → x ≠ n1 → mergeable k n1 x = true → ∀ t2, get c.types x = some t2 → SameFields t1 t2 → t1.fields = []
  | [], set', s, s', h, hl, hI => by
    rw [compareAll] at h
    cases h
    exact ⟨hI, fun _ h => .inr h, fun x hx => by cases hx⟩
  | n2 :: r, set', s, s', h, hl, hI => by
    rw [compareAll] at h
    by_cases hc : (s.visited.contains n2 || !mergeable k n1 n2) = true
    · rw [if_pos hc] at h
      obtain ⟨a, b, d⟩ := compareAll_none hw hge ht1 h hl hI
      refine ⟨a, b, fun x hx hv hx1 hm => ?_⟩
      rcases List.mem_cons.1 hx with rfl | hx
      · rw [hm, Bool.not_true, Bool.or_false, List.contains_iff_mem] at hc
        exact absurd hc hv
      · exact d x hx hv hx1 hm
    · rw [if_neg hc] at h
      cases h2 : get c.types n2 with
      | none =>
        rw [h2] at h
        obtain ⟨a, b, d⟩ := compareAll_none hw hge ht1 h hl hI
        refine ⟨a, b, fun x hx hv hx1 hm t2 ht2 => ?_⟩
        rcases List.mem_cons.1 hx with rfl | hx
        · rw [h2] at ht2; cases ht2
        · exact d x hx hv hx1 hm t2 ht2
      | some t2 =>
        rw [h2] at h
        simp only [] at h
        cases hs : sim pre c (threshold k given n1 n2) fuel (n1, t1) (n2, t2) ⟨s.cache, []⟩ with
        | none => rw [hs] at h; cases h
        | some q =>
          obtain ⟨res, st⟩ := q
          rw [hs] at h
          simp only [] at h
          obtain ⟨hI1, hsm⟩ := sim_same hw (full_threshold hge k n1 n2) ht1 h2 (by exact hI) hs
          by_cases hr : res = some true
          · rw [if_pos hr] at h
            have hn : n2 = n1 := by
              refine Classical.byContradiction (fun hn => hl ?_)
              have := compareAll_keeps h
              rw [addSet, if_neg (by simpa using hn)] at this
              simp only [List.cons_append, List.nil_append, List.length_cons, List.length_nil] at this
              omega
            subst hn
            rw [addSet, if_pos (by simp)] at h
            obtain ⟨a, b, d⟩ := compareAll_none hw hge ht1 h hl hI1
            refine ⟨a, fun x hx => ?_, fun x hx hv hx1 hm => ?_⟩
            · rcases b x hx with e | hx
              · exact .inl e
              · rcases List.mem_cons.1 hx with e | hx
                · exact .inl e
                · exact (List.mem_cons.1 hx).imp id id
            · rcases List.mem_cons.1 hx with rfl | hx
              · exact absurd rfl hx1
              · exact d x hx (fun hv' => (List.mem_cons.1 hv').elim hx1 (fun hv' => (List.mem_cons.1 hv').elim hx1 hv)) hx1 hm
          · rw [if_neg hr] at h
            obtain ⟨a, b, d⟩ := compareAll_none hw hge ht1 h hl hI1
            refine ⟨a, fun x hx => ?_, fun x hx hv hx1 hm t2' ht2' hsf => ?_⟩
            · rcases b x hx with e | hx
              · exact .inl e
              · exact (List.mem_cons.1 hx).imp id id
            · rcases List.mem_cons.1 hx with rfl | hx
              · rw [h2] at ht2'
                cases ht2'
                refine Classical.byContradiction (fun hno => hr (hsm hsf hno))
              · exact d x hx (fun hv' => (List.mem_cons.1 hv').elim hx1 hv) hx1 hm t2' ht2' hsf

theorem groups_none {pre : Text → Bool} {c : Cfg} (hw : Wf pre c) {k : Kinds} {given : Nat → Nat → Bool} (hge : Full given)
    {fuel : Nat} {all : List Text} : ∀ {r : List Text} {i : Nat} {s : GState},
    groups pre c k given fuel all r i s = some [] → (∃ p, all = p ++ r ∧ i ≤ p.length) → SameStored c s.cache →
    ∀ a b s1 t1, a ∈ r → b ∈ r → a ∉ s.visited → b ∉ s.visited → a ≠ b → mergeable k a b = true →
      get c.types a = some s1 → get c.types b = some t1 → SameFields s1 t1 → s1.fields = []
  | [], i, s, h, hp, hI, a, b, s1, t1, ha, _, _, _, _, _, _, _, _ => by cases ha
  | n1 :: r, i, s, h, ⟨p, hp, hi⟩, hI, a, b, s1, t1, ha, hb, hva, hvb, hab, hm, hsa, hsb, hsf => by
    rw [groups] at h
    have hnext : ∀ j, j ≤ i + 1 → ∃ p', all = p' ++ r ∧ j ≤ p'.length :=
      fun j hj => ⟨p ++ [n1], by rw [hp, List.append_assoc]; rfl, by rw [List.length_append, List.length_singleton]; omega⟩
    cases h1 : get c.types n1 with
    | none =>
      rw [h1] at h
      have hne : ∀ x s, get c.types x = some s → x ∈ n1 :: r → x ∈ r := by
        intro x s hx hm
        rcases List.mem_cons.1 hm with rfl | hm
        · rw [h1] at hx; cases hx
        · exact hm
      exact groups_none hw hge h (hnext _ (Nat.le_refl _)) hI a b s1 t1 (hne a s1 hsa ha) (hne b t1 hsb hb) hva hvb hab hm hsa hsb hsf
    | some tn =>
      rw [h1] at h
      simp only [] at h
      by_cases hv : s.visited.contains n1 = true
      · rw [if_pos hv] at h
        have hv' := List.contains_iff_mem.1 hv
        have hne : ∀ x, x ∉ s.visited → x ∈ n1 :: r → x ∈ r := by
          intro x hx hm
          rcases List.mem_cons.1 hm with rfl | hm
          · exact absurd hv' hx
          · exact hm
        exact groups_none hw hge h (hnext _ (Nat.le_succ _)) hI a b s1 t1 (hne a hva ha) (hne b hvb hb) hva hvb hab hm hsa hsb hsf
      · rw [if_neg hv] at h
        cases hc : compareAll pre c k given fuel n1 tn (all.drop (i + 1)) [n1] s with
        | none => rw [hc] at h; cases h
        | some q =>
          obtain ⟨set, s'⟩ := q
          rw [hc] at h
          simp only [] at h
          cases hg : groups pre c k given fuel all r (i + 1) s' with
          | none => rw [hg] at h; cases h
          | some gs =>
            rw [hg] at h
            simp only [Option.some.injEq] at h
            by_cases hl : set.length > 1
            · rw [if_pos hl] at h; cases h
            · rw [if_neg hl] at h
              subst h
              obtain ⟨c1, c2, c3⟩ := compareAll_none hw hge h1 hc hl hI
              have hdrop : ∀ x ∈ r, x ∈ all.drop (i + 1) := by
                intro x hx
                rw [hp, show p ++ n1 :: r = (p ++ [n1]) ++ r by rw [List.append_assoc]; rfl, List.drop_append]
                refine List.mem_append_right _ ?_
                have : i + 1 - (p ++ [n1]).length = 0 := by
                  rw [List.length_append, List.length_singleton]; omega
                rw [this]
                exact hx
              rcases List.mem_cons.1 ha with rfl | har
              · have hbr : b ∈ r := (List.mem_cons.1 hb).resolve_left (fun e => hab e.symm)
                rw [h1] at hsa
                cases hsa
                exact c3 b (hdrop b hbr) hvb (Ne.symm hab) hm t1 hsb hsf
              · rcases List.mem_cons.1 hb with rfl | hbr
                · rw [h1] at hsb
                  cases hsb
                  have := c3 a (hdrop a har) hva hab (by rw [mergeable_comm]; exact hm) s1 hsa hsf.symm
                  have hlen := hsf.length
                  rw [this] at hlen
                  exact List.length_eq_zero_iff.1 hlen
                · by_cases e1 : n1 = a
                  · have hsa' := hsa
                    rw [← e1, h1] at hsa'
                    cases hsa'
                    exact c3 b (hdrop b hbr) hvb (fun e => hab (e1 ▸ e.symm)) (by rw [e1]; exact hm) t1 hsb hsf
                  · by_cases e2 : n1 = b
                    · have hsb' := hsb
                      rw [← e2, h1] at hsb'
                      cases hsb'
                      have := c3 a (hdrop a har) hva (Ne.symm e1) (by rw [mergeable_comm, e2]; exact hm) s1 hsa hsf.symm
                      have hlen := hsf.length
                      rw [this] at hlen
                      exact List.length_eq_zero_iff.1 hlen
                    · exact groups_none hw hge hg (hnext _ (Nat.le_refl _)) c1 a b s1 t1 har hbr
                        (fun h => (c2 a h).elim (fun e => e1 e.symm) hva) (fun h => (c2 b h).elim (fun e => e2 e.symm) hvb) hab hm hsa hsb hsf

theorem mem_insertName {x y : Text} : ∀ {l : List Text}, x ∈ insertName y l ↔ x = y ∨ x ∈ l
  | [] => by simp [insertName]
  | z :: r => by
    rw [insertName]
    split
    · rw [List.mem_cons, mem_insertName, List.mem_cons]
      constructor
      · rintro (h | h | h)
        · exact .inr (.inl h)
        · exact .inl h
        · exact .inr (.inr h)
      · rintro (h | h | h)
        · exact .inr (.inl h)
        · exact .inl h
        · exact .inr (.inr h)
    · rw [List.mem_cons]

theorem mem_sortNames {x : Text} : ∀ {l : List Text}, x ∈ sortNames l ↔ x ∈ l
  | [] => Iff.rfl
  | y :: r => by
    rw [sortNames, List.foldr_cons, mem_insertName, List.mem_cons]
    exact or_congr Iff.rfl mem_sortNames

theorem round_complete {pre : Text → Bool} {join : Text → Text → Text} {given : Nat → Nat → Bool} {fuel k : Nat} {c : Cfg}
    (hw : Wf pre c) (hn : (c.types.map (·.1)).Nodup) (hge : Full given) (h : round pre join given fuel k c = some none)
    {a b : Text} {s t : TypeD} (ha : At c.types a s) (hb : At c.types b t) (hab : a ≠ b) (hu : SameUse pre c a b)
    (hs : SameFields s t) : s.fields = [] := by
  rw [round] at h
  cases hk : kindsOf pre c fuel with
  | none => rw [hk] at h; cases h
  | some ks =>
    rw [hk] at h
    simp only [] at h
    cases hg : groups pre c ks given fuel (allNames ks) (allNames ks) 0 ⟨[], []⟩ with
    | none => rw [hg] at h; cases h
    | some gs =>
      rw [hg] at h
      simp only [] at h
      obtain ⟨_, hgr⟩ := groups_spec (I := fun _ => True) (P := fun _ _ => True)
        (fun _ _ _ _ _ _ _ _ _ _ _ => ⟨trivial, fun _ => trivial⟩) hg trivial
      cases gs with
      | cons g gs =>
        exfalso
        have : (mergeGroups join (g :: gs) k c.types []).2.2 ≠ [] := by
          refine mergeGroups_some (.inr ⟨g, List.mem_cons_self, ?_⟩) (fun g' hg' x hx => (hgr g' hg').1.types x hx)
          obtain ⟨a, r, e, _⟩ := (hgr g List.mem_cons_self).1.first
          have ha : a ∈ g := by rw [e]; exact List.mem_cons_self
          obtain ⟨t, ht⟩ := Option.isSome_iff_exists.1 ((hgr g List.mem_cons_self).1.types a ha)
          intro hn
          have := (found_mem (p := (a, t))).2 ⟨ha, ht⟩
          rw [hn] at this
          cases this
        split at h
        · next he => exact this (List.isEmpty_iff.1 he)
        · cases h
      | nil =>
        obtain ⟨i, o, hi, ho, e1, e2, e3, e4⟩ := kindsOf_eq hk
        have hin : ∀ {x s}, At c.types x s → InRef pre c x → x ∈ ks.ins := fun hx h => by
          rw [e1, mem_toSet]; exact (inputTypes_iff hn hw.apart hi _).2 ⟨h, .inr (.inl ⟨_, hx⟩)⟩
        have hout : ∀ {x s}, At c.types x s → OutRef pre c x → x ∈ ks.outs := fun hx h => by
          rw [e3, mem_toSet]; exact (outputTypes_iff hw.apart ho _).2 ⟨h, .inr (.inl ⟨_, hx⟩)⟩
        have hmem : ∀ {x}, (∃ n u, (n, u) ∈ c.unions ∧ x ∈ u.types) → x ∈ ks.mems := fun h => by
          rw [e2, mem_toSet]; exact mem_pairs.2 h
        have hifc : ∀ {x}, (∃ n t, (n, t) ∈ c.types ∧ x ∈ t.implements) → x ∈ ks.ifaces := fun h => by
          rw [e4, mem_toSet]; exact mem_ifaces.2 h
        have hall : mergeable ks a b = true ∧ a ∈ allNames ks ∧ b ∈ allNames ks := by
          simp only [mergeable, Bool.or_eq_true, bothIn_iff, allNames, mem_sortNames, List.mem_append]
          rcases hu with ⟨h1, h2⟩ | ⟨h1, h2⟩ | ⟨h1, h2⟩ | ⟨h1, h2⟩
          · exact ⟨.inl (.inl (.inl ⟨hin ha h1, hin hb h2⟩)), .inl (.inl (.inl (hin ha h1))), .inl (.inl (.inl (hin hb h2)))⟩
          · exact ⟨.inl (.inr ⟨hout ha h1, hout hb h2⟩), .inl (.inr (hout ha h1)), .inl (.inr (hout hb h2))⟩
          · exact ⟨.inl (.inl (.inr ⟨hmem h1, hmem h2⟩)), .inl (.inl (.inr (hmem h1))), .inl (.inl (.inr (hmem h2)))⟩
          · exact ⟨.inr ⟨hifc h1, hifc h2⟩, .inr (hifc h1), .inr (hifc h2)⟩
        exact groups_none hw hge hg ⟨[], rfl, Nat.le_refl _⟩ (fun _ _ _ h => by cases h) a b s t hall.2.1 hall.2.2
          (fun h => by cases h) (fun h => by cases h) hab hall.1 (get_some.2 ha) (get_some.2 hb) hs

/-! ## The names stay distinct -/

theorem mInsert_mem {V : Type} {k : Text} {v : V} {p : Text × V} : ∀ {m : List (Text × V)}, p ∈ Verif.Merge.insert k v m → p = (k, v) ∨ p ∈ m
  | [], hp => by
    rw [Verif.Merge.insert] at hp
    exact .inl (List.mem_singleton.1 hp)
  | (a, b) :: r, hp => by
    rw [Verif.Merge.insert] at hp
    split at hp
    · exact (List.mem_cons.1 hp).imp id (List.mem_cons_of_mem _)
    · split at hp
      · exact (List.mem_cons.1 hp).imp id id
      · rcases List.mem_cons.1 hp with hp | hp
        · exact .inr (hp ▸ List.mem_cons_self)
        · exact (mInsert_mem hp).imp id (List.mem_cons_of_mem _)

theorem mInsert_nodup {V : Type} {k : Text} {v : V} : ∀ {m : List (Text × V)}, k ∉ m.map (·.1) → (m.map (·.1)).Nodup →
    ((Verif.Merge.insert k v m).map (·.1)).Nodup
  | [], _, _ => by rw [Verif.Merge.insert]; simp
  | (k', v') :: r, hk, hd => by
    rw [Verif.Merge.insert]
    rw [List.map_cons, List.mem_cons, not_or] at hk
    rw [List.map_cons, List.nodup_cons] at hd
    rw [if_neg (Ne.symm hk.1)]
    split
    · rw [List.map_cons, List.map_cons, List.nodup_cons, List.nodup_cons]
      exact ⟨fun h => (List.mem_cons.1 h).elim hk.1 hk.2, hd⟩
    · rw [List.map_cons, List.nodup_cons]
      refine ⟨fun h => ?_, mInsert_nodup hk.2 hd.2⟩
      obtain ⟨p, hp, e⟩ := List.mem_map.1 h
      have hp' := mInsert_mem hp
      rcases hp' with rfl | hp'
      · exact hk.1 e
      · exact hd.1 (e ▸ List.mem_map_of_mem (f := (·.1)) hp')

theorem mergeGroups_nodup {join : Text → Text → Text} : ∀ {gs : List (List Text)} {k : Nat} {types : List (Text × TypeD)} {l : List (Text × Text)},
    (∀ j, k ≤ j → Lacks types (mergedName j)) → (types.map (·.1)).Nodup → ((mergeGroups join gs k types l).2.1.map (·.1)).Nodup
  | [], _, _, _, _, hd => hd
  | g :: gs, k, types, l, hf, hd => by
    rw [mergeGroups]
    split
    · exact mergeGroups_nodup hf hd
    · refine mergeGroups_nodup (fun j hj => ?_) (mInsert_nodup (hf k (Nat.le_refl k)) hd)
      rw [← get_none, get_mInsert, if_neg (fun e => by have := mergedName_inj e; omega)]
      exact get_none.2 (hf j (by omega))

theorem remove_sub {α : Type} (k : Text) (l : List (Text × α)) : (remove l k).Sublist l := List.filter_sublist

theorem removeTypes_sub : ∀ (ks : List Text) (c : Cfg), (removeTypes c ks).types.Sublist c.types
  | [], _ => List.Sublist.refl _
  | k :: r, c => (removeTypes_sub r _).trans (remove_sub k c.types)

theorem round_nodup {pre : Text → Bool} {join : Text → Text → Text} {given : Nat → Nat → Bool} {fuel k k' : Nat} {c c' : Cfg}
    (hf : FreshFrom k c) (hn : (c.types.map (·.1)).Nodup) (h : round pre join given fuel k c = some (some (k', c'))) :
    (c'.types.map (·.1)).Nodup := by
  rw [round] at h
  cases hk : kindsOf pre c fuel with
  | none => rw [hk] at h; cases h
  | some ks =>
    rw [hk] at h
    simp only [] at h
    cases hg : groups pre c ks given fuel (allNames ks) (allNames ks) 0 ⟨[], []⟩ with
    | none => rw [hg] at h; cases h
    | some gs =>
      rw [hg] at h
      simp only [] at h
      split at h
      · cases h
      · simp only [Option.some.injEq, Prod.mk.injEq] at h
        rw [← h.2, replaceAll]
        refine List.Nodup.sublist ((removeTypes_sub _ _).map _) ?_
        simp only [List.map_map]
        exact mergeGroups_nodup hf.types hn

theorem merger_complete {pre : Text → Bool} {join : Text → Text → Text} {given : Nat → Nat → Bool} {fuel : Nat} (hge : Full given) :
    ∀ {rounds k : Nat} {c c' : Cfg}, 0 < k → Wf pre c → FreshFrom k c → (c.types.map (·.1)).Nodup →
    merger pre join given fuel rounds k c = some c' → ∀ a b s t, At c'.types a s → At c'.types b t → a ≠ b → SameUse pre c' a b →
      SameFields s t → s.fields = []
  | 0, _, _, _, _, _, _, _, h => by rw [merger] at h; cases h
  | rounds + 1, k, c, c', hk, hw, hf, hn, h => by
    intro a b s t ha hb hab hu hs
    rw [merger] at h
    cases hr : round pre join given fuel k c with
    | none => rw [hr] at h; cases h
    | some o =>
      rw [hr] at h
      cases o with
      | none =>
        cases h
        exact round_complete hw hn hge hr ha hb hab hu hs
      | some q =>
        obtain ⟨k1, c1⟩ := q
        simp only [] at h
        obtain ⟨_, _, l, _, r⟩ := round_spec (I := fun _ => True) (P := fun _ _ => True)
          (fun _ _ _ _ _ _ _ _ _ _ _ _ _ => ⟨trivial, fun _ => trivial⟩) trivial hw hf hr
        exact merger_complete hge (by rw [r.next]; omega) (r.wf_next hw hf) (r.fresh_next hw hf) (round_nodup hf hn hr) h a b s t ha hb hab hu hs

/-- Afterwards no two types that are used in the same way have the same fields. -/
theorem C100_complete {pre : Text → Bool} {join : Text → Text → Text} {given : Nat → Nat → Bool} {fuel rounds : Nat} {c c' : Cfg}
    (hge : ∀ k, 0 < k → given k k = true) (hw : Wf pre c) (hf : FreshFrom 1 c) (hn : (c.types.map (·.1)).Nodup)
    (h : mergeTypes pre join given fuel rounds c = some c') (a b : Text) (s t : TypeD) (ha : At c'.types a s) (hb : At c'.types b t)
    (hu : SameUse pre c' a b) (hs : SameFields s t) (hne : s.fields ≠ []) : a = b :=
  Classical.byContradiction (fun hab => hne (merger_complete hge (by decide) hw hf hn h a b s t ha hb hab hu hs))

end Verif.Refine
