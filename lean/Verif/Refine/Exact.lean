import Verif.Refine.Round
import Verif.Transform.Ambig

/-!
# Merging only equal types
-/

namespace Verif.Refine

open Verif.Mustache (Text)
open Verif.Exec (Ty)
open Verif.Transform

set_option linter.unusedSimpArgs false

/-! ## The comparison -/

/-- Two fields that the comparison takes as the same without looking at their types. -/
def Match (pre : Text → Bool) (c : Cfg) (a b : FieldD) : Prop :=
  isList a.ty = isList b.ty ∧ (a.ty.name = b.ty.name ∨ (isScalar pre c a.ty.name = true ∧ isScalar pre c b.ty.name = true ∧
    (a.ty.name = json ∨ b.ty.name = json)))

theorem simFields_flat {pre : Text → Bool} {c : Cfg} {rec : Text × TypeD → Text × TypeD → SState → Option (Option Bool × SState)}
    {f2s : List (Text × FieldD)} : ∀ {r : List (Text × FieldD)} {k : Nat} {s : SState} {res : FRes} {s' : SState},
    (∀ n a b, (n, a) ∈ r → get f2s n = some b → ¬ Lacks c.types a.ty.name → ¬ Lacks c.types b.ty.name →
      a.ty.name = b.ty.name ∨ (isScalar pre c a.ty.name = true ∧ isScalar pre c b.ty.name = true)) →
    simFields pre c rec f2s r k s = some (res, s') →
    s' = s ∧ ((res = .ret none) ∨ ∃ good : List (Text × FieldD), res = .done (k + good.length) ∧ good.Sublist r ∧
      ∀ n a, (n, a) ∈ good → ∃ b, get f2s n = some b ∧ Match pre c a b)
  | [], k, s, res, s', _, h => by
    rw [simFields] at h
    cases h
    exact ⟨rfl, .inr ⟨[], rfl, List.Sublist.refl _, fun n a h => by cases h⟩⟩
  | (n, f1) :: r, k, s, res, s', ho, h => by
    have skip : simFields pre c rec f2s r k s = some (res, s') →
        s' = s ∧ ((res = .ret none) ∨ ∃ good : List (Text × FieldD), res = .done (k + good.length) ∧ good.Sublist ((n, f1) :: r) ∧
          ∀ n a, (n, a) ∈ good → ∃ b, get f2s n = some b ∧ Match pre c a b) := by
      intro h
      obtain ⟨e, h'⟩ := simFields_flat (fun m a b hm => ho m a b (List.mem_cons_of_mem _ hm)) h
      refine ⟨e, h'.imp id ?_⟩
      rintro ⟨good, h1, h2, h3⟩
      exact ⟨good, h1, h2.cons _, h3⟩
    have step : ∀ f2, get f2s n = some f2 → Match pre c f1 f2 → simFields pre c rec f2s r (k + 1) s = some (res, s') →
        s' = s ∧ ((res = .ret none) ∨ ∃ good : List (Text × FieldD), res = .done (k + good.length) ∧ good.Sublist ((n, f1) :: r) ∧
          ∀ n a, (n, a) ∈ good → ∃ b, get f2s n = some b ∧ Match pre c a b) := by
      intro f2 h2 hm h
      obtain ⟨e, h'⟩ := simFields_flat (fun m a b hm => ho m a b (List.mem_cons_of_mem _ hm)) h
      refine ⟨e, h'.imp id ?_⟩
      rintro ⟨good, h1, h2', h3⟩
      refine ⟨(n, f1) :: good, by rw [h1, List.length_cons]; congr 1; omega, h2'.cons_cons _, fun m a hma => ?_⟩
      rcases List.mem_cons.1 hma with e | hma
      · cases e; exact ⟨f2, h2, hm⟩
      · exact h3 m a hma
    rw [simFields] at h
    cases h2 : get f2s n with
    | none => rw [h2] at h; exact skip h
    | some f2 =>
      rw [h2] at h
      simp only [] at h
      split at h
      · next hs =>
        rw [Bool.and_eq_true] at hs
        split at h
        · next he =>
          split at h
          · next hl =>
            refine step f2 h2 ⟨hl, ?_⟩ h
            rcases he with e | e | e
            · exact .inl e
            · exact .inr ⟨hs.1, hs.2, .inl e⟩
            · exact .inr ⟨hs.1, hs.2, .inr e⟩
          · cases h; exact ⟨rfl, .inl rfl⟩
        · cases h; exact ⟨rfl, .inl rfl⟩
      · next hs =>
        split at h
        · next he =>
          split at h
          · next hl => exact step f2 h2 ⟨hl, .inl he⟩ h
          · cases h; exact ⟨rfl, .inl rfl⟩
        · next he =>
          cases ha : get c.types f1.ty.name with
          | none => rw [ha] at h; exact skip h
          | some t1 =>
            rw [ha] at h
            simp only [] at h
            cases hb : get c.types f2.ty.name with
            | none => rw [hb] at h; exact skip h
            | some t2 =>
              exfalso
              rcases ho n f1 f2 List.mem_cons_self h2 (at_isSome.1 (by rw [ha]; rfl)) (at_isSome.1 (by rw [hb]; rfl)) with e | ⟨e1, e2⟩
              · exact he e
              · exact hs (by rw [e1, e2]; rfl)

/-- Two types of the configuration that are alike. -/
def AlikeN (pre : Text → Bool) (c : Cfg) (a b : Text) : Prop :=
  ∃ s t, At c.types a s ∧ At c.types b t ∧ Alike pre c s t

/-- Of the pairs looked at, the store holds only what is so. -/
def StoreFor (pre : Text → Bool) (c : Cfg) (S : Text → Text → Prop) (l : List ((Text × Text) × Bool)) : Prop :=
  ∀ a b, ((a, b), true) ∈ l → S a b → AlikeN pre c a b

theorem Alike.symm {pre : Text → Bool} {c : Cfg} {s t : TypeD} (h : Alike pre c s t) : Alike pre c t s := by
  refine ⟨⟨h.some.2, h.some.1⟩, fun f => (h.names f).symm, fun f a b ha hb => ?_⟩
  obtain ⟨h1, h2⟩ := h.types f b a hb ha
  refine ⟨h1.symm, ?_⟩
  rcases h2 with e | ⟨e1, e2, e3⟩
  · exact .inl e.symm
  · exact .inr ⟨e2, e1, e3.symm⟩

theorem cacheGet_true {pre : Text → Bool} {c : Cfg} {S : Text → Text → Prop} (hS : ∀ a b, S a b → S b a)
    {l : List ((Text × Text) × Bool)} {a b : Text} (hI : StoreFor pre c S l)
    (h : cacheGet l a b = some true) (hab : S a b) : AlikeN pre c a b := by
  rw [cacheGet] at h
  cases h1 : l.find? (fun e => e.1 = (a, b)) with
  | some e =>
    rw [h1] at h
    simp only [Option.some.injEq] at h
    have hm := List.mem_of_find?_eq_some h1
    have he := List.find?_some h1
    simp only [decide_eq_true_eq] at he
    obtain ⟨k, v⟩ := e
    simp only at he h
    subst he h
    exact hI a b hm hab
  | none =>
    rw [h1] at h
    simp only [] at h
    obtain ⟨e, h2, hv⟩ := Option.map_eq_some_iff.1 h
    have hm := List.mem_of_find?_eq_some h2
    have he := List.find?_some h2
    simp only [decide_eq_true_eq] at he
    obtain ⟨k, v⟩ := e
    simp only at he hv
    subst he hv
    obtain ⟨s, t, h1, h2, h3⟩ := hI b a hm (hS a b hab)
    exact ⟨t, s, h2, h1, h3.symm⟩

theorem threshold_one (k : Kinds) (a b : Text) : threshold k one a b = one := by
  rw [threshold]; split <;> rfl

/-- Pairs that are compared with a threshold of one and found similar are alike. -/
theorem simOk_strict {pre : Text → Bool} {c : Cfg} (hw : Wf pre c) (ho : OneType pre c) {given : Nat → Nat → Bool} (ks : Kinds)
    (fuel : Nat) {S : Text → Text → Prop} (hS : ∀ a b, S a b → S b a) (hone : ∀ a b, S a b → threshold ks given a b = one) :
    SimOk pre c ks given fuel (StoreFor pre c S) (fun a b => S a b → AlikeN pre c a b) := by
  intro n1 t1 n2 t2 cache res s' hI h1 h2 h
  cases fuel with
  | zero => rw [sim] at h; cases h
  | succ fuel =>
    rw [sim] at h
    simp only [] at h
    cases hc : cacheGet cache n1 n2 with
    | some b =>
      rw [hc] at h
      simp only [Option.some.injEq, Prod.mk.injEq] at h
      obtain ⟨rfl, rfl⟩ := h
      refine ⟨hI, fun e hab => ?_⟩
      cases e
      exact cacheGet_true hS hI hc hab
    | none =>
      rw [hc] at h
      simp only [] at h
      have hs1 := hw.fields n1 t1 (get_some.1 h1)
      have hs2 := hw.fields n2 t2 (get_some.1 h2)
      cases hf : simFields pre c (sim pre c (threshold ks given n1 n2) fuel) t2.fields t1.fields 0 ⟨cache, []⟩ with
      | none => rw [hf] at h; cases h
      | some q =>
        obtain ⟨fr, st⟩ := q
        rw [hf] at h
        obtain ⟨hst, hr⟩ := simFields_flat (fun n a b hna hb =>
          ho n1 t1 n2 t2 n a b (get_some.1 h1) (get_some.1 h2) (at_of_mem_sorted hs1 hna) (get_some.1 hb)) hf
        rcases hr with rfl | ⟨good, rfl, hsub, hgood⟩
        · simp only [Option.some.injEq, Prod.mk.injEq] at h
          obtain ⟨rfl, rfl⟩ := h
          rw [hst]
          exact ⟨hI, fun e => by cases e⟩
        · simp only [Option.some.injEq, Prod.mk.injEq, Nat.zero_add] at h
          obtain ⟨rfl, rfl⟩ := h
          have key : threshold ks given n1 n2 good.length (t1.fields.length + t2.fields.length - good.length) = true → S n1 n2 →
              Alike pre c t1 t2 := by
            intro e hab
            rw [hone n1 n2 hab] at e
            rw [one, decide_eq_true_eq] at e
            have l1 := hsub.length_le
            have hnd : (good.map (·.1)).Nodup := (nodup_of_sorted hs1).sublist (hsub.map _)
            have hss : good.map (·.1) ⊆ t2.fields.map (·.1) := by
              intro n hn
              obtain ⟨⟨m, a⟩, hma, rfl⟩ := List.mem_map.1 hn
              obtain ⟨b, hb, _⟩ := hgood m a hma
              exact List.mem_map.2 ⟨(m, b), at_mem (get_some.1 hb), rfl⟩
            have l2 := hnd.length_le_of_subset hss
            rw [List.length_map, List.length_map] at l2
            have e1 : good.length = t1.fields.length := by omega
            have e2 : t2.fields.length = t1.fields.length := by omega
            have hg : good = t1.fields := hsub.eq_of_length e1
            subst hg
            refine ⟨⟨fun e' => ?_, fun e' => ?_⟩, fun f => ⟨?_, ?_⟩, fun f a b ha hb => ?_⟩
            · rw [e'] at e e2
              simp only [List.length_nil] at e e2
              omega
            · rw [e'] at e e2
              simp only [List.length_nil] at e e2
              omega
            · rintro ⟨a, ha⟩
              obtain ⟨b, hb, _⟩ := hgood f a (at_mem ha)
              exact ⟨b, get_some.1 hb⟩
            · rintro ⟨b, hb⟩
              -- the names of the first are among those of the second, and as many
              refine Classical.byContradiction (fun hno => ?_)
              have hf1 : f ∉ t1.fields.map (·.1) := by
                intro hf1
                obtain ⟨⟨m, a⟩, hma, rfl⟩ := List.mem_map.1 hf1
                exact hno ⟨a, at_of_mem_sorted hs1 hma⟩
              have hnd' : (f :: t1.fields.map (·.1)).Nodup := List.nodup_cons.2 ⟨hf1, hnd⟩
              have := hnd'.length_le_of_subset (l₂ := t2.fields.map (·.1)) (by
                intro x hx
                rcases List.mem_cons.1 hx with rfl | hx
                · exact List.mem_map.2 ⟨(x, b), at_mem hb, rfl⟩
                · exact hss hx)
              rw [List.length_cons, List.length_map, List.length_map] at this
              omega
            · obtain ⟨b', hb', hm⟩ := hgood f a (at_mem ha)
              have : b' = b := at_unique (get_some.1 hb') hb
              subst this
              exact hm
          rw [hst]
          refine ⟨?_, fun e hab => ?_⟩
          · intro a b hab hs
            rcases List.mem_cons.1 hab with e | hab
            · simp only [Prod.mk.injEq] at e
              obtain ⟨⟨rfl, rfl⟩, e⟩ := e
              exact ⟨t1, t2, get_some.1 h1, get_some.1 h2, key e.symm hs⟩
            · exact hI a b hab hs
          · exact ⟨t1, t2, get_some.1 h1, get_some.1 h2, key (Option.some.inj e) hab⟩

/-- With a threshold of one, similar types are alike. -/
theorem simOk_one {pre : Text → Bool} {c : Cfg} (hw : Wf pre c) (ho : OneType pre c) (ks : Kinds) (fuel : Nat) :
    SimOk pre c ks one fuel (StoreFor pre c (fun _ _ => True)) (AlikeN pre c) := by
  intro n1 t1 n2 t2 cache res s' hI h1 h2 h
  obtain ⟨a, b⟩ := simOk_strict hw ho ks fuel (S := fun _ _ => True) (fun _ _ h => h) (fun a b _ => threshold_one ks a b)
    n1 t1 n2 t2 cache res s' hI h1 h2 h
  exact ⟨a, fun e => b e trivial⟩

/-! ## The fields of a merged type -/

theorem mergeAll_get {join : Text → Text → Text} (f : Text) : ∀ {fs : List (Text × TypeD)} {into : TypeD},
    (∀ p ∈ fs, Verif.Merge.Sorted p.2.fields) →
    get (mergeAll join fs into).fields f =
      (fs.filterMap (fun p => get p.2.fields f)).foldl (fun o x => some (mergeOpt o x)) (get into.fields f)
  | [], into, _ => rfl
  | p :: r, into, hs => by
    rw [mergeAll, List.foldl_cons]
    have := mergeAll_get (join := join) f (fs := r) (into := mergeType join p.2 into) (fun q hq => hs q (List.mem_cons_of_mem _ hq))
    rw [mergeAll] at this
    rw [this, show (mergeType join p.2 into).fields = mergeFields p.2.fields into.fields from rfl,
      mergeFields_get (nodup_of_sorted (hs p List.mem_cons_self)), List.filterMap_cons]
    cases get p.2.fields f with
    | none => rfl
    | some fd => rfl

/-- `JSON` stays. -/
theorem fold_json : ∀ (xs : List FieldD) (o : Option FieldD),
    ((∃ x, o = some x ∧ x.ty.name = json) ∨ ∃ x ∈ xs, x.ty.name = json) →
    ∃ R, xs.foldl (fun o x => some (mergeOpt o x)) o = some R ∧ R.ty.name = json
  | [], o, h => by
    rcases h with ⟨x, rfl, h⟩ | ⟨x, hx, _⟩
    · exact ⟨x, rfl, h⟩
    · cases hx
  | y :: r, o, h => by
    rw [List.foldl_cons]
    apply fold_json r
    rcases h with ⟨x, rfl, h⟩ | ⟨x, hx, h⟩
    · left
      refine ⟨_, rfl, ?_⟩
      rw [mergeOpt, mergeField, if_pos (.inl h)]
      rfl
    · rcases List.mem_cons.1 hx with rfl | hx
      · left
        refine ⟨_, rfl, ?_⟩
        cases o with
        | none => exact h
        | some z => rw [mergeOpt, mergeField, if_pos (.inr h)]; rfl
      · exact .inr ⟨x, hx, h⟩

/-- Without `JSON` it is one of the fields. -/
theorem fold_plain : ∀ (xs : List FieldD) (o : Option FieldD), (∀ x ∈ xs, x.ty.name ≠ json) →
    (∀ x, o = some x → x.ty.name ≠ json) → ∀ R, xs.foldl (fun o x => some (mergeOpt o x)) o = some R →
    o = some R ∨ R ∈ xs
  | [], o, _, _, R, h => .inl h
  | y :: r, o, hx, ho, R, h => by
    rw [List.foldl_cons] at h
    have hy : mergeOpt o y = y := by
      cases o with
      | none => rfl
      | some z =>
        rw [mergeOpt, mergeField, if_neg]
        rintro (e | e)
        · exact ho z rfl e
        · exact hx y List.mem_cons_self e
    rw [hy] at h
    rcases fold_plain r (some y) (fun x hx' => hx x (List.mem_cons_of_mem _ hx'))
      (fun x e => by cases e; exact hx y List.mem_cons_self) R h with h | h
    · cases h; exact .inr List.mem_cons_self
    · exact .inr (List.mem_cons_of_mem _ h)

/-- The merged field of fields that match one of them. -/
theorem fold_match {pre : Text → Bool} {c : Cfg} {xs : List FieldD} {r0 : FieldD} (h0 : r0 ∈ xs)
    (hm : ∀ x ∈ xs, x = r0 ∨ Match pre c r0 x) (hj : isScalar pre c json = true) :
    ∃ R, xs.foldl (fun o x => some (mergeOpt o x)) none = some R ∧ ∀ x ∈ xs,
      (R.ty.name = x.ty.name ∧ isList R.ty = isList x.ty) ∨ (R.ty.name = json ∧ isScalar pre c x.ty.name = true) := by
  by_cases hx : ∃ x ∈ xs, x.ty.name = json
  · obtain ⟨R, hR, hRj⟩ := fold_json xs none (.inr hx)
    refine ⟨R, hR, fun y hy => .inr ⟨hRj, ?_⟩⟩
    obtain ⟨x, hx, hxj⟩ := hx
    have hs0 : isScalar pre c r0.ty.name = true := by
      rcases hm x hx with e | ⟨_, e | ⟨e, _⟩⟩
      · rw [← e, hxj]; exact hj
      · rw [e, hxj]; exact hj
      · exact e
    rcases hm y hy with rfl | ⟨_, e | ⟨_, e, _⟩⟩
    · exact hs0
    · rw [← e]; exact hs0
    · exact e
  · have hx' : ∀ x ∈ xs, x.ty.name ≠ json := fun x h e => hx ⟨x, h, e⟩
    have hsome : ∀ (xs : List FieldD) (o : Option FieldD), xs ≠ [] → ∃ R, xs.foldl (fun o x => some (mergeOpt o x)) o = some R := by
      intro xs
      induction xs with
      | nil => intro o h; exact absurd rfl h
      | cons y r ih =>
        intro o _
        rw [List.foldl_cons]
        cases r with
        | nil => exact ⟨_, rfl⟩
        | cons z r => exact ih _ (by simp)
    obtain ⟨R, hR⟩ := hsome xs none (by rintro rfl; cases h0)
    have hRx : R ∈ xs := by
      rcases fold_plain xs none hx' (fun x e => by cases e) R hR with e | e
      · cases e
      · exact e
    have heq : ∀ x ∈ xs, x.ty.name = r0.ty.name ∧ isList x.ty = isList r0.ty := by
      intro x hx
      rcases hm x hx with rfl | ⟨e1, e | ⟨_, _, e | e⟩⟩
      · exact ⟨rfl, rfl⟩
      · exact ⟨e.symm, e1.symm⟩
      · exact absurd e (hx' r0 h0)
      · exact absurd e (hx' x hx)
    refine ⟨R, hR, fun y hy => .inl ⟨?_, ?_⟩⟩
    · rw [(heq R hRx).1, (heq y hy).1]
    · rw [(heq R hRx).2, (heq y hy).2]

/-! ## One round -/

/-- A name that merging does not make from a number on. -/
def OkName (k : Nat) (x : Text) : Prop := ∀ j, k ≤ j → x ≠ mergedName j

/-- Merging that keeps what can be asked for. -/
structure Exact (pre : Text → Bool) (k k' : Nat) (σ : Text → Text) (c c' : Cfg) : Prop where
  fwd : ∀ n t f fd, At c.types n t → At t.fields f fd → ∃ t' fd', At c'.types (σ n) t' ∧ At t'.fields f fd' ∧
    ((fd'.ty.name = σ fd.ty.name ∧ isList fd'.ty = isList fd.ty) ∨ (fd'.ty.name = json ∧ isScalar pre c fd.ty.name = true))
  bwd : ∀ n t t' f fd', At c.types n t → At c'.types (σ n) t' → At t'.fields f fd' → ∃ fd, At t.fields f fd
  names : ∀ x, OkName k x → OkName k' (σ x)
  scal : ∀ x, OkName k x → (isScalar pre c' (σ x) = true ↔ isScalar pre c x = true)
  lacks : ∀ x, OkName k x → Lacks c.types x → Lacks c'.types (σ x)

theorem scalar_json {pre : Text → Bool} {c : Cfg} (hw : Wf pre c) : isScalar pre c json = true :=
  isScalar_iff.2 (.inr ⟨hw.json.2, hw.json.1⟩)

theorem Group.member {pre : Text → Bool} {c : Cfg} {ks : Kinds} {g : List Text} (hg : Group c ks (AlikeN pre c) g) :
    ∃ a ta, a ∈ g ∧ At c.types a ta ∧ ∀ x ∈ g, ∃ t, At c.types x t ∧ t.fields ≠ [] ∧ (t = ta ∨ Alike pre c ta t) := by
  obtain ⟨a, r, e, hr⟩ := hg.first
  have hlen := hg.two
  cases r with
  | nil => rw [e] at hlen; exact absurd hlen (by simp)
  | cons b r =>
    obtain ⟨⟨s, t, hs, ht, hal⟩, _⟩ := hr b List.mem_cons_self
    refine ⟨a, s, by rw [e]; exact List.mem_cons_self, hs, fun x hx => ?_⟩
    rw [e] at hx
    rcases List.mem_cons.1 hx with rfl | hx
    · exact ⟨s, hs, hal.some.1, .inl rfl⟩
    · obtain ⟨⟨s', t', hs', ht', hal'⟩, _⟩ := hr x hx
      rw [at_unique hs hs']
      exact ⟨t', ht', hal'.some.2, .inr hal'⟩

theorem Round.exact {pre : Text → Bool} {join : Text → Text → Text} {ks : Kinds} {k : Nat} {c : Cfg} {k' : Nat} {c' : Cfg}
    {gs : List (List Text)} {l : List (Text × Text)} (r : Round (AlikeN pre c) join ks k c k' c' gs l) (hw : Wf pre c)
    (hf : FreshFrom k c) : Exact pre k k' (newName l) c c' := by
  have hnot : ∀ x, Lacks c.types x → x ∉ gs.flatten := by
    intro x hl h
    have := r.isType h
    rw [get_none.2 hl] at this
    cases this
  have hlack : ∀ x, OkName k x → Lacks c.types x → Lacks c'.types (newName l x) := by
    intro x hx hl
    rw [r.sigma_fix (hnot x hl), ← get_none]
    cases hg : get c'.types x with
    | none => rfl
    | some t' =>
      rcases r.cases hg with ⟨_, _, _, _, j, hj, _, e⟩ | ⟨_, t, ht, _⟩
      · exact (hx j hj e).elim
      · rw [get_none.2 hl] at ht; cases ht
  refine ⟨?_, ?_, ?_, ?_, hlack⟩
  · intro n t f fd ht hfd
    by_cases hn : n ∈ gs.flatten
    · obtain ⟨g, hg, hng, _, hg'⟩ := r.get_made hf hn
      obtain ⟨a, ta, ha, hta, hall⟩ := (r.group g hg).member
      have hfa : ∃ fa, At ta.fields f fa := by
        obtain ⟨t', ht', _, h⟩ := hall n hng
        have := at_unique ht ht'
        subst this
        rcases h with rfl | h
        · exact ⟨fd, hfd⟩
        · exact (h.names f).2 ⟨fd, hfd⟩
      obtain ⟨fa, hfa⟩ := hfa
      obtain ⟨R, hR, hRx⟩ := fold_match (pre := pre) (c := c)
        (xs := (found c.types g).filterMap (fun p => get p.2.fields f)) (r0 := fa)
        (List.mem_filterMap.2 ⟨(a, ta), found_mem.2 ⟨ha, get_some.2 hta⟩, get_some.2 hfa⟩)
        (by
          intro x hx
          obtain ⟨⟨m, s⟩, hp, hx⟩ := List.mem_filterMap.1 hx
          obtain ⟨hm, hs⟩ := found_mem.1 hp
          obtain ⟨s', hs', _, h⟩ := hall m hm
          have := at_unique (get_some.1 hs) hs'
          subst this
          rcases h with rfl | h
          · exact .inl (at_unique (get_some.1 hx) hfa)
          · exact .inr (h.types f fa x hfa (get_some.1 hx)))
        (scalar_json hw)
      have hmg := mergeAll_get (join := join) f (into := emptyType) (Round.found_sorted hw g)
      rw [show get emptyType.fields f = none from rfl, hR] at hmg
      refine ⟨_, mapField (newName l) R, get_some.1 hg', (at_mapFields _ _ _ _).2 ⟨R, get_some.1 hmg, rfl⟩, ?_⟩
      rw [show (mapField (newName l) R).ty = mapTy (newName l) R.ty from rfl, mapTy_name, mapTy_isList]
      rcases hRx fd (List.mem_filterMap.2 ⟨(n, t), found_mem.2 ⟨hng, get_some.2 ht⟩, get_some.2 hfd⟩) with ⟨e1, e2⟩ | ⟨e1, e2⟩
      · exact .inl ⟨by rw [e1], e2⟩
      · exact .inr ⟨by rw [e1, r.json_fix hw], e2⟩
    · refine ⟨mapType (newName l) t, mapField (newName l) fd, ?_, (at_mapFields _ _ _ _).2 ⟨fd, hfd, rfl⟩, .inl ⟨?_, ?_⟩⟩
      · rw [r.sigma_fix hn]
        exact get_some.1 (r.get_left hf hn (get_some.2 ht))
      · exact mapTy_name _ _
      · exact mapTy_isList _ _
  · intro n t t' f fd' ht ht' hfd'
    by_cases hn : n ∈ gs.flatten
    · obtain ⟨g, hg, hng, _, hg'⟩ := r.get_made hf hn
      have := at_unique ht' (get_some.1 hg')
      subst this
      obtain ⟨fd, hfd, rfl⟩ := (at_mapFields _ _ _ _).1 hfd'
      obtain ⟨a, ta, ha, hta, hall⟩ := (r.group g hg).member
      have hin : ∀ x s, x ∈ g → At c.types x s → ∀ f, ((∃ a, At s.fields f a) ↔ ∃ b, At ta.fields f b) := by
        intro x s hx hs f
        obtain ⟨s', hs', _, h⟩ := hall x hx
        have := at_unique hs hs'
        subst this
        rcases h with rfl | h
        · exact Iff.rfl
        · exact (h.names f).symm
      rcases mergeAll_from (join := join) (Round.found_sorted hw g) (get_some.2 hfd) with h | ⟨p, hp, fd0, hfd0, _⟩
      · cases h
      · obtain ⟨hp1, hp2⟩ := found_mem.1 hp
        exact (hin n t hng ht f).2 ((hin p.1 p.2 hp1 (get_some.1 hp2) f).1 ⟨fd0, get_some.1 hfd0⟩)
    · rw [r.sigma_fix hn] at ht'
      have := at_unique ht' (get_some.1 (r.get_left hf hn (get_some.2 ht)))
      subst this
      obtain ⟨fd, hfd, _⟩ := (at_mapFields _ _ _ _).1 hfd'
      exact ⟨fd, hfd⟩
  · intro x hx j hj e
    have hk : k ≤ k' := by rw [r.next]; omega
    rcases r.sigma x with ⟨_, h'⟩ | ⟨_, _, i, hi, hi', h'⟩
    · rw [h'] at e
      exact hx j (by omega) e
    · rw [h'] at e
      have := mergedName_inj e
      omega
  · intro x hx
    constructor
    · intro hs
      rcases at_or_lacks c.types x with ⟨t, ht⟩ | hl
      · cases hf0 : t.fields with
        | nil => exact isScalar_iff.2 (.inl ⟨t, ht, hf0⟩)
        | cons p rest =>
          have hp : At t.fields p.1 p.2 := by
            rw [hf0, ← get_some]
            obtain ⟨a, b⟩ := p
            rw [Verif.Transform.get, if_pos rfl]
          obtain ⟨t', ht', hk⟩ := (r.merged hw hf).kept x t ht
          obtain ⟨fd', hfd'⟩ := hk p.1 p.2 hp
          rcases isScalar_iff.1 hs with ⟨s, hs', he⟩ | ⟨hl, _⟩
          · rw [at_unique ht' hs', he] at hfd'
            cases hfd'
          · exact (at_not_lacks ht' hl).elim
      · have hl' := hlack x hx hl
        rw [r.sigma_fix (hnot x hl)] at hs hl'
        rcases isScalar_iff.1 hs with ⟨s, hs', _⟩ | ⟨_, hp⟩
        · exact (at_not_lacks hs' hl').elim
        · exact isScalar_iff.2 (.inr ⟨hl, hp⟩)
    · intro hs
      rcases isScalar_iff.1 hs with ⟨s, hs, he⟩ | ⟨hl, hp⟩
      · have hn : x ∉ gs.flatten := by
          intro hn
          obtain ⟨g, hg, hng, _⟩ := r.get_made hf hn
          obtain ⟨_, _, _, _, hall⟩ := (r.group g hg).member
          obtain ⟨s', hs', hne, _⟩ := hall _ hng
          rw [← at_unique hs hs'] at hne
          exact hne he
        rw [r.sigma_fix hn]
        refine isScalar_iff.2 (.inl ⟨_, get_some.1 (r.get_left hf hn (get_some.2 hs)), ?_⟩)
        rw [mapType, he]; rfl
      · have hl' := hlack x hx hl
        rw [r.sigma_fix (hnot x hl)] at hl' ⊢
        exact isScalar_iff.2 (.inr ⟨hl', hp⟩)

theorem Exact.oneType {pre : Text → Bool} {k k' : Nat} {σ : Text → Text} {c c' : Cfg} (hf : FreshFrom k c) (hw : Wf pre c')
    (hm : Merged σ c c') (he : Exact pre k k' σ c c') (ho : OneType pre c) : OneType pre c' := by
  intro n' t' m' s' f a' b' ht' hs' ha' hb' hla hlb
  obtain ⟨n, t, a, _, ht, ha, _, _, ea⟩ := hm.froms n' t' f a' ht' ha'
  obtain ⟨m, s, b, _, hs, hb, _, _, eb⟩ := hm.froms m' s' f b' hs' hb'
  have oa : OkName k a.ty.name := fun j hj => hf.fields j hj n t f a ht ha
  have ob : OkName k b.ty.name := fun j hj => hf.fields j hj m s f b hs hb
  rcases ea with ea | ea
  · rcases eb with eb | eb
    · rw [ea, mapTy_name] at hla ⊢
      rw [eb, mapTy_name] at hlb ⊢
      rcases ho n t m s f a b ht hs ha hb (fun h => hla (he.lacks _ oa h)) (fun h => hlb (he.lacks _ ob h)) with e | ⟨e1, e2⟩
      · exact .inl (by rw [e])
      · exact .inr ⟨(he.scal _ oa).2 e1, (he.scal _ ob).2 e2⟩
    · exact absurd hw.json.2 (by rw [eb] at hlb; exact hlb)
  · exact absurd hw.json.2 (by rw [ea] at hla; exact hla)

theorem Exact.trans {pre : Text → Bool} {k k1 k2 : Nat} {σ τ : Text → Text} {c c1 c2 : Cfg} (hf : FreshFrom k c) (hw : Wf pre c1)
    (hm1 : Merged σ c c1) (hm2 : Merged τ c1 c2) (h1 : Exact pre k k1 σ c c1) (h2 : Exact pre k1 k2 τ c1 c2) :
    Exact pre k k2 (τ ∘ σ) c c2 := by
  have hτ : τ json = json := hm2.others json hw.json.2 (fun j _ => Round.json_ne j)
  refine ⟨?_, ?_, fun x hx => h2.names _ (h1.names x hx), fun x hx => (h2.scal _ (h1.names x hx)).trans (h1.scal x hx),
    fun x hx hl => h2.lacks _ (h1.names x hx) (h1.lacks x hx hl)⟩
  · intro n t f fd ht hfd
    have ok : OkName k fd.ty.name := fun j hj => hf.fields j hj n t f fd ht hfd
    obtain ⟨t1, fd1, ht1, hfd1, e1⟩ := h1.fwd n t f fd ht hfd
    obtain ⟨t2, fd2, ht2, hfd2, e2⟩ := h2.fwd _ t1 f fd1 ht1 hfd1
    refine ⟨t2, fd2, ht2, hfd2, ?_⟩
    rcases e1 with ⟨e1, l1⟩ | ⟨e1, s1⟩
    · rcases e2 with ⟨e2, l2⟩ | ⟨e2, s2⟩
      · exact .inl ⟨by rw [e2, e1]; rfl, l2.trans l1⟩
      · rw [e1] at s2
        exact .inr ⟨e2, (h1.scal _ ok).1 s2⟩
    · rcases e2 with ⟨e2, _⟩ | ⟨e2, _⟩
      · exact .inr ⟨by rw [e2, e1, hτ], s1⟩
      · exact .inr ⟨e2, s1⟩
  · intro n t t2 f fd2 ht ht2 hfd2
    obtain ⟨t1, ht1, _⟩ := hm1.kept n t ht
    obtain ⟨fd1, hfd1⟩ := h2.bwd _ t1 t2 f fd2 ht1 ht2 hfd2
    exact h1.bwd n t t1 f fd1 ht ht1 hfd1

theorem Exact.refl (pre : Text → Bool) (k : Nat) (c : Cfg) : Exact pre k k id c c :=
  ⟨fun _ t _ fd ht hfd => ⟨t, fd, ht, hfd, .inl ⟨rfl, rfl⟩⟩, fun _ _ _ _ fd' ht ht' hfd' => ⟨fd', at_unique ht ht' ▸ hfd'⟩,
    fun _ h => h, fun _ _ => Iff.rfl, fun _ _ h => h⟩

/-- What a path leads to, before and after. -/
def SameEnd (pre : Text → Bool) (c : Cfg) (σ : Text → Text) (m m' : Text) : Prop :=
  m' = σ m ∨ (isScalar pre c m = true ∧ m' = json)

theorem leads_scalar {pre : Text → Bool} {c : Cfg} {n m : Text} {p : List Text} (hs : isScalar pre c n = true) (h : Leads c n p m) :
    p = [] ∧ m = n := by
  cases h with
  | nil => exact ⟨rfl, rfl⟩
  | cons ht hf _ =>
    rcases isScalar_iff.1 hs with ⟨t', ht', he⟩ | ⟨hl, _⟩
    · rw [at_unique ht ht', he] at hf
      cases hf
    · exact (at_not_lacks ht hl).elim

theorem Exact.leads {pre : Text → Bool} {k k' : Nat} {σ : Text → Text} {c c' : Cfg} (he : Exact pre k k' σ c c')
    {n m : Text} {p : List Text} (h : Leads c n p m) : ∃ m', Leads c' (σ n) p m' ∧ SameEnd pre c σ m m' := by
  induction h with
  | nil n => exact ⟨σ n, .nil _, .inl rfl⟩
  | @cons n t f fd p m ht hfd hr ih =>
    obtain ⟨t', fd', ht', hfd', e⟩ := he.fwd n t f fd ht hfd
    rcases e with ⟨e, _⟩ | ⟨e, s⟩
    · obtain ⟨m', h1, h2⟩ := ih
      exact ⟨m', .cons ht' hfd' (e ▸ h1), h2⟩
    · obtain ⟨rfl, rfl⟩ := leads_scalar s hr
      exact ⟨json, .cons ht' hfd' (by rw [e]; exact .nil _), .inr ⟨s, rfl⟩⟩

theorem Exact.leads_back {pre : Text → Bool} {k k' : Nat} {σ : Text → Text} {c c' : Cfg} (hf : FreshFrom k c) (hw : Wf pre c')
    (he : Exact pre k k' σ c c') : ∀ {p : List Text} {n m' : Text}, OkName k n → Leads c' (σ n) p m' →
    ∃ m, Leads c n p m ∧ SameEnd pre c σ m m'
  | [], n, m', _, h => by
    cases h
    exact ⟨n, .nil _, .inl rfl⟩
  | f :: p, n, m', hn, h => by
    cases h with
    | @cons _ t' _ fd' _ _ ht' hfd' hr =>
      rcases at_or_lacks c.types n with ⟨t, ht⟩ | hl
      · obtain ⟨fd, hfd⟩ := he.bwd n t t' f fd' ht ht' hfd'
        obtain ⟨t2, fd2, ht2, hfd2, e⟩ := he.fwd n t f fd ht hfd
        have := at_unique ht' ht2
        subst this
        have := at_unique hfd' hfd2
        subst this
        rcases e with ⟨e, _⟩ | ⟨e, s⟩
        · rw [e] at hr
          obtain ⟨m, h1, h2⟩ := Exact.leads_back hf hw he (fun j hj => hf.fields j hj n t f fd ht hfd) hr
          exact ⟨m, .cons ht hfd h1, h2⟩
        · rw [e] at hr
          obtain ⟨rfl, rfl⟩ := leads_scalar (scalar_json hw) hr
          exact ⟨_, .cons ht hfd (.nil _), .inr ⟨s, rfl⟩⟩
      · exact (at_not_lacks ht' (he.lacks n hn hl)).elim

end Verif.Refine
