import Verif.Subgraph.Lemmas

/-!
# What the walk over the templates of a resolver finds
-/

namespace Verif.Subgraph

open Verif.Mustache (Text Seg Template parse render ValidName ValidPath Canon parse_canon_or_whole)
open Verif.Tmpl (exprs)
open Verif.HttpUrl (GVal VS RCtx valueEval)
open Verif.Merge (get)

set_option linter.unusedSimpArgs false

/-! ## Expressions of a parsed text -/

theorem exprs_canon : ∀ {t : Template}, Canon t → ∀ e ∈ exprs t, ValidPath e
  | [], _, e, he => by cases he
  | .expr ps :: t, h, e, he => by
    have : exprs (.expr ps :: t) = ps :: exprs t := rfl
    rw [this] at he
    rcases List.mem_cons.1 he with rfl | he
    · exact h.1
    · exact exprs_canon h.2 e he
  | .lit l :: t, h, e, he => exprs_canon h.2.2.2 e he

theorem mentions_valid {s h : Text} {p : List Text} (hm : Mentions s h p) : ∀ x ∈ p, Plain x := by
  intro x hx
  rcases parse_canon_or_whole s with hc | hc
  · exact plain_of_valid ((exprs_canon hc _ hm).2 x (List.mem_cons_of_mem _ hx))
  · rw [Mentions, hc] at hm; cases hm

theorem value_ne_args : "value".toList ≠ "args".toList := by decide

theorem parseExprs_spec : ∀ (es : List (List Text)) (m : Keys),
    (parseExprs es m = none ↔ ∃ p, "args".toList :: p ∈ es) ∧
    ∀ k, parseExprs es m = some k → (m.Sorted → k.Sorted) ∧
      ∀ q, q ≠ [] → (k.Has q ↔ m.Has q ∨ ∃ p, "value".toList :: p ∈ es ∧ q <+: p)
  | [], m => by
    constructor
    · rw [parseExprs]
      exact ⟨fun h => (by cases h), fun ⟨p, h⟩ => (by cases h)⟩
    · intro k h
      rw [parseExprs] at h
      cases h
      exact ⟨id, fun q _ => ⟨.inl, fun h => h.elim id (fun ⟨p, h, _⟩ => by cases h)⟩⟩
  | [] :: es, m => by
    have ih := parseExprs_spec es m
    rw [parseExprs]
    have hmem : ∀ (h : Text) (p : List Text), h :: p ∈ [] :: es ↔ h :: p ∈ es := by
      intro h p; rw [List.mem_cons]; exact ⟨fun h => h.elim (fun h => by cases h) id, .inr⟩
    simp only [hmem]
    exact ih
  | (h :: p) :: es, m => by
    rw [parseExprs]
    split
    · next hv =>
      have ih := parseExprs_spec es (m.setPath p)
      refine ⟨?_, ?_⟩
      · rw [ih.1]
        constructor
        · rintro ⟨p', h'⟩; exact ⟨p', List.mem_cons_of_mem _ h'⟩
        · rintro ⟨p', h'⟩
          rcases List.mem_cons.1 h' with h' | h'
          · have := (List.cons.inj h').1; exact absurd (hv.symm.trans this.symm) value_ne_args
          · exact ⟨p', h'⟩
      · intro k hk
        obtain ⟨h1, h2⟩ := ih.2 k hk
        refine ⟨fun hm => h1 (sorted_setPath p hm), fun q hq => ?_⟩
        rw [h2 q hq, has_setPath]
        constructor
        · rintro ((h' | h') | ⟨p', h', h''⟩)
          · exact .inl h'
          · exact .inr ⟨p, by rw [hv]; exact List.mem_cons_self, h'⟩
          · exact .inr ⟨p', List.mem_cons_of_mem _ h', h''⟩
        · rintro (h' | ⟨p', h', h''⟩)
          · exact .inl (.inl h')
          · rcases List.mem_cons.1 h' with h' | h'
            · have := (List.cons.inj h').2; subst this; exact .inl (.inr h'')
            · exact .inr ⟨p', h', h''⟩
    · next hv =>
      split
      · next ha =>
        refine ⟨⟨fun _ => ⟨p, by rw [ha]; exact List.mem_cons_self⟩, fun _ => rfl⟩, fun k hk => by cases hk⟩
      · next ha =>
        have ih := parseExprs_spec es m
        refine ⟨?_, ?_⟩
        · rw [ih.1]
          constructor
          · rintro ⟨p', h'⟩; exact ⟨p', List.mem_cons_of_mem _ h'⟩
          · rintro ⟨p', h'⟩
            rcases List.mem_cons.1 h' with h' | h'
            · exact absurd (List.cons.inj h').1.symm ha
            · exact ⟨p', h'⟩
        · intro k hk
          obtain ⟨h1, h2⟩ := ih.2 k hk
          refine ⟨h1, fun q hq => ?_⟩
          rw [h2 q hq]
          constructor
          · rintro (h' | ⟨p', h', h''⟩)
            · exact .inl h'
            · exact .inr ⟨p', List.mem_cons_of_mem _ h', h''⟩
          · rintro (h' | ⟨p', h', h''⟩)
            · exact .inl h'
            · rcases List.mem_cons.1 h' with h' | h'
              · exact absurd (List.cons.inj h').1.symm hv
              · exact .inr ⟨p', h', h''⟩

/-! ## Keys of a set of texts -/

/-- The path is one of the texts in `T`, from the representation, or inside such a path. -/
def Used (T : Text → Prop) (q : List Text) : Prop := ∃ s p, T s ∧ Mentions s "value".toList p ∧ q <+: p

/-- One of the texts in `T` has an argument. -/
def UsesArgs (T : Text → Prop) : Prop := ∃ s p, T s ∧ Mentions s "args".toList p

/-- The outcome is that of the texts in `T`. -/
structure KS (T : Text → Prop) (o : Option Keys) : Prop where
  fails : o = none ↔ UsesArgs T
  sorted : ∀ k, o = some k → k.Sorted
  named : ∀ k, o = some k → ∀ q, q ≠ [] → (k.Has q ↔ Used T q)

/-- The same for a list of trees. -/
structure KL (T : Text → Prop) (o : Option (List Keys)) : Prop where
  fails : o = none ↔ UsesArgs T
  sorted : ∀ l, o = some l → ∀ k ∈ l, k.Sorted
  named : ∀ l, o = some l → ∀ q, q ≠ [] → ((∃ k ∈ l, k.Has q) ↔ Used T q)

theorem used_or {T U : Text → Prop} {q : List Text} : Used (fun s => T s ∨ U s) q ↔ Used T q ∨ Used U q := by
  constructor
  · rintro ⟨s, p, h | h, h'⟩
    · exact .inl ⟨s, p, h, h'⟩
    · exact .inr ⟨s, p, h, h'⟩
  · rintro (⟨s, p, h, h'⟩ | ⟨s, p, h, h'⟩)
    · exact ⟨s, p, .inl h, h'⟩
    · exact ⟨s, p, .inr h, h'⟩

theorem usesArgs_or {T U : Text → Prop} : UsesArgs (fun s => T s ∨ U s) ↔ UsesArgs T ∨ UsesArgs U := by
  constructor
  · rintro ⟨s, p, h | h, h'⟩
    · exact .inl ⟨s, p, h, h'⟩
    · exact .inr ⟨s, p, h, h'⟩
  · rintro (⟨s, p, h, h'⟩ | ⟨s, p, h, h'⟩)
    · exact ⟨s, p, .inl h, h'⟩
    · exact ⟨s, p, .inr h, h'⟩

theorem KS.congr {T U : Text → Prop} {o : Option Keys} (h : KS T o) (e : ∀ s, T s ↔ U s) : KS U o := by
  have : T = U := funext fun s => propext (e s)
  exact this ▸ h

theorem KL.congr {T U : Text → Prop} {o : Option (List Keys)} (h : KL T o) (e : ∀ s, T s ↔ U s) : KL U o := by
  have : T = U := funext fun s => propext (e s)
  exact this ▸ h

theorem not_has_empty {q : List Text} (h : q ≠ []) : ¬ Keys.nil.Has q := by
  cases q with
  | nil => exact absurd rfl h
  | cons => exact not_has_nil _ _

theorem ks_str (s : Text) : KS (fun x => x = s) (parseStr s) := by
  have h := parseExprs_spec (exprs (parse s)) .nil
  refine ⟨?_, ?_, ?_⟩
  · rw [parseStr, h.1]
    exact ⟨fun ⟨p, hp⟩ => ⟨s, p, rfl, hp⟩, fun ⟨s', p, e, hp⟩ => ⟨p, e ▸ hp⟩⟩
  · exact fun k hk => (h.2 k hk).1 trivial
  · intro k hk q hq
    rw [(h.2 k hk).2 q hq]
    constructor
    · rintro (h' | ⟨p, hp, h'⟩)
      · exact absurd h' (not_has_empty hq)
      · exact ⟨s, p, rfl, hp, h'⟩
    · rintro ⟨s', p, e, hp, h'⟩; exact .inr ⟨p, e ▸ hp, h'⟩

theorem ks_none : KS (fun _ => False) (some .nil) := by
  refine ⟨⟨fun h => (by cases h), fun ⟨_, _, h, _⟩ => h.elim⟩, fun k h => by cases h; trivial, ?_⟩
  intro k hk q hq
  cases hk
  exact ⟨fun h => absurd h (not_has_empty hq), fun ⟨_, _, h, _⟩ => h.elim⟩

/-- Two outcomes merged; failure of one is failure. -/
theorem KS.merge {T U : Text → Prop} {a b : Option Keys} (ha : KS T a) (hb : KS U b) :
    KS (fun s => T s ∨ U s) (both Keys.merge a b) := by
  cases a with
  | none => exact ⟨⟨fun _ => usesArgs_or.2 (.inl (ha.fails.1 rfl)), fun _ => rfl⟩, fun k h => (by cases h), fun k h => (by cases h)⟩
  | some a =>
    cases b with
    | none => exact ⟨⟨fun _ => usesArgs_or.2 (.inr (hb.fails.1 rfl)), fun _ => rfl⟩, fun k h => (by cases h), fun k h => (by cases h)⟩
    | some b =>
      refine ⟨⟨fun h => (by cases h), fun h => ?_⟩, ?_, ?_⟩
      · rcases usesArgs_or.1 h with h | h
        · exact absurd (ha.fails.2 h) (by simp)
        · exact absurd (hb.fails.2 h) (by simp)
      · intro k hk; cases hk; exact sorted_merge (ha.sorted a rfl) (hb.sorted b rfl)
      · intro k hk q hq
        cases hk
        rw [has_merge, ha.named a rfl q hq, hb.named b rfl q hq, used_or]

theorem kl_nil : KL (fun _ => False) (some []) := by
  refine ⟨⟨fun h => (by cases h), fun ⟨_, _, h, _⟩ => h.elim⟩, fun l h k hk => (by cases h; cases hk), ?_⟩
  intro l hl q _
  cases hl
  exact ⟨fun ⟨_, h, _⟩ => (by cases h), fun ⟨_, _, h, _⟩ => h.elim⟩

theorem KL.append {T U : Text → Prop} {a b : Option (List Keys)} (ha : KL T a) (hb : KL U b) :
    KL (fun s => T s ∨ U s) (both List.append a b) := by
  cases a with
  | none => exact ⟨⟨fun _ => usesArgs_or.2 (.inl (ha.fails.1 rfl)), fun _ => rfl⟩, fun k h => (by cases h), fun k h => (by cases h)⟩
  | some a =>
    cases b with
    | none => exact ⟨⟨fun _ => usesArgs_or.2 (.inr (hb.fails.1 rfl)), fun _ => rfl⟩, fun k h => (by cases h), fun k h => (by cases h)⟩
    | some b =>
      refine ⟨⟨fun h => (by cases h), fun h => ?_⟩, ?_, ?_⟩
      · rcases usesArgs_or.1 h with h | h
        · exact absurd (ha.fails.2 h) (by simp)
        · exact absurd (hb.fails.2 h) (by simp)
      · intro l hl k hk
        cases hl
        rcases List.mem_append.1 hk with hk | hk
        · exact ha.sorted a rfl k hk
        · exact hb.sorted b rfl k hk
      · intro l hl q hq
        cases hl
        rw [used_or, ← ha.named a rfl q hq, ← hb.named b rfl q hq]
        constructor
        · rintro ⟨k, hk, h⟩
          rcases List.mem_append.1 hk with hk | hk
          · exact .inl ⟨k, hk, h⟩
          · exact .inr ⟨k, hk, h⟩
        · rintro (⟨k, hk, h⟩ | ⟨k, hk, h⟩)
          · exact ⟨k, List.mem_append_left _ hk, h⟩
          · exact ⟨k, List.mem_append_right _ hk, h⟩

theorem KL.cons {T U : Text → Prop} {a : Option Keys} {b : Option (List Keys)} (ha : KS T a) (hb : KL U b) :
    KL (fun s => T s ∨ U s) (both List.cons a b) := by
  have h1 : KL T (a.map (fun k => [k])) := by
    refine ⟨?_, ?_, ?_⟩
    · rw [← ha.fails]; cases a <;> simp
    · intro l hl k hk
      cases a with
      | none => cases hl
      | some a => cases hl; rw [List.mem_singleton] at hk; subst hk; exact ha.sorted _ rfl
    · intro l hl q hq
      cases a with
      | none => cases hl
      | some a =>
        cases hl
        rw [← ha.named a rfl q hq]
        exact ⟨fun ⟨k, hk, h⟩ => by rw [List.mem_singleton] at hk; subst hk; exact h, fun h => ⟨a, List.mem_singleton.2 rfl, h⟩⟩
  have := KL.append h1 hb
  cases a <;> cases b <;> exact this

theorem KL.combine {T : Text → Prop} {o : Option (List Keys)} (h : KL T o) : KS T (o.map combine) := by
  refine ⟨?_, ?_, ?_⟩
  · rw [← h.fails]; cases o <;> simp
  · intro k hk
    cases o with
    | none => cases hk
    | some l => cases hk; exact sorted_foldMerge l trivial (h.sorted l rfl)
  · intro k hk q hq
    cases o with
    | none => cases hk
    | some l =>
      cases hk
      rw [Verif.Subgraph.combine, has_foldMerge, ← h.named l rfl q hq]
      exact ⟨fun h => h.elim (fun h => absurd h (not_has_empty hq)) id, .inr⟩

/-- The texts of pairs. -/
def KvText (l : List (Text × Text)) (s : Text) : Prop := ∃ kv ∈ l, s = kv.1 ∨ s = kv.2

theorem ks_kvs : ∀ (l : List (Text × Text)) {T : Text → Prop} {m : Keys}, KS T (some m) →
    KS (fun s => T s ∨ KvText l s) (parseKvs l m)
  | [], T, m, hm => by
    rw [parseKvs]
    exact hm.congr (fun s => ⟨.inl, fun h => h.elim id (fun ⟨_, h, _⟩ => by cases h)⟩)
  | (k, v) :: r, T, m, hm => by
    rw [parseKvs]
    have hk := ks_str k
    have hv := ks_str v
    have hT : ∀ s, ((T s ∨ s = k) ∨ s = v) ∨ KvText r s ↔ T s ∨ KvText ((k, v) :: r) s := by
      intro s
      constructor
      · rintro (((h | h) | h) | ⟨kv, h, h'⟩)
        · exact .inl h
        · exact .inr ⟨_, List.mem_cons_self, .inl h⟩
        · exact .inr ⟨_, List.mem_cons_self, .inr h⟩
        · exact .inr ⟨kv, List.mem_cons_of_mem _ h, h'⟩
      · rintro (h | ⟨kv, h, h'⟩)
        · exact .inl (.inl (.inl h))
        · rcases List.mem_cons.1 h with rfl | h
          · rcases h' with h' | h'
            · exact .inl (.inl (.inr h'))
            · exact .inl (.inr h')
          · exact .inr ⟨kv, h, h'⟩
    cases ha : parseStr k with
    | none =>
      rw [ha] at hk
      have := hk.fails.1 rfl
      refine ⟨⟨fun _ => ?_, fun _ => rfl⟩, fun k h => (by cases h), fun k h => (by cases h)⟩
      obtain ⟨s, p, hs, hp⟩ := this
      exact ⟨s, p, .inr ⟨_, List.mem_cons_self, .inl hs⟩, hp⟩
    | some a =>
      cases hb : parseStr v with
      | none =>
        rw [hb] at hv
        have := hv.fails.1 rfl
        refine ⟨⟨fun _ => ?_, fun _ => rfl⟩, fun k h => (by cases h), fun k h => (by cases h)⟩
        obtain ⟨s, p, hs, hp⟩ := this
        exact ⟨s, p, .inr ⟨_, List.mem_cons_self, .inr hs⟩, hp⟩
      | some b =>
        rw [ha] at hk
        rw [hb] at hv
        exact (ks_kvs r ((hm.merge hk).merge hv)).congr hT

theorem ks_kvs0 (l : List (Text × Text)) : KS (KvText l) (parseKvs l .nil) :=
  (ks_kvs l ks_none).congr (fun _ => ⟨fun h => h.elim False.elim id, .inr⟩)

mutual
theorem ks_value : ∀ (v : GVal), KS (AnyText v) (parseValue v)
  | .str s => by
    rw [parseValue]
    exact (ks_str s).congr (fun x => ⟨fun e => e ▸ .str s, fun h => by cases h; rfl⟩)
  | .list l => by
    rw [parseValue]
    exact (ks_list l).combine.congr (fun s => ⟨fun ⟨x, hx, h⟩ => .item hx h, fun h => by
      cases h with
      | item hx h => exact ⟨_, hx, h⟩⟩)
  | .obj kvs => by
    rw [parseValue]
    exact (ks_obj kvs).combine.congr (fun s => ⟨fun ⟨x, hx, h⟩ => h.elim (fun e => e ▸ .name (x := x.2) hx) (fun h => .entry hx h),
      fun h => by
        cases h with
        | name hx => exact ⟨_, hx, .inl rfl⟩
        | entry hx h => exact ⟨_, hx, .inr h⟩⟩)
  | .null => by rw [parseValue]; exact ks_none.congr (fun s => ⟨False.elim, fun h => by cases h⟩); all_goals simp
  | .bool _ => by rw [parseValue]; exact ks_none.congr (fun s => ⟨False.elim, fun h => by cases h⟩); all_goals simp
  | .int _ => by rw [parseValue]; exact ks_none.congr (fun s => ⟨False.elim, fun h => by cases h⟩); all_goals simp
  | .float _ => by rw [parseValue]; exact ks_none.congr (fun s => ⟨False.elim, fun h => by cases h⟩); all_goals simp
  | .enum _ => by rw [parseValue]; exact ks_none.congr (fun s => ⟨False.elim, fun h => by cases h⟩); all_goals simp
theorem ks_list : ∀ (l : List GVal), KL (fun s => ∃ x ∈ l, AnyText x s) (parseList l)
  | [] => by
    rw [parseList]
    exact kl_nil.congr (fun s => ⟨False.elim, fun ⟨_, h, _⟩ => by cases h⟩)
  | x :: r => by
    rw [parseList]
    exact (KL.cons (ks_value x) (ks_list r)).congr (fun s => by simp [List.mem_cons])
theorem ks_obj : ∀ (l : List (Text × GVal)), KL (fun s => ∃ x ∈ l, s = x.1 ∨ AnyText x.2 s) (parseObj l)
  | [] => by
    rw [parseObj]
    exact kl_nil.congr (fun s => ⟨False.elim, fun ⟨_, h, _⟩ => by cases h⟩)
  | x :: r => by
    rw [parseObj]
    exact (KL.cons (ks_entry x) (ks_obj r)).congr (fun s => by simp [List.mem_cons])
theorem ks_entry : ∀ (x : Text × GVal), KS (fun s => s = x.1 ∨ AnyText x.2 s) (parseEntry x)
  | (k, v) => by
    rw [parseEntry]
    exact (ks_str k).merge (ks_value v)
end

theorem kl_args : ∀ (l : List (Text × GVal)), KL (fun s => ∃ x ∈ l, s = x.1 ∨ AnyText x.2 s) (parseArgs l)
  | [] => by
    rw [parseArgs]
    exact kl_nil.congr (fun s => ⟨False.elim, fun ⟨_, h, _⟩ => by cases h⟩)
  | (k, v) :: r => by
    rw [parseArgs]
    have h2 : KL (fun s => s = k ∨ AnyText v s ∨ False) (allOf [parseStr k, parseValue v]) :=
      KL.cons (ks_str k) (KL.cons (ks_value v) kl_nil)
    exact (KL.append h2 (kl_args r)).congr (fun s => by simp [List.mem_cons])

/-! ## The texts of a resolver -/

/-- The texts that `extract_keys` looks at. -/
def Parsed : Resolver → Text → Prop
  | .http u b h q, s => s = u ∨ b = some s ∨ KvText h s ∨ KvText q s
  | .grpc u m b h, s => s = u ∨ s = m ∨ (∃ v, b = some v ∧ AnyText v s) ∨ KvText h s
  | .graphql h a, s => KvText h s ∨ ∃ l, a = some l ∧ KvText l s
  | .call [], _ => False
  | .call (step :: _), s => ∃ x ∈ step, s = x.1 ∨ AnyText x.2 s
  | .expr v, s => AnyText v s
  | .other _, _ => False

theorem ks_text (b : Option Text) : KS (fun s => b = some s) (parseText b) := by
  cases b with
  | none => exact ks_none.congr (fun s => ⟨False.elim, fun h => by cases h⟩)
  | some t => exact (ks_str t).congr (fun s => ⟨fun h => by rw [h], fun h => (Option.some.inj h).symm⟩)

theorem ks_valueOption (b : Option GVal) : KS (fun s => ∃ v, b = some v ∧ AnyText v s) (parseValueOption b) := by
  cases b with
  | none => exact ks_none.congr (fun s => ⟨False.elim, fun ⟨_, h, _⟩ => by cases h⟩)
  | some v => exact (ks_value v).congr (fun s => ⟨fun h => ⟨v, rfl, h⟩, fun ⟨_, h, h'⟩ => by cases h; exact h'⟩)

theorem ks_kvsOption (a : Option (List (Text × Text))) :
    KS (fun s => ∃ l, a = some l ∧ KvText l s) (parseKvsOption a) := by
  cases a with
  | none => exact ks_none.congr (fun s => ⟨False.elim, fun ⟨_, h, _⟩ => by cases h⟩)
  | some v => exact (ks_kvs0 v).congr (fun s => ⟨fun h => ⟨v, rfl, h⟩, fun ⟨_, h, h'⟩ => by cases h; exact h'⟩)

/-- The resolver is no call without steps. -/
def HasStep (r : Resolver) : Prop := r ≠ .call []

theorem kl_of_extract {r : Resolver} (hs : HasStep r) (ho : ∀ n, r ≠ .other n) :
    ∃ o, KL (Parsed r) o ∧ extractList r = o.map some := by
  cases r with
  | http u b h q =>
    exact ⟨_, (KL.cons (ks_str u) (KL.cons (ks_text b) (KL.cons (ks_kvs0 h) (KL.cons (ks_kvs0 q) kl_nil)))).congr
      (fun s => by simp [Parsed]), rfl⟩
  | grpc u m b h =>
    exact ⟨_, (KL.cons (ks_str u) (KL.cons (ks_str m) (KL.cons (ks_valueOption b) (KL.cons (ks_kvs0 h) kl_nil)))).congr
      (fun s => by simp [Parsed]), rfl⟩
  | graphql h a =>
    exact ⟨_, (KL.cons (ks_kvs0 h) (KL.cons (ks_kvsOption a) kl_nil)).congr (fun s => by simp [Parsed]), rfl⟩
  | call steps =>
    cases steps with
    | nil => exact absurd rfl hs
    | cons step steps => exact ⟨_, kl_args step, rfl⟩
  | expr v => exact ⟨_, (KL.cons (ks_value v) kl_nil).congr (fun s => by simp [Parsed]), rfl⟩
  | other n => exact absurd rfl (ho n)

/-- What is extracted: nothing, when no text mentions the representation; else the key of the mentioned paths. -/
theorem extract_spec (r : Resolver) :
    (extractKeys r = none ↔ r = .call [] ∨ UsesArgs (Parsed r)) ∧
    (extractKeys r = some none → ∀ q, q ≠ [] → ¬ Used (Parsed r) q) ∧
    (∀ fields, extractKeys r = some (some fields) →
      (keyPaths fields).Nodup ∧ keyPaths fields ≠ [] ∧ ∀ q, q ∈ keyPaths fields ↔ q ≠ [] ∧ Used (Parsed r) q) := by
  by_cases hs : r = .call []
  · subst hs
    exact ⟨⟨fun _ => .inl rfl, fun _ => rfl⟩, fun h => (by cases h), fun f h => (by cases h)⟩
  · by_cases ho : ∃ n, r = .other n
    · obtain ⟨n, rfl⟩ := ho
      refine ⟨⟨fun h => (by cases h), ?_⟩, fun _ q _ ⟨_, _, h, _⟩ => h, fun f h => (by cases h)⟩
      rintro (h | ⟨_, _, h, _⟩)
      · cases h
      · exact h.elim
    · obtain ⟨o, ho, he⟩ := kl_of_extract (r := r) hs (fun n h => ho ⟨n, h⟩)
      have hc := ho.combine
      rw [extractKeys, he]
      cases o with
      | none =>
        refine ⟨⟨fun _ => .inr (ho.fails.1 rfl), fun _ => rfl⟩, fun h => (by cases h), fun f h => (by cases h)⟩
      | some l =>
        have hn : ¬ (r = .call [] ∨ UsesArgs (Parsed r)) := by
          rintro (h | h)
          · exact hs h
          · exact absurd (ho.fails.2 h) (by simp)
        simp only [Option.map_some]
        have hnam := hc.named (combine l) rfl
        have hsort := hc.sorted (combine l) rfl
        cases hk : combine l with
        | nil =>
          refine ⟨⟨fun h => (by cases h), fun h => absurd h hn⟩, fun _ q hq h => ?_, fun f h => (by cases h)⟩
          have := (hnam q hq).2 h
          rw [hk] at this
          exact not_has_empty hq this
        | cons k s rest =>
          refine ⟨⟨fun h => (by cases h), fun h => absurd h hn⟩, fun h => (by cases h), fun f h => ?_⟩
          cases h
          rw [hk] at hnam hsort
          have hp : (Keys.cons k s rest).AllPlain := allPlain_of_has (fun q hq x hx => by
            have hq0 : q ≠ [] := by rintro rfl; cases hx
            obtain ⟨_, p, _, hm, hpre⟩ := (hnam q hq0).1 hq
            exact mentions_valid hm x (hpre.subset hx))
          rw [keyPaths_print (by simp) hp]
          refine ⟨paths_nodup hsort, by rw [Keys.paths]; simp, fun q => ?_⟩
          rw [mem_paths]
          constructor
          · rintro ⟨h1, h2⟩; exact ⟨h1, (hnam q h1).1 h2⟩
          · rintro ⟨h1, h2⟩; exact ⟨h1, (hnam q h1).2 h2⟩

theorem anyText_of_val {v : GVal} {s : Text} (h : ValText v s) : AnyText v s := by
  induction h with
  | str s => exact .str s
  | item hx _ ih => exact .item hx ih
  | entry hx _ ih => exact .entry hx ih

/-- What is looked at is rendered or a name. -/
theorem parsed_split {r : Resolver} {s : Text} (h : Parsed r s) : Rendered r s ∨ NameText r s := by
  cases r with
  | http u b hh q =>
    rcases h with h | h | ⟨⟨k, v⟩, hm, h | h⟩ | ⟨⟨k, v⟩, hm, h | h⟩
    · subst h; exact .inl .httpUrl
    · subst h; exact .inl .httpBody
    · subst h; exact .inr (.httpHeader hm)
    · subst h; exact .inl (.httpHeader hm)
    · subst h; exact .inr (.httpQuery hm)
    · subst h; exact .inl (.httpQuery hm)
  | grpc u m b hh =>
    rcases h with h | h | ⟨v, hv, h⟩ | ⟨⟨k, v⟩, hm, h | h⟩
    · subst h; exact .inl .grpcUrl
    · subst h; exact .inr .grpcMethod
    · subst hv; exact .inl (.grpcBody h)
    · subst h; exact .inr (.grpcHeader hm)
    · subst h; exact .inl (.grpcHeader hm)
  | graphql hh a =>
    rcases h with ⟨⟨k, v⟩, hm, h | h⟩ | ⟨l, hl, ⟨k, v⟩, hm, h | h⟩
    · subst h; exact .inr (.gqlHeader hm)
    · subst h; exact .inl (.gqlHeader hm)
    · subst h; subst hl; exact .inr (.gqlArg hm)
    · subst h; subst hl; exact .inl (.gqlArg hm)
  | call steps =>
    cases steps with
    | nil => exact h.elim
    | cons step steps =>
      obtain ⟨⟨k, v⟩, hm, h⟩ := h
      rcases h with h | h
      · subst h; exact .inr (.callArg hm)
      · by_cases hv : ValText v s
        · exact .inl (.callArg List.mem_cons_self hm hv)
        · exact .inr (.callIn hm h hv)
  | expr v =>
    by_cases hv : ValText v s
    · exact .inl (.expr hv)
    · exact .inr (.expr h hv)
  | other n => exact h.elim

/-- What is rendered is looked at, but for later steps of calls. -/
theorem parsed_of_rendered {r : Resolver} {s : Text} (h : Rendered r s) :
    Parsed r s ∨ ∃ step steps, r = .call (step :: steps) ∧ Rendered (.call steps) s := by
  cases h with
  | httpUrl => exact .inl (.inl rfl)
  | httpBody => exact .inl (.inr (.inl rfl))
  | httpHeader h => exact .inl (.inr (.inr (.inl ⟨_, h, .inr rfl⟩)))
  | httpQuery h => exact .inl (.inr (.inr (.inr ⟨_, h, .inr rfl⟩)))
  | grpcUrl => exact .inl (.inl rfl)
  | grpcBody h => exact .inl (.inr (.inr (.inl ⟨_, rfl, h⟩)))
  | grpcHeader h => exact .inl (.inr (.inr (.inr ⟨_, h, .inr rfl⟩)))
  | gqlHeader h => exact .inl (.inl ⟨_, h, .inr rfl⟩)
  | gqlArg h => exact .inl (.inr ⟨_, rfl, ⟨_, h, .inr rfl⟩⟩)
  | @callArg steps step k v s hs hm h =>
    cases steps with
    | nil => cases hs
    | cons st steps =>
      rcases List.mem_cons.1 hs with rfl | hs
      · exact .inl ⟨(k, v), hm, .inr (anyText_of_val h)⟩
      · exact .inr ⟨st, steps, rfl, .callArg hs hm h⟩
  | expr h => exact .inl (anyText_of_val h)

end Verif.Subgraph
