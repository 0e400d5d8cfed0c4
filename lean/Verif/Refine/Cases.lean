import Verif.Refine.Dups

/-!
# Examples and violations of merging (C100, C101)
-/

namespace Verif.Refine

open Verif.Mustache (Text)
open Verif.Exec (Ty)
open Verif.Transform

set_option linter.unusedSimpArgs false

/-- The predefined scalars of the examples: `Int`, `String` and `JSON`. -/
def preX (t : Text) : Bool := t = ['I'] || t = ['S'] || t = json

/-- A field of a nullable type without arguments. -/
def fld (t : Text) : FieldD := ⟨.named t false, [], []⟩

/-- A type with these fields. -/
def typ (fs : List (Text × FieldD)) : TypeD := ⟨fs, [], []⟩

/-- A configuration with these types. -/
def cfg (types : List (Text × TypeD)) : Cfg := ⟨types, [], [], some ['Q'], none, none⟩

/-- Nothing of a merged type's settings is kept in the examples. -/
def noJoin (_ _ : Text) : Text := []

/-! ## Checks for concrete configurations -/

/-- The names that merging makes begin with `G`. -/
theorem mergedName_head (j : Nat) : (mergedName j).head? = some 'G' := rfl

/-- No name begins with `G`. -/
def freshB (c : Cfg) : Bool :=
  c.types.all (fun p => p.1.head? ≠ some 'G' && p.2.implements.all (fun i => i.head? ≠ some 'G') &&
    p.2.fields.all (fun f => f.2.ty.name.head? ≠ some 'G' && f.2.args.all (fun a => a.2.ty.name.head? ≠ some 'G'))) &&
  c.unions.all (fun p => p.1.head? ≠ some 'G' && p.2.types.all (fun m => m.head? ≠ some 'G'))

theorem fresh_of {c : Cfg} (h : freshB c = true) : FreshFrom 1 c := by
  simp only [freshB, Bool.and_eq_true, List.all_eq_true, decide_eq_true_eq] at h
  obtain ⟨ht, hu⟩ := h
  have ne : ∀ {x : Text} {j : Nat}, x.head? ≠ some 'G' → x ≠ mergedName j := fun hx e => hx (e ▸ mergedName_head _)
  refine ⟨fun j _ h => ?_, fun j _ h => ?_, fun j _ n u hn h => ?_, fun j _ n t f fd hn hf => ?_, fun j _ n t f fd a hn hf ha => ?_,
    fun j _ n t hn h => ?_⟩
  · obtain ⟨p, hp, e⟩ := List.mem_map.1 h
    exact ne (ht p hp).1.1 e
  · obtain ⟨p, hp, e⟩ := List.mem_map.1 h
    exact ne (hu p hp).1 e
  · exact ne ((hu _ (at_mem hn)).2 _ h) rfl
  · exact ne ((ht _ (at_mem hn)).2 _ (at_mem hf)).1
  · exact ne (((ht _ (at_mem hn)).2 _ (at_mem hf)).2 a ha)
  · exact ne ((ht _ (at_mem hn)).1.2 _ h) rfl

/-- The checks for `Wf`. -/
def wfB (c : Cfg) : Bool :=
  c.types.all (fun p => decide (p.2.fields.Pairwise (fun a b => Verif.Merge.tlt a.1 b.1 = true)) && p.1 ≠ json &&
    c.unions.all (fun u => u.1 ≠ p.1)) &&
  c.unions.all (fun p => p.2.types.all (fun m => c.unions.all (fun u => u.1 ≠ m)))

theorem wf_of {pre : Text → Bool} {c : Cfg} (hj : pre json = true) (h : wfB c = true) : Wf pre c := by
  simp only [wfB, Bool.and_eq_true, List.all_eq_true, decide_eq_true_eq] at h
  obtain ⟨ht, hu⟩ := h
  refine ⟨fun n t hn => (ht _ (at_mem hn)).1.1, fun n t u hn hu' => (ht _ (at_mem hn)).2 _ (at_mem hu') rfl,
    fun x u m hx hm h => ?_, hj, fun h => ?_⟩
  · obtain ⟨p, hp, e⟩ := List.mem_map.1 h
    exact hu _ (at_mem hx) m hm p hp e
  · obtain ⟨p, hp, e⟩ := List.mem_map.1 h
    exact (ht p hp).1.2 e

/-- The check for `OneType`. -/
def oneB (pre : Text → Bool) (c : Cfg) : Bool :=
  c.types.all (fun p => c.types.all (fun q => p.2.fields.all (fun f => q.2.fields.all (fun g =>
    f.1 ≠ g.1 || (get c.types f.2.ty.name).isNone || (get c.types g.2.ty.name).isNone || f.2.ty.name = g.2.ty.name ||
      (isScalar pre c f.2.ty.name && isScalar pre c g.2.ty.name)))))

theorem one_of {pre : Text → Bool} {c : Cfg} (h : oneB pre c = true) : OneType pre c := by
  simp only [oneB, List.all_eq_true] at h
  intro n t m s f a b hn hm ha hb hla hlb
  have := h _ (at_mem hn) _ (at_mem hm) _ (at_mem ha) _ (at_mem hb)
  simp only [Bool.or_eq_true, Bool.and_eq_true, decide_eq_true_eq, Option.isNone_iff_eq_none, get_none] at this
  rcases this with (((h | h) | h) | h) | h
  · exact absurd rfl h
  · exact absurd h hla
  · exact absurd h hlb
  · exact .inl h
  · exact .inr h

/-- Where a path leads. -/
def follow (c : Cfg) : Text → List Text → Option Text
  | n, [] => some n
  | n, f :: p => match get c.types n with
    | some t => match get t.fields f with
      | some fd => follow c fd.ty.name p
      | none => none
    | none => none

theorem leads_iff {c : Cfg} : ∀ {p : List Text} {n m : Text}, Leads c n p m ↔ follow c n p = some m
  | [], n, m => ⟨fun h => by cases h; rfl, fun h => by cases h; exact .nil _⟩
  | f :: p, n, m => by
    rw [follow]
    constructor
    · intro h
      cases h with
      | cons ht hf hr =>
        rw [get_some.2 ht]
        simp only [get_some.2 hf]
        exact leads_iff.1 hr
    · intro h
      cases ht : get c.types n with
      | none => rw [ht] at h; cases h
      | some t =>
        rw [ht] at h
        simp only [] at h
        cases hf : get t.fields f with
        | none => rw [hf] at h; cases h
        | some fd =>
          rw [hf] at h
          exact .cons (get_some.1 ht) (get_some.1 hf) (leads_iff.2 h)

/-! ## An example -/

/-- `A` and `B` differ in `Int` and `JSON`; `C` and `D` become equal when they are merged. -/
def mergeCfg : Cfg := cfg [
  (['A'], typ [(['x'], fld ['I']), (['y'], ⟨.list (.named ['I'] false) false, [], []⟩)]),
  (['B'], typ [(['x'], fld json), (['y'], ⟨.list (.named ['I'] false) false, [], []⟩)]),
  (['C'], typ [(['u'], fld ['A'])]),
  (['D'], typ [(['u'], fld ['A'])]),
  (['Q'], typ [(['a'], fld ['A']), (['b'], fld ['B']), (['c'], fld ['C']), (['d'], fld ['D'])])]

/-- What becomes of it. -/
def mergeCfg' : Cfg := cfg [
  ("GEN__M1".toList, typ [(['x'], fld json), (['y'], ⟨.list (.named ['I'] false) false, [], []⟩)]),
  ("GEN__M2".toList, typ [(['u'], fld "GEN__M1".toList)]),
  (['Q'], typ [(['a'], fld "GEN__M1".toList), (['b'], fld "GEN__M1".toList), (['c'], fld "GEN__M2".toList), (['d'], fld "GEN__M2".toList)])]

theorem mergeCfg_runs : mergeTypes preX noJoin one 40 9 mergeCfg = some mergeCfg' := by decide +kernel

theorem mergeCfg_wf : Wf preX mergeCfg := wf_of rfl (by decide +kernel)

theorem mergeCfg_fresh : FreshFrom 1 mergeCfg := fresh_of (by decide +kernel)

theorem mergeCfg_one : OneType preX mergeCfg := one_of (by decide +kernel)

example : ∃ N, ∀ fuel rounds, N ≤ fuel → N ≤ rounds → ∃ c', mergeTypes preX noJoin one fuel rounds mergeCfg = some c' :=
  C100_ends noJoin one mergeCfg_wf mergeCfg_fresh

example : (∃ σ, Merged σ mergeCfg mergeCfg') ∧ Wf preX mergeCfg' := C100_merged mergeCfg_wf mergeCfg_fresh mergeCfg_runs

example : mergeTypes preX noJoin one 40 9 mergeCfg' = some mergeCfg' := C100_idempotent mergeCfg_wf mergeCfg_fresh mergeCfg_runs

/-- The check for `Closed`. -/
def closedB (pre : Text → Bool) (c : Cfg) : Bool :=
  let known := fun x => (get c.types x).isSome || (get c.unions x).isSome || (get c.enums x).isSome || pre x
  c.types.all (fun p => p.2.implements.all known && p.2.fields.all (fun f => known f.2.ty.name && f.2.args.all (fun a => known a.2.ty.name))) &&
  c.unions.all (fun p => p.2.types.all known)

theorem closed_of {pre : Text → Bool} {c : Cfg} (h : closedB pre c = true) : Closed pre c := by
  simp only [closedB, Bool.and_eq_true, List.all_eq_true] at h
  obtain ⟨ht, hu⟩ := h
  have kn : ∀ x, ((get c.types x).isSome || (get c.unions x).isSome || (get c.enums x).isSome || pre x) = true → Known pre c x := by
    intro x hx
    simp only [Bool.or_eq_true] at hx
    rcases hx with ((h | h) | h) | h
    · exact .inl (decl_iff.2 (.inr (.inl h)))
    · exact .inl (decl_iff.2 (.inl h))
    · exact .inl (decl_iff.2 (.inr (.inr h)))
    · exact .inr h
  exact ⟨fun n t f fd hn hf => kn _ ((ht _ (at_mem hn)).2 _ (at_mem hf)).1,
    fun n t f fd a hn hf ha => kn _ (((ht _ (at_mem hn)).2 _ (at_mem hf)).2 a ha),
    fun n t i hn hi => kn _ ((ht _ (at_mem hn)).1 i hi), fun n u m hn hm => kn _ (hu _ (at_mem hn) m hm)⟩

example : Closed preX mergeCfg' := C100_closed mergeCfg_wf mergeCfg_fresh (closed_of (by decide +kernel)) mergeCfg_runs

example : ∃ k' c', round preX noJoin one 40 1 mergeCfg = some (some (k', c')) ∧
    ∃ σ, Merged σ mergeCfg c' ∧ ∀ n t, At mergeCfg.types n t → σ n = n ∨ ∃ r, σ r = σ n ∧ ∀ x s, At mergeCfg.types x s → σ x = σ n →
      x = r ∨ SameUse preX mergeCfg r x := by
  obtain ⟨⟨k', c'⟩, h⟩ : ∃ q, round preX noJoin one 40 1 mergeCfg = some (some q) :=
    ⟨((round preX noJoin one 40 1 mergeCfg).getD none).getD (0, mergeCfg), by decide +kernel⟩
  exact ⟨k', c', h, C100_uses mergeCfg_wf mergeCfg_fresh (by decide +kernel) h⟩

/-- The query for `d { u { x } }` can be asked before and after. -/
example : ∃ σ, Merged σ mergeCfg mergeCfg' ∧ ∀ n t, At mergeCfg.types n t → ∀ p,
    (∀ m, Leads mergeCfg n p m → ∃ m', Leads mergeCfg' (σ n) p m' ∧ (m' = σ m ∨ (Scal preX mergeCfg m ∧ m' = "JSON".toList))) ∧
    (∀ m', Leads mergeCfg' (σ n) p m' → ∃ m, Leads mergeCfg n p m ∧ (m' = σ m ∨ (Scal preX mergeCfg m ∧ m' = "JSON".toList))) :=
  C101_paths_partial mergeCfg_wf mergeCfg_fresh mergeCfg_one mergeCfg_runs

example : Leads mergeCfg ['Q'] [['d'], ['u'], ['x']] ['I'] ∧ Leads mergeCfg' ['Q'] [['d'], ['u'], ['x']] json :=
  ⟨leads_iff.2 (by decide +kernel), leads_iff.2 (by decide +kernel)⟩

example : ∃ σ, Merged σ mergeCfg mergeCfg' ∧ ∀ n t f fd, At mergeCfg.types n t → At t.fields f fd → ∃ t' fd', At mergeCfg'.types (σ n) t' ∧
    At t'.fields f fd' ∧ ((fd'.ty.name = σ fd.ty.name ∧ ((∃ e nn, fd'.ty = .list e nn) ↔ ∃ e nn, fd.ty = .list e nn)) ∨
      (fd'.ty.name = "JSON".toList ∧ Scal preX mergeCfg fd.ty.name)) :=
  C101_lists_partial mergeCfg_wf mergeCfg_fresh mergeCfg_one mergeCfg_runs

/-! ## Violations -/

/-- A query and a mutation type that are alike are merged, and neither of them is there any more. -/
theorem C100_query_violated_by_merging : ∃ c c', Wf preX c ∧ FreshFrom 1 c ∧ mergeTypes preX noJoin one 40 9 c = some c' ∧
    c.query = some ['Q'] ∧ (∃ t, At c.types ['Q'] t) ∧ c'.query = some ['Q'] ∧ Lacks c'.types ['Q'] := by
  refine ⟨⟨[(['M'], typ [(['x'], fld ['I'])]), (['Q'], typ [(['x'], fld ['I'])])], [], [], some ['Q'], some ['M'], none⟩,
    ⟨[("GEN__M1".toList, typ [(['x'], fld ['I'])])], [], [], some ['Q'], some ['M'], none⟩,
    wf_of rfl (by decide +kernel), fresh_of (by decide +kernel), by decide +kernel, rfl, ⟨typ [(['x'], fld ['I'])], ?_⟩, rfl, ?_⟩
  · exact get_some.1 (by decide +kernel)
  · exact get_none.1 (by decide +kernel)

/-- A type that already has the name of a merged type is lost, for example when a merged configuration is extended and
merged again. -/
theorem C100_kept_violated_by_name : ∃ c c', Wf preX c ∧ mergeTypes preX noJoin one 40 9 c = some c' ∧
    (∃ m, Leads c ['Q'] [['c'], ['z']] m) ∧ ∀ n m, ¬ Leads c' n [['z']] m := by
  refine ⟨cfg [(['A'], typ [(['x'], fld ['I'])]), (['B'], typ [(['x'], fld ['I'])]), ("GEN__M1".toList, typ [(['z'], fld ['I'])]),
      (['Q'], typ [(['a'], fld ['A']), (['b'], fld ['B']), (['c'], fld "GEN__M1".toList)])],
    cfg [("GEN__M1".toList, typ [(['x'], fld ['I'])]),
      (['Q'], typ [(['a'], fld "GEN__M1".toList), (['b'], fld "GEN__M1".toList), (['c'], fld "GEN__M1".toList)])],
    wf_of rfl (by decide +kernel), by decide +kernel, ⟨['I'], leads_iff.2 (by decide +kernel)⟩, fun n m h => ?_⟩
  cases h with
  | cons ht hf _ =>
    rcases List.mem_cons.1 (at_mem ht) with e | h'
    · cases e
      exact at_not_lacks hf (get_none.1 (by decide +kernel))
    · rcases List.mem_cons.1 h' with e | h'
      · cases e
        exact at_not_lacks hf (get_none.1 (by decide +kernel))
      · cases h'

/-- When a pair of types is met for the second time, the types around are taken as similar at once, even at the threshold
one and even though the pair was found to be different: `A` and `B` have no field that agrees. -/
theorem C101_paths_violated_by_second_meeting : ∃ c c', Wf preX c ∧ FreshFrom 1 c ∧ mergeTypes preX noJoin one 40 9 c = some c' ∧
    Leads c ['Q'] [['a'], ['f'], ['u']] ['I'] ∧ Leads c ['Q'] [['a'], ['z']] ['I'] ∧
    (∀ m, ¬ Leads c' ['Q'] [['a'], ['f'], ['u']] m) ∧ Leads c' ['Q'] [['a'], ['z']] ['S'] := by
  refine ⟨cfg [(['A'], typ [(['f'], fld ['C']), (['g'], fld ['C']), (['z'], fld ['I'])]),
      (['B'], typ [(['f'], fld ['D']), (['g'], fld ['D']), (['z'], fld ['S'])]),
      (['C'], typ [(['u'], fld ['I'])]), (['D'], typ [(['v'], fld ['I'])]),
      (['Q'], typ [(['a'], fld ['A']), (['b'], fld ['B'])])],
    cfg [(['C'], typ [(['u'], fld ['I'])]), (['D'], typ [(['v'], fld ['I'])]),
      ("GEN__M1".toList, typ [(['f'], fld ['D']), (['g'], fld ['D']), (['z'], fld ['S'])]),
      (['Q'], typ [(['a'], fld "GEN__M1".toList), (['b'], fld "GEN__M1".toList)])],
    wf_of rfl (by decide +kernel), fresh_of (by decide +kernel), by decide +kernel, leads_iff.2 (by decide +kernel),
    leads_iff.2 (by decide +kernel), fun m h => ?_, leads_iff.2 (by decide +kernel)⟩
  have := leads_iff.1 h
  rw [show follow _ _ _ = none from by decide +kernel] at this
  cases this

/-- Fields with different types are not compared as lists: a list of objects becomes an object. -/
theorem C101_lists_violated_by_other_type : ∃ c c' t t', Wf preX c ∧ FreshFrom 1 c ∧ mergeTypes preX noJoin one 40 9 c = some c' ∧
    At c.types ['A'] t ∧ At t.fields ['f'] ⟨.list (.named ['C'] false) false, [], []⟩ ∧
    Leads c ['Q'] [['a']] ['A'] ∧ Leads c' ['Q'] [['a']] "GEN__M1".toList ∧ At c'.types "GEN__M1".toList t' ∧
    At t'.fields ['f'] ⟨.named "GEN__M2".toList false, [], []⟩ := by
  refine ⟨cfg [(['A'], typ [(['f'], ⟨.list (.named ['C'] false) false, [], []⟩)]), (['B'], typ [(['f'], fld ['D'])]),
      (['C'], typ [(['u'], fld ['I'])]), (['D'], typ [(['u'], fld ['I'])]),
      (['Q'], typ [(['a'], fld ['A']), (['b'], fld ['B'])])], _, _, _,
    wf_of rfl (by decide +kernel), fresh_of (by decide +kernel),
    show _ = some (cfg [("GEN__M1".toList, typ [(['f'], fld "GEN__M2".toList)]), ("GEN__M2".toList, typ [(['u'], fld ['I'])]),
      (['Q'], typ [(['a'], fld "GEN__M1".toList), (['b'], fld "GEN__M1".toList)])]) by decide +kernel,
    get_some.1 (by rfl), get_some.1 (by rfl), leads_iff.2 (by decide +kernel), leads_iff.2 (by decide +kernel), get_some.1 (by rfl), get_some.1 (by rfl)⟩

/-- `A` and `B` with one field each, below the query. -/
def pairCfg (a b : FieldD) : Cfg := cfg [(['A'], typ [(['x'], a)]), (['B'], typ [(['x'], b)]), (['Q'], typ [(['a'], fld ['A']), (['b'], fld ['B'])])]

/-- They are merged and have the field of the second. -/
def pairCfg' (b : FieldD) : Cfg := cfg [("GEN__M1".toList, typ [(['x'], b)]),
  (['Q'], typ [(['a'], fld "GEN__M1".toList), (['b'], fld "GEN__M1".toList)])]

/-- A field that may be null must not be null any more. -/
theorem C101_null_violated_by_other_field : ∃ a b, Wf preX (pairCfg a b) ∧ FreshFrom 1 (pairCfg a b) ∧ OneType preX (pairCfg a b) ∧
    mergeTypes preX noJoin one 40 9 (pairCfg a b) = some (pairCfg' b) ∧ a.ty = .named ['I'] false ∧ b.ty = .named ['I'] true :=
  ⟨⟨.named ['I'] false, [], []⟩, ⟨.named ['I'] true, [], []⟩, wf_of rfl (by decide +kernel), fresh_of (by decide +kernel),
    one_of (by decide +kernel), by decide +kernel, rfl, rfl⟩

/-- A list of lists becomes a list. -/
theorem C101_lists_violated_by_depth : ∃ a b, Wf preX (pairCfg a b) ∧ FreshFrom 1 (pairCfg a b) ∧ OneType preX (pairCfg a b) ∧
    mergeTypes preX noJoin one 40 9 (pairCfg a b) = some (pairCfg' b) ∧
    a.ty = .list (.list (.named ['I'] false) false) false ∧ b.ty = .list (.named ['I'] false) false :=
  ⟨⟨.list (.list (.named ['I'] false) false) false, [], []⟩, ⟨.list (.named ['I'] false) false, [], []⟩, wf_of rfl (by decide +kernel),
    fresh_of (by decide +kernel), one_of (by decide +kernel), by decide +kernel, rfl, rfl⟩

/-- A field is resolved in another way, and with other arguments. -/
theorem C101_resolver_violated_by_other_field : ∃ a b, Wf preX (pairCfg a b) ∧ FreshFrom 1 (pairCfg a b) ∧ OneType preX (pairCfg a b) ∧
    mergeTypes preX noJoin one 40 9 (pairCfg a b) = some (pairCfg' b) ∧ a.ty = b.ty ∧ a.info ≠ b.info ∧ a.args ≠ b.args :=
  ⟨⟨.named ['I'] false, [(['p'], ⟨.named ['I'] false, []⟩)], ['u']⟩, ⟨.named ['I'] false, [], ['v']⟩, wf_of rfl (by decide +kernel),
    fresh_of (by decide +kernel), one_of (by decide +kernel), by decide +kernel, rfl, by decide, by decide⟩

/-- The threshold one half. -/
def half (k n : Nat) : Bool := decide (0 < n ∧ n ≤ 2 * k)

/-- The inputs `A` and `B` have one of their two fields in common, and so have the outputs `D` and `E`. -/
def strictCfg : Cfg := cfg [
  (['A'], typ [(['x'], fld ['I']), (['y'], fld ['I'])]),
  (['B'], typ [(['x'], fld ['I'])]),
  (['D'], typ [(['x'], fld ['I']), (['z'], fld ['S'])]),
  (['E'], typ [(['x'], fld ['I'])]),
  (['Q'], typ [(['d'], ⟨.named ['D'] false, [(['p'], ⟨.named ['A'] false, []⟩)], []⟩),
    (['e'], ⟨.named ['E'] false, [(['p'], ⟨.named ['B'] false, []⟩)], []⟩)])]

/-- The outputs are merged, the inputs are not. -/
def strictCfg' : Cfg := cfg [
  (['A'], typ [(['x'], fld ['I']), (['y'], fld ['I'])]),
  (['B'], typ [(['x'], fld ['I'])]),
  ("GEN__M1".toList, typ [(['x'], fld ['I']), (['z'], fld ['S'])]),
  (['Q'], typ [(['d'], ⟨.named "GEN__M1".toList false, [(['p'], ⟨.named ['A'] false, []⟩)], []⟩),
    (['e'], ⟨.named "GEN__M1".toList false, [(['p'], ⟨.named ['B'] false, []⟩)], []⟩)])]

example : round preX noJoin half 40 1 strictCfg = some (some (2, strictCfg')) ∧
    ∃ σ, Merged σ strictCfg strictCfg' ∧ ∀ n t, At strictCfg.types n t → σ n = n ∨ ∃ r, σ r = σ n ∧ ∀ x s, At strictCfg.types x s →
      σ x = σ n → x = r ∨ (StrictUse preX strictCfg r x → ∃ tr, At strictCfg.types r tr ∧ Alike preX strictCfg tr s) := by
  have h : round preX noJoin half 40 1 strictCfg = some (some (2, strictCfg')) := by decide +kernel
  exact ⟨h, C101_strict_partial (wf_of rfl (by decide +kernel)) (fresh_of (by decide +kernel)) (by decide +kernel)
    (one_of (by decide +kernel)) h⟩

/-- `C` and `D` have the same fields before merging, and afterwards no two types that are used alike have. -/
example : (∃ s t, At mergeCfg.types ['C'] s ∧ At mergeCfg.types ['D'] t ∧ SameFields s t ∧ s.fields ≠ []) ∧
    ∀ a b s t, At mergeCfg'.types a s → At mergeCfg'.types b t → SameUse preX mergeCfg' a b → SameFields s t → s.fields ≠ [] → a = b :=
  ⟨⟨_, _, get_some.1 (by rfl), get_some.1 (by rfl), by rfl, by decide⟩,
    C100_complete (fun k hk => full_one k hk) mergeCfg_wf mergeCfg_fresh (by decide +kernel) mergeCfg_runs⟩

/-- Below the threshold one a scalar and an object do not hinder merging: `a { f }` can not be asked for any more. -/
theorem C101_paths_violated_by_threshold : ∃ c c', Wf preX c ∧ FreshFrom 1 c ∧ OneType preX c ∧ mergeTypes preX noJoin half 40 9 c = some c' ∧
    Leads c ['Q'] [['a'], ['f']] ['I'] ∧ Leads c' ['Q'] [['a'], ['f']] ['C'] ∧ Scal preX c ['I'] ∧ ¬ Scal preX c' ['C'] := by
  refine ⟨cfg [(['A'], typ [(['f'], fld ['I']), (['x'], fld ['I']), (['y'], fld ['I'])]),
      (['B'], typ [(['f'], fld ['C']), (['x'], fld ['I']), (['y'], fld ['I'])]), (['C'], typ [(['u'], fld ['I'])]),
      (['Q'], typ [(['a'], fld ['A']), (['b'], fld ['B'])])],
    cfg [(['C'], typ [(['u'], fld ['I'])]), ("GEN__M1".toList, typ [(['f'], fld ['C']), (['x'], fld ['I']), (['y'], fld ['I'])]),
      (['Q'], typ [(['a'], fld "GEN__M1".toList), (['b'], fld "GEN__M1".toList)])],
    wf_of rfl (by decide +kernel), fresh_of (by decide +kernel), one_of (by decide +kernel), by decide +kernel,
    leads_iff.2 (by decide +kernel), leads_iff.2 (by decide +kernel), isScalar_iff.1 (by decide +kernel), fun h => ?_⟩
  have := isScalar_iff.2 h
  exact absurd this (by decide +kernel)

end Verif.Refine
