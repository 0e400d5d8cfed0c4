import Verif.Gql.Print

/-!
# The document asks for what the client wants
-/

namespace Verif.Gql

open Verif.Mustache (Text)
open Verif.HttpUrl (intText boolText joinWith)
open Verif.Input (QVal)
open Verif.Ir (IR)

set_option linter.unusedSimpArgs false

theorem noDotss_iff (l : List Sel) : noDotss l = true ↔ ∀ s ∈ l, noDots s = true := by
  induction l with
  | nil => simp [noDotss]
  | cons a l ih => simp [noDotss, ih]

theorem name_ne_dots {t : Text} (h : isName t = true) : t ≠ dots := by
  intro e
  subst e
  exact absurd h (by decide)

theorem noDots_assemble {ord : List Text → List Text} (iface : Bool) {l : List DItem}
    (h : ∀ x ∈ l, noDots x.sel = true) : noDotss (assembleDoc ord iface l) = true := by
  rw [noDotss_iff]
  intro s hs
  unfold assembleDoc at hs
  split at hs
  · simp at hs
  · simp only [List.mem_append, List.mem_map, List.mem_filter] at hs
    rcases hs with (⟨x, hx, rfl⟩ | hs) | ⟨k, _, rfl⟩
    · exact h x hx.1
    · split at hs
      · rw [List.mem_singleton.mp hs]
        simp only [noDots, noDotss, Bool.and_true]
        decide
      · simp at hs
    · simp only [noDots]
      rw [noDotss_iff]
      intro s hs
      obtain ⟨x, hx, rfl⟩ := List.mem_map.mp hs
      exact h x (List.mem_filter.mp hx).1

theorem needed_up {f : GField} {ch : Text → Bool} {kind : Text → Kind} (h : goodF ch kind f = true)
    (hown : ownResolver f.ir = false) : neededName f = some (upName f) ∧ isName (upName f) = true := by
  cases f with
  | mk name out ir ty frag args dirs sub =>
    simp only [goodF, Bool.and_eq_true] at h
    rcases simple_needed (f := .mk name out ir ty frag args dirs sub) h.1.1.1.1.1.1 with ⟨h1, _⟩ | ⟨_, h2⟩
    · rw [h1] at hown; simp at hown
    · refine ⟨h2, ?_⟩
      have := h.1.1.1.1.1.2
      rw [h2] at this
      exact this

theorem needed_kept {f : GField} {ch : Text → Bool} {kind : Text → Kind} (h : goodF ch kind f = true) {n : Text}
    (hn : neededName f = some n) : ownResolver f.ir = false ∧ upName f = n := by
  cases f with
  | mk name out ir ty frag args dirs sub =>
    simp only [goodF, Bool.and_eq_true] at h
    rcases simple_needed (f := .mk name out ir ty frag args dirs sub) h.1.1.1.1.1.1 with ⟨_, h1⟩ | ⟨h1, h2⟩
    · rw [h1] at hn; simp at hn
    · rw [h2] at hn
      exact ⟨h1, Option.some.inj hn⟩

mutual
theorem noDots_field (vars : Text → SVal) (ord : List Text → List Text) (ifs : Text → Bool) (kind : Text → Kind)
    (ch : Text → Bool) :
    ∀ f : GField, goodF ch kind f = true → ownResolver f.ir = false → noDots (docItem vars ord ifs f).sel = true
  | .mk name out ir ty frag args dirs sub, h, hown => by
    have hn := (needed_up h hown).2
    simp only [goodF, Bool.and_eq_true] at h
    simp only [docItem, noDots, Bool.and_eq_true, bne_iff_ne]
    refine ⟨name_ne_dots hn, noDots_assemble _ ?_⟩
    intro x hx
    rw [docItems_eq] at hx
    obtain ⟨f, hf, rfl⟩ := List.mem_map.mp hx
    rw [List.mem_filter, Bool.not_eq_true'] at hf
    exact noDots_fields vars ord ifs kind ch sub h.2 f hf.1 hf.2
theorem noDots_fields (vars : Text → SVal) (ord : List Text → List Text) (ifs : Text → Bool) (kind : Text → Kind)
    (ch : Text → Bool) :
    ∀ l : List GField, goodFs ch kind l = true → ∀ f ∈ l, ownResolver f.ir = false →
      noDots (docItem vars ord ifs f).sel = true
  | [], _ => fun f hf => by simp at hf
  | g :: l, h => fun f hf hown => by
    simp only [goodFs, Bool.and_eq_true] at h
    have h1 := noDots_field vars ord ifs kind ch g h.1
    have h2 := noDots_fields vars ord ifs kind ch l h.2
    rcases List.mem_cons.mp hf with e | e
    · subst e; exact h1 hown
    · exact h2 f e hown
end

/-- The selections of the document, one by one. -/
theorem mem_assembleDoc {ord : List Text → List Text} (hord : ∀ l k, k ∈ ord l ↔ k ∈ l) {iface : Bool}
    {l : List DItem} {s : Sel} : s ∈ assembleDoc ord iface l ↔
      (∃ x ∈ l, (iface = true → x.frag = none) ∧ s = x.sel) ∨
      (l ≠ [] ∧ iface = true ∧ (∀ x ∈ l, x.name = typename → x.frag ≠ none) ∧ s = .field typename [] [] []) ∨
      (iface = true ∧ ∃ k, (∃ x ∈ l, x.frag = some k) ∧
        s = .frag k ((l.filter (fun i => i.frag == some k)).map (·.sel))) := by
  unfold assembleDoc
  by_cases hl : l = []
  · subst hl; simp
  have hne : l.isEmpty = false := by
    cases l with
    | nil => exact absurd rfl hl
    | cons => rfl
  rw [hne]
  simp only [Bool.false_eq_true, if_false, List.mem_append, List.mem_map, List.mem_filter, hord]
  have p1 : (∃ x, (x ∈ l ∧ (!(iface && x.frag.isSome)) = true) ∧ x.sel = s) ↔
      (∃ x ∈ l, (iface = true → x.frag = none) ∧ s = x.sel) := by
    constructor
    · rintro ⟨x, ⟨h1, h2⟩, h3⟩
      refine ⟨x, h1, fun hi => ?_, h3.symm⟩
      rw [hi] at h2
      cases hx : x.frag with
      | none => rfl
      | some k => rw [hx] at h2; simp at h2
    · rintro ⟨x, h1, h2, h3⟩
      refine ⟨x, ⟨h1, ?_⟩, h3.symm⟩
      cases hi : iface with
      | false => rfl
      | true => rw [h2 hi]; rfl
  have p2 : (s ∈ (if (iface && !(l.any (fun i => i.name == typename && i.frag.isNone))) = true then
        [Sel.field typename [] [] []] else [])) ↔
      (l ≠ [] ∧ iface = true ∧ (∀ x ∈ l, x.name = typename → x.frag ≠ none) ∧ s = .field typename [] [] []) := by
    constructor
    · intro h
      split at h
      · rename_i hc
        simp only [Bool.and_eq_true, Bool.not_eq_true', List.any_eq_false, beq_iff_eq, not_and] at hc
        refine ⟨hl, hc.1, fun x hx hn hf => ?_, List.mem_singleton.mp h⟩
        have := hc.2 x hx hn
        rw [hf] at this
        exact this rfl
      · simp at h
    · rintro ⟨_, h1, h2, h3⟩
      have hc : (iface && !(l.any (fun i => i.name == typename && i.frag.isNone))) = true := by
        rw [h1]
        simp only [Bool.true_and, Bool.not_eq_true', List.any_eq_false]
        intro x hx hc
        simp only [Bool.and_eq_true, beq_iff_eq] at hc
        exact h2 x hx hc.1 (Option.isNone_iff_eq_none.mp hc.2)
      rw [if_pos hc, h3]
      exact List.mem_singleton.mpr rfl
  have p3 : (∃ k, k ∈ (if iface = true then fragKeys (l.map (·.frag)) else []) ∧
        Sel.frag k ((l.filter (fun i => i.frag == some k)).map (·.sel)) = s) ↔
      (iface = true ∧ ∃ k, (∃ x ∈ l, x.frag = some k) ∧
        s = .frag k ((l.filter (fun i => i.frag == some k)).map (·.sel))) := by
    constructor
    · rintro ⟨k, h1, h2⟩
      split at h1
      · rename_i hi
        rw [mem_fragKeys] at h1
        obtain ⟨x, hx, hk⟩ := List.mem_map.mp h1
        exact ⟨hi, k, ⟨x, hx, hk⟩, h2.symm⟩
      · simp at h1
    · rintro ⟨hi, k, ⟨x, hx, hk⟩, h2⟩
      refine ⟨k, ?_, h2.symm⟩
      rw [if_pos hi, mem_fragKeys]
      exact List.mem_map.mpr ⟨x, hx, hk⟩
  rw [p1, p2, p3, or_assoc]

theorem at_nil (p : List Step) : ¬ At [] p := by
  intro h
  cases h with
  | here h => simp at h
  | deep h => simp at h
  | frag h => simp at h

/-- The interfaces among the kinds (`get_interfaces` gives exactly these). -/
def isIface (kind : Text → Kind) (t : Text) : Bool := kind t == .interface

theorem abstract_eq {kind : Text → Kind} {t : Text} (h : kind t ≠ .union) :
    (kind t).abstract = isIface kind t := by
  unfold isIface
  cases hk : kind t
  · rfl
  · rfl
  · exact absurd hk h

theorem docItem_shape (vars : Text → SVal) (ord : List Text → List Text) (ifs : Text → Bool) (f : GField) :
    docItem vars ord ifs f = ⟨f.frag, upName f, .field (upName f) (meantArgs vars f.args) (meantDirs vars f.dirs)
      (assembleDoc ord (ifs f.ty.name) (docItems vars ord ifs f.sub))⟩ := by
  cases f
  simp [docItem, GField.frag, GField.args, GField.dirs, GField.sub, GField.ty]

theorem asks_iff (vars : Text → SVal) {ord : List Text → List Text} (hord : ∀ l k, k ∈ ord l ↔ k ∈ l)
    (kind : Text → Kind) (ch : Text → Bool) (iface : Bool) (l : List GField)
    (hg : ∀ f ∈ l, goodF ch kind f = true)
    (ih : ∀ f ∈ l, ∀ p, At (assembleDoc ord (isIface kind f.ty.name) (docItems vars ord (isIface kind) f.sub)) p ↔
      Wants kind vars (kind f.ty.name).abstract f.sub p) (p : List Step) :
    At (assembleDoc ord iface (docItems vars ord (isIface kind) l)) p ↔ Wants kind vars iface l p := by
  have hmem : ∀ x, x ∈ docItems vars ord (isIface kind) l ↔
      ∃ f ∈ l, ownResolver f.ir = false ∧ x = docItem vars ord (isIface kind) f := by
    intro x
    rw [docItems_eq]
    simp only [List.mem_map, List.mem_filter, Bool.not_eq_true']
    constructor
    · rintro ⟨f, ⟨h1, h2⟩, h3⟩; exact ⟨f, h1, h2, h3.symm⟩
    · rintro ⟨f, h1, h2, h3⟩; exact ⟨f, ⟨h1, h2⟩, h3.symm⟩
  constructor
  · intro h
    -- a field of the document, outside or inside of a fragment
    have field : ∀ f ∈ l, ownResolver f.ir = false → ∀ n as ds sub q,
        docItem vars ord (isIface kind) f = q → q.sel = .field n as ds sub → ∀ conds,
        conds = (if iface then f.frag.toList else []) →
        Wants kind vars iface l [⟨conds, n, as, ds⟩] ∧
        ∀ p, At sub p → Wants kind vars iface l (⟨conds, n, as, ds⟩ :: p) := by
      intro f hf hown n as ds sub q hq hsel conds hc
      rw [docItem_shape] at hq
      subst hq
      simp only [Sel.field.injEq] at hsel
      obtain ⟨h1, h2, h3, h4⟩ := hsel
      have hn := (needed_up (hg f hf) hown).1
      have e : (⟨conds, n, as, ds⟩ : Step) = stepOf vars iface (upName f) f := by
        simp only [stepOf, ← h1, ← h2, ← h3, hc]
      refine ⟨?_, fun p hp => ?_⟩
      · rw [e]; exact Wants.here hf hn
      · rw [e]
        subst h4
        exact Wants.deep hf hn ((ih f hf p).mp hp)
    cases h with
    | here hm =>
      rcases (mem_assembleDoc hord).mp hm with ⟨x, hx, hfr, he⟩ | ⟨hne, hi, hty, he⟩ | ⟨_, k, _, he⟩
      · obtain ⟨f, hf, hown, rfl⟩ := (hmem x).mp hx
        refine (field f hf hown _ _ _ _ _ rfl he.symm [] ?_).1
        rw [docItem_shape] at hfr
        split
        · rename_i hi
          have hn : f.frag = none := hfr hi
          rw [hn]; rfl
        · rfl
      · simp only [Sel.field.injEq] at he
        obtain ⟨h1, h2, h3, h4⟩ := he
        subst h1 h2 h3 h4
        cases hd : docItems vars ord (isIface kind) l with
        | nil => exact absurd hd hne
        | cons x r =>
          obtain ⟨f, hf, hown, _⟩ := (hmem x).mp (by rw [hd]; exact List.mem_cons_self)
          rw [hi]
          refine Wants.typename hf (needed_up (hg f hf) hown).1 ?_
          intro g hgm hgn
          have hk := needed_kept (hg g hgm) hgn
          have := hty _ ((hmem _).mpr ⟨g, hgm, hk.1, rfl⟩)
          rw [docItem_shape] at this
          exact this hk.2
      · simp at he
    | deep hm hp =>
      rcases (mem_assembleDoc hord).mp hm with ⟨x, hx, hfr, he⟩ | ⟨hne, hi, hty, he⟩ | ⟨_, k, _, he⟩
      · obtain ⟨f, hf, hown, rfl⟩ := (hmem x).mp hx
        refine (field f hf hown _ _ _ _ _ rfl he.symm [] ?_).2 _ hp
        rw [docItem_shape] at hfr
        split
        · rename_i hi
          have hn : f.frag = none := hfr hi
          rw [hn]; rfl
        · rfl
      · simp only [Sel.field.injEq] at he
        rw [he.2.2.2] at hp
        exact absurd hp (at_nil _)
      · simp at he
    | frag hm hp =>
      rcases (mem_assembleDoc hord).mp hm with ⟨x, hx, hfr, he⟩ | ⟨hne, hi, hty, he⟩ | ⟨hi, k, _, he⟩
      · obtain ⟨f, hf, hown, rfl⟩ := (hmem x).mp hx
        rw [docItem_shape] at he
        simp at he
      · simp at he
      · simp only [Sel.frag.injEq] at he
        obtain ⟨h1, h2⟩ := he
        subst h1 h2
        have inside : ∀ (k : Text) (s : Sel), s ∈ ((docItems vars ord (isIface kind) l).filter (fun i => i.frag == some k)).map (·.sel) →
            ∃ f ∈ l, ownResolver f.ir = false ∧ f.frag = some k ∧ s = (docItem vars ord (isIface kind) f).sel := by
          intro k s hs
          obtain ⟨x, hx, rfl⟩ := List.mem_map.mp hs
          rw [List.mem_filter, beq_iff_eq] at hx
          obtain ⟨f, hf, hown, rfl⟩ := (hmem x).mp hx.1
          refine ⟨f, hf, hown, ?_, rfl⟩
          have := hx.2
          rw [docItem_shape] at this
          exact this
        cases hp with
        | here hm2 =>
          obtain ⟨f, hf, hown, hfr, he⟩ := inside _ _ hm2
          exact (field f hf hown _ _ _ _ _ rfl he.symm _ (by rw [hi, hfr]; rfl)).1
        | deep hm2 hp2 =>
          obtain ⟨f, hf, hown, hfr, he⟩ := inside _ _ hm2
          exact (field f hf hown _ _ _ _ _ rfl he.symm _ (by rw [hi, hfr]; rfl)).2 _ hp2
        | frag hm2 hp2 =>
          obtain ⟨f, hf, hown, hfr, he⟩ := inside _ _ hm2
          rw [docItem_shape] at he
          simp at he
  · intro h
    have place : ∀ f ∈ l, ∀ n, neededName f = some n →
        (At (assembleDoc ord iface (docItems vars ord (isIface kind) l)) [stepOf vars iface n f]) ∧
        (∀ q, At (assembleDoc ord (isIface kind f.ty.name) (docItems vars ord (isIface kind) f.sub)) q →
          At (assembleDoc ord iface (docItems vars ord (isIface kind) l)) (stepOf vars iface n f :: q)) := by
      intro f hf n hn
      have hk := needed_kept (hg f hf) hn
      have hx := (hmem _).mpr ⟨f, hf, hk.1, rfl⟩
      have hsh := docItem_shape vars ord (isIface kind) f
      by_cases hc : iface = true ∧ f.frag ≠ none
      · obtain ⟨hi, hfr⟩ := hc
        cases hfk : f.frag with
        | none => exact absurd hfk hfr
        | some k =>
          have hxk : (docItem vars ord (isIface kind) f).frag = some k := by rw [hsh]; exact hfk
          have hm := (mem_assembleDoc hord (iface := iface)).mpr
            (Or.inr (Or.inr ⟨hi, k, ⟨_, hx, hxk⟩, rfl⟩))
          have hin : (docItem vars ord (isIface kind) f).sel ∈
              ((docItems vars ord (isIface kind) l).filter (fun i => i.frag == some k)).map (·.sel) :=
            List.mem_map_of_mem (List.mem_filter.mpr ⟨hx, by rw [hxk]; simp⟩)
          rw [hsh] at hin
          have e : stepOf vars iface n f =
              { (⟨[], upName f, meantArgs vars f.args, meantDirs vars f.dirs⟩ : Step) with conds := k :: [] } := by
            simp only [stepOf, hi, if_true, hfk, hk.2, Option.toList_some]
          rw [e]
          exact ⟨At.frag hm (At.here hin), fun q hq => At.frag hm (At.deep hin hq)⟩
      · have hm := (mem_assembleDoc hord (iface := iface)).mpr (Or.inl ⟨_, hx, (fun hi => by
          rw [hsh]
          by_cases hfn : f.frag = none
          · exact hfn
          · exact absurd ⟨hi, hfn⟩ hc), rfl⟩)
        rw [hsh] at hm
        have e : stepOf vars iface n f = ⟨[], upName f, meantArgs vars f.args, meantDirs vars f.dirs⟩ := by
          simp only [stepOf, hk.2, Step.mk.injEq, and_true, and_self]
          split
          · rename_i hi
            by_cases hfn : f.frag = none
            · rw [hfn]; rfl
            · exact absurd ⟨hi, hfn⟩ hc
          · rfl
        rw [e]
        exact ⟨At.here hm, fun q hq => At.deep hm hq⟩
    cases h with
    | here hf hn => exact (place _ hf _ hn).1
    | deep hf hn hp => exact (place _ hf _ hn).2 _ ((ih _ hf _).mpr hp)
    | typename hf hn hno =>
      rename_i f n
      have hk := needed_kept (hg f hf) hn
      have hx := (hmem _).mpr ⟨f, hf, hk.1, rfl⟩
      refine At.here (sub := []) ((mem_assembleDoc hord).mpr (Or.inr (Or.inl ⟨?_, rfl, ?_, rfl⟩)))
      · intro he; rw [he] at hx; simp at hx
      · intro x hxm hxn
        obtain ⟨g, hgm, hown, rfl⟩ := (hmem x).mp hxm
        rw [docItem_shape] at hxn ⊢
        refine hno g hgm ?_
        rw [(needed_up (hg g hgm) hown).1]
        exact congrArg some hxn

mutual
theorem asks_field (vars : Text → SVal) {ord : List Text → List Text} (hord : ∀ l k, k ∈ ord l ↔ k ∈ l)
    (kind : Text → Kind) (ch : Text → Bool) : ∀ f : GField, goodF ch kind f = true → ∀ p,
    At (assembleDoc ord (isIface kind f.ty.name) (docItems vars ord (isIface kind) f.sub)) p ↔
      Wants kind vars (kind f.ty.name).abstract f.sub p
  | .mk name out ir ty frag args dirs sub, h, p => by
    simp only [goodF, Bool.and_eq_true, bne_iff_ne] at h
    simp only [GField.ty, GField.sub]
    rw [abstract_eq h.1.2]
    exact asks_iff vars hord kind ch _ sub (goodFs_mem h.2) (asks_fields vars hord kind ch sub h.2) p
theorem asks_fields (vars : Text → SVal) {ord : List Text → List Text} (hord : ∀ l k, k ∈ ord l ↔ k ∈ l)
    (kind : Text → Kind) (ch : Text → Bool) : ∀ l : List GField, goodFs ch kind l = true → ∀ f ∈ l, ∀ p,
    At (assembleDoc ord (isIface kind f.ty.name) (docItems vars ord (isIface kind) f.sub)) p ↔
      Wants kind vars (kind f.ty.name).abstract f.sub p
  | [], _ => fun f hf => by simp at hf
  | g :: l, h => fun f hf p => by
    simp only [goodFs, Bool.and_eq_true] at h
    have h1 := asks_field vars hord kind ch g h.1 p
    have h2 := asks_fields vars hord kind ch l h.2
    rcases List.mem_cons.mp hf with e | e
    · subst e; exact h1
    · exact h2 f e p
end

end Verif.Gql
