import Verif.Exec.Props
import Verif.Ir.Props
import Verif.Auth.Props

/-!
# C43 and C40 for whole plans
-/

namespace Verif.Exec

open Verif.Mustache (Text)
open Verif.HttpUrl (GVal)
open Verif.Ir (IR Res World Ctx St Io Ev Open OnlyCalls Movable Guard UsesEntity eval)
open Verif.Auth (Auth)
open Verif.Plan (skipField)

set_option linter.unusedSimpArgs false

/-- What a server does around execution: resolvers and the guard in front of the plan are evaluated
for one request, and the input resolver leaves the resolvers alone. -/
structure Real (o : Outer St) (w : World) (base : Ctx) : Prop where
  resolve : o.env.resolve = irResolve w base
  before : ∀ s ir, o.before s ir = eval w ir base s
  input : ∀ sel sel', o.input sel = .ok sel' → ∀ f, InPlan sel' f → ∃ g, InPlan sel g ∧ f.hdr.ir = g.hdr.ir

/-! ## Calls of an execution -/

theorem callAll_only {e : Env St} {good : Io → Prop} {h : Hdr}
    (hr : ∀ s v, OnlyCalls good s (e.resolve s h v).1) (s : St) (l : List GVal) :
    OnlyCalls good s (callAll e h s l).1 := by
  induction l generalizing s with
  | nil => exact Verif.Ir.onlyCalls_refl _ _
  | cons v r ih =>
    simp only [callAll]
    refine Verif.Ir.onlyCalls_trans _ _ _ _ ?_ (ih _)
    cases v <;> first | exact Verif.Ir.onlyCalls_refl _ _ | exact hr s _

theorem execIr_only {e : Env St} {good : Io → Prop} {h : Hdr}
    (hr : ∀ s v, OnlyCalls good s (e.resolve s h v).1) (s : St) (V : Option GVal) :
    OnlyCalls good s (execIr e h s V).1 := by
  cases V with
  | none => exact hr s none
  | some v =>
    cases v with
    | list l => exact callAll_only hr s _
    | null => exact Verif.Ir.onlyCalls_refl _ _
    | _ => exact hr s _

mutual
theorem execField_only {e : Env St} {good : Io → Prop} (f : Field)
    (hr : ∀ h ∈ dfsF f, h.ir ≠ none → ∀ s v, OnlyCalls good s (e.resolve s h v).1) (V : Option GVal) (q : St × Store) :
    OnlyCalls good q.1 (execField e f V q).1 := by
  match f, q with
  | .mk h sub, (s, st) =>
    have hsub : ∀ g ∈ dfs sub, g.ir ≠ none → ∀ s v, OnlyCalls good s (e.resolve s g v).1 :=
      fun g hg => hr g (List.mem_cons_of_mem _ hg)
    simp only [execField]
    cases hir : h.ir with
    | none => exact execAll_only sub hsub _ (s, st)
    | some ir =>
      have h1 := execIr_only (hr h List.mem_cons_self (by simp [hir])) s V
      simp only []
      revert h1
      generalize execIr e h s V = q
      obtain ⟨s', r⟩ := q
      intro h1
      cases r with
      | error x => exact h1
      | ok x =>
        have h2 := execAll_only sub hsub (some x) (s', st)
        exact Verif.Ir.onlyCalls_trans _ _ _ _ h1 h2
theorem execAll_only {e : Env St} {good : Io → Prop} (l : List Field)
    (hr : ∀ h ∈ dfs l, h.ir ≠ none → ∀ s v, OnlyCalls good s (e.resolve s h v).1) (V : Option GVal) (q : St × Store) :
    OnlyCalls good q.1 (execAll e l V q).1 := by
  match l with
  | [] => exact Verif.Ir.onlyCalls_refl _ _
  | f :: r =>
    simp only [execAll]
    exact Verif.Ir.onlyCalls_trans _ _ _ _
      (execField_only f (fun h hh => hr h (List.mem_append_left _ hh)) V q)
      (execAll_only r (fun h hh => hr h (List.mem_append_right _ hh)) V _)
end

mutual
theorem dfsF_inPlan (f : Field) (h : Hdr) (hh : h ∈ dfsF f) : ∃ g, InPlan [f] g ∧ g.hdr = h := by
  match f with
  | .mk h0 sub =>
    simp only [dfsF, List.mem_cons] at hh
    rcases hh with rfl | hh
    · exact ⟨.mk h sub, .here (List.mem_singleton.2 rfl), rfl⟩
    · obtain ⟨g, hg, rfl⟩ := dfs_inPlan sub h hh
      exact ⟨g, inPlan_sub hg, rfl⟩
theorem dfs_inPlan (l : List Field) (h : Hdr) (hh : h ∈ dfs l) : ∃ g, InPlan l g ∧ g.hdr = h := by
  match l with
  | [] => simp [dfs] at hh
  | f :: r =>
    simp only [dfs, List.mem_append] at hh
    rcases hh with hh | hh
    · obtain ⟨g, hg, rfl⟩ := dfsF_inPlan f h hh
      exact ⟨g, inPlan_mem List.mem_cons_self hg, rfl⟩
    · obtain ⟨g, hg, rfl⟩ := dfs_inPlan r h hh
      refine ⟨g, ?_, rfl⟩
      cases hg with
      | here hm => exact .here (List.mem_cons_of_mem _ hm)
      | deeper hm hg => exact .deeper (List.mem_cons_of_mem _ hm) hg
end

/-! ## The guards that the planner finds -/

/-- Specification: the fields whose guards are checked before execution: those below fields with a
resolver only. -/
inductive Reached : List Field → Field → Prop where
  | here {l f} : f ∈ l → Reached l f
  | deeper {l g f} : g ∈ l → g.hdr.ir ≠ none → Reached g.sub f → Reached l f

mutual
theorem authF_mem (f : Field) (a : Auth) :
    a ∈ (authF f).2 ↔ ∃ g ir, Reached [f] g ∧ g.hdr.ir = some ir ∧ Movable ir a := by
  match f with
  | .mk h sub =>
    have ih := authFs_mem sub a
    simp only [authF]
    cases hir : h.ir with
    | none =>
      simp only [List.not_mem_nil, false_iff]
      rintro ⟨g, ir, hg, h1, h2⟩
      cases hg with
      | here hm => rw [List.mem_singleton.1 hm] at h1; simp only [Field.hdr, hir] at h1; cases h1
      | deeper hm hne _ => rw [List.mem_singleton.1 hm] at hne; exact hne hir
    | some ir =>
      simp only [List.mem_append, Verif.Ir.updateIr_mem, ih]
      constructor
      · rintro (hm | ⟨g, ir', hg, h1, h2⟩)
        · exact ⟨.mk h sub, ir, .here (List.mem_singleton.2 rfl), hir, hm⟩
        · exact ⟨g, ir', .deeper (List.mem_singleton.2 rfl) (by simp [Field.hdr, hir]) hg, h1, h2⟩
      · rintro ⟨g, ir', hg, h1, h2⟩
        cases hg with
        | here hm =>
          rw [List.mem_singleton.1 hm] at h1
          simp only [Field.hdr, hir, Option.some.injEq] at h1
          subst h1
          exact Or.inl h2
        | deeper hm _ hg =>
          rw [List.mem_singleton.1 hm] at hg
          exact Or.inr ⟨g, ir', hg, h1, h2⟩
theorem authFs_mem (l : List Field) (a : Auth) :
    a ∈ (authFs l).2 ↔ ∃ g ir, Reached l g ∧ g.hdr.ir = some ir ∧ Movable ir a := by
  match l with
  | [] =>
    simp only [authFs, List.not_mem_nil, false_iff]
    rintro ⟨g, ir, hg, -⟩
    cases hg with
    | here h => cases h
    | deeper h _ _ => cases h
  | f :: r =>
    have h1 := authF_mem f a
    have h2 := authFs_mem r a
    simp only [authFs, List.mem_append, h1, h2]
    constructor
    · rintro (⟨g, ir, hg, hh⟩ | ⟨g, ir, hg, hh⟩)
      · refine ⟨g, ir, ?_, hh⟩
        cases hg with
        | here hm => rw [List.mem_singleton.1 hm]; exact .here List.mem_cons_self
        | deeper hm hne hg => rw [List.mem_singleton.1 hm] at hg hne; exact .deeper List.mem_cons_self hne hg
      · refine ⟨g, ir, ?_, hh⟩
        cases hg with
        | here hm => exact .here (List.mem_cons_of_mem _ hm)
        | deeper hm hne hg => exact .deeper (List.mem_cons_of_mem _ hm) hne hg
    · rintro ⟨g, ir, hg, hh⟩
      cases hg with
      | here hm =>
        rcases List.mem_cons.1 hm with rfl | hm
        · exact Or.inl ⟨g, ir, .here (List.mem_singleton.2 rfl), hh⟩
        · exact Or.inr ⟨g, ir, .here hm, hh⟩
      | deeper hm hne hg =>
        rcases List.mem_cons.1 hm with hm | hm
        · subst hm; exact Or.inl ⟨g, ir, .deeper (List.mem_singleton.2 rfl) hne hg, hh⟩
        · exact Or.inr ⟨g, ir, .deeper hm hne hg, hh⟩
end

/-- What becomes of a resolver in the planner. -/
def Came (l : List Field) (as : List Auth) (f : Field) : Prop :=
  ∃ g, InPlan l g ∧ (f.hdr.ir = g.hdr.ir ∨
    ∃ ir, g.hdr.ir = some ir ∧ f.hdr.ir = some (Verif.Ir.updateIr ir).1 ∧ ∀ a ∈ (Verif.Ir.updateIr ir).2, a ∈ as)

theorem came_mono {l l' : List Field} {as as' : List Auth} {f : Field} (hl : ∀ g, InPlan l g → InPlan l' g)
    (ha : ∀ a ∈ as, a ∈ as') (h : Came l as f) : Came l' as' f := by
  obtain ⟨g, hg, h | ⟨ir, h1, h2, h3⟩⟩ := h
  · exact ⟨g, hl g hg, Or.inl h⟩
  · exact ⟨g, hl g hg, Or.inr ⟨ir, h1, h2, fun a hh => ha a (h3 a hh)⟩⟩

mutual
theorem authF_came (f f' : Field) (h : InPlan [(authF f).1] f') : Came [f] (authF f).2 f' := by
  match f with
  | .mk h0 sub =>
    have ih := authFs_came sub
    simp only [authF] at h ⊢
    cases hir : h0.ir with
    | none =>
      rw [hir] at h
      simp only [] at h ⊢
      exact ⟨f', h, Or.inl rfl⟩
    | some ir =>
      rw [hir] at h
      simp only [] at h ⊢
      cases h with
      | here hm =>
        rw [List.mem_singleton.1 hm]
        exact ⟨.mk h0 sub, .here (List.mem_singleton.2 rfl),
          Or.inr ⟨ir, hir, rfl, fun a ha => List.mem_append_left _ ha⟩⟩
      | deeper hm hg =>
        rw [List.mem_singleton.1 hm] at hg
        exact came_mono (fun g hg => inPlan_sub hg) (fun a ha => List.mem_append_right _ ha) (ih f' hg)
theorem authFs_came (l : List Field) (f' : Field) (h : InPlan (authFs l).1 f') : Came l (authFs l).2 f' := by
  match l with
  | [] =>
    simp only [authFs] at h
    cases h with
    | here h => cases h
    | deeper h _ => cases h
  | f :: r =>
    have h1 := authF_came f f'
    have h2 := authFs_came r f'
    simp only [authFs] at h ⊢
    obtain ⟨g, hg, hg'⟩ := inPlan_member h
    rcases List.mem_cons.1 hg with hge | hg
    · exact came_mono (fun g hg => inPlan_mem List.mem_cons_self hg) (fun a ha => List.mem_append_left _ ha)
        (h1 (hge ▸ hg'))
    · exact came_mono (fun g hg => by
          obtain ⟨k, hk, hk'⟩ := inPlan_member hg
          exact inPlan_mem (List.mem_cons_of_mem _ hk) hk')
        (fun a ha => List.mem_append_right _ ha) (h2 (inPlan_mem hg hg'))
end

theorem verify_andAll (r : Verif.Auth.Req) (l : List Auth) (a : Auth) (h : Verif.Auth.andAll l = some a) :
    Verif.Auth.verify r a = .succeed ↔ ∀ b ∈ l, Verif.Auth.verify r b = .succeed := by
  rw [Verif.Auth.C42_boolean, Verif.Auth.andAll_holds _ l a h]
  exact ⟨fun hh b hb => (Verif.Auth.C42_boolean r b).2 (hh b hb), fun hh b hb => (Verif.Auth.C42_boolean r b).1 (hh b hb)⟩

theorem transforms_sel (p : Plan) : (transforms p).sel = (authFs p.sel).1 ∧
    (transforms p).before = (Verif.Auth.andAll (authFs p.sel).2).map
      (fun a => .protect a (.dynamic (.value .null))) := ⟨rfl, rfl⟩

/-- What follows the guard of a plan. -/
def body {σ : Type} (o : Outer σ) (p : Plan) (s : σ) : σ × Response := executePlan o { p with before := none } s

theorem executePlan_none {σ : Type} (o : Outer σ) (p : Plan) (s : σ) (h : p.before = none) :
    executePlan o p s = body o p s := by
  simp only [body, executePlan, h]

theorem executePlan_some {σ : Type} (o : Outer σ) (p : Plan) (s : σ) (ir : IR) (h : p.before = some ir) :
    executePlan o p s = match o.before s ir with
      | (s', .error x) => (s', ⟨.null, [.before x]⟩)
      | (s', .ok _) => body o p s' := by
  simp only [body, executePlan, h]
  rcases o.before s ir with ⟨s', _ | _⟩ <;> rfl

/-! ## C43 -/

/-- C43: executing a planned operation makes only calls of the original resolvers of its fields that
have no failing guard above them. -/
theorem C43_plan_calls_only_open (o : Outer St) (w : World) (base : Ctx) (ho : Real o w base) (p : Plan) (s : St) :
    ∃ evs, (executePlan o (transforms p) s).1.log = s.log ++ evs ∧
      ∀ i d, Ev.call i d ∈ evs → ∃ f ir, InPlan p.sel f ∧ f.hdr.ir = some ir ∧ Open base.auth ir i := by
  show OnlyCalls (fun i => ∃ f ir, InPlan p.sel f ∧ f.hdr.ir = some ir ∧ Open base.auth ir i) s _
  have hbody : (∀ a ∈ (authFs p.sel).2, Verif.Auth.verify base.auth a = .succeed) → ∀ s,
      OnlyCalls (fun i => ∃ f ir, InPlan p.sel f ∧ f.hdr.ir = some ir ∧ Open base.auth ir i) s
        (body o (transforms p) s).1 := by
    intro hpass s
    unfold body executePlan
    simp only []
    cases hin : o.input (skipFs o.env.vars (transforms p).sel) with
    | error m => exact Verif.Ir.onlyCalls_refl _ _
    | ok sel =>
      have hcalls := execAll_only (e := o.env)
        (good := fun i => ∃ f ir, InPlan p.sel f ∧ f.hdr.ir = some ir ∧ Open base.auth ir i) sel (by
          intro h hh hne s v
          obtain ⟨f, hf, rfl⟩ := dfs_inPlan sel h hh
          obtain ⟨g, hg, hgir⟩ := ho.input _ _ hin f hf
          obtain ⟨g', hg', -, rfl⟩ := inPlan_skipFs _ _ _ hg
          rw [(skipF_hdr _ g').1] at hgir
          rw [(transforms_sel p).1] at hg'
          obtain ⟨k, hk, hsame⟩ := authFs_came p.sel g' hg'
          rw [ho.resolve]
          unfold irResolve
          cases hir : f.hdr.ir with
          | none => exact Verif.Ir.onlyCalls_refl _ _
          | some ir =>
            simp only []
            rw [hgir] at hir
            rcases hsame with hsame | ⟨ir', h1, h2, h3⟩
            · rw [hir] at hsame
              exact Verif.Ir.onlyCalls_mono (fun i hi => ⟨k, ir, hk, hsame.symm, hi⟩)
                (Verif.Ir.eval_open w base.auth ir _ s rfl)
            · rw [hir] at h2
              simp only [Option.some.injEq] at h2
              subst h2
              rw [Verif.Ir.C43_planner_preserves w ir' { base with value := v, args := some f.hdr.args, valueO := none, argsO := none } s (fun a ha => hpass a (h3 a ha))]
              exact Verif.Ir.onlyCalls_mono (fun i hi => ⟨k, ir', hk, h1, hi⟩)
                (Verif.Ir.eval_open w base.auth ir' _ s rfl)) none (s, fun _ => none)
      simp only []
      split <;> exact hcalls
  cases hb : Verif.Auth.andAll (authFs p.sel).2 with
  | none =>
    rw [executePlan_none o _ s (by rw [(transforms_sel p).2, hb]; rfl)]
    refine hbody ?_ s
    intro a ha
    cases hl : (authFs p.sel).2 with
    | nil => rw [hl] at ha; cases ha
    | cons x r => rw [hl] at hb; simp [Verif.Auth.andAll] at hb
  | some a =>
    rw [executePlan_some o _ s _ (by rw [(transforms_sel p).2, hb]; rfl), ho.before]
    simp only [eval]
    cases hv : Verif.Auth.verify base.auth a with
    | fail x => exact Verif.Ir.onlyCalls_refl _ _
    | succeed =>
      simp only [eval]
      exact hbody ((verify_andAll base.auth _ a hb).1 hv) s

/-- C43: a plan with a guard that the request fails, on a field below fields with resolvers,
answers with nothing but the error, without any effect.  Partial: guards below a field without
resolver, in an enum mapping or in an entity resolver are checked when their field is resolved. -/
theorem C43_plan_rejected_partial (o : Outer St) (w : World) (base : Ctx) (ho : Real o w base) (p : Plan) (s : St)
    (f : Field) (ir : IR) (a : Auth) (hf : Reached p.sel f) (hir : f.hdr.ir = some ir) (ha : Movable ir a)
    (hv : Verif.Auth.verify base.auth a ≠ .succeed) :
    ∃ x, executePlan o (transforms p) s = (s, ⟨.null, [.before x]⟩) := by
  have hmem := (authFs_mem p.sel a).2 ⟨f, ir, hf, hir, ha⟩
  cases hb : Verif.Auth.andAll (authFs p.sel).2 with
  | none =>
    cases hl : (authFs p.sel).2 with
    | nil => rw [hl] at hmem; cases hmem
    | cons x r => rw [hl] at hb; simp [Verif.Auth.andAll] at hb
  | some b =>
    rw [executePlan_some o _ s _ (by rw [(transforms_sel p).2, hb]; rfl), ho.before]
    simp only [eval]
    cases hvb : Verif.Auth.verify base.auth b with
    | succeed => exact absurd ((verify_andAll base.auth _ b hb).1 hvb a hmem) hv
    | fail x => exact ⟨_, rfl⟩

/-! ## C40 -/

theorem callAll_at {σ : Type} {e : Env σ} {R : Hdr → Option GVal → Res} {h : Hdr}
    (hR : ∀ s v, (e.resolve s h v).2 = R h v) (s : σ) (l : List GVal) : (callAll e h s l).2 = l.map (callR R h) := by
  induction l generalizing s with
  | nil => rfl
  | cons v r ih =>
    simp only [callAll, List.map_cons, ih]
    congr 1
    cases v <;> simp [call, callR, hR s]

theorem execIr_at {σ : Type} {e : Env σ} {R : Hdr → Option GVal → Res} {h : Hdr}
    (hR : ∀ s v, (e.resolve s h v).2 = R h v) (s : σ) (V : Option GVal) :
    (execIr e h s V).2 = irVal e R h V := by
  cases V with
  | none => simp [execIr, irVal, call, hR s]
  | some v =>
    cases v with
    | list l =>
      simp only [execIr, irVal, callAll_at hR]
      have := (mapRef_place e h (callR R h) (.list l) []).1
      simpa using this
    | _ => simp [execIr, irVal, call, callR, hR s]

/-- Two environments that differ in the resolvers at most. -/
def SameSchema {σ τ : Type} (e1 : Env σ) (e2 : Env τ) : Prop :=
  e1.implements = e2.implements ∧ e1.enumOk = e2.enumOk ∧ e1.scalarOk = e2.scalarOk ∧ e1.vars = e2.vars

theorem partOf_same {σ τ : Type} {e1 : Env σ} {e2 : Env τ} (hs : SameSchema e1 e2) : partOf e1 = partOf e2 := by
  funext h v; simp only [partOf, hs.1]

theorem irVal_same {σ τ : Type} {e1 : Env σ} {e2 : Env τ} (hs : SameSchema e1 e2) (R : Hdr → Option GVal → Res) (h : Hdr)
    (V : Option GVal) : irVal e1 R h V = irVal e2 R h V := by
  cases V with
  | none => rfl
  | some v => cases v <;> simp only [irVal, partOf_same hs]

mutual
theorem execField_same {σ τ : Type} {e1 : Env σ} {e2 : Env τ} (hs : SameSchema e1 e2) (R : Hdr → Option GVal → Res)
    (f : Field)
    (h1 : ∀ h ∈ dfsF f, h.ir ≠ none → ∀ s v, (e1.resolve s h v).2 = R h v)
    (h2 : ∀ h ∈ dfsF f, h.ir ≠ none → ∀ s v, (e2.resolve s h v).2 = R h v)
    (V : Option GVal) (s1 : σ) (s2 : τ) (st : Store) :
    (execField e1 f V (s1, st)).2 = (execField e2 f V (s2, st)).2 := by
  match f with
  | .mk h sub =>
    have ih := execAll_same hs R sub (fun g hg => h1 g (List.mem_cons_of_mem _ hg))
      (fun g hg => h2 g (List.mem_cons_of_mem _ hg))
    simp only [execField]
    cases hir : h.ir with
    | none => exact ih _ s1 s2 st
    | some ir =>
      have g1 := execIr_at (h1 h List.mem_cons_self (by simp [hir])) s1 V
      have g2 := execIr_at (h2 h List.mem_cons_self (by simp [hir])) s2 V
      rw [irVal_same hs] at g1
      simp only []
      revert g1 g2
      generalize execIr e1 h s1 V = q1
      generalize execIr e2 h s2 V = q2
      obtain ⟨t1, r1⟩ := q1
      obtain ⟨t2, r2⟩ := q2
      simp only []
      intro g1 g2
      rw [g1, g2]
      cases irVal e2 R h V with
      | error x => rfl
      | ok x =>
        simp only []
        rw [ih (some x) t1 t2 st]
theorem execAll_same {σ τ : Type} {e1 : Env σ} {e2 : Env τ} (hs : SameSchema e1 e2) (R : Hdr → Option GVal → Res)
    (l : List Field)
    (h1 : ∀ h ∈ dfs l, h.ir ≠ none → ∀ s v, (e1.resolve s h v).2 = R h v)
    (h2 : ∀ h ∈ dfs l, h.ir ≠ none → ∀ s v, (e2.resolve s h v).2 = R h v)
    (V : Option GVal) (s1 : σ) (s2 : τ) (st : Store) :
    (execAll e1 l V (s1, st)).2 = (execAll e2 l V (s2, st)).2 := by
  match l with
  | [] => rfl
  | f :: r =>
    simp only [execAll]
    have h := execField_same hs R f (fun g hg => h1 g (List.mem_append_left _ hg))
      (fun g hg => h2 g (List.mem_append_left _ hg)) V s1 s2 st
    revert h
    generalize execField e1 f V (s1, st) = q1
    generalize execField e2 f V (s2, st) = q2
    obtain ⟨t1, st1⟩ := q1
    obtain ⟨t2, st2⟩ := q2
    simp only []
    rintro rfl
    exact execAll_same hs R r (fun g hg => h1 g (List.mem_append_right _ hg))
      (fun g hg => h2 g (List.mem_append_right _ hg)) V t1 t2 _
end

theorem included_same {σ τ : Type} {e1 : Env σ} {e2 : Env τ} (hs : SameSchema e1 e2) : included e1 = included e2 := by
  funext h; simp only [included, hs.2.2.2]

theorem enumItem_same {σ τ : Type} {e1 : Env σ} {e2 : Env τ} (hs : SameSchema e1 e2) : enumItem e1 = enumItem e2 := by
  funext h v; cases v <;> simp only [enumItem, hs.2.1]

theorem checked_same {σ τ : Type} {e1 : Env σ} {e2 : Env τ} (hs : SameSchema e1 e2) : checked e1 = checked e2 := by
  have : enumValue e1 = enumValue e2 := by
    funext h v; cases v <;> simp only [enumValue, enumItem_same hs]
  funext h v path k
  simp only [checked, included_same hs, hs.2.2.1, this]

mutual
theorem inner_same {σ τ : Type} {e1 : Env σ} {e2 : Env τ} (hs : SameSchema e1 e2) (h : Hdr) (kids : Kids) (v : GVal)
    (dp : List Nat) (path : Path) : inner e1 h kids v dp path = inner e2 h kids v dp path := by
  match v with
  | .null => simp only [inner, included_same hs]
  | .obj kvs => simp only [inner, checked_same hs]
  | .list l => simp only [inner, checked_same hs, inners_same hs h kids l 0 dp path]
  | .bool _ | .int _ | .float _ | .str _ | .enum _ => simp only [inner, checked_same hs]
theorem inners_same {σ τ : Type} {e1 : Env σ} {e2 : Env τ} (hs : SameSchema e1 e2) (h : Hdr) (kids : Kids)
    (l : List GVal) (i : Nat) (dp : List Nat) (path : Path) :
    inners e1 h kids l i dp path = inners e2 h kids l i dp path := by
  match l with
  | [] => rfl
  | v :: r =>
    simp only [inners, inner_same hs h kids v]
    split
    · rfl
    · rw [inners_same hs h kids r]
end

mutual
theorem synthField_same {σ τ : Type} {e1 : Env σ} {e2 : Env τ} (hs : SameSchema e1 e2) (st : Store) (f : Field) :
    synthField e1 st f = synthField e2 st f := by
  match f with
  | .mk h sub =>
    funext v dp root path
    have ih : synthKids e1 st sub h = synthKids e2 st sub h := by
      rw [synthKids_same hs st sub]
    simp only [synthField, ih]
    split
    · rfl
    · split
      · rfl
      · rfl
      · simp only [inner_same hs]
    · split
      · simp only [inner_same hs]
      · rfl
theorem synthKids_same {σ τ : Type} {e1 : Env σ} {e2 : Env τ} (hs : SameSchema e1 e2) (st : Store) (l : List Field) :
    synthKids e1 st l = synthKids e2 st l := by
  match l with
  | [] => rfl
  | f :: r =>
    funext h v kvs dp path
    simp only [synthKids, partOf_same hs, included_same hs, synthField_same hs st f, synthKids_same hs st r]
end

theorem synthRoots_same {σ τ : Type} {e1 : Env σ} {e2 : Env τ} (hs : SameSchema e1 e2) (st : Store) (root : Text)
    (l : List Field) (path : Path) (acc : List (Text × GVal)) :
    synthRoots e1 st root l path acc = synthRoots e2 st root l path acc := by
  induction l generalizing path acc with
  | nil => rfl
  | cons f r ih =>
    simp only [synthRoots, included_same hs, synthField_same hs st f, ih]

theorem synthesize_same {σ τ : Type} {e1 : Env σ} {e2 : Env τ} (hs : SameSchema e1 e2) (st : Store) (root : Text)
    (l : List Field) : synthesize e1 st root l = synthesize e2 st root l := by
  simp only [synthesize, synthRoots_same hs]

/-- Two servers with the same schema and settings, for two requests with the same variables. -/
structure SamePlanInput (o1 o2 : Outer St) : Prop where
  schema : SameSchema o1.env o2.env
  input : o1.input = o2.input
  intro : o1.enableIntrospection = o2.enableIntrospection ∧ o1.introspect = o2.introspect
  extra1 : ∀ s, o1.extra s = []
  extra2 : ∀ s, o2.extra s = []

/-- C40: a plan classified constant answers the same to any two requests with the same variables
that pass its guards, whatever their headers, the environment, the state of the caches and the
upstreams.  Partial: entity resolvers are excluded (`C40_violated_by_entity`), and so are requests
with different variables (`C40_violated_by_variables`) or other outcomes of the guards
(`C40_violated_by_guard`). -/
theorem C40_const_plan_partial (o1 o2 : Outer St) (w1 w2 : World) (b1 b2 : Ctx) (h1 : Real o1 w1 b1)
    (h2 : Real o2 w2 b2) (hw : w1.parse = w2.parse) (hio : SamePlanInput o1 o2) (p : Plan) (s1 s2 : St)
    (hconst : (transforms p).isConst = true)
    (hent : ∀ f ir, InPlan p.sel f → f.hdr.ir = some ir → ¬ UsesEntity ir)
    (hg1 : ∀ f ir a, InPlan p.sel f → f.hdr.ir = some ir → Guard ir a → Verif.Auth.verify b1.auth a = .succeed)
    (hg2 : ∀ f ir a, InPlan p.sel f → f.hdr.ir = some ir → Guard ir a → Verif.Auth.verify b2.auth a = .succeed) :
    (executePlan o1 (transforms p) s1).2 = (executePlan o2 (transforms p) s2).2 := by
  have movable_guard : ∀ ir a, Movable ir a → Guard ir a := by
    intro ir a h
    induction h with
    | here a x => exact .here a x
    | protect _ ih => exact .protect ih
    | path _ ih => exact .path ih
    | pipeL _ ih => exact .pipeL ih
    | pipeR _ ih => exact .pipeR ih
    | merge hx _ ih => exact .merge hx ih
    | discriminate _ ih => exact .discriminate ih
  have reached_inPlan : ∀ l g, Reached l g → InPlan l g := by
    intro l g h
    induction h with
    | here hm => exact .here hm
    | deeper hm _ _ ih => exact .deeper hm ih
  have hpass : ∀ (b : Ctx), (∀ f ir a, InPlan p.sel f → f.hdr.ir = some ir → Guard ir a →
      Verif.Auth.verify b.auth a = .succeed) → ∀ a ∈ (authFs p.sel).2, Verif.Auth.verify b.auth a = .succeed := by
    intro b hb a ha
    obtain ⟨g, ir, hg, hir, hm⟩ := (authFs_mem p.sel a).1 ha
    exact hb g ir a (reached_inPlan _ _ hg) hir (movable_guard _ _ hm)
  -- the guard in front passes
  have hexec : ∀ (o : Outer St) (w : World) (b : Ctx) (s : St), Real o w b →
      (∀ a ∈ (authFs p.sel).2, Verif.Auth.verify b.auth a = .succeed) →
      executePlan o (transforms p) s = body o (transforms p) s := by
    intro o w b s ho hp
    cases hb : Verif.Auth.andAll (authFs p.sel).2 with
    | none => exact executePlan_none o _ s (by rw [(transforms_sel p).2, hb]; rfl)
    | some a =>
      rw [executePlan_some o _ s _ (by rw [(transforms_sel p).2, hb]; rfl), ho.before]
      simp only [eval, (verify_andAll b.auth _ a hb).2 hp]
  rw [hexec o1 w1 b1 s1 h1 (hpass b1 hg1), hexec o2 w2 b2 s2 h2 (hpass b2 hg2)]
  -- every resolver of the plan has one result
  have hone : ∀ f ir, InPlan p.sel f → f.hdr.ir = some ir → ∃ r : Res, ∀ (w : World) (c : Ctx) (st : St),
      w.parse = w1.parse → (∀ a, Guard ir a → Verif.Auth.verify c.auth a = .succeed) → eval w ir c st = (st, r) := by
    intro f ir hf hir
    have hc : planConst p.sel = true := hconst
    unfold planConst at hc
    rw [List.all_eq_true] at hc
    have := hc f.hdr (inPlan_dfs hf)
    rw [hir] at this
    exact Verif.Ir.C40_const_has_one_result_partial w1.parse ir this (hent f ir hf hir)
  have key : ∀ (f' : Field), InPlan (authFs p.sel).1 f' → f'.hdr.ir ≠ none → ∃ r : Res,
      ∀ h : Hdr, h.ir = f'.hdr.ir → (∀ s v, (o1.env.resolve s h v).2 = r) ∧ (∀ s v, (o2.env.resolve s h v).2 = r) := by
    intro f' hf' hne
    obtain ⟨k, hk, hsame⟩ := authFs_came p.sel f' hf'
    rcases hsame with hsame | ⟨ir', g1, g2, g3⟩
    · cases hir : f'.hdr.ir with
      | none => exact absurd hir hne
      | some ir =>
        obtain ⟨r, hr⟩ := hone k ir hk (by rw [← hsame, hir])
        refine ⟨r, fun h hh => ⟨fun s v => ?_, fun s v => ?_⟩⟩
        · rw [h1.resolve]
          unfold irResolve
          rw [hh]
          simp only []
          rw [hr w1 { b1 with value := v, args := some h.args, valueO := none, argsO := none } s rfl (fun a ha => hg1 k ir a hk (by rw [← hsame, hir]) ha)]
        · rw [h2.resolve]
          unfold irResolve
          rw [hh]
          simp only []
          rw [hr w2 { b2 with value := v, args := some h.args, valueO := none, argsO := none } s hw.symm (fun a ha => hg2 k ir a hk (by rw [← hsame, hir]) ha)]
    · obtain ⟨r, hr⟩ := hone k ir' hk g1
      refine ⟨r, fun h hh => ⟨fun s v => ?_, fun s v => ?_⟩⟩
      · rw [h1.resolve]
        unfold irResolve
        rw [hh, g2]
        simp only []
        rw [Verif.Ir.C43_planner_preserves w1 ir' { b1 with value := v, args := some h.args, valueO := none, argsO := none } s
          (fun a ha => hpass b1 hg1 a (g3 a ha)),
          hr w1 { b1 with value := v, args := some h.args, valueO := none, argsO := none } s rfl (fun a ha => hg1 k ir' a hk g1 ha)]
      · rw [h2.resolve]
        unfold irResolve
        rw [hh, g2]
        simp only []
        rw [Verif.Ir.C43_planner_preserves w2 ir' { b2 with value := v, args := some h.args, valueO := none, argsO := none } s
          (fun a ha => hpass b2 hg2 a (g3 a ha)),
          hr w2 { b2 with value := v, args := some h.args, valueO := none, argsO := none } s hw.symm (fun a ha => hg2 k ir' a hk g1 ha)]
  unfold body executePlan
  simp only [← hio.schema.2.2.2, ← hio.input]
  cases hin : o1.input (skipFs o1.env.vars (transforms p).sel) with
  | error m => rfl
  | ok sel =>
    simp only []
    have hR : ∀ h ∈ dfs sel, h.ir ≠ none → ∃ r : Res,
        (∀ s v, (o1.env.resolve s h v).2 = r) ∧ (∀ s v, (o2.env.resolve s h v).2 = r) := by
      intro h hh hne
      obtain ⟨f, hf, rfl⟩ := dfs_inPlan sel h hh
      obtain ⟨g, hg, hgir⟩ := h1.input _ _ hin f hf
      obtain ⟨g', hg', -, rfl⟩ := inPlan_skipFs _ _ _ hg
      rw [(skipF_hdr _ g').1] at hgir
      rw [(transforms_sel p).1] at hg'
      obtain ⟨r, hr⟩ := key g' hg' (by rw [← hgir]; exact hne)
      exact ⟨r, hr f.hdr hgir⟩
    have hst := execAll_same hio.schema (fun h v => (o1.env.resolve s1 h v).2) sel
      (fun h hh hne s v => by obtain ⟨r, h1, _⟩ := hR h hh hne; rw [h1, h1])
      (fun h hh hne s v => by obtain ⟨r, h1, h2⟩ := hR h hh hne; rw [h1, h2])
      none s1 s2 (fun _ => none)
    revert hst
    generalize execAll o1.env sel none (s1, fun _ => none) = q1
    generalize execAll o2.env sel none (s2, fun _ => none) = q2
    obtain ⟨t1, st1⟩ := q1
    obtain ⟨t2, st2⟩ := q2
    simp only []
    rintro rfl
    simp only [hio.extra1, hio.extra2, synthesize_same hio.schema, hio.intro.1, hio.intro.2]
    split <;> rfl

/-! ## Concrete cases -/

open Verif.Ir (demoWorld demoCtx emptySt adminOnly adminHdr constant)

/-- A server without input processing for requests with some `Authorization` header. -/
def demoOuter (h : Verif.Auth.Header) (vars : Verif.Plan.Vars) : Outer St where
  env := { implements := fun a b => a = b, enumOk := fun _ _ => true, scalarOk := fun _ _ => true, vars := vars,
           resolve := irResolve demoWorld (demoCtx true h) }
  before s ir := eval demoWorld ir (demoCtx true h) s
  input := .ok
  extra _ := []
  enableIntrospection := false
  introspect := (.null, [])

theorem demoOuter_real (h : Verif.Auth.Header) (vars : Verif.Plan.Vars) :
    Real (demoOuter h vars) demoWorld (demoCtx true h) :=
  ⟨rfl, fun _ _ => rfl, fun sel sel' hs f hf => by cases hs; exact ⟨f, hf, rfl⟩⟩

/-- A field with some resolver. -/
def fldIr (id : Nat) (name : String) (ir : Option IR) (sub : List Field) : Field :=
  .mk { (fld id name name false opt sub).hdr with ir := ir } sub

/-- Example data for the concrete cases below. -/
def planOf (sel : List Field) : Plan where
  root := "Query".toList
  isQuery := true
  introspection := false
  isDedupe := false
  isConst := false
  isProtected := false
  ttl := none
  before := none
  sel := sel

/-- Example data for the concrete cases below. -/
def secret : IR := .protect adminOnly (.io (Verif.Ir.call 2))

/-- `{ open: call 1 { secret } }` -/
def guarded : Plan := planOf [fldIr 1 "open" (some (.io (Verif.Ir.call 1))) [fldIr 2 "secret" (some secret) []]]

/-- No call is made for a request without credentials, although the first field is not protected. -/
example : ∃ x, executePlan (demoOuter .absent (fun _ => none)) (transforms guarded) emptySt =
    (emptySt, ⟨.null, [.before x]⟩) :=
  C43_plan_rejected_partial _ demoWorld _ (demoOuter_real _ _) guarded emptySt (fldIr 2 "secret" (some secret) [])
    secret adminOnly (.deeper List.mem_cons_self (by simp [fldIr, Field.hdr]) (.here List.mem_cons_self)) rfl (.here _ _)
    (by decide)

/-- With the credentials both calls are made. -/
example : (executePlan (demoOuter adminHdr (fun _ => none)) (transforms guarded) emptySt).1.log.length = 2 := by rfl

/-- `{ user { plain { secret } } }`, where `plain` has no resolver and is null in the data. -/
def unreached : Plan :=
  planOf [fldIr 1 "user" (some (.dynamic (.value (obj [("plain", .null), ("id", .int 7)]))))
    [fldIr 2 "id" none [], fldIr 3 "plain" none [fldIr 4 "secret" (some secret) []]]]

/-- C43 is violated by a protected field below a field without resolver: its guard is not checked
before execution, and the request without credentials gets the other data of the operation. -/
theorem C43_violated_by_unreached_guard :
    ¬ (∃ x, (executePlan (demoOuter .absent (fun _ => none)) (transforms unreached) emptySt).2 = ⟨.null, [.before x]⟩) ∧
    (executePlan (demoOuter .absent (fun _ => none)) (transforms unreached) emptySt).2 =
      ⟨obj [("user", obj [("id", .int 7), ("plain", .null)])], []⟩ := by
  have h : (executePlan (demoOuter .absent (fun _ => none)) (transforms unreached) emptySt).2 =
      ⟨obj [("user", obj [("id", .int 7), ("plain", .null)])], []⟩ := rfl
  refine ⟨?_, h⟩
  rintro ⟨x, hx⟩
  rw [h] at hx
  cases hx

/-- A constant plan, `{ one(@include if: $v) two }`. -/
def constPlan : Plan :=
  planOf [.mk { (fldIr 1 "one" (some (constant "1")) []).hdr with incl := some "v".toList } [],
    fldIr 2 "two" (some (.protect adminOnly (constant "2"))) []]

example : (transforms constPlan).isConst = true := by rfl

/-- The hypotheses of `C40_const_plan_partial` hold for two requests of the same user with other
query parameters, in different states. -/
example : (executePlan (demoOuter adminHdr (fun _ => some true)) (transforms constPlan) emptySt).2 =
    (executePlan (demoOuter adminHdr (fun _ => some true)) (transforms constPlan)
      { emptySt with now := 5, done := [(1, .ok .null)] }).2 := by
  have hin : ∀ f ir, InPlan constPlan.sel f → f.hdr.ir = some ir →
      ir = constant "1" ∨ ir = .protect adminOnly (constant "2") := by
    intro f ir hf hir
    have h := inPlan_dfs hf
    simp only [constPlan, planOf, fldIr, fld, Field.hdr, dfs, dfsF, List.append_nil, List.nil_append, List.cons_append,
      List.mem_cons, List.not_mem_nil, or_false] at h
    rcases h with h | h
    · left; rw [show f.hdr = _ from h] at hir; exact (Option.some.inj hir).symm
    · right; rw [show f.hdr = _ from h] at hir; exact (Option.some.inj hir).symm
  have hguard : ∀ f ir a, InPlan constPlan.sel f → f.hdr.ir = some ir → Guard ir a →
      Verif.Auth.verify (demoCtx true adminHdr).auth a = .succeed := by
    intro f ir a hf hir ha
    rcases hin f ir hf hir with rfl | rfl
    · cases ha
    · cases ha with
      | here => decide
      | protect h => cases h
  refine C40_const_plan_partial _ _ demoWorld demoWorld _ _ (demoOuter_real adminHdr _) (demoOuter_real adminHdr _) rfl
    ⟨⟨rfl, rfl, rfl, rfl⟩, rfl, ⟨rfl, rfl⟩, fun _ => rfl, fun _ => rfl⟩ constPlan _ _ rfl ?_ hguard hguard
  intro f ir hf hir he
  rcases hin f ir hf hir with rfl | rfl
  · cases he
  · cases he with
    | protect h => cases h

/-- C40 is violated by variables: a constant plan answers differently to requests with different
variables. -/
theorem C40_violated_by_variables : (transforms constPlan).isConst = true ∧
    (executePlan (demoOuter adminHdr (fun _ => some true)) (transforms constPlan) emptySt).2 =
      ⟨obj [("one", .int 1), ("two", str "2")], []⟩ ∧
    (executePlan (demoOuter adminHdr (fun _ => some false)) (transforms constPlan) emptySt).2 =
      ⟨obj [("two", str "2")], []⟩ := ⟨rfl, rfl, rfl⟩

/-! ## C70: fields of fragments -/

/-- C70: below a list none of whose items has the type of its fragment, a field is not resolved.
Partial: a field of a single object is resolved whatever the type of the object. -/
theorem C70_no_call_for_other_types_partial {σ : Type} (e : Env σ) (h : Hdr) (s : σ) (l : List GVal)
    (hno : ∀ v, v ∈ itemsAll l → ¬ Applies e h v) : (execIr e h s (some (.list l))).1 = s := by
  rw [C36_calls_in_order e h s l (partOf e h) (fun v => (applies_partOf e h v).symm)]
  have : (itemsAll l).filter (partOf e h) = [] := by
    rw [List.filter_eq_nil_iff]
    intro v hv hp
    exact hno v hv ((applies_partOf e h v).2 hp)
  rw [this]
  rfl

/-- One root resolver that answers with `v`. -/
def constEnv1 (v : GVal) : Env Nat :=
  { demoEnv with resolve := fun n h u => if h.id = 1 then (n + 1, .ok v) else (n + 1, demoR h u) }

/-- A field inside `... on B`. -/
def onB (id : Nat) (name : String) : Field :=
  .mk { (fld id name name true opt []).hdr with tc := some "B".toList } []

/-- Example data for the concrete cases below. -/
def typed (t : String) : GVal := obj [("__typename", str t), ("name", str "x")]

example : (execIr demoEnv (onB 2 "upper").hdr 0 (some (.list [typed "A", .list [typed "A"]]))).1 = 0 :=
  C70_no_call_for_other_types_partial demoEnv _ 0 _ (by
    intro v hv hA
    have hv' : v = typed "A" := by
      simp only [itemsAll, typed, obj, items, List.append_nil, List.cons_append, List.nil_append, List.mem_cons,
        List.not_mem_nil, or_false, or_self] at hv
      exact hv
    subst hv'
    have := hA "B".toList _ "A".toList rfl rfl rfl
    exact absurd this (by decide))

/-- C70 is violated by a single object: the resolver of a field of `... on B` is called for an
object of type `A`; its result does not appear in the response. -/
theorem C70_violated_by_single_object :
    (execIr demoEnv (onB 2 "upper").hdr 0 (some (typed "A"))).1 = 1 ∧
    ¬ Applies demoEnv (onB 2 "upper").hdr (typed "A") ∧
    run (constEnv1 (typed "A")) [] [fld 1 "user" "user" true opt [fld 3 "name" "name" false opt [], onB 2 "upper"]] 0 =
      .ok (obj [("user", obj [("name", str "x")])]) := by
  refine ⟨rfl, ?_, rfl⟩
  intro hA
  have := hA "B".toList _ "A".toList rfl rfl rfl
  exact absurd this (by decide)

/-! ## C71: error paths -/

/-- C71 is violated by an earlier field that is null because its resolver gave no list: the path of
a later error begins with the name of that field. -/
theorem C71_violated_by_earlier_field :
    run demoEnv [] [fld 1 "nothing" "nothing" true (listOf opt) [],
      fld 2 "user" "user" true opt [fld 3 "name" "name" false req []]] 0 =
      .error ⟨.valueRequired, some [.field "nothing".toList, .field "user".toList, .field "name".toList]⟩ := rfl

/-- C71 is violated by an error of a resolver: it has no path. -/
theorem C71_violated_by_resolver_error :
    run demoEnv [] [fld 1 "user" "user" true opt [fld 2 "broken" "broken" true opt []]] 0 =
      .error ⟨.resolver .discriminate, none⟩ := rfl

end Verif.Exec
