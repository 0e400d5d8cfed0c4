import Verif.Ir.Model

/-!
# Lemmas about evaluation
-/

namespace Verif.Ir

open Verif.Mustache (Text Template)
open Verif.HttpUrl (GVal)
open Verif.Auth (Auth)

set_option linter.unusedSimpArgs false

/-! ## Invariants of runs -/

/-- A run moves the state along a relation, in every context that satisfies `P`. -/
def Moves (P : Ctx → Prop) (T : St → St → Prop) (f : Run) : Prop :=
  ∀ c st, P c → T st (f c st).1

/-- Contexts closed under `with_value` and `with_args`. -/
def Closed (P : Ctx → Prop) : Prop :=
  (∀ c v, P c → P (c.withValue v)) ∧ ∀ c v, P c → P (c.withArgs v)

theorem get_mem' {V : Type} {k : Text} {v : V} {l : List (Text × V)}
    (h : Verif.Merge.get k l = some v) : (k, v) ∈ l := by
  induction l with
  | nil => simp [Verif.Merge.get] at h
  | cons p r ih =>
    obtain ⟨k', v'⟩ := p
    unfold Verif.Merge.get at h
    by_cases hk : k' = k
    · rw [if_pos hk] at h; cases h; subst hk; simp
    · rw [if_neg hk] at h; exact List.mem_cons_of_mem _ (ih h)

theorem entityTasks_mem {rs : List (Text × Run)} {vs : List GVal}
    {ts : List (GVal × Text × Run)} (h : entityTasks rs vs = .ok ts) :
    ∀ t ∈ ts, (t.2.1, t.2.2) ∈ rs := by
  induction vs generalizing ts with
  | nil => simp [entityTasks] at h; subst h; simp
  | cons v r ih =>
    unfold entityTasks at h
    cases hn : getTypeName v with
    | none => rw [hn] at h; simp at h
    | some n =>
      rw [hn] at h
      simp only [] at h
      cases hg : Verif.Merge.get n rs with
      | none => rw [hg] at h; simp at h
      | some f =>
        rw [hg] at h
        simp only [] at h
        cases he : entityTasks rs r with
        | error e => rw [he] at h; simp at h
        | ok ts' =>
          rw [he] at h
          simp only [Except.ok.injEq] at h
          subst h
          intro t ht
          rcases List.mem_cons.1 ht with rfl | ht
          · exact get_mem' hg
          · exact ih he t ht

theorem runTasks_moves {P : Ctx → Prop} {T : St → St → Prop} (hP : Closed P)
    (hr : ∀ s, T s s) (ht : ∀ a b c, T a b → T b c → T a c)
    (ts : List (GVal × Text × Run)) (hts : ∀ t ∈ ts, Moves P T t.2.2) (c : Ctx) (hc : P c)
    (st : St) : T st (runTasks c ts st).1 := by
  induction ts generalizing st with
  | nil => exact hr st
  | cons t rest ih =>
    obtain ⟨v, n, f⟩ := t
    simp only [runTasks]
    exact ht _ _ _ (hts (v, n, f) (by simp) _ st (hP.1 c v hc))
      (ih (fun t h => hts t (by simp [h])) _)

theorem evalEntity_moves {P : Ctx → Prop} {T : St → St → Prop} (hP : Closed P)
    (hr : ∀ s, T s s) (ht : ∀ a b c, T a b → T b c → T a c)
    (rs : List (Text × Run)) (hrs : ∀ p ∈ rs, Moves P T p.2) : Moves P T (evalEntity rs) := by
  intro c st hc
  unfold evalEntity
  split
  · rename_i reprs _
    cases he : entityTasks rs reprs with
    | error e => exact hr st
    | ok ts =>
      simp only []
      have hm := runTasks_moves hP hr ht ts
        (fun t h => hrs _ (entityTasks_mem he t h)) c hc st
      rcases hrun : runTasks c ts st with ⟨st', rs'⟩
      rw [hrun] at hm
      simp only []
      cases collect rs' <;> exact hm
  · exact hr st

/-! ## Relations between two runs -/

/-- Two runs keep related states related and give the same result. -/
def Agree (P : Ctx → Prop) (R : St → St → Prop) (f g : Run) : Prop :=
  ∀ c s1 s2, P c → R s1 s2 → R (f c s1).1 (g c s2).1 ∧ (f c s1).2 = (g c s2).2

/-- Proof helper: agreement entry by entry. -/
inductive AgreeMap (P : Ctx → Prop) (R : St → St → Prop) :
    List (Text × Run) → List (Text × Run) → Prop where
  | nil : AgreeMap P R [] []
  | cons {t : Text} {f g : Run} {rs ss : List (Text × Run)} (h : Agree P R f g)
      (hr : AgreeMap P R rs ss) : AgreeMap P R ((t, f) :: rs) ((t, g) :: ss)

theorem agreeMap_get {P : Ctx → Prop} {R : St → St → Prop} {rs ss : List (Text × Run)}
    (h : AgreeMap P R rs ss) (k : Text) :
    (Verif.Merge.get k rs = none ∧ Verif.Merge.get k ss = none) ∨
    ∃ f g, Verif.Merge.get k rs = some f ∧ Verif.Merge.get k ss = some g ∧ Agree P R f g := by
  induction h with
  | nil => exact .inl ⟨rfl, rfl⟩
  | @cons t f g rs ss h hr ih =>
    simp only [Verif.Merge.get]
    by_cases hk : t = k
    · simp only [if_pos hk]; exact .inr ⟨f, g, rfl, rfl, h⟩
    · simp only [if_neg hk]; exact ih

/-- Proof helper: agreement task by task. -/
inductive AgreeTasks (P : Ctx → Prop) (R : St → St → Prop) :
    List (GVal × Text × Run) → List (GVal × Text × Run) → Prop where
  | nil : AgreeTasks P R [] []
  | cons {v : GVal} {t : Text} {f g : Run} {rs ss : List (GVal × Text × Run)}
      (h : Agree P R f g) (hr : AgreeTasks P R rs ss) :
      AgreeTasks P R ((v, t, f) :: rs) ((v, t, g) :: ss)

theorem entityTasks_agree {P : Ctx → Prop} {R : St → St → Prop} {rs ss : List (Text × Run)}
    (h : AgreeMap P R rs ss) (vs : List GVal) :
    (∃ e, entityTasks rs vs = .error e ∧ entityTasks ss vs = .error e) ∨
    ∃ ts us, entityTasks rs vs = .ok ts ∧ entityTasks ss vs = .ok us ∧ AgreeTasks P R ts us := by
  induction vs with
  | nil => exact .inr ⟨[], [], rfl, rfl, .nil⟩
  | cons v r ih =>
    unfold entityTasks
    cases hn : getTypeName v with
    | none => exact .inl ⟨_, rfl, rfl⟩
    | some n =>
      simp only []
      rcases agreeMap_get h n with ⟨h1, h2⟩ | ⟨f, g, h1, h2, ha⟩
      · rw [h1, h2]; exact .inl ⟨_, rfl, rfl⟩
      · rw [h1, h2]
        simp only []
        rcases ih with ⟨e, h3, h4⟩ | ⟨ts, us, h3, h4, hat⟩
        · rw [h3, h4]; exact .inl ⟨_, rfl, rfl⟩
        · rw [h3, h4]; exact .inr ⟨_, _, rfl, rfl, .cons ha hat⟩

theorem runTasks_agree {P : Ctx → Prop} {R : St → St → Prop} (hP : Closed P)
    {ts us : List (GVal × Text × Run)} (h : AgreeTasks P R ts us) (c : Ctx) (hc : P c)
    (s1 s2 : St) (hR : R s1 s2) :
    R (runTasks c ts s1).1 (runTasks c us s2).1 ∧ (runTasks c ts s1).2 = (runTasks c us s2).2 := by
  induction h generalizing s1 s2 with
  | nil => exact ⟨hR, rfl⟩
  | @cons v t f g ts us hfg _ ih =>
    simp only [runTasks]
    have h1 := hfg (c.withValue v) s1 s2 (hP.1 c v hc) hR
    have h2 := ih _ _ h1.1
    rw [h1.2, h2.2]
    exact ⟨h2.1, rfl⟩

theorem evalEntity_agree {P : Ctx → Prop} {R : St → St → Prop} (hP : Closed P)
    {rs ss : List (Text × Run)} (h : AgreeMap P R rs ss) :
    Agree P R (evalEntity rs) (evalEntity ss) := by
  intro c s1 s2 hc hR
  unfold evalEntity
  split
  · rename_i reprs _
    rcases entityTasks_agree h reprs with ⟨e, h3, h4⟩ | ⟨ts, us, h3, h4, hat⟩
    · rw [h3, h4]; exact ⟨hR, rfl⟩
    · rw [h3, h4]
      simp only []
      have hm := runTasks_agree hP hat c hc s1 s2 hR
      rcases hrun : runTasks c ts s1 with ⟨s1', r1⟩
      rcases hrun2 : runTasks c us s2 with ⟨s2', r2⟩
      rw [hrun, hrun2] at hm
      simp only [] at hm ⊢
      obtain ⟨hm1, rfl⟩ := hm
      cases collect r1 <;> exact ⟨hm1, rfl⟩
  · exact ⟨hR, rfl⟩

end Verif.Ir
