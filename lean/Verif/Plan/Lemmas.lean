import Verif.Plan.Model

set_option linter.unusedSimpArgs false

namespace Verif.Plan
open Verif.Mustache (Text)
open Verif.Merge (get)

/-! ## Sorting -/

theorem insertById_perm (f : PField) (l : List PField) : (insertById f l).Perm (f :: l) := by
  induction l with
  | nil => exact .refl _
  | cons g r ih =>
    unfold insertById
    split
    · exact .refl _
    · exact (ih.cons g).trans (.swap f g r)

theorem sortById_perm (l : List PField) : (sortById l).Perm l := by
  induction l with
  | nil => exact .refl _
  | cons f r ih => exact (insertById_perm f _).trans (ih.cons f)

theorem insertById_sorted (f : PField) (l : List PField) (h : l.Pairwise (fun a b => a.id ≤ b.id)) :
    (insertById f l).Pairwise (fun a b => a.id ≤ b.id) := by
  induction l with
  | nil => simp [insertById]
  | cons g r ih =>
    unfold insertById
    rw [List.pairwise_cons] at h
    split
    · rename_i hle
      refine List.pairwise_cons.mpr ⟨?_, List.pairwise_cons.mpr h⟩
      intro x hx
      rcases List.mem_cons.mp hx with rfl | hx
      · exact hle
      · exact Nat.le_trans hle (h.1 x hx)
    · rename_i hle
      refine List.pairwise_cons.mpr ⟨?_, ih h.2⟩
      intro x hx
      rcases List.mem_cons.mp ((insertById_perm f r).mem_iff.mp hx) with rfl | hx
      · omega
      · exact h.1 x hx

theorem sortById_sorted (l : List PField) : (sortById l).Pairwise (fun a b => a.id ≤ b.id) := by
  induction l with
  | nil => simp [sortById]
  | cons f r ih => exact insertById_sorted f _ ih

theorem sorted_perm_eq (a l : List PField) (ha : a.Pairwise (fun x y => x.id ≤ y.id))
    (hl : l.Pairwise (fun x y => x.id < y.id)) (hp : a.Perm l) : a = l := by
  induction l generalizing a with
  | nil => exact hp.eq_nil
  | cons x l ih =>
    cases a with
    | nil => exact absurd hp.symm.eq_nil (by simp)
    | cons y a =>
      rw [List.pairwise_cons] at ha hl
      have hxy : y = x := by
        have hy : y ∈ x :: l := hp.mem_iff.mp (by simp)
        rcases List.mem_cons.mp hy with h | h
        · exact h
        · have h1 := hl.1 y h
          have hx : x ∈ y :: a := hp.mem_iff.mpr (by simp)
          rcases List.mem_cons.mp hx with h2 | h2
          · exact h2.symm
          · have := ha.1 x h2; omega
      subst hxy
      rw [ih a ha.2 hl.2 (List.Perm.cons_inv hp)]

theorem sortById_eq (a l : List PField) (hl : l.Pairwise (fun x y => x.id < y.id)) (hp : a.Perm l) :
    sortById a = l :=
  sorted_perm_eq _ _ (sortById_sorted a) hl ((sortById_perm a).trans hp)

/-! ## Direct and fragment fields -/

/-- The fields of a selection set that are not from fragments. -/
def direct (l : List (Bool × PField)) : List PField := (l.filter (fun e => !e.1)).map Prod.snd
/-- The fields of a selection set that are from fragments. -/
def fromFrag (l : List (Bool × PField)) : List PField := (l.filter (fun e => e.1)).map Prod.snd

theorem direct_append (a b : List (Bool × PField)) : direct (a ++ b) = direct a ++ direct b := by simp [direct]
theorem fromFrag_append (a b : List (Bool × PField)) : fromFrag (a ++ b) = fromFrag a ++ fromFrag b := by
  simp [fromFrag]

theorem split_perm (l : List (Bool × PField)) (p : PField → Bool) :
    (direct l ++ (fromFrag l).filter p).Perm ((l.filter (fun e => !e.1 || p e.2)).map Prod.snd) := by
  induction l with
  | nil => exact .refl _
  | cons e r ih =>
    obtain ⟨b, f⟩ := e
    cases b with
    | false =>
      have h1 : direct ((false, f) :: r) = f :: direct r := rfl
      have h2 : fromFrag ((false, f) :: r) = fromFrag r := rfl
      rw [h1, h2]
      simp only [List.filter_cons, Bool.not_false, Bool.true_or, if_true, List.map_cons, List.cons_append]
      exact ih.cons f
    | true =>
      have h1 : direct ((true, f) :: r) = direct r := rfl
      have h2 : fromFrag ((true, f) :: r) = f :: fromFrag r := rfl
      rw [h1, h2]
      simp only [List.filter_cons, Bool.not_true, Bool.false_or]
      split
      · rename_i hp
        simp only [List.map_cons]
        exact List.perm_middle.trans (ih.cons f)
      · exact ih

/-- The ids of the fields increase and are in the given range. -/
def IdsIn (a b : Nat) (l : List PField) : Prop :=
  a ≤ b ∧ l.Pairwise (fun x y => x.id < y.id) ∧ ∀ f ∈ l, a ≤ f.id ∧ f.id < b

theorem IdsIn.append {a b c : Nat} {l m : List PField} (h1 : IdsIn a b l) (h2 : IdsIn b c m) :
    IdsIn a c (l ++ m) := by
  refine ⟨Nat.le_trans h1.1 h2.1, ?_, ?_⟩
  · rw [List.pairwise_append]
    refine ⟨h1.2.1, h2.2.1, ?_⟩
    intro x hx y hy
    have := (h1.2.2 x hx).2
    have := (h2.2.2 y hy).1
    omega
  · intro f hf
    rcases List.mem_append.mp hf with hf | hf
    · have := h1.2.2 f hf; have := h2.1; omega
    · have := h2.2.2 f hf; have := h1.1; omega

theorem IdsIn.filter {a b : Nat} {l : List (Bool × PField)} (q : Bool × PField → Bool)
    (h : IdsIn a b (l.map Prod.snd)) : IdsIn a b ((l.filter q).map Prod.snd) := by
  have hs : ((l.filter q).map Prod.snd).Sublist (l.map Prod.snd) := (List.filter_sublist).map _
  exact ⟨h.1, h.2.1.sublist hs, fun f hf => h.2.2 f (hs.subset hf)⟩

/-! ## Shapes -/

/-- What a planned field asks for: name in the response, field, type it applies to, nested fields. -/
inductive Shape where
  | mk (out name tc : Text) (sub : List Shape)

/-- Output name of a shape. -/
def Shape.out : Shape → Text | .mk o .. => o

mutual
/-- Specification: what of a planned field is visible in a response. -/
def toShape : PField → Shape
  | .mk _ name out tc _ _ sub => .mk out name tc (toShapes sub)
/-- `toShape` of a selection. -/
def toShapes : List PField → List Shape
  | [] => []
  | f :: r => toShape f :: toShapes r
end

/-- The shape of the fields that remain after skipping. -/
def execShapes (vars : Vars) (fs : List PField) : List Shape := toShapes (skipAll vars fs)

theorem execShapes_nil (vars : Vars) : execShapes vars [] = [] := by simp [execShapes, skipAll, toShapes]

theorem execShapes_cons (vars : Vars) (f : PField) (r : List PField) :
    execShapes vars (f :: r) = if skipField vars f.skip f.incl then execShapes vars r
      else .mk f.out f.name f.tc (execShapes vars f.sub) :: execShapes vars r := by
  unfold execShapes
  rw [skipAll]
  cases hs : skipField vars f.skip f.incl
  · cases f with
    | mk id name out tc s i sub => simp [toShapes, toShape, skipT, PField.out, PField.name, PField.tc, PField.sub]
  · simp

theorem execShapes_append (vars : Vars) (a b : List PField) :
    execShapes vars (a ++ b) = execShapes vars a ++ execShapes vars b := by
  induction a with
  | nil => simp [execShapes_nil]
  | cons f r ih => simp only [List.cons_append, execShapes_cons, ih]; split <;> simp

theorem execShapes_filter (vars : Vars) (l : List (Bool × PField)) (q : Bool × PField → Bool)
    (h : ∀ e ∈ l, skipField vars e.2.skip e.2.incl = false → q e = true) :
    execShapes vars ((l.filter q).map Prod.snd) = execShapes vars (l.map Prod.snd) := by
  induction l with
  | nil => rfl
  | cons e r ih =>
    have ih := ih (fun x hx => h x (by simp [hx]))
    have he := h e (by simp)
    simp only [List.filter_cons, List.map_cons, execShapes_cons]
    cases hs : skipField vars e.2.skip e.2.incl with
    | false => simp [he hs, execShapes_cons, hs, ih]
    | true =>
      simp only [if_true]
      split
      · simp [execShapes_cons, hs, ih]
      · exact ih

theorem out_mem_execShapes (vars : Vars) (l : List PField) (f : PField) (hf : f ∈ l)
    (hk : skipField vars f.skip f.incl = false) : f.out ∈ (execShapes vars l).map Shape.out := by
  induction l with
  | nil => cases hf
  | cons g r ih =>
    rw [execShapes_cons]
    rcases List.mem_cons.mp hf with rfl | hf
    · simp [hk, Shape.out]
    · have := ih hf
      split
      · exact this
      · simp only [List.map_cons, List.mem_cons]; exact .inr this

/-! ## Conditions -/

/-- The value of a condition, if it has one. -/
def condVal (env : Vars) : Cond → Option Bool
  | .tt => some true
  | .ff => some false
  | .var n => env n

theorem findDir_some {n : Text} {ds : List Dir} {d : Dir} (h : findDir n ds = some d) : d ∈ ds ∧ d.name = n := by
  induction ds with
  | nil => cases h
  | cons x r ih =>
    unfold findDir at h
    split at h
    · rename_i hx; simp at h; subst h; exact ⟨by simp, hx⟩
    · have := ih h; exact ⟨by simp [this.1], this.2⟩

theorem findDir_none {n : Text} {ds : List Dir} (h : findDir n ds = none) : ∀ d ∈ ds, d.name ≠ n := by
  induction ds with
  | nil => simp
  | cons x r ih =>
    unfold findDir at h
    split at h
    · cases h
    · rename_i hx
      intro d hd
      rcases List.mem_cons.mp hd with rfl | hd
      · exact hx
      · exact ih h d hd

theorem unique_dir {n : Text} {ds : List Dir} (h : (ds.filter (fun d => d.name = n)).length ≤ 1) {d d' : Dir}
    (hd : d ∈ ds) (hn : d.name = n) (hd' : d' ∈ ds) (hn' : d'.name = n) : d = d' := by
  have m1 : d ∈ ds.filter (fun d => d.name = n) := by simp [hd, hn]
  have m2 : d' ∈ ds.filter (fun d => d.name = n) := by simp [hd', hn']
  match e : ds.filter (fun d => d.name = n) with
  | [] => rw [e] at m1; cases m1
  | [x] => rw [e] at m1 m2; simp at m1 m2; rw [m1, m2]
  | x :: y :: r => rw [e] at h; simp at h

end Verif.Plan
