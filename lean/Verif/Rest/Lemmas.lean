import Verif.Rest.Model
import Verif.Merge.Lemmas

set_option linter.unusedSimpArgs false

namespace Verif.Rest
open Verif.Mustache (Text)
open Verif.Merge (get)
open Verif.HttpUrl (GVal QC splitAll pairsOf)

/-! ## Decimal numbers -/

/-- The character of a decimal digit. -/
def dchar (d : Nat) : Char := Char.ofNat (48 + d)

/-- Value of a sequence of decimal digits. -/
def decVal : List Nat → Nat
  | [] => 0
  | d :: r => d * 10 ^ r.length + decVal r

theorem digitVal_iff {c : Char} {d : Nat} : digitVal c = some d ↔ d < 10 ∧ c = dchar d := by
  constructor
  · intro h
    unfold digitVal at h
    split at h
    · rename_i hc
      simp only [Bool.and_eq_true, decide_eq_true_eq, Char.le_def] at hc
      simp only [Option.some.injEq] at h
      have h1 : 48 ≤ c.toNat := UInt32.le_iff_toNat_le.mp hc.1
      have h2 : c.toNat ≤ 57 := UInt32.le_iff_toNat_le.mp hc.2
      refine ⟨by omega, ?_⟩
      unfold dchar
      have : 48 + d = c.toNat := by omega
      rw [this, Char.ofNat_toNat]
    · cases h
  · rintro ⟨h, rfl⟩
    have : ∀ d : Fin 10, digitVal (dchar d.val) = some d.val := by decide
    exact this ⟨d, h⟩

theorem digitsVal_iff {s : Text} {acc n : Nat} : digitsVal s acc = some n ↔
    ∃ ds : List Nat, (∀ d ∈ ds, d < 10) ∧ s = ds.map dchar ∧ n = acc * 10 ^ ds.length + decVal ds := by
  induction s generalizing acc with
  | nil =>
    simp only [digitsVal, Option.some.injEq]
    constructor
    · rintro rfl; exact ⟨[], by simp, rfl, by simp [decVal]⟩
    · rintro ⟨ds, _, h, rfl⟩
      have : ds = [] := by simpa using h.symm
      subst this; simp [decVal]
  | cons c r ih =>
    unfold digitsVal
    cases e : digitVal c with
    | none =>
      simp only [reduceCtorEq, false_iff]
      rintro ⟨ds, h1, h2, _⟩
      cases ds with
      | nil => simp at h2
      | cons d ds =>
        simp at h2
        have := digitVal_iff.mpr ⟨h1 d (by simp), h2.1⟩
        rw [e] at this; cases this
    | some d =>
      simp only
      rw [ih]
      obtain ⟨hd, rfl⟩ := digitVal_iff.mp e
      constructor
      · rintro ⟨ds, h1, h2, h3⟩
        refine ⟨d :: ds, by simp [hd]; exact h1, by simp [h2], ?_⟩
        rw [h3]
        simp only [List.length_cons, decVal, Nat.pow_succ, Nat.add_mul]
        rw [Nat.mul_assoc, Nat.mul_comm 10, Nat.add_assoc]
      · rintro ⟨ds, h1, h2, h3⟩
        cases ds with
        | nil => simp at h2
        | cons d' ds =>
          simp at h2
          have hd' := digitVal_iff.mpr ⟨h1 d' (by simp), h2.1⟩
          rw [e] at hd'
          simp at hd'; subst hd'
          refine ⟨ds, fun x hx => h1 x (by simp [hx]), h2.2, ?_⟩
          rw [h3]
          simp only [List.length_cons, decVal, Nat.pow_succ, Nat.add_mul]
          rw [Nat.mul_assoc, Nat.mul_comm 10, Nat.add_assoc]

theorem parseDigits_iff {s : Text} {n : Nat} : parseDigits s = some n ↔
    ∃ ds : List Nat, ds ≠ [] ∧ (∀ d ∈ ds, d < 10) ∧ s = ds.map dchar ∧ n = decVal ds := by
  cases s with
  | nil =>
    simp only [parseDigits, reduceCtorEq, false_iff]
    rintro ⟨ds, h, _, h2, _⟩
    exact h (by simpa using h2.symm)
  | cons c r =>
    simp only [parseDigits]
    rw [digitsVal_iff]
    constructor
    · rintro ⟨ds, h1, h2, h3⟩
      exact ⟨ds, by rintro rfl; simp at h2, h1, h2, by simpa using h3⟩
    · rintro ⟨ds, _, h1, h2, h3⟩
      exact ⟨ds, h1, h2, by simpa using h3⟩

/-! ## Segments -/

theorem splitAll_no {p : Char → Bool} {s : Text} (h : ∀ c ∈ s, p c = false) : splitAll p s = [s] := by
  induction s with
  | nil => rfl
  | cons c r ih =>
    have hc := h c (by simp)
    have := ih (fun x hx => h x (by simp [hx]))
    simp [splitAll, hc, this]

theorem splitAll_ne_nil {p : Char → Bool} (s : Text) : splitAll p s ≠ [] := by
  induction s with
  | nil => simp [splitAll]
  | cons c r ih =>
    unfold splitAll
    split
    · simp
    · split <;> simp

theorem splitAll_append {p : Char → Bool} {a b : Text} {c : Char} (h : ∀ x ∈ a, p x = false) (hc : p c = true) :
    splitAll p (a ++ c :: b) = a :: splitAll p b := by
  induction a with
  | nil => simp [splitAll, hc]
  | cons x r ih =>
    have hx := h x (by simp)
    have := ih (fun y hy => h y (by simp [hy]))
    simp [splitAll, hx, this]

/-- A path written from its segments. -/
def joinSegs : List Text → Text
  | [] => []
  | s :: r => '/' :: s ++ joinSegs r

theorem joinSegs_head (ss : List Text) : joinSegs ss = [] ∨ ∃ r, joinSegs ss = '/' :: r := by
  cases ss with
  | nil => exact .inl rfl
  | cons s r => exact .inr ⟨_, rfl⟩

theorem splitAll_joinSegs (ss : List Text) (h : ∀ s ∈ ss, '/' ∉ s) :
    splitAll (· == '/') (joinSegs ss) = [] :: ss := by
  induction ss with
  | nil => rfl
  | cons s r ih =>
    have ih := ih (fun x hx => h x (by simp [hx]))
    have hs : ∀ c ∈ s, (c == '/') = false := by
      intro c hc
      simp only [beq_eq_false_iff_ne]
      rintro rfl
      exact h s (by simp) hc
    unfold joinSegs
    cases hr : joinSegs r with
    | nil =>
      rw [hr] at ih
      simp only [splitAll, List.cons.injEq, true_and] at ih
      subst ih
      simp [splitAll, splitAll_no hs]
    | cons c t =>
      have hc : c = '/' := by
        rcases joinSegs_head r with h0 | ⟨t', h0⟩
        · rw [hr] at h0; cases h0
        · rw [hr] at h0; cases h0; rfl
      subst hc
      rw [hr] at ih
      have ht : splitAll (· == '/') t = r := by simpa [splitAll] using ih
      have := splitAll_append (p := (· == '/')) (b := t) hs (c := '/') (by decide)
      simp only [List.cons_append, splitAll, beq_self_eq_true, if_true]
      rw [this, ht]

theorem segsOf_joinSegs (ss : List Text) (h : ∀ s ∈ ss, s ≠ [] ∧ '/' ∉ s) : segsOf (joinSegs ss) = ss := by
  unfold segsOf
  rw [splitAll_joinSegs ss (fun s hs => (h s hs).2)]
  simp only [List.filter_cons, List.isEmpty_nil, Bool.not_true]
  simp only [Bool.false_eq_true, if_false]
  rw [List.filter_eq_self]
  intro s hs
  simpa using (h s hs).1

/-! ## Matching -/

theorem zipSegs_acc (pf : Text → Option GVal) (ps : List Segment) (rs : List Text) (vars : Vars) :
    zipSegs pf ps rs vars = (zipSegs pf ps rs []).map (fun p => (p.1 ++ vars, p.2)) := by
  induction ps generalizing rs vars with
  | nil => simp [zipSegs]
  | cons p ps ih =>
    cases rs with
    | nil => cases p <;> simp [zipSegs]
    | cons r rs =>
      cases p with
      | lit s =>
        simp only [zipSegs]
        split
        · rfl
        · exact ih rs vars
      | param v =>
        simp only [zipSegs]
        cases toValue pf v.ty r with
        | none => rfl
        | some x =>
          simp only
          rw [ih rs ((v.name, x) :: vars), ih rs [(v.name, x)], Option.map_map]
          congr 1
          funext p
          simp

theorem select_eq_find (pf : Text → Option GVal) (es : List Endpoint) (r : Req) :
    select pf es r = es.findSome? (fun e => (e.matches pf r).map (fun v => (e, v))) := by
  induction es with
  | nil => rfl
  | cons e rest ih =>
    simp only [select, List.findSome?]
    cases e.matches pf r <;> simp [ih]

end Verif.Rest
