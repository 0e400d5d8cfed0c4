import Verif.Scalar.Spec

/-!
# Facts about reading numbers
-/

set_option linter.unusedSimpArgs false

namespace Verif.Scalar

open Mustache (Text)

theorem isDigit_iff (c : Char) : IsDigit c ↔ 48 ≤ c.toNat ∧ c.toNat ≤ 57 := by
  constructor
  · intro h
    simp only [IsDigit, List.mem_cons, List.not_mem_nil, or_false] at h
    rcases h with h | h | h | h | h | h | h | h | h | h <;> subst h <;> decide
  · intro ⟨h1, h2⟩
    have hc : c = Char.ofNat c.toNat := (Char.ofNat_toNat c).symm
    have : c.toNat = 48 ∨ c.toNat = 49 ∨ c.toNat = 50 ∨ c.toNat = 51 ∨ c.toNat = 52 ∨ c.toNat = 53 ∨ c.toNat = 54
        ∨ c.toNat = 55 ∨ c.toNat = 56 ∨ c.toNat = 57 := by omega
    rcases this with h | h | h | h | h | h | h | h | h | h <;> rw [h] at hc <;> subst hc <;> simp [IsDigit] <;> decide

theorem digitOf_some (c : Char) (d : Nat) : digitOf c = some d ↔ IsDigit c ∧ d = c.toNat - 48 := by
  rw [isDigit_iff]
  have h0 : '0'.toNat = 48 := rfl
  have h9 : '9'.toNat = 57 := rfl
  unfold digitOf
  rw [h0, h9]
  split
  · next h => simp [h, eq_comm]
  · next h => simp [h]

theorem digitOf_none (c : Char) : digitOf c = none ↔ ¬ IsDigit c := by
  rw [isDigit_iff]
  have h0 : '0'.toNat = 48 := rfl
  have h9 : '9'.toNat = 57 := rfl
  unfold digitOf
  rw [h0, h9]
  split
  · next h => simp [h]
  · next h => simp [h]

theorem parseUp_spec (hi : Int) : ∀ (cs : List Char) (acc n : Int), 0 ≤ acc → acc ≤ hi →
    (parseUp hi cs acc = some n ↔ (∀ c ∈ cs, IsDigit c) ∧ n = acc * 10 ^ cs.length + placeValue cs ∧ n ≤ hi)
  | [], acc, n, h0, h1 => by
    simp only [parseUp, List.not_mem_nil, false_imp_iff, implies_true, true_and, placeValue, List.length_nil,
      Int.pow_zero, Int.mul_one, Option.some.injEq]
    constructor
    · intro h; subst h; simp [h1]
    · rintro ⟨h, -⟩; simpa using h.symm
  | c :: cs, acc, n, h0, h1 => by
    unfold parseUp
    cases hd : digitOf c with
    | none =>
      have := (digitOf_none c).mp hd
      simp only [reduceCtorEq, List.mem_cons, forall_eq_or_imp, false_iff]
      intro h; exact this h.1.1
    | some d =>
      obtain ⟨hc, hdv⟩ := (digitOf_some c d).mp hd
      have hexp : ∀ a : Int, a * 10 ^ (c :: cs).length + (placeValue (c :: cs) : Int)
          = (a * 10 + d) * 10 ^ cs.length + (placeValue cs : Int) := by
        intro a
        have e1 : (placeValue (c :: cs) : Int) = (d : Int) * 10 ^ cs.length + (placeValue cs : Int) := by
          simp only [placeValue, Int.natCast_add, Int.natCast_mul, Int.natCast_pow]
          rw [hdv]; rfl
        rw [e1, List.length_cons, Int.pow_succ, Int.add_mul, Int.mul_assoc a 10, Int.mul_comm 10, Int.add_assoc]
      have hp : (1 : Int) ≤ 10 ^ cs.length := by
        have : (0 : Int) < 10 ^ cs.length := Int.pow_pos (by decide)
        omega
      have hge : acc * 10 + d ≤ (acc * 10 + d) * 10 ^ cs.length := by
        have : (acc * 10 + d) * 1 ≤ (acc * 10 + d) * 10 ^ cs.length :=
          Int.mul_le_mul_of_nonneg_left hp (by omega)
        omega
      simp only [List.mem_cons, forall_eq_or_imp, hc, true_and]
      rw [hexp]
      by_cases h2 : acc * 10 + d ≤ hi
      · have h3 : acc * 10 ≤ hi := by omega
        rw [if_pos h3, if_pos h2]
        exact parseUp_spec hi cs _ n (by omega) h2
      · have : ¬ ((∀ a ∈ cs, IsDigit a) ∧ n = (acc * 10 + d) * 10 ^ cs.length + (placeValue cs : Int) ∧ n ≤ hi) := by
          rintro ⟨-, h4, h5⟩
          omega
        by_cases h3 : acc * 10 ≤ hi
        · rw [if_pos h3, if_neg h2]; simpa using this
        · rw [if_neg h3]; simpa using this

/-- A negative number is read as its opposite. -/
theorem parseDown_eq (lo : Int) : ∀ (cs : List Char) (acc : Int),
    parseDown lo cs acc = (parseUp (-lo) cs (-acc)).map (fun n => -n)
  | [], acc => by simp [parseDown, parseUp]
  | c :: cs, acc => by
    unfold parseDown parseUp
    cases digitOf c with
    | none => rfl
    | some d =>
      dsimp only
      have e1 : (-acc * 10 ≤ -lo) ↔ (lo ≤ acc * 10) := by omega
      have e2 : (-acc * 10 + (d : Int) ≤ -lo) ↔ (lo ≤ acc * 10 - d) := by omega
      have e3 : -(acc * 10 - (d : Int)) = -acc * 10 + d := by omega
      simp only [e1, e2]
      split
      · split
        · rw [parseDown_eq lo cs, e3]
        · rfl
      · rfl

theorem parseUp_isSome (hi : Int) (h : 0 ≤ hi) (cs : List Char) :
    (parseUp hi cs 0).isSome = true ↔ (∀ c ∈ cs, IsDigit c) ∧ (placeValue cs : Int) ≤ hi := by
  rw [Option.isSome_iff_exists]
  constructor
  · rintro ⟨n, hn⟩
    obtain ⟨h1, h2, h3⟩ := (parseUp_spec hi cs 0 n (by omega) h).mp hn
    refine ⟨h1, ?_⟩
    rw [Int.zero_mul, Int.zero_add] at h2
    omega
  · rintro ⟨h1, h2⟩
    exact ⟨placeValue cs, (parseUp_spec hi cs 0 _ (by omega) h).mpr ⟨h1, by simp, h2⟩⟩

theorem parseDown_isSome (lo : Int) (h : lo ≤ 0) (cs : List Char) :
    (parseDown lo cs 0).isSome = true ↔ (∀ c ∈ cs, IsDigit c) ∧ lo ≤ -(placeValue cs : Int) := by
  rw [parseDown_eq, Option.isSome_map, Int.neg_zero, parseUp_isSome (-lo) (by omega)]
  constructor <;> rintro ⟨h1, h2⟩ <;> exact ⟨h1, by omega⟩

theorem plus_no_digit : ¬ IsDigit '+' := by simp [IsDigit]
theorem minus_no_digit : ¬ IsDigit '-' := by simp [IsDigit]

/-- Reading a number succeeds exactly for the numbers between the limits, without a minus for types
that have no negative ones. -/
theorem parseInt_isSome (signed : Bool) (lo hi : Int) (hlo : lo ≤ 0) (hhi : 0 ≤ hi) (t : Text) :
    (parseInt signed lo hi t).isSome = true ↔
      ∃ n, Denotes t n ∧ lo ≤ n ∧ n ≤ hi ∧ (signed = true ∨ ¬ HasMinus t) := by
  cases t with
  | nil =>
    simp only [parseInt, Option.isSome_none, Bool.false_eq_true, false_iff]
    rintro ⟨n, h, -⟩
    cases h with
    | plain _ h1 _ => exact h1 rfl
  | cons c cs =>
    unfold parseInt
    dsimp only
    by_cases hs : (c = '+' ∨ c = '-') ∧ cs = []
    · rw [if_pos hs]
      simp only [Option.isSome_none, Bool.false_eq_true, false_iff]
      obtain ⟨hc, rfl⟩ := hs
      rintro ⟨n, h, -⟩
      cases h with
      | plain _ h1 h2 =>
        have := h2 c (by simp)
        rcases hc with rfl | rfl
        · exact plus_no_digit this
        · exact minus_no_digit this
      | plus _ h1 _ => exact h1 rfl
      | minus _ h1 _ => exact h1 rfl
    · rw [if_neg hs]
      by_cases hp : c = '+'
      · subst hp
        have hne : cs ≠ [] := fun h => hs ⟨Or.inl rfl, h⟩
        rw [if_pos rfl, parseUp_isSome hi hhi]
        constructor
        · rintro ⟨h1, h2⟩
          exact ⟨placeValue cs, .plus cs hne h1, by omega, h2, Or.inr (by rintro ⟨ds, h⟩; simp at h)⟩
        · rintro ⟨n, h, h1, h2, -⟩
          cases h with
          | plain _ _ h3 => exact absurd (h3 '+' (by simp)) plus_no_digit
          | plus _ _ h3 => exact ⟨h3, h2⟩
      · rw [if_neg hp]
        by_cases hm : c = '-'
        · subst hm
          have hne : cs ≠ [] := fun h => hs ⟨Or.inr rfl, h⟩
          cases signed with
          | true =>
            rw [if_pos ⟨rfl, rfl⟩, parseDown_isSome lo hlo]
            constructor
            · rintro ⟨h1, h2⟩
              exact ⟨_, .minus cs hne h1, h2, by omega, Or.inl rfl⟩
            · rintro ⟨n, h, h1, h2, -⟩
              cases h with
              | plain _ _ h3 => exact absurd (h3 '-' (by simp)) minus_no_digit
              | minus _ _ h3 => exact ⟨h3, h1⟩
          | false =>
            rw [if_neg (by simp), parseUp_isSome hi hhi]
            constructor
            · rintro ⟨h1, -⟩
              exact absurd (h1 '-' (by simp)) minus_no_digit
            · rintro ⟨n, -, -, -, h⟩
              rcases h with h | h
              · cases h
              · exact absurd ⟨cs, rfl⟩ h
        · rw [if_neg (by rintro ⟨h, -⟩; exact hm h), parseUp_isSome hi hhi]
          constructor
          · rintro ⟨h1, h2⟩
            refine ⟨placeValue (c :: cs), .plain _ (by simp) h1, by omega, h2, Or.inr ?_⟩
            rintro ⟨ds, h⟩
            simp at h; exact hm h.1
          · rintro ⟨n, h, h1, h2, -⟩
            cases h with
            | plain _ _ h3 => exact ⟨h3, h2⟩
            | plus _ _ _ => exact absurd rfl hp
            | minus _ _ _ => exact absurd rfl hm

end Verif.Scalar
