import Verif.Scalar.Lemmas

/-!
# C135, C136: whole numbers of a given width, and the scalar types of fields
-/

set_option linter.unusedSimpArgs false

namespace Verif.Scalar

open Mustache (Text)

/-! ## C135: whole numbers -/

/-- A range up to 32 bits, checked on a number. -/
theorem evalSigned_iff (v : Val) (hv : Fits v) (lo hi : Int) (h1 : hi < 2 ^ 63) :
    evalSigned v lo hi = true ↔ ∃ n, IsNumber v n ∧ lo ≤ n ∧ n ≤ hi := by
  unfold evalSigned Val.asI64
  split
  · next n =>
    split
    · simp only [Option.elim, decide_eq_true_eq]
      constructor
      · intro h; exact ⟨n, .pos n, h⟩
      · rintro ⟨m, hm, h⟩; cases hm; exact h
    · simp only [Option.elim, Bool.false_eq_true, false_iff]
      rintro ⟨m, hm, h⟩
      cases hm
      have : (2 : Int) ^ 63 = ((2 ^ 63 : Nat) : Int) := by decide
      omega
  · next n =>
    simp only [Option.elim, decide_eq_true_eq]
    constructor
    · intro h; exact ⟨n, .neg n, h⟩
    · rintro ⟨m, hm, h⟩; cases hm; exact h
  · next h2 h3 =>
    simp only [Option.elim, Bool.false_eq_true, false_iff]
    rintro ⟨m, hm, h⟩
    cases hm with
    | pos n => exact h2 n rfl
    | neg n => exact h3 m rfl

theorem evalUnsigned_iff (v : Val) (hv : Fits v) (hi : Nat) :
    evalUnsigned v hi = true ↔ ∃ n, IsNumber v n ∧ 0 ≤ n ∧ n ≤ (hi : Int) := by
  unfold evalUnsigned Val.asU64
  split
  · next n =>
    simp only [Option.elim, decide_eq_true_eq]
    constructor
    · intro h; exact ⟨n, .pos n, by omega, by omega⟩
    · rintro ⟨m, hm, h⟩; cases hm; omega
  · next h2 =>
    simp only [Option.elim, Bool.false_eq_true, false_iff]
    rintro ⟨m, hm, h⟩
    cases hm with
    | pos n => exact h2 n rfl
    | neg n =>
      have := hv.2
      omega

theorem evalStr_iff (v : Val) (f : Text → Bool) : evalStr v f = true ↔ ∃ t, v = .str t ∧ f t = true := by
  unfold evalStr Val.asStr
  split
  · next t =>
    constructor
    · intro h; exact ⟨t, rfl, h⟩
    · rintro ⟨u, hu, h⟩; cases hu; exact h
  · next h =>
    simp only [Option.elim, Bool.false_eq_true, false_iff]
    rintro ⟨u, hu, -⟩
    exact h u hu

theorem inRange_signed (bits : Nat) (n : Int) :
    InRange true bits n ↔ -(2 : Int) ^ (bits - 1) ≤ n ∧ n ≤ (2 : Int) ^ (bits - 1) - 1 := by
  simp only [InRange, if_true]
  constructor <;> rintro ⟨h1, h2⟩ <;> exact ⟨h1, by omega⟩

theorem inRange_unsigned (bits : Nat) (n : Int) :
    InRange false bits n ↔ 0 ≤ n ∧ n ≤ (2 : Int) ^ bits - 1 := by
  simp only [InRange, Bool.false_eq_true, if_false]
  constructor <;> rintro ⟨h1, h2⟩ <;> exact ⟨h1, by omega⟩

/-- C135: a scalar of up to 32 bits accepts exactly the numbers of its width. -/
theorem C135_numbers (f : Formats) (s : Scalar) (sg : Bool) (bits : Nat) (hw : widthOf s = some (sg, bits))
    (hb : bits ≤ 32) (v : Val) (hv : Fits v) :
    validate f v s = true ↔ ∃ n, IsNumber v n ∧ InRange sg bits n := by
  cases s <;> simp only [widthOf, Option.some.injEq, Prod.mk.injEq, reduceCtorEq] at hw <;>
    obtain ⟨rfl, rfl⟩ := hw <;> first
    | (exfalso; omega)
    | (simp only [validate, inRange_signed]; rw [evalSigned_iff v hv _ _ (by decide)]; rfl)
    | (simp only [validate, inRange_unsigned]; rw [evalUnsigned_iff v hv]; rfl)

/-- C135: a scalar of more than 32 bits accepts exactly the texts of the numbers of its width, except
for a minus before zero if there are no negative numbers. -/
theorem C135_texts_partial (f : Formats) (s : Scalar) (sg : Bool) (bits : Nat) (hw : widthOf s = some (sg, bits))
    (hb : 32 < bits) (v : Val) :
    validate f v s = true ↔
      ∃ t n, v = .str t ∧ Denotes t n ∧ InRange sg bits n ∧ (sg = true ∨ ¬ HasMinus t) := by
  have key : ∀ (lo hi : Int), lo ≤ 0 → 0 ≤ hi →
      (∀ n, InRange sg bits n ↔ lo ≤ n ∧ n ≤ hi) →
      ((evalStr v fun t => (parseInt sg lo hi t).isSome) = true ↔
        ∃ t n, v = .str t ∧ Denotes t n ∧ InRange sg bits n ∧ (sg = true ∨ ¬ HasMinus t)) := by
    intro lo hi h1 h2 h3
    rw [evalStr_iff]
    constructor
    · rintro ⟨t, rfl, h⟩
      obtain ⟨n, h4, h5, h6, h7⟩ := (parseInt_isSome sg lo hi h1 h2 t).mp h
      exact ⟨t, n, rfl, h4, (h3 n).mpr ⟨h5, h6⟩, h7⟩
    · rintro ⟨t, n, rfl, h4, h5, h7⟩
      exact ⟨t, rfl, (parseInt_isSome sg lo hi h1 h2 t).mpr ⟨n, h4, ((h3 n).mp h5).1, ((h3 n).mp h5).2, h7⟩⟩
  cases s <;> simp only [widthOf, Option.some.injEq, Prod.mk.injEq, reduceCtorEq] at hw <;>
    obtain ⟨rfl, rfl⟩ := hw <;> first
    | (exfalso; omega)
    | (exact key _ _ (by decide) (by decide) (fun n => inRange_signed _ n))
    | (exact key _ _ (by decide) (by decide) (fun n => inRange_unsigned _ n))

/-- No text denotes two numbers, so that "the number of a text" is well defined. -/
theorem C135_denotes (t : Text) (m n : Int) (h1 : Denotes t m) (h2 : Denotes t n) : m = n := by
  cases h1 with
  | plain _ a b =>
    cases h2 with
    | plain _ _ _ => rfl
    | plus _ _ _ => exact absurd (b '+' (by simp)) plus_no_digit
    | minus _ _ _ => exact absurd (b '-' (by simp)) minus_no_digit
  | plus _ a b =>
    cases h2 with
    | plain _ _ c => exact absurd (c '+' (by simp)) plus_no_digit
    | plus _ _ _ => rfl
  | minus _ a b =>
    cases h2 with
    | plain _ _ c => exact absurd (c '-' (by simp)) minus_no_digit
    | minus _ _ _ => rfl

/-- C135 fails for numbers given as such: 5 is a number of 64 bits and refused. -/
theorem C135_violated_by_number (f : Formats) (s : Scalar) (sg : Bool) (bits : Nat)
    (hw : widthOf s = some (sg, bits)) (hb : 32 < bits) (n : Num) : validate f (.num n) s = false := by
  rw [← Bool.not_eq_true, C135_texts_partial f s sg bits hw hb]
  rintro ⟨t, m, h, -⟩
  cases h

/-- C135 fails for a minus before zero: `-0` denotes zero and is refused. -/
theorem C135_violated_by_minus_zero (f : Formats) :
    Denotes "-0".toList 0 ∧ InRange false 64 0 ∧ validate f (.str "-0".toList) .uint64 = false :=
  ⟨.minus ['0'] (by simp) (by simp [IsDigit]), ⟨by decide, by decide⟩, by rfl⟩

/-! ## C136: scalar types of fields -/

/-- C136: a field has the scalar of the type's name. -/
theorem C136_found (s : Scalar) : find s.name = some s := by cases s <;> rfl

theorem C136_found_only (n : Text) (s : Scalar) (h : find n = some s) : n = s.name := by
  have h1 := List.find?_some (p := fun s : Scalar => s.name == n) h
  exact (beq_iff_eq.mp h1).symm

/-- The values that a custom scalar lets pass are the documented ones, for every scalar but `Empty`
and `Date`. -/
theorem C136_values_partial (f : Formats) (declared : List Text) (s : Scalar) (h1 : s ≠ .empty) (h2 : s ≠ .date)
    (v : Val) (hv : Fits v) (hz : NoMinusZero v) :
    passes f declared s.name v = some true ↔ Documented f v s := by
  have hp : passes f declared s.name v = some (validate f v s) := by
    unfold passes nodeScalar typeIsScalar isPredefined
    rw [C136_found]
    simp
  rw [hp, Option.some.injEq]
  have hint : ∀ sg bits, widthOf s = some (sg, bits) →
      (validate f v s = true ↔ ∃ sg bits, widthOf s = some (sg, bits) ∧
      ((bits ≤ 32 ∧ ∃ n, IsNumber v n ∧ InRange sg bits n) ∨
       (32 < bits ∧ ∃ t n, v = .str t ∧ Denotes t n ∧ InRange sg bits n))) := by
    intro sg bits hw
    by_cases hb : bits ≤ 32
    · rw [C135_numbers f s sg bits hw hb v hv]
      constructor
      · intro h; exact ⟨sg, bits, hw, Or.inl ⟨hb, h⟩⟩
      · rintro ⟨sg', bits', hw', h⟩
        rw [hw] at hw'; cases hw'
        rcases h with h | h
        · exact h.2
        · omega
    · rw [C135_texts_partial f s sg bits hw (by omega) v]
      constructor
      · rintro ⟨t, n, h, h3, h4, -⟩; exact ⟨sg, bits, hw, Or.inr ⟨by omega, t, n, h, h3, h4⟩⟩
      · rintro ⟨sg', bits', hw', h⟩
        rw [hw] at hw'; cases hw'
        rcases h with h | ⟨-, t, n, rfl, h3, h4⟩
        · omega
        · refine ⟨t, n, rfl, h3, h4, ?_⟩
          cases hsg : sg with
          | true => exact Or.inl rfl
          | false =>
            refine Or.inr ?_
            rintro hm
            refine hz ⟨hm, ?_⟩
            obtain ⟨ds, rfl⟩ := hm
            cases h3 with
            | plain _ _ h5 => exact absurd (h5 '-' (by simp)) minus_no_digit
            | minus _ h5 h6 =>
              have h7 := ((inRange_unsigned bits _).mp (hsg ▸ h4)).1
              have h8 : -(placeValue ds : Int) = 0 := by omega
              rw [← h8]
              exact .minus ds h5 h6
  cases s with
  | empty => exact absurd rfl h1
  | date => exact absurd rfl h2
  | json => simp [validate, Documented]
  | email => exact evalStr_iff v _
  | phoneNumber => exact evalStr_iff v _
  | dateTime => exact evalStr_iff v _
  | url => exact evalStr_iff v _
  | bytes =>
    simp only [validate, Documented]
    cases v <;> simp [Val.asStr]
  | _ => exact hint _ _ rfl

/-- The built-in scalars of GraphQL and scalars declared under other names let every value pass;
types that are no scalars are not checked as such. -/
theorem C136_others (f : Formats) (declared : List Text) (n : Text) (h : ∀ s : Scalar, n ≠ s.name) (v : Val) :
    (n ∈ declared ∨ n ∈ predefined → passes f declared n v = some true) ∧
    (n ∉ declared → n ∉ predefined → passes f declared n v = none) := by
  have hf : find n = none := by
    cases hc : find n with
    | none => rfl
    | some s => exact absurd (C136_found_only n s hc) (h s)
  unfold passes nodeScalar typeIsScalar isPredefined
  rw [hf]
  constructor
  · intro hn
    rw [if_pos]
    · rfl
    · simp only [Option.isSome_none, Bool.or_false, Bool.or_eq_true, List.contains_iff_mem, List.any_eq_true, beq_iff_eq]
      rcases hn with h | h
      · exact Or.inl h
      · exact Or.inr ⟨n, h, rfl⟩
  · intro h1 h2
    rw [if_neg]
    · rfl
    · simp only [Option.isSome_none, Bool.or_false, Bool.or_eq_true, List.contains_iff_mem, List.any_eq_true, beq_iff_eq]
      rintro (h | ⟨x, hx, rfl⟩)
      · exact h1 h
      · exact h2 hx

/-- C136 fails for the built-in scalars: a text passes for `Int`, a list for `String`. -/
theorem C136_violated_by_builtin (f : Formats) (n : Text) (hn : n ∈ predefined) (v : Val) :
    passes f [] n v = some true := by
  refine (C136_others f [] n ?_ v).1 (Or.inr hn)
  simp only [predefined, List.mem_cons, List.not_mem_nil, or_false] at hn
  intro s
  rcases hn with h | h | h | h | h <;> subst h <;> cases s <;> decide

/-- C136 fails for `Date`: what is read are times, and every text of those is longer than a date, so
no date of RFC 3339 passes. -/
theorem C136_violated_by_date (f : Formats) (hf : ∀ t, f.rfc3339 t = true → 10 < t.length) (t : Text)
    (ht : FullDate t) : Documented f (.str t) .date ∧ validate f (.str t) .date = false := by
  refine ⟨⟨t, rfl, ht⟩, ?_⟩
  rw [← Bool.not_eq_true]
  intro h
  have h1 : f.rfc3339 t = true := h
  have := hf t h1
  obtain ⟨a, b, c, d, e, g, i, j, -, rfl⟩ := ht
  simp at this

/-- C136 fails for `Empty`: every value passes, though it is not empty. -/
theorem C136_violated_by_empty (f : Formats) (v : Val) (hv : v ≠ .null) :
    ¬ Documented f v .empty ∧ validate f v .empty = true := ⟨hv, rfl⟩

/-- C136 fails for lists: a list of numbers is given to the check as a whole, and refused. -/
theorem C136_violated_by_list (f : Formats) (s : Scalar) (h1 : s ≠ .empty) (h2 : s ≠ .json) (vs : List Val) :
    passes f [] s.name (.list vs) = some false := by
  unfold passes nodeScalar typeIsScalar isPredefined
  rw [C136_found]
  cases s <;> first | exact absurd rfl h1 | exact absurd rfl h2 | rfl

end Verif.Scalar
