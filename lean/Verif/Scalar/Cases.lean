import Verif.Scalar.Props

/-!
# Cases for C135 and C136
-/

namespace Verif.Scalar

open Mustache (Text)

/-- Formats by something that such texts have. -/
def demoFormats : Formats where
  email t := t.contains '@'
  phone t := t.head? == some '+'
  rfc3339 t := decide (10 < t.length)
  url t := t.contains ':'

/-! ## C135 -/

example : ∃ n, IsNumber (.num (.neg (-128))) n ∧ InRange true 8 n :=
  (C135_numbers demoFormats .int8 true 8 rfl (by decide) (.num (.neg (-128))) ⟨by decide, by decide⟩).mp rfl

example : ¬ ∃ n, IsNumber (.num (.pos 128)) n ∧ InRange true 8 n :=
  mt (C135_numbers demoFormats .int8 true 8 rfl (by decide) (.num (.pos 128)) (by decide : 128 < 2 ^ 64)).mpr
    (by decide)

example : validate demoFormats (.num (.pos 4294967295)) .uint32 = true :=
  (C135_numbers demoFormats .uint32 false 32 rfl (by decide) (.num (.pos 4294967295))
    (by decide : 4294967295 < 2 ^ 64)).mpr
    ⟨4294967295, .pos 4294967295, by decide, by decide⟩

example : validate demoFormats (.str "+9223372036854775807".toList) .int64 = true := by decide +kernel
example : validate demoFormats (.str "-9223372036854775808".toList) .int64 = true := by decide +kernel
example : validate demoFormats (.str "9223372036854775808".toList) .int64 = false := by decide +kernel
example : validate demoFormats (.str "18446744073709551615".toList) .uint64 = true := by decide +kernel
example : validate demoFormats (.str "-".toList) .int64 = false := by decide +kernel
example : validate demoFormats (.str "1_000".toList) .int64 = false := by decide +kernel

/-- Leading zeros change nothing. -/
example : Denotes "-0042".toList (-42) :=
  .minus "0042".toList (by decide) (by simp [IsDigit])

example : ∃ t n, Val.str "-0042".toList = .str t ∧ Denotes t n ∧ InRange true 128 n ∧ (true = true ∨ ¬ HasMinus t) :=
  (C135_texts_partial demoFormats .int128 true 128 rfl (by decide) _).mp (by decide +kernel)

example : (-42 : Int) = -42 := C135_denotes "-0042".toList (-42) (-42)
  (.minus "0042".toList (by decide) (by simp [IsDigit])) (.minus "0042".toList (by decide) (by simp [IsDigit]))

example : validate demoFormats (.num (.pos 5)) .int64 = false :=
  C135_violated_by_number demoFormats .int64 true 64 rfl (by decide) (.pos 5)

/-! ## C136 -/

example : find "UInt16".toList = some .uint16 := C136_found .uint16
example : "UInt16".toList = Scalar.name .uint16 := C136_found_only _ _ (by decide)

example : Documented demoFormats (.str "a@b".toList) .email :=
  (C136_values_partial demoFormats [] .email (by decide) (by decide) (.str "a@b".toList) trivial
    (by
      rintro ⟨⟨ds, h⟩, -⟩
      have h1 : ['a', '@', 'b'] = '-' :: ds := h
      simp at h1)).mp (by decide +kernel)

example : ¬ Documented demoFormats (.num (.pos 256)) .uint8 :=
  mt (C136_values_partial demoFormats [] .uint8 (by decide) (by decide) (.num (.pos 256))
    (by decide : 256 < 2 ^ 64) trivial).mpr (by decide +kernel)

/-- A scalar `Money` of the configuration is not checked, an object type neither. -/
example : passes demoFormats ["Money".toList] "Money".toList (.bool true) = some true :=
  (C136_others demoFormats ["Money".toList] "Money".toList (by intro s; cases s <;> decide) _).1 (Or.inl (by decide))

example : passes demoFormats ["Money".toList] "User".toList (.bool true) = none :=
  (C136_others demoFormats ["Money".toList] "User".toList (by intro s; cases s <;> decide) _).2 (by decide) (by decide)

example : passes demoFormats [] "Int".toList (.str "one".toList) = some true :=
  C136_violated_by_builtin demoFormats "Int".toList (by decide) _

example : validate demoFormats (.str "2023-03-08".toList) .date = false :=
  (C136_violated_by_date demoFormats (by intro t h; exact of_decide_eq_true h) "2023-03-08".toList
    ⟨'2', '0', '2', '3', '0', '3', '0', '8', by simp [IsDigit], rfl⟩).2

example : validate demoFormats (.bool true) .empty = true :=
  (C136_violated_by_empty demoFormats (.bool true) (by intro h; cases h)).2

example : passes demoFormats [] "Int8".toList (.list [.num (.pos 1)]) = some false :=
  C136_violated_by_list demoFormats .int8 (by decide) (by decide) _

end Verif.Scalar
