import Verif.Sample.Types

/-!
# Concrete samples
-/

namespace Verif.Sample

open Verif.Mustache (Text)
open Verif.HttpUrl (GVal RCtx QC)

/-- `http://h/users/12/posts/0a1b2c3d-0000-4000-8000-00000000000f?page=-1&tag=a&tag=b&x=true#top`. -/
def sample : Sample :=
  ⟨"http://h".toList, "/users/12/posts/0a1b2c3d-0000-4000-8000-00000000000f".toList, some ("page=-1&tag=a&tag=b&x=true".toList.map QC.raw), some "top".toList⟩

/-- The parts of its path. -/
def sampleParts : List Part := [.name "users".toList, .num 12, .name "posts".toList, .id "0a1b2c3d-0000-4000-8000-00000000000f".toList]

theorem sample_pairs : sample.pairs = [("page".toList, "-1".toList), ("tag".toList, "a".toList), ("tag".toList, "b".toList), ("x".toList, "true".toList)] := by
  decide +kernel

theorem quiet_of {t : Text} (h : t.all (fun c => decide (c.toNat < 128) && c != '%' && c != '{' && c != '"' && c != '?' && c != '#') = true) : ∀ c ∈ t, Quiet c := by
  intro c hc
  have := List.all_eq_true.1 h c hc
  simp only [Bool.and_eq_true, decide_eq_true_eq, bne_iff_ne] at this
  exact ⟨this.1.1.1.1.1, this.1.1.1.1.2, this.1.1.1.2, this.1.1.2, this.1.2, this.2⟩

theorem not_number {c : Char} {r : Text} (h : c.isDigit = false) : ¬ NumberLike (c :: r) := by
  rintro ⟨d, r', e, hd, hall, _⟩
  cases d with
  | nil => exact hd rfl
  | cons x d =>
    have e : c = x := (List.cons.inj e).1
    have := hall x List.mem_cons_self
    rw [← e, h] at this
    cases this

theorem not_uuid {c : Char} {r : Text} (h : isHex c = false) : ¬ UuidLike (c :: r) := by
  rintro ⟨u, r', ⟨a, b, x, d, y, rfl, la, _, _, _, _, hx⟩, e⟩
  cases a with
  | nil => simp at la
  | cons z a =>
    have e : c = z := (List.cons.inj e).1
    have := isHex_iff.2 (hx z (by simp))
    rw [← e, h] at this
    cases this

theorem sample_parts_ok : ∀ p ∈ sampleParts, p.Ok := by
  intro p hp
  have hp : p = .name "users".toList ∨ p = .num 12 ∨ p = .name "posts".toList ∨ p = .id "0a1b2c3d-0000-4000-8000-00000000000f".toList := by
    simpa [sampleParts] using hp
  rcases hp with rfl | rfl | rfl | rfl
  · refine ⟨fun c hc => ⟨quiet_of (t := "users".toList) (by decide +kernel) c hc, ?_⟩, ?_, ?_⟩
    · have : ∀ c ∈ "users".toList, c ≠ '/' := by decide +kernel
      exact this c hc
    · rw [show "users".toList = 'u' :: "sers".toList by decide +kernel]; exact not_number (by decide)
    · rw [show "users".toList = 'u' :: "sers".toList by decide +kernel]; exact not_uuid (by decide)
  · show 12 < 2147483648
    omega
  · refine ⟨fun c hc => ⟨quiet_of (t := "posts".toList) (by decide +kernel) c hc, ?_⟩, ?_, ?_⟩
    · have : ∀ c ∈ "posts".toList, c ≠ '/' := by decide +kernel
      exact this c hc
    · rw [show "posts".toList = 'p' :: "osts".toList by decide +kernel]; exact not_number (by decide)
    · rw [show "posts".toList = 'p' :: "osts".toList by decide +kernel]; exact not_uuid (by decide)
  · refine ⟨⟨"0a1b2c3d".toList, "0000".toList, "4000".toList, "8000".toList, "00000000000f".toList, by decide +kernel, by decide +kernel, by decide +kernel,
      by decide +kernel, by decide +kernel, by decide +kernel, ?_⟩, 'a', by decide +kernel, by decide⟩
    have : ∀ x ∈ "0a1b2c3d".toList ++ "0000".toList ++ "4000".toList ++ "8000".toList ++ "00000000000f".toList, isHex x = true := by decide +kernel
    exact fun x hx => isHex_iff.1 (this x hx)

/-- The sample can be asked for again. -/
theorem sample_plain : Plain (fun _ => False) id sample := by
  have hall : ∀ x ∈ sample.pairs, x = ("page".toList, "-1".toList) ∨ x = ("tag".toList, "a".toList) ∨ x = ("tag".toList, "b".toList) ∨ x = ("x".toList, "true".toList) := by
    intro x hx
    rw [sample_pairs] at hx
    simpa only [List.mem_cons, List.not_mem_nil, or_false] using hx
  refine ⟨quiet_of (by decide +kernel), ⟨sampleParts, by decide +kernel, sample_parts_ok⟩, ?_, ?_, ?_, fun _ _ _ _ e => e, ?_, ?_⟩
  · intro f hf
    cases hf
    have : ∀ c ∈ "top".toList, c.toNat < 128 ∧ c ≠ '%' ∧ c ≠ '{' ∧ c ≠ '"' := by decide +kernel
    exact this
  · intro x hx
    have key : ∀ t : Text, (∀ c ∈ t, c ∉ ['&', '%', '+', '\t', '\n', '\r']) → Unspecial t := fun t h => h
    rcases hall x hx with rfl | rfl | rfl | rfl <;> exact ⟨by decide +kernel, key _ (by decide +kernel), by decide +kernel⟩
  · intro x hx
    have hn : ∀ (c : Char) (cs : Text), c.isAlpha = true → (cs.all (fun x => x.isAlphanum || x == '_')) = true → Name (c :: cs) := fun c cs h1 h2 =>
      ⟨c, cs, rfl, h1, fun y hy => by have := List.all_eq_true.1 h2 y hy; simpa using this⟩
    have hg : ∀ (t : Text), 'G' ∉ t → ∀ i : Nat, t ≠ "GEN__".toList ++ (toString i).toList := fun t h i e =>
      h (by rw [e]; exact List.mem_append_left _ (by decide +kernel))
    rcases hall x hx with rfl | rfl | rfl | rfl
    · exact ⟨hn 'p' "age".toList (by decide) (by decide +kernel) |> fun h => (show "page".toList = 'p' :: "age".toList by decide +kernel) ▸ h, hg _ (by decide +kernel)⟩
    · exact ⟨hn 't' "ag".toList (by decide) (by decide +kernel) |> fun h => (show "tag".toList = 't' :: "ag".toList by decide +kernel) ▸ h, hg _ (by decide +kernel)⟩
    · exact ⟨hn 't' "ag".toList (by decide) (by decide +kernel) |> fun h => (show "tag".toList = 't' :: "ag".toList by decide +kernel) ▸ h, hg _ (by decide +kernel)⟩
    · exact ⟨hn 'x' [] (by decide) (by decide +kernel) |> fun h => (show "x".toList = ['x'] by decide +kernel) ▸ h, hg _ (by decide +kernel)⟩
  · intro x hx
    have key : ∀ t : Text, (∀ c ∈ t, c ∉ ['&', '%', '+', '\t', '\n', '\r']) → Unspecial t := fun t h => h
    rcases hall x hx with rfl | rfl | rfl | rfl <;> exact ⟨key _ (by decide +kernel), by decide +kernel⟩
  · intro k v r e w hw
    have hm : ∀ w ∈ v :: r, (k, w) ∈ sample.pairs := fun w hw => mem_values.1 (by rw [e]; exact hw)
    have d1 : detect "-1".toList = "Int".toList := by decide +kernel
    have d2 : detect "a".toList = "String".toList := by decide +kernel
    have d3 : detect "b".toList = "String".toList := by decide +kernel
    have d4 : detect "true".toList = "Boolean".toList := by decide +kernel
    have ne1 : "page".toList ≠ "tag".toList := by decide +kernel
    have ne2 : "page".toList ≠ "x".toList := by decide +kernel
    have ne3 : "tag".toList ≠ "x".toList := by decide +kernel
    have t1 : "-1".toList = (toString (-1 : Int)).toList := by decide +kernel
    have t2 : "true".toList = (toString true).toList := by decide +kernel
    have get : ∀ x : Text × Text, x ∈ sample.pairs → (x.1 = "page".toList ∧ x.2 = "-1".toList) ∨ (x.1 = "tag".toList ∧ (x.2 = "a".toList ∨ x.2 = "b".toList)) ∨
        (x.1 = "x".toList ∧ x.2 = "true".toList) := by
      intro x hx
      rcases hall x hx with rfl | rfl | rfl | rfl
      · exact .inl ⟨rfl, rfl⟩
      · exact .inr (.inl ⟨rfl, .inl rfl⟩)
      · exact .inr (.inl ⟨rfl, .inr rfl⟩)
      · exact .inr (.inr ⟨rfl, rfl⟩)
    rcases get _ (hm v List.mem_cons_self) with ⟨k1, v1⟩ | ⟨k1, v1⟩ | ⟨k1, v1⟩ <;> rcases get _ (hm w hw) with ⟨k2, w1⟩ | ⟨k2, w1⟩ | ⟨k2, w1⟩ <;>
      simp only at k1 v1 k2 w1
    · rw [v1, w1, d1, t1]; exact ⟨_, .int (by decide) (by decide)⟩
    · exact absurd (k1.symm.trans k2) ne1
    · exact absurd (k1.symm.trans k2) ne2
    · exact absurd (k2.symm.trans k1) ne1
    · have : detect v = "String".toList := by rcases v1 with v1 | v1 <;> rw [v1] <;> assumption
      rw [this]; exact ⟨_, .str⟩
    · exact absurd (k1.symm.trans k2) ne3
    · exact absurd (k2.symm.trans k1) ne2
    · exact absurd (k2.symm.trans k1) ne3
    · rw [v1, w1, d4, t2]; exact ⟨_, .bool⟩

/-- C118: the sample. -/
example : ∃ d, generate id sample = some d ∧ ∃ vals, Typed (fun _ => False) d.args vals ∧
    ∀ ctx, Gives ctx vals → ∃ u, Verif.HttpUrl.createUrl some (d.template "GET".toList none) ctx = some u ∧
      u.base = "http://h/users/12/posts/0a1b2c3d-0000-4000-8000-00000000000f".toList ∧ u.frag = some "top".toList ∧ ∀ k, values u.pairs k = values sample.pairs k :=
  C118_roundtrip_partial (fun _ => False) id some "GET".toList none sample _ sample_plain (by decide +kernel)

/-- C119: what is generated for it. -/
example : generate id sample = some ⟨"http://h/users/{{.args.GEN__1}}/posts/{{.args.GEN__2}}#top".toList,
    [("page".toList, "{{.args.page}}".toList), ("tag".toList, "{{.args.tag}}".toList), ("x".toList, "{{.args.x}}".toList)],
    [("x".toList, ⟨"Boolean".toList, false, false⟩), ("tag".toList, ⟨"String".toList, true, false⟩), ("page".toList, ⟨"Int".toList, false, false⟩),
      ("GEN__2".toList, ⟨"String".toList, false, true⟩), ("GEN__1".toList, ⟨"Int".toList, false, true⟩)]⟩ := by decide +kernel

/-- C119: the arguments of the sample. -/
example (d : Directive) (hd : generate id sample = some d) := C119_arguments_partial (fun _ => False) id sample d sample_plain hd

/-- C119: types. -/
example : detect "-2147483648".toList = "Int".toList ∧ detect "2147483648".toList = "Float".toList ∧ detect " 7 ".toList = "Int".toList ∧ detect "1.5e3".toList = "Float".toList ∧
    detect "a,1".toList = "String".toList ∧ detect "1,a".toList = "Int".toList ∧ detect [] = "String".toList := by decide +kernel

/-- C119: a number with white space. -/
example : ∃ a sign ds b, " -7 ".toList = a ++ sign ++ ds ++ b ∧ (∀ c ∈ a ++ b, c.isWhitespace = true) ∧ sign ∈ [[], ['-'], ['+']] ∧ ds ≠ [] ∧
      (∀ c ∈ ds, c.isDigit = true) ∧ Nat.ofDigitChars 10 ds 0 < if sign = ['-'] then 2147483649 else 2147483648 :=
  C119_int_sound _ (by decide +kernel) (by decide +kernel)

end Verif.Sample
