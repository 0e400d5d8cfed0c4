import Verif.Sample.Spec
import Verif.HttpUrl.Props
import Verif.Mustache.Props
import Verif.Transform.Ambig

/-!
# Lemmas: paths, decoding and parameters
-/

namespace Verif.Sample

open Verif.Mustache (Text Template Seg isWord)
open Verif.HttpUrl (QC GVal RCtx pairsOf splitAll Query)
open Verif.Transform (insert At Lacks)

set_option linter.unusedSimpArgs false

/-! ## Characters -/

theorem isDigit_eq (c : Char) : isDigit c = c.isDigit := by
  unfold isDigit Char.isDigit
  rfl

theorem isHex_iff {c : Char} : isHex c = true ↔ c.isDigit = true ∨ c ∈ "abcdef".toList := by
  rw [isHex, isDigit_eq, Bool.or_eq_true]
  constructor
  · rintro (h | h)
    · exact .inl h
    · right
      rw [Bool.and_eq_true, decide_eq_true_eq, decide_eq_true_eq] at h
      have h1 : 97 ≤ c.toNat := h.1
      have h2 : c.toNat ≤ 102 := h.2
      have hc : c = Char.ofNat c.toNat := (Char.ofNat_toNat c).symm
      have : c.toNat = 97 ∨ c.toNat = 98 ∨ c.toNat = 99 ∨ c.toNat = 100 ∨ c.toNat = 101 ∨ c.toNat = 102 := by omega
      rcases this with e | e | e | e | e | e <;> (rw [e] at hc; rw [hc]; decide)
  · rintro (h | h)
    · exact .inl h
    · right
      have : c = 'a' ∨ c = 'b' ∨ c = 'c' ∨ c = 'd' ∨ c = 'e' ∨ c = 'f' := by simpa using h
      rcases this with rfl | rfl | rfl | rfl | rfl | rfl <;> decide

theorem word_false {c : Char} : isWord c = false ↔ c.isAlphanum = false ∧ c ≠ '_' := by
  rw [Verif.Mustache.isWord_eq, Bool.or_eq_false_iff]
  simp

/-! ## Numbers and UUIDs -/

theorem take_dropWhile (p : Char → Bool) (s : Text) : s = s.takeWhile p ++ s.dropWhile p := (List.takeWhile_append_dropWhile).symm

theorem mem_takeWhile {p : Char → Bool} : ∀ {s : Text} {c : Char}, c ∈ s.takeWhile p → p c = true
  | [], _, h => absurd h List.not_mem_nil
  | a :: r, c, h => by
    rw [List.takeWhile_cons] at h
    split at h
    · rcases List.mem_cons.1 h with rfl | h
      · assumption
      · exact mem_takeWhile h
    · exact absurd h List.not_mem_nil

theorem intAt_none {t : Text} (h : ¬ NumberLike t) : intAt t = none := by
  rw [intAt]
  split
  · rfl
  · next he =>
    have h1 : t.takeWhile isDigit ≠ [] := by simpa using he
    have h2 : ∀ c ∈ t.takeWhile isDigit, c.isDigit = true := fun c hc => by rw [← isDigit_eq]; exact mem_takeWhile hc
    cases hd : t.dropWhile isDigit with
    | nil => exact absurd ⟨_, [], by rw [← hd]; exact take_dropWhile _ _, h1, h2, .inl rfl⟩ h
    | cons c r =>
      simp only
      split
      · rfl
      · next hw =>
        have hw := word_false.1 (by simpa using hw)
        exact absurd ⟨_, c :: r, by rw [← hd]; exact take_dropWhile _ _, h1, h2, .inr ⟨c, r, rfl, hw.1, hw.2⟩⟩ h

theorem digits_eq (n : Nat) : (toString n).toList = Nat.toDigits 10 n := by
  show (Nat.repr n).toList = _
  rw [Nat.repr]
  simp

theorem digit_of_mem {c : Char} {n : Nat} (h : c ∈ (toString n).toList) : c.isDigit = true := by
  rw [digits_eq] at h
  exact Nat.isDigit_of_mem_toDigits (by decide) (by decide) h

theorem digits_ne (n : Nat) : (toString n).toList ≠ [] := by
  rw [digits_eq]
  intro h
  have := Nat.ofDigitChars_ten_toDigits (n := n)
  rw [h] at this
  have h0 : Nat.toDigits 10 0 = ['0'] := by decide
  have : n = 0 := by simpa [Nat.ofDigitChars] using this.symm
  rw [this, h0] at h
  cases h

theorem digits_inj {a b : Nat} (h : (toString a).toList = (toString b).toList) : a = b := by
  rw [digits_eq, digits_eq] at h
  rw [← Nat.ofDigitChars_ten_toDigits (n := a), h, Nat.ofDigitChars_ten_toDigits]

theorem takeWhile_all {p : Char → Bool} : ∀ {s : Text}, (∀ c ∈ s, p c = true) → s.takeWhile p = s ∧ s.dropWhile p = []
  | [], _ => ⟨rfl, rfl⟩
  | a :: r, h => by
    have h1 := h a List.mem_cons_self
    obtain ⟨i1, i2⟩ := takeWhile_all (fun c hc => h c (List.mem_cons_of_mem _ hc))
    rw [List.takeWhile_cons, List.dropWhile_cons, if_pos h1, if_pos h1, i1]
    exact ⟨rfl, i2⟩

theorem intAt_digits (n : Nat) : intAt (toString n).toList = some [] := by
  obtain ⟨h1, h2⟩ := takeWhile_all (p := isDigit) (s := (toString n).toList) (fun c hc => by rw [isDigit_eq]; exact digit_of_mem hc)
  rw [intAt, h1, h2, if_neg (by simpa using digits_ne n)]

theorem hexRun_some : ∀ {n : Nat} {s r : Text}, hexRun n s = some r → ∃ a, s = a ++ r ∧ a.length = n ∧ ∀ c ∈ a, isHex c = true
  | 0, s, r, h => by rw [hexRun] at h; cases h; exact ⟨[], rfl, rfl, fun c hc => absurd hc List.not_mem_nil⟩
  | n + 1, [], r, h => by rw [hexRun] at h; cases h
  | n + 1, c :: s, r, h => by
    rw [hexRun] at h
    split at h
    · next hc =>
      obtain ⟨a, e1, e2, e3⟩ := hexRun_some h
      refine ⟨c :: a, by rw [e1]; rfl, by rw [List.length_cons, e2], fun x hx => ?_⟩
      rcases List.mem_cons.1 hx with rfl | hx
      · exact hc
      · exact e3 x hx
    · cases h

theorem hexRun_append : ∀ {a : Text} (r : Text), (∀ c ∈ a, isHex c = true) → hexRun a.length (a ++ r) = some r
  | [], r, _ => rfl
  | c :: a, r, h => by
    rw [List.length_cons, List.cons_append, hexRun, if_pos (h c List.mem_cons_self)]
    exact hexRun_append r (fun x hx => h x (List.mem_cons_of_mem _ hx))

theorem dashRun_some {n : Nat} {s r : Text} (h : dashRun n s = some r) : ∃ a, s = '-' :: a ++ r ∧ a.length = n ∧ ∀ c ∈ a, isHex c = true := by
  match s, h with
  | '-' :: s, h =>
    rw [dashRun] at h
    obtain ⟨a, e1, e2, e3⟩ := hexRun_some h
    exact ⟨a, by rw [e1]; rfl, e2, e3⟩
  | [], h => simp [dashRun] at h
  | c :: s, h =>
    by_cases e : c = '-'
    · subst e
      rw [dashRun] at h
      obtain ⟨a, e1, e2, e3⟩ := hexRun_some h
      exact ⟨a, by rw [e1]; rfl, e2, e3⟩
    · rw [dashRun] at h
      · cases h
      · intro r' e'; cases e'; exact e rfl

theorem uuidAt_some {t r : Text} (h : uuidAt t = some r) : ∃ u, IsUuid u ∧ t = u ++ r := by
  rw [uuidAt] at h
  simp only [Option.bind_eq_some_iff] at h
  obtain ⟨s1, h1, s2, h2, s3, h3, s4, h4, h5⟩ := h
  obtain ⟨a, ea, la, ha⟩ := hexRun_some h1
  obtain ⟨b, eb, lb, hb⟩ := dashRun_some h2
  obtain ⟨c, ec, lc, hc⟩ := dashRun_some h3
  obtain ⟨d, ed, ld, hd⟩ := dashRun_some h4
  obtain ⟨e, ee, le, he⟩ := dashRun_some h5
  refine ⟨_, ⟨a, b, c, d, e, rfl, la, lb, lc, ld, le, fun x hx => ?_⟩, by rw [ea, eb, ec, ed, ee]; simp⟩
  apply isHex_iff.1
  simp only [List.mem_append] at hx
  rcases hx with (((hx | hx) | hx) | hx) | hx
  · exact ha x hx
  · exact hb x hx
  · exact hc x hx
  · exact hd x hx
  · exact he x hx

theorem uuidAt_none {t : Text} (h : ¬ UuidLike t) : uuidAt t = none := by
  cases e : uuidAt t with
  | none => rfl
  | some r =>
    obtain ⟨u, h1, h2⟩ := uuidAt_some e
    exact absurd ⟨u, r, h1, h2⟩ h

theorem uuidAt_uuid {u : Text} (h : IsUuid u) : uuidAt u = some [] := by
  obtain ⟨a, b, c, d, e, rfl, la, lb, lc, ld, le, hx⟩ := h
  have hh : ∀ l : Text, (∀ x ∈ l, x ∈ a ++ b ++ c ++ d ++ e) → ∀ x ∈ l, isHex x = true := fun l hl x hxl => isHex_iff.2 (hx x (hl x hxl))
  have ha := hh a (fun x h => by simp [h])
  have hb := hh b (fun x h => by simp [h])
  have hc := hh c (fun x h => by simp [h])
  have hd := hh d (fun x h => by simp [h])
  have he := hh e (fun x h => by simp [h])
  have e1 : a ++ ['-'] ++ b ++ ['-'] ++ c ++ ['-'] ++ d ++ ['-'] ++ e = a ++ ('-' :: (b ++ ('-' :: (c ++ ('-' :: (d ++ ('-' :: (e ++ []))))))))  := by simp
  have da : ∀ (l r : Text), (∀ x ∈ l, isHex x = true) → dashRun l.length ('-' :: (l ++ r)) = some r := fun l r h => by rw [dashRun]; exact hexRun_append r h
  rw [e1, uuidAt, ← la, hexRun_append _ ha]
  simp only [Option.bind_some]
  have h4 : ∀ (l r : Text), l.length = 4 → (∀ x ∈ l, isHex x = true) → dashRun 4 ('-' :: (l ++ r)) = some r := fun l r hl h => by
    rw [← hl]; exact da l r h
  rw [h4 b _ lb hb]
  simp only [Option.bind_some]
  rw [h4 c _ lc hc]
  simp only [Option.bind_some]
  rw [h4 d _ ld hd]
  simp only [Option.bind_some]
  rw [← le]
  exact da e [] he

theorem intAt_uuid {u : Text} (h : IsUuid u) (h' : ∃ c ∈ u.take 8, c.isDigit = false) : intAt u = none := by
  obtain ⟨a, b, c, d, e, hu, la, _, _, _, _, hx⟩ := h
  obtain ⟨x, hx1, hx2⟩ := h'
  have hta : u.take 8 = a := by
    rw [hu]
    simp only [List.append_assoc]
    rw [List.take_append_of_le_length (by omega), List.take_of_length_le (by omega)]
  rw [hta] at hx1
  have key : ∀ (l r : Text), (∃ y ∈ l, y.isDigit = false) → (∀ y ∈ l, isHex y = true) →
      (∃ y z, (l ++ r).dropWhile isDigit = y :: z ∧ isWord y = true) := by
    intro l r
    induction l with
    | nil => rintro ⟨y, hy, _⟩; exact absurd hy List.not_mem_nil
    | cons c l ih =>
      rintro ⟨y, hy, hy'⟩ hh
      by_cases hc : isDigit c = true
      · rw [List.cons_append, List.dropWhile_cons, if_pos hc]
        refine ih ?_ (fun z hz => hh z (List.mem_cons_of_mem _ hz))
        rcases List.mem_cons.1 hy with rfl | hy
        · rw [isDigit_eq, hy'] at hc; cases hc
        · exact ⟨y, hy, hy'⟩
      · rw [List.cons_append, List.dropWhile_cons, if_neg hc]
        refine ⟨c, l ++ r, rfl, ?_⟩
        rcases isHex_iff.1 (hh c List.mem_cons_self) with h | h
        · rw [isDigit_eq, h] at hc; exact absurd rfl hc
        · have : c = 'a' ∨ c = 'b' ∨ c = 'c' ∨ c = 'd' ∨ c = 'e' ∨ c = 'f' := by simpa using h
          rcases this with rfl | rfl | rfl | rfl | rfl | rfl <;> decide
  obtain ⟨y, z, e1, e2⟩ := key a (['-'] ++ b ++ ['-'] ++ c ++ ['-'] ++ d ++ ['-'] ++ e) ⟨x, hx1, hx2⟩ (fun y hy => isHex_iff.2 (hx y (by simp [hy])))
  have hu' : u = a ++ (['-'] ++ b ++ ['-'] ++ c ++ ['-'] ++ d ++ ['-'] ++ e) := by rw [hu]; simp
  rw [intAt]
  split
  · rfl
  · rw [hu', e1]
    simp only
    rw [if_pos e2]

/-! ## Marked parts -/

/-- A part with the number of its argument, if it has one. -/
abbrev Marked := Part × Option Nat

/-- What is written for a marked part. -/
def Marked.text : Marked → Text
  | (_, some i) => placeholder (argName i)
  | (p, none) => p.text

/-- Numbers for numbers. -/
def mark1 : Nat → List Part → List Marked
  | _, [] => []
  | i, .num n :: r => (.num n, some i) :: mark1 (i + 1) r
  | i, p :: r => (p, none) :: mark1 i r

/-- How many numbers there are. -/
def count1 : List Part → Nat
  | [] => 0
  | .num _ :: r => count1 r + 1
  | _ :: r => count1 r

/-- Numbers for UUIDs. -/
def mark2 : Nat → List Marked → List Marked
  | _, [] => []
  | i, (.id u, none) :: r => (.id u, some i) :: mark2 (i + 1) r
  | i, x :: r => x :: mark2 i r

/-- The type of the argument of a part. -/
def Part.ty : Part → ArgTy
  | .num _ => ⟨"Int".toList, false, true⟩
  | _ => ⟨"String".toList, false, true⟩

/-- Arguments for those parts that have one by this. -/
def argsFrom (as : Args) (l : List (Nat × ArgTy)) : Args := l.foldl (fun as x => insert as (argName x.1) x.2) as

/-- The arguments of numbers. -/
def nums1 : Nat → List Part → List (Nat × ArgTy)
  | _, [] => []
  | i, .num n :: r => (i, (Part.num n).ty) :: nums1 (i + 1) r
  | i, _ :: r => nums1 i r

/-- The arguments of UUIDs. -/
def ids2 : Nat → List Marked → List (Nat × ArgTy)
  | _, [] => []
  | i, (.id u, none) :: r => (i, (Part.id u).ty) :: ids2 (i + 1) r
  | i, _ :: r => ids2 i r

theorem replace1 : ∀ (l : List Part) (i : Nat) (as : Args), (∀ p ∈ l, p.Ok) →
    replaceAll intAt "Int".toList (l.map Part.text) (i, as) = ((mark1 i l).map Marked.text, (i + count1 l, argsFrom as (nums1 i l)))
  | [], i, as, _ => rfl
  | p :: r, i, as, h => by
    have ih := fun i as => replace1 r i as (fun q hq => h q (List.mem_cons_of_mem _ hq))
    have hp := h p List.mem_cons_self
    rw [List.map_cons, replaceAll]
    cases p with
    | num n =>
      rw [show (Part.num n).text = (toString n).toList from rfl, intAt_digits]
      simp only
      rw [ih]
      refine Prod.ext ?_ (Prod.ext ?_ (by simp only [nums1, argsFrom, List.foldl_cons, Part.ty]))
      · simp [mark1, Marked.text]
      · show i + 1 + count1 r = i + (count1 r + 1)
        omega
    | id u =>
      rw [show (Part.id u).text = u from rfl, intAt_uuid hp.1 hp.2]
      simp only
      rw [ih]
      rfl
    | name t =>
      rw [show (Part.name t).text = t from rfl, intAt_none hp.2.1]
      simp only
      rw [ih]
      rfl

theorem brace_append {a b n z : Text} (h : a = '{' :: b) : a ++ n ++ z = '{' :: (b ++ n ++ z) := by
  subst h; rfl

theorem brace_head : "{{.args.".toList = '{' :: "{.args.".toList := by decide +kernel

theorem uuidAt_placeholder (n : Text) : uuidAt (placeholder n) = none := by
  have h : ∀ (k : Nat) (r : Text), hexRun (k + 1) ('{' :: r) = none := fun k r => by
    rw [hexRun, if_neg (by decide)]
  unfold placeholder uuidAt
  rw [brace_append brace_head, h 7]
  rfl

/-- Marked parts as the first pass leaves them. -/
def Marked.Ok (x : Marked) : Prop := x.1.Ok ∧ (x.2 = none → ∀ n, x.1 ≠ .num n)

theorem mark1_ok : ∀ (l : List Part) (i : Nat), (∀ p ∈ l, p.Ok) → ∀ x ∈ mark1 i l, Marked.Ok x
  | [], i, _, x, hx => absurd hx List.not_mem_nil
  | p :: r, i, h, x, hx => by
    have hp := h p List.mem_cons_self
    have ih := fun i => mark1_ok r i (fun q hq => h q (List.mem_cons_of_mem _ hq)) x
    cases p with
    | num n =>
      rcases List.mem_cons.1 hx with rfl | hx
      · exact ⟨hp, fun e => by cases e⟩
      · exact ih _ hx
    | id u =>
      rcases List.mem_cons.1 hx with rfl | hx
      · exact ⟨hp, fun _ n e => by cases e⟩
      · exact ih _ hx
    | name t =>
      rcases List.mem_cons.1 hx with rfl | hx
      · exact ⟨hp, fun _ n e => by cases e⟩
      · exact ih _ hx

theorem replace2 : ∀ (l : List Marked) (i : Nat) (as : Args), (∀ x ∈ l, Marked.Ok x) →
    (replaceAll uuidAt "String".toList (l.map Marked.text) (i, as)).1 = (mark2 i l).map Marked.text ∧
      (replaceAll uuidAt "String".toList (l.map Marked.text) (i, as)).2.2 = argsFrom as (ids2 i l)
  | [], i, as, _ => ⟨rfl, rfl⟩
  | (p, o) :: r, i, as, h => by
    have ih := fun i as => replace2 r i as (fun q hq => h q (List.mem_cons_of_mem _ hq))
    have hp := h (p, o) List.mem_cons_self
    rw [List.map_cons, replaceAll]
    cases o with
    | some j =>
      rw [show Marked.text (p, some j) = placeholder (argName j) from rfl, uuidAt_placeholder]
      simp only
      have e1 : mark2 i ((p, some j) :: r) = (p, some j) :: mark2 i r := by cases p <;> rfl
      have e2 : ids2 i ((p, some j) :: r) = ids2 i r := by cases p <;> rfl
      rw [e1, e2, (ih i as).1, (ih i as).2]
      exact ⟨rfl, rfl⟩
    | none =>
      cases p with
      | num n => exact absurd rfl (hp.2 rfl n)
      | id u =>
        rw [show Marked.text (Part.id u, none) = u from rfl, uuidAt_uuid hp.1.1]
        simp only
        rw [(ih _ _).1, (ih _ _).2]
        refine ⟨?_, rfl⟩
        simp [mark2, Marked.text]
      | name t =>
        rw [show Marked.text (Part.name t, none) = t from rfl, uuidAt_none hp.1.2.2]
        simp only
        rw [(ih _ _).1, (ih _ _).2]
        exact ⟨rfl, rfl⟩

/-- All marked parts of a path. -/
def marks (l : List Part) : List Marked := mark2 (1 + count1 l) (mark1 1 l)

/-- All arguments of a path. -/
def pathArgs (l : List Part) : Args := argsFrom (argsFrom [] (nums1 1 l)) (ids2 (1 + count1 l) (mark1 1 l))

theorem no_slash {p : Part} (h : p.Ok) : ∀ c ∈ p.text, (c == '/') = false := by
  cases p with
  | num n =>
    intro c hc
    have := digit_of_mem hc
    rw [beq_eq_false_iff_ne]
    rintro rfl
    revert this; decide
  | id u =>
    obtain ⟨⟨a, b, c, d, e, hu, _, _, _, _, _, hx⟩, _⟩ := h
    intro x hxu
    rw [beq_eq_false_iff_ne]
    rintro rfl
    have hm : ('/' : Char) ∈ u := hxu
    rw [hu] at hm
    have : '/' ∈ a ++ b ++ c ++ d ++ e := by simpa using hm
    have := hx _ this
    revert this; decide
  | name t =>
    intro c hc
    rw [beq_eq_false_iff_ne]
    exact (h.1 c hc).2

theorem split_slashed : ∀ (l : List Text), (∀ s ∈ l, ∀ c ∈ s, (c == '/') = false) → splitAll (· == '/') (slashed l) = [] :: l
  | [], _ => rfl
  | s :: r, h => by
    have ih := split_slashed r (fun q hq => h q (List.mem_cons_of_mem _ hq))
    have hs := h s List.mem_cons_self
    have e : slashed (s :: r) = [] ++ '/' :: (s ++ slashed r) := by simp [slashed]
    have e2 : splitAll (· == '/') (s ++ slashed r) = s :: r := by
      cases r with
      | nil => simpa [slashed] using Verif.HttpUrl.splitAll_none _ _ hs
      | cons y z =>
        have e3 : slashed (y :: z) = '/' :: (y ++ slashed z) := by simp [slashed]
        have e4 : splitAll (· == '/') (y ++ slashed z) = y :: z := by
          have := ih
          rw [e3] at this
          have h5 := Verif.HttpUrl.splitAll_append_sep (· == '/') [] (y ++ slashed z) '/' rfl
          rw [List.nil_append, this] at h5
          simpa [splitAll] using h5.symm
        rw [e3, Verif.HttpUrl.splitAll_append_sep _ _ _ _ rfl, e4, Verif.HttpUrl.splitAll_none _ _ hs]
        rfl
    rw [e, Verif.HttpUrl.splitAll_append_sep _ _ _ _ rfl, e2]
    rfl

theorem path_parts {l : List Part} (h : ∀ p ∈ l, p.Ok) :
    pathOf (l.flatMap (fun p => '/' :: p.text)) = (slashed ((marks l).map Marked.text), pathArgs l) := by
  have e : l.flatMap (fun p => '/' :: p.text) = slashed (l.map Part.text) := by
    rw [slashed, List.flatMap_map]
  have hs := split_slashed (l.map Part.text) (fun s hs => by
    obtain ⟨p, hp, rfl⟩ := List.mem_map.1 hs
    exact no_slash (h p hp))
  rw [e, pathOf, hs]
  simp only
  rw [replace1 l 1 [] h]
  simp only
  obtain ⟨r1, r2⟩ := replace2 (mark1 1 l) (1 + count1 l) (argsFrom [] (nums1 1 l)) (mark1_ok l 1 h)
  rw [r1, r2]
  rfl

end Verif.Sample
