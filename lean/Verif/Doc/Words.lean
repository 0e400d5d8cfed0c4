import Verif.Doc.Print

/-!
# The words of a description
-/

namespace Verif.Doc

open Verif.Mustache (Text)
open Verif.HttpUrl (joinWith)

set_option linter.unusedSimpArgs false

/-- What is between white characters. -/
def pieces : Text → List Text
  | [] => [[]]
  | c :: r =>
    if white c then [] :: pieces r
    else
      match pieces r with
      | [] => [[c]]
      | w :: ws => (c :: w) :: ws

/-- The words of a text. -/
def words (t : Text) : List Text := (pieces t).filter (fun w => !w.isEmpty)

theorem pieces_ne (t : Text) : pieces t ≠ [] := by
  cases t with
  | nil => simp [pieces]
  | cons c r =>
    simp only [pieces]
    split
    · simp
    · split <;> simp

theorem pieces_white (a b : Text) (c : Char) (hc : white c = true) : pieces (a ++ c :: b) = pieces a ++ pieces b := by
  induction a with
  | nil => simp [pieces, hc]
  | cons x a ih =>
    simp only [List.cons_append, pieces, ih]
    split
    · rfl
    · have := pieces_ne a
      cases h : pieces a with
      | nil => exact absurd h this
      | cons w ws => rfl

theorem words_white (a b : Text) (c : Char) (hc : white c = true) : words (a ++ c :: b) = words a ++ words b := by
  simp only [words, pieces_white a b c hc, List.filter_append]

theorem words_nil : words [] = [] := rfl

theorem words_cons_white (b : Text) (c : Char) (hc : white c = true) : words (c :: b) = words b := by
  have := words_white [] b c hc
  simpa [words_nil] using this

/-- White characters in front. -/
theorem words_pre (a b : Text) (ha : ∀ c ∈ a, white c = true) : words (a ++ b) = words b := by
  induction a with
  | nil => rfl
  | cons c a ih =>
    rw [List.cons_append, words_cons_white _ _ (ha c List.mem_cons_self), ih (fun c hc => ha c (List.mem_cons_of_mem _ hc))]

theorem words_all (a : Text) (ha : ∀ c ∈ a, white c = true) : words a = [] := by
  have := words_pre a [] ha
  simpa [words_nil] using this

/-- A text that ends white. -/
theorem words_end (a b : Text) (h : ∃ x c, a = x ++ [c] ∧ white c = true) : words (a ++ b) = words a ++ words b := by
  obtain ⟨x, c, rfl, hc⟩ := h
  rw [List.append_assoc, List.singleton_append, words_white x b c hc, words_white x [] c hc, words_nil, List.append_nil]

theorem blank_white {c : Char} (h : isBlank c = true) : white c = true := by
  simp only [isBlank, Bool.or_eq_true, beq_iff_eq] at h
  rcases h with h | h <;> subst h <;> decide

theorem words_join : ∀ ls : List Text, words (joinWith '\n' ls) = ls.flatMap words
  | [] => rfl
  | [x] => by simp [joinWith]
  | x :: y :: r => by
    have ih := words_join (y :: r)
    simp only [joinWith, List.flatMap_cons] at ih ⊢
    rw [words_white _ _ _ (by decide), ih]

theorem words_splitLines (t : Text) : (splitLines t).flatMap words = words t := by
  have hj : ∀ t, joinWith '\n' (splitLines t) = t ∧ splitLines t ≠ [] := by
    intro t
    induction t with
    | nil => exact ⟨rfl, by simp [splitLines]⟩
    | cons c r ih =>
      obtain ⟨i1, i2⟩ := ih
      cases h : splitLines r with
      | nil => exact absurd h i2
      | cons l ls =>
        rw [h] at i1
        simp only [splitLines, h]
        split
        · rename_i hc
          subst hc
          exact ⟨by simp [joinWith, i1], by simp⟩
        · refine ⟨?_, by simp⟩
          cases ls with
          | nil => simp only [joinWith] at i1 ⊢; rw [i1]
          | cons l2 ls => simp only [joinWith, List.cons_append] at i1 ⊢; rw [i1]
  rw [← words_join, (hj t).1]

theorem words_blank {l : Text} (h : l.all isBlank = true) : words l = [] := by
  rw [List.all_eq_true] at h
  exact words_all l (fun c hc => blank_white (h c hc))

theorem flatMap_dropWhile {α : Type} (p : Text → Bool) (hp : ∀ l, p l = true → words l = []) : ∀ ls : List Text,
    (ls.dropWhile p).flatMap words = ls.flatMap words
  | [] => rfl
  | l :: ls => by
    rw [List.dropWhile_cons]
    split
    · rename_i h
      rw [flatMap_dropWhile (α := α) p hp ls, List.flatMap_cons, hp l h, List.nil_append]
    · rfl

theorem flatMap_dropEnd (ls : List Text) : (dropEnd ls).flatMap words = ls.flatMap words := by
  have key : ∀ us : List Text, ((us.dropWhile (·.all isBlank)).reverse).flatMap words = (us.reverse).flatMap words := by
    intro us
    induction us with
    | nil => rfl
    | cons u us ih =>
      rw [List.dropWhile_cons]
      split
      · rename_i h
        rw [ih, List.reverse_cons, List.flatMap_append]
        simp [words_blank h]
      · rfl
  have := key ls.reverse
  rw [List.reverse_reverse] at this
  exact this

theorem foldl_min_le (is : List Nat) : ∀ i, is.foldl min i ≤ i ∧ ∀ j ∈ is, is.foldl min i ≤ j := by
  induction is with
  | nil => intro i; simp
  | cons a is ih =>
    intro i
    obtain ⟨h1, h2⟩ := ih (min i a)
    simp only [List.foldl_cons, List.mem_cons]
    refine ⟨by omega, fun j hj => ?_⟩
    rcases hj with rfl | hj
    · omega
    · exact h2 j hj

theorem commonIndent_le (ls : List Text) (l : Text) (hl : l ∈ ls) (hb : l.all isBlank = false) : commonIndent ls ≤ indent l := by
  have hm : indent l ∈ (ls.filter (fun l => !l.all isBlank)).map indent :=
    List.mem_map.mpr ⟨l, List.mem_filter.mpr ⟨hl, by simp [hb]⟩, rfl⟩
  unfold commonIndent
  split
  · omega
  · rename_i i is h
    rw [h] at hm
    rcases List.mem_cons.mp hm with e | e
    · rw [e]; exact (foldl_min_le is i).1
    · exact (foldl_min_le is i).2 _ e

theorem words_drop (l : Text) (n : Nat) (h : l.all isBlank = true ∨ n ≤ indent l) : words (l.drop n) = words l := by
  have hpre : ∀ c ∈ l.take n, white c = true := by
    intro c hc
    rcases h with h | h
    · rw [List.all_eq_true] at h
      exact blank_white (h c (List.mem_of_mem_take hc))
    · have hp : l.take n <+: l.takeWhile isBlank :=
        List.prefix_of_prefix_length_le (List.take_prefix n l) (List.takeWhile_prefix isBlank)
          (by unfold indent at h; rw [List.length_take]; omega)
      have hc' := hp.subset hc
      have : ∀ x ∈ l.takeWhile isBlank, isBlank x = true := fun x hx => List.all_eq_true.mp List.all_takeWhile x hx
      exact blank_white (this c hc')
  have := words_pre (l.take n) (l.drop n) hpre
  rw [List.take_append_drop] at this
  exact this.symm

/-- The value of a block string has the words of its raw text. -/
theorem words_blockValue (raw : Text) : words (blockValue raw) = words raw := by
  rw [← words_splitLines raw]
  unfold blockValue
  cases h : splitLines raw with
  | nil => rfl
  | cons l ls =>
    simp only []
    rw [words_join, flatMap_dropEnd, flatMap_dropWhile (α := Unit) _ (fun l hl => words_blank hl), List.flatMap_cons, List.flatMap_cons]
    congr 1
    rw [List.flatMap_map, List.flatMap_def, List.flatMap_def]
    congr 1
    refine List.map_congr_left (fun x hx => ?_)
    refine words_drop x _ ?_
    cases hb : x.all isBlank with
    | true => exact Or.inl rfl
    | false => exact Or.inr (commonIndent_le ls x hx hb)

theorem words_spaces (n : Nat) (t : Text) : words (spaces n ++ t) = words t :=
  words_pre _ _ (fun c hc => by rw [spaces_mem hc]; decide)

theorem words_raw (ind : Nat) (lines : List Text) : words (rawOf ind lines) = lines.flatMap words := by
  unfold rawOf
  rw [words_white _ _ _ (by decide), show words (spaces ind) = [] from words_all _ (fun c hc => by rw [spaces_mem hc]; decide),
    List.append_nil]
  induction lines with
  | nil => rfl
  | cons l ls ih =>
    have e : ∀ (a : Text), words (a ++ ls.flatMap (fun l => '\n' :: (spaces ind ++ l))) =
        words a ++ words (ls.flatMap (fun l => '\n' :: (spaces ind ++ l))) := by
      intro a
      cases ls with
      | nil => simp [words_nil]
      | cons l2 ls =>
        simp only [List.flatMap_cons, List.cons_append]
        rw [words_white _ _ _ (by decide), words_cons_white _ _ (by decide)]
    rw [List.flatMap_cons, List.flatMap_cons, e, ih, words_cons_white _ _ (by decide), words_spaces]

/-! ## Lines -/

theorem takeFit_split (brk : Nat) : ∀ (gs : List Text) (cur : Nat), (takeFit brk cur gs).1 ++ (takeFit brk cur gs).2 = gs
  | [], _ => rfl
  | g :: gs, cur => by
    unfold takeFit
    split
    · rfl
    · simp only [List.cons_append, takeFit_split brk gs]

theorem takeFit_bytes (brk : Nat) : ∀ (gs : List Text) (cur : Nat), cur ≤ brk → cur + bytes (takeFit brk cur gs).1.flatten ≤ brk
  | [], cur, h => by simpa [takeFit, bytes] using h
  | g :: gs, cur, h => by
    unfold takeFit
    split
    · simpa [bytes] using h
    · have := takeFit_bytes brk gs (cur + bytes g) (by omega)
      simp only [List.flatten_cons, bytes_append]
      omega

theorem takeWord_split : ∀ gs : List Text, ∃ r, takeWord gs ++ r = gs ∧
    (r = [] ∨ ∃ x g, takeWord gs = x ++ [g] ∧ g.any white = true)
  | [] => ⟨[], rfl, Or.inl rfl⟩
  | g :: gs => by
    unfold takeWord
    split
    · rename_i h
      exact ⟨gs, rfl, Or.inr ⟨[], g, rfl, h⟩⟩
    · obtain ⟨r, h1, h2⟩ := takeWord_split gs
      refine ⟨r, by simp [h1], ?_⟩
      rcases h2 with h | ⟨x, g2, h, hw⟩
      · exact Or.inl h
      · exact Or.inr ⟨g :: x, g2, by simp [h], hw⟩

/-- In these graphemes, white characters are among themselves. -/
def Clean (gs : List Text) : Prop := ∀ g ∈ gs, g.any white = true → ∀ c ∈ g, white c = true

theorem nextLine_split (seg : Text → List Text) (hs : Whole seg) (brk : Nat) (t : Text) :
    ∃ r, nextLine seg brk t ++ r = t ∧ (t ≠ [] → nextLine seg brk t ≠ []) ∧
      (Clean (seg t) → r = [] ∨ ∃ x c, nextLine seg brk t = x ++ [c] ∧ white c = true) := by
  have h1 := takeFit_split brk (seg t) 0
  obtain ⟨r, h2, h3⟩ := takeWord_split (takeFit brk 0 (seg t)).2
  refine ⟨r.flatten, ?_, fun ht he => ?_, fun hc => ?_⟩
  · unfold nextLine
    simp only [List.append_assoc]
    rw [← List.flatten_append, h2, ← List.flatten_append, h1, hs]
  · unfold nextLine at he
    simp only [List.append_eq_nil_iff] at he
    obtain ⟨he1, he2⟩ := he
    cases hr : (takeFit brk 0 (seg t)).2 with
    | nil =>
      rw [hr, List.append_nil] at h1
      rw [h1, hs] at he1
      exact ht he1
    | cons g gs =>
      have hg : g ≠ [] := by
        have hbig : ∀ (l : List Text) (cur : Nat) (g : Text) (gs : List Text), cur ≤ brk → (takeFit brk cur l).2 = g :: gs → g ≠ [] := by
          intro l
          induction l with
          | nil => intro cur g gs _ h; simp [takeFit] at h
          | cons a l ih =>
            intro cur g gs hcur h
            unfold takeFit at h
            split at h
            · rename_i hb
              cases h
              intro e
              subst e
              simp [bytes] at hb
              omega
            · exact ih _ g gs (by omega) h
        exact hbig (seg t) 0 g gs (by omega) hr
      rw [hr] at he2
      unfold takeWord at he2
      split at he2 <;> simp [hg] at he2
  · rcases h3 with h | ⟨x, g, h, hw⟩
    · left; rw [h]; rfl
    · right
      have hg : g ∈ seg t := by
        rw [← h1, ← h2, h]
        simp
      have hg2 := hc g hg hw
      have hne : g ≠ [] := by intro e; subst e; simp at hw
      obtain ⟨y, c, hy⟩ : ∃ y c, g = y ++ [c] := ⟨g.dropLast, g.getLast hne, (List.dropLast_concat_getLast hne).symm⟩
      refine ⟨(takeFit brk 0 (seg t)).1.flatten ++ (x.flatten ++ y), c, ?_, hg2 c (by rw [hy]; simp)⟩
      unfold nextLine
      simp only [h, List.flatten_append, List.flatten_cons, List.flatten_nil, List.append_nil, List.append_assoc]
      rw [hy]

/-- The lines make up the text. -/
theorem lines_flatten (seg : Text → List Text) (hs : Whole seg) (brk : Nat) : ∀ (n : Nat) (t : Text), t.length ≤ n →
    (breakLines seg brk n t).flatten = t
  | 0, t, h => by
    obtain rfl : t = [] := List.length_eq_zero_iff.mp (by omega)
    rfl
  | n + 1, t, h => by
    unfold breakLines
    split
    · rename_i he
      rw [List.isEmpty_iff.mp he]
      rfl
    · rename_i he
      obtain ⟨r, h1, h2, _⟩ := nextLine_split seg hs brk t
      have hne := h2 (by intro e; subst e; simp at he)
      have hl : 0 < (nextLine seg brk t).length := List.length_pos_iff.mpr hne
      have hd : t.drop (nextLine seg brk t).length = r := by
        generalize nextLine seg brk t = q at h1
        rw [← h1, List.drop_append_of_le_length (Nat.le_refl _), List.drop_length, List.nil_append]
      simp only [List.flatten_cons]
      rw [lines_flatten seg hs brk n _ (by rw [List.length_drop]; omega), hd, h1]

/-- The lines have the words of the text. -/
theorem lines_words (seg : Text → List Text) (hs : Whole seg) (brk : Nat) : ∀ (n : Nat) (t : Text), t.length ≤ n →
    (∀ u, u <:+ t → Clean (seg u)) → (breakLines seg brk n t).flatMap words = words t
  | 0, t, h, _ => by
    obtain rfl : t = [] := List.length_eq_zero_iff.mp (by omega)
    rfl
  | n + 1, t, h, hc => by
    unfold breakLines
    split
    · rename_i he
      rw [List.isEmpty_iff.mp he]
      rfl
    · rename_i he
      obtain ⟨r, h1, h2, h3⟩ := nextLine_split seg hs brk t
      have hne := h2 (by intro e; subst e; simp at he)
      have hl : 0 < (nextLine seg brk t).length := List.length_pos_iff.mpr hne
      have hd : t.drop (nextLine seg brk t).length = r := by
        generalize nextLine seg brk t = q at h1
        rw [← h1, List.drop_append_of_le_length (Nat.le_refl _), List.drop_length, List.nil_append]
      simp only [List.flatMap_cons]
      rw [lines_words seg hs brk n _ (by rw [List.length_drop]; omega)
        (fun u hu => hc u (hu.trans (List.drop_suffix _ _))), hd]
      have hw : words (nextLine seg brk t ++ r) = words (nextLine seg brk t) ++ words r := by
        rcases h3 (hc t (List.suffix_refl t)) with e | e
        · rw [e]; simp [words_nil]
        · exact words_end _ _ e
      rw [← hw, h1]

theorem noTriple_infix {a b : Text} (h : a <:+: b) (hb : noTriple b = true) : noTriple a = true := by
  obtain ⟨s, t, rfl⟩ := h
  have h1 : noTriple (a ++ t) = true := by
    induction s with
    | nil => simpa using hb
    | cons c s ih =>
      simp only [List.cons_append, noTriple, Bool.and_eq_true] at hb
      exact ih hb.2
  clear hb
  induction a with
  | nil => rfl
  | cons c a ih =>
    simp only [List.cons_append, noTriple, Bool.and_eq_true, Bool.not_eq_true', Bool.and_eq_false_iff] at h1 ⊢
    refine ⟨?_, ih h1.2⟩
    rcases h1.1 with h | h
    · exact Or.inl h
    · right
      rw [beq_eq_false_iff_ne] at h ⊢
      intro e
      apply h
      have hl : 2 ≤ a.length := by
        have := congrArg List.length e
        simp at this
        omega
      rw [List.take_append_of_le_length hl, e]

end Verif.Doc
