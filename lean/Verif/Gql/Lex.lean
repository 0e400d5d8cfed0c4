import Verif.Gql.Spec
import Verif.Server.Ident

/-!
# Reading back printed tokens
-/

namespace Verif.Gql

open Verif.Mustache (Text)
open Verif.HttpUrl (intText boolText joinWith)
open Verif.Input (QVal)

set_option linter.unusedSimpArgs false

/-! ## Texts that read as given tokens -/

theorem lex_cons (m : Mode) (c : Char) (r : Text) :
    lex m (c :: r) = match step m c with
      | none => none
      | some q => (lex q.2 r).map (q.1 ++ ·) := by
  cases m <;> rfl

/-- The text does not begin with a character of a word. -/
def Sep (r : Text) : Prop := ∀ c r', r = c :: r' → isWordChar c = false

/-- Between tokens, the text reads as the tokens. -/
def LexTo (t : Text) (ts : List Tok) : Prop :=
  ∀ r, Sep r → lex .top (t ++ r) = (lex .top r).map (ts ++ ·)

theorem Sep.nil : Sep [] := fun _ _ h => by cases h

theorem Sep.cons {c : Char} {r : Text} (h : isWordChar c = false) : Sep (c :: r) := by
  intro c' r' e
  cases e
  exact h

theorem optMap_map {α : Type} (o : Option (List α)) (a b : List α) :
    (o.map (b ++ ·)).map (a ++ ·) = o.map ((a ++ b) ++ ·) := by
  cases o <;> simp

theorem optMap_nil {α : Type} (o : Option (List α)) : o.map (([] : List α) ++ ·) = o := by
  cases o <;> simp

theorem LexTo.nil : LexTo [] [] := by
  intro r _
  simp

theorem LexTo.append {a b : Text} {x y : List Tok} (ha : LexTo a x) (hb : LexTo b y)
    (hs : ∀ r, Sep r → Sep (b ++ r)) : LexTo (a ++ b) (x ++ y) := by
  intro r hr
  rw [List.append_assoc, ha _ (hs r hr), hb r hr, optMap_map]

/-- A punctuator. -/
theorem LexTo.punct {c : Char} (h : isPunct c = true) (h1 : isWordChar c = false) (h2 : c ≠ '"')
    (h3 : isIgnored c = false) : ∀ r, lex .top (c :: r) = (lex .top r).map ([.p c] ++ ·) := by
  intro r
  rw [lex_cons]
  simp [step, stepTop, h, h1, h2, h3]

/-- An ignored character. -/
theorem LexTo.ignored {c : Char} (h1 : isWordChar c = false) (h2 : c ≠ '"')
    (h3 : isIgnored c = true) : ∀ r, lex .top (c :: r) = lex .top r := by
  intro r
  rw [lex_cons]
  simp [step, stepTop, h1, h2, h3]

theorem LexTo.pre_punct {c : Char} {t : Text} {ts : List Tok} (h : isPunct c = true)
    (h1 : isWordChar c = false) (h2 : c ≠ '"') (h3 : isIgnored c = false) (ht : LexTo t ts) :
    LexTo (c :: t) (.p c :: ts) := by
  intro r hr
  rw [List.cons_append, LexTo.punct h h1 h2 h3, ht r hr, optMap_map]
  rfl

theorem LexTo.pre_ignored {c : Char} {t : Text} {ts : List Tok} (h1 : isWordChar c = false) (h2 : c ≠ '"')
    (h3 : isIgnored c = true) (ht : LexTo t ts) : LexTo (c :: t) ts := by
  intro r hr
  rw [List.cons_append, LexTo.ignored h1 h2 h3, ht r hr]

theorem lex_word_go {v : Text} (h : ∀ c ∈ v, isWordChar c = true) :
    ∀ (w r : Text), lex (.word w) (v ++ r) = lex (.word (w ++ v)) r := by
  induction v with
  | nil => intro w r; simp
  | cons c v ih =>
    intro w r
    rw [List.cons_append, lex_cons]
    simp only [step, h c List.mem_cons_self, if_true]
    rw [ih (fun c hc => h c (List.mem_cons_of_mem _ hc)), optMap_nil, List.append_assoc]
    rfl

theorem lex_word_end {w r : Text} (hr : Sep r) : lex (.word w) r = (lex .top r).map ([.word w] ++ ·) := by
  cases r with
  | nil => simp [lex]
  | cons c r =>
    have hc := hr c r rfl
    rw [lex_cons, lex_cons]
    simp only [step, hc]
    cases h : stepTop c with
    | none => simp
    | some q =>
      simp only [Option.map_some]
      rw [optMap_map]
      rfl

/-- Words. -/
def Word (t : Text) : Prop := t ≠ [] ∧ ∀ c ∈ t, isWordChar c = true

theorem LexTo.word {t : Text} (h : Word t) : LexTo t [.word t] := by
  obtain ⟨hne, h⟩ := h
  cases t with
  | nil => exact absurd rfl hne
  | cons c v =>
    intro r hr
    rw [List.cons_append, lex_cons]
    simp only [step, stepTop, h c List.mem_cons_self, if_true]
    rw [lex_word_go (fun c hc => h c (List.mem_cons_of_mem _ hc)), lex_word_end hr]
    cases lex .top r <;> simp

/-- Characters that are printed in a way GraphQL reads back: no control characters but tab and line
ends. -/
def readable (c : Char) : Bool :=
  c == '\n' || c == '\r' || c == '\t' || (32 ≤ c.toNat && !(127 ≤ c.toNat && c.toNat < 160))

theorem lex_quoted {s : Text} (h : ∀ c ∈ s, readable c = true) :
    ∀ (u r : Text), lex (.str u) (s.flatMap quoteChar ++ '"' :: r) = (lex .top r).map ([.str (u ++ s)] ++ ·) := by
  induction s with
  | nil =>
    intro u r
    simp only [List.flatMap_nil, List.nil_append, List.append_nil]
    rw [lex_cons]
    simp [step]
  | cons c s ih =>
    intro u r
    have hc := h c List.mem_cons_self
    have ih := ih (fun c hc => h c (List.mem_cons_of_mem _ hc)) (u ++ [c]) r
    simp only [List.append_assoc, List.singleton_append] at ih
    have two : ∀ e : Char, unesc e = some c →
        lex (.str u) (['\\', e] ++ (s.flatMap quoteChar ++ '"' :: r)) =
          (lex .top r).map ([.str (u ++ c :: s)] ++ ·) := by
      intro e he
      rw [List.cons_append, lex_cons]
      simp only [step]
      simp only [show ('\\' == '"') = false from rfl, show ('\\' == '\\') = true from rfl, if_true, if_false,
        Bool.false_eq_true]
      rw [List.cons_append, lex_cons]
      simp only [step, he, Option.map_some, List.nil_append]
      rw [ih]
      cases lex .top r <;> simp
    rw [List.flatMap_cons, List.append_assoc]
    by_cases h1 : c = '\r'
    · subst h1; exact two 'r' rfl
    by_cases h2 : c = '\n'
    · subst h2; exact two 'n' rfl
    by_cases h3 : c = '\t'
    · subst h3; exact two 't' rfl
    by_cases h4 : c = '"'
    · subst h4; exact two '"' rfl
    by_cases h5 : c = '\\'
    · subst h5; exact two '\\' rfl
    have h6 : (decide (c.toNat < 32) || (decide (127 ≤ c.toNat) && decide (c.toNat < 160))) = false := by
      simp only [readable, h1, h2, h3, Bool.or_eq_true, Bool.and_eq_true, beq_iff_eq, false_or,
        Bool.not_eq_true', Bool.and_eq_false_iff, decide_eq_true_eq, decide_eq_false_iff_not] at hc
      simp only [Bool.or_eq_false_iff, Bool.and_eq_false_iff, decide_eq_false_iff_not]
      omega
    have hq : quoteChar c = [c] := by
      unfold quoteChar
      simp only [h6, beq_iff_eq, h1, h2, h3, h4, h5, if_false, Bool.false_eq_true]
    rw [hq, List.cons_append, List.nil_append, lex_cons]
    have hs : step (.str u) c = some ([], .str (u ++ [c])) := by
      simp [step, h1, h2, h4, h5]
    rw [hs]
    simp only []
    rw [optMap_nil, ih]
    rfl

theorem LexTo.quote {s : Text} (h : ∀ c ∈ s, readable c = true) : LexTo (quote s) [.str s] := by
  intro r _
  unfold Verif.Gql.quote
  rw [List.cons_append, lex_cons]
  simp only [step, stepTop, show isWordChar '"' = false from rfl, show ('"' == '"') = true from rfl, if_true,
    Bool.false_eq_true, if_false]
  rw [List.append_assoc]
  simp only [List.singleton_append]
  rw [lex_quoted h]
  cases lex .top r <;> simp

/-! ## Lists with separators -/

theorem LexTo.join {sep : Char} (hs : sep = ' ' ∨ sep = ',') :
    ∀ (l : List (Text × List Tok)), (∀ q ∈ l, LexTo q.1 q.2) →
      LexTo (joinWith sep (l.map (·.1))) (l.map (·.2)).flatten := by
  intro l
  have hw : isWordChar sep = false := by rcases hs with h | h <;> subst h <;> rfl
  have hq : sep ≠ '"' := by rcases hs with h | h <;> subst h <;> decide
  have hi : isIgnored sep = true := by rcases hs with h | h <;> subst h <;> rfl
  induction l with
  | nil => intro _; exact LexTo.nil
  | cons q l ih =>
    intro h
    have ih := ih (fun q hq => h q (List.mem_cons_of_mem _ hq))
    have hq0 := h q List.mem_cons_self
    cases l with
    | nil => simpa [joinWith] using hq0
    | cons q2 l2 =>
      simp only [List.map_cons, joinWith, List.flatten_cons]
      simp only [List.map_cons, List.flatten_cons] at ih
      exact LexTo.append hq0 (LexTo.pre_ignored hw hq hi ih) (fun r _ => Sep.cons hw)

end Verif.Gql
