import Verif.Doc.Read

/-!
# Texts that read as given tokens
-/

namespace Verif.Doc

open Verif.Mustache (Text)
open Verif.HttpUrl (joinWith intText boolText)
open Verif.HttpKey (joinComma)
open Verif.Input (QVal)
open Verif.Gql (Tok SVal SDir isWordChar isIgnored unesc valToks valsToks kvsToks kvToks dirsToks argsToks meant meants meantKvs meantKv
  isName isNumber readable readableS quote quoteChar showQ showQs showKvs showKv goodQ goodQs goodKvs goodKv Word word_of_name
  word_of_number word_int word_bool optMap_map optMap_nil joinComma_isEmpty joinWith_isEmpty)
open Verif.Sdl (V GTy Dir InDef FieldDef ValDef Kind TypeDef SchemaDef Def)

set_option linter.unusedSimpArgs false

theorem lex_cons (m : Mode) (c : Char) (r : Text) :
    lex m (c :: r) = match step m c with
      | none => none
      | some q => (lex q.2 r).map (q.1 ++ ·) := by
  cases m <;> rfl

/-- The text does not begin with a character of a word, nor with a quote. -/
def Sep (r : Text) : Prop := ∀ c r', r = c :: r' → isWordChar c = false ∧ c ≠ '"'

/-- Between tokens, the text reads as the tokens. -/
def LexTo (t : Text) (ts : List Tok) : Prop :=
  ∀ r, Sep r → lex .top (t ++ r) = (lex .top r).map (ts ++ ·)

theorem Sep.nil : Sep [] := fun _ _ h => by cases h

theorem Sep.cons {c : Char} {r : Text} (h : isWordChar c = false) (h2 : c ≠ '"') : Sep (c :: r) := by
  intro c' r' e
  cases e
  exact ⟨h, h2⟩

theorem LexTo.nil : LexTo [] [] := by
  intro r _
  simp

/-- The text does not continue a word or a string. -/
def Fresh (b : Text) : Prop := ∀ r, Sep r → Sep (b ++ r)

theorem Fresh.cons {c : Char} {t : Text} (h : isWordChar c = false) (h2 : c ≠ '"') : Fresh (c :: t) :=
  fun _ _ => Sep.cons h h2

theorem Fresh.nil : Fresh [] := fun _ h => h

theorem Fresh.append {a b : Text} (ha : Fresh a) (hb : Fresh b) : Fresh (a ++ b) := by
  intro r hr
  rw [List.append_assoc]
  exact ha _ (hb r hr)

theorem LexTo.append {a b : Text} {x y : List Tok} (ha : LexTo a x) (hb : LexTo b y)
    (hs : Fresh b) : LexTo (a ++ b) (x ++ y) := by
  intro r hr
  rw [List.append_assoc, ha _ (hs r hr), hb r hr, optMap_map]

/-- A punctuator. -/
theorem LexTo.punct {c : Char} (h : isPunct c = true) (h1 : isWordChar c = false) (h2 : c ≠ '"')
    (h3 : isIgnored c = false) : ∀ r, lex .top (c :: r) = (lex .top r).map ([.p c] ++ ·) := by
  intro r
  rw [lex_cons]
  simp [step, stepTop, h, h1, h2, h3]

/-- An ignored character. -/
theorem LexTo.ignored {c : Char} (h1 : isWordChar c = false) (h2 : c ≠ '"')
    (h3 : isIgnored c = true) : ∀ r, lex .top (c :: r) = lex .top r := by
  intro r
  rw [lex_cons]
  simp [step, stepTop, h1, h2, h3]

theorem LexTo.pre_punct {c : Char} {t : Text} {ts : List Tok} (h : isPunct c = true)
    (h1 : isWordChar c = false) (h2 : c ≠ '"') (h3 : isIgnored c = false) (ht : LexTo t ts) :
    LexTo (c :: t) (.p c :: ts) := by
  intro r hr
  rw [List.cons_append, LexTo.punct h h1 h2 h3, ht r hr, optMap_map]
  rfl

theorem LexTo.pre_ignored {c : Char} {t : Text} {ts : List Tok} (h1 : isWordChar c = false) (h2 : c ≠ '"')
    (h3 : isIgnored c = true) (ht : LexTo t ts) : LexTo (c :: t) ts := by
  intro r hr
  rw [List.cons_append, LexTo.ignored h1 h2 h3, ht r hr]

theorem LexTo.sp {t : Text} {ts : List Tok} (ht : LexTo t ts) : LexTo (' ' :: t) ts :=
  LexTo.pre_ignored rfl (by decide) rfl ht

theorem LexTo.nl {t : Text} {ts : List Tok} (ht : LexTo t ts) : LexTo ('\n' :: t) ts :=
  LexTo.pre_ignored rfl (by decide) rfl ht

theorem lex_word_go {v : Text} (h : ∀ c ∈ v, isWordChar c = true) :
    ∀ (w r : Text), lex (.word w) (v ++ r) = lex (.word (w ++ v)) r := by
  induction v with
  | nil => intro w r; simp
  | cons c v ih =>
    intro w r
    rw [List.cons_append, lex_cons]
    simp only [step, h c List.mem_cons_self, if_true]
    rw [ih (fun c hc => h c (List.mem_cons_of_mem _ hc)), optMap_nil, List.append_assoc]
    rfl

theorem lex_word_end {w r : Text} (hr : Sep r) : lex (.word w) r = (lex .top r).map ([.word w] ++ ·) := by
  cases r with
  | nil => simp [lex, atEnd]
  | cons c r =>
    have hc := (hr c r rfl).1
    rw [lex_cons, lex_cons]
    simp only [step, hc]
    cases h : stepTop c with
    | none => simp
    | some q =>
      simp only [Option.map_some, Bool.false_eq_true, if_false]
      rw [optMap_map]
      rfl

theorem lex_q2_end {r : Text} (hr : Sep r) : lex .q2 r = (lex .top r).map ([.str []] ++ ·) := by
  cases r with
  | nil => simp [lex, atEnd]
  | cons c r =>
    have hc := (hr c r rfl).2
    rw [lex_cons, lex_cons]
    simp only [step, beq_iff_eq, hc, if_false]
    cases h : stepTop c with
    | none => simp
    | some q =>
      simp only [Option.map_some]
      rw [optMap_map]
      rfl

theorem LexTo.word {t : Text} (h : Word t) : LexTo t [.word t] := by
  obtain ⟨hne, h⟩ := h
  cases t with
  | nil => exact absurd rfl hne
  | cons c v =>
    intro r hr
    rw [List.cons_append, lex_cons]
    simp only [step, stepTop, h c List.mem_cons_self, if_true]
    rw [lex_word_go (fun c hc => h c (List.mem_cons_of_mem _ hc)), lex_word_end hr]
    cases lex .top r <;> simp

theorem lex_quoted {s : Text} (h : ∀ c ∈ s, readable c = true) :
    ∀ (u r : Text), lex (.str u) (s.flatMap quoteChar ++ '"' :: r) = (lex .top r).map ([.str (u ++ s)] ++ ·) := by
  induction s with
  | nil =>
    intro u r
    simp only [List.flatMap_nil, List.nil_append, List.append_nil]
    rw [lex_cons]
    simp [step, stepStr]
  | cons c s ih =>
    intro u r
    have hc := h c List.mem_cons_self
    have ih := ih (fun c hc => h c (List.mem_cons_of_mem _ hc)) (u ++ [c]) r
    simp only [List.append_assoc, List.singleton_append] at ih
    have two : ∀ e : Char, unesc e = some c →
        lex (.str u) (['\\', e] ++ (s.flatMap quoteChar ++ '"' :: r)) =
          (lex .top r).map ([.str (u ++ c :: s)] ++ ·) := by
      intro e he
      rw [List.cons_append, lex_cons]
      simp only [step, stepStr]
      simp only [show ('\\' == '"') = false from rfl, show ('\\' == '\\') = true from rfl, if_true, if_false,
        Bool.false_eq_true]
      rw [List.cons_append, lex_cons]
      simp only [step, he, Option.map_some, List.nil_append]
      rw [ih]
      cases lex .top r <;> simp
    rw [List.flatMap_cons, List.append_assoc]
    by_cases h1 : c = '\r'
    · subst h1; exact two 'r' rfl
    by_cases h2 : c = '\n'
    · subst h2; exact two 'n' rfl
    by_cases h3 : c = '\t'
    · subst h3; exact two 't' rfl
    by_cases h4 : c = '"'
    · subst h4; exact two '"' rfl
    by_cases h5 : c = '\\'
    · subst h5; exact two '\\' rfl
    have h6 : (decide (c.toNat < 32) || (decide (127 ≤ c.toNat) && decide (c.toNat < 160))) = false := by
      simp only [readable, h1, h2, h3, Bool.or_eq_true, Bool.and_eq_true, beq_iff_eq, false_or,
        Bool.not_eq_true', Bool.and_eq_false_iff, decide_eq_true_eq, decide_eq_false_iff_not] at hc
      simp only [Bool.or_eq_false_iff, Bool.and_eq_false_iff, decide_eq_false_iff_not]
      omega
    have hq : quoteChar c = [c] := by
      unfold quoteChar
      simp only [h6, beq_iff_eq, h1, h2, h3, h4, h5, if_false, Bool.false_eq_true]
    rw [hq, List.cons_append, List.nil_append, lex_cons]
    have hs : step (.str u) c = some ([], .str (u ++ [c])) := by
      simp [step, stepStr, h1, h2, h4, h5]
    rw [hs]
    simp only []
    rw [optMap_nil, ih]
    rfl

theorem quoteChar_head (c : Char) : ∃ x r, quoteChar c = x :: r ∧ x ≠ '"' := by
  unfold quoteChar
  repeat' split
  all_goals first
    | exact ⟨_, _, rfl, by decide⟩
    | skip
  rename_i h _ _ _ _ _
  first
    | exact ⟨_, _, rfl, by simp_all⟩

theorem LexTo.quote {s : Text} (h : ∀ c ∈ s, readable c = true) : LexTo (quote s) [.str s] := by
  intro r hr
  unfold Verif.Gql.quote
  rw [List.cons_append, lex_cons]
  simp only [step, stepTop, show isWordChar '"' = false from rfl, show ('"' == '"') = true from rfl, if_true,
    Bool.false_eq_true, if_false]
  rw [optMap_nil, List.append_assoc]
  simp only [List.singleton_append]
  cases s with
  | nil =>
    simp only [List.flatMap_nil, List.nil_append]
    rw [lex_cons]
    simp only [step, show ('"' == '"') = true from rfl, if_true]
    rw [optMap_nil, lex_q2_end hr]
    rfl
  | cons c s =>
    have := lex_quoted h [] r
    rw [List.nil_append] at this
    refine Eq.trans ?_ this
    obtain ⟨x, y, hx, hx2⟩ := quoteChar_head c
    rw [List.flatMap_cons, hx, List.cons_append, List.cons_append, lex_cons, lex_cons]
    simp only [step, beq_iff_eq, hx2, if_false]

/-! ## Lists with separators -/

theorem LexTo.join {sep : Char} (hs : sep = ' ' ∨ sep = ',' ∨ sep = '\n') :
    ∀ (l : List (Text × List Tok)), (∀ q ∈ l, LexTo q.1 q.2) →
      LexTo (joinWith sep (l.map (·.1))) (l.map (·.2)).flatten := by
  intro l
  have hw : isWordChar sep = false := by rcases hs with h | h | h <;> subst h <;> rfl
  have hq : sep ≠ '"' := by rcases hs with h | h | h <;> subst h <;> decide
  have hi : isIgnored sep = true := by rcases hs with h | h | h <;> subst h <;> rfl
  induction l with
  | nil => intro _; exact LexTo.nil
  | cons q l ih =>
    intro h
    have ih := ih (fun q hq => h q (List.mem_cons_of_mem _ hq))
    have hq0 := h q List.mem_cons_self
    cases l with
    | nil => simpa [joinWith] using hq0
    | cons q2 l2 =>
      simp only [List.map_cons, joinWith, List.flatten_cons]
      simp only [List.map_cons, List.flatten_cons] at ih
      exact LexTo.append hq0 (LexTo.pre_ignored hw hq hi ih) (Fresh.cons hw hq)

theorem LexTo.joinMap {α : Type} {sep : Char} (hs : sep = ' ' ∨ sep = ',' ∨ sep = '\n') (f : α → Text) (g : α → List Tok)
    (l : List α) (h : ∀ x ∈ l, LexTo (f x) (g x)) : LexTo (joinWith sep (l.map f)) (l.flatMap g) := by
  have := LexTo.join hs (l.map (fun x => (f x, g x))) (by
    intro q hq
    obtain ⟨x, hx, rfl⟩ := List.mem_map.mp hq
    exact h x hx)
  simpa [List.map_map, Function.comp_def, List.flatMap] using this

theorem LexTo.joinComma {α : Type} (f : α → Text) (g : α → List Tok) :
    ∀ (l : List α), (∀ x ∈ l, LexTo (f x) (g x)) → LexTo (joinComma (l.map f)) (l.flatMap g)
  | [], _ => LexTo.nil
  | [x], h => by simpa [Verif.HttpKey.joinComma] using h x List.mem_cons_self
  | x :: y :: l, h => by
    have ih := LexTo.joinComma f g (y :: l) (fun z hz => h z (List.mem_cons_of_mem _ hz))
    simp only [List.map_cons, Verif.HttpKey.joinComma, List.flatMap_cons] at ih ⊢
    exact LexTo.append (h x List.mem_cons_self) (LexTo.pre_ignored rfl (by decide) rfl (LexTo.sp ih)) (Fresh.cons rfl (by decide))

theorem LexTo.single_punct {c : Char} (h : isPunct c = true) (h1 : isWordChar c = false) (h2 : c ≠ '"')
    (h3 : isIgnored c = false) : LexTo [c] [.p c] :=
  LexTo.pre_punct h h1 h2 h3 LexTo.nil

/-- `open`, a text, `close`. -/
theorem LexTo.between {o c : Char} {t : Text} {ts : List Tok} (ho : o = '(' ∨ o = '[' ∨ o = '{')
    (hc : c = ')' ∨ c = ']' ∨ c = '}') (h : LexTo t ts) : LexTo (o :: (t ++ [c])) (.p o :: (ts ++ [.p c])) := by
  have h1 : isWordChar c = false := by rcases hc with h | h | h <;> subst h <;> rfl
  have h2 : c ≠ '"' := by rcases hc with h | h | h <;> subst h <;> decide
  have hcl : LexTo [c] [.p c] := by
    rcases hc with h | h | h <;> subst h <;> exact LexTo.single_punct rfl rfl (by decide) rfl
  have := LexTo.append h hcl (Fresh.cons h1 h2)
  rcases ho with h | h | h <;> subst h <;> exact LexTo.pre_punct rfl rfl (by decide) rfl this

/-- A name and what follows. -/
theorem LexTo.name {k t : Text} {ts : List Tok} (hk : isName k = true) (ht : LexTo t ts) (hs : Fresh t) :
    LexTo (k ++ t) (.word k :: ts) :=
  LexTo.append (LexTo.word (word_of_name hk)) ht hs

/-- `name: value`. -/
theorem LexTo.entry {k v : Text} {ts : List Tok} (hk : isName k = true) (hv : LexTo v ts) :
    LexTo (k ++ ':' :: ' ' :: v) (.word k :: .p ':' :: ts) :=
  LexTo.name hk (LexTo.pre_punct rfl rfl (by decide) rfl (LexTo.sp hv)) (Fresh.cons rfl (by decide))

mutual
theorem lex_val (vars : Text → SVal) : ∀ v : QVal, goodQ readableS v = true →
    LexTo (showQ v) (valToks (meant vars v))
  | .var _, h => by simp [goodQ] at h
  | .null, _ => by
    simp only [showQ, meant, valToks]
    exact LexTo.word ⟨by decide, by decide⟩
  | .bool b, _ => by
    simp only [showQ, meant, valToks]
    exact LexTo.word (word_bool b)
  | .int n, _ => by
    simp only [showQ, meant, valToks]
    exact LexTo.word (word_int n)
  | .float p, h => by
    simp only [showQ, meant, valToks]
    exact LexTo.word (word_of_number (by simpa [goodQ] using h))
  | .str s, h => by
    simp only [showQ, meant, valToks]
    exact LexTo.quote (by simpa [goodQ, readableS] using h)
  | .enum s, h => by
    simp only [showQ, meant, valToks]
    exact LexTo.word (word_of_name (by simpa [goodQ] using h))
  | .list l, h => by
    simp only [showQ, meant, valToks]
    exact LexTo.between (Or.inr (Or.inl rfl)) (Or.inr (Or.inl rfl)) (lex_vals vars l (by simpa [goodQ] using h))
  | .obj l, h => by
    simp only [showQ, meant, valToks]
    exact LexTo.between (Or.inr (Or.inr rfl)) (Or.inr (Or.inr rfl)) (lex_kvs vars l (by simpa [goodQ] using h))
theorem lex_vals (vars : Text → SVal) : ∀ l : List QVal, goodQs readableS l = true →
    LexTo (joinWith ',' (showQs l)) (valsToks (meants vars l))
  | [], _ => LexTo.nil
  | [v], h => by
    simp only [goodQs, Bool.and_eq_true] at h
    simp only [showQs, meants, valsToks, joinWith, List.append_nil]
    exact lex_val vars v h.1
  | v :: w :: l, h => by
    simp only [goodQs, Bool.and_eq_true] at h
    have h2 := lex_vals vars (w :: l) (by simp [goodQs, h.2])
    simp only [showQs, meants, valsToks, joinWith] at h2 ⊢
    exact LexTo.append (lex_val vars v h.1) (LexTo.pre_ignored rfl (by decide) rfl h2) (Fresh.cons rfl (by decide))
theorem lex_kvs (vars : Text → SVal) : ∀ l : List (Text × QVal), goodKvs readableS l = true →
    LexTo (joinWith ',' (showKvs l)) (kvsToks (meantKvs vars l))
  | [], _ => LexTo.nil
  | [v], h => by
    simp only [goodKvs, Bool.and_eq_true] at h
    simp only [showKvs, meantKvs, kvsToks, joinWith, List.append_nil]
    exact lex_kv vars v h.1
  | v :: w :: l, h => by
    simp only [goodKvs, Bool.and_eq_true] at h
    have h2 := lex_kvs vars (w :: l) (by simp [goodKvs, h.2])
    simp only [showKvs, meantKvs, kvsToks, joinWith] at h2 ⊢
    exact LexTo.append (lex_kv vars v h.1) (LexTo.pre_ignored rfl (by decide) rfl h2) (Fresh.cons rfl (by decide))
theorem lex_kv (vars : Text → SVal) : ∀ kv : Text × QVal, goodKv readableS kv = true →
    LexTo (showKv kv) (kvToks (meantKv vars kv))
  | (k, v), h => by
    simp only [goodKv, Bool.and_eq_true] at h
    simp only [showKv, meantKv, kvToks]
    exact LexTo.entry h.1 (lex_val vars v h.2)
end

/-! ## Constants -/

mutual
theorem goodQ_of : ∀ v : V, goodV v = true → goodQ readableS (toQ v) = true
  | .null, _ => rfl
  | .bool _, _ => rfl
  | .int _, _ => rfl
  | .float p, h => by
    simp only [goodV, isFloat, Bool.and_eq_true] at h
    simp only [toQ, goodQ, h.1]
  | .str s, h => by simpa only [toQ, goodQ, goodV] using h
  | .enum s, h => by
    simp only [goodV, isEnum, Bool.and_eq_true] at h
    simp only [toQ, goodQ, h.1.1.1.1]
  | .arr l, h => by
    simp only [toQ, goodQ]
    exact goodQs_of l (by simpa only [goodV] using h)
  | .obj l, h => by
    simp only [toQ, goodQ]
    exact goodKvs_of l (by simpa only [goodV] using h)
theorem goodQs_of : ∀ l : List V, goodVs l = true → goodQs readableS (toQs l) = true
  | [], _ => rfl
  | v :: l, h => by
    simp only [goodVs, Bool.and_eq_true] at h
    simp only [toQs, goodQs, goodQ_of v h.1, goodQs_of l h.2, Bool.and_self]
theorem goodKvs_of : ∀ l : List (Text × V), goodVKvs l = true → goodKvs readableS (toQKvs l) = true
  | [], _ => rfl
  | v :: l, h => by
    simp only [goodVKvs, Bool.and_eq_true] at h
    simp only [toQKvs, goodKvs, goodKv_of v h.1, goodKvs_of l h.2, Bool.and_self]
theorem goodKv_of : ∀ kv : Text × V, goodVKv kv = true → goodKv readableS (toQKv kv) = true
  | (k, v), h => by
    simp only [goodVKv, Bool.and_eq_true] at h
    simp only [toQKv, goodKv, h.1, goodQ_of v h.2, Bool.and_self]
end

theorem lex_const (v : V) (h : goodV v = true) : LexTo (showV v) (valToks (sV v)) :=
  lex_val noVars (toQ v) (goodQ_of v h)

/-! ## Taking white space off the end -/

/-- All tokens of a text and the mode after it. -/
def run : Mode → Text → Option (List Tok × Mode)
  | m, [] => some ([], m)
  | m, c :: r =>
    match step m c with
    | none => none
    | some q => (run q.2 r).map (fun p => (q.1 ++ p.1, p.2))

theorem lex_run (t r : Text) : ∀ m, lex m (t ++ r) = match run m t with
    | none => none
    | some q => (lex q.2 r).map (q.1 ++ ·) := by
  induction t with
  | nil =>
    intro m
    simp [run]
  | cons c t ih =>
    intro m
    rw [List.cons_append, lex_cons]
    simp only [run]
    cases h : step m c with
    | none => rfl
    | some q =>
      simp only [ih q.2]
      cases run q.2 t with
      | none => rfl
      | some p =>
        simp only [Option.map_some]
        rw [optMap_map]

/-- Characters that end tokens and are none. -/
def Loose (c : Char) : Prop := isWordChar c = false ∧ c ≠ '"' ∧ isPunct c = false

theorem LexTo.trim1 {t : Text} {c : Char} {ts : List Tok} (h : LexTo (t ++ [c]) ts) (hc : Loose c) : LexTo t ts := by
  obtain ⟨h1, h2, h3⟩ := hc
  have h0 := h [] Sep.nil
  simp only [List.append_assoc] at h0
  rw [lex_run] at h0
  intro r hr
  have hr' := h r hr
  simp only [List.append_assoc, List.cons_append, List.nil_append] at hr'
  rw [lex_run] at hr'
  rw [lex_run]
  have hst : stepStr [] c = none ∨ (∃ s, stepStr [] c = some ([], .str s)) ∨ ∃ s, stepStr [] c = some ([], .esc s) := by
    unfold stepStr
    simp only [beq_iff_eq, h2, if_false]
    repeat' split
    · exact Or.inr (Or.inr ⟨_, rfl⟩)
    · exact Or.inl rfl
    · exact Or.inr (Or.inl ⟨_, rfl⟩)
  have hst2 : ∀ u, stepStr u c = none ∨ (∃ s, stepStr u c = some ([], .str s)) ∨ ∃ s, stepStr u c = some ([], .esc s) := by
    intro u
    unfold stepStr
    simp only [beq_iff_eq, h2, if_false]
    repeat' split
    · exact Or.inr (Or.inr ⟨_, rfl⟩)
    · exact Or.inl rfl
    · exact Or.inr (Or.inl ⟨_, rfl⟩)
  cases hrun : run .top t with
  | none =>
    rw [hrun] at h0
    simp [lex, atEnd] at h0
  | some q =>
    obtain ⟨x, m⟩ := q
    rw [hrun] at h0 hr'
    simp only [List.nil_append, List.append_nil] at h0
    simp only at hr' ⊢
    rw [← hr']
    have hbad : ∀ o : Option (List Tok), o = none → (o.map (x ++ ·)) = (lex .top []).map (ts ++ ·) → False := by
      intro o ho he
      subst ho
      simp [lex, atEnd] at he
    cases m with
    | top =>
      by_cases hi : isIgnored c = true
      · rw [LexTo.ignored h1 h2 hi]
      · exfalso
        refine hbad _ ?_ h0
        rw [lex_cons]
        simp [step, stepTop, h1, h2, h3, hi]
    | word w =>
      by_cases hi : isIgnored c = true
      · rw [lex_word_end hr, lex_word_end (Sep.cons h1 h2), LexTo.ignored h1 h2 hi]
      · exfalso
        refine hbad _ ?_ h0
        rw [lex_cons]
        simp [step, stepTop, h1, h2, h3, hi]
    | q2 =>
      by_cases hi : isIgnored c = true
      · rw [lex_q2_end hr, lex_q2_end (Sep.cons h1 h2), LexTo.ignored h1 h2 hi]
      · exfalso
        refine hbad _ ?_ h0
        rw [lex_cons]
        simp [step, stepTop, h1, h2, h3, hi]
    | q1 =>
      exfalso
      refine hbad _ ?_ h0
      rw [lex_cons]
      simp only [step, beq_iff_eq, h2, if_false]
      rcases hst with h | ⟨s, h⟩ | ⟨s, h⟩ <;> rw [h] <;> simp [lex, atEnd]
    | str u =>
      exfalso
      refine hbad _ ?_ h0
      rw [lex_cons]
      simp only [step]
      rcases hst2 u with h | ⟨s, h⟩ | ⟨s, h⟩ <;> rw [h] <;> simp [lex, atEnd]
    | esc u =>
      exfalso
      refine hbad _ ?_ h0
      rw [lex_cons]
      simp only [step]
      cases unesc c <;> simp [lex, atEnd]
    | blk u =>
      exfalso
      refine hbad _ ?_ h0
      rw [lex_cons]
      simp [step, h2, lex, atEnd]
    | blk1 u =>
      exfalso
      refine hbad _ ?_ h0
      rw [lex_cons]
      simp [step, h2, lex, atEnd]
    | blk2 u =>
      exfalso
      refine hbad _ ?_ h0
      rw [lex_cons]
      simp [step, h2, lex, atEnd]

theorem LexTo.trimEnd {p : Char → Bool} (hp : ∀ c, p c = true → Loose c) {ts : List Tok} :
    ∀ (t : Text), LexTo t ts → LexTo (trimEnd p t) ts := by
  have key : ∀ (u : Text), LexTo u.reverse ts → LexTo (u.dropWhile p).reverse ts := by
    intro u
    induction u with
    | nil => intro h; exact h
    | cons c u ih =>
      intro h
      rw [List.dropWhile_cons]
      split
      · rename_i hc
        rw [List.reverse_cons] at h
        exact ih (LexTo.trim1 h (hp c hc))
      · exact h
  intro t h
  exact key t.reverse (by simpa using h)

theorem word_range {c : Char} (h : isWordChar c = true) : 43 ≤ c.toNat ∧ c.toNat ≤ 122 ∧ c.toNat ≠ 0x85 := by
  simp only [isWordChar, Bool.or_eq_true, Bool.and_eq_true, decide_eq_true_eq, beq_iff_eq, Char.isDigit, Char.le_def,
    UInt32.le_iff_toNat_le] at h
  have e : c.toNat = c.val.toNat := rfl
  rw [e]
  rcases h with (((((h | h) | h) | h) | h) | h) | h
  · have h1 : (97 : Nat) ≤ c.val.toNat := h.1
    have h2 : c.val.toNat ≤ 122 := h.2
    omega
  · have h1 : (65 : Nat) ≤ c.val.toNat := h.1
    have h2 : c.val.toNat ≤ 90 := h.2
    omega
  · have h1 : (48 : Nat) ≤ c.val.toNat := h.1
    have h2 : c.val.toNat ≤ 57 := h.2
    omega
  all_goals (subst h; decide)

theorem loose_white (c : Char) (h : white c = true) : Loose c := by
  refine ⟨?_, ?_, ?_⟩
  · cases hw : isWordChar c with
    | false => rfl
    | true =>
      have := word_range hw
      simp only [white, Bool.or_eq_true, Bool.and_eq_true, decide_eq_true_eq, beq_iff_eq] at h
      omega
  · intro e
    subst e
    exact absurd h (by decide)
  · cases hw : isPunct c with
    | false => rfl
    | true =>
      simp only [isPunct, Bool.or_eq_true, beq_iff_eq] at hw
      exfalso
      rcases hw with ((((((((((hw | hw) | hw) | hw) | hw) | hw) | hw) | hw) | hw) | hw) | hw) | hw <;>
        (subst hw; exact absurd h (by decide))

theorem loose_nl (c : Char) (h : (c == '\n') = true) : Loose c := by
  have := eq_of_beq h
  subst this
  exact ⟨rfl, by decide, rfl⟩

end Verif.Doc
