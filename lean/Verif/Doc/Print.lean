import Verif.Doc.Lex

/-!
# The printed definitions read as their tokens
-/

namespace Verif.Doc

open Verif.Mustache (Text)
open Verif.HttpUrl (joinWith intText boolText)
open Verif.HttpKey (joinComma)
open Verif.Gql (Tok SVal SDir isWordChar isIgnored unesc valToks valsToks kvsToks kvToks dirsToks argsToks meant meants meantKvs meantKv
  isName showKvs showKv Word word_of_name optMap_map optMap_nil joinComma_isEmpty joinWith_isEmpty)
open Verif.Sdl (V GTy Dir InDef FieldDef ValDef Kind TypeDef SchemaDef Def)

set_option linter.unusedSimpArgs false

/-! ## Directives and types -/

/-- A directive that is printed in full: its arguments can be written and none is `null`. -/
def GoodDir (d : Dir) : Prop := isName d.name = true ∧ goodVKvs d.args = true ∧ ∀ kv ∈ d.args, nullV kv.2 = false

/-- Directives that are printed in full. -/
def GoodDirs (ds : List Dir) : Prop := ∀ d ∈ ds, GoodDir d

theorem isNull_eq (v : V) : isNull v = nullV v := by cases v <;> rfl

theorem dirArgs_eq (as : List (Text × V)) (h : ∀ kv ∈ as, nullV kv.2 = false) : dirArgs as = showKvs (toQKvs as) := by
  induction as with
  | nil => rfl
  | cons a l ih =>
    have ih := ih (fun kv hkv => h kv (List.mem_cons_of_mem _ hkv))
    have ha := h a List.mem_cons_self
    obtain ⟨k, v⟩ := a
    simp only at ha
    unfold dirArgs at ih ⊢
    simp only [isNull_eq] at ih ⊢
    simp only [List.filterMap_cons, ha, Bool.false_eq_true, if_false, ih, toQKvs, toQKv, showKvs, showKv]
    rfl

theorem toQKvs_map (l : List (Text × V)) : toQKvs l = l.map toQKv := by
  induction l with
  | nil => rfl
  | cons a l ih => simp [toQKvs, ih]

theorem lex_dirText (d : Dir) (h : GoodDir d) : LexTo (dirText d) (.p '@' :: .word d.name :: argsToks (sKvs d.args)) := by
  obtain ⟨h1, h2, h3⟩ := h
  have hg := goodKvs_of d.args h2
  rw [Verif.Gql.goodKvs_eq, List.all_eq_true] at hg
  have hl : LexTo (joinComma (showKvs (toQKvs d.args))) (kvsToks (sKvs d.args)) := by
    have := LexTo.joinComma showKv (fun kv => kvToks (meantKv noVars kv)) (toQKvs d.args)
      (fun kv hkv => lex_kv noVars kv (hg kv hkv))
    rw [← Verif.Gql.showKvs_eq] at this
    rw [sKvs, Verif.Gql.kvsToks_eq, Verif.Gql.meantKvs_eq, List.map_map]
    exact this
  have he : (joinComma (showKvs (toQKvs d.args))).isEmpty = (sKvs d.args).isEmpty := by
    rw [joinComma_isEmpty, Verif.Gql.showKvs_eq, sKvs, Verif.Gql.meantKvs_eq, List.isEmpty_map, List.isEmpty_map]
    intro t ht
    rw [Verif.Gql.showKvs_eq] at ht
    obtain ⟨kv, _, rfl⟩ := List.mem_map.mp ht
    exact Verif.Gql.showKv_ne kv
  have hn := LexTo.word (word_of_name h1)
  unfold dirText argsToks
  rw [dirArgs_eq d.args h3]
  simp only [he]
  split
  · exact LexTo.pre_punct rfl rfl (by decide) rfl hn
  · exact LexTo.pre_punct rfl rfl (by decide) rfl
      (LexTo.append hn (LexTo.between (Or.inl rfl) (Or.inl rfl) hl) (Fresh.cons rfl (by decide)))

theorem dirText_cons (d : Dir) : ∃ r, dirText d = '@' :: r := by
  unfold dirText
  simp only []
  split <;> exact ⟨_, rfl⟩

theorem dToks_flatMap (ds : List Dir) : dToks ds = ds.flatMap (fun d => .p '@' :: .word d.name :: argsToks (sKvs d.args)) := by
  unfold dToks
  induction ds with
  | nil => rfl
  | cons d l ih => simp [dirsToks, sDir, ih]

theorem posDirs_eq (ds : List Dir) : posDirs ds = if ds.isEmpty then [] else joinWith ' ' (ds.map dirText) ++ [' '] := by
  have : (joinWith ' ' (ds.map dirText)).isEmpty = ds.isEmpty := by
    rw [joinWith_isEmpty, List.isEmpty_map]
    intro t ht
    obtain ⟨d, _, rfl⟩ := List.mem_map.mp ht
    obtain ⟨r, h⟩ := dirText_cons d
    simp [h]
  unfold posDirs
  simp only [this]

theorem lex_posDirs (ds : List Dir) (h : GoodDirs ds) : LexTo (posDirs ds) (dToks ds) := by
  have hj := LexTo.joinMap (sep := ' ') (Or.inl rfl) dirText _ ds (fun d hd => lex_dirText d (h d hd))
  rw [← dToks_flatMap] at hj
  rw [posDirs_eq]
  split
  · rename_i he
    rw [List.isEmpty_iff.mp he]
    exact LexTo.nil
  · have := LexTo.append hj (LexTo.sp LexTo.nil) (Fresh.cons rfl (by decide))
    simpa using this

theorem fresh_posDirs (ds : List Dir) : Fresh (posDirs ds) := by
  rw [posDirs_eq]
  cases ds with
  | nil => exact Fresh.nil
  | cons d l =>
    obtain ⟨r, h⟩ := dirText_cons d
    cases l with
    | nil => simp only [List.isEmpty_cons, List.map_cons, List.map_nil, joinWith, h]; exact Fresh.cons rfl (by decide)
    | cons e l =>
      simp only [List.isEmpty_cons, List.map_cons, joinWith, h]
      exact Fresh.cons rfl (by decide)

/-- The names in a type. -/
def GoodTy : GTy → Prop
  | .named n _ => isName n = true
  | .list t _ => GoodTy t

theorem lex_bang (b : Bool) : LexTo (if b then [] else ['!']) (bangToks b) := by
  cases b
  · exact LexTo.single_punct rfl rfl (by decide) rfl
  · exact LexTo.nil

theorem fresh_bang (b : Bool) : Fresh (if b then [] else ['!']) := by
  cases b
  · exact Fresh.cons rfl (by decide)
  · exact Fresh.nil

theorem lex_ty : ∀ t : GTy, GoodTy t → LexTo (tyText t) (tyToks t)
  | .named n b, h => LexTo.name h (lex_bang b) (fresh_bang b)
  | .list t b, h =>
    LexTo.pre_punct rfl rfl (by decide) rfl (LexTo.append (lex_ty t h)
      (LexTo.pre_punct rfl rfl (by decide) rfl (lex_bang b)) (Fresh.cons rfl (by decide)))

/-! ## Descriptions -/

/-- The text does not contain three quotes in a row. -/
def noTriple : Text → Bool
  | [] => true
  | c :: r => !(c == '"' && r.take 2 == ['"', '"']) && noTriple r

theorem lex_blk (r : Text) : ∀ x : Text,
    (∀ s, noTriple x = true → lex (.blk s) (x ++ '\n' :: r) = lex (.blk (s ++ (x ++ ['\n']))) r) ∧
    (∀ s, noTriple ('"' :: x) = true → lex (.blk1 s) (x ++ '\n' :: r) = lex (.blk (s ++ '"' :: (x ++ ['\n']))) r) ∧
    (∀ s, noTriple ('"' :: '"' :: x) = true → lex (.blk2 s) (x ++ '\n' :: r) = lex (.blk (s ++ '"' :: '"' :: (x ++ ['\n']))) r) := by
  intro x
  induction x with
  | nil =>
    refine ⟨fun s _ => ?_, fun s _ => ?_, fun s _ => ?_⟩ <;>
    · rw [List.nil_append, lex_cons]
      simp only [step, show ('\n' == '"') = false from rfl, Bool.false_eq_true, if_false, List.nil_append]
      cases lex _ r <;> rfl
  | cons c x ih =>
    obtain ⟨i1, i2, i3⟩ := ih
    have sub : ∀ (a : Char) (y : Text), noTriple (a :: y) = true → noTriple y = true := by
      intro a y h
      simp only [noTriple, Bool.and_eq_true] at h
      exact h.2
    refine ⟨fun s h => ?_, fun s h => ?_, fun s h => ?_⟩
    · rw [List.cons_append, lex_cons]
      by_cases hc : c = '"'
      · subst hc
        simp only [step, show ('"' == '"') = true from rfl, if_true]
        rw [optMap_nil, i2 s h]
        rfl
      · simp only [step, beq_iff_eq, hc, if_false]
        rw [optMap_nil, i1 _ (sub _ _ h)]
        simp
    · rw [List.cons_append, lex_cons]
      by_cases hc : c = '"'
      · subst hc
        simp only [step, show ('"' == '"') = true from rfl, if_true]
        rw [optMap_nil, i3 s h]
        rfl
      · simp only [step, beq_iff_eq, hc, if_false]
        rw [optMap_nil, i1 _ (sub _ _ (sub _ _ h))]
        simp
    · rw [List.cons_append, lex_cons]
      by_cases hc : c = '"'
      · subst hc
        simp [noTriple] at h
      · simp only [step, beq_iff_eq, hc, if_false]
        rw [optMap_nil, i1 _ (sub _ _ (sub _ _ (sub _ _ h)))]
        simp

theorem lex_spaces (n : Nat) (r : Text) : lex .top (spaces n ++ r) = lex .top r := by
  induction n with
  | zero => rfl
  | succ n ih =>
    rw [show spaces (n + 1) = ' ' :: spaces n from rfl, List.cons_append, LexTo.ignored rfl (by decide) rfl, ih]

theorem lex_blk_spaces (n : Nat) (r : Text) : ∀ s, lex (.blk s) (spaces n ++ r) = lex (.blk (s ++ spaces n)) r := by
  induction n with
  | zero => intro s; simp [spaces]
  | succ n ih =>
    intro s
    rw [show spaces (n + 1) = ' ' :: spaces n from rfl, List.cons_append, lex_cons]
    simp only [step, show (' ' == '"') = false from rfl, Bool.false_eq_true, if_false]
    rw [optMap_nil, ih]
    simp

/-- What is between the quotes. -/
def rawOf (ind : Nat) (lines : List Text) : Text := lines.flatMap (fun l => '\n' :: (spaces ind ++ l)) ++ ('\n' :: spaces ind)

theorem lex_lines (ind : Nat) (r : Text) : ∀ (lines : List Text), (∀ l ∈ lines, noTriple l = true) → ∀ s,
    lex (.blk (s ++ ['\n'])) (spaces ind ++ ((lines.map (fun l => l ++ '\n' :: spaces ind)).flatten ++ (quotes ++ r))) =
      (lex .top r).map ([.str (blockValue (s ++ rawOf ind lines))] ++ ·) := by
  intro lines
  induction lines with
  | nil =>
    intro _ s
    rw [lex_blk_spaces]
    simp only [List.map_nil, List.flatten_nil, List.nil_append, quotes, List.cons_append, rawOf, List.flatMap_nil]
    rw [lex_cons]
    simp only [step, show ('"' == '"') = true from rfl, if_true]
    rw [optMap_nil, lex_cons]
    simp only [step, show ('"' == '"') = true from rfl, if_true]
    rw [optMap_nil, lex_cons]
    simp only [step, show ('"' == '"') = true from rfl, if_true]
    simp
  | cons l lines ih =>
    intro h s
    have ih := ih (fun l hl => h l (List.mem_cons_of_mem _ hl)) (s ++ '\n' :: (spaces ind ++ l))
    rw [lex_blk_spaces]
    simp only [List.map_cons, List.flatten_cons, List.append_assoc, List.cons_append]
    rw [(lex_blk _ l).1 _ (h l List.mem_cons_self)]
    simp only [List.append_assoc, List.cons_append, List.nil_append] at ih ⊢
    rw [ih]
    simp only [rawOf, List.flatMap_cons, List.append_assoc, List.cons_append]

theorem block_eq (ind : Nat) (lines : List Text) (r : Text) :
    block ind lines ++ r = spaces ind ++ (quotes ++ '\n' :: (spaces ind ++
      ((lines.map (fun l => l ++ '\n' :: spaces ind)).flatten ++ (quotes ++ '\n' :: r)))) := by
  have key : ∀ x : Text, lines.flatMap (fun l => '\n' :: (spaces ind ++ l)) ++ '\n' :: (spaces ind ++ x) =
      '\n' :: (spaces ind ++ ((lines.map (fun l => l ++ '\n' :: spaces ind)).flatten ++ x)) := by
    intro x
    induction lines with
    | nil => simp
    | cons l ls ih =>
      simp only [List.flatMap_cons, List.append_assoc, List.cons_append, ih, List.map_cons, List.flatten_cons]
  simp only [block, List.append_assoc, List.cons_append, key, List.nil_append]

/-- A printed description reads as the block string's value. -/
theorem lex_block (ind : Nat) (lines : List Text) (h : ∀ l ∈ lines, noTriple l = true) (r : Text) :
    lex .top (block ind lines ++ r) = (lex .top r).map ([.str (blockValue (rawOf ind lines))] ++ ·) := by
  rw [block_eq, lex_spaces]
  simp only [quotes, List.cons_append, List.nil_append]
  rw [lex_cons]
  simp only [step, stepTop, show isWordChar '"' = false from rfl, show ('"' == '"') = true from rfl, if_true,
    Bool.false_eq_true, if_false]
  rw [optMap_nil, lex_cons]
  simp only [step, show ('"' == '"') = true from rfl, if_true]
  rw [optMap_nil, lex_cons]
  simp only [step, show ('"' == '"') = true from rfl, if_true]
  rw [optMap_nil, lex_cons]
  simp only [step, show ('\n' == '"') = false from rfl, Bool.false_eq_true, if_false]
  rw [optMap_nil]
  have := lex_lines ind ('\n' :: r) lines h []
  simp only [List.nil_append, quotes, List.cons_append] at this ⊢
  rw [this, LexTo.ignored rfl (by decide) rfl]

theorem splitLines_append (a b : Text) (h : ∀ c ∈ a, c ≠ '\n') : splitLines (a ++ '\n' :: b) = a :: splitLines b := by
  induction a with
  | nil => simp [splitLines]
  | cons c a ih =>
    have hc := h c List.mem_cons_self
    have ih := ih (fun c hc => h c (List.mem_cons_of_mem _ hc))
    simp only [List.cons_append, splitLines, hc, if_false, ih]

theorem splitLines_one (a : Text) (h : ∀ c ∈ a, c ≠ '\n') : splitLines a = [a] := by
  induction a with
  | nil => rfl
  | cons c a ih =>
    have hc := h c List.mem_cons_self
    have ih := ih (fun c hc => h c (List.mem_cons_of_mem _ hc))
    simp only [splitLines, hc, if_false, ih]

/-- Descriptions of one line that does not begin with a blank and has no three quotes in a row. -/
def Plain (d : Text) : Prop :=
  (∀ c ∈ d, c ≠ '\n' ∧ c ≠ '\r') ∧ noTriple d = true ∧ ∀ c ∈ d.head?, isBlank c = false

theorem spaces_mem {n : Nat} {c : Char} (h : c ∈ spaces n) : c = ' ' := (List.mem_replicate.mp h).2

theorem spaces_blank (n : Nat) : (spaces n).all isBlank = true := by
  rw [List.all_eq_true]
  intro c hc
  rw [spaces_mem hc]
  rfl

theorem indent_spaces (n : Nat) (d : Text) (h : ∀ c, d.head? = some c → isBlank c = false) : indent (spaces n ++ d) = n := by
  induction n with
  | zero =>
    cases d with
    | nil => rfl
    | cons c d =>
      have := h c rfl
      simp [indent, spaces, this]
  | succ n ih =>
    have e : spaces (n + 1) ++ d = ' ' :: (spaces n ++ d) := rfl
    rw [e]
    unfold indent at ih ⊢
    simp only [List.takeWhile_cons, show isBlank ' ' = true from rfl, if_true, List.length_cons, ih]

/-- A line alone between the quotes is the value. -/
theorem value_one (ind : Nat) (d : Text) (h : Plain d) (hd : d ≠ []) : blockValue (rawOf ind [d]) = d := by
  obtain ⟨h1, h2, h3⟩ := h
  have hs : ∀ c ∈ spaces ind, c ≠ '\n' := fun c hc => by rw [spaces_mem hc]; decide
  have hl : splitLines (rawOf ind [d]) = [[], spaces ind ++ d, spaces ind] := by
    unfold rawOf
    simp only [List.flatMap_cons, List.flatMap_nil, List.append_nil, List.cons_append]
    have e1 := splitLines_append [] (spaces ind ++ d ++ '\n' :: spaces ind) (by simp)
    rw [List.nil_append] at e1
    rw [e1, splitLines_append (spaces ind ++ d) (spaces ind) (by
      intro c hc
      rcases List.mem_append.mp hc with hc | hc
      · exact hs c hc
      · exact (h1 c hc).1), splitLines_one _ hs]
  have hnb : (spaces ind ++ d).all isBlank = false := by
    cases d with
    | nil => exact absurd rfl hd
    | cons c d =>
      have := h3 c rfl
      simp [this]
  have hnb2 : d.all isBlank = false := by
    cases d with
    | nil => exact absurd rfl hd
    | cons c d =>
      have := h3 c rfl
      simp [this]
  have hsb := spaces_blank ind
  have hc : commonIndent [spaces ind ++ d, spaces ind] = ind := by
    unfold commonIndent
    simp only [List.filter_cons, hnb, hsb, Bool.not_false, Bool.not_true, if_true, Bool.false_eq_true, if_false, List.filter_nil,
      List.map_cons, List.map_nil, List.foldl_nil, indent_spaces ind d h3]
  have hlen : (spaces ind).length = ind := List.length_replicate
  have hd1 : (spaces ind ++ d).drop ind = d := by
    rw [List.drop_append_of_le_length (by omega), List.drop_of_length_le (by omega), List.nil_append]
  have hd2 : (spaces ind).drop ind = [] := List.drop_of_length_le (by omega)
  unfold blockValue
  rw [hl]
  simp only [hc, List.map_cons, List.map_nil, hd1, hd2, List.dropWhile_cons, List.all_nil, if_true, hnb2, Bool.false_eq_true,
    if_false]
  have he : dropEnd [d, []] = [d] := by
    unfold dropEnd
    simp only [List.reverse_cons, List.reverse_nil, List.nil_append, List.cons_append, List.dropWhile_cons, List.all_nil, if_true, hnb2,
      Bool.false_eq_true, if_false]
  rw [he]
  rfl

/-- No line: the value is empty. -/
theorem value_empty (ind : Nat) : blockValue (rawOf ind []) = [] ∧ blockValue (rawOf ind [[]]) = [] := by
  have hs : ∀ c ∈ spaces ind, c ≠ '\n' := fun c hc => by rw [spaces_mem hc]; decide
  have hsb := spaces_blank ind
  have hdb : ∀ n, ((spaces ind).drop n).all isBlank = true := by
    intro n
    rw [List.all_eq_true] at hsb ⊢
    exact fun c hc => hsb c (List.mem_of_mem_drop hc)
  have e1 := splitLines_append [] (spaces ind) (by simp)
  have e2 := splitLines_append [] (spaces ind ++ '\n' :: spaces ind) (by simp)
  rw [List.nil_append, splitLines_one _ hs] at e1
  rw [List.nil_append, splitLines_append _ _ hs, splitLines_one _ hs] at e2
  constructor
  · unfold blockValue rawOf
    simp only [List.flatMap_nil, List.nil_append, e1]
    simp [List.dropWhile_cons, hdb, dropEnd, joinWith]
  · unfold blockValue rawOf
    simp only [List.flatMap_cons, List.flatMap_nil, List.append_nil, List.cons_append, e2]
    simp [List.dropWhile_cons, hdb, dropEnd, joinWith]

theorem lex_raw (ind : Nat) (o : Option Text) (h : ∀ d ∈ o, Plain d) (r : Text) :
    lex .top (rawDocs ind o ++ r) = (lex .top r).map (descToks o ++ ·) := by
  cases o with
  | none => simp [rawDocs, descToks]
  | some d =>
    have hp := h d rfl
    unfold rawDocs descToks
    rw [lex_block ind [d] (by intro l hl; rw [List.mem_singleton.mp hl]; exact hp.2.1)]
    by_cases hd : d = []
    · subst hd; rw [(value_empty ind).2]
    · rw [value_one ind d hp hd]

/-- The segmentation leaves out nothing. -/
def Whole (seg : Text → List Text) : Prop := ∀ t, (seg t).flatten = t

theorem bytes_append (a b : Text) : bytes (a ++ b) = bytes a + bytes b := by
  simp [bytes]

theorem takeFit_all (brk : Nat) : ∀ (gs : List Text) (cur : Nat), cur + bytes gs.flatten ≤ brk → takeFit brk cur gs = (gs, [])
  | [], _, _ => rfl
  | g :: gs, cur, h => by
    rw [List.flatten_cons, bytes_append] at h
    unfold takeFit
    rw [if_neg (by omega)]
    simp only [takeFit_all brk gs (cur + bytes g) (by omega)]

theorem break_short (seg : Text → List Text) (hs : Whole seg) (brk : Nat) (d : Text) (hd : d ≠ []) (h : bytes d ≤ brk) :
    breakLines seg brk d.length d = [d] := by
  have hl : nextLine seg brk d = d := by
    unfold nextLine
    simp only [takeFit_all brk (seg d) 0 (by rw [hs]; omega), takeWord, List.flatten_nil, List.append_nil, hs d]
  cases d with
  | nil => exact absurd rfl hd
  | cons c t =>
    rw [List.length_cons]
    unfold breakLines
    simp only [List.isEmpty_cons, Bool.false_eq_true, if_false, hl, List.drop_length]
    cases t.length <;> rfl

/-- Descriptions that are printed as one line also where lines are broken. -/
def Short (d : Text) : Prop := Plain d ∧ bytes d ≤ 80

theorem lex_fmt (seg : Text → List Text) (hs : Whole seg) (ind : Nat) (o : Option Text) (h : ∀ d ∈ o, Short d) (r : Text) :
    lex .top (fmtDocs seg ind o ++ r) = (lex .top r).map (descToks o ++ ·) := by
  cases o with
  | none => simp [fmtDocs, descToks]
  | some d =>
    have hp := h d rfl
    have hf : d.filter (fun c => c != '\n') = d := by
      rw [List.filter_eq_self]
      intro c hc
      simpa using (hp.1.1 c hc).1
    unfold fmtDocs descToks
    simp only [hf]
    by_cases hd : d = []
    · subst hd
      show lex .top (block ind [] ++ r) = _
      rw [lex_block ind [] (by simp), (value_empty ind).1]
    · rw [break_short seg hs 80 d hd hp.2, lex_block ind [d] (by intro l hl; rw [List.mem_singleton.mp hl]; exact hp.1.2.1),
        value_one ind d hp.1 hd]

/-! ## Fields -/

theorem lex_docs {docs t : Text} {ds ts : List Tok} (h : ∀ r, lex .top (docs ++ r) = (lex .top r).map (ds ++ ·)) (ht : LexTo t ts) :
    LexTo (docs ++ t) (ds ++ ts) := by
  intro r hr
  rw [List.append_assoc, h, ht r hr, optMap_map]

theorem lex_dflt (o : Option V) (h : ∀ v ∈ o, goodV v = true) : LexTo (dfltText o) (dfltToks o) := by
  cases o with
  | none => exact LexTo.nil
  | some v => exact LexTo.sp (LexTo.pre_punct rfl rfl (by decide) rfl (LexTo.sp (lex_const v (h v rfl))))

theorem fresh_dflt (o : Option V) : Fresh (dfltText o) := by
  cases o with
  | none => exact Fresh.nil
  | some v => exact Fresh.cons rfl (by decide)

/-- Arguments of fields that are printed in full: without description and directives. -/
def GoodArg (a : InDef) : Prop :=
  isName a.name = true ∧ GoodTy a.ty ∧ (∀ v ∈ a.dflt, goodV v = true) ∧ a.doc = none ∧ a.dirs = []

theorem lex_arg (a : InDef) (h : GoodArg a) : LexTo (argText a) (inToks a) := by
  obtain ⟨h1, h2, h3, h4, h5⟩ := h
  unfold argText inToks
  rw [h4, h5]
  simp only [descToks, List.nil_append, dToks, List.map_nil, dirsToks, List.append_nil]
  exact LexTo.entry h1 (LexTo.append (lex_ty a.ty h2) (lex_dflt a.dflt h3) (fresh_dflt a.dflt))

theorem lex_argDefs (as : List InDef) (h : ∀ a ∈ as, GoodArg a) : LexTo (argsText as) (argDefToks as) := by
  unfold argsText argDefToks
  split
  · exact LexTo.nil
  · exact LexTo.between (Or.inl rfl) (Or.inl rfl) (LexTo.joinComma argText inToks as (fun a ha => lex_arg a (h a ha)))

theorem fresh_argDefs (as : List InDef) : Fresh (argsText as) := by
  unfold argsText
  split
  · exact Fresh.nil
  · exact Fresh.cons rfl (by decide)

/-- Fields that are printed in full. -/
def GoodField (f : FieldDef) : Prop :=
  (∀ d ∈ f.doc, Plain d) ∧ isName f.name = true ∧ (∀ a ∈ f.args, GoodArg a) ∧ GoodTy f.ty ∧ GoodDirs f.dirs

theorem lex_field (f : FieldDef) (h : GoodField f) : LexTo (fieldText f) (fieldToks f) := by
  obtain ⟨h1, h2, h3, h4, h5⟩ := h
  unfold fieldText fieldToks
  refine lex_docs (lex_raw 2 f.doc h1) (LexTo.trimEnd loose_white _ (LexTo.sp (LexTo.sp (LexTo.name h2 ?_ ?_))))
  · exact LexTo.append (lex_argDefs f.args h3) (LexTo.pre_punct rfl rfl (by decide) rfl (LexTo.sp
      (LexTo.append (lex_ty f.ty h4) (LexTo.sp (lex_posDirs f.dirs h5)) (Fresh.cons rfl (by decide))))) (Fresh.cons rfl (by decide))
  · exact Fresh.append (fresh_argDefs f.args) (Fresh.cons rfl (by decide))

/-- Input fields that are printed in full: not with both directives and a default value. -/
def GoodIn (f : InDef) : Prop :=
  (∀ d ∈ f.doc, Short d) ∧ isName f.name = true ∧ GoodTy f.ty ∧ GoodDirs f.dirs ∧ (∀ v ∈ f.dflt, goodV v = true) ∧
    (f.dirs = [] ∨ f.dflt = none)

theorem lex_in (seg : Text → List Text) (hs : Whole seg) (f : InDef) (h : GoodIn f) : LexTo (inText seg f) (inToks f) := by
  obtain ⟨h1, h2, h3, h4, h5, h6⟩ := h
  unfold inText inToks
  refine lex_docs (lex_fmt seg hs 2 f.doc h1) (LexTo.sp (LexTo.sp (LexTo.entry h2 ?_)))
  rcases h6 with h | h
  · rw [h]
    simp only [posDirs_eq, List.isEmpty_nil, if_true, List.nil_append, dToks, List.map_nil, dirsToks, List.append_nil]
    exact LexTo.append (lex_ty f.ty h3) (lex_dflt f.dflt h5) (fresh_dflt f.dflt)
  · rw [h]
    simp only [dfltText, dfltToks, List.nil_append, List.append_nil]
    exact LexTo.append (lex_ty f.ty h3) (lex_posDirs f.dirs h4) (fresh_posDirs f.dirs)

/-- Enum values that are printed in full. -/
def GoodVal (v : ValDef) : Prop := (∀ d ∈ v.doc, Plain d) ∧ isName v.name = true ∧ GoodDirs v.dirs

theorem lex_enumVal (v : ValDef) (h : GoodVal v) : LexTo (valText v) (enumToks v) := by
  obtain ⟨h1, h2, h3⟩ := h
  unfold valText enumToks
  refine lex_docs (lex_raw 2 v.doc h1) (LexTo.sp (LexTo.sp (LexTo.name h2 ?_ ?_)))
  · have hd := lex_posDirs v.dirs h3
    split
    · rename_i he
      rw [List.isEmpty_iff.mp he] at hd
      exact hd
    · exact LexTo.sp hd
  · split
    · exact Fresh.nil
    · exact Fresh.cons rfl (by decide)

/-! ## Definitions -/

theorem lex_joinSep {sep : Char} (hp : sep = '&' ∨ sep = '|') : ∀ l : List Text, (∀ x ∈ l, isName x = true) →
    LexTo (joinSep sep l) (nameToks sep l)
  | [], _ => LexTo.nil
  | [x], h => LexTo.word (word_of_name (h x List.mem_cons_self))
  | x :: y :: l, h => by
    have ih := lex_joinSep hp (y :: l) (fun z hz => h z (List.mem_cons_of_mem _ hz))
    refine LexTo.name (h x List.mem_cons_self) (LexTo.sp ?_) (Fresh.cons rfl (by decide))
    rcases hp with e | e <;> subst e <;> exact LexTo.pre_punct rfl rfl (by decide) rfl (LexTo.sp ih)

theorem lex_impl (l : List Text) (h : ∀ x ∈ l, isName x = true) {t : Text} {ts : List Tok} (ht : LexTo t ts) :
    LexTo (implText l ++ t) (implToks l ++ ts) := by
  unfold implText implToks
  split
  · simpa using ht
  · have h1 := LexTo.append (LexTo.word (t := "implements".toList) ⟨by decide, by decide⟩)
      (LexTo.sp (LexTo.append (lex_joinSep (Or.inl rfl) l h) (LexTo.sp LexTo.nil) (Fresh.cons rfl (by decide))))
      (Fresh.cons rfl (by decide))
    simp only [List.append_nil] at h1
    intro r hr
    have h2 := LexTo.append (LexTo.word (t := "implements".toList) ⟨by decide, by decide⟩)
      (LexTo.sp (LexTo.append (lex_joinSep (Or.inl rfl) l h) (LexTo.sp ht) (Fresh.cons rfl (by decide))))
      (Fresh.cons rfl (by decide))
    have := h2 r hr
    simpa only [List.append_assoc, List.cons_append, List.nil_append] using this

theorem lex_body {α : Type} (f : α → Text) (g : α → List Tok) (l : List α) (h : ∀ x ∈ l, LexTo (f x) (g x)) :
    LexTo (bodyText (l.map f)) (bodyToks (l.map g)) := by
  have hj := LexTo.joinMap (sep := '\n') (Or.inr (Or.inr rfl)) f g l h
  have := LexTo.pre_punct (c := '{') rfl rfl (by decide) rfl (LexTo.nl (LexTo.append hj
    (LexTo.nl (LexTo.pre_punct (c := '}') rfl rfl (by decide) rfl (LexTo.nl LexTo.nil))) (Fresh.cons rfl (by decide))))
  simpa only [bodyText, bodyToks, List.flatMap] using this

theorem fresh_body (l : List Text) : Fresh (bodyText l) := Fresh.cons rfl (by decide)

/-- Definitions that are printed in full. -/
def GoodDef : Def → Prop
  | .schema s => s.ext = false ∧ GoodDirs s.dirs ∧ (s.query.isSome ∨ s.mutation.isSome) ∧ (∀ n ∈ s.query, isName n = true) ∧
    (∀ n ∈ s.mutation, isName n = true) ∧ ∀ n ∈ s.subscription, isName n = true
  | .type t => t.ext = false ∧ isName t.name = true ∧
    match t.kind with
    | .scalar => (∀ d ∈ t.doc, Short d) ∧ t.dirs = []
    | .union ms => t.doc = none ∧ GoodDirs t.dirs ∧ ms ≠ [] ∧ ∀ m ∈ ms, isName m = true
    | .input fs => (∀ d ∈ t.doc, Short d) ∧ GoodDirs t.dirs ∧ fs ≠ [] ∧ ∀ f ∈ fs, GoodIn f
    | .iface is fs => t.doc = none ∧ t.dirs = [] ∧ (∀ i ∈ is, isName i = true) ∧ fs ≠ [] ∧ ∀ f ∈ fs, GoodField f
    | .object is fs => (∀ d ∈ t.doc, Plain d) ∧ GoodDirs t.dirs ∧ (∀ i ∈ is, isName i = true) ∧ fs ≠ [] ∧ ∀ f ∈ fs, GoodField f
    | .enum vs => (∀ d ∈ t.doc, Plain d) ∧ GoodDirs t.dirs ∧ vs ≠ [] ∧ ∀ v ∈ vs, GoodVal v
  | .directive => False

theorem lex_rootText (op : Text) (ho : isName op = true) (o : Option Text) (h : ∀ n ∈ o, isName n = true) {t : Text} {ts : List Tok}
    (ht : LexTo t ts) : LexTo (rootText op o ++ t) (((o.map (fun n => (op, n))).toList).flatMap rootToks ++ ts) := by
  cases o with
  | none => simpa [rootText] using ht
  | some n =>
    have h1 := LexTo.sp (LexTo.sp (LexTo.entry ho (LexTo.name (h n rfl) (LexTo.nl ht) (Fresh.cons rfl (by decide)))))
    simpa [rootText, rootToks] using h1

theorem lex_schema (s : SchemaDef) (h : GoodDef (.schema s)) : LexTo (schemaText s) (defToks (.schema s)) := by
  obtain ⟨_, h1, h2, h3, h4, h5⟩ := h
  have hne : ((rootText "mutation".toList s.mutation).isEmpty && (rootText "query".toList s.query).isEmpty) = false := by
    rcases h2 with h | h
    · obtain ⟨n, e⟩ := Option.isSome_iff_exists.mp h
      rw [e, Bool.and_comm]; rfl
    · obtain ⟨n, e⟩ := Option.isSome_iff_exists.mp h
      rw [e]; rfl
  unfold schemaText
  simp only [hne, Bool.false_eq_true, if_false]
  have hb := lex_rootText "query".toList (by decide) s.query h3 (lex_rootText "mutation".toList (by decide) s.mutation h4
    (lex_rootText "subscription".toList (by decide) s.subscription h5
      (LexTo.pre_punct (c := '}') rfl rfl (by decide) rfl (LexTo.nl LexTo.nil))))
  have := LexTo.append (LexTo.word (t := "schema".toList) ⟨by decide, by decide⟩)
    (LexTo.sp (LexTo.append (lex_posDirs s.dirs h1) (LexTo.pre_punct (c := '{') rfl rfl (by decide) rfl (LexTo.nl hb))
      (Fresh.cons rfl (by decide)))) (Fresh.cons rfl (by decide))
  have e : defToks (.schema s) = [.word "schema".toList] ++ (dToks s.dirs ++ .p '{' ::
      (((s.query.map (fun n => ("query".toList, n))).toList).flatMap rootToks ++
        (((s.mutation.map (fun n => ("mutation".toList, n))).toList).flatMap rootToks ++
          (((s.subscription.map (fun n => ("subscription".toList, n))).toList).flatMap rootToks ++ [.p '}'])))) := by
    simp only [defToks, bodyToks, roots, ← List.flatMap_def, List.flatMap_append, List.append_assoc, List.cons_append, List.nil_append]
  rw [e]
  exact this

/-- A keyword, a name and the rest. -/
theorem lex_kw {k n t : Text} {ts : List Tok} (hk : Word k) (hn : isName n = true) (ht : LexTo t ts) (hs : Fresh t) :
    LexTo (k ++ ' ' :: (n ++ t)) (.word k :: .word n :: ts) :=
  LexTo.append (LexTo.word hk) (LexTo.sp (LexTo.name hn ht hs)) (Fresh.cons rfl (by decide))

theorem lex_def (seg : Text → List Text) (hs : Whole seg) (x : Def) (h : GoodDef x) :
    LexTo (defText seg x) (defToks x) := by
  cases x with
  | directive => exact absurd h (by simp [GoodDef])
  | schema s => exact lex_schema s h
  | type t =>
    obtain ⟨ext, doc, name, dirs, kind⟩ := t
    obtain ⟨_, hn, hk⟩ := h
    simp only at hn hk
    cases kind with
    | scalar =>
      obtain ⟨h1, rfl⟩ := hk
      exact lex_docs (lex_fmt seg hs 0 doc h1) (lex_kw ⟨by decide, by decide⟩ hn (LexTo.nl LexTo.nil) (Fresh.cons rfl (by decide)))
    | union ms =>
      obtain ⟨rfl, h1, _, h2⟩ := hk
      refine lex_kw ⟨by decide, by decide⟩ hn (LexTo.append (lex_posDirs dirs h1) (LexTo.sp (LexTo.pre_punct rfl rfl (by decide) rfl
        (LexTo.sp ?_))) (Fresh.cons rfl (by decide))) (Fresh.append (fresh_posDirs dirs) (Fresh.cons rfl (by decide)))
      have := LexTo.append (lex_joinSep (Or.inr rfl) ms h2) (LexTo.nl LexTo.nil) (Fresh.cons rfl (by decide))
      simpa using this
    | input fs =>
      obtain ⟨h1, h2, _, h3⟩ := hk
      exact lex_docs (lex_fmt seg hs 0 doc h1) (lex_kw ⟨by decide, by decide⟩ hn (LexTo.sp (LexTo.append (lex_posDirs dirs h2)
        (lex_body (inText seg) inToks fs (fun f hf => lex_in seg hs f (h3 f hf))) (fresh_body _))) (Fresh.cons rfl (by decide)))
    | iface is fs =>
      obtain ⟨rfl, rfl, h1, _, h2⟩ := hk
      exact lex_kw ⟨by decide, by decide⟩ hn (LexTo.sp (lex_impl is h1
        (lex_body fieldText fieldToks fs (fun f hf => lex_field f (h2 f hf))))) (Fresh.cons rfl (by decide))
    | object is fs =>
      obtain ⟨h1, h2, h3, _, h4⟩ := hk
      exact lex_docs (lex_raw 2 doc h1) (lex_kw ⟨by decide, by decide⟩ hn (LexTo.sp (lex_impl is h3 (LexTo.append (lex_posDirs dirs h2)
        (lex_body fieldText fieldToks fs (fun f hf => lex_field f (h4 f hf))) (fresh_body _)))) (Fresh.cons rfl (by decide)))
    | enum vs =>
      obtain ⟨h1, h2, _, h3⟩ := hk
      exact lex_docs (lex_raw 0 doc h1) (lex_kw ⟨by decide, by decide⟩ hn (LexTo.sp (LexTo.append (lex_posDirs dirs h2)
        (lex_body valText enumToks vs (fun v hv => lex_enumVal v (h3 v hv))) (fresh_body _))) (Fresh.cons rfl (by decide)))

theorem goodDirs_vals {ds : List Dir} (h : GoodDirs ds) : ∀ x ∈ ds, goodVKvs x.args = true := fun x hx => (h x hx).2.1

theorem inVals_of_arg {a : InDef} (h : GoodArg a) : InVals a := ⟨h.2.2.1, by rw [h.2.2.2.2]; simp⟩

theorem fieldVals_of {f : FieldDef} (h : GoodField f) : FieldVals f :=
  ⟨fun a ha => inVals_of_arg (h.2.2.1 a ha), goodDirs_vals h.2.2.2.2⟩

theorem inVals_of {f : InDef} (h : GoodIn f) : InVals f := ⟨h.2.2.2.2.1, goodDirs_vals h.2.2.2.1⟩

theorem defVals_of (x : Def) (h : GoodDef x) : DefVals x := by
  cases x with
  | directive => exact absurd h (by simp [GoodDef])
  | schema s =>
    obtain ⟨h0, h1, h2, _⟩ := h
    refine ⟨h0, goodDirs_vals h1, ?_⟩
    unfold roots
    rcases h2 with h | h <;> obtain ⟨n, e⟩ := Option.isSome_iff_exists.mp h <;> simp [e]
  | type t =>
    obtain ⟨ext, doc, name, dirs, kind⟩ := t
    obtain ⟨h0, _, hk⟩ := h
    simp only at h0 hk
    cases kind with
    | scalar => exact ⟨h0, by simp [hk.2], trivial⟩
    | union ms => exact ⟨h0, goodDirs_vals hk.2.1, hk.2.2.1⟩
    | input fs => exact ⟨h0, goodDirs_vals hk.2.1, hk.2.2.1, fun f hf => inVals_of (hk.2.2.2 f hf)⟩
    | iface is fs => exact ⟨h0, by simp [hk.2.1], hk.2.2.2.1, fun f hf => fieldVals_of (hk.2.2.2.2 f hf)⟩
    | object is fs => exact ⟨h0, goodDirs_vals hk.2.1, hk.2.2.2.1, fun f hf => fieldVals_of (hk.2.2.2.2 f hf)⟩
    | enum vs => exact ⟨h0, goodDirs_vals hk.2.1, hk.2.2.1, fun v hv => goodDirs_vals (hk.2.2.2 v hv).2.2⟩

theorem print_reads (seg : Text → List Text) (hs : Whole seg) (ds : List Def) (h : ∀ x ∈ ds, GoodDef x) :
    readText (print seg ds) = some (inOrder ds) := by
  have hm : ∀ x ∈ inOrder ds, GoodDef x := by
    intro x hx
    obtain ⟨k, hk, hx⟩ := List.mem_flatMap.mp hx
    exact h x (List.mem_filter.mp hx).1
  refine read_toks (inOrder ds) (fun x hx => defVals_of x (hm x hx)) ?_
  have := LexTo.trimEnd loose_nl _ (LexTo.joinMap (sep := '\n') (Or.inr (Or.inr rfl)) (defText seg) defToks (inOrder ds)
    (fun x hx => lex_def seg hs x (hm x hx))) [] Sep.nil
  simp only [List.append_nil, lex, atEnd, Option.map_some] at this
  exact this

/-! ## The order -/

theorem groups_perm {α : Type} (f : α → Nat) : ∀ (ks : List Nat), ks.Nodup → ∀ (l : List α), (∀ x ∈ l, f x ∈ ks) →
    (ks.flatMap (fun k => l.filter (fun x => f x == k))).Perm l
  | [], _, l, h => by
    cases l with
    | nil => exact List.Perm.nil
    | cons a l => exact absurd (h a List.mem_cons_self) (by simp)
  | k :: ks, hn, l, h => by
    have hn' := List.nodup_cons.mp hn
    have ih := groups_perm f ks hn'.2 (l.filter (fun x => !(f x == k))) (by
      intro x hx
      obtain ⟨hx, hk⟩ := List.mem_filter.mp hx
      rcases List.mem_cons.mp (h x hx) with e | e
      · simp [e] at hk
      · exact e)
    have he : ks.flatMap (fun k' => (l.filter (fun x => !(f x == k))).filter (fun x => f x == k')) =
        ks.flatMap (fun k' => l.filter (fun x => f x == k')) := by
      rw [List.flatMap_def, List.flatMap_def]
      congr 1
      refine List.map_congr_left (fun k' hk' => ?_)
      rw [List.filter_filter]
      refine List.filter_congr (fun x _ => ?_)
      by_cases e : f x = k'
      · have : k' ≠ k := by intro e2; subst e2; exact hn'.1 hk'
        simp [e, this]
      · simp [e]
    rw [he] at ih
    rw [List.flatMap_cons]
    exact (List.Perm.append_left _ ih).trans (List.filter_append_perm _ _)

theorem groups_sorted {α : Type} (f : α → Nat) (ks : List Nat) (hk : ks.Pairwise (· ≤ ·)) (l : List α) :
    (ks.flatMap (fun k => l.filter (fun x => f x == k))).Pairwise (fun a b => f a ≤ f b) := by
  have hm : ∀ k, ∀ x ∈ l.filter (fun x => f x == k), f x = k := by
    intro k x hx
    simpa using (List.mem_filter.mp hx).2
  rw [List.pairwise_flatMap]
  refine ⟨fun k _ => ?_, ?_⟩
  · refine List.pairwise_iff_forall_sublist.mpr (fun {a b} hs => ?_)
    have ha := hm k a (hs.subset List.mem_cons_self)
    have hb := hm k b (hs.subset (List.mem_cons_of_mem _ List.mem_cons_self))
    omega
  · refine hk.imp (fun {a b} hab x hx y hy => ?_)
    rw [hm a x hx, hm b y hy]
    exact hab

end Verif.Doc
