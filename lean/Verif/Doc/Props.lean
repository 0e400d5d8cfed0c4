import Verif.Doc.Words

/-!
# What the printed schema says
-/

namespace Verif.Doc

open Verif.Mustache (Text)
open Verif.HttpUrl (joinWith)
open Verif.Gql (Tok isName)
open Verif.Sdl (V GTy Dir InDef FieldDef ValDef Kind TypeDef SchemaDef Def)

set_option linter.unusedSimpArgs false

/-- The place in the text for a kind. -/
def rankOf : Nat → Nat
  | 0 => 0
  | k + 1 => k + 2

theorem rank_group (x : Def) (h : GoodDef x) : rank x = rankOf (group x) ∧ group x ≤ 6 := by
  cases x with
  | directive => exact absurd h (by simp [GoodDef])
  | schema s => exact ⟨rfl, by simp [group]⟩
  | type t =>
    obtain ⟨ext, doc, name, dirs, kind⟩ := t
    cases kind <;> exact ⟨rfl, by simp [group]⟩

theorem rankOf_inj {a b : Nat} : rankOf a = rankOf b ↔ a = b := by
  cases a <;> cases b <;> simp [rankOf]

theorem rankOf_le {a b : Nat} : rankOf a ≤ rankOf b ↔ a ≤ b := by
  cases a <;> cases b <;> simp [rankOf]

theorem groups_filter {α : Type} (f : α → Nat) (l : List α) (k : Nat) : ∀ ks : List Nat, ks.Nodup →
    (ks.flatMap (fun k => l.filter (fun x => f x == k))).filter (fun x => f x == k) =
      if k ∈ ks then l.filter (fun x => f x == k) else []
  | [], _ => by simp
  | j :: ks, hn => by
    have hn := List.nodup_cons.mp hn
    rw [List.flatMap_cons, List.filter_append, groups_filter f l k ks hn.2, List.filter_filter]
    by_cases e : k = j
    · subst e
      have : ∀ a : α, ((f a == k) && (f a == k)) = (f a == k) := fun a => Bool.and_self _
      simp [hn.1, this]
    · have : ∀ a : α, ((f a == k) && (f a == j)) = false := by
        intro a
        by_cases h : f a = k
        · simp [h, e]
        · simp [h]
      simp [this, e]

/-- **C132 (partial).**  The printed text says all that the document says, if every definition is one that is printed in full
(`GoodDef`).  Missing: definitions with parts that are not printed or not in a way that can be read, see the theorems below. -/
theorem C132_text_partial (seg : Text → List Text) (hs : Whole seg) (ds : List Def) (h : ∀ x ∈ ds, GoodDef x) :
    SaysAll (print seg ds) ds := by
  refine ⟨inOrder ds, print_reads seg hs ds h, ?_, ?_, fun k => ?_⟩
  · refine groups_perm rank _ (by decide) ds (fun x hx => ?_)
    obtain ⟨h1, h2⟩ := rank_group x (h x hx)
    rw [h1]
    generalize group x = g at h2
    have : ∀ g, g ≤ 6 → rankOf g ∈ [0, 2, 3, 4, 5, 6, 7] := by decide
    exact this g h2
  · have hp := groups_sorted rank [0, 2, 3, 4, 5, 6, 7] (by decide) ds
    have hm : ∀ x ∈ inOrder ds, GoodDef x := by
      intro x hx
      obtain ⟨k, hk, hx⟩ := List.mem_flatMap.mp hx
      exact h x (List.mem_filter.mp hx).1
    refine List.Pairwise.imp_of_mem (fun {a b} ha hb hab => ?_) hp
    rw [(rank_group a (hm a ha)).1, (rank_group b (hm b hb)).1] at hab
    exact rankOf_le.mp hab
  · have hm : ∀ x ∈ inOrder ds, GoodDef x := by
      intro x hx
      obtain ⟨k, hk, hx⟩ := List.mem_flatMap.mp hx
      exact h x (List.mem_filter.mp hx).1
    have hc : ∀ l : List Def, (∀ x ∈ l, GoodDef x) →
        l.filter (fun d => group d == k) = l.filter (fun d => rank d == rankOf k) := by
      intro l hl
      refine List.filter_congr (fun x hx => ?_)
      rw [(rank_group x (hl x hx)).1]
      by_cases e : group x = k
      · simp [e]
      · have : rankOf (group x) ≠ rankOf k := fun e2 => e (rankOf_inj.mp e2)
        rw [beq_false_of_ne e, beq_false_of_ne this]
    rw [hc _ hm, hc _ h]
    have := groups_filter rank ds (rankOf k) [0, 2, 3, 4, 5, 6, 7] (by decide)
    unfold inOrder
    rw [this]
    split
    · rfl
    · rename_i hk
      symm
      rw [List.filter_eq_nil_iff]
      intro x hx
      obtain ⟨h1, h2⟩ := rank_group x (h x hx)
      rw [h1]
      intro e
      have e := eq_of_beq e
      apply hk
      rw [← e]
      generalize group x = g at h2
      have : ∀ g, g ≤ 6 → rankOf g ∈ [0, 2, 3, 4, 5, 6, 7] := by decide
      exact this g h2

/-! ## What is not said -/

theorem not_says {t : Text} {x y : Def} (h : readText t = some [y]) (hne : y ≠ x) : ¬ SaysAll t [x] := by
  rintro ⟨l, h1, h2, _⟩
  rw [h] at h1
  cases h1
  have := List.perm_singleton.mp h2
  exact hne (List.cons.inj this).1

theorem not_reads {t : Text} {ds : List Def} (h : readText t = none) : ¬ SaysAll t ds := by
  rintro ⟨l, h1, _⟩
  rw [h] at h1
  cases h1

/-- A text. -/
abbrev t! (s : String) : Text := s.toList

/-- `Int`. -/
def int : GTy := .named (t! "Int") true

/-- A field `x: Int`. -/
def fld : FieldDef := ⟨t! "x", none, [], int, []⟩

/-- The directive `@d`. -/
def dir : Dir := ⟨t! "d", []⟩

/-- **C132, negation.**  An input field with a directive and a default value is printed with the default value last, which
cannot be read: `x: Int@d  = 1`. -/
theorem C132_text_violated_by_default (seg : Text → List Text) :
    ¬ SaysAll (print seg [.type ⟨false, none, t! "I", [], .input [⟨t! "x", none, int, some (.int 1), [dir]⟩]⟩])
      [.type ⟨false, none, t! "I", [], .input [⟨t! "x", none, int, some (.int 1), [dir]⟩]⟩] :=
  not_reads rfl

/-- **C132, negation.**  The directives of a scalar are not printed. -/
theorem C132_text_violated_by_scalar_directive (seg : Text → List Text) :
    ¬ SaysAll (print seg [.type ⟨false, none, t! "S", [dir], .scalar⟩]) [.type ⟨false, none, t! "S", [dir], .scalar⟩] :=
  not_says (y := .type ⟨false, none, t! "S", [], .scalar⟩) rfl (by simp)

/-- **C132, negation.**  The description of an interface is not printed. -/
theorem C132_text_violated_by_interface_description (seg : Text → List Text) :
    ¬ SaysAll (print seg [.type ⟨false, some (t! "a"), t! "N", [], .iface [] [fld]⟩])
      [.type ⟨false, some (t! "a"), t! "N", [], .iface [] [fld]⟩] :=
  not_says (y := .type ⟨false, none, t! "N", [], .iface [] [fld]⟩) rfl (by simp)

/-- **C132, negation.**  The directives of an interface are not printed. -/
theorem C132_text_violated_by_interface_directive (seg : Text → List Text) :
    ¬ SaysAll (print seg [.type ⟨false, none, t! "N", [dir], .iface [] [fld]⟩])
      [.type ⟨false, none, t! "N", [dir], .iface [] [fld]⟩] :=
  not_says (y := .type ⟨false, none, t! "N", [], .iface [] [fld]⟩) rfl (by simp)

/-- **C132, negation.**  The description of a union is not printed. -/
theorem C132_text_violated_by_union_description (seg : Text → List Text) :
    ¬ SaysAll (print seg [.type ⟨false, some (t! "a"), t! "U", [], .union [t! "A", t! "B"]⟩])
      [.type ⟨false, some (t! "a"), t! "U", [], .union [t! "A", t! "B"]⟩] :=
  not_says (y := .type ⟨false, none, t! "U", [], .union [t! "A", t! "B"]⟩) rfl (by simp)

/-- **C132, negation.**  The description of an argument is not printed. -/
theorem C132_text_violated_by_argument_description (seg : Text → List Text) :
    ¬ SaysAll (print seg [.type ⟨false, none, t! "O", [], .object [] [⟨t! "x", none, [⟨t! "n", some (t! "a"), int, none, []⟩], int, []⟩]⟩])
      [.type ⟨false, none, t! "O", [], .object [] [⟨t! "x", none, [⟨t! "n", some (t! "a"), int, none, []⟩], int, []⟩]⟩] :=
  not_says (y := .type ⟨false, none, t! "O", [], .object [] [⟨t! "x", none, [⟨t! "n", none, int, none, []⟩], int, []⟩]⟩) rfl (by simp)

/-- **C132, negation.**  The directives of an argument (`@modify`, for one) are not printed. -/
theorem C132_text_violated_by_argument_directive (seg : Text → List Text) :
    ¬ SaysAll (print seg [.type ⟨false, none, t! "O", [], .object [] [⟨t! "x", none, [⟨t! "n", none, int, none, [dir]⟩], int, []⟩]⟩])
      [.type ⟨false, none, t! "O", [], .object [] [⟨t! "x", none, [⟨t! "n", none, int, none, [dir]⟩], int, []⟩]⟩] :=
  not_says (y := .type ⟨false, none, t! "O", [], .object [] [⟨t! "x", none, [⟨t! "n", none, int, none, []⟩], int, []⟩]⟩) rfl (by simp)

/-- **C132, negation.**  A schema without query and mutation is not printed at all: its directives (`@server`, `@upstream`,
`@link`) are lost. -/
theorem C132_text_violated_by_no_roots (seg : Text → List Text) :
    print seg [.schema ⟨false, [dir], none, none, none⟩] = [] ∧
      ¬ SaysAll (print seg [.schema ⟨false, [dir], none, none, none⟩]) [.schema ⟨false, [dir], none, none, none⟩] := by
  refine ⟨rfl, ?_⟩
  rintro ⟨l, h1, h2, _⟩
  have e : readText (print seg [.schema ⟨false, [dir], none, none, none⟩]) = some [] := rfl
  rw [e] at h1
  cases h1
  simp at h2

/-- **C132, negation.**  A directive's argument that is `null` is not printed. -/
theorem C132_text_violated_by_null (seg : Text → List Text) :
    ¬ SaysAll (print seg [.type ⟨false, none, t! "O", [⟨t! "d", [(t! "a", .null)]⟩], .object [] [fld]⟩])
      [.type ⟨false, none, t! "O", [⟨t! "d", [(t! "a", .null)]⟩], .object [] [fld]⟩] :=
  not_says (y := .type ⟨false, none, t! "O", [dir], .object [] [fld]⟩) rfl (by simp [dir])

/-- **C132, negation.**  A type without fields is printed with empty braces, which cannot be read. -/
theorem C132_text_violated_by_no_fields (seg : Text → List Text) :
    ¬ SaysAll (print seg [.type ⟨false, none, t! "O", [], .object [] []⟩]) [.type ⟨false, none, t! "O", [], .object [] []⟩] :=
  not_reads rfl

/-- **C132, negation.**  An extension is printed as a definition. -/
theorem C132_text_violated_by_extension (seg : Text → List Text) :
    ¬ SaysAll (print seg [.type ⟨true, none, t! "O", [], .object [] [fld]⟩]) [.type ⟨true, none, t! "O", [], .object [] [fld]⟩] :=
  not_says (y := .type ⟨false, none, t! "O", [], .object [] [fld]⟩) rfl (by simp)

/-- **C132, negation.**  A description with three quotes ends there: the text cannot be read. -/
theorem C132_text_violated_by_quotes (seg : Text → List Text) :
    ¬ SaysAll (print seg [.type ⟨false, some (t! "a\"\"\"b"), t! "O", [], .object [] [fld]⟩])
      [.type ⟨false, some (t! "a\"\"\"b"), t! "O", [], .object [] [fld]⟩] :=
  not_reads rfl

/-- **C132, negation.**  Of the lines of the description of an object only the first is indented, and so it is when read. -/
theorem C132_text_violated_by_lines (seg : Text → List Text) :
    ¬ SaysAll (print seg [.type ⟨false, some (t! "a\nb"), t! "O", [], .object [] [fld]⟩])
      [.type ⟨false, some (t! "a\nb"), t! "O", [], .object [] [fld]⟩] :=
  not_says (y := .type ⟨false, some (t! "  a\nb"), t! "O", [], .object [] [fld]⟩) rfl (by simp; decide)

/-- **C132, negation.**  The lines of the description of an input are joined. -/
theorem C132_text_violated_by_input_lines :
    ¬ SaysAll (print (fun t => t.map ([·])) [.type ⟨false, some (t! "a\nb"), t! "I", [], .scalar⟩])
      [.type ⟨false, some (t! "a\nb"), t! "I", [], .scalar⟩] :=
  not_says (y := .type ⟨false, some (t! "ab"), t! "I", [], .scalar⟩) rfl (by simp; decide)

/-! ## Descriptions -/

/-- The text is read as a description `s`. -/
def IsDesc (t s : Text) : Prop := ∀ r, lex .top (t ++ r) = (lex .top r).map (.str s :: ·)

/-- **C133 (partial).**  A description that is broken into lines is read as a description with the same words, if it has no line
ends, no three quotes in a row, and no white character belongs to a grapheme with other characters.  Missing: descriptions
with line ends, see `C133_words_violated_by_lines`. -/
theorem C133_words_partial (seg : Text → List Text) (hs : Whole seg) (ind : Nat) (d : Text) (h1 : ∀ c ∈ d, c ≠ '\n')
    (h2 : noTriple d = true) (h3 : ∀ u, u <:+ d → Clean (seg u)) :
    ∃ s, IsDesc (fmtDocs seg ind (some d)) s ∧ words s = words d := by
  have hf : d.filter (fun c => c != '\n') = d := by
    rw [List.filter_eq_self]
    intro c hc
    simpa using h1 c hc
  refine ⟨blockValue (rawOf ind (breakLines seg 80 d.length d)), fun r => ?_, ?_⟩
  · unfold fmtDocs
    simp only [hf]
    refine lex_block ind _ (fun l hl => noTriple_infix ?_ h2) r
    have e := lines_flatten seg hs 80 d.length d (Nat.le_refl _)
    obtain ⟨a, b, hab⟩ := List.append_of_mem hl
    rw [hab, List.flatten_append, List.flatten_cons] at e
    exact ⟨a.flatten, b.flatten, by rw [← e, List.append_assoc]⟩
  · rw [words_blockValue, words_raw, lines_words seg hs 80 d.length d (Nat.le_refl _) h3]

/-- **C133.**  The description of an object, field or enum value is read as one with the same words, whatever its lines, if it has
no three quotes in a row. -/
theorem C133_words_raw (ind : Nat) (d : Text) (h : noTriple d = true) :
    ∃ s, IsDesc (rawDocs ind (some d)) s ∧ words s = words d := by
  refine ⟨blockValue (rawOf ind [d]), fun r => ?_, ?_⟩
  · exact lex_block ind [d] (by intro l hl; rw [List.mem_singleton.mp hl]; exact h) r
  · rw [words_blockValue, words_raw]
    simp

/-- **C133.**  The lines are the text, cut: nothing is lost between them. -/
theorem C133_lines (seg : Text → List Text) (hs : Whole seg) (brk : Nat) (d : Text) :
    (breakLines seg brk d.length d).flatten = d := lines_flatten seg hs brk d.length d (Nat.le_refl _)

theorem width (seg : Text → List Text) (hs : Whole seg) (brk : Nat) (t : Text) :
    ∃ a b w, nextLine seg brk t = a ++ (b ++ w) ∧ bytes a ≤ brk ∧ (∀ c ∈ b, white c = false) ∧
      (w = [] ∧ nextLine seg brk t = t ∨ w ∈ seg t ∧ w.any white = true ∧ brk < bytes (nextLine seg brk t)) := by
  have key : ∀ gs : List Text, ∃ b w, (takeWord gs).flatten = b ++ w ∧ (∀ c ∈ b, white c = false) ∧
      (w = [] ∧ takeWord gs = gs ∨ w ∈ gs ∧ w.any white = true) := by
    intro gs
    induction gs with
    | nil => exact ⟨[], [], rfl, by simp, Or.inl ⟨rfl, rfl⟩⟩
    | cons g gs ih =>
      obtain ⟨b, w, h1, h2, h3⟩ := ih
      unfold takeWord
      split
      · rename_i hg
        exact ⟨[], g, by simp, by simp, Or.inr ⟨List.mem_cons_self, hg⟩⟩
      · rename_i hg
        refine ⟨g ++ b, w, by simp [h1], fun c hc => ?_, ?_⟩
        · rcases List.mem_append.mp hc with hc | hc
          · cases hw : white c with
            | false => rfl
            | true => exact absurd (List.any_eq_true.mpr ⟨c, hc, hw⟩) hg
          · exact h2 c hc
        · rcases h3 with ⟨h, h'⟩ | ⟨h, h'⟩
          · exact Or.inl ⟨h, by rw [h']⟩
          · exact Or.inr ⟨List.mem_cons_of_mem _ h, h'⟩
  have full : ∀ (gs : List Text) (cur : Nat) (g : Text) (r : List Text), (takeFit brk cur gs).2 = g :: r →
      brk < cur + bytes (takeFit brk cur gs).1.flatten + bytes g := by
    intro gs
    induction gs with
    | nil => intro cur g r h; simp [takeFit] at h
    | cons x gs ih =>
      intro cur g r h
      unfold takeFit at h ⊢
      split at h
      · rename_i hx
        cases h
        simp only [hx, if_true, List.flatten_nil]
        simp only [bytes, List.map_nil, List.sum_nil]
        have := hx
        simp only [bytes] at this
        omega
      · rename_i hx
        have := ih _ g r h
        simp only [hx, if_false, List.flatten_cons, bytes_append]
        omega
  obtain ⟨b, w, h1, h2, h3⟩ := key (takeFit brk 0 (seg t)).2
  have e : nextLine seg brk t = (takeFit brk 0 (seg t)).1.flatten ++ (b ++ w) := by
    unfold nextLine
    simp only [h1]
  refine ⟨(takeFit brk 0 (seg t)).1.flatten, b, w, e, ?_, h2, ?_⟩
  · have := takeFit_bytes brk (seg t) 0 (Nat.zero_le _)
    omega
  · rcases h3 with ⟨h, h'⟩ | ⟨h, h'⟩
    · left
      refine ⟨h, ?_⟩
      rw [e, ← h1, h', ← List.flatten_append, takeFit_split, hs]
    · right
      refine ⟨?_, h', ?_⟩
      · rw [← takeFit_split brk (seg t) 0]
        exact List.mem_append_right _ h
      · rw [e, ← h1, bytes_append]
        cases hr : (takeFit brk 0 (seg t)).2 with
        | nil => rw [hr] at h; cases h
        | cons g r =>
          have hf := full (seg t) 0 g r hr
          have hb : bytes g ≤ bytes (takeWord (g :: r)).flatten := by
            unfold takeWord
            split <;> simp only [List.flatten_cons, bytes_append] <;> omega
          omega

theorem bytes_eq : ∀ t : Text, bytes t = byteLen t
  | [] => rfl
  | c :: t => by
    have := bytes_eq t
    unfold bytes at this ⊢
    simp only [List.map_cons, List.sum_cons, byteLen, this]

/-- **C133.**  A line goes beyond the limit only to finish a word, and is cut nowhere else: after the part within the limit there is
no white character except in the last grapheme, and every line but the last one goes beyond the limit and ends with a grapheme
that has one. -/
theorem C133_width (seg : Text → List Text) (hs : Whole seg) (brk : Nat) (t : Text) :
    ∃ a b w, nextLine seg brk t = a ++ (b ++ w) ∧ byteLen a ≤ brk ∧ (∀ c ∈ b, white c = false) ∧
      (w = [] ∧ nextLine seg brk t = t ∨ w ∈ seg t ∧ w.any white = true ∧ brk < byteLen (nextLine seg brk t)) := by
  simpa only [bytes_eq] using width seg hs brk t

/-- **C133, negation.**  Words on different lines of the description of a scalar, an input or an input field become one word. -/
theorem C133_words_violated_by_lines :
    ∃ s, IsDesc (fmtDocs (fun t => t.map ([·])) 0 (some (t! "one\ntwo"))) s ∧ words s = [t! "onetwo"] ∧
      words (t! "one\ntwo") = [t! "one", t! "two"] := by
  refine ⟨t! "onetwo", fun r => ?_, rfl, rfl⟩
  exact lex_block 0 [t! "onetwo"] (by decide) r

end Verif.Doc
