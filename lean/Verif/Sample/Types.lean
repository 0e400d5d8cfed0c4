import Verif.Sample.Props

/-!
# Arguments and their types (C119), and samples that cannot be asked for again (C118)
-/

namespace Verif.Sample

open Verif.Mustache (Text Template Seg isWord parse print render merge)
open Verif.HttpUrl (QC GVal RCtx pairsOf Query createUrl parseUrl Url scalarText leaves leavesAll)
open Verif.Transform (At get_some)

set_option linter.unusedSimpArgs false

/-! ## C119: arguments are what is used -/

/-- An expression is used by a directive. -/
def Occurs (d : Directive) (ps : List Text) : Prop := .expr ps ∈ parse d.url ∨ ∃ q ∈ d.query, .expr ps ∈ parse q.2

theorem expr_merge {ps : List Text} : ∀ {t : Template}, .expr ps ∈ merge t ↔ .expr ps ∈ t
  | [] => by simp [merge]
  | .expr qs :: t => by rw [merge, List.mem_cons, List.mem_cons, expr_merge]
  | .lit l :: t => by
    have ih := expr_merge (ps := ps) (t := t)
    rw [merge]
    split
    · rw [ih]; simp
    · split
      · next l' r e =>
        rw [e] at ih
        simp only [List.mem_cons, reduceCtorEq, false_or] at ih ⊢
        exact ih
      · rw [List.mem_cons, List.mem_cons, ih]

theorem expr_url {front : Text} {m : List Marked} {frag : Option Text} {ps : List Text} :
    .expr ps ∈ urlTemplate front m frag ↔ ∃ x ∈ tagged m, ps = ["args".toList, argName x.1] := by
  rw [urlTemplate]
  constructor
  · intro h
    rcases List.mem_cons.1 h with e | h
    · cases e
    · rcases List.mem_append.1 h with h | h
      · obtain ⟨⟨p, o⟩, hx, h⟩ := List.mem_flatMap.1 h
        rcases List.mem_cons.1 h with e | h
        · cases e
        · have e := List.mem_singleton.1 h
          cases o with
          | none => cases e
          | some i =>
            cases e
            exact ⟨(i, p), List.mem_filterMap.2 ⟨_, hx, rfl⟩, rfl⟩
      · cases List.mem_singleton.1 h
  · rintro ⟨x, hx, rfl⟩
    obtain ⟨⟨p, o⟩, hm, e⟩ := List.mem_filterMap.1 hx
    obtain ⟨i, hi, e⟩ := Option.map_eq_some_iff.1 e
    cases hi
    subst e
    exact List.mem_cons_of_mem _ (List.mem_append_left _ (List.mem_flatMap.2 ⟨_, hm, List.mem_cons_of_mem _ List.mem_cons_self⟩))

/-- C119 (partial): the URL and the parameters of the generated request use arguments only, all of them are declared, and every declared
argument is used.

The full claim is for every sample.  Missing: samples with escapes or braces, and names of parameters that are not names of arguments or
become the same name. -/
theorem C119_arguments_partial (printed : Text → Prop) (camel : Text → Text) (s : Sample) (d : Directive) (h : Plain printed camel s)
    (hd : generate camel s = some d) :
    (∀ ps, Occurs d ps → ∃ n t, ps = ["args".toList, n] ∧ At d.args n t) ∧ ∀ n t, At d.args n t → Occurs d ["args".toList, n] := by
  obtain ⟨parts, hpath, hok⟩ := h.path
  have hk : Known s.pairs (infos s.pairs) := known_infos s.pairs (fun x hx => (h.texts x hx).2)
  rw [generate_plain h hpath hok] at hd
  cases hd
  have hval : ∀ q ∈ infos s.pairs, parse (placeholder (camel q.key)) = [.expr ["args".toList, camel q.key]] := by
    intro q hq
    obtain ⟨v, r, e, _, _⟩ := hk.each q hq
    have hm : (q.key, v) ∈ s.pairs := mem_values.1 (by rw [e]; exact List.mem_cons_self)
    exact parse_placeholder (name_valid (h.names _ hm).1)
  constructor
  · rintro ps (hp | ⟨q, hq, hp⟩)
    · simp only at hp
      rw [parse_url h.front hok h.frag, expr_merge, expr_url] at hp
      obtain ⟨x, hx, rfl⟩ := hp
      obtain ⟨t, ht⟩ := addQuery_has camel (infos s.pairs) (pathArgs parts) (argName x.1) (.inr (pathArgs_has hx))
      exact ⟨_, t, rfl, ht⟩
    · obtain ⟨i, hi, rfl⟩ := List.mem_map.1 hq
      simp only at hp
      rw [hval i hi] at hp
      cases List.mem_singleton.1 hp
      obtain ⟨t, ht⟩ := addQuery_has camel (infos s.pairs) (pathArgs parts) (camel i.key) (.inl ⟨i, hi, rfl⟩)
      exact ⟨_, t, rfl, ht⟩
  · intro n t ht
    rcases addQuery_at camel _ _ n t ht with ⟨q, hq, rfl, _⟩ | ht
    · right
      exact ⟨_, List.mem_map.2 ⟨q, hq, rfl⟩, by simp only; rw [hval q hq]; exact List.mem_cons_self⟩
    · left
      obtain ⟨x, hx, rfl, _⟩ := pathArgs_at ht
      simp only
      rw [parse_url h.front hok h.frag, expr_merge, expr_url]
      exact ⟨x, hx, rfl⟩

/-! ## C119: types -/

theorem dropWhile_none {p : Char → Bool} : ∀ {t : Text}, (∀ c ∈ t, p c = false) → t.dropWhile p = t
  | [], _ => rfl
  | c :: r, h => by rw [List.dropWhile_cons, if_neg (by rw [h c List.mem_cons_self]; decide)]

theorem trim_none {t : Text} (h : ∀ c ∈ t, c.isWhitespace = false) : trim t = t := by
  rw [trim, dropWhile_none h, dropWhile_none (fun c hc => h c (List.mem_reverse.1 hc)), List.reverse_reverse]

theorem natOf_eq (t : Text) : natOf t = Nat.ofDigitChars 10 t 0 := by
  unfold natOf Nat.ofDigitChars
  rfl

theorem digit_not_white {c : Char} (h : c.isDigit = true) : c.isWhitespace = false := by
  have h1 : 48 ≤ c.toNat ∧ c.toNat ≤ 57 := by
    simp only [Char.isDigit, Bool.and_eq_true, decide_eq_true_eq] at h
    exact ⟨h.1, h.2⟩
  cases e : c.isWhitespace with
  | false => rfl
  | true =>
    have : c = ' ' ∨ c = '\t' ∨ c = '\r' ∨ c = '\n' := by
      simpa [Char.isWhitespace, or_assoc] using e
    rcases this with rfl | rfl | rfl | rfl <;> exact absurd h1 (by decide)

theorem allDigits_digits (n : Nat) : allDigits (toString n).toList = true := by
  rw [allDigits, Bool.and_eq_true]
  refine ⟨by simpa using digits_ne n, List.all_eq_true.2 (fun c hc => ?_)⟩
  rw [isDigit_eq]
  exact digit_of_mem hc

theorem natOf_digits (n : Nat) : natOf (toString n).toList = n := by
  rw [natOf_eq, digits_eq, Nat.ofDigitChars_ten_toDigits]

theorem unsigned_digits (n : Nat) : unsigned (toString n).toList = (false, (toString n).toList) := by
  cases e : (toString n).toList with
  | nil => rfl
  | cons c r =>
    have hc : c.isDigit = true := digit_of_mem (n := n) (by rw [e]; exact List.mem_cons_self)
    rw [unsigned]
    · rintro r' e'; cases e'; revert hc; decide
    · rintro r' e'; cases e'; revert hc; decide

/-- The text of an integer. -/
theorem int_text (n : Int) : (∃ m : Nat, n = m ∧ (toString n).toList = (toString m).toList) ∨
    (∃ m : Nat, n = -((m : Int) + 1) ∧ (toString n).toList = '-' :: (toString (m + 1)).toList) := by
  cases n with
  | ofNat m => exact .inl ⟨m, rfl, rfl⟩
  | negSucc m =>
    refine .inr ⟨m, by omega, ?_⟩
    show (Int.repr (Int.negSucc m)).toList = _
    rw [Int.repr]
    simp

/-- C119: a number that GraphQL can hold is an `Int`. -/
theorem C119_int_detected (n : Int) (h1 : -2147483648 ≤ n) (h2 : n < 2147483648) : detect (toString n).toList = "Int".toList := by
  have key : ∀ t : Text, (∀ c ∈ t, c.isWhitespace = false) → isI32 t = true → detect t = "Int".toList := by
    intro t hw hi
    have hone : detectOne t = "Int".toList := by
      rw [detectOne, trim_none hw]
      rw [if_pos hi]
    rw [detect, hone]
    rw [if_neg]
    rintro ⟨e, _⟩
    exact absurd e (by decide +kernel)
  rcases int_text n with ⟨m, rfl, e⟩ | ⟨m, rfl, e⟩
  · rw [e]
    refine key _ (fun c hc => digit_not_white (digit_of_mem hc)) ?_
    rw [isI32, unsigned_digits]
    simp only
    rw [allDigits_digits, natOf_digits]
    simp
    omega
  · rw [e]
    refine key _ (fun c hc => ?_) ?_
    · rcases List.mem_cons.1 hc with rfl | hc
      · decide
      · exact digit_not_white (digit_of_mem hc)
    · rw [isI32, unsigned]
      simp only
      rw [allDigits_digits, natOf_digits]
      simp
      omega

/-- C119: the two texts of Booleans are `Boolean`. -/
theorem C119_boolean_detected (b : Bool) : detect (toString b).toList = "Boolean".toList := by
  cases b <;> decide +kernel

theorem trim_split (t : Text) : ∃ a b, t = a ++ trim t ++ b ∧ (∀ c ∈ a, c.isWhitespace = true) ∧ ∀ c ∈ b, c.isWhitespace = true := by
  refine ⟨t.takeWhile Char.isWhitespace, ((t.dropWhile Char.isWhitespace).reverse.takeWhile Char.isWhitespace).reverse, ?_, fun c hc => mem_takeWhile hc,
    fun c hc => mem_takeWhile (List.mem_reverse.1 hc)⟩
  rw [trim, List.append_assoc, ← List.reverse_append, List.takeWhile_append_dropWhile, List.reverse_reverse, List.takeWhile_append_dropWhile]

theorem detectOne_int {t : Text} (h : detectOne t = "Int".toList) : isI32 (trim t) = true := by
  rw [detectOne] at h
  split at h
  · assumption
  · split at h
    · exact absurd h (by decide +kernel)
    · split at h
      · exact absurd h (by decide +kernel)
      · exact absurd h (by decide +kernel)

/-- C119: what is an `Int` and has no commas is a number that GraphQL can hold, between white space and with a sign. -/
theorem C119_int_sound (t : Text) (h : detect t = "Int".toList) (hc : ',' ∉ t) :
    ∃ a sign ds b, t = a ++ sign ++ ds ++ b ∧ (∀ c ∈ a ++ b, c.isWhitespace = true) ∧ sign ∈ [[], ['-'], ['+']] ∧ ds ≠ [] ∧
      (∀ c ∈ ds, c.isDigit = true) ∧ Nat.ofDigitChars 10 ds 0 < if sign = ['-'] then 2147483649 else 2147483648 := by
  obtain ⟨a, b, e, ha, hb⟩ := trim_split t
  have hct : (trim t).contains ',' = false := by
    cases hm : (trim t).contains ',' with
    | false => rfl
    | true =>
      have : ',' ∈ trim t := by simpa using hm
      exact absurd (by rw [e]; simp [this]) hc
  have hi : isI32 (trim t) = true := by
    rw [detect] at h
    simp only [hct] at h
    rw [if_neg (by simp)] at h
    exact detectOne_int h
  have fin : ∀ (sign ds : Text) (neg : Bool), trim t = sign ++ ds → sign ∈ [[], ['-'], ['+']] → (sign = ['-'] ↔ neg = true) →
      (allDigits ds && decide (natOf ds < if neg then 2147483649 else 2147483648)) = true →
      ∃ a sign ds b, t = a ++ sign ++ ds ++ b ∧ (∀ c ∈ a ++ b, c.isWhitespace = true) ∧ sign ∈ [[], ['-'], ['+']] ∧ ds ≠ [] ∧
        (∀ c ∈ ds, c.isDigit = true) ∧ Nat.ofDigitChars 10 ds 0 < if sign = ['-'] then 2147483649 else 2147483648 := by
    intro sign ds neg h1 h2 h3 h4
    rw [allDigits, Bool.and_eq_true, Bool.and_eq_true, decide_eq_true_eq, natOf_eq] at h4
    obtain ⟨⟨h5, h6⟩, h7⟩ := h4
    refine ⟨a, sign, ds, b, by rw [List.append_assoc a, ← h1]; exact e, fun c hc => ?_, h2, by simpa using h5, fun c hc => ?_, ?_⟩
    · rcases List.mem_append.1 hc with hc | hc
      · exact ha c hc
      · exact hb c hc
    · rw [← isDigit_eq]; exact List.all_eq_true.1 h6 c hc
    · cases neg with
      | true => rw [if_pos (h3.2 rfl)]; exact h7
      | false => rw [if_neg (fun e => by cases h3.1 e)]; exact h7
  rw [isI32] at hi
  cases ht : trim t with
  | nil =>
    rw [ht] at hi
    exact absurd hi (by decide)
  | cons c r =>
    rw [ht] at hi
    by_cases h1 : c = '-'
    · subst h1
      exact fin ['-'] r true ht (by simp) (by simp) hi
    · by_cases h2 : c = '+'
      · subst h2
        exact fin ['+'] r false ht (by simp) (by simp) hi
      · have hu : unsigned (c :: r) = (false, c :: r) := by
          rw [unsigned]
          · rintro r' e'; cases e'; exact h1 rfl
          · rintro r' e'; cases e'; exact h2 rfl
        rw [hu] at hi
        exact fin [] (c :: r) false (by rw [ht]; rfl) (by simp) (by simp) hi

/-! ## What goes wrong -/

/-- The sample can be asked for again: there are arguments of the declared types for which the generated request is the sample. -/
def Again (printed : Text → Prop) (camel : Text → Text) (norm : Text → Option Text) (s : Sample) : Prop :=
  ∃ d, generate camel s = some d ∧ ∃ vals, Typed printed d.args vals ∧
    ∀ ctx, Gives ctx vals → ∃ u, createUrl norm (d.template "GET".toList none) ctx = some u ∧ norm (s.front ++ s.path) = some u.base ∧ u.frag = s.frag ∧
      ∀ k, values u.pairs k = values s.pairs k

/-- Arguments with these values. -/
def ctxOf (vals : List (Text × GVal)) : RCtx :=
  ⟨fun ps => match ps with
    | [_, n] => (Verif.Transform.get vals n).map (.value false)
    | _ => none, fun _ => [], []⟩

theorem gives_ctxOf (vals : List (Text × GVal)) : Gives (ctxOf vals) vals := fun n v h => ⟨false, by
  show (Verif.Transform.get vals n).map _ = _
  rw [get_some.2 h]; rfl⟩

/-- A request without arguments. -/
theorem again_const {printed : Text → Prop} {camel : Text → Text} {s : Sample} {d : Directive} {url : Text} (hd : generate camel s = some d)
    (hq : d.query = []) (hu : parse d.url = [.lit url]) (h : Again printed camel some s) :
    ∃ u, parseUrl some url = some u ∧ u.base = s.front ++ s.path ∧ u.frag = s.frag ∧ ∀ k, values u.pairs k = values s.pairs k := by
  obtain ⟨d', hd', vals, _, h⟩ := h
  rw [hd] at hd'
  cases hd'
  obtain ⟨u, h1, h2, h3, h4⟩ := h (ctxOf vals) (gives_ctxOf vals)
  refine ⟨u, ?_, (Option.some.inj h2).symm, h3, h4⟩
  unfold createUrl at h1
  have hr : (d.template "GET".toList none).root = [.lit url] := hu
  have hq' : (d.template "GET".toList none).query = [] := by rw [Directive.template, hq]; rfl
  rw [hr, hq'] at h1
  have hl : render [.lit url] (ctxOf vals).str = url := by
    simp [render]
  rw [hl] at h1
  cases hp : parseUrl some url with
  | none => rw [hp] at h1; cases h1
  | some w =>
    rw [hp] at h1
    exact h1

/-- C118 is violated: an escaped `/` in the path becomes a `/`. -/
theorem C118_violated_by_escapes (printed : Text → Prop) (camel : Text → Text) : ¬ Again printed camel some ⟨"http://h".toList, "/a%2Fb".toList, none, none⟩ := by
  intro h
  have hd : generate camel ⟨"http://h".toList, "/a%2Fb".toList, none, none⟩ = some ⟨"http://h/a/b".toList, [], []⟩ := by
    have h1 : pathOf "/a%2Fb".toList = ("/a%2Fb".toList, []) := by decide +kernel
    have h2 : decode ("http://h".toList ++ "/a%2Fb".toList ++ hash none) = some "http://h/a/b".toList := by decide +kernel
    rw [generate]
    simp only [h1, h2, Option.map_some]
    rfl
  obtain ⟨u, h1, h2, _, _⟩ := again_const hd rfl (url := "http://h/a/b".toList) (by decide +kernel) h
  have h3 : parseUrl some "http://h/a/b".toList = some ⟨"http://h/a/b".toList, none, none⟩ := by decide +kernel
  rw [h3] at h1
  cases h1
  exact absurd h2 (by decide +kernel)

/-- C118 is violated: an escaped `?` in the path starts a query. -/
theorem C118_violated_by_question_marks (printed : Text → Prop) (camel : Text → Text) :
    ¬ Again printed camel some ⟨"http://h".toList, "/a%3Fb".toList, none, none⟩ := by
  intro h
  have hd : generate camel ⟨"http://h".toList, "/a%3Fb".toList, none, none⟩ = some ⟨"http://h/a?b".toList, [], []⟩ := by
    have h1 : pathOf "/a%3Fb".toList = ("/a%3Fb".toList, []) := by decide +kernel
    have h2 : decode ("http://h".toList ++ "/a%3Fb".toList ++ hash none) = some "http://h/a?b".toList := by decide +kernel
    rw [generate]
    simp only [h1, h2, Option.map_some]
    rfl
  obtain ⟨u, h1, h2, _, _⟩ := again_const hd rfl (url := "http://h/a?b".toList) (by decide +kernel) h
  have h3 : (parseUrl some "http://h/a?b".toList).map (·.base) = some "http://h/a".toList := by decide +kernel
  rw [h1] at h3
  have h3 : u.base = "http://h/a".toList := by simpa using h3
  rw [h3] at h2
  exact absurd h2 (by decide +kernel)

/-- C118 is violated: an escape that is no UTF-8 is a panic. -/
theorem C118_violated_by_bytes (printed : Text → Prop) (camel : Text → Text) (norm : Text → Option Text) :
    ¬ Again printed camel norm ⟨"http://h".toList, "/%FF".toList, none, none⟩ := by
  rintro ⟨d, hd, _⟩
  have h1 : pathOf "/%FF".toList = ("/%FF".toList, []) := by decide +kernel
  have h2 : decode ("http://h".toList ++ "/%FF".toList ++ hash none) = none := by decide +kernel
  rw [generate] at hd
  simp only [h1, h2, Option.map_none] at hd
  cases hd

theorem text_zeros (n : Int) : (toString n).toList ≠ ['0', '0', '7'] := by
  intro h
  rcases int_text n with ⟨m, _, e⟩ | ⟨m, _, e⟩
  · rw [h] at e
    have : natOf ['0', '0', '7'] = m := by rw [e, natOf_digits]
    have hm : m = 7 := by rw [← this]; decide
    rw [hm] at e
    exact absurd e (by decide +kernel)
  · rw [h] at e
    cases e

/-- C118 is violated: no `Int` is written with zeros before it. -/
theorem C118_violated_by_zeros (printed : Text → Prop) (camel : Text → Text) : ¬ Again printed camel some ⟨"http://h".toList, "/007".toList, none, none⟩ := by
  rintro ⟨d, hd, vals, ht, h⟩
  have h1 : pathOf "/007".toList = ("/{{.args.GEN__1}}".toList, [("GEN__1".toList, ⟨"Int".toList, false, true⟩)]) := by decide +kernel
  have h2 : decode ("http://h".toList ++ "/{{.args.GEN__1}}".toList ++ hash none) = some "http://h/{{.args.GEN__1}}".toList := by decide +kernel
  rw [generate] at hd
  simp only [h1, h2, Option.map_some] at hd
  cases hd
  obtain ⟨v, hv, w, hw⟩ := ht "GEN__1".toList ⟨"Int".toList, false, true⟩ (get_some.1 (by
    show Verif.Transform.get [("GEN__1".toList, _)] "GEN__1".toList = _
    simp [Verif.Transform.get]))
  obtain ⟨u, e1, e2, _, _⟩ := h (ctxOf vals) (gives_ctxOf vals)
  have hn : ∃ n : Int, v = .int n := by
    generalize hty : (ArgTy.mk "Int".toList false true).name = ty at hw
    have hty : "Int".toList = ty := hty
    cases hw with
    | int _ _ => exact ⟨_, rfl⟩
    | float _ => exact absurd hty (by decide +kernel)
    | bool => exact absurd hty (by decide +kernel)
    | str => exact absurd hty (by decide +kernel)
  obtain ⟨n, rfl⟩ := hn
  have hp : parse "http://h/{{.args.GEN__1}}".toList = [.lit "http://h/".toList, .expr ["args".toList, "GEN__1".toList]] := by decide +kernel
  have hs : (ctxOf vals).str ["args".toList, "GEN__1".toList] = some (toString n).toList := by
    rw [RCtx.str]
    have : (ctxOf vals).raw ["args".toList, "GEN__1".toList] = some (.value false (.int n)) := by
      show (Verif.Transform.get vals _).map _ = _
      rw [get_some.2 hv]; rfl
    rw [this]
    rfl
  have hr : render [.lit "http://h/".toList, .expr ["args".toList, "GEN__1".toList]] (ctxOf vals).str = "http://h/".toList ++ (toString n).toList := by
    rw [Verif.Mustache.render_lit, Verif.Mustache.render_expr, hs]
    simp [render]
  have hq : ∀ c ∈ "http://h/".toList ++ (toString n).toList, c ≠ '?' ∧ c ≠ '#' := by
    intro c hc
    rcases List.mem_append.1 hc with hc | hc
    · have : ∀ x ∈ "http://h/".toList, x ≠ '?' ∧ x ≠ '#' := by decide +kernel
      exact this c hc
    · have hm : c = '-' ∨ c.isDigit = true := by
        rcases int_text n with ⟨m, _, e⟩ | ⟨m, _, e⟩
        · rw [e] at hc; exact .inr (digit_of_mem hc)
        · rw [e] at hc
          rcases List.mem_cons.1 hc with h | h
          · exact .inl h
          · exact .inr (digit_of_mem h)
      rcases hm with rfl | hm
      · decide
      · constructor <;> (rintro rfl; revert hm; decide)
  have hpu := parseUrl_plain (norm := some) (frag := none) hq rfl
  rw [hash, List.append_nil] at hpu
  have hpu : parseUrl some (render (parse "http://h/{{.args.GEN__1}}".toList) (ctxOf vals).str) = some ⟨"http://h/".toList ++ (toString n).toList, none, none⟩ := by
    rw [hp, hr]
    exact hpu
  have hb := (Verif.HttpUrl.C14_rest_unchanged some (Directive.template ⟨"http://h/{{.args.GEN__1}}".toList, [], _⟩ "GET".toList none) (ctxOf vals) _ u hpu e1).1
  have e2 : "http://h".toList ++ "/007".toList = u.base := Option.some.inj e2
  rw [hb] at e2
  have e3 : "http://h".toList ++ "/007".toList = "http://h/".toList ++ ['0', '0', '7'] := by decide +kernel
  rw [e3] at e2
  exact text_zeros n (List.append_cancel_left e2).symm

theorem int_chars {n : Int} {c : Char} (h : c ∈ (toString n).toList) : c = '-' ∨ c.isDigit = true := by
  rcases int_text n with ⟨m, _, e⟩ | ⟨m, _, e⟩
  · rw [e] at h; exact .inr (digit_of_mem h)
  · rw [e] at h
    rcases List.mem_cons.1 h with h | h
    · exact .inl h
    · exact .inr (digit_of_mem h)

theorem written_int {printed : Text → Prop} {w : Text} {v : GVal} (h : Written printed "Int".toList w v) : ∃ n : Int, v = .int n := by
  generalize hty : "Int".toList = ty at h
  cases h with
  | int _ _ => exact ⟨_, rfl⟩
  | float _ => exact absurd hty (by decide +kernel)
  | bool => exact absurd hty (by decide +kernel)
  | str => exact absurd hty (by decide +kernel)

/-- C118 is violated: values between commas are sent as one parameter each. -/
theorem C118_violated_by_commas (printed : Text → Prop) (camel : Text → Text) (hcam : camel "ids".toList = "ids".toList) (s : Sample)
    (hs : s.front = "http://h".toList ∧ s.path = "/".toList ∧ s.frag = none ∧ s.pairs = [("ids".toList, "1,2".toList)]) :
    ¬ Again printed camel some s := by
  obtain ⟨front, path, query, frag⟩ := s
  obtain ⟨hf, hpa, hfr, hpairs⟩ := hs
  simp only at hf hpa hfr
  subst hf hpa hfr
  rintro ⟨d, hd, vals, ht, h⟩
  have h1 : pathOf "/".toList = ("/".toList, []) := by decide +kernel
  have h2 : decode ("http://h".toList ++ "/".toList ++ hash none) = some "http://h/".toList := by decide +kernel
  have h3 : infos [("ids".toList, "1,2".toList)] = [⟨"ids".toList, "Int".toList, true⟩] := by decide +kernel
  have h4 : placeholder "ids".toList = "{{.args.ids}}".toList := by decide +kernel
  rw [generate] at hd
  simp only [h1, h2, Option.map_some, hpairs, h3, addQuery, hcam, h4] at hd
  cases hd
  obtain ⟨v, hv, hty⟩ := ht "ids".toList ⟨"Int".toList, true, false⟩ (get_some.1 (by
    show Verif.Transform.get (Verif.Transform.insert [] "ids".toList _) "ids".toList = _
    rw [Verif.Transform.get_insert, if_pos rfl]))
  obtain ⟨l, rfl, hl⟩ := hty
  obtain ⟨u, e1, _, _, e4⟩ := h (ctxOf vals) (gives_ctxOf vals)
  have hraw : (ctxOf vals).raw ["args".toList, "ids".toList] = some (.value false (.list l)) := by
    show (Verif.Transform.get vals _).map _ = _
    rw [get_some.2 hv]; rfl
  have hp1 : parse "http://h/".toList = [.lit "http://h/".toList] := by decide +kernel
  have hp2 : parse "{{.args.ids}}".toList = [.expr ["args".toList, "ids".toList]] := by decide +kernel
  have hr : render [.lit "http://h/".toList] (ctxOf vals).str = "http://h/".toList := by simp [render]
  have hpu : parseUrl some "http://h/".toList = some ⟨"http://h/".toList, none, none⟩ := by decide +kernel
  generalize hd : Directive.template _ "GET".toList none = t at e1
  have hroot : t.root = [.lit "http://h/".toList] := by rw [← hd, ← hp1]; rfl
  have hq : t.query = [⟨"ids".toList, [.expr ["args".toList, "ids".toList]], false⟩] := by rw [← hd, ← hp2]; rfl
  have he : t.encoder = .repeatedKey := by rw [← hd]; rfl
  have hp : parseUrl some (render t.root (ctxOf vals).str) = some ⟨"http://h/".toList, none, none⟩ := by rw [hroot, hr, hpu]
  have hspec : Verif.HttpUrl.specParams t.encoder (ctxOf vals) ⟨"ids".toList, [.expr ["args".toList, "ids".toList]], false⟩ =
      ((leaves (.list l)).map scalarText).map (fun w => ("ids".toList, w)) := by
    rw [Verif.HttpUrl.specParams]
    simp only [Verif.HttpUrl.singleValue, hraw, he, Verif.HttpUrl.sentValues]
  have hall : ∀ w ∈ (leaves (.list l)).map scalarText, ∀ c ∈ w, c = '-' ∨ c.isDigit = true := by
    intro w hw c hc
    obtain ⟨x, hx, rfl⟩ := List.mem_map.1 hw
    have hla : ∀ (l : List GVal), (∀ x ∈ l, ∃ w, Written printed "Int".toList w x) → ∀ x ∈ leavesAll l, ∃ n : Int, x = .int n := by
      intro l
      induction l with
      | nil => intro _ x hx; rw [leavesAll] at hx; exact absurd hx List.not_mem_nil
      | cons y l ih =>
        intro h x hx
        rw [leavesAll] at hx
        obtain ⟨w, hw⟩ := h y List.mem_cons_self
        rcases List.mem_append.1 hx with hx | hx
        · rw [(written_text hw).2] at hx
          rw [List.mem_singleton.1 hx]
          exact written_int hw
        · exact ih (fun z hz => h z (List.mem_cons_of_mem _ hz)) x hx
    cases l with
    | nil =>
      rw [leaves] at hx
      · rw [List.mem_singleton.1 hx] at hc
        exact absurd hc List.not_mem_nil
      · intro x xs e; cases e
    | cons y l =>
      rw [leaves, ← leavesAll] at hx
      obtain ⟨n, rfl⟩ := hla (y :: l) hl x hx
      exact int_chars hc
  have hclean : ∀ w ∈ (leaves (.list l)).map scalarText, Verif.HttpUrl.CleanVal w := by
    intro w hw c hc
    rcases hall w hw c hc with rfl | hd
    · decide
    · intro hm
      have : c = '&' ∨ c = '%' ∨ c = '+' ∨ c = '\t' ∨ c = '\n' ∨ c = '\r' := by simpa using hm
      rcases this with rfl | rfl | rfl | rfl | rfl | rfl <;> exact absurd hd (by decide)
  have hx := Verif.HttpUrl.C14_pairs_exact_partial some t (ctxOf vals) _ u hp e1
    (by intro q hq'; rw [hq] at hq'; rw [List.mem_singleton.1 hq']; exact Nat.le_refl _)
    (by
      intro q hq'; rw [hq] at hq'; rw [List.mem_singleton.1 hq']
      have : ∀ c ∈ "ids".toList, c ∉ ['&', '=', '%', '+', '\t', '\n', '\r'] := by decide +kernel
      exact ⟨by simp, this⟩)
    (by
      intro q hq' kv hkv; rw [hq] at hq'; rw [List.mem_singleton.1 hq', hspec] at hkv
      obtain ⟨w, hw, rfl⟩ := List.mem_map.1 hkv
      exact hclean w hw)
    (by intro kv hkv; exact absurd hkv List.not_mem_nil)
  rw [hq, List.flatMap_cons, List.flatMap_nil, List.append_nil, hspec] at hx
  have hk := e4 "ids".toList
  rw [hx, hpairs] at hk
  have hvals : values [("ids".toList, "1,2".toList)] "ids".toList = ["1,2".toList] := by decide +kernel
  rw [hvals] at hk
  have hmem : "1,2".toList ∈ (leaves (.list l)).map scalarText := by
    have : "1,2".toList ∈ ["1,2".toList] := List.mem_cons_self
    rw [← hk] at this
    have := mem_values.1 this
    rcases List.mem_append.1 this with h | h
    · exact absurd h List.not_mem_nil
    · obtain ⟨w, hw, e⟩ := List.mem_map.1 h
      have e : w = "1,2".toList := (Prod.mk.injEq _ _ _ _ ▸ e).2
      rw [← e]; exact hw
  have hc : ',' ∈ "1,2".toList := by decide +kernel
  rcases hall _ hmem _ hc with h | h
  · exact absurd h (by decide)
  · exact absurd h (by decide)

/-- C119 is violated: a number that no `Int` can hold is an `Int`, since the path takes every number. -/
theorem C119_violated_by_large_numbers (printed : Text → Prop) :
    (pathOf "/3000000000".toList).2 = [("GEN__1".toList, ⟨"Int".toList, false, true⟩)] ∧ ¬ ∃ v, Written printed "Int".toList "3000000000".toList v := by
  refine ⟨by decide +kernel, ?_⟩
  rintro ⟨v, hv⟩
  have key : ∀ ty w v, Written printed ty w v → ty = "Int".toList → w = "3000000000".toList → False := by
    intro ty w v h e1 e2
    cases h with
    | @int n l1 l2 =>
      rcases int_text n with ⟨m, e, et⟩ | ⟨m, _, et⟩
      · rw [et] at e2
        have : m = 3000000000 := by rw [← natOf_digits m, e2]; decide +kernel
        omega
      · rw [et] at e2
        have : '-' ∈ "3000000000".toList := by rw [← e2]; exact List.mem_cons_self
        exact absurd this (by decide +kernel)
    | float _ => exact absurd e1 (by decide +kernel)
    | bool => exact absurd e1 (by decide +kernel)
    | str => exact absurd e1 (by decide +kernel)
  exact key _ _ _ hv rfl rfl

/-- C119 is violated: the type of a parameter is that of its first value only. -/
theorem C119_violated_by_mixed_values : infos [("q".toList, "1".toList), ("q".toList, "a".toList)] = [⟨"q".toList, "Int".toList, true⟩] ∧
    detect "a".toList = "String".toList := by decide +kernel

/-- C119 is violated: two parameters share one argument if their names become the same. -/
theorem C119_violated_by_names (camel : Text → Text) (h1 : camel "user_id".toList = "userId".toList) (h2 : camel "userId".toList = "userId".toList) :
    addQuery camel (infos [("user_id".toList, "1".toList), ("userId".toList, "a".toList)]) [] =
      ([("user_id".toList, "{{.args.userId}}".toList), ("userId".toList, "{{.args.userId}}".toList)], [("userId".toList, ⟨"String".toList, false, false⟩)]) := by
  have hi : infos [("user_id".toList, "1".toList), ("userId".toList, "a".toList)] = [⟨"user_id".toList, "Int".toList, false⟩, ⟨"userId".toList, "String".toList, false⟩] := by
    decide +kernel
  have hp : placeholder "userId".toList = "{{.args.userId}}".toList := by decide +kernel
  rw [hi]
  simp only [addQuery, h1, h2, hp]
  refine Prod.ext rfl ?_
  show Verif.Transform.insert (Verif.Transform.insert [] "userId".toList (ArgTy.mk "Int".toList false false)) "userId".toList (ArgTy.mk "String".toList false false) = _
  decide +kernel

/-- C119 is violated: a name with brackets gives an argument that nothing uses; the placeholder stays as it is. -/
theorem C119_violated_by_brackets (camel : Text → Text) (h : camel "ids[]".toList = "ids[]".toList) :
    addQuery camel (infos [("ids[]".toList, "1".toList)]) [] = ([("ids[]".toList, "{{.args.ids[]}}".toList)], [("ids[]".toList, ⟨"Int".toList, false, false⟩)]) ∧
      parse "{{.args.ids[]}}".toList = [.lit "{{.args.ids[]}}".toList] := by
  have hi : infos [("ids[]".toList, "1".toList)] = [⟨"ids[]".toList, "Int".toList, false⟩] := by decide +kernel
  have hp : placeholder "ids[]".toList = "{{.args.ids[]}}".toList := by decide +kernel
  refine ⟨?_, by decide +kernel⟩
  rw [hi]
  simp only [addQuery, h, hp]
  refine Prod.ext rfl ?_
  show Verif.Transform.insert [] "ids[]".toList (ArgTy.mk "Int".toList false false) = _
  decide +kernel

/-- C119 is violated: the first part of a UUID can be taken for a number. -/
theorem C119_violated_by_uuids : pathOf "/12345678-aaaa-bbbb-cccc-ddddeeeeffff".toList =
    ("/{{.args.GEN__1}}-aaaa-bbbb-cccc-ddddeeeeffff".toList, [("GEN__1".toList, ⟨"Int".toList, false, true⟩)]) := by decide +kernel

/-- C119 is violated: a word of letters can be a `Float`. -/
theorem C119_violated_by_words : detect "nan".toList = "Float".toList ∧ detect "Infinity".toList = "Float".toList := by decide +kernel

end Verif.Sample
