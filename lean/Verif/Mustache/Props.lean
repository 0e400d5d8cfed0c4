import Verif.Mustache.Lemmas

/-!
# Properties C11-C13, C57 of Mustache templates
-/

namespace Verif.Mustache

/-! ## C11: print / parse -/

/-- **C11.** For *every* text: printing the parsed template and parsing the result again gives the same
template. -/
theorem C11_reparse_stable (s : Text) : parse (print (parse s)) = parse s := by
  rcases parse_canon_or_whole s with h | h
  · exact parse_print_canon h
  · rw [h]
    have : print [.lit s] = s := by simp [print, printSeg]
    rw [this, h]

/-- A path segment: an ASCII letter followed by ASCII letters, digits and underscores. -/
def GoodName (n : Text) : Prop :=
  ∃ c cs, n = c :: cs ∧ c.isAlpha = true ∧ ∀ x ∈ cs, x.isAlphanum = true ∨ x = '_'

theorem isAlpha_eq (c : Char) : isAlpha c = c.isAlpha := by
  unfold isAlpha Char.isAlpha Char.isUpper Char.isLower
  rw [Bool.or_comm, Bool.decide_and]
  rfl

theorem isWord_eq (c : Char) : isWord c = (c.isAlphanum || c == '_') := by
  unfold isWord Char.isAlphanum Char.isDigit
  rw [isAlpha_eq]
  rfl

theorem validName_iff {n : Text} : ValidName n ↔ GoodName n := by
  simp [ValidName, GoodName, isAlpha_eq, isWord_eq]

/-- The templates C11 talks about: non-empty literals, none of them a lone quote, no `{{` created by
a literal or by a literal running into the next expression, no two literals in a row, valid paths. -/
def WellFormed : Template → Prop
  | [] => True
  | [.lit l] => l ≠ [] ∧ l ≠ ['"'] ∧ ¬ ∃ a b, l = a ++ ['{', '{'] ++ b
  | .expr ps :: t => ps ≠ [] ∧ (∀ p ∈ ps, GoodName p) ∧ WellFormed t
  | .lit l :: .expr ps :: t =>
      l ≠ [] ∧ l ≠ ['"'] ∧ (¬ ∃ a b, l ++ ['{'] = a ++ ['{', '{'] ++ b) ∧ WellFormed (.expr ps :: t)
  | .lit _ :: .lit _ :: _ => False

theorem canon_of_wellFormed : ∀ {t : Template}, WellFormed t → Canon t
  | [], _ => trivial
  | [.lit l], h => by
      obtain ⟨h1, h2, h3⟩ := h
      exact ⟨h1, h2, by simpa [NoOpen] using h3, trivial⟩
  | .expr ps :: t, h => by
      have h : ps ≠ [] ∧ (∀ p ∈ ps, GoodName p) ∧ WellFormed t := by
        cases t <;> simpa [WellFormed] using h
      exact ⟨⟨h.1, fun p hp => validName_iff.mpr (h.2.1 p hp)⟩, canon_of_wellFormed h.2.2⟩
  | .lit l :: .expr ps :: t, h => by
      obtain ⟨h1, h2, h3, h4⟩ := h
      exact ⟨h1, h2, by simpa [NoOpen] using h3, canon_of_wellFormed h4⟩

/-- **C11.** Every well-formed template is recovered from its printed form. -/
theorem C11_parse_print {t : Template} (h : WellFormed t) : parse (print t) = t :=
  parse_print_canon (canon_of_wellFormed h)

/-- **C11**, consequence: printing is injective on well-formed templates, so two templates stored as the same text
render the same. -/
theorem C11_print_injective {t t' : Template} (h : WellFormed t) (h' : WellFormed t') (he : print t = print t') :
    t = t' := by rw [← C11_parse_print h, he, C11_parse_print h']

/-- The restriction on lone quotes is needed: the code drops them (mustache/parse.rs:75). -/
theorem C11_lone_quote_counterexample :
    parse (print [.expr [['a']], .lit ['"'], .expr [['b']]]) = [.expr [['a']], .expr [['b']]] := by decide

example : WellFormed [.lit "/users/".toList, .expr ["args".toList, "user_id".toList], .lit "?q={".toList] := by
  have h : ("?q={".toList) = ['?', 'q', '=', '{'] := by decide
  refine ⟨by decide, by decide, ?_, by decide, ?_, by decide, by decide, ?_⟩
  · rintro ⟨a, b, hab⟩
    have := takeUntil_none (l := "/users/".toList ++ ['{']) |>.mp (by decide)
    exact this ⟨a, b, by simpa using hab⟩
  · intro p hp
    simp only [List.mem_cons, List.not_mem_nil, or_false] at hp
    rcases hp with rfl | rfl
    · exact ⟨'a', ['r', 'g', 's'], by decide, by decide, by decide⟩
    · exact ⟨'u', "ser_id".toList, by decide, by decide, by decide⟩
  · rintro ⟨a, b, hab⟩
    have := takeUntil_none (l := "?q={".toList) |>.mp (by decide)
    exact this ⟨a, b, by simpa using hab⟩

example : parse "{{ args . id }} x".toList = [.expr ["args".toList, "id".toList], .lit " x".toList] := by decide

/-! ## C12: text without expressions -/

/-- The text contains no opening braces. -/
def NoBraces (s : Text) : Prop := ¬ ∃ a b, s = a ++ ['{', '{'] ++ b

theorem parse_noBraces {s : Text} (h : NoBraces s) : parse s = if s = [] ∨ s = ['"'] then [] else [.lit s] := by
  have hn : NoOpen s := by simpa [NoOpen, NoBraces] using h
  have ht := takeUntil_none.mpr hn
  have hx : parseExpr s = none := by
    cases hx : parseExpr s with
    | none => rfl
    | some x =>
      obtain ⟨b, hb⟩ := parseExpr_open hx
      exact absurd ⟨[], b, by simpa using hb⟩ hn
  have hs : segs (s.length + 1) s = some ([], s) := by simp [segs, hx, ht]
  unfold parse parseSegment
  rw [hs]
  simp only
  by_cases h1 : s = []
  · simp [h1]
  · by_cases h2 : s = ['"']
    · subst h2; decide
    · simp [h1, h2, keep]

/-- **C12** is false for the one-character text `"`: it renders as nothing. -/
theorem C12_violated_by_quote : NoBraces ['"'] ∧ ∀ ctx, render (parse ['"']) ctx = [] := by
  refine ⟨?_, fun ctx => by rw [show parse ['"'] = [] by decide]; rfl⟩
  rintro ⟨a, b, hab⟩
  cases a with
  | nil => simp at hab
  | cons x a => simp at hab

/-- **C12** for every other text: a text without `{{` is constant and renders to itself in every context.
Missing: the text `"` (see `C12_violated_by_quote`). -/
theorem C12_plain_text_verbatim_partial {s : Text} (h : NoBraces s) (hq : s ≠ ['"']) (ctx : Ctx) :
    isConst (parse s) = true ∧ render (parse s) ctx = s := by
  rw [parse_noBraces h]
  by_cases h1 : s = []
  · simp [h1, isConst, render]
  · simp [h1, hq, isConst, render]

/-- **C12**, meaning of "constant": a template is classified constant exactly when its
rendering is the same in all contexts. -/
theorem C12_isConst_iff (t : Template) : isConst t = true ↔ ∀ ctx ctx', render t ctx = render t ctx' := by
  constructor
  · intro h ctx ctx'
    induction t with
    | nil => rfl
    | cons s t ih =>
      cases s with
      | expr ps => simp [isConst] at h
      | lit l => rw [render_lit, render_lit, ih h]
  · intro h
    cases hc : isConst t with
    | true => rfl
    | false =>
      exfalso
      have hlen : ∀ t : Template, (render t (fun _ => none)).length ≤ (render t (fun _ => some ['x'])).length := by
        intro t
        induction t with
        | nil => exact Nat.le_refl _
        | cons s t ih =>
          cases s with
          | lit l => simp only [render_lit, List.length_append]; omega
          | expr ps => simp only [render_expr, List.length_append, Option.getD]; simp; omega
      have hlt : ∀ t : Template, isConst t = false →
          (render t (fun _ => none)).length < (render t (fun _ => some ['x'])).length := by
        intro t
        induction t with
        | nil => intro h; simp [isConst] at h
        | cons s t ih =>
          intro h
          cases s with
          | lit l => have := ih h; simp only [render_lit, List.length_append]; omega
          | expr ps => have := hlen t; simp only [render_expr, List.length_append, Option.getD]; simp; omega
      have := hlt t hc
      rw [h (fun _ => none) (fun _ => some ['x'])] at this
      omega

example : NoBraces "a { b }} \"c\"".toList ∧ "a { b }} \"c\"".toList ≠ ['"'] := by
  refine ⟨?_, by decide⟩
  rintro ⟨a, b, hab⟩
  have := takeUntil_none (l := "a { b }} \"c\"".toList) |>.mp (by decide)
  exact this ⟨a, b, by simpa using hab⟩

/-! ## C13: rendering -/

/-- What rendering means, piece by piece; `miss` says what replaces a missing value. -/
inductive Renders (ctx : Ctx) (miss : List Text → Text) : Template → Text → Prop
  | done : Renders ctx miss [] []
  | literal {l t out} : Renders ctx miss t out → Renders ctx miss (.lit l :: t) (l ++ out)
  | value {ps v t out} : ctx ps = some v → Renders ctx miss t out → Renders ctx miss (.expr ps :: t) (v ++ out)
  | missing {ps t out} : ctx ps = none → Renders ctx miss t out → Renders ctx miss (.expr ps :: t) (miss ps ++ out)

/-- **C13.** `render` produces exactly the piecewise rendering with missing values empty: the looked-up
text `v` is inserted as is, whatever characters it contains. -/
theorem C13_render (t : Template) (ctx : Ctx) (out : Text) : Renders ctx (fun _ => []) t out ↔ render t ctx = out := by
  constructor
  · intro h
    induction h with
    | done => rfl
    | literal _ ih => rw [render_lit, ih]
    | value hv _ ih => rw [render_expr, hv, ih]; rfl
    | missing hv _ ih => rw [render_expr, hv, ih]; rfl
  · rintro rfl
    induction t with
    | nil => exact .done
    | cons s t ih =>
      cases s with
      | lit l => exact .literal ih
      | expr ps =>
        rw [render_expr]
        cases hv : ctx ps with
        | none => exact .missing hv ih
        | some v => exact .value hv ih

theorem renderPartial_lit (l : Text) (t : Template) (ctx : Ctx) :
    renderPartial (.lit l :: t) ctx = l ++ renderPartial t ctx := rfl
theorem renderPartial_expr (ps : List Text) (t : Template) (ctx : Ctx) :
    renderPartial (.expr ps :: t) ctx = (ctx ps).getD (print [.expr ps]) ++ renderPartial t ctx := rfl

/-- **C13.** Partial mode keeps the expression text `{{.a.b}}` for missing values. -/
theorem C13_render_partial_mode (t : Template) (ctx : Ctx) (out : Text) :
    Renders ctx (fun ps => ['{', '{', '.'] ++ ['.'].intercalate ps ++ ['}', '}']) t out ↔ renderPartial t ctx = out := by
  have hp : ∀ ps : List Text, print [.expr ps] = ['{', '{', '.'] ++ ['.'].intercalate ps ++ ['}', '}'] := by
    intro ps
    have hj : joinDots ps = ['.'].intercalate ps := by
      induction ps with
      | nil => rfl
      | cons p ps ih =>
        cases ps with
        | nil => simp [joinDots, List.intercalate]
        | cons q qs =>
          rw [joinDots, ih]
          · simp [List.intercalate, List.intersperse]
          · simp
    simp [print, printSeg, hj]
  constructor
  · intro h
    induction h with
    | done => rfl
    | literal _ ih => rw [renderPartial_lit, ih]
    | value hv _ ih => rw [renderPartial_expr, hv, ih]; rfl
    | missing hv _ ih => rw [renderPartial_expr, hv, ih]; simp only [Option.getD]; rw [hp]
  · rintro rfl
    induction t with
    | nil => exact .done
    | cons s t ih =>
      cases s with
      | lit l => exact .literal ih
      | expr ps =>
        rw [renderPartial_expr]
        cases hv : ctx ps with
        | none =>
          simp only [Option.getD]; rw [hp]
          exact .missing hv ih
        | some v => exact .value hv ih

/-- **C13.** Both modes agree when nothing is missing. -/
theorem C13_modes_agree (t : Template) (ctx : Ctx) (h : ∀ ps, .expr ps ∈ t → ctx ps ≠ none) :
    renderPartial t ctx = render t ctx := by
  induction t with
  | nil => rfl
  | cons s t ih =>
    have ih := ih (fun ps hp => h ps (by simp [hp]))
    cases s with
    | lit l => rw [renderPartial_lit, render_lit, ih]
    | expr ps =>
      rw [renderPartial_expr, render_expr, ih]
      cases hv : ctx ps with
      | none => exact absurd hv (h ps (by simp))
      | some v => rfl

example : render (parse "{{.a}}-{{.b}}".toList) (fun ps => if ps = [['a']] then some "{{.b}}".toList else none)
    = "{{.b}}-".toList := by decide

/-! ## C57: substituting configuration variables first does not change later rendering -/

/-- **C57** is false in general: a configuration value that itself contains `{{…}}` is
re-interpreted when the rendered text is parsed again (resource_reader.rs:24-26 renders the whole
configuration text and hands it to the parser). -/
theorem C57_violated_by_braces_in_value :
    ∃ (s : Text) (c1 c2 : Ctx), render (parse (renderPartial (parse s) c1)) c2 ≠
      render (parse s) (fun p => (c1 p).or (c2 p)) :=
  ⟨"{{.a}}".toList, fun p => if p = [['a']] then some "{{.b}}".toList else none,
   fun p => if p = [['b']] then some ['!'] else none, by decide⟩

/-- **C57** when neither the text nor the substituted values contain `{` or `"` outside
expressions: rendering configuration values first (partial mode), re-parsing, and rendering the rest later
gives the same text as rendering everything at once.  Missing: values with braces or quotes
(`C57_violated_by_braces_in_value`). -/
theorem C57_two_stage_partial (t : Template) (c1 c2 : Ctx)
    (hl : ∀ l, .lit l ∈ t → Plain l) (he' : ∀ ps, .expr ps ∈ t → ps ≠ [] ∧ ∀ p ∈ ps, GoodName p)
    (hv : ∀ ps v, c1 ps = some v → Plain v) :
    render (parse (renderPartial t c1)) c2 = render t (fun p => (c1 p).or (c2 p)) := by
  have he : ∀ ps, .expr ps ∈ t → ValidPath ps :=
    fun ps h => ⟨(he' ps h).1, fun p hp => validName_iff.mpr ((he' ps h).2 p hp)⟩
  let sub : Seg → Seg := fun s => match s with
    | .lit l => .lit l
    | .expr ps => match c1 ps with
      | some v => .lit v
      | none => .expr ps
  have h1 : renderPartial t c1 = print (t.map sub) := by
    clear hl he he'
    induction t with
    | nil => rfl
    | cons s t ih =>
      rw [List.map_cons, print_cons, ← ih]
      cases s with
      | lit l => rfl
      | expr ps =>
        rw [renderPartial_expr]
        cases h : c1 ps with
        | none => simp [sub, h, print]
        | some v => simp [sub, h, printSeg]
  have h2 : render (t.map sub) c2 = render t (fun p => (c1 p).or (c2 p)) := by
    clear hl he he' h1
    induction t with
    | nil => rfl
    | cons s t ih =>
      rw [List.map_cons]
      cases s with
      | lit l => rw [render_lit l t, ← ih]; rfl
      | expr ps =>
        rw [render_expr ps t, ← ih]
        cases h : c1 ps with
        | none => simp only [sub, h, render_expr]; rfl
        | some v => simp only [sub, h, render_lit]; rfl
  have h3 := merge_canon (t := t.map sub) (by
    intro l hmem
    obtain ⟨s, hs, hsub⟩ := List.mem_map.mp hmem
    cases s with
    | lit l' => simp [sub] at hsub; subst hsub; exact hl _ hs
    | expr ps =>
      simp only [sub] at hsub
      split at hsub
      · rename_i v hv'; cases hsub; exact hv _ _ hv'
      · cases hsub) (by
    intro ps hmem
    obtain ⟨s, hs, hsub⟩ := List.mem_map.mp hmem
    cases s with
    | lit l' => simp [sub] at hsub
    | expr ps' =>
      simp only [sub] at hsub
      split at hsub
      · cases hsub
      · cases hsub; exact he _ hs)
  rw [h1, ← print_merge, parse_print_canon h3.1, render_merge, h2]

example : render (parse (renderPartial (parse "{{.env.URL}}/u/{{.args.id}}".toList)
      (fun p => if p = ["env".toList, "URL".toList] then some "http://x".toList else none)))
      (fun p => if p = ["args".toList, "id".toList] then some "7".toList else none) = "http://x/u/7".toList := by decide

example : (∀ l, .lit l ∈ parse "{{.env.URL}}/u/{{.args.id}}".toList → Plain l) := by
  rw [show parse "{{.env.URL}}/u/{{.args.id}}".toList =
    [.expr ["env".toList, "URL".toList], .lit "/u/".toList, .expr ["args".toList, "id".toList]] by decide]
  simp [Plain]

end Verif.Mustache
