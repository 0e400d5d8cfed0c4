import Verif.Mustache.Model

/-! Helper lemmas for the Mustache parser. -/

namespace Verif.Mustache

/-- A path segment as accepted between the dots: a letter followed by word characters. -/
def ValidName (n : Text) : Prop := ∃ c cs, n = c :: cs ∧ isAlpha c = true ∧ ∀ x ∈ cs, isWord x = true

/-- The text does not contain `{{`. -/
def NoOpen (l : Text) : Prop := ¬ ∃ a b, l = a ++ '{' :: '{' :: b

theorem takeUntil_none {l : Text} : takeUntil l = none ↔ NoOpen l := by
  induction l with
  | nil => simp [takeUntil, NoOpen]
  | cons c l ih =>
    unfold takeUntil
    split
    · simp only [reduceCtorEq, false_iff, NoOpen]
      rename_i i h
      exact fun hn => hn ⟨[], i, by simp [h]⟩
    · rename_i c' i hne h
      cases h
      simp only [Option.map_eq_none_iff, ih, NoOpen]
      constructor
      · rintro h ⟨a, b, hab⟩
        cases a with
        | nil => simp at hab; exact hne b hab.1 hab.2
        | cons x a => simp at hab; exact h ⟨a, b, hab.2⟩
      · rintro h ⟨a, b, hab⟩
        exact h ⟨c :: a, b, by simp [hab]⟩
    · rename_i h; cases h

/-- What `take_until` returns: the text before the first occurrence. -/
theorem takeUntil_some {l a r : Text} : takeUntil l = some (a, r) ↔
    l = a ++ r ∧ (∃ b, r = '{' :: '{' :: b) ∧ NoOpen (a ++ ['{']) := by
  induction l generalizing a with
  | nil =>
    simp only [takeUntil, reduceCtorEq, false_iff]
    rintro ⟨h, ⟨b, rfl⟩, _⟩
    cases a <;> simp at h
  | cons c l ih =>
    unfold takeUntil
    split
    · rename_i i h
      injection h with h1 h2
      subst h1; subst h2
      constructor
      · intro h
        simp only [Option.some.injEq, Prod.mk.injEq] at h
        obtain ⟨rfl, rfl⟩ := h
        refine ⟨rfl, ⟨i, rfl⟩, ?_⟩
        rintro ⟨a, b, hab⟩
        cases a with
        | nil => simp at hab
        | cons x a => simp at hab
      · rintro ⟨h1, ⟨b, rfl⟩, h3⟩
        cases a with
        | nil => simpa using h1
        | cons x a =>
          exfalso
          cases a with
          | nil =>
            simp at h1
            apply h3
            exact ⟨[], [], by simp [← h1.1]⟩
          | cons y a =>
            simp at h1
            apply h3
            exact ⟨[], a ++ ['{'], by simp [← h1.1, ← h1.2.1]⟩
    · rename_i c' i hne h
      cases h
      constructor
      · intro h
        obtain ⟨⟨a', r'⟩, h1, h2⟩ := Option.map_eq_some_iff.mp h
        simp only [Prod.mk.injEq] at h2
        obtain ⟨rfl, rfl⟩ := h2
        obtain ⟨h3, ⟨b, rfl⟩, h5⟩ := ih.mp h1
        refine ⟨by simp [h3], ⟨b, rfl⟩, ?_⟩
        rintro ⟨x, y, hxy⟩
        cases x with
        | nil =>
          simp at hxy
          obtain ⟨rfl, hxy⟩ := hxy
          cases a' with
          | nil =>
            simp at hxy
            exact hne ('{' :: b) rfl (by simp [h3])
          | cons z a' =>
            simp at hxy
            obtain ⟨rfl, hxy⟩ := hxy
            exact hne _ rfl h3
        | cons x0 x => simp at hxy; exact h5 ⟨x, y, hxy.2⟩
      · rintro ⟨h1, ⟨b, rfl⟩, h3⟩
        cases a with
        | nil =>
          simp at h1
          exact absurd h1.2 (hne b h1.1)
        | cons x a =>
          simp at h1
          obtain ⟨rfl, h1⟩ := h1
          have : takeUntil l = some (a, '{' :: '{' :: b) := by
            apply ih.mpr
            refine ⟨h1, ⟨b, rfl⟩, ?_⟩
            rintro ⟨p, q, hpq⟩
            exact h3 ⟨c :: p, q, by simp [hpq]⟩
          simp [this]
    · rename_i h; cases h

/-! ### names -/

theorem not_space_of_word {c : Char} (h : isWord c = true) : isSpace c = false := by
  unfold isSpace isWord isAlpha at *
  cases hc : (c == ' ' || c == '\t' || c == '\r' || c == '\n') with
  | false => rfl
  | true =>
    simp only [Bool.or_eq_true, beq_iff_eq] at hc
    rcases hc with ((rfl | rfl) | rfl) | rfl <;> revert h <;> decide

theorem word_of_alpha {c : Char} (h : isAlpha c = true) : isWord c = true := by simp [isWord, h]

theorem takeWhile_append_all {p : Char → Bool} {a b : Text} (ha : ∀ x ∈ a, p x = true) :
    (a ++ b).takeWhile p = a ++ b.takeWhile p := by
  induction a with
  | nil => rfl
  | cons x a ih =>
    have hx := ha x (by simp)
    simp [hx, ih (fun y hy => ha y (by simp [hy]))]

theorem dropWhile_append_all {p : Char → Bool} {a b : Text} (ha : ∀ x ∈ a, p x = true) :
    (a ++ b).dropWhile p = b.dropWhile p := by
  induction a with
  | nil => rfl
  | cons x a ih =>
    have hx := ha x (by simp)
    simp [hx, ih (fun y hy => ha y (by simp [hy]))]

theorem word_split {p q : Char → Bool} (hpq : ∀ c, p c = true → q c = true) (l : Text) :
    l.takeWhile p ++ (l.dropWhile p).takeWhile q = l.takeWhile q ∧ (l.dropWhile p).dropWhile q = l.dropWhile q := by
  induction l with
  | nil => simp
  | cons c l ih =>
    by_cases hp : p c = true
    · have hq := hpq c hp
      simp [hp, hq, ih.1, ih.2]
    · simp [hp]

/-- A delimiter: neither a word character nor a space (`.` and `}` are). -/
def Delim (r : Text) : Prop := ∃ c cs, r = c :: cs ∧ isWord c = false ∧ isSpace c = false

theorem parseName_valid {n r : Text} (hn : ValidName n) (hr : Delim r) : parseName (n ++ r) = some (n, r) := by
  obtain ⟨c, cs, rfl, hc, hcs⟩ := hn
  obtain ⟨d, ds, rfl, hd1, hd2⟩ := hr
  have hcw := word_of_alpha hc
  have h1 : ((c :: cs) ++ d :: ds).dropWhile isSpace = (c :: cs) ++ d :: ds := by
    simp [not_space_of_word hcw]
  have hall : ∀ x ∈ c :: cs, isWord x = true := by
    intro x hx
    rcases List.mem_cons.mp hx with rfl | hx
    · exact hcw
    · exact hcs x hx
  have h2 := word_split (p := isAlpha) (q := isWord) (fun c h => word_of_alpha h) ((c :: cs) ++ d :: ds)
  have h3 : ((c :: cs) ++ d :: ds).takeWhile isWord = c :: cs := by
    rw [takeWhile_append_all hall]; simp [hd1]
  have h4 : ((c :: cs) ++ d :: ds).dropWhile isWord = d :: ds := by
    rw [dropWhile_append_all hall]; simp [hd1]
  unfold parseName
  simp only [h1]
  have h5 : (((c :: cs) ++ d :: ds).takeWhile isAlpha).isEmpty = false := by simp [hc]
  simp only [h5, Bool.false_eq_true, if_false]
  rw [h2.1, h2.2, h3, h4]
  simp [hd2]

theorem all_takeWhile {p : Char → Bool} {l : Text} : ∀ x ∈ l.takeWhile p, p x = true := by
  induction l with
  | nil => simp
  | cons c l ih =>
    by_cases hp : p c = true
    · simp [hp]; simpa using ih
    · simp [hp]

theorem length_dropWhile_le (p : Char → Bool) (l : Text) : (l.dropWhile p).length ≤ l.length :=
  (List.dropWhile_sublist p).length_le

theorem parseName_sound {i n r : Text} (h : parseName i = some (n, r)) : ValidName n ∧ r.length < i.length := by
  unfold parseName at h
  simp only at h
  split at h
  · cases h
  · rename_i he
    simp only [Option.some.injEq, Prod.mk.injEq] at h
    obtain ⟨rfl, rfl⟩ := h
    cases hd : i.dropWhile isSpace with
    | nil => simp [hd] at he
    | cons c cs =>
      rw [hd] at he
      have hc : isAlpha c = true := by
        cases hc : isAlpha c with
        | true => rfl
        | false => simp [hc] at he
      constructor
      · refine ⟨c, cs.takeWhile isAlpha ++ (cs.dropWhile isAlpha).takeWhile isWord, by simp [hc], hc, ?_⟩
        intro x hx
        rcases List.mem_append.mp hx with hx | hx
        · exact word_of_alpha (all_takeWhile x hx)
        · exact all_takeWhile x hx
      · have h1 := length_dropWhile_le isSpace i
        have h2 := length_dropWhile_le isSpace ((List.dropWhile isAlpha (c :: cs)).dropWhile isWord)
        have h3 := length_dropWhile_le isWord (List.dropWhile isAlpha (c :: cs))
        have h4 : (List.dropWhile isAlpha (c :: cs)).length ≤ cs.length := by
          simp [hc]; exact length_dropWhile_le _ _
        rw [hd] at h1
        simp only [List.length_cons] at h1
        omega

/-- `separated_list1` never runs out of fuel. -/
theorem names_fuel : ∀ (n m : Nat) (i : Text), i.length ≤ n → i.length ≤ m → parseNames n i = parseNames m i := by
  intro n
  induction n with
  | zero =>
    intro m i h _
    have : i = [] := by simpa using h
    subst this
    cases m <;> simp [parseNames]
  | succ n ih =>
    intro m i hn hm
    cases m with
    | zero =>
      have : i = [] := by simpa using hm
      subst this; simp [parseNames]
    | succ m =>
      unfold parseNames
      split
      · rename_i i1
        split
        · rename_i nm i2 h
          have hl := (parseName_sound h).2
          simp only [List.length_cons] at hn hm
          rw [ih m i2 (by omega) (by omega)]
        · rfl
      · rfl

theorem parseNames_length (n : Nat) (i : Text) : (parseNames n i).2.length ≤ i.length := by
  induction n generalizing i with
  | zero => simp [parseNames]
  | succ n ih =>
    unfold parseNames
    split
    · rename_i i1
      split
      · rename_i nm i2 h
        have hl := (parseName_sound h).2
        have := ih i2
        simp only [List.length_cons]; omega
      · exact Nat.le_refl _
    · exact Nat.le_refl _

theorem parseNames_valid (n : Nat) (i : Text) : ∀ x ∈ (parseNames n i).1, ValidName x := by
  induction n generalizing i with
  | zero => simp [parseNames]
  | succ n ih =>
    unfold parseNames
    split
    · split
      · rename_i nm i2 h
        simp only [List.mem_cons]
        rintro x (rfl | hx)
        · exact (parseName_sound h).1
        · exact ih i2 x hx
      · simp
    · simp

/-- A path as accepted inside `{{ }}`. -/
def ValidPath (ps : List Text) : Prop := ps ≠ [] ∧ ∀ p ∈ ps, ValidName p

theorem delim_dot (r : Text) : Delim ('.' :: r) := ⟨'.', r, rfl, by decide, by decide⟩
theorem delim_close (r : Text) : Delim ('}' :: r) := ⟨'}', r, rfl, by decide, by decide⟩

theorem parseNames_join {ps : List Text} (r : Text) (hps : ∀ p ∈ ps, ValidName p) :
    ∀ n, ps.length ≤ n → parseNames n (ps.flatMap (fun p => '.' :: p) ++ '}' :: r) = (ps, '}' :: r) := by
  induction ps with
  | nil => intro n _; cases n <;> simp [parseNames]
  | cons p ps ih =>
    intro n hn
    cases n with
    | zero => simp at hn
    | succ n =>
      have hd : Delim (ps.flatMap (fun p => '.' :: p) ++ '}' :: r) := by
        cases ps with
        | nil => exact delim_close r
        | cons q qs => exact delim_dot _
      have h1 := parseName_valid (hps p (by simp)) hd
      have h2 := ih (fun q hq => hps q (by simp [hq])) n (by simpa using hn)
      simp only [List.flatMap_cons, List.append_assoc, List.cons_append, parseNames]
      rw [h1]
      simp only [h2]

theorem joinDots_cons (p : Text) (ps : List Text) : joinDots (p :: ps) = p ++ ps.flatMap (fun p => '.' :: p) := by
  induction ps generalizing p with
  | nil => simp [joinDots]
  | cons q qs ih => simp [joinDots, ih q]

theorem length_flatMap_dot (ps : List Text) : ps.length ≤ (ps.flatMap (fun p => '.' :: p)).length := by
  induction ps with
  | nil => simp
  | cons p ps ih => simp only [List.flatMap_cons, List.length_append, List.length_cons]; omega

/-- Parsing a printed expression. -/
theorem parseExpr_print {ps : List Text} (h : ValidPath ps) (r : Text) :
    parseExpr (printSeg (.expr ps) ++ r) = some (ps, r) := by
  obtain ⟨hne, hv⟩ := h
  cases ps with
  | nil => exact absurd rfl hne
  | cons p ps =>
    have hd : Delim (ps.flatMap (fun p => '.' :: p) ++ '}' :: '}' :: r) := by
      cases ps with
      | nil => exact delim_close _
      | cons q qs => exact delim_dot _
    have h1 := parseName_valid (hv p (by simp)) hd
    have h2 : printSeg (.expr (p :: ps)) ++ r =
        '{' :: '{' :: '.' :: (p ++ (ps.flatMap (fun p => '.' :: p) ++ '}' :: '}' :: r)) := by
      simp [printSeg, joinDots_cons]
    rw [h2]
    simp only [parseExpr, optDot, h1]
    have hl : ps.length ≤ (ps.flatMap (fun p => '.' :: p) ++ '}' :: '}' :: r).length := by
      have := length_flatMap_dot ps
      rw [List.length_append]; omega
    rw [parseNames_join ('}' :: r) (fun q hq => hv q (by simp [hq])) _ hl]
    rfl

theorem parseExpr_sound {i r : Text} {ps : List Text} (h : parseExpr i = some (ps, r)) :
    ValidPath ps ∧ r.length < i.length := by
  unfold parseExpr at h
  split at h
  · rename_i i0
    split at h
    · rename_i n i1 h1
      split at h
      · rename_i ns r' h2
        simp only [Option.some.injEq, Prod.mk.injEq] at h
        obtain ⟨rfl, rfl⟩ := h
        have h3 := parseName_sound h1
        refine ⟨⟨by simp, ?_⟩, ?_⟩
        · intro p hp
          rcases List.mem_cons.mp hp with rfl | hp
          · exact h3.1
          · have := parseNames_valid i1.length i1
            rw [h2] at this; exact this p hp
        · have h4 := parseNames_length i1.length i1
          rw [h2] at h4
          simp only [List.length_cons] at h4 ⊢
          have h5 : (optDot i0).length ≤ i0.length := by
            unfold optDot; split <;> simp
          omega
      · cases h
    · cases h
  · cases h

theorem parseExpr_open {i : Text} {x : List Text × Text} (h : parseExpr i = some x) : ∃ b, i = '{' :: '{' :: b := by
  unfold parseExpr at h
  split at h
  · exact ⟨_, rfl⟩
  · cases h

/-- `many0` never runs out of fuel. -/
theorem segs_fuel : ∀ (n m : Nat) (i : Text), i.length < n → i.length < m → segs n i = segs m i := by
  intro n
  induction n with
  | zero => intro m i h; omega
  | succ n ih =>
    intro m i hn hm
    cases m with
    | zero => omega
    | succ m =>
      unfold segs
      split
      · rename_i p r h
        have := (parseExpr_sound h).2
        rw [ih m r (by omega) (by omega)]
      · split
        · rfl
        · rfl
        · rename_i c l r h
          have := (takeUntil_some.mp h).1
          have hl : i.length = (c :: l).length + r.length := by rw [this]; simp; omega
          simp only [List.length_cons] at hl
          rw [ih m r (by omega) (by omega)]

/-- Templates in canonical form. -/
def Canon : Template → Prop
  | [] => True
  | .expr ps :: t => ValidPath ps ∧ Canon t
  | .lit l :: t => l ≠ [] ∧ l ≠ ['"'] ∧
      (match t with
       | [] => NoOpen l
       | .expr _ :: _ => NoOpen (l ++ ['{'])
       | .lit _ :: _ => False) ∧ Canon t

/-- Output of `many0` together with the remaining input. -/
def Shape : Template → Text → Prop
  | [], r => NoOpen r
  | .expr ps :: t, r => ValidPath ps ∧ Shape t r
  | .lit l :: t, r => l ≠ [] ∧ NoOpen (l ++ ['{']) ∧ (∃ ps t', t = .expr ps :: t') ∧ Shape t r

theorem segs_shape : ∀ (n : Nat) (i : Text) (t : Template) (r : Text), segs n i = some (t, r) →
    Shape t r ∧ ((∃ b, i = '{' :: '{' :: b) → ∃ ps t', t = .expr ps :: t') := by
  intro n
  induction n with
  | zero => intro i t r h; simp [segs] at h
  | succ n ih =>
    intro i t r h
    unfold segs at h
    split at h
    · rename_i p r0 hp
      obtain ⟨⟨t', r'⟩, h1, h2⟩ := Option.map_eq_some_iff.mp h
      simp only [Prod.mk.injEq] at h2
      obtain ⟨rfl, rfl⟩ := h2
      exact ⟨⟨(parseExpr_sound hp).1, (ih _ _ _ h1).1⟩, fun _ => ⟨_, _, rfl⟩⟩
    · split at h
      · rename_i ht
        simp only [Option.some.injEq, Prod.mk.injEq] at h
        obtain ⟨rfl, rfl⟩ := h
        refine ⟨takeUntil_none.mp ht, ?_⟩
        rintro ⟨b, rfl⟩
        simp [takeUntil] at ht
      · cases h
      · rename_i c l r0 ht
        obtain ⟨⟨t', r'⟩, h1, h2⟩ := Option.map_eq_some_iff.mp h
        simp only [Prod.mk.injEq] at h2
        obtain ⟨rfl, rfl⟩ := h2
        obtain ⟨h3, h4, h5⟩ := takeUntil_some.mp ht
        refine ⟨⟨by simp, h5, (ih _ _ _ h1).2 h4, (ih _ _ _ h1).1⟩, ?_⟩
        rintro ⟨b, rfl⟩
        simp [takeUntil] at ht

theorem canon_of_shape {t : Template} {r : Text} (h : Shape t r) :
    Canon ((if r.isEmpty then t else t ++ [.lit r]).filter keep) := by
  have key : ∀ t, Shape t r → Canon ((t ++ (if r.isEmpty then [] else [Seg.lit r])).filter keep) ∧
      ((∃ ps t', t = .expr ps :: t') → ∃ ps t', (t ++ (if r.isEmpty then [] else [Seg.lit r])).filter keep = .expr ps :: t') := by
    intro t
    induction t with
    | nil =>
      intro h
      refine ⟨?_, by rintro ⟨_, _, h⟩; cases h⟩
      cases hr : r with
      | nil => simp [Canon]
      | cons c cs =>
        simp only [List.isEmpty_cons, Bool.false_eq_true, if_false, List.nil_append]
        by_cases hq : (c :: cs) = ['"']
        · rw [hq]; simp [keep, Canon]
        · have : keep (.lit (c :: cs)) = true := by
            simp only [keep, List.isEmpty_cons, Bool.not_false, Bool.true_and, bne_iff_ne, ne_eq]; exact hq
          rw [List.filter_cons, if_pos this]
          simp only [List.filter_nil, Canon, and_true]
          refine ⟨by simp, hq, ?_⟩
          rw [← hr]; exact h
    | cons s t ih =>
      intro h
      cases s with
      | expr ps =>
        obtain ⟨h1, h2⟩ := h
        simp only [List.cons_append, List.filter_cons]
        simp only [keep, if_true]
        exact ⟨⟨h1, (ih h2).1⟩, fun _ => ⟨_, _, rfl⟩⟩
      | lit l =>
        obtain ⟨h1, h2, h3, h4⟩ := h
        obtain ⟨i1, i2⟩ := ih h4
        obtain ⟨ps, t', hf⟩ := i2 h3
        refine ⟨?_, by rintro ⟨_, _, h⟩; cases h⟩
        simp only [List.cons_append, List.filter_cons]
        split
        · rename_i hk
          simp only [keep, Bool.and_eq_true, bne_iff_ne, ne_eq] at hk
          rw [hf] at i1 ⊢
          exact ⟨h1, hk.2, h2, i1⟩
        · exact i1
  have := (key t h).1
  cases hr : r.isEmpty <;> simpa [hr] using this

theorem keep_canon {t : Template} (h : Canon t) : t.filter keep = t := by
  induction t with
  | nil => rfl
  | cons s t ih =>
    cases s with
    | expr ps =>
      have : keep (.expr ps) = true := rfl
      rw [List.filter_cons, if_pos this, ih h.2]
    | lit l =>
      obtain ⟨h1, h2, _, h4⟩ := h
      have : keep (.lit l) = true := by simp [keep, h1, h2]
      rw [List.filter_cons, if_pos this, ih h4]

/-- `many0` on a printed canonical template. -/
theorem segs_print {t : Template} (h : Canon t) : ∀ n, (print t).length < n →
    ∃ ss r, segs n (print t) = some (ss, r) ∧ (if r.isEmpty then ss else ss ++ [.lit r]) = t := by
  induction t with
  | nil =>
    intro n hn
    cases n with
    | zero => simp [print] at hn
    | succ n => exact ⟨[], [], by simp [print, segs, parseExpr, takeUntil], by simp⟩
  | cons s t ih =>
    intro n hn
    cases n with
    | zero => simp at hn
    | succ n =>
      cases s with
      | expr ps =>
        obtain ⟨h1, h2⟩ := h
        have hp : print (.expr ps :: t) = printSeg (.expr ps) ++ print t := by simp [print]
        have hx := parseExpr_print h1 (print t)
        have hl : (print t).length < n := by
          have := (parseExpr_sound hx).2
          rw [hp] at hn; omega
        obtain ⟨ss, r, h3, h4⟩ := ih h2 n hl
        refine ⟨.expr ps :: ss, r, ?_, ?_⟩
        · rw [hp]; unfold segs; rw [hx]; simp [h3]
        · cases hr : r.isEmpty <;> simp [hr] at h4 ⊢ <;> exact h4
      | lit l =>
        obtain ⟨h1, h2, h3, h4⟩ := h
        have hp : print (.lit l :: t) = l ++ print t := by simp [print, printSeg]
        -- no expression at the front
        have hnoexpr : ∀ u, NoOpen (l ++ u) → (∀ b, u ++ b = print t → parseExpr (l ++ print t) = none) := by
          intro u hu b hb
          cases hx : parseExpr (l ++ print t) with
          | none => rfl
          | some x =>
            exfalso
            obtain ⟨b', hb'⟩ := parseExpr_open hx
            cases l with
            | nil => exact h1 rfl
            | cons c l =>
              cases l with
              | nil =>
                simp only [List.cons_append, List.nil_append, List.cons.injEq] at hb'
                cases u with
                | nil => 
                  -- the literal is a single '{' and nothing follows it
                  cases t with
                  | nil => simp [print] at hb'
                  | cons s t =>
                    cases s with
                    | lit l' => exact h3
                    | expr ps => exact h3 ⟨[], [], by simp [hb'.1]⟩
                | cons y u =>
                  rw [← hb] at hb'
                  simp at hb'
                  exact hu ⟨[], u, by simp [hb'.1, hb'.2.1]⟩
              | cons d l =>
                simp only [List.cons_append, List.cons.injEq] at hb'
                exact hu ⟨[], l ++ u, by simp [hb'.1, hb'.2.1]⟩
        cases t with
        | nil =>
          simp only at h3
          refine ⟨[], l, ?_, ?_⟩
          · rw [hp]
            unfold segs
            have hx : parseExpr (l ++ print []) = none := hnoexpr [] (by simpa using h3) [] (by simp [print])
            rw [hx]
            simp only [print, List.flatMap_nil, List.append_nil]
            rw [takeUntil_none.mpr h3]
          · cases l with
            | nil => exact absurd rfl h1
            | cons c cs => simp
        | cons s t' =>
          cases s with
          | lit _ => exact absurd h3 (by simp)
          | expr ps =>
            simp only at h3
            have hpt : ∃ b, print (.expr ps :: t') = '{' :: '{' :: b :=
              ⟨'.' :: (joinDots ps ++ ['}', '}']) ++ print t', by simp [print, printSeg]⟩
            have hx : parseExpr (l ++ print (.expr ps :: t')) = none := by
              obtain ⟨b, hb⟩ := hpt
              exact hnoexpr ['{'] h3 ('{' :: b) (by simp [hb])
            have ht : takeUntil (l ++ print (.expr ps :: t')) = some (l, print (.expr ps :: t')) :=
              takeUntil_some.mpr ⟨rfl, hpt, h3⟩
            have hl : (print (.expr ps :: t')).length < n := by
              rw [hp] at hn
              have : 0 < l.length := List.length_pos_iff.mpr h1
              simp only [List.length_append] at hn; omega
            obtain ⟨ss, r, h5, h6⟩ := ih h4 n hl
            refine ⟨.lit l :: ss, r, ?_, ?_⟩
            · rw [hp]; unfold segs; rw [hx]; simp only []; rw [ht]
              cases l with
              | nil => exact absurd rfl h1
              | cons c cs => simp [h5]
            · cases hr : r.isEmpty <;> simp [hr] at h6 ⊢ <;> exact h6

theorem parse_print_canon {t : Template} (h : Canon t) : parse (print t) = t := by
  obtain ⟨ss, r, h1, h2⟩ := segs_print h ((print t).length + 1) (Nat.lt_succ_self _)
  unfold parse parseSegment
  rw [h1]
  simp only [h2]
  exact keep_canon h

theorem parse_canon_or_whole (s : Text) : Canon (parse s) ∨ parse s = [.lit s] := by
  unfold parse parseSegment
  cases h : segs (s.length + 1) s with
  | some p => left; exact canon_of_shape (segs_shape _ _ _ _ h).1
  | none =>
    right
    -- `many0` failed: the text contains `{{`, so it is neither empty nor a lone quote
    have hopen : ¬ NoOpen s := by
      intro hn
      have ht := takeUntil_none.mpr hn
      have hx : parseExpr s = none := by
        cases hx : parseExpr s with
        | none => rfl
        | some x =>
          obtain ⟨b, hb⟩ := parseExpr_open hx
          exact absurd ⟨[], b, by simpa using hb⟩ hn
      simp [segs, hx, ht] at h
    have h1 : s ≠ [] := by
      rintro rfl; apply hopen; rintro ⟨a, b, hab⟩; cases a <;> simp at hab
    have h2 : s ≠ ['"'] := by
      rintro rfl; apply hopen; rintro ⟨a, b, hab⟩
      cases a with
      | nil => simp at hab
      | cons x a => cases a <;> simp at hab
    simp [keep, h1, h2]

/-! ### merging adjacent literals -/

/-- Merge adjacent literals and drop empty ones (not part of the code: used to describe what parsing
printed text gives). -/
def merge : Template → Template
  | [] => []
  | .expr ps :: t => .expr ps :: merge t
  | .lit l :: t =>
      if l.isEmpty then merge t
      else match merge t with
        | .lit l' :: r => .lit (l ++ l') :: r
        | r => .lit l :: r

theorem print_cons (s : Seg) (t : Template) : print (s :: t) = printSeg s ++ print t := by simp [print]

theorem print_merge (t : Template) : print (merge t) = print t := by
  induction t with
  | nil => rfl
  | cons s t ih =>
    cases s with
    | expr ps => simp only [merge, print_cons, ih]
    | lit l =>
      simp only [merge]
      split
      · rename_i h
        have : l = [] := by simpa using h
        rw [print_cons, ih, this]; rfl
      · split
        · rename_i l' r h
          rw [print_cons (.lit l) t, ← ih, h]
          simp [print_cons, printSeg]
        · rw [print_cons, print_cons, ih]

theorem render_nil (ctx : Ctx) : render [] ctx = [] := rfl
theorem render_lit (l : Text) (t : Template) (ctx : Ctx) : render (.lit l :: t) ctx = l ++ render t ctx := rfl
theorem render_expr (ps : List Text) (t : Template) (ctx : Ctx) :
    render (.expr ps :: t) ctx = (ctx ps).getD [] ++ render t ctx := rfl

theorem render_merge (t : Template) (ctx : Ctx) : render (merge t) ctx = render t ctx := by
  induction t with
  | nil => rfl
  | cons s t ih =>
    cases s with
    | expr ps => simp only [merge, render_expr, ih]
    | lit l =>
      simp only [merge]
      split
      · rename_i h
        have : l = [] := by simpa using h
        rw [render_lit, ih, this]; rfl
      · split
        · rename_i l' r h
          rw [render_lit l t, ← ih, h, render_lit, render_lit, List.append_assoc]
        · rw [render_lit, render_lit, ih]

/-- Text without `{` and without `"`. -/
def Plain (l : Text) : Prop := '{' ∉ l ∧ '"' ∉ l

theorem noOpen_of_plain {l : Text} (h : Plain l) : NoOpen (l ++ ['{']) ∧ NoOpen l := by
  have key : ∀ (l : Text), '{' ∉ l → NoOpen (l ++ ['{']) := by
    intro l
    induction l with
    | nil =>
      rintro - ⟨a, b, hab⟩
      cases a with
      | nil => simp at hab
      | cons x a => simp at hab
    | cons c l ih =>
      rintro h ⟨a, b, hab⟩
      cases a with
      | nil => simp at hab; apply h; simp [hab.1]
      | cons x a =>
        simp at hab
        exact ih (fun hx => h (by simp [hx])) ⟨a, b, hab.2⟩
  refine ⟨key l h.1, ?_⟩
  rintro ⟨a, b, hab⟩
  exact h.1 (by simp [hab])

theorem merge_canon {t : Template} (h1 : ∀ l, .lit l ∈ t → Plain l) (h2 : ∀ ps, .expr ps ∈ t → ValidPath ps) :
    Canon (merge t) ∧ (∀ l, .lit l ∈ merge t → Plain l) := by
  induction t with
  | nil => exact ⟨trivial, by simp [merge]⟩
  | cons s t ih =>
    obtain ⟨i1, i2⟩ := ih (fun l hl => h1 l (by simp [hl])) (fun ps hp => h2 ps (by simp [hp]))
    cases s with
    | expr ps =>
      exact ⟨⟨h2 ps (by simp), i1⟩, fun l hl => by simp [merge] at hl; exact i2 l hl⟩
    | lit l =>
      have hl := h1 l (by simp)
      have hq : ∀ x, Plain x → x ≠ ['"'] := by rintro x hx rfl; exact hx.2 (by simp)
      simp only [merge]
      split
      · exact ⟨i1, i2⟩
      · rename_i hne
        have hne : l ≠ [] := by simpa using hne
        split
        · rename_i l' r h
          rw [h] at i1 i2
          obtain ⟨c1, c2, c3, c4⟩ := i1
          have hl' := i2 l' (by simp)
          have hpl : Plain (l ++ l') := ⟨by simp [hl.1, hl'.1], by simp [hl.2, hl'.2]⟩
          refine ⟨⟨by simp [hne], hq _ hpl, ?_, c4⟩, ?_⟩
          · cases r with
            | nil => exact (noOpen_of_plain hpl).2
            | cons s r =>
              cases s with
              | lit _ => exact c3
              | expr _ => exact (noOpen_of_plain hpl).1
          · intro x hx
            simp only [List.mem_cons, Seg.lit.injEq] at hx
            rcases hx with rfl | hx
            · exact hpl
            · exact i2 x (by simp [hx])
        · rename_i hnl
          refine ⟨⟨hne, hq _ hl, ?_, i1⟩, ?_⟩
          · cases hm : merge t with
            | nil => exact (noOpen_of_plain hl).2
            | cons s r =>
              cases s with
              | lit l' => exact absurd hm (hnl l' r)
              | expr _ => exact (noOpen_of_plain hl).1
          · intro x hx
            simp only [List.mem_cons, Seg.lit.injEq] at hx
            rcases hx with rfl | hx
            · exact hl
            · exact i2 x hx

end Verif.Mustache
