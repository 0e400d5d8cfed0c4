import Verif.Report.Spec

set_option linter.unusedSimpArgs false

namespace Verif.Report

open Verif.Mustache (Text)
open Verif.HttpUrl (joinWith)

theorem linesOf_ne (t : Text) : linesOf t ≠ [] := by
  cases t with
  | nil => simp [linesOf]
  | cons c r =>
    unfold linesOf
    split
    · simp
    · split <;> simp

theorem linesOf_nl (t : Text) : linesOf ('\n' :: t) = [] :: linesOf t := by
  rw [linesOf]
  split
  · next h => exact absurd h (linesOf_ne t)
  · next l ls h => simp [h]

theorem linesOf_char {c : Char} (h : c ≠ '\n') (t : Text) {l : Text} {ls : List Text} (hl : linesOf t = l :: ls) :
    linesOf (c :: t) = (c :: l) :: ls := by
  rw [linesOf, hl]
  simp [h]

theorem linesOf_append (a b : Text) : linesOf (a ++ '\n' :: b) = linesOf a ++ linesOf b := by
  induction a with
  | nil => simp [linesOf_nl, linesOf]
  | cons c r ih =>
    by_cases hc : c = '\n'
    · subst hc
      rw [List.cons_append, linesOf_nl, linesOf_nl, ih]
      rfl
    · cases hl : linesOf r with
      | nil => exact absurd hl (linesOf_ne r)
      | cons l ls =>
        rw [hl] at ih
        rw [List.cons_append, linesOf_char hc _ ih, linesOf_char hc _ hl]
        rfl

theorem linesOf_prefix (p : Text) (hp : '\n' ∉ p) (t : Text) {l : Text} {ls : List Text} (hl : linesOf t = l :: ls) :
    linesOf (p ++ t) = (p ++ l) :: ls := by
  induction p with
  | nil => simpa using hl
  | cons c r ih =>
    have hc : c ≠ '\n' := fun h => hp (by simp [h])
    have hr : '\n' ∉ r := fun h => hp (by simp [h])
    rw [List.cons_append, linesOf_char hc _ (ih hr)]
    rfl

theorem linesOf_flat (p : Text) (hp : '\n' ∉ p) : linesOf p = [p] := by
  have := linesOf_prefix p hp [] (l := []) (ls := []) rfl
  simpa using this

theorem nl_pad (n : Nat) : '\n' ∉ List.replicate n ' ' := by
  simp [List.mem_replicate]

theorem splitIncl_ne {c : Char} {r : Text} : splitIncl (c :: r) ≠ [] := by
  unfold splitIncl
  split
  · simp
  · split <;> simp

theorem splitIncl_nil {r : Text} (h : splitIncl r = []) : r = [] := by
  cases r with
  | nil => rfl
  | cons c r => exact absurd h splitIncl_ne

theorem margin_nl (n : Nat) (t : Text) : margin n ('\n' :: t) = List.replicate n ' ' ++ '\n' :: margin n t := by
  simp [margin, splitIncl]

theorem margin_last (n : Nat) {c : Char} (hc : c ≠ '\n') : margin n [c] = List.replicate n ' ' ++ [c] := by
  simp [margin, splitIncl, hc]

/-- A character in front of a text goes behind the margin. -/
theorem margin_char (n : Nat) {c d : Char} (hc : c ≠ '\n') (t : Text) :
    ∃ x, margin n (d :: t) = List.replicate n ' ' ++ x ∧ margin n (c :: d :: t) = List.replicate n ' ' ++ c :: x := by
  cases hs : splitIncl (d :: t) with
  | nil => exact absurd hs splitIncl_ne
  | cons l ls =>
    refine ⟨l ++ ls.flatMap (fun l => List.replicate n ' ' ++ l), ?_, ?_⟩
    · simp [margin, hs]
    · rw [margin, splitIncl, hs]
      simp [hc]

theorem Tidy.tail {c d : Char} {t : Text} (h : Tidy (c :: d :: t)) : Tidy (d :: t) := by
  obtain ⟨x, hx, hn⟩ := h
  exact ⟨x, by simpa [List.getLast?_cons_cons] using hx, hn⟩

theorem Tidy.ne {t : Text} (h : Tidy t) : t ≠ [] := by
  obtain ⟨x, hx, _⟩ := h
  intro e
  subst e
  simp at hx

theorem Tidy.append (a : Text) {t : Text} (h : Tidy t) : Tidy (a ++ t) := by
  obtain ⟨x, hx, hn⟩ := h
  exact ⟨x, by rw [List.getLast?_append, hx]; rfl, hn⟩

theorem margin_tidy (n : Nat) {t : Text} (h : Tidy t) :
    linesOf (margin n t) = (linesOf t).map (fun l => List.replicate n ' ' ++ l) ∧ Tidy (margin n t) := by
  induction t with
  | nil => exact absurd rfl h.ne
  | cons c r ih =>
    cases r with
    | nil =>
      have hc : c ≠ '\n' := by
        obtain ⟨x, hx, hn⟩ := h
        simp at hx
        exact hx ▸ hn
      have h1 : linesOf [c] = [[c]] := linesOf_flat _ (by simp; exact fun h => hc h.symm)
      rw [margin_last n hc, linesOf_prefix _ (nl_pad n) _ h1, h1]
      exact ⟨rfl, Tidy.append _ h⟩
    | cons d t =>
      obtain ⟨i1, i2⟩ := ih h.tail
      by_cases hc : c = '\n'
      · subst hc
        rw [margin_nl, linesOf_append, linesOf_nl, i1, linesOf_flat _ (nl_pad n)]
        refine ⟨by simp, ?_⟩
        have : List.replicate n ' ' ++ '\n' :: margin n (d :: t)
            = (List.replicate n ' ' ++ ['\n']) ++ margin n (d :: t) := by simp
        rw [this]
        exact Tidy.append _ i2
      · obtain ⟨x, hx, hy⟩ := margin_char n hc (d := d) t
        rw [hx] at i1 i2
        rw [hy]
        cases hl : linesOf (d :: t) with
        | nil => exact absurd hl (linesOf_ne _)
        | cons l ls =>
          cases hm : linesOf x with
          | nil => exact absurd hm (linesOf_ne _)
          | cons k ks =>
            rw [hl, linesOf_prefix _ (nl_pad n) _ hm] at i1
            simp only [List.map_cons, List.cons.injEq, List.append_cancel_left_eq] at i1
            obtain ⟨rfl, rfl⟩ := i1
            rw [linesOf_prefix _ (nl_pad n) _ (linesOf_char hc _ hm), linesOf_char hc _ hl]
            refine ⟨by simp, ?_⟩
            apply Tidy.append
            cases x with
            | nil =>
              refine ⟨c, by simp, hc⟩
            | cons y ys =>
              obtain ⟨z, hz, hn⟩ := i2
              exact ⟨z, by rw [List.getLast?_append] at hz; simpa [List.getLast?_cons_cons] using hz, hn⟩

theorem margin_some (n : Nat) {t : Text} (h : t ≠ []) : ∃ x, margin n t = List.replicate n ' ' ++ x ∧ x ≠ [] := by
  cases t with
  | nil => exact absurd rfl h
  | cons c r =>
    by_cases hc : c = '\n'
    · subst hc
      exact ⟨_, margin_nl n r, by simp⟩
    · cases r with
      | nil => exact ⟨_, margin_last n hc, by simp⟩
      | cons d t =>
        obtain ⟨x, _, hy⟩ := margin_char n hc (d := d) t
        exact ⟨_, hy, by simp⟩

theorem bullet_some {t : Text} (h : t ≠ []) : ∃ x, margin 2 t = ' ' :: ' ' :: x ∧ bullet t = some ('•' :: ' ' :: x) ∧ x ≠ [] := by
  obtain ⟨x, hx, hn⟩ := margin_some 2 h
  have e : margin 2 t = ' ' :: ' ' :: x := by simpa [List.replicate] using hx
  exact ⟨x, e, by rw [bullet, e], hn⟩

theorem bullet_none : bullet [] = none := rfl

theorem bullet_tidy {t : Text} (h : Tidy t) : ∃ b, bullet t = some b ∧ Tidy b ∧ Tidy (margin 2 b)
    ∧ linesOf (margin 2 b) = item (linesOf t) := by
  obtain ⟨x, hm, hb, hx⟩ := bullet_some h.ne
  obtain ⟨l2, t2⟩ := margin_tidy 2 h
  refine ⟨_, hb, ?_⟩
  have tx : Tidy x := by
    obtain ⟨z, hz, hn⟩ := t2
    rw [hm] at hz
    cases x with
    | nil => exact absurd rfl hx
    | cons y ys => exact ⟨z, by simpa [List.getLast?_cons_cons] using hz, hn⟩
  have tb : Tidy ('•' :: ' ' :: x) := Tidy.append ['•', ' '] tx
  obtain ⟨l3, t3⟩ := margin_tidy 2 tb
  refine ⟨tb, t3, ?_⟩
  rw [l3]
  cases hl : linesOf t with
  | nil => exact absurd hl (linesOf_ne _)
  | cons l ls =>
    cases hk : linesOf x with
    | nil => exact absurd hk (linesOf_ne _)
    | cons k ks =>
      have e1 : linesOf (' ' :: ' ' :: x) = (' ' :: ' ' :: k) :: ks := linesOf_prefix [' ', ' '] (by decide) x hk
      have e2 : linesOf ('•' :: ' ' :: x) = ('•' :: ' ' :: k) :: ks := linesOf_prefix ['•', ' '] (by decide) x hk
      rw [hm, e1, hl] at l2
      simp [List.replicate] at l2
      obtain ⟨rfl, rfl⟩ := l2
      rw [e2]
      simp [item, List.replicate]

theorem headText_eq (m : Text) (d : Option Text) (t : List Text) : headText m d t = headSpec m d t := by
  cases d <;> cases t <;> simp [headText, headSpec, traceText]

theorem show_mk (m : Text) (d : Option Text) (t : List Text) (l : List Errata) :
    (Errata.mk m d t l).show = if l.isEmpty then some (headText m d t)
    else (showAll l).map (fun c => headText m d t ++ '\n' :: ("Caused by:".toList ++ '\n' :: c)) := by
  rw [Errata.show]
  split
  · rfl
  · cases showAll l <;> rfl

theorem showAll_one (e : Errata) : showAll [e] = (e.show.bind bullet).map (margin 2) := by
  rw [showAll]
  cases h : e.show with
  | none => rfl
  | some t =>
    cases hb : bullet t with
    | none => simp [hb]
    | some b => simp [hb, showAll]

theorem showAll_more (e x : Errata) (l : List Errata) : showAll (e :: x :: l)
    = (e.show.bind bullet).bind (fun b => (showAll (x :: l)).map (fun r => margin 2 b ++ '\n' :: r)) := by
  rw [showAll]
  cases h : e.show with
  | none => rfl
  | some t =>
    cases hb : bullet t with
    | none => simp [hb]
    | some b => cases hr : showAll (x :: l) <;> simp [hb]

theorem tidy_show {m : Text} {d : Option Text} {t : List Text} {l : List Errata} {s : Text}
    (hh : Tidy (headSpec m d t)) (h : (Errata.mk m d t l).show = some s)
    (hl : ∀ c, showAll l = some c → l ≠ [] → Tidy c) : Tidy s := by
  rw [show_mk, headText_eq] at h
  split at h
  · simp at h
    exact h ▸ hh
  · next he =>
    cases hc : showAll l with
    | none => simp [hc] at h
    | some c =>
      simp only [hc, Option.map_some, Option.some.injEq] at h
      have := hl c hc (by intro e; simp [e] at he)
      rw [← h]
      have e : headSpec m d t ++ '\n' :: ("Caused by:".toList ++ '\n' :: c)
          = (headSpec m d t ++ '\n' :: ("Caused by:".toList ++ ['\n'])) ++ c := by simp
      rw [e]
      exact Tidy.append _ this

theorem TidyCauses.cause {e c : Errata} (h : TidyCauses e) (hc : c ∈ e.why) : TidyCauses c ∧ Tidy c.head :=
  ⟨fun n x hx => h (n + 1) x (.down hc hx), h 0 c (.down hc (.here c))⟩

mutual
theorem show_lines : (e : Errata) → TidyCauses e → ∃ s, e.show = some s ∧ linesOf s = report e ∧ (Tidy e.head → Tidy s)
  | .mk m d t l, h => by
    have hl : ∀ c ∈ l, TidyCauses c ∧ Tidy c.head := fun c hc => h.cause hc
    cases l with
    | nil =>
      refine ⟨headSpec m d t, ?_, ?_, fun h => h⟩
      · rw [show_mk, headText_eq]; rfl
      · simp [report]
    | cons x l =>
      obtain ⟨c, h1, h2, h3⟩ := showAll_lines (x :: l) hl (by simp)
      refine ⟨headSpec m d t ++ '\n' :: ("Caused by:".toList ++ '\n' :: c), ?_, ?_, ?_⟩
      · rw [show_mk, headText_eq, h1]; rfl
      · rw [linesOf_append, linesOf_append, h2, report, linesOf_flat "Caused by:".toList (by decide)]
        simp
      · intro _
        have e : headSpec m d t ++ '\n' :: ("Caused by:".toList ++ '\n' :: c)
            = (headSpec m d t ++ '\n' :: ("Caused by:".toList ++ ['\n'])) ++ c := by simp
        rw [e]
        exact Tidy.append _ h3
theorem showAll_lines : (l : List Errata) → (∀ c ∈ l, TidyCauses c ∧ Tidy c.head) → l ≠ [] →
    ∃ s, showAll l = some s ∧ linesOf s = reports l ∧ Tidy s
  | [], _, hn => absurd rfl hn
  | e :: l, h, _ => by
    obtain ⟨s, h1, h2, h3⟩ := show_lines e (h e (by simp)).1
    obtain ⟨b, b1, _, b3, b4⟩ := bullet_tidy (h3 (h e (by simp)).2)
    cases l with
    | nil =>
      refine ⟨margin 2 b, ?_, ?_, b3⟩
      · rw [showAll_one, h1]; simp [b1]
      · rw [b4, h2, reports, reports]; simp
    | cons x l =>
      obtain ⟨r, r1, r2, r3⟩ := showAll_lines (x :: l) (fun c hc => h c (List.mem_cons_of_mem _ hc)) (by simp)
      refine ⟨margin 2 b ++ '\n' :: r, ?_, ?_, ?_⟩
      · rw [showAll_more, h1, r1]; simp [b1]
      · rw [linesOf_append, b4, h2, r2]
        conv => rhs; rw [reports]
      · have e : margin 2 b ++ '\n' :: r = (margin 2 b ++ ['\n']) ++ r := by simp
        rw [e]
        exact Tidy.append _ r3
end

/-! ## Where the lines of a cause are -/

theorem mem_reports {c : Errata} {l : List Errata} (h : c ∈ l) {x : Text} (hx : x ∈ item (report c)) : x ∈ reports l := by
  induction l with
  | nil => simp at h
  | cons a l ih =>
    rw [reports]
    rcases List.mem_cons.mp h with rfl | h
    · exact List.mem_append_left _ hx
    · exact List.mem_append_right _ (ih h)

theorem report_head (e : Errata) : ∃ l ls, report e = l :: ls ∧ (linesOf e.head).head? = some l
    ∧ ∀ c ∈ e.why, ∀ x ∈ item (report c), x ∈ ls := by
  cases e with
  | mk m d t l =>
    cases hl : linesOf (headSpec m d t) with
    | nil => exact absurd hl (linesOf_ne _)
    | cons k ks =>
      refine ⟨k, ks ++ (if l.isEmpty then [] else "Caused by:".toList :: reports l), ?_, ?_, ?_⟩
      · rw [report, hl]; rfl
      · simp [Errata.head, hl]
      · intro c hc x hx
        have hc : c ∈ l := hc
        have : l.isEmpty = false := by cases l <;> simp_all
        rw [this]
        exact List.mem_append_right _ (List.mem_cons_of_mem _ (mem_reports hc hx))

theorem under_line {e x : Errata} {n : Nat} (h : Under e n x) : ∀ l, (linesOf x.head).head? = some l →
    (n = 0 → (report e).head? = some l) ∧
    (∀ k, n = k + 1 → ∃ p ps, report e = p :: ps ∧ (List.replicate (4 * k) ' ' ++ ("  • ".toList ++ l)) ∈ ps) := by
  induction h with
  | here e =>
    intro l hl
    obtain ⟨a, b, h1, h2, _⟩ := report_head e
    refine ⟨fun _ => ?_, fun k hk => by omega⟩
    rw [h1, ← hl, h2]
    rfl
  | @down e c x n hc hu ih =>
    intro l hl
    refine ⟨fun h => by omega, fun k hk => ?_⟩
    have hk : n = k := by omega
    obtain ⟨a, b, h1, _, h3⟩ := report_head e
    refine ⟨a, b, h1, h3 c hc _ ?_⟩
    obtain ⟨i0, i1⟩ := ih l hl
    cases k with
    | zero =>
      have := i0 hk
      cases hr : report c with
      | nil => simp [hr] at this
      | cons p ps =>
        rw [hr] at this
        simp at this
        subst this
        simp [item]
    | succ k =>
      obtain ⟨p, ps, h4, h5⟩ := i1 k hk
      rw [h4, item]
      apply List.mem_cons_of_mem
      refine List.mem_map.mpr ⟨_, h5, ?_⟩
      have : 4 * (k + 1) = 4 + 4 * k := by omega
      rw [this, ← List.replicate_append_replicate]
      simp [List.replicate]

/-! ## When there is no report -/

theorem show_ne {e : Errata} {s : Text} (h : e.show = some s) (hb : ¬ Blank e) : s ≠ [] := by
  cases e with
  | mk m d t l =>
    rw [show_mk, headText_eq] at h
    cases l with
    | nil =>
      simp at h
      intro hs
      apply hb
      refine ⟨?_, rfl⟩
      simp [Errata.head, h, hs]
    | cons x l =>
      cases hc : showAll (x :: l) with
      | none => simp [hc] at h
      | some c =>
        simp only [hc, List.isEmpty_cons, Bool.false_eq_true, if_false, Option.map_some, Option.some.injEq] at h
        rw [← h]
        simp

mutual
theorem show_some : (e : Errata) → (∀ n x, Under e (n + 1) x → ¬ Blank x) → ∃ s, e.show = some s
  | .mk m d t l, h => by
    cases l with
    | nil => exact ⟨headText m d t, by rw [show_mk]; rfl⟩
    | cons y l =>
      obtain ⟨c, hc⟩ := showAll_some (y :: l) (fun c hc =>
        ⟨h 0 c (.down hc (.here c)), fun n x hx => h (n + 1) x (.down hc hx)⟩)
      exact ⟨_, by rw [show_mk, hc]; rfl⟩
theorem showAll_some : (l : List Errata) → (∀ c ∈ l, ¬ Blank c ∧ ∀ n x, Under c (n + 1) x → ¬ Blank x) →
    ∃ s, showAll l = some s
  | [], _ => ⟨[], by rw [showAll]⟩
  | e :: l, h => by
    obtain ⟨s, hs⟩ := show_some e (h e (by simp)).2
    obtain ⟨b, _, hb, _⟩ := bullet_some (show_ne hs (h e (by simp)).1)
    cases l with
    | nil => exact ⟨_, by rw [showAll_one, hs, Option.bind_some, hb]; rfl⟩
    | cons x l =>
      obtain ⟨r, hr⟩ := showAll_some (x :: l) (fun c hc => h c (List.mem_cons_of_mem _ hc))
      exact ⟨_, by rw [showAll_more, hs, hr, Option.bind_some, hb]; rfl⟩
end

theorem blank_show {e : Errata} (h : Blank e) : e.show = some [] := by
  cases e with
  | mk m d t l =>
    obtain ⟨h1, h2⟩ := h
    simp [Errata.head, Errata.why] at h1 h2
    subst h2
    rw [show_mk, headText_eq, h1]
    rfl

theorem showAll_none {c : Errata} {l : List Errata} (hc : c ∈ l) (h : c.show.bind bullet = none) : showAll l = none := by
  induction l with
  | nil => simp at hc
  | cons a l ih =>
    cases l with
    | nil =>
      simp at hc
      subst hc
      rw [showAll_one, h]; rfl
    | cons x l =>
      rw [showAll_more]
      rcases List.mem_cons.mp hc with rfl | hc
      · rw [h]; rfl
      · rw [ih hc]
        cases a.show.bind bullet <;> rfl

theorem under_zero {e x : Errata} (h : Under e 0 x) : e = x := by
  generalize hn : 0 = n at h
  cases h with
  | here => rfl
  | down => omega

theorem under_none {e x : Errata} {n : Nat} (h : Under e n x) (hb : Blank x) :
    ∀ k, n = k + 1 → e.show = none := by
  induction h with
  | here => intro k hk; omega
  | @down e c x n hc hu ih =>
    intro k _
    have hbc : c.show.bind bullet = none := by
      cases n with
      | zero =>
        rw [under_zero hu, blank_show hb]; rfl
      | succ m => rw [ih hb m rfl]; rfl
    cases e with
    | mk m d t l =>
      have hc : c ∈ l := hc
      rw [show_mk, showAll_none hc hbc]
      cases l with
      | nil => simp at hc
      | cons _ _ => rfl

end Verif.Report
