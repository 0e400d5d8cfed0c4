import Verif.Edge.Spec
import Verif.Doc.Read
import Verif.Server.Ident

/-!
# Helper lemmas
-/

set_option linter.unusedSimpArgs false

namespace Verif.Edge

open Verif.Mustache (Text)
open Verif.HttpUrl (joinWith intText boolText)
open Verif.Sdl (V)
open Verif.Doc (showV toQ toQs)
open Verif.Gql (showQ showQs quote quoteChar)
open Verif.Load (Io Cfg Ext isUrl isAbsolute)

/-! ## URIs -/

theorem afterScheme_plain : ∀ {s : Text} {r : Text}, Plain [':'] s → afterScheme (s ++ ':' :: '/' :: '/' :: r) = r
  | [], r, _ => by simp [afterScheme]
  | c :: s, r, h => by
    have hc : c ≠ ':' := fun e => h c List.mem_cons_self (by simp [e])
    have ih := afterScheme_plain (s := s) (r := r) (fun x hx => h x (List.mem_cons_of_mem _ hx))
    rw [List.cons_append, afterScheme.eq_2]
    · exact ih
    · intro r' e _
      exact hc e

theorem dropWhile_plain {p : Char → Bool} : ∀ {a r : Text}, (∀ c ∈ a, p c = true) → (∀ c, r.head? = some c → p c = false) →
    (a ++ r).dropWhile p = r
  | [], [], _, _ => rfl
  | [], c :: r, _, h => by simp [List.dropWhile, h c rfl]
  | c :: a, r, h, hr => by
    rw [List.cons_append, List.dropWhile_cons_of_pos (h c List.mem_cons_self)]
    exact dropWhile_plain (fun x hx => h x (List.mem_cons_of_mem _ hx)) hr

theorem takeWhile_plain {p : Char → Bool} : ∀ {a r : Text}, (∀ c ∈ a, p c = true) → (∀ c, r.head? = some c → p c = false) →
    (a ++ r).takeWhile p = a
  | [], [], _, _ => rfl
  | [], c :: r, _, h => by simp [List.takeWhile, h c rfl]
  | c :: a, r, h, hr => by
    rw [List.cons_append, List.takeWhile_cons_of_pos (h c List.mem_cons_self),
      takeWhile_plain (fun x hx => h x (List.mem_cons_of_mem _ hx)) hr]

/-- The parts that a URI says are those that the server finds. -/
theorem says_parts {q : HReq} {a p : Text} {k : Option Text} (h : Says q.uri a p k) : q.path = p ∧ q.query = k := by
  obtain ⟨s, hs, ha, ⟨r, hr⟩, hp, hk, hu⟩ := h
  have hpne : p.isEmpty = false := by rw [hr]; rfl
  have e : q.uri = s ++ ':' :: '/' :: '/' :: (a ++ (p ++ queryText k)) := by
    rw [hu]; simp [List.append_assoc]
  have h1 : afterAuthority q.uri = p ++ queryText k := by
    unfold afterAuthority
    rw [e, afterScheme_plain hs]
    refine dropWhile_plain ?_ ?_
    · intro c hc
      have := ha c hc
      simp only [List.mem_cons, List.not_mem_nil, not_or] at this
      simp [this.1, this.2.1, this.2.2]
    · intro c hc
      rw [hr] at hc
      simp only [List.cons_append, List.head?_cons, Option.some.injEq] at hc
      subst hc; rfl
  constructor
  · unfold HReq.path
    simp only []
    rw [h1, takeWhile_plain, if_neg (by simp [hpne])]
    · intro c hc
      have := hp c hc
      simp only [List.mem_cons, List.not_mem_nil, not_or] at this
      simp [this.1, this.2]
    · intro c hc
      cases k with
      | none => simp [queryText] at hc
      | some q => simp [queryText] at hc; subst hc; rfl
  · unfold HReq.query
    have hp' : ∀ c ∈ p, (c != '#') = true ∧ (c != '?') = true := by
      intro c hc
      have := hp c hc
      simp only [List.mem_cons, List.not_mem_nil, not_or] at this
      simp [this.1, this.2]
    have h2 : (afterAuthority q.uri).takeWhile (· != '#') = p ++ queryText k := by
      rw [h1]
      have := takeWhile_plain (p := fun c => c != '#') (a := p ++ queryText k) (r := [])
        (by
          intro c hc
          rcases List.mem_append.mp hc with hc | hc
          · exact (hp' c hc).1
          · cases k with
            | none => cases hc
            | some q' =>
              rcases List.mem_cons.mp hc with rfl | hc
              · rfl
              · have := hk q' rfl c hc
                simp at this
                simp [this])
        (by simp)
      rw [List.append_nil] at this
      exact this
    rw [h2, dropWhile_plain (fun c hc => (hp' c hc).2)]
    · cases k <;> rfl
    · intro c hc
      cases k with
      | none => simp [queryText] at hc
      | some q => simp [queryText] at hc; subst hc; rfl

theorem standard_methods {m : String} : Standard m ↔ m.toList ∈ methods := by
  have : ∀ a : String, m = a ↔ m.toList = a.toList := fun a => String.toList_inj.symm
  unfold Standard methods
  simp only [this, List.mem_cons, List.not_mem_nil, or_false]
  constructor
  · rintro (h | h | h | h | h | h | h | h | h) <;> simp [h]
  · rintro (h | h | h | h | h | h | h | h | h) <;> simp [h]

theorem utf8Headers_ok {utf8 : Bytes → Bool} : ∀ {l : List (Text × Bytes)}, (∀ h ∈ l, utf8 h.2 = true) →
    utf8Headers utf8 l = .ok l
  | [], _ => rfl
  | (k, v) :: l, h => by
    have h1 := h (k, v) List.mem_cons_self
    simp only at h1
    simp [utf8Headers, h1, utf8Headers_ok (fun x hx => h x (List.mem_cons_of_mem _ hx))]

theorem utf8Headers_err {utf8 : Bytes → Bool} : ∀ {l : List (Text × Bytes)}, (∃ h ∈ l, utf8 h.2 = false) →
    utf8Headers utf8 l = .err
  | [], h => by obtain ⟨_, h, _⟩ := h; cases h
  | (k, v) :: l, h => by
    cases hv : utf8 v with
    | false => simp [utf8Headers, hv]
    | true =>
      obtain ⟨x, hx, hb⟩ := h
      rcases List.mem_cons.mp hx with rfl | hx
      · simp [hv] at hb
      · simp [utf8Headers, hv, utf8Headers_err ⟨x, hx, hb⟩]

/-! ## Texts of values -/

theorem skip_eq {c : Char} {r : Text} (h : (c == ' ' || c == '\n' || c == '\t' || c == '\r') = false) : skip (c :: r) = c :: r := by
  simp [skip, List.dropWhile, h]

/-- The strings that are read back. -/
def StrOk (s : Text) : Prop := ∀ c ∈ s, c = '\n' ∨ c = '\r' ∨ c = '\t' ∨ (32 ≤ c.toNat ∧ c.toNat < 127) ∨ 160 ≤ c.toNat

theorem jstr_quoted : ∀ {s : Text}, StrOk s → ∀ r, jstr (s.flatMap quoteChar ++ '"' :: r) = some (s, r)
  | [], _, r => by rw [List.flatMap_nil, List.nil_append]; unfold jstr; rw [if_pos rfl]
  | c :: s, h, r => by
    have hc := h c List.mem_cons_self
    have ih := jstr_quoted (s := s) (fun x hx => h x (List.mem_cons_of_mem _ hx)) r
    rw [List.flatMap_cons, List.append_assoc]
    have two : ∀ e : Char, unescape e = some c → jstr (['\\', e] ++ (s.flatMap quoteChar ++ '"' :: r)) = some (c :: s, r) := by
      intro e he
      rw [List.cons_append, List.cons_append, List.nil_append]
      unfold jstr
      simp only [show ('\\' : Char) ≠ '"' from by decide, if_false, if_true, he, ih]
    by_cases h1 : c = '\r'
    · subst h1; exact two 'r' rfl
    by_cases h2 : c = '\n'
    · subst h2; exact two 'n' rfl
    by_cases h3 : c = '\t'
    · subst h3; exact two 't' rfl
    by_cases h4 : c = '"'
    · subst h4; exact two '"' rfl
    by_cases h5 : c = '\\'
    · subst h5; exact two '\\' rfl
    have h6 : (decide (c.toNat < 32) || (decide (127 ≤ c.toNat) && decide (c.toNat < 160))) = false := by
      simp only [h1, h2, h3, false_or] at hc
      simp only [Bool.or_eq_false_iff, Bool.and_eq_false_iff, decide_eq_false_iff_not]
      omega
    have h7 : ¬ c.toNat < 32 := by
      simp only [h1, h2, h3, false_or] at hc
      omega
    have hq : quoteChar c = [c] := by
      unfold quoteChar
      simp only [h6, beq_iff_eq, h1, h2, h3, h4, h5, if_false, Bool.false_eq_true]
    rw [hq, List.cons_append, List.nil_append]
    unfold jstr
    simp only [h4, h5, if_false, h7, ih]

theorem jword_of {c : Char} {r : Text} (hc : c.isDigit = true ∨ (c = '-' ∧ r ≠ [])) (hr : r.all Char.isDigit = true) :
    jword (c :: r) = some (Verif.Doc.wordVal (c :: r)) := by
  have hw : c :: r ≠ "null".toList ∧ c :: r ≠ "true".toList ∧ c :: r ≠ "false".toList := by
    refine ⟨?_, ?_, ?_⟩ <;>
    · intro e
      have e1 := (List.cons.inj e).1
      subst e1
      rcases hc with hc | hc
      · revert hc; decide
      · exact absurd hc.1 (by decide)
  unfold jword Verif.Doc.wordVal
  rw [if_neg hw.1, if_neg hw.2.1, if_neg hw.2.2, if_neg hw.1, if_neg hw.2.1, if_neg hw.2.2]
  by_cases h : c = '-'
  · have hne : r ≠ [] := by
      rcases hc with hc | hc
      · subst h; exact absurd hc (by decide)
      · exact hc.2
    have hne' : r.isEmpty = false := by cases r with | nil => exact absurd rfl hne | cons _ _ => rfl
    simp only [h, if_true, hr, hne', Bool.false_eq_true, if_false, Verif.Doc.natOf]
  · have hd : c.isDigit = true := by
      rcases hc with hc | hc
      · exact hc
      · exact absurd hc.1 h
    simp only [h, if_false, hd, if_true, hr, Verif.Doc.natOf]

theorem jword_int (n : Int) : jword (intText n) = some (.int n) := by
  have digits : ∀ m : Nat, ∃ c r, Nat.toDigits 10 m = c :: r ∧ c.isDigit = true ∧ r.all Char.isDigit = true := by
    intro m
    cases h : Nat.toDigits 10 m with
    | nil => exact absurd h Nat.toDigits_ne_nil
    | cons c r =>
      have hm : ∀ x ∈ c :: r, x.isDigit = true := fun x hx => Verif.Server.digit_of_mem (n := m) (by rw [h]; exact hx)
      exact ⟨c, r, rfl, hm c List.mem_cons_self, List.all_eq_true.mpr (fun x hx => hm x (List.mem_cons_of_mem _ hx))⟩
  rw [← Verif.Doc.wordVal_int n, Verif.Server.intText_eq]
  split
  · obtain ⟨c, r, h, hc, hr⟩ := digits n.toNat
    rw [h]
    exact jword_of (Or.inl hc) hr
  · obtain ⟨c, r, h, hc, hr⟩ := digits (-n).toNat
    rw [h]
    exact jword_of (Or.inr ⟨rfl, List.cons_ne_nil _ _⟩) (by rw [List.all_cons, hc, hr]; rfl)

theorem word_int (n : Int) : ∀ c ∈ intText n, wordChar c = true := by
  obtain ⟨c, t, h, hc, ht⟩ := Verif.Server.intText_shape n
  intro x hx
  rw [h] at hx
  rcases List.mem_cons.mp hx with rfl | hx
  · rcases hc with hc | rfl
    · simp [wordChar, Char.isAlphanum, hc]
    · decide
  · simp [wordChar, Char.isAlphanum, ht x hx]

/-- The characters that may follow a value. -/
def Ends (r : Text) : Prop := ∀ c, r.head? = some c → c = ',' ∨ c = ']'

theorem jval_word {w r : Text} {v : V} {n : Nat} (hw : ∀ c ∈ w, wordChar c = true) (hne : w ≠ []) (hv : jword w = some v) (hr : Ends r) :
    jval (n + 1) (w ++ r) = some (v, r) := by
  cases w with
  | nil => exact absurd rfl hne
  | cons c w =>
    have hc := hw c List.mem_cons_self
    have no : ∀ x : Char, wordChar x = false → c ≠ x := by intro x hx e; subst e; rw [hx] at hc; cases hc
    have hend : ∀ c, r.head? = some c → wordChar c = false := by
      intro c hc
      rcases hr c hc with rfl | rfl <;> decide
    rw [jval, List.cons_append, skip_eq]
    · simp only [no '"' (by decide), no '[' (by decide), no '{' (by decide), if_false]
      rw [← List.cons_append, takeWhile_plain hw hend, dropWhile_plain hw hend, hv]
      rfl
    · have h1 := no ' ' (by decide)
      have h2 := no '\n' (by decide)
      have h3 := no '\t' (by decide)
      have h4 := no '\r' (by decide)
      simp [h1, h2, h3, h4]

/-- How many steps it takes to read a value back. -/
def cost : V → Nat
  | .arr l => 1 + costs l
  | _ => 1
where
  /-- The same for items. -/
  costs : List V → Nat
  | [] => 1
  | v :: l => 1 + cost v + costs l

theorem showV_head {v : V} (h : Flat v) : ∃ c t, showV v = c :: t ∧ (c == ' ' || c == '\n' || c == '\t' || c == '\r') = false ∧ c ≠ ']' := by
  cases h with
  | null => exact ⟨'n', _, rfl, by decide, by decide⟩
  | bool b => cases b; exact ⟨'f', _, rfl, by decide, by decide⟩; exact ⟨'t', _, rfl, by decide, by decide⟩
  | int n =>
    obtain ⟨c, t, h, hc, ht⟩ := Verif.Server.intText_shape n
    refine ⟨c, t, by simpa [showV, toQ, showQ] using h, ?_, ?_⟩
    · rcases hc with hc | rfl
      · have : ∀ x : Char, x.isDigit = false → c ≠ x := by intro x hx e; subst e; rw [hx] at hc; cases hc
        simp [this ' ' (by decide), this '\n' (by decide), this '\t' (by decide), this '\r' (by decide)]
      · decide
    · rcases hc with hc | rfl
      · intro e; subst e; exact absurd hc (by decide)
      · decide
  | @str t h => exact ⟨'"', t.flatMap quoteChar ++ ['"'], by simp only [showV, toQ, showQ, quote], by decide, by decide⟩
  | @arr l h => exact ⟨'[', joinWith ',' (showQs (toQs l)) ++ [']'], by simp only [showV, toQ, showQ], by decide, by decide⟩

/-- The text of the items of a list. -/
def itemsText (l : List V) : Text := joinWith ',' (showQs (toQs l))

theorem itemsText_cons (v w : V) (l : List V) : itemsText (v :: w :: l) = showV v ++ ',' :: itemsText (w :: l) := by
  simp [itemsText, toQs, showQs, joinWith, showV]

theorem itemsText_one (v : V) : itemsText [v] = showV v := by simp [itemsText, toQs, showQs, joinWith, showV]

theorem showV_arr (l : List V) : showV (.arr l) = '[' :: (itemsText l ++ [']']) := by simp [showV, toQ, showQ, itemsText]

mutual
theorem jval_flat : ∀ (v : V), Flat v → ∀ (n : Nat) (r : Text), cost v ≤ n → Ends r → jval n (showV v ++ r) = some (v, r)
  | v, h, 0, r, hn, _ => by cases v <;> simp [cost] at hn
  | .null, h, n + 1, r, hn, hr => by
    have e : showV .null = "null".toList := rfl
    rw [e]; exact jval_word (by decide) (by decide) rfl hr
  | .bool b, h, n + 1, r, hn, hr => by
    cases b
    · have e : showV (.bool false) = "false".toList := rfl
      rw [e]; exact jval_word (by decide) (by decide) rfl hr
    · have e : showV (.bool true) = "true".toList := rfl
      rw [e]; exact jval_word (by decide) (by decide) rfl hr
  | .int i, h, n + 1, r, hn, hr => by
    have e : showV (.int i) = intText i := by simp [showV, toQ, showQ]
    rw [e]
    refine jval_word (word_int i) ?_ (jword_int i) hr
    obtain ⟨c, t, h, _⟩ := Verif.Server.intText_shape i
    rw [h]; exact List.cons_ne_nil _ _
  | .str s, h, n + 1, r, hn, hr => by
    have hs : StrOk s := by cases h with | str h => exact h
    have e : showV (.str s) ++ r = '"' :: (s.flatMap quoteChar ++ '"' :: r) := by simp [showV, toQ, showQ, quote]
    rw [e, jval, skip_eq (by decide)]
    simp only [if_true, jstr_quoted hs, Option.map_some]
  | .float _, h, n + 1, r, hn, hr => by cases h
  | .enum _, h, n + 1, r, hn, hr => by cases h
  | .obj _, h, n + 1, r, hn, hr => by cases h
  | .arr [], h, n + 1, r, hn, hr => by
    have e : showV (.arr []) ++ r = '[' :: ']' :: r := by simp [showV_arr, itemsText, toQs, showQs, joinWith]
    rw [e, jval, skip_eq (by decide)]
    simp only [show ('[' : Char) ≠ '"' from by decide, if_false, if_true]
    rw [skip_eq (by decide)]
    simp
  | .arr (v :: l), h, n + 1, r, hn, hr => by
    have hl : ∀ x ∈ v :: l, Flat x := by cases h with | arr h => exact h
    have e : showV (.arr (v :: l)) ++ r = '[' :: (itemsText (v :: l) ++ ']' :: r) := by simp [showV_arr]
    rw [e, jval, skip_eq (by decide)]
    simp only [show ('[' : Char) ≠ '"' from by decide, if_false, if_true]
    have hne : (skip (itemsText (v :: l) ++ ']' :: r)).head? ≠ some ']' := by
      obtain ⟨c, t, ev, hc, hc'⟩ := showV_head (hl v List.mem_cons_self)
      have : ∃ t', itemsText (v :: l) = c :: t' := by
        cases l with
        | nil => exact ⟨t, by rw [itemsText_one, ev]⟩
        | cons w l => exact ⟨t ++ ',' :: itemsText (w :: l), by rw [itemsText_cons, ev]; rfl⟩
      obtain ⟨t', e'⟩ := this
      rw [e', List.cons_append, skip_eq hc]
      simpa using hc'
    rw [if_neg hne, jitems_flat v l hl n r (by simp only [cost] at hn; omega)]
    rfl
theorem jitems_flat : ∀ (v : V) (l : List V), (∀ x ∈ v :: l, Flat x) → ∀ (n : Nat) (r : Text), cost.costs (v :: l) ≤ n →
    jitems n (itemsText (v :: l) ++ ']' :: r) = some (v :: l, r)
  | v, l, h, 0, r, hn => by simp [cost.costs] at hn
  | v, [], h, n + 1, r, hn => by
    rw [itemsText_one, jitems, jval_flat v (h v List.mem_cons_self) n (']' :: r) (by simp [cost.costs] at hn; omega)
      (by intro c hc; simp at hc; exact Or.inr hc.symm)]
    simp only []
    rw [skip_eq (by decide)]
    rfl
  | v, w :: l, h, n + 1, r, hn => by
    rw [itemsText_cons, jitems, List.append_assoc, jval_flat v (h v List.mem_cons_self) n _ (by simp [cost.costs] at hn; omega)
      (by intro c hc; simp at hc; exact Or.inl hc.symm)]
    simp only [List.cons_append]
    rw [skip_eq (by decide)]
    simp only []
    rw [jitems_flat w l (fun x hx => h x (List.mem_cons_of_mem _ hx)) n r (by simp [cost.costs] at hn ⊢; omega)]
    rfl
end

mutual
theorem cost_length : ∀ (v : V), Flat v → cost v ≤ 2 * (showV v).length
  | .null, _ => by decide
  | .bool true, _ => by decide
  | .bool false, _ => by decide
  | .int n, _ => by
    obtain ⟨c, t, h, _⟩ := Verif.Server.intText_shape n
    simp [cost, showV, toQ, showQ, h]; omega
  | .str s, _ => by simp [cost, showV, toQ, showQ, quote]; omega
  | .float _, h => by cases h
  | .enum _, h => by cases h
  | .obj _, h => by cases h
  | .arr l, h => by
    have hl : ∀ x ∈ l, Flat x := by cases h with | arr h => exact h
    have := costs_length l hl
    simp only [cost, showV_arr, List.length_cons, List.length_append, List.length_nil]
    omega
theorem costs_length : ∀ (l : List V), (∀ x ∈ l, Flat x) → cost.costs l ≤ 2 * (itemsText l).length + 2
  | [], _ => by simp [cost.costs]
  | [v], h => by
    have := cost_length v (h v List.mem_cons_self)
    rw [itemsText_one]
    simp [cost.costs]; omega
  | v :: w :: l, h => by
    have h1 := cost_length v (h v List.mem_cons_self)
    have h2 := costs_length (w :: l) (fun x hx => h x (List.mem_cons_of_mem _ hx))
    rw [itemsText_cons]
    simp only [cost.costs, List.length_append, List.length_cons] at h2 ⊢
    omega
end

theorem readJson_flat {v : V} (h : Flat v) : readJson (showV v) = some v := by
  have := jval_flat v h (2 * (showV v).length + 2) [] (Nat.le_trans (cost_length v h) (by omega)) (by intro c hc; simp at hc)
  rw [List.append_nil] at this
  unfold readJson
  rw [this]
  simp [skip]

end Verif.Edge
