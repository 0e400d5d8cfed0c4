import Verif.Server.Props

/-!
# The identity of operations (C35)
-/

namespace Verif.Server

open Verif.Mustache (Text)
open Verif.HttpUrl (GVal intText boolText)

set_option linter.unusedSimpArgs false

/-! ## Values as JSON can give them -/

/-- A character of a printed number. -/
def NumChar (c : Char) : Prop := c.isDigit = true ∨ c = '-' ∨ c = '+' ∨ c = '.' ∨ c = 'e' ∨ c = 'E'

/-- A character of a GraphQL name. -/
def NameChar (c : Char) : Prop := c.isAlphanum = true ∨ c = '_'

/-- Values without enums, with floats printed as such and keys that are GraphQL names. -/
inductive Named : GVal → Prop where
  | null : Named .null
  | bool (b) : Named (.bool b)
  | int (n) : Named (.int n)
  | float (c t) : (c.isDigit = true ∨ c = '-') → (∀ x ∈ t, NumChar x) → (∃ x ∈ t, x = '.' ∨ x = 'e') →
      Named (.float (c :: t))
  | str (s) : Named (.str s)
  | list {l} : (∀ v ∈ l, Named v) → Named (.list l)
  | obj {kvs} : (∀ kv ∈ kvs, Named kv.2) → (∀ kv ∈ kvs, ∀ c ∈ kv.1, NameChar c) → Named (.obj kvs)

/-! ## Integers -/

theorem intText_eq (n : Int) : intText n = if 0 ≤ n then Nat.toDigits 10 n.toNat else '-' :: Nat.toDigits 10 (-n).toNat := by
  unfold intText
  rw [Int.toString_eq_repr, Int.repr_eq_if]
  split
  · exact Nat.toList_repr
  · simp [Nat.toList_repr]

theorem toDigits_inj {a b : Nat} (h : Nat.toDigits 10 a = Nat.toDigits 10 b) : a = b := by
  rw [← Nat.ofDigitChars_ten_toDigits (n := a), h, Nat.ofDigitChars_ten_toDigits]

theorem digit_of_mem {c : Char} {n : Nat} (h : c ∈ Nat.toDigits 10 n) : c.isDigit = true :=
  Nat.isDigit_of_mem_toDigits (by decide) (by decide) h

theorem dash_not_digit {n : Nat} : '-' ∉ Nat.toDigits 10 n := by
  intro h
  have := digit_of_mem h
  revert this
  decide

theorem intText_inj {a b : Int} (h : intText a = intText b) : a = b := by
  rw [intText_eq, intText_eq] at h
  split at h <;> split at h
  · have := toDigits_inj h
    omega
  · exact absurd (h ▸ List.mem_cons_self) (dash_not_digit (n := a.toNat))
  · exact absurd (h.symm ▸ List.mem_cons_self) (dash_not_digit (n := b.toNat))
  · have := toDigits_inj (List.cons.inj h).2
    omega

/-- An integer is printed as digits, after a dash if it is negative. -/
theorem intText_shape (n : Int) : ∃ c t, intText n = c :: t ∧ (c.isDigit = true ∨ c = '-') ∧ ∀ x ∈ t, x.isDigit = true := by
  rw [intText_eq]
  split
  · cases h : Nat.toDigits 10 n.toNat with
    | nil => exact absurd h Nat.toDigits_ne_nil
    | cons c t =>
      refine ⟨c, t, rfl, Or.inl (digit_of_mem (n := n.toNat) (by rw [h]; exact List.mem_cons_self)), ?_⟩
      intro x hx
      exact digit_of_mem (n := n.toNat) (by rw [h]; exact List.mem_cons_of_mem _ hx)
  · exact ⟨'-', _, rfl, Or.inr rfl, fun x hx => digit_of_mem hx⟩

/-! ## Printing is injective -/

/-- What can follow a value. -/
def Delim (r : List Piece) : Prop := ∀ p r', r = p :: r' → p = .ch ',' ∨ p = .ch ']' ∨ p = .ch '}'

/-- The kind of value, integers and floats being one. -/
def cls : GVal → Nat
  | .null => 0
  | .bool _ => 1
  | .int _ => 2
  | .float _ => 2
  | .str _ => 3
  | .list _ => 4
  | .obj _ => 5
  | .enum _ => 6

/-- The kind of value that begins with a piece. -/
def clsP : Piece → Nat
  | .quoted _ => 3
  | .ch c => if c = 'n' then 0 else if c = 't' ∨ c = 'f' then 1 else if c.isDigit = true ∨ c = '-' then 2
    else if c = '[' then 4 else if c = '{' then 5 else 7

theorem clsP_num {c : Char} (h : c.isDigit = true ∨ c = '-') : clsP (.ch c) = 2 := by
  have hn : ∀ d, d.isDigit = false → d ≠ '-' → c ≠ d := by
    rintro d h1 h2 rfl
    rcases h with h | h
    · rw [h] at h1; cases h1
    · exact h2 h
  simp only [clsP, hn 'n' (by decide) (by decide), hn 't' (by decide) (by decide), hn 'f' (by decide) (by decide),
    or_self, if_false, h, if_true]

theorem printed_head {v : GVal} (hv : Named v) : ∃ p r, printed v = p :: r ∧ clsP p = cls v := by
  cases hv with
  | null => exact ⟨_, _, rfl, rfl⟩
  | bool b => cases b <;> exact ⟨_, _, rfl, rfl⟩
  | int n =>
    obtain ⟨c, t, h, hc, -⟩ := intText_shape n
    exact ⟨.ch c, chars t, by simp only [printed, h]; rfl, clsP_num hc⟩
  | float c t hc _ _ => exact ⟨.ch c, chars t, rfl, clsP_num hc⟩
  | str s => exact ⟨_, _, rfl, rfl⟩
  | list h => exact ⟨_, _, rfl, rfl⟩
  | obj h h' => exact ⟨_, _, rfl, rfl⟩

/-- Texts of characters with a property, up to the first one without it. -/
theorem chars_inj (Q : Char → Prop) (t t' : Text) (r r' : List Piece) (ht : ∀ c ∈ t, Q c) (ht' : ∀ c ∈ t', Q c)
    (hr : ∀ c x, r = .ch c :: x → ¬ Q c) (hr' : ∀ c x, r' = .ch c :: x → ¬ Q c)
    (h : chars t ++ r = chars t' ++ r') : t = t' ∧ r = r' := by
  induction t generalizing t' with
  | nil =>
    cases t' with
    | nil => exact ⟨rfl, h⟩
    | cons c t' => exact absurd (ht' c List.mem_cons_self) (hr c _ h)
  | cons c t ih =>
    cases t' with
    | nil => exact absurd (ht c List.mem_cons_self) (hr' c _ h.symm)
    | cons c' t' =>
      simp only [chars, List.map_cons, List.cons_append, List.cons.injEq, Piece.ch.injEq] at h
      obtain ⟨rfl, h⟩ := h
      obtain ⟨rfl, hrr⟩ := ih t' (fun x hx => ht x (List.mem_cons_of_mem _ hx))
        (fun x hx => ht' x (List.mem_cons_of_mem _ hx)) h
      exact ⟨rfl, hrr⟩

theorem delim_num {r : List Piece} (h : Delim r) (c : Char) (x : List Piece) (hr : r = .ch c :: x) : ¬ NumChar c := by
  have := h _ _ hr
  simp only [Piece.ch.injEq] at this
  rcases this with rfl | rfl | rfl <;> unfold NumChar <;> decide

theorem num_of_digit {c : Char} (h : c.isDigit = true ∨ c = '-') : NumChar c := by
  rcases h with h | h
  · exact Or.inl h
  · exact Or.inr (Or.inl h)

/-- Printed numbers. -/
def numText : GVal → Option Text
  | .int n => some (intText n)
  | .float t => some t
  | _ => none

theorem numText_chars {v : GVal} {t : Text} (hv : Named v) (h : numText v = some t) :
    printed v = chars t ∧ ∀ c ∈ t, NumChar c := by
  cases hv with
  | int n =>
    cases h
    obtain ⟨c, t, ht, hc, hd⟩ := intText_shape n
    refine ⟨by simp only [printed], ?_⟩
    rw [ht]
    intro x hx
    rcases List.mem_cons.1 hx with rfl | hx
    · exact num_of_digit hc
    · exact Or.inl (hd x hx)
  | float c t hc ht _ =>
    cases h
    refine ⟨by simp only [printed], ?_⟩
    intro x hx
    rcases List.mem_cons.1 hx with rfl | hx
    · exact num_of_digit hc
    · exact ht x hx
  | _ => cases h

theorem numText_inj {v w : GVal} {t : Text} (hv : Named v) (hw : Named w) (h1 : numText v = some t)
    (h2 : numText w = some t) : v = w := by
  have cross : ∀ n c t, (∀ x ∈ t, NumChar x) → (∃ x ∈ t, x = '.' ∨ x = 'e') → intText n ≠ c :: t := by
    intro n c t _ ⟨x, hx, hdot⟩ he
    obtain ⟨c', t', h, -, hd⟩ := intText_shape n
    rw [h] at he
    have := hd x ((List.cons.inj he).2 ▸ hx)
    rcases hdot with rfl | rfl <;> revert this <;> decide
  cases hv with
  | int n =>
    cases hw with
    | int m =>
      simp only [numText, Option.some.injEq] at h1 h2
      rw [intText_inj (h1.trans h2.symm)]
    | float c t' _ h3 h4 =>
      simp only [numText, Option.some.injEq] at h1 h2
      exact absurd (h1.trans h2.symm) (cross n c t' h3 h4)
    | _ => cases h2
  | float c t' _ h3 h4 =>
    cases hw with
    | int m =>
      simp only [numText, Option.some.injEq] at h1 h2
      exact absurd (h2.trans h1.symm) (cross m c t' h3 h4)
    | float c2 t2 _ _ _ =>
      simp only [numText, Option.some.injEq] at h1 h2
      rw [h1, h2]
    | _ => cases h2
  | _ => cases h1

theorem commas_cons (p : List Piece) (q : List (List Piece)) : commas (p :: q) = p ++
    (match q with | [] => [] | _ => .ch ',' :: commas q) := by
  cases q with
  | nil => simp [commas]
  | cons x r => rfl

theorem delim_comma (r : List Piece) : Delim (.ch ',' :: r) := by
  intro p r' h
  exact Or.inl (List.cons.inj h).1.symm

theorem delim_close (r : List Piece) : Delim (.ch ']' :: r) ∧ Delim (.ch '}' :: r) :=
  ⟨fun _ _ h => Or.inr (Or.inl (List.cons.inj h).1.symm), fun _ _ h => Or.inr (Or.inr (List.cons.inj h).1.symm)⟩

theorem head_not_close {v : GVal} (hv : Named v) (c : Char) (hc : clsP (.ch c) = 7) (x r : List Piece) :
    .ch c :: x ≠ printed v ++ r := by
  intro h
  obtain ⟨p, r', hp, hcls⟩ := printed_head hv
  rw [hp] at h
  have : Piece.ch c = p := (List.cons.inj h).1
  rw [← this, hc] at hcls
  cases hv <;> cases hcls

mutual
/-- The printed form of a value, up to what follows it, determines the value. -/
theorem printed_inj (v : GVal) (w : GVal) (hv : Named v) (hw : Named w) (r1 r2 : List Piece) (h1 : Delim r1)
    (h2 : Delim r2) (h : printed v ++ r1 = printed w ++ r2) : v = w ∧ r1 = r2 := by
  have hcls : cls v = cls w := by
    obtain ⟨p, x, hp, hpc⟩ := printed_head hv
    obtain ⟨q, y, hq, hqc⟩ := printed_head hw
    rw [hp, hq] at h
    have : p = q := (List.cons.inj h).1
    rw [← hpc, ← hqc, this]
  have hnum : ∀ t t', numText v = some t → numText w = some t' → v = w ∧ r1 = r2 := by
    intro t t' ht ht'
    obtain ⟨hv1, hv2⟩ := numText_chars hv ht
    obtain ⟨hw1, hw2⟩ := numText_chars hw ht'
    rw [hv1, hw1] at h
    obtain ⟨rfl, hr⟩ := chars_inj NumChar t t' r1 r2 hv2 hw2 (delim_num h1) (delim_num h2) h
    exact ⟨numText_inj hv hw ht ht', hr⟩
  match v with
  | .null =>
    cases w with
    | null => exact ⟨rfl, List.append_cancel_left h⟩
    | _ => cases hcls
  | .bool b =>
    cases w with
    | bool b' =>
      cases b <;> cases b'
      · exact ⟨rfl, List.append_cancel_left h⟩
      · exact absurd (List.cons.inj h).1 (by decide)
      · exact absurd (List.cons.inj h).1 (by decide)
      · exact ⟨rfl, List.append_cancel_left h⟩
    | _ => cases hcls
  | .int n =>
    cases w with
    | int m => exact hnum _ _ rfl rfl
    | float t => exact hnum _ _ rfl rfl
    | _ => cases hcls
  | .float t =>
    cases w with
    | int m => exact hnum _ _ rfl rfl
    | float t => exact hnum _ _ rfl rfl
    | _ => cases hcls
  | .str s =>
    cases w with
    | str s' =>
      have hc := List.cons.inj h
      injection hc.1 with hs
      exact ⟨by rw [hs], hc.2⟩
    | _ => cases hcls
  | .enum s => cases hv
  | .list l =>
    cases w with
    | list l' =>
      cases hv with
      | list hl =>
        cases hw with
        | list hl' =>
          simp only [printed, List.cons_append, List.append_assoc, List.cons.injEq, true_and, List.nil_append] at h
          obtain ⟨hll, hr⟩ := items_inj l l' hl hl' r1 r2 h
          exact ⟨by rw [hll], hr⟩
    | _ => cases hcls
  | .obj kvs =>
    cases w with
    | obj kvs' =>
      cases hv with
      | obj hl hk =>
        cases hw with
        | obj hl' hk' =>
          simp only [printed, List.cons_append, List.append_assoc, List.cons.injEq, true_and, List.nil_append] at h
          obtain ⟨hll, hr⟩ := fields_inj kvs kvs' hl hl' hk hk' r1 r2 h
          exact ⟨by rw [hll], hr⟩
    | _ => cases hcls
/-- The same for the items of a list. -/
theorem items_inj (l l' : List GVal) (hl : ∀ v ∈ l, Named v) (hl' : ∀ v ∈ l', Named v) (r1 r2 : List Piece)
    (h : commas (printedAll l) ++ .ch ']' :: r1 = commas (printedAll l') ++ .ch ']' :: r2) : l = l' ∧ r1 = r2 := by
  match l with
  | [] =>
    cases l' with
    | nil => exact ⟨rfl, (List.cons.inj h).2⟩
    | cons w l' =>
      simp only [printedAll, commas_cons, List.append_assoc] at h
      exact absurd h (head_not_close (hl' w List.mem_cons_self) ']' rfl _ _)
  | v :: l =>
    cases l' with
    | nil =>
      simp only [printedAll, commas_cons, List.append_assoc] at h
      exact absurd h.symm (head_not_close (hl v List.mem_cons_self) ']' rfl _ _)
    | cons w l' =>
      simp only [printedAll, commas_cons, List.append_assoc] at h
      have hv := hl v List.mem_cons_self
      have hw := hl' w List.mem_cons_self
      cases hpl : printedAll l with
      | nil =>
        cases hpl' : printedAll l' with
        | nil =>
          rw [hpl, hpl'] at h
          simp only [List.nil_append] at h
          obtain ⟨rfl, hr⟩ := printed_inj v w hv hw _ _ (delim_close r1).1 (delim_close r2).1 h
          cases l with
          | cons _ _ => cases hpl
          | nil =>
            cases l' with
            | cons _ _ => cases hpl'
            | nil => exact ⟨rfl, (List.cons.inj hr).2⟩
        | cons p' q' =>
          rw [hpl, hpl'] at h
          simp only [List.nil_append, List.cons_append] at h
          obtain ⟨rfl, hr⟩ := printed_inj v w hv hw _ _ (delim_close r1).1 (delim_comma _) h
          exact absurd (List.cons.inj hr).1 (by decide)
      | cons p q =>
        cases hpl' : printedAll l' with
        | nil =>
          rw [hpl, hpl'] at h
          simp only [List.nil_append, List.cons_append] at h
          obtain ⟨rfl, hr⟩ := printed_inj v w hv hw _ _ (delim_comma _) (delim_close r2).1 h
          exact absurd (List.cons.inj hr).1 (by decide)
        | cons p' q' =>
          rw [hpl, hpl'] at h
          simp only [List.cons_append] at h
          obtain ⟨rfl, hr⟩ := printed_inj v w hv hw _ _ (delim_comma _) (delim_comma _) h
          have hr := (List.cons.inj hr).2
          rw [← hpl, ← hpl'] at hr
          obtain ⟨rfl, hrr⟩ := items_inj l l' (fun x hx => hl x (List.mem_cons_of_mem _ hx))
            (fun x hx => hl' x (List.mem_cons_of_mem _ hx)) r1 r2 hr
          exact ⟨rfl, hrr⟩
/-- The same for the fields of an object. -/
theorem fields_inj (l l' : List (Text × GVal)) (hl : ∀ kv ∈ l, Named kv.2) (hl' : ∀ kv ∈ l', Named kv.2)
    (hk : ∀ kv ∈ l, ∀ c ∈ kv.1, NameChar c) (hk' : ∀ kv ∈ l', ∀ c ∈ kv.1, NameChar c) (r1 r2 : List Piece)
    (h : commas (printedFields l) ++ .ch '}' :: r1 = commas (printedFields l') ++ .ch '}' :: r2) : l = l' ∧ r1 = r2 := by
  have hno : ∀ (k : Text) (x y : List Piece), (∀ c ∈ k, NameChar c) → .ch '}' :: x ≠ chars k ++ .ch ':' :: y := by
    intro k x y hk he
    cases k with
    | nil => exact absurd (List.cons.inj he).1 (by decide)
    | cons c k =>
      have h1 : Piece.ch '}' = .ch c := (List.cons.inj he).1
      injection h1 with h1
      have h2 := hk c List.mem_cons_self
      rw [← h1] at h2
      unfold NameChar at h2
      revert h2
      decide
  match l with
  | [] =>
    cases l' with
    | nil => exact ⟨rfl, (List.cons.inj h).2⟩
    | cons kw l' =>
      obtain ⟨k, w⟩ := kw
      simp only [printedFields, printedField, commas_cons, List.append_assoc, List.cons_append] at h
      exact absurd h (hno k _ _ (hk' (k, w) List.mem_cons_self))
  | kv :: l =>
    cases l' with
    | nil =>
      obtain ⟨k, v⟩ := kv
      simp only [printedFields, printedField, commas_cons, List.append_assoc, List.cons_append] at h
      exact absurd h.symm (hno k _ _ (hk (k, v) List.mem_cons_self))
    | cons kw l' =>
      simp only [printedFields, commas_cons, List.append_assoc] at h
      have hv := hl kv List.mem_cons_self
      have hw := hl' kw List.mem_cons_self
      have hkv := hk kv List.mem_cons_self
      have hkw := hk' kw List.mem_cons_self
      cases hpl : printedFields l with
      | nil =>
        cases hpl' : printedFields l' with
        | nil =>
          rw [hpl, hpl'] at h
          simp only [List.nil_append] at h
          obtain ⟨he, hr⟩ := field_inj kv kw hv hw hkv hkw _ _ (delim_close r1).2 (delim_close r2).2 h
          cases l with
          | cons _ _ => cases hpl
          | nil =>
            cases l' with
            | cons _ _ => cases hpl'
            | nil => exact ⟨by rw [he], (List.cons.inj hr).2⟩
        | cons p' q' =>
          rw [hpl, hpl'] at h
          simp only [List.nil_append, List.cons_append] at h
          obtain ⟨he, hr⟩ := field_inj kv kw hv hw hkv hkw _ _ (delim_close r1).2 (delim_comma _) h
          exact absurd (List.cons.inj hr).1 (by decide)
      | cons p q =>
        cases hpl' : printedFields l' with
        | nil =>
          rw [hpl, hpl'] at h
          simp only [List.nil_append, List.cons_append] at h
          obtain ⟨he, hr⟩ := field_inj kv kw hv hw hkv hkw _ _ (delim_comma _) (delim_close r2).2 h
          exact absurd (List.cons.inj hr).1 (by decide)
        | cons p' q' =>
          rw [hpl, hpl'] at h
          simp only [List.cons_append] at h
          obtain ⟨he, hr⟩ := field_inj kv kw hv hw hkv hkw _ _ (delim_comma _) (delim_comma _) h
          have hr := (List.cons.inj hr).2
          rw [← hpl, ← hpl'] at hr
          obtain ⟨hll, hrr⟩ := fields_inj l l' (fun x hx => hl x (List.mem_cons_of_mem _ hx))
            (fun x hx => hl' x (List.mem_cons_of_mem _ hx)) (fun x hx => hk x (List.mem_cons_of_mem _ hx))
            (fun x hx => hk' x (List.mem_cons_of_mem _ hx)) r1 r2 hr
          exact ⟨by rw [he, hll], hrr⟩
/-- The same for one field. -/
theorem field_inj (kv kw : Text × GVal) (hv : Named kv.2) (hw : Named kw.2) (hk : ∀ c ∈ kv.1, NameChar c)
    (hk' : ∀ c ∈ kw.1, NameChar c) (r1 r2 : List Piece) (h1 : Delim r1) (h2 : Delim r2)
    (h : printedField kv ++ r1 = printedField kw ++ r2) : kv = kw ∧ r1 = r2 := by
  match kv, kw with
  | (k, v), (k', w) =>
    simp only [printedField, List.append_assoc, List.cons_append] at h
    have hcolon : ∀ (x : List Piece) (c : Char) (y : List Piece), .ch ':' :: x = .ch c :: y → ¬ NameChar c := by
      intro x c y he
      have h3 : Piece.ch ':' = .ch c := (List.cons.inj he).1
      injection h3 with h3
      subst h3
      unfold NameChar
      decide
    obtain ⟨rfl, hr⟩ := chars_inj NameChar k k' _ _ hk hk' (hcolon _) (hcolon _) h
    obtain ⟨rfl, hrr⟩ := printed_inj v w hv hw r1 r2 h1 h2 (List.cons.inj (List.cons.inj hr).2).2
    exact ⟨rfl, hrr⟩
end

/-! ## C35 -/

theorem headerToks_inj (h1 h2 : List (Text × Text)) (q1 q2 : Text) (x1 x2 : List Tok)
    (h : headerToks h1 ++ .txt q1 :: x1 = headerToks h2 ++ .txt q2 :: x2) : h1 = h2 ∧ q1 = q2 ∧ x1 = x2 := by
  induction h1 generalizing h2 with
  | nil =>
    cases h2 with
    | nil =>
      have hc := List.cons.inj h
      injection hc.1 with hq
      exact ⟨rfl, hq, hc.2⟩
    | cons nv h2 => cases (List.cons.inj h).1
  | cons nv h1 ih =>
    cases h2 with
    | nil => cases (List.cons.inj h).1
    | cons nv' h2 =>
      obtain ⟨n, v⟩ := nv
      obtain ⟨n', v'⟩ := nv'
      simp only [headerToks, List.cons_append, List.cons.injEq, Tok.hname.injEq, Tok.hvalue.injEq] at h
      obtain ⟨rfl, rfl, h⟩ := h
      obtain ⟨rfl, hq, hx⟩ := ih h2 h
      exact ⟨rfl, hq, hx⟩

theorem varToks_inj (l l' : List (Text × GVal)) (hl : ∀ kv ∈ l, Named kv.2) (hl' : ∀ kv ∈ l', Named kv.2)
    (h : varToks l = varToks l') : l = l' := by
  induction l generalizing l' with
  | nil =>
    cases l' with
    | nil => rfl
    | cons kv l' => cases h
  | cons kv l ih =>
    cases l' with
    | nil => cases h
    | cons kv' l' =>
      obtain ⟨k, v⟩ := kv
      obtain ⟨k', v'⟩ := kv'
      simp only [varToks, List.cons.injEq, Tok.txt.injEq, Tok.value.injEq] at h
      obtain ⟨rfl, hp, h⟩ := h
      have := (printed_inj v v' (hl _ List.mem_cons_self) (hl' _ List.mem_cons_self) [] [] (by simp [Delim])
        (by simp [Delim]) (by rw [hp])).1
      subst this
      rw [ih l' (fun x hx => hl x (List.mem_cons_of_mem _ hx)) (fun x hx => hl' x (List.mem_cons_of_mem _ hx)) h]

/-- C35: the identity of a single request determines its headers, query text, operation name and
variables.  Partial: for variables whose object keys are GraphQL names (`C35_violated_by_key`). -/
theorem C35_single_id_partial (h1 h2 : List (Text × Text)) (r1 r2 : Req) (hv1 : ∀ kv ∈ r1.vars, Named kv.2)
    (hv2 : ∀ kv ∈ r2.vars, Named kv.2) (h : singleId h1 r1 = singleId h2 r2) : h1 = h2 ∧ r1 = r2 := by
  obtain ⟨q1, n1, v1⟩ := r1
  obtain ⟨q2, n2, v2⟩ := r2
  simp only [singleId, reqToks] at h
  have h' := headerToks_inj h1 h2 q1 q2 _ _ h
  obtain ⟨rfl, rfl, h'⟩ := h'
  refine ⟨rfl, ?_⟩
  cases n1 with
  | none =>
    cases n2 with
    | none => rw [varToks_inj v1 v2 hv1 hv2 (List.cons.inj h').2]
    | some n2 => cases (List.cons.inj h').1
  | some n1 =>
    cases n2 with
    | none => cases (List.cons.inj h').1
    | some n2 =>
      have hc := List.cons.inj (List.cons.inj h').2
      injection hc.1 with hn
      rw [hn, varToks_inj v1 v2 hv1 hv2 hc.2]

/-- C35: whatever its variables, the identity of a single request determines its headers, query text
and operation name. -/
theorem C35_headers_and_operation (h1 h2 : List (Text × Text)) (r1 r2 : Req) (h : singleId h1 r1 = singleId h2 r2) :
    h1 = h2 ∧ r1.query = r2.query ∧ r1.opName = r2.opName := by
  obtain ⟨q1, n1, v1⟩ := r1
  obtain ⟨q2, n2, v2⟩ := r2
  simp only [singleId, reqToks] at h
  obtain ⟨rfl, rfl, h'⟩ := headerToks_inj h1 h2 q1 q2 _ _ h
  refine ⟨rfl, rfl, ?_⟩
  cases n1 with
  | none =>
    cases n2 with
    | none => rfl
    | some n2 => cases (List.cons.inj h').1
  | some n1 =>
    cases n2 with
    | none => cases (List.cons.inj h').1
    | some n2 =>
      injection (List.cons.inj (List.cons.inj h').2).1 with hn
      rw [hn]

/-- C35 is violated by a key that is no GraphQL name: the variables `{"x": {"a": 1, "b": 2}}` and
`{"x": {"a: 1,b": 2}}` give the same identity. -/
theorem C35_violated_by_key : ∃ h q v1 v2, v1 ≠ v2 ∧
    singleId h ⟨q, none, [("x".toList, v1)]⟩ = singleId h ⟨q, none, [("x".toList, v2)]⟩ :=
  ⟨[], "query".toList, .obj [("a".toList, .int 1), ("b".toList, .int 2)], .obj [("a: 1,b".toList, .int 2)],
    (by intro h; injection h with h; cases (List.cons.inj h).2), rfl⟩

/-- Two requests of one user for different ids. -/
example : singleId [("authorization".toList, "t".toList)] ⟨"query".toList, none, [("id".toList, .int 1)]⟩ ≠
    singleId [("authorization".toList, "t".toList)] ⟨"query".toList, none, [("id".toList, .int 12)]⟩ := by
  intro h
  have := (C35_single_id_partial _ _ _ _ (by intro kv hk; rw [List.mem_singleton.1 hk]; exact .int 1)
    (by intro kv hk; rw [List.mem_singleton.1 hk]; exact .int 12) h).2
  cases this

/-- Objects, lists and floats are told apart. -/
example : Named (.obj [("a".toList, .list [.float "1.5".toList, .str "],".toList]), ("b_1".toList, .null)]) := by
  refine .obj ?_ ?_
  · intro kv hk
    rcases List.mem_cons.1 hk with rfl | hk
    · refine .list ?_
      intro v hv
      rcases List.mem_cons.1 hv with rfl | hv
      · refine .float '1' ".5".toList (by decide) ?_ ⟨'.', by decide, by decide⟩
        intro x hx
        have : x = '.' ∨ x = '5' := by simpa using hx
        rcases this with rfl | rfl <;> unfold NumChar <;> decide
      · rw [List.mem_singleton.1 hv]; exact .str _
    · rw [List.mem_singleton.1 hk]; exact .null
  · intro kv hk c hc
    rcases List.mem_cons.1 hk with rfl | hk
    · have : c = 'a' := by simpa using hc
      subst this; unfold NameChar; decide
    · rw [List.mem_singleton.1 hk] at hc
      have : c = 'b' ∨ c = '_' ∨ c = '1' := by simpa using hc
      rcases this with rfl | rfl | rfl <;> unfold NameChar <;> decide

/-- A history of single requests has faithful ids. -/
theorem singles_faithful {R : Type} (es : List (Event R))
    (h : ∀ t c, Event.begin t c ∈ es → c.opId = singleId c.headers c.req) : FaithfulIds es := by
  intro t1 c1 t2 c2 h1 h2 he
  rw [h t1 c1 h1, h t2 c2 h2] at he
  exact (C35_headers_and_operation _ _ _ _ he).2

/-- C33: without batches, the response to a request whose plan is not constant, or classified as
protected, comes from an execution for a request with the same headers, hence the same credentials,
and the same query text and operation name.  Partial: when all requests with the same text name the
same operation; plans which are constant and not classified as protected are excluded
(`C33_violated_by_mixed_plan`). -/
theorem C33_same_credentials_partial {O P R : Type} (a : App O P R) (es : List (Event R)) (s : State P R)
    (hr : Reaches a es s) (hsingle : ∀ t c, Event.begin t c ∈ es → c.opId = singleId c.headers c.req) (t : Nat) (c : Call)
    (r : R) (h : s.tasks t = .done c r) (hone : OneOperation es c) (p : P) (hp : createPlan a c.req = .ok p)
    (hprot : a.isConst p = false ∨ a.isProtected p = true) :
    ∃ c1, (c1, p, r) ∈ s.execs ∧ c1.headers = c.headers ∧ c1.req.query = c.req.query ∧ c1.req.opName = c.req.opName := by
  obtain ⟨c1, h1, h2⟩ := C33_only_same_headers_partial a es s hr (singles_faithful es hsingle) t c r h hone p hp hprot
  have hi := inv_reaches hr
  obtain ⟨⟨t1, hm⟩, -⟩ := hi.execs c1 p r h1
  rw [hsingle t1 c1 hm, hsingle t c ((hi.call t c).1 (by rw [h]; rfl))] at h2
  exact ⟨c1, h1, C35_headers_and_operation _ _ _ _ h2⟩

end Verif.Server
