import Verif.HttpUrl.Model

set_option linter.unusedSectionVars false
set_option linter.unusedSimpArgs false

/-! # Helper lemmas for upstream URLs -/

namespace Verif.HttpUrl
open Verif.Mustache (Text Template Seg)

section split
variable {α : Type} (p : α → Bool)

theorem splitAll_ne_nil (l : List α) : splitAll p l ≠ [] := by
  cases l with
  | nil => simp [splitAll]
  | cons c r =>
    simp only [splitAll]
    split
    · simp
    · split <;> simp

theorem splitAll_append_sep (a b : List α) (s : α) (hs : p s = true) :
    splitAll p (a ++ s :: b) = splitAll p a ++ splitAll p b := by
  induction a with
  | nil => simp [splitAll, hs]
  | cons c r ih =>
    simp only [List.cons_append, splitAll]
    rw [ih]
    by_cases hc : p c = true
    · simp [hc]
    · simp only [hc, Bool.false_eq_true, if_false]
      cases h : splitAll p r with
      | nil => exact absurd h (splitAll_ne_nil p r)
      | cons x y => simp

theorem splitAll_none (a : List α) (h : ∀ x ∈ a, p x = false) : splitAll p a = [a] := by
  induction a with
  | nil => simp [splitAll]
  | cons c r ih =>
    simp only [splitAll]
    rw [ih (fun x hx => h x (List.mem_cons_of_mem _ hx)), h c List.mem_cons_self]
    simp

/-- The first piece extends a separator-free prefix. -/
theorem splitAll_prefix (a b : List α) (h : ∀ x ∈ a, p x = false) :
    ∃ x y, splitAll p b = x :: y ∧ splitAll p (a ++ b) = (a ++ x) :: y := by
  induction a with
  | nil =>
    cases hb : splitAll p b with
    | nil => exact absurd hb (splitAll_ne_nil p b)
    | cons x y => exact ⟨x, y, rfl, by simp [hb]⟩
  | cons c r ih =>
    obtain ⟨x, y, h1, h2⟩ := ih (fun x hx => h x (List.mem_cons_of_mem _ hx))
    refine ⟨x, y, h1, ?_⟩
    simp only [List.cons_append, splitAll]
    rw [h2, h c List.mem_cons_self]
    simp

end split

theorem pairsOf_nil : pairsOf [] = [] := by simp [pairsOf, splitAll]

theorem pairsOf_append (a b : List QC) : pairsOf (a ++ .raw '&' :: b) = pairsOf a ++ pairsOf b := by
  simp only [pairsOf]
  rw [splitAll_append_sep _ a b (.raw '&') (by simp)]
  simp

theorem encodeQuery_append (a b : Text) : encodeQuery (a ++ b) = encodeQuery a ++ encodeQuery b := by
  simp [encodeQuery]

theorem encodeQuery_amp (b : Text) : encodeQuery ('&' :: b) = .raw '&' :: encodeQuery b := by
  have : inQuerySet '&' = false := by decide
  simp [encodeQuery, isTabNl, this]

theorem pairsOf_encode_join (a b : Text) :
    pairsOf (encodeQuery (a ++ '&' :: b)) = pairsOf (encodeQuery a) ++ pairsOf (encodeQuery b) := by
  rw [encodeQuery_append, encodeQuery_amp, pairsOf_append]

/-- Parsing a joined list of items gives what the items give one by one, whatever they contain. -/
theorem foldl_join (items : List Text) (acc : Text) :
    pairsOf (encodeQuery (items.foldl (fun str item =>
      if str.isEmpty then item else if item.isEmpty then str else str ++ '&' :: item) acc)) =
    pairsOf (encodeQuery acc) ++ items.flatMap (fun i => pairsOf (encodeQuery i)) := by
  induction items generalizing acc with
  | nil => simp
  | cons x r ih =>
    simp only [List.foldl_cons, List.flatMap_cons]
    rw [ih]
    by_cases h1 : acc.isEmpty = true
    · simp only [h1, if_true]
      have : acc = [] := List.isEmpty_iff.mp h1
      subst this
      simp [encodeQuery, pairsOf_nil]
    · by_cases h2 : x.isEmpty = true
      · have : x = [] := List.isEmpty_iff.mp h2
        subst this
        simp [h1, encodeQuery, pairsOf_nil]
      · simp only [h1, h2, Bool.false_eq_true, if_false, pairsOf_encode_join, List.append_assoc]

theorem pairs_joinItems (items : List Text) :
    pairsOf (encodeQuery (joinItems items)) = items.flatMap (fun i => pairsOf (encodeQuery i)) := by
  unfold joinItems
  rw [foldl_join]
  simp [encodeQuery, pairsOf_nil]

theorem pairs_joinWith (items : List Text) :
    pairsOf (encodeQuery (joinWith '&' items)) = items.flatMap (fun i => pairsOf (encodeQuery i)) := by
  match items with
  | [] => simp [joinWith, encodeQuery, pairsOf_nil]
  | [x] => simp [joinWith]
  | x :: y :: r =>
    simp only [joinWith]
    rw [pairsOf_encode_join, pairs_joinWith (y :: r)]
    simp

/-- The pairs of a created URL: those of the base items followed by those of the extra items. -/
theorem createUrl_pairs {norm t ctx url u}
    (hp : parseUrl norm (Verif.Mustache.render t.root ctx.str) = some url)
    (hq : (t.query.isEmpty && Verif.Mustache.isConst t.root) = false)
    (hu : createUrl norm t ctx = some u) :
    u.pairs = (baseItems url ++ extraItems t.encoder ctx t.query).flatMap
        (fun i => pairsOf (encodeQuery i)) := by
  unfold createUrl at hu
  rw [hp] at hu
  simp only [hq, Bool.false_eq_true, if_false] at hu
  split at hu
  · rename_i he
    injection hu with hu
    subst hu
    rw [← pairs_joinItems]
    have : joinItems (baseItems url ++ extraItems t.encoder ctx t.query) = [] := List.isEmpty_iff.mp he
    simp [Url.pairs, this, encodeQuery]
  · injection hu with hu
    subst hu
    rw [← pairs_joinItems]
    simp [Url.pairs]

/-! ### Decoding -/

/-- A character that survives encoding and decoding unchanged. -/
theorem formDecode_safe (s : Text)
    (h : ∀ c ∈ s, c ≠ '%' ∧ c ≠ '+' ∧ isTabNl c = false) : formDecode (encodeQuery s) = s := by
  induction s with
  | nil => simp [encodeQuery, formDecode]
  | cons c r ih =>
    obtain ⟨h1, h2, h3⟩ := h c List.mem_cons_self
    have ih := ih (fun x hx => h x (List.mem_cons_of_mem _ hx))
    have : encodeQuery (c :: r) = (if inQuerySet c then .enc c else .raw c) :: encodeQuery r := by
      simp [encodeQuery, h3]
    rw [this]
    split
    · simp [formDecode, ih]
    · rw [formDecode]
      · rw [ih]; simp [h2]
      · intro a b r' _
        exact h1

theorem encode_no (x : Char) (hx : inQuerySet x = false) (s : Text) (h : x ∉ s) :
    ∀ q ∈ encodeQuery s, q ≠ QC.raw x := by
  intro q hq
  simp only [encodeQuery, List.mem_map, List.mem_filter] at hq
  obtain ⟨c, ⟨hc, _⟩, rfl⟩ := hq
  split
  · simp
  · intro hh
    injection hh with hh
    exact h (hh ▸ hc)

theorem takeWhile_all {α} (p : α → Bool) (a : List α) (h : ∀ x ∈ a, p x = true) :
    a.takeWhile p = a := by
  induction a with
  | nil => rfl
  | cons c r ih =>
    simp [List.takeWhile, h c List.mem_cons_self, ih (fun x hx => h x (List.mem_cons_of_mem _ hx))]

theorem dropWhile_all {α} (p : α → Bool) (a : List α) (h : ∀ x ∈ a, p x = true) :
    a.dropWhile p = [] := by
  induction a with
  | nil => rfl
  | cons c r ih =>
    simp [List.dropWhile, h c List.mem_cons_self, ih (fun x hx => h x (List.mem_cons_of_mem _ hx))]

theorem takeWhile_stop {α} (p : α → Bool) (a : List α) (s : α) (b : List α)
    (h : ∀ x ∈ a, p x = true) (hs : p s = false) : (a ++ s :: b).takeWhile p = a := by
  induction a with
  | nil => simp [List.takeWhile, hs]
  | cons c r ih =>
    simp [List.takeWhile, h c List.mem_cons_self, ih (fun x hx => h x (List.mem_cons_of_mem _ hx))]

theorem dropWhile_stop {α} (p : α → Bool) (a : List α) (s : α) (b : List α)
    (h : ∀ x ∈ a, p x = true) (hs : p s = false) : (a ++ s :: b).dropWhile p = s :: b := by
  induction a with
  | nil => simp [List.dropWhile, hs]
  | cons c r ih =>
    simp [List.dropWhile, h c List.mem_cons_self, ih (fun x hx => h x (List.mem_cons_of_mem _ hx))]

/-- `key=rest` where the key has no `=`. -/
theorem parsePair_eq (k : Text) (v : List QC)
    (hk : ∀ c ∈ k, c ≠ '%' ∧ c ≠ '+' ∧ isTabNl c = false) (hk' : '=' ∉ k) :
    parsePair (encodeQuery k ++ .raw '=' :: v) = (k, formDecode v) := by
  have h := encode_no '=' (by decide) k hk'
  have h' : ∀ q ∈ encodeQuery k, (q != QC.raw '=') = true := fun q hq => by simpa using h q hq
  simp only [parsePair]
  rw [takeWhile_stop _ _ _ _ h' (by simp), dropWhile_stop _ _ _ _ h' (by simp)]
  rw [formDecode_safe k hk]
  simp

theorem parsePair_bare (k : Text)
    (hk : ∀ c ∈ k, c ≠ '%' ∧ c ≠ '+' ∧ isTabNl c = false) (hk' : '=' ∉ k) :
    parsePair (encodeQuery k) = (k, []) := by
  have h := encode_no '=' (by decide) k hk'
  have h' : ∀ q ∈ encodeQuery k, (q != QC.raw '=') = true := fun q hq => by simpa using h q hq
  simp only [parsePair]
  rw [takeWhile_all _ _ h', dropWhile_all _ _ h', formDecode_safe k hk]
  simp [formDecode]

theorem encodeQuery_eqSign (v : Text) : encodeQuery ('=' :: v) = .raw '=' :: encodeQuery v := by
  have : inQuerySet '=' = false := by decide
  simp [encodeQuery, isTabNl, this]

theorem encodeQuery_ne_nil {k : Text} (hne : k ≠ []) (h : ∀ c ∈ k, isTabNl c = false) :
    encodeQuery k ≠ [] := by
  cases k with
  | nil => exact absurd rfl hne
  | cons c r => simp [encodeQuery, h c List.mem_cons_self]

/-- `key=value` with a clean value: exactly that pair. -/
theorem pairs_kv (k v : Text)
    (hk : ∀ c ∈ k, c ≠ '%' ∧ c ≠ '+' ∧ isTabNl c = false) (hk1 : '=' ∉ k) (hk2 : '&' ∉ k)
    (hv : ∀ c ∈ v, c ≠ '%' ∧ c ≠ '+' ∧ isTabNl c = false) (hv2 : '&' ∉ v) :
    pairsOf (encodeQuery (k ++ '=' :: v)) = [(k, v)] := by
  have hno : ∀ q ∈ encodeQuery (k ++ '=' :: v), (q == QC.raw '&') = false := by
    intro q hq
    have := encode_no '&' (by decide) (k ++ '=' :: v) (by simp [hk2, hv2]) q hq
    simpa using this
  simp only [pairsOf]
  rw [splitAll_none _ _ hno]
  rw [encodeQuery_append, encodeQuery_eqSign]
  simp [parsePair_eq k _ hk hk1, formDecode_safe v hv]

theorem pairs_bare (k : Text) (hne : k ≠ [])
    (hk : ∀ c ∈ k, c ≠ '%' ∧ c ≠ '+' ∧ isTabNl c = false) (hk1 : '=' ∉ k) (hk2 : '&' ∉ k) :
    pairsOf (encodeQuery k) = [(k, [])] := by
  have hno : ∀ q ∈ encodeQuery k, (q == QC.raw '&') = false := by
    intro q hq
    have := encode_no '&' (by decide) k hk2 q hq
    simpa using this
  simp only [pairsOf]
  rw [splitAll_none _ _ hno]
  have := encodeQuery_ne_nil hne (fun c hc => (hk c hc).2.2)
  have h2 : (encodeQuery k).isEmpty = false := by
    cases h : encodeQuery k with
    | nil => exact absurd h this
    | cons => rfl
  simp [h2, parsePair_bare k hk hk1]

/-- Whatever the value contains, the parameter `key` is there. -/
theorem key_survives (k v : Text)
    (hk : ∀ c ∈ k, c ≠ '%' ∧ c ≠ '+' ∧ isTabNl c = false) (hk1 : '=' ∉ k) (hk2 : '&' ∉ k) :
    ∃ w r, pairsOf (encodeQuery (k ++ '=' :: v)) = (k, w) :: r := by
  have hno : ∀ q ∈ encodeQuery (k ++ ['=']), (q == QC.raw '&') = false := by
    intro q hq
    have := encode_no '&' (by decide) (k ++ ['=']) (by simp [hk2]) q hq
    simpa using this
  obtain ⟨x, y, h1, h2⟩ := splitAll_prefix (· == QC.raw '&') (encodeQuery (k ++ ['='])) (encodeQuery v) hno
  have he : encodeQuery (k ++ '=' :: v) = encodeQuery (k ++ ['=']) ++ encodeQuery v := by
    rw [← encodeQuery_append]; simp
  simp only [pairsOf]
  rw [he, h2]
  have hk3 : encodeQuery (k ++ ['=']) ++ x = encodeQuery k ++ .raw '=' :: x := by
    rw [encodeQuery_append, encodeQuery_eqSign]; simp [encodeQuery]
  rw [hk3]
  simp only [List.filter_cons]
  simp [parsePair_eq k _ hk hk1]

end Verif.HttpUrl
