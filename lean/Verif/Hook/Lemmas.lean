import Verif.Hook.Spec
import Verif.HttpUrl.Lemmas

/-!
# Lemmas: maps, headers and URLs
-/

namespace Verif.Hook

open Verif.Mustache (Text)
open Verif.HttpUrl (QC encodeQuery pairsOf cutAt isTabNl parsePair)

set_option linter.unusedSimpArgs false

/-! ## The order -/

theorem lt_irrefl : ∀ a : Text, ltText a a = false
  | [] => rfl
  | c :: r => by simp [ltText, lt_irrefl r]

theorem lt_ne {a b : Text} (h : ltText a b = true) : a ≠ b := by
  rintro rfl; rw [lt_irrefl] at h; cases h

theorem lt_trans : ∀ {a b c : Text}, ltText a b = true → ltText b c = true → ltText a c = true
  | [], [], _, h, _ => by cases h
  | [], _ :: _, [], _, h => by cases h
  | [], _ :: _, _ :: _, _, _ => rfl
  | _ :: _, [], _, h, _ => by cases h
  | _ :: _, _ :: _, [], _, h => by cases h
  | a :: x, b :: y, c :: z, h, h' => by
    simp only [ltText, Bool.or_eq_true, decide_eq_true_eq, Bool.and_eq_true, beq_iff_eq] at h h' ⊢
    rcases h with h | ⟨rfl, h⟩
    · rcases h' with h' | ⟨rfl, h'⟩
      · left; omega
      · left; exact h
    · rcases h' with h' | ⟨rfl, h'⟩
      · left; exact h'
      · right; exact ⟨rfl, lt_trans h h'⟩

theorem lt_total : ∀ {a b : Text}, a ≠ b → ltText a b = false → ltText b a = true
  | [], [], h, _ => absurd rfl h
  | [], _ :: _, _, h => by cases h
  | _ :: _, [], _, _ => rfl
  | a :: x, b :: y, h, h' => by
    simp only [ltText, Bool.or_eq_false_iff, decide_eq_false_iff_not, Bool.and_eq_false_iff, beq_eq_false_iff_ne] at h'
    simp only [ltText, Bool.or_eq_true, decide_eq_true_eq, Bool.and_eq_true, beq_iff_eq]
    by_cases e : a = b
    · subst e
      right
      refine ⟨rfl, lt_total (fun e => h (by rw [e])) ?_⟩
      rcases h'.2 with h2 | h2
      · exact absurd rfl h2
      · exact h2
    · left
      have : a.toNat ≠ b.toNat := fun e' => e (Char.ext (UInt32.toNat_inj.1 e'))
      omega

/-! ## Maps -/

/-- Sorted by keys. -/
abbrev Sorted (m : List (Text × Text)) : Prop := m.Pairwise (fun a b => ltText a.1 b.1 = true)

theorem mem_put {k v : Text} : ∀ {m : List (Text × Text)} {x : Text × Text}, x ∈ put k v m → x = (k, v) ∨ x ∈ m
  | [], x, h => by rw [put] at h; exact .inl (List.mem_singleton.1 h)
  | (k', v') :: r, x, h => by
    rw [put] at h
    split at h
    · rcases List.mem_cons.1 h with h | h
      · exact .inl h
      · exact .inr (List.mem_cons_of_mem _ h)
    · split at h
      · rcases List.mem_cons.1 h with h | h
        · exact .inl h
        · exact .inr h
      · rcases List.mem_cons.1 h with h | h
        · exact .inr (by rw [h]; exact List.mem_cons_self)
        · rcases mem_put h with h | h
          · exact .inl h
          · exact .inr (List.mem_cons_of_mem _ h)

theorem sorted_put {k v : Text} : ∀ {m : List (Text × Text)}, Sorted m → Sorted (put k v m)
  | [], _ => by rw [put]; exact List.pairwise_singleton _ _
  | (k', v') :: r, h => by
    obtain ⟨h1, h2⟩ := List.pairwise_cons.1 h
    rw [put]
    split
    · next e => exact List.pairwise_cons.2 ⟨fun a ha => by rw [show (k, v).1 = k' from e]; exact h1 a ha, h2⟩
    · next e =>
      split
      · next hl =>
        refine List.pairwise_cons.2 ⟨fun a ha => ?_, h⟩
        rcases List.mem_cons.1 ha with rfl | ha
        · exact hl
        · exact lt_trans hl (h1 a ha)
      · next hl =>
        refine List.pairwise_cons.2 ⟨fun a ha => ?_, sorted_put h2⟩
        rcases mem_put ha with rfl | ha
        · exact lt_total e (by simpa using hl)
        · exact h1 a ha

theorem sorted_fold : ∀ (l m : List (Text × Text)), Sorted m → Sorted (l.foldl (fun m x => put x.1 x.2 m) m)
  | [], _, h => h
  | x :: r, m, h => sorted_fold r _ (sorted_put h)

theorem sorted_toMap (l : List (Text × Text)) : Sorted (toMap l) := sorted_fold l [] List.Pairwise.nil

theorem mem_fold : ∀ (l m : List (Text × Text)) {x : Text × Text}, x ∈ l.foldl (fun m x => put x.1 x.2 m) m → x ∈ l ∨ x ∈ m
  | [], _, _, h => .inr h
  | y :: r, m, x, h => by
    rcases mem_fold r _ h with h | h
    · exact .inl (List.mem_cons_of_mem _ h)
    · rcases mem_put h with h | h
      · exact .inl (by rw [h]; exact List.mem_cons_self)
      · exact .inr h

theorem mem_toMap {l : List (Text × Text)} {x : Text × Text} (h : x ∈ toMap l) : x ∈ l := by
  rcases mem_fold l [] h with h | h
  · exact h
  · cases h

theorem put_last {k v : Text} : ∀ {m : List (Text × Text)}, (∀ x ∈ m, ltText x.1 k = true) → put k v m = m ++ [(k, v)]
  | [], _ => rfl
  | (k', v') :: r, h => by
    have h0 := h (k', v') List.mem_cons_self
    have hne : k ≠ k' := fun e => lt_ne h0 e.symm
    have hl : ¬ ltText k k' = true := by
      intro hl
      have := lt_trans hl h0
      rw [lt_irrefl] at this; cases this
    rw [put, if_neg hne, if_neg hl, put_last (fun x hx => h x (List.mem_cons_of_mem _ hx))]
    rfl

theorem fold_sorted : ∀ (l m : List (Text × Text)), Sorted (m ++ l) → l.foldl (fun m x => put x.1 x.2 m) m = m ++ l
  | [], m, _ => (List.append_nil m).symm
  | x :: r, m, h => by
    have h1 := (List.pairwise_append.1 h).2.2
    rw [List.foldl_cons, put_last (fun y hy => h1 y hy x List.mem_cons_self)]
    have : (m ++ [(x.1, x.2)]) ++ r = m ++ x :: r := by simp
    rw [fold_sorted r _ (by rw [this]; exact h), this]

theorem toMap_sorted {m : List (Text × Text)} (h : Sorted m) : toMap m = m := fold_sorted m [] h

theorem sorted_nodup {m : List (Text × Text)} (h : Sorted m) : (m.map (·.1)).Nodup := by
  rw [List.Nodup, List.pairwise_map]
  exact h.imp (fun hab => lt_ne hab)

/-! ## Looking up -/

/-- The value of a key. -/
def look (m : List (Text × Text)) (k : Text) : Option Text := (m.find? (fun x => x.1 = k)).map (·.2)

theorem look_nil (k : Text) : look [] k = none := rfl

theorem look_cons (x : Text × Text) (r : List (Text × Text)) (k : Text) : look (x :: r) k = if x.1 = k then some x.2 else look r k := by
  rw [look, List.find?_cons]
  by_cases h : x.1 = k
  · simp [h]
  · simp [h, look]

theorem look_none {m : List (Text × Text)} {k : Text} (h : k ∉ m.map (·.1)) : look m k = none := by
  induction m with
  | nil => rfl
  | cons x r ih =>
    rw [look_cons, if_neg (fun e => h (by rw [← e]; simp)), ih (fun hk => h (by rw [List.map_cons]; exact List.mem_cons_of_mem _ hk))]

theorem look_put {k v n : Text} : ∀ {m : List (Text × Text)}, look (put k v m) n = if k = n then some v else look m n
  | [] => by rw [put, look_cons, look_nil]
  | (k', v') :: r => by
    rw [put]
    split
    · next e =>
      subst e
      rw [look_cons, look_cons]
      by_cases h : k = n <;> simp [h]
    · next e =>
      split
      · rw [look_cons]
      · rw [look_cons, look_put, look_cons]
        by_cases h : k' = n
        · simp only [h, if_pos]
          rw [if_neg (fun e' => e (e'.trans h.symm))]
        · simp only [h, if_neg, if_false]

theorem look_fold : ∀ (l m : List (Text × Text)) (n : Text), (l.map (·.1)).Nodup →
    look (l.foldl (fun m x => put x.1 x.2 m) m) n = (look l n).or (look m n)
  | [], m, n, _ => by simp [look_nil]
  | x :: r, m, n, h => by
    rw [List.map_cons, List.nodup_cons] at h
    rw [List.foldl_cons, look_fold r _ n h.2, look_put, look_cons]
    by_cases e : x.1 = n
    · rw [if_pos e, if_pos e, look_none (by rw [← e]; exact h.1)]; rfl
    · rw [if_neg e, if_neg e]

theorem look_toMap {l : List (Text × Text)} (h : (l.map (·.1)).Nodup) (n : Text) : look (toMap l) n = look l n := by
  rw [toMap, look_fold l [] n h, look_nil, Option.or_none]

theorem values_look {l : List (Text × Text)} (h : (l.map (·.1)).Nodup) (n : Text) : values l n = (look l n).toList := by
  induction l with
  | nil => rfl
  | cons x r ih =>
    rw [List.map_cons, List.nodup_cons] at h
    rw [look_cons, values, List.filter_cons]
    have hr : values r n = (look r n).toList := ih h.2
    by_cases e : x.1 = n
    · rw [if_pos (by simpa using e), if_pos e, List.map_cons]
      rw [look_none (by rw [← e]; exact h.1)] at hr
      rw [show List.map (·.2) (List.filter (fun x => decide (x.1 = n)) r) = [] from hr]; rfl
    · rw [if_neg (by simpa using e), if_neg e]; exact hr

theorem values_set (h : List (Text × Text)) (k v n : Text) : values (setHeader h k v) n = if k = n then [v] else values h n := by
  have hf : ∀ l : List (Text × Text), values (l.filterMap (fun x => if x.1 = k then none else some x)) n = if k = n then [] else values l n := by
    intro l
    induction l with
    | nil => simp [values]
    | cons x r ih =>
      rw [List.filterMap_cons]
      by_cases e : x.1 = k
      · simp only [e, if_pos]
        rw [ih]
        by_cases e' : k = n
        · simp [e']
        · rw [if_neg e', if_neg e', values, values, List.filter_cons, if_neg (by rw [e]; simpa using e')]
      · simp only [e, if_neg, if_false]
        by_cases e' : x.1 = n
        · have hkn : ¬ k = n := fun e2 => e (e'.trans e2.symm)
          rw [if_neg hkn] at ih ⊢
          rw [values, List.filter_cons, if_pos (by simpa using e'), values, List.filter_cons, if_pos (by simpa using e'), List.map_cons,
            List.map_cons]
          exact congrArg _ ih
        · have hc : ∀ l : List (Text × Text), values (x :: l) n = values l n := fun l => by
            rw [values, List.filter_cons, if_neg (by simpa using e'), values]
          rw [hc, hc]
          exact ih
  have ha : ∀ l, values (l ++ [(k, v)]) n = values l n ++ if k = n then [v] else [] := by
    intro l
    rw [values, List.filter_append, List.map_append]
    by_cases e : k = n <;> simp [e, values]
  rw [setHeader]
  split
  · rw [ha, hf]
    by_cases e : k = n <;> simp [e]
  · next hn =>
    rw [ha]
    by_cases e : k = n
    · have : values h n = [] := by
        rw [values, List.map_eq_nil_iff, List.filter_eq_nil_iff]
        intro x hx he
        exact hn (List.any_eq_true.2 ⟨x, hx, by simpa [e] using he⟩)
      simp [e, this]
    · simp [e]

theorem headers_ok : ∀ (m acc : List (Text × Text)), (∀ x ∈ m, headerName x.1 = some x.1 ∧ validValue x.2 = true) →
    headersFrom m acc = .ok (m.foldl (fun a x => setHeader a x.1 x.2) acc)
  | [], acc, _ => rfl
  | (k, v) :: r, acc, h => by
    obtain ⟨h1, h2⟩ := h (k, v) List.mem_cons_self
    simp only at h1 h2
    rw [headersFrom, h1]
    simp only
    rw [if_pos h2, headers_ok r _ (fun x hx => h x (List.mem_cons_of_mem _ hx))]
    rfl

theorem values_fold : ∀ (m acc : List (Text × Text)) (n : Text), (m.map (·.1)).Nodup →
    values (m.foldl (fun a x => setHeader a x.1 x.2) acc) n = match look m n with | some v => [v] | none => values acc n
  | [], acc, n, _ => rfl
  | x :: r, acc, n, h => by
    rw [List.map_cons, List.nodup_cons] at h
    rw [List.foldl_cons, values_fold r _ n h.2, values_set, look_cons]
    by_cases e : x.1 = n
    · rw [if_pos e, if_pos e, look_none (by rw [← e]; exact h.1)]
    · rw [if_neg e, if_neg e]

theorem visible_valid {v : Text} (h : visible v = true) : validValue v = true := by
  rw [visible, List.all_eq_true] at h
  rw [validValue, List.all_eq_true]
  intro c hc
  have := h c hc
  simp only [Bool.or_eq_true, Bool.and_eq_true, decide_eq_true_eq, beq_iff_eq] at this ⊢
  rcases this with h | h
  · left; exact ⟨h.1, by omega⟩
  · right; exact h

theorem headers_back {h : List (Text × Text)} (hp : PlainHeaders h) : ∃ h', headersFrom (toMap h) [] = .ok h' ∧ ∀ n, values h' n = values h n := by
  refine ⟨_, headers_ok _ _ (fun x hx => ?_), fun n => ?_⟩
  · have hm := mem_toMap hx
    obtain ⟨h1, h2, h3⟩ := hp.names x hm
    refine ⟨?_, visible_valid (hp.values x hm)⟩
    rw [headerName, if_pos, h3]
    have : x.1.isEmpty = false := by simpa using h1
    rw [this]
    simpa using h2
  · rw [values_fold _ _ _ (sorted_nodup (sorted_toMap h)), look_toMap hp.distinct, values_look hp.distinct]
    cases look h n <;> rfl

/-! ## Values -/

theorem strings_map : ∀ (m : List (Text × Text)), strings (m.map (fun x => (x.1, .str x.2))) = .ok m
  | [] => rfl
  | x :: r => by rw [List.map_cons, strings, asStr, strings_map r]; rfl

theorem asMap_ofMap {m : List (Text × Text)} (h : Sorted m) : asMap (ofMap m) = .ok m := by
  rw [ofMap, asMap, asObj]
  simp only
  rw [strings_map, Except.map, toMap_sorted h]

theorem asOptStr_of (o : Option Text) : asOptStr (ofOptStr o) = .ok o := by cases o <;> rfl

theorem asOptU16_of {o : Option Nat} (h : ∀ p, o = some p → p < 65536) : asOptU16 (ofOptNum o) = .ok o := by
  cases o with
  | none => rfl
  | some p =>
    have hp := h p rfl
    rw [ofOptNum, asOptU16]
    · rw [asU16, if_pos ⟨by omega, by omega⟩]; simp [Except.map]
    · intro e; cases e
    · intro e; cases e

theorem uri_back {u : Uri} (hq : Sorted u.query) (hp : ∀ p, u.port = some p → p < 65536) : uriFromJs (uriToJs u) = .ok u := by
  have hs : schemeFromJs (.str (if u.https then "https".toList else "http".toList)) = .ok u.https := by
    cases u.https <;> rfl
  show (do
    let path ← asStr (.str u.path)
    let query ← asMap (ofMap u.query)
    let https ← schemeFromJs (.str (if u.https then "https".toList else "http".toList))
    let host ← asOptStr (ofOptStr u.host)
    let port ← asOptU16 (ofOptNum u.port)
    return (⟨path, query, https, host, port⟩ : Uri)) = _
  rw [asMap_ofMap hq, hs, asOptStr_of, asOptU16_of hp]
  rfl

/-! ## URLs -/

theorem queryText_eq : ∀ (p : List (Text × Text)), queryText p = written p
  | [] => rfl
  | [x] => by simp [queryText, written, List.intercalate, List.intersperse]
  | x :: y :: r => by
    rw [queryText, queryText_eq (y :: r)]
    · simp [written, List.intercalate, List.intersperse]
    · intro e; cases e

theorem written_chars {p : List (Text × Text)} {P : Char → Prop} (h1 : P '&') (h2 : P '=') (h : ∀ x ∈ p, ∀ c ∈ x.1 ++ x.2, P c) :
    ∀ c ∈ written p, P c := by
  induction p using queryText.induct with
  | case1 => intro c hc; exact absurd hc List.not_mem_nil
  | case2 k v =>
    intro c hc
    have e : written [(k, v)] = k ++ '=' :: v := by simp [written, List.intercalate, List.intersperse]
    rw [e] at hc
    have := h (k, v) (by simp)
    rcases List.mem_append.1 hc with hc | hc
    · exact this c (List.mem_append_left _ hc)
    · rcases List.mem_cons.1 hc with rfl | hc
      · exact h2
      · exact this c (List.mem_append_right _ hc)
  | case3 k v r hr ih =>
    intro c hc
    rw [← queryText_eq, queryText] at hc
    · rw [queryText_eq] at hc
      have := h (k, v) (by simp)
      have hc' : c ∈ k ∨ c = '=' ∨ c ∈ v ∨ c = '&' ∨ c ∈ written r := by simpa using hc
      rcases hc' with hc | rfl | hc | rfl | hc
      · exact this c (List.mem_append_left _ hc)
      · exact h2
      · exact this c (List.mem_append_right _ hc)
      · exact h1
      · exact ih (fun x hx => h x (List.mem_cons_of_mem _ hx)) c hc
    · intro e; exact hr e

theorem pairs_one {k v : Text} (hk : '=' ∉ k) (h : ∀ c ∈ k ++ v, c ≠ '%' ∧ c ≠ '+' ∧ c ≠ '&' ∧ c ≠ '#' ∧ isTabNl c = false) :
    pairsOf (encodeQuery (k ++ '=' :: v)) = [(k, v)] := by
  have hk2 : ∀ c ∈ k, c ≠ '%' ∧ c ≠ '+' ∧ isTabNl c = false := fun c hc =>
    have := h c (List.mem_append_left _ hc); ⟨this.1, this.2.1, this.2.2.2.2⟩
  have hv2 : ∀ c ∈ v, c ≠ '%' ∧ c ≠ '+' ∧ isTabNl c = false := fun c hc =>
    have := h c (List.mem_append_right _ hc); ⟨this.1, this.2.1, this.2.2.2.2⟩
  have hamp : ∀ x ∈ encodeQuery (k ++ '=' :: v), (x == QC.raw '&') = false := by
    intro x hx
    have := Verif.HttpUrl.encode_no '&' (by decide) (k ++ '=' :: v) (by
      intro hm
      rcases List.mem_append.1 hm with hm | hm
      · exact (h '&' (List.mem_append_left _ hm)).2.2.1 rfl
      · rcases List.mem_cons.1 hm with hm | hm
        · cases hm
        · exact (h '&' (List.mem_append_right _ hm)).2.2.1 rfl) x hx
    simpa using this
  have e : encodeQuery (k ++ '=' :: v) = encodeQuery k ++ .raw '=' :: encodeQuery v := by
    rw [Verif.HttpUrl.encodeQuery_append, Verif.HttpUrl.encodeQuery_eqSign]
  rw [pairsOf, Verif.HttpUrl.splitAll_none _ _ hamp, e]
  have hne : (encodeQuery k ++ QC.raw '=' :: encodeQuery v).isEmpty = false := by
    cases encodeQuery k <;> rfl
  simp only [List.filter_cons, hne, Bool.not_false, if_true, List.filter_nil, List.map_cons, List.map_nil]
  rw [Verif.HttpUrl.parsePair_eq k _ hk2 hk, Verif.HttpUrl.formDecode_safe v hv2]

theorem pairs_written : ∀ (p : List (Text × Text)), p ≠ [] →
    (∀ x ∈ p, '=' ∉ x.1 ∧ ∀ c ∈ x.1 ++ x.2, c ≠ '%' ∧ c ≠ '+' ∧ c ≠ '&' ∧ c ≠ '#' ∧ isTabNl c = false) → pairsOf (encodeQuery (written p)) = p
  | [], h, _ => absurd rfl h
  | [x], _, h => by
    have e : written [x] = x.1 ++ '=' :: x.2 := by simp [written, List.intercalate, List.intersperse]
    obtain ⟨h1, h2⟩ := h x (by simp)
    rw [e, pairs_one h1 h2]
  | x :: y :: r, _, h => by
    have e : written (x :: y :: r) = (x.1 ++ '=' :: x.2) ++ '&' :: written (y :: r) := by simp [written, List.intercalate, List.intersperse]
    obtain ⟨h1, h2⟩ := h x (by simp)
    rw [e, Verif.HttpUrl.pairsOf_encode_join, pairs_one h1 h2, pairs_written (y :: r) (by simp) (fun z hz => h z (List.mem_cons_of_mem _ hz))]
    rfl

theorem written_ne {p : List (Text × Text)} (h : p ≠ []) : written p ≠ [] := by
  cases p with
  | nil => exact absurd rfl h
  | cons x r =>
    cases r with
    | nil => simp [written, List.intercalate, List.intersperse]
    | cons y r => simp [written, List.intercalate, List.intersperse]

theorem cut_none {c : Char} {s : Text} (h : c ∉ s) : cutAt c s = (s, none) := by
  have h1 : ∀ x ∈ s, (x != c) = true := fun x hx => by
    rw [bne_iff_ne]; rintro rfl; exact h hx
  have hd : s.dropWhile (· != c) = [] := by
    have := List.dropWhile_append_of_pos (l₂ := []) h1
    rw [List.append_nil] at this; rw [this]; rfl
  have ht : s.takeWhile (· != c) = s := by
    have := List.takeWhile_append_dropWhile (p := (· != c)) (l := s)
    rw [hd, List.append_nil] at this; exact this
  rw [cutAt, hd, ht]

theorem cut_some {c : Char} {a b : Text} (h : c ∉ a) : cutAt c (a ++ c :: b) = (a, some b) := by
  have h1 : ∀ x ∈ a, (x != c) = true := fun x hx => by
    rw [bne_iff_ne]; rintro rfl; exact h hx
  have hd : (a ++ c :: b).dropWhile (· != c) = c :: b := by
    rw [List.dropWhile_append_of_pos h1, List.dropWhile_cons_of_neg (by simp)]
  have ht : (a ++ c :: b).takeWhile (· != c) = a := by
    rw [List.takeWhile_append_of_pos h1, List.takeWhile_cons_of_neg (by simp), List.append_nil]
  rw [cutAt, hd, ht]

theorem sorted_uri (u : Url) : Sorted (uriOf u).query := sorted_toMap _

theorem url_back {U : Urls} {u : Url} (h : PlainUrl U u) : parseUri U (uriOf u) = .ok u := by
  obtain ⟨hs, hu, hf, ⟨ho, hh, hn⟩, ⟨hp1, hp2⟩, _, hq⟩ := h
  obtain ⟨scheme, user, host, port, path, query, frag⟩ := u
  simp only at hs hu hf hh hn hp1 hp2 hq
  subst hu hf hh
  have hsch : (if decide (scheme = "https".toList) = true then "https".toList else "http".toList) = scheme := by
    rcases hs with rfl | rfl <;> decide
  cases hq with
  | none =>
    have e : (uriOf ⟨scheme, none, some ho, port, path, none, none⟩).tail = path := rfl
    rw [parseUri, e, cut_none hp2]
    simp only
    rw [cut_none hp1]
    simp only
    have e2 : U.norm (uriOf ⟨scheme, none, some ho, port, path, none, none⟩).https
      ((uriOf ⟨scheme, none, some ho, port, path, none, none⟩).host.getD "localhost".toList) (uriOf ⟨scheme, none, some ho, port, path, none, none⟩).port path =
      some (some ho, port, path) := hn
    rw [e2]
    simp only [Option.map_none]
    rw [show (uriOf ⟨scheme, none, some ho, port, path, none, none⟩).https = decide (scheme = "https".toList) from rfl, hsch]
  | @some pairs hne hsort hch =>
    have hpairs : pairsOf (encodeQuery (written pairs)) = pairs := pairs_written pairs hne hch
    have eq : (uriOf ⟨scheme, none, some ho, port, path, some (encodeQuery (written pairs)), none⟩).query = pairs := by
      show toMap (pairsOf (encodeQuery (written pairs))) = pairs
      rw [hpairs, toMap_sorted hsort]
    have et : (uriOf ⟨scheme, none, some ho, port, path, some (encodeQuery (written pairs)), none⟩).tail = path ++ '?' :: written pairs := by
      rw [Uri.tail, eq, queryText_eq]
      rw [if_neg (by simpa using written_ne hne)]
      rfl
    have hhash : '#' ∉ path ++ '?' :: written pairs := by
      intro hm
      rcases List.mem_append.1 hm with hm | hm
      · exact hp2 hm
      · rcases List.mem_cons.1 hm with hm | hm
        · cases hm
        · exact written_chars (P := fun c => c ≠ '#') (by decide) (by decide) (fun x hx c hc => ((hch x hx).2 c hc).2.2.2.1) '#' hm rfl
    rw [parseUri, et, cut_none hhash]
    simp only
    rw [cut_some hp1]
    simp only
    have e2 : U.norm (uriOf ⟨scheme, none, some ho, port, path, some (encodeQuery (written pairs)), none⟩).https
      ((uriOf ⟨scheme, none, some ho, port, path, some (encodeQuery (written pairs)), none⟩).host.getD "localhost".toList)
      (uriOf ⟨scheme, none, some ho, port, path, some (encodeQuery (written pairs)), none⟩).port path =
      some (some ho, port, path) := hn
    rw [e2]
    simp only [Option.map_some]
    rw [show (uriOf ⟨scheme, none, some ho, port, path, some (encodeQuery (written pairs)), none⟩).https = decide (scheme = "https".toList) from rfl, hsch]

/-! ## Requests -/

theorem req_back {U : Urls} {r : Req} (h : PlainReq U r) : ∃ a r', reqToJs r = .ok a ∧ reqFromJs U a = .ok r' ∧ Same r r' := by
  have hv : r.headers.all (fun h => visible h.2) = true := List.all_eq_true.2 (fun x hx => h.headers.values x hx)
  obtain ⟨h', e1, e2⟩ := headers_back h.headers
  have hbody : (bodyText r.body).map Body.text = r.body := by
    rcases h.body with e | ⟨t, e⟩ <;> rw [e] <;> rfl
  have hm : validMethod r.method = true := by
    rw [validMethod]
    have : r.method.isEmpty = false := by simpa using h.method.1
    rw [this]
    simpa using h.method.2
  refine ⟨_, ⟨r.method, r.url, h', r.body⟩, by rw [reqToJs, if_pos hv], ?_, rfl, rfl, rfl, e2⟩
  show (do
    let uri ← uriFromJs (uriToJs (uriOf r.url))
    let method ← asStr (.str r.method)
    let headers ← asMap (ofMap (toMap r.headers))
    let body ← asOptStr (ofOptStr (bodyText r.body))
    if validMethod method then
      let url ← parseUri U uri
      let hs ← headersFrom headers []
      return (⟨method, url, hs, body.map .text⟩ : Req)
    else .error .convert) = _
  rw [uri_back (sorted_uri _) h.url.port, asMap_ofMap (sorted_toMap _), asOptStr_of]
  show (if validMethod r.method then (do
      let url ← parseUri U (uriOf r.url)
      let hs ← headersFrom (toMap r.headers) []
      return (⟨r.method, url, hs, (bodyText r.body).map .text⟩ : Req)) else .error .convert) = _
  rw [if_pos hm, url_back h.url, e1, hbody]
  rfl

end Verif.Hook
