import Verif.Proto.Spec

/-!
# Names: joining, splitting, and that names are distinct
-/

namespace Verif.Proto

open Verif.Mustache (Text)

set_option linter.unusedSimpArgs false

theorem inter_cons (s t u : Text) (r : List Text) : List.intercalate s (t :: u :: r) = t ++ s ++ List.intercalate s (u :: r) := by
  simp [List.intercalate, List.intersperse]

theorem inter_one (s t : Text) : List.intercalate s [t] = t := by simp [List.intercalate, List.intersperse]

theorem join_inter (s : Text) : ∀ l, join s l = List.intercalate s l
  | [] => by simp [join, List.intercalate, List.intersperse]
  | [t] => by rw [join, inter_one]
  | t :: u :: r => by rw [join, inter_cons, join_inter s (u :: r)]; intro h; cases h

theorem inter_append (s : Text) (b : Text) (r : List Text) : ∀ l : List Text, l ≠ [] →
    List.intercalate s (l ++ b :: r) = List.intercalate s l ++ s ++ List.intercalate s (b :: r)
  | [], h => absurd rfl h
  | [t], _ => by
    show List.intercalate s (t :: b :: r) = _
    rw [inter_cons, inter_one]
  | t :: u :: l, _ => by
    show List.intercalate s (t :: u :: (l ++ b :: r)) = _
    rw [inter_cons, inter_cons]
    show t ++ s ++ List.intercalate s ((u :: l) ++ b :: r) = _
    rw [inter_append s b r (u :: l) (by simp)]
    simp [List.append_assoc]

/-! ## Splitting at dots -/

theorem splitDot_word {t : Text} (h : ∀ c ∈ t, c ≠ '.') : splitDot t = [t] := by
  induction t with
  | nil => rfl
  | cons c r ih =>
    rw [splitDot, if_neg (h c List.mem_cons_self), ih (fun x hx => h x (List.mem_cons_of_mem _ hx))]

theorem splitDot_cons {t : Text} (h : ∀ c ∈ t, c ≠ '.') (r : Text) : splitDot (t ++ '.' :: r) = t :: splitDot r := by
  induction t with
  | nil => simp [splitDot]
  | cons c t ih =>
    rw [List.cons_append, splitDot, if_neg (h c List.mem_cons_self), ih (fun x hx => h x (List.mem_cons_of_mem _ hx))]

theorem splitDot_dotted : ∀ l : List Text, l ≠ [] → (∀ t ∈ l, ∀ c ∈ t, c ≠ '.') → splitDot (dotted l) = l
  | [], h, _ => absurd rfl h
  | [t], _, h => by rw [dotted, inter_one, splitDot_word (h t (by simp))]
  | t :: u :: r, _, h => by
    rw [dotted, inter_cons, List.append_assoc]
    show splitDot (t ++ '.' :: dotted (u :: r)) = _
    rw [splitDot_cons (h t (by simp)), splitDot_dotted (u :: r) (by simp) (fun x hx => h x (List.mem_cons_of_mem _ hx))]

theorem dropWhile_none {p : Char → Bool} {t : Text} (h : ∀ c ∈ t, p c = false) : t.dropWhile p = t := by
  cases t with
  | nil => rfl
  | cons c r => rw [List.dropWhile_cons_of_neg]; rw [h c List.mem_cons_self]; exact Bool.false_ne_true

theorem trim_word {t : Text} (h : Word t) : trim t = t := by
  have h' : ∀ c ∈ t, c.isWhitespace = false := fun c hc => (h.plain c hc).2
  rw [trim, dropWhile_none h', dropWhile_none (fun c hc => h' c (List.mem_reverse.1 hc)), List.reverse_reverse]

theorem clean_words {l : List Text} (h : ∀ t ∈ l, Word t) : (l.map trim).filter (fun t => !t.isEmpty) = l := by
  induction l with
  | nil => rfl
  | cons t r ih =>
    rw [List.map_cons, trim_word (h t (by simp)), List.filter_cons_of_pos, ih (fun x hx => h x (List.mem_cons_of_mem _ hx))]
    have := (h t (by simp)).nonempty
    cases t with
    | nil => exact absurd rfl this
    | cons _ _ => rfl

theorem flatMap_words {l : List Text} (h : ∀ t ∈ l, Word t) : l.flatMap splitDot = l := by
  induction l with
  | nil => rfl
  | cons t r ih =>
    rw [List.flatMap_cons, splitDot_word (fun c hc => ((h t (by simp)).plain c hc).1), ih (fun x hx => h x (List.mem_cons_of_mem _ hx))]
    rfl

theorem head_word {t : Text} (h : Word t) : t.map (fun c => if c = '.' then '_' else c) = t := by
  conv => rhs; rw [← List.map_id t]
  exact List.map_congr_left (fun c hc => if_neg (h.plain c hc).1)

/-- What `parse` makes of a package and names in it. -/
theorem parse_words {P N : List Text} {n : Text} (hP : ∀ t ∈ P, Word t) (hN : ∀ t ∈ N, Word t) (hn : Word n) :
    parse ⟨n, dotted P :: N⟩ = ⟨P ++ N, n⟩ := by
  rw [parse]
  simp only [head_word hn, List.flatMap_cons, flatMap_words hN]
  congr 1
  cases P with
  | nil =>
    show ([[]] ++ N |>.map trim).filter _ = _
    rw [List.map_append, List.filter_append, clean_words hN]
    rfl
  | cons p P =>
    rw [splitDot_dotted (p :: P) (by simp) (fun t ht c hc => ((hP t ht).plain c hc).1), clean_words]
    intro t ht
    rcases List.mem_append.1 ht with h | h
    · exact hP t h
    · exact hN t h

theorem parse_words' {N : List Text} {n : Text} (hN : ∀ t ∈ N, Word t) (hn : Word n) : parse ⟨n, N⟩ = ⟨N, n⟩ := by
  rw [parse]
  simp only [head_word hn, flatMap_words hN, clean_words hN]

/-! ## Names as they should be -/

theorem full_eq (ns : List Text) (n : Text) : (Parsed.mk ns n).full = List.intercalate "__".toList (ns ++ [n]) := by
  rw [Parsed.full]
  cases ns with
  | nil => exact (inter_one _ n).symm
  | cons a r =>
    rw [if_neg (by simp), join_inter, inter_append _ n [] (a :: r) (by simp), inter_one]
    rfl

theorem object_eq (ns : List Text) (n : Text) : (Parsed.mk ns n).object = typeName ns n := by
  rw [Parsed.object, full_eq]; rfl

theorem method_eq (ns : List Text) (s n : Text) : (Parsed.mk (ns ++ [s]) n).method = methodName ns s n := by
  rw [Parsed.method, full_eq, methodName, List.append_assoc]; rfl

theorem id_eq (ns : List Text) (n : Text) : (Parsed.mk ns n).id = dotted (ns ++ [n]) := by
  rw [Parsed.id]
  cases ns with
  | nil => exact (inter_one _ n).symm
  | cons a r =>
    rw [if_neg (by simp), join_inter, dotted, inter_append _ n [] (a :: r) (by simp), inter_one]
    show _ = List.intercalate ['.'] (a :: r) ++ ['.'] ++ n
    simp [List.append_assoc]

/-! ## References -/

theorem spanLoop_word {n : Text} (h : ∀ c ∈ n, c ≠ '.') (r acc : Text) :
    List.span.loop (fun c => decide (c ≠ '.')) (n ++ '.' :: r) acc = (acc.reverse ++ n, '.' :: r) := by
  induction n generalizing acc with
  | nil => simp [List.span.loop]
  | cons c n ih =>
    rw [List.cons_append, List.span.loop, decide_eq_true (h c List.mem_cons_self)]
    simp only []
    rw [ih (fun x hx => h x (List.mem_cons_of_mem _ hx))]
    simp

theorem spanLoop_all {n : Text} (h : ∀ c ∈ n, c ≠ '.') (acc : Text) :
    List.span.loop (fun c => decide (c ≠ '.')) n acc = (acc.reverse ++ n, []) := by
  induction n generalizing acc with
  | nil => simp [List.span.loop]
  | cons c n ih =>
    rw [List.span.loop, decide_eq_true (h c List.mem_cons_self)]
    simp only []
    rw [ih (fun x hx => h x (List.mem_cons_of_mem _ hx))]
    simp

theorem span_word {n : Text} (h : ∀ c ∈ n, c ≠ '.') (r : Text) : (n ++ '.' :: r).span (fun c => c ≠ '.') = (n, '.' :: r) :=
  spanLoop_word h r []

theorem span_all {n : Text} (h : ∀ c ∈ n, c ≠ '.') : n.span (fun c => c ≠ '.') = (n, []) := spanLoop_all h []

theorem rsplit_dot {n : Text} (h : ∀ c ∈ n, c ≠ '.') (p : Text) : rsplitOnce (p ++ '.' :: n) = some (p, n) := by
  rw [rsplitOnce]
  have : (p ++ '.' :: n).reverse = n.reverse ++ '.' :: p.reverse := by simp
  rw [this, span_word (fun c hc => h c (List.mem_reverse.1 hc))]
  simp

theorem rsplit_none {n : Text} (h : ∀ c ∈ n, c ≠ '.') : rsplitOnce n = none := by
  rw [rsplitOnce, span_all (fun c hc => h c (List.mem_reverse.1 hc))]

/-- A reference is parsed to the namespace and the name it was made of. -/
theorem fromRef_dotted {ns : List Text} {n : Text} (hns : ∀ t ∈ ns, Word t) (hn : Word n) :
    ∃ u, fromRef ('.' :: dotted (ns ++ [n])) = .ok u ∧ parse u = ⟨ns, n⟩ := by
  have hd : ∀ c ∈ n, c ≠ '.' := fun c hc => (hn.plain c hc).1
  rw [fromRef]
  cases ns with
  | nil =>
    have : dotted ([] ++ [n]) = n := inter_one _ n
    rw [this, rsplit_none hd]
    exact ⟨_, rfl, parse_words' (N := []) (fun _ h => nomatch h) hn⟩
  | cons a r =>
    have : dotted (a :: r ++ [n]) = dotted (a :: r) ++ '.' :: n := by
      rw [dotted, inter_append _ n [] (a :: r) (by simp), inter_one]
      simp [dotted, List.append_assoc]
    rw [this, rsplit_dot hd]
    refine ⟨_, rfl, ?_⟩
    have := parse_words (P := a :: r) (N := []) hns (fun _ h => nomatch h) hn
    rw [List.append_nil] at this
    exact this

/-! ## Distinct names -/

/-- The text before the first two underscores, and the rest. -/
def cut : Text → Text × Option Text
  | [] => ([], none)
  | [c] => ([c], none)
  | c :: d :: r => if c = '_' ∧ d = '_' then ([], some r) else ((c :: (cut (d :: r)).1), (cut (d :: r)).2)

theorem simple_tail {c d : Char} {r : Text} (h : Simple (c :: d :: r)) : Simple (d :: r) :=
  ⟨fun a b e => h.single (c :: a) b (by rw [e]; rfl), fun a e => h.ends (c :: a) (by rw [e]; rfl)⟩

theorem cut_simple : ∀ {t : Text}, Simple t → cut t = (t, none)
  | [], _ => rfl
  | [c], _ => rfl
  | c :: d :: r, h => by
    rw [cut, if_neg, cut_simple (simple_tail h)]
    rintro ⟨rfl, rfl⟩
    exact h.single [] r rfl

theorem cut_append : ∀ {t : Text}, Simple t → ∀ r, cut (t ++ '_' :: '_' :: r) = (t, some r)
  | [], _, r => by simp [cut]
  | [c], h, r => by
    have : c ≠ '_' := fun e => h.ends [] (by rw [e]; rfl)
    show cut (c :: '_' :: '_' :: r) = _
    rw [cut, if_neg (fun e => this e.1), cut, if_pos ⟨rfl, rfl⟩]
  | c :: d :: t, h, r => by
    show cut (c :: d :: (t ++ '_' :: '_' :: r)) = _
    have ih := cut_append (simple_tail h) r
    rw [List.cons_append] at ih
    rw [cut, if_neg, ih]
    rintro ⟨rfl, rfl⟩
    exact h.single [] t rfl

/-- Different lists of simple names are joined to different names. -/
theorem inter_inj : ∀ {a b : List Text}, a ≠ [] → b ≠ [] → (∀ t ∈ a, Simple t) → (∀ t ∈ b, Simple t) →
    List.intercalate "__".toList a = List.intercalate "__".toList b → a = b
  | [], _, h, _, _, _, _ => absurd rfl h
  | _, [], _, h, _, _, _ => absurd rfl h
  | [s], [t], _, _, _, _, e => by rw [inter_one, inter_one] at e; rw [e]
  | [s], t :: u :: b, _, _, ha, hb, e => by
    exfalso
    rw [inter_one, inter_cons, List.append_assoc] at e
    have h1 := cut_simple (ha s (by simp))
    have h2 := cut_append (hb t (by simp)) (List.intercalate "__".toList (u :: b))
    rw [e] at h1
    have h3 : ("__".toList ++ List.intercalate "__".toList (u :: b)) = '_' :: '_' :: List.intercalate "__".toList (u :: b) := rfl
    rw [h3, h2] at h1
    exact nomatch (congrArg Prod.snd h1)
  | s :: u :: a, [t], _, _, ha, hb, e => by
    exfalso
    rw [inter_one, inter_cons, List.append_assoc] at e
    have h1 := cut_simple (hb t (by simp))
    have h2 := cut_append (ha s (by simp)) (List.intercalate "__".toList (u :: a))
    rw [← e] at h1
    have h3 : ("__".toList ++ List.intercalate "__".toList (u :: a)) = '_' :: '_' :: List.intercalate "__".toList (u :: a) := rfl
    rw [h3, h2] at h1
    exact nomatch (congrArg Prod.snd h1)
  | s :: u :: a, t :: v :: b, _, _, ha, hb, e => by
    rw [inter_cons, inter_cons, List.append_assoc, List.append_assoc] at e
    have h1 := cut_append (ha s (by simp)) (List.intercalate "__".toList (u :: a))
    have h2 := cut_append (hb t (by simp)) (List.intercalate "__".toList (v :: b))
    have h3 : ∀ x : Text, "__".toList ++ x = '_' :: '_' :: x := fun _ => rfl
    rw [h3, h3] at e
    rw [e, h2] at h1
    simp only [Prod.mk.injEq, Option.some.injEq] at h1
    rw [h1.1, inter_inj (by simp) (by simp) (fun x hx => ha x (List.mem_cons_of_mem _ hx)) (fun x hx => hb x (List.mem_cons_of_mem _ hx)) h1.2.symm]

/-- The parts of the name of a type. -/
def parts (ns : List Text) (n : Text) : List Text := (if Verif.Tmpl.predefined n then [] else ["GEN".toList]) ++ (ns ++ [n])

theorem typeName_parts (ns : List Text) (n : Text) : typeName ns n = List.intercalate "__".toList (parts ns n) := by
  rw [typeName, parts]
  split
  · rfl
  · cases h : ns ++ [n] with
    | nil => exact absurd h (by simp)
    | cons a r =>
      show _ = List.intercalate _ ("GEN".toList :: a :: r)
      rw [inter_cons]
      rfl

theorem parts_ne (ns : List Text) (n : Text) : parts ns n ≠ [] := by rw [parts]; simp

theorem parts_inj {ns ns' : List Text} {n n' : Text} (h : parts ns n = parts ns' n') : ns ++ [n] = ns' ++ [n'] := by
  have hl : n = n' := by
    have := congrArg List.getLast? h
    simp only [parts, ← List.append_assoc, List.getLast?_append, List.getLast?_singleton, Option.some_or, Option.some.injEq] at this
    exact this
  subst hl
  rw [parts, parts] at h
  exact List.append_cancel_left h

theorem digit_chars (n : Nat) : ∀ c ∈ (toString n).toList, c.isDigit = true := by
  intro c hc
  have : (toString n).toList = Nat.toDigits 10 n := by
    show (Nat.repr n).toList = _
    rw [Nat.repr]; simp
  rw [this] at hc
  exact Nat.isDigit_of_mem_toDigits (by decide) (by decide) hc

theorem gen_simple : Simple "GEN".toList := by
  refine ⟨fun a b e => ?_, fun a e => ?_⟩
  · have : '_' ∈ "GEN".toList := by rw [e]; simp
    revert this; decide
  · have : '_' ∈ "GEN".toList := by rw [e]; simp
    revert this; decide

theorem no_underscore {t : Text} (h : '_' ∉ t) : Simple t :=
  ⟨fun a b e => h (by rw [e]; simp), fun a e => h (by rw [e]; simp)⟩

theorem reserved_simple {t : Text} (h : Reserved t) : Simple t := by
  cases h with
  | interface => exact no_underscore (by decide)
  | var => exact no_underscore (by decide)
  | index n =>
    refine no_underscore (fun h => ?_)
    rcases List.mem_append.1 h with h | h
    · revert h; decide
    · have := digit_chars n _ h
      revert this; decide

theorem gen_free : ¬ Reserved "GEN".toList := by
  intro h
  generalize hg : "GEN".toList = g at h
  cases h with
  | interface => revert hg; decide
  | var => revert hg; decide
  | index n =>
    have := congrArg List.head? hg
    revert this
    simp

theorem parts_proper {ns : List Text} {n : Text} (h : ∀ t ∈ ns, Proper t) (hn : Proper n) : ∀ t ∈ parts ns n, Simple t ∧ ¬ Reserved t := by
  intro t ht
  rw [parts] at ht
  rcases List.mem_append.1 ht with ht | ht
  · split at ht
    · cases ht
    · rw [List.mem_singleton.1 ht]
      exact ⟨gen_simple, gen_free⟩
  · rcases List.mem_append.1 ht with ht | ht
    · exact ⟨(h t ht).simple, (h t ht).free⟩
    · rw [List.mem_singleton.1 ht]
      exact ⟨hn.simple, hn.free⟩

theorem split_reserved {a a' s s' : List Text} (ha : ∀ t ∈ a, ¬ Reserved t) (ha' : ∀ t ∈ a', ¬ Reserved t) (hs : ∀ t ∈ s, Reserved t)
    (hs' : ∀ t ∈ s', Reserved t) (h : a ++ s = a' ++ s') : a = a' ∧ s = s' := by
  induction a generalizing a' with
  | nil =>
    cases a' with
    | nil => exact ⟨rfl, h⟩
    | cons x r =>
      exfalso
      have : x ∈ s := by rw [List.nil_append] at h; rw [h]; simp
      exact ha' x (by simp) (hs x this)
  | cons x r ih =>
    cases a' with
    | nil =>
      exfalso
      have : x ∈ s' := by rw [List.nil_append] at h; rw [← h]; simp
      exact ha x (by simp) (hs' x this)
    | cons y r' =>
      simp only [List.cons_append, List.cons.injEq] at h
      obtain ⟨rfl, h⟩ := h
      obtain ⟨e1, e2⟩ := ih (fun t ht => ha t (List.mem_cons_of_mem _ ht)) (fun t ht => ha' t (List.mem_cons_of_mem _ ht)) h
      exact ⟨by rw [e1], e2⟩

/-- The name of a type with more behind it. -/
def longName (ns : List Text) (n : Text) (sfx : List Text) : Text := List.intercalate "__".toList (parts ns n ++ sfx)

theorem longName_nil (ns : List Text) (n : Text) : longName ns n [] = typeName ns n := by
  rw [longName, List.append_nil, typeName_parts]

theorem longName_snoc (ns : List Text) (n : Text) (sfx : List Text) (t : Text) :
    longName ns n (sfx ++ [t]) = longName ns n sfx ++ "__".toList ++ t := by
  rw [longName, ← List.append_assoc, inter_append _ t [] _ (by simp [parts_ne]), inter_one]
  rfl

theorem longName_inj {ns ns' : List Text} {n n' : Text} {s s' : List Text} (h : ∀ t ∈ ns, Proper t) (hn : Proper n) (h' : ∀ t ∈ ns', Proper t)
    (hn' : Proper n') (hs : ∀ t ∈ s, Reserved t) (hs' : ∀ t ∈ s', Reserved t) (e : longName ns n s = longName ns' n' s') :
    ns ++ [n] = ns' ++ [n'] ∧ s = s' := by
  have hp := parts_proper h hn
  have hp' := parts_proper h' hn'
  have := inter_inj (by simp [parts_ne]) (by simp [parts_ne])
    (fun t ht => (List.mem_append.1 ht).elim (fun k => (hp t k).1) (fun k => reserved_simple (hs t k)))
    (fun t ht => (List.mem_append.1 ht).elim (fun k => (hp' t k).1) (fun k => reserved_simple (hs' t k))) e
  obtain ⟨e1, e2⟩ := split_reserved (fun t ht => (hp t ht).2) (fun t ht => (hp' t ht).2) hs hs' this
  exact ⟨parts_inj e1, e2⟩

/-- No type has the name of the query, unless this is that of a scalar. -/
theorem longName_query {ns : List Text} {n q : Text} {s : List Text} (h : ∀ t ∈ ns, Proper t) (hn : Proper n) (hs : ∀ t ∈ s, Reserved t)
    (hq : Simple q) (hq' : Verif.Tmpl.predefined q = false) : longName ns n s ≠ q := by
  intro e
  have hp := parts_proper h hn
  have := inter_inj (a := parts ns n ++ s) (b := [q]) (by simp [parts_ne]) (by simp)
    (fun t ht => (List.mem_append.1 ht).elim (fun k => (hp t k).1) (fun k => reserved_simple (hs t k)))
    (fun t ht => by rw [List.mem_singleton.1 ht]; exact hq) (by rw [inter_one]; exact e)
  have hlen := congrArg List.length this
  rw [parts] at this hlen
  split at this
  · next hpre =>
    rw [if_pos hpre] at hlen
    simp at hlen
    have hns : ns = [] := by cases ns with | nil => rfl | cons _ _ => simp at hlen; omega
    have hs0 : s = [] := by cases s with | nil => rfl | cons _ _ => simp at hlen; omega
    subst hns hs0
    simp at this
    subst this
    rw [hpre] at hq'
    cases hq'
  · next hpre =>
    rw [if_neg hpre] at hlen
    simp at hlen

end Verif.Proto
