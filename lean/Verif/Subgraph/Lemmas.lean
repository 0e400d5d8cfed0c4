import Verif.Subgraph.Spec
import Verif.Mustache.Lemmas
import Verif.Merge.Lemmas

/-!
# Lemmas on keys
-/

namespace Verif.Subgraph

open Verif.Mustache (Text Seg Template parse render ValidName ValidPath Canon)
open Verif.Tmpl (exprs)
open Verif.HttpUrl (GVal VS RCtx valueEval)
open Verif.Merge (get tlt tlt_irrefl tlt_trans tlt_tri)

set_option linter.unusedSimpArgs false

/-! ## Paths of a tree of keys -/

/-- The tree has the path. -/
def Keys.Has : Keys → List Text → Prop
  | _, [] => True
  | .nil, _ :: _ => False
  | .cons k s r, p :: ps => (k = p ∧ s.Has ps) ∨ r.Has (p :: ps)

theorem has_nil (k : Keys) : k.Has [] := by cases k <;> trivial

theorem has_cons (k : Text) (s r : Keys) (p : Text) (ps : List Text) :
    (Keys.cons k s r).Has (p :: ps) ↔ (k = p ∧ s.Has ps) ∨ r.Has (p :: ps) := Iff.rfl

theorem not_has_nil (p : Text) (ps : List Text) : ¬ Keys.nil.Has (p :: ps) := id

theorem has_upd {p : Text} {f : Keys → Keys} {ps : List Text}
    (hf : ∀ s q, (f s).Has q ↔ s.Has q ∨ q <+: ps) (m : Keys) (q : List Text) :
    (m.upd p f).Has q ↔ m.Has q ∨ q <+: p :: ps := by
  cases q with
  | nil => exact ⟨fun _ => .inl (has_nil _), fun _ => has_nil _⟩
  | cons x q =>
    have hpre : (x :: q <+: p :: ps) ↔ p = x ∧ q <+: ps := by
      rw [List.cons_prefix_cons]; exact ⟨fun h => ⟨h.1.symm, h.2⟩, fun h => ⟨h.1.symm, h.2⟩⟩
    have hnil : ∀ q, (f Keys.nil).Has q ↔ q <+: ps := by
      intro q
      rw [hf]
      constructor
      · rintro (h | h)
        · cases q with
          | nil => exact List.nil_prefix
          | cons => exact absurd h (not_has_nil _ _)
        · exact h
      · exact .inr
    induction m with
    | nil =>
      rw [Keys.upd, has_cons, hpre, hnil]
      constructor
      · rintro (h | h)
        · exact .inr h
        · exact absurd h (not_has_nil _ _)
      · rintro (h | h)
        · exact absurd h (not_has_nil _ _)
        · exact .inl h
    | cons k s r _ ih =>
      rw [Keys.upd]
      split
      · next hk =>
        subst hk
        rw [has_cons, has_cons, hf, hpre]
        constructor
        · rintro (⟨h, h' | h'⟩ | h)
          · exact .inl (.inl ⟨h, h'⟩)
          · exact .inr ⟨h, h'⟩
          · exact .inl (.inr h)
        · rintro ((h | h) | h)
          · exact .inl ⟨h.1, .inl h.2⟩
          · exact .inr h
          · exact .inl ⟨h.1, .inr h.2⟩
      · split
        · rw [has_cons, hnil, hpre]
          constructor
          · rintro (h | h)
            · exact .inr h
            · exact .inl h
          · rintro (h | h)
            · exact .inr h
            · exact .inl h
        · exact (or_congr Iff.rfl ih).trans or_assoc.symm

theorem has_setPath (ps : List Text) : ∀ (m : Keys) (q : List Text),
    (m.setPath ps).Has q ↔ m.Has q ∨ q <+: ps := by
  induction ps with
  | nil =>
    intro m q
    rw [Keys.setPath, List.prefix_nil]
    constructor
    · exact .inl
    · rintro (h | h)
      · exact h
      · subst h; exact has_nil _
  | cons p ps ih =>
    intro m q
    rw [Keys.setPath]
    exact has_upd ih m q

theorem has_of_find {p : Text} {s : Keys} {q : List Text} : ∀ {m : Keys}, m.find p = some s → s.Has q →
    m.Has (p :: q)
  | .nil, h, _ => by cases h
  | .cons k s' r, h, hs => by
    rw [Keys.find] at h
    by_cases hk : k = p
    · rw [if_pos hk] at h; cases h; exact .inl ⟨hk, hs⟩
    · rw [if_neg hk] at h; exact .inr (has_of_find h hs)

theorem has_updConst {p : Text} {w : Keys} : ∀ {m : Keys},
    (∀ s, m.find p = some s → ∀ q, s.Has q → w.Has q) → ∀ q : List Text,
    ((m.upd p (fun _ => w)).Has q ↔ m.Has q ∨ ∃ q', q = p :: q' ∧ w.Has q')
  | .nil, _, [] => ⟨fun _ => .inl trivial, fun _ => trivial⟩
  | .cons k s r, _, [] => ⟨fun _ => .inl (has_nil _), fun _ => has_nil _⟩
  | .nil, _, x :: q => by
    rw [Keys.upd, has_cons]
    constructor
    · rintro (h | h)
      · exact .inr ⟨q, by rw [h.1], h.2⟩
      · exact absurd h (not_has_nil _ _)
    · rintro (h | ⟨q', h, h'⟩)
      · exact absurd h (not_has_nil _ _)
      · cases h; exact .inl ⟨rfl, h'⟩
  | .cons k s r, hs, x :: q => by
    rw [Keys.upd]
    split
    · next hk =>
      subst hk
      have hs' := hs s (by rw [Keys.find, if_pos rfl])
      rw [has_cons, has_cons]
      constructor
      · rintro (h | h)
        · exact .inr ⟨q, by rw [h.1], h.2⟩
        · exact .inl (.inr h)
      · rintro ((h | h) | ⟨q', h, h'⟩)
        · exact .inl ⟨h.1, hs' _ h.2⟩
        · exact .inr h
        · cases h; exact .inl ⟨rfl, h'⟩
    · next hk =>
      split
      · rw [has_cons]
        constructor
        · rintro (h | h)
          · exact .inr ⟨q, by rw [h.1], h.2⟩
          · exact .inl h
        · rintro (h | ⟨q', h, h'⟩)
          · exact .inr h
          · cases h; exact .inl ⟨rfl, h'⟩
      · have ih := has_updConst (m := r) (p := p) (w := w) (fun s h => hs s (by rw [Keys.find, if_neg hk]; exact h))
          (x :: q)
        rw [has_cons, has_cons, ih]
        constructor
        · rintro (h | h | h)
          · exact .inl (.inl h)
          · exact .inl (.inr h)
          · exact .inr h
        · rintro ((h | h) | h)
          · exact .inl h
          · exact .inr (.inl h)
          · exact .inr (.inr h)

theorem has_mergeFrom : ∀ (b m : Keys) (q : List Text), (Keys.mergeFrom b m).Has q ↔ b.Has q ∨ m.Has q
  | b, m, [] => ⟨fun _ => .inl (has_nil _), fun _ => has_nil _⟩
  | .nil, m, x :: q => by
    rw [Keys.mergeFrom]
    exact ⟨.inr, fun h => h.elim (fun h => absurd h (not_has_nil _ _)) id⟩
  | .cons k v r, m, x :: q => by
    rw [Keys.mergeFrom]
    have hw : ∀ w, w = (match m.find k with
        | some s => Keys.mergeFrom v s
        | none => v) →
        ((Keys.mergeFrom r (m.upd k (fun _ => w))).Has (x :: q) ↔ (Keys.cons k v r).Has (x :: q) ∨ m.Has (x :: q)) := by
      intro w hw
      have hwq : ∀ q, w.Has q ↔ v.Has q ∨ ∃ s, m.find k = some s ∧ s.Has q := by
        intro q
        cases hf : m.find k with
        | none =>
          rw [hf] at hw; subst hw
          exact ⟨.inl, fun h => h.elim id (fun ⟨s, h, _⟩ => by cases h)⟩
        | some s =>
          rw [hf] at hw; subst hw
          rw [has_mergeFrom v s q]
          constructor
          · rintro (h | h)
            · exact .inl h
            · exact .inr ⟨s, rfl, h⟩
          · rintro (h | ⟨s', h, h'⟩)
            · exact .inl h
            · cases h; exact .inr h'
      rw [has_mergeFrom r, has_updConst (fun s h q hq => (hwq q).2 (.inr ⟨s, h, hq⟩)), has_cons]
      constructor
      · rintro (h | h | ⟨q', h, h'⟩)
        · exact .inl (.inr h)
        · exact .inr h
        · cases h
          rcases (hwq _).1 h' with h' | ⟨s, hs, h'⟩
          · exact .inl (.inl ⟨rfl, h'⟩)
          · exact .inr (has_of_find hs h')
      · rintro ((⟨h, h'⟩ | h) | h)
        · subst h; exact .inr (.inr ⟨q, rfl, (hwq q).2 (.inl h')⟩)
        · exact .inl h
        · exact .inr (.inl h)
    exact hw _ rfl

theorem has_merge (a b : Keys) (q : List Text) : (a.merge b).Has q ↔ a.Has q ∨ b.Has q := by
  rw [Keys.merge, has_mergeFrom]; exact Or.comm

theorem has_foldMerge (l : List Keys) : ∀ (a : Keys) (q : List Text),
    (l.foldl Keys.merge a).Has q ↔ a.Has q ∨ ∃ k ∈ l, k.Has q := by
  induction l with
  | nil => intro a q; exact ⟨.inl, fun h => h.elim id (fun ⟨_, h, _⟩ => by cases h)⟩
  | cons x l ih =>
    intro a q
    rw [List.foldl_cons, ih, has_merge]
    constructor
    · rintro ((h | h) | ⟨k, hk, h⟩)
      · exact .inl h
      · exact .inr ⟨x, List.mem_cons_self, h⟩
      · exact .inr ⟨k, List.mem_cons_of_mem _ hk, h⟩
    · rintro (h | ⟨k, hk, h⟩)
      · exact .inl (.inl h)
      · rcases List.mem_cons.1 hk with rfl | hk
        · exact .inl (.inr h)
        · exact .inr ⟨k, hk, h⟩

/-! ## Order of the names -/

/-- The first name, if any, comes after `k`. -/
def Keys.After (k : Text) : Keys → Prop
  | .nil => True
  | .cons k' _ _ => tlt k k' = true

/-- The names are in order, at every depth. -/
def Keys.Sorted : Keys → Prop
  | .nil => True
  | .cons k s r => s.Sorted ∧ r.Sorted ∧ r.After k

theorem after_upd {k p : Text} {f : Keys → Keys} {m : Keys} (h : m.After k) (hp : tlt k p = true) :
    (m.upd p f).After k := by
  cases m with
  | nil => exact hp
  | cons k' s r =>
    rw [Keys.upd]
    split
    · exact h
    · split
      · exact hp
      · exact h

theorem sorted_upd {p : Text} {f : Keys → Keys} : ∀ {m : Keys}, m.Sorted → (∀ s, s.Sorted → (f s).Sorted) →
    (m.upd p f).Sorted
  | .nil, _, hf => ⟨hf _ trivial, trivial, trivial⟩
  | .cons k s r, h, hf => by
    rw [Keys.upd]
    split
    · exact ⟨hf _ h.1, h.2⟩
    · next hk =>
      split
      · next ht => exact ⟨hf _ trivial, h, ht⟩
      · next ht =>
        exact ⟨h.1, sorted_upd h.2.1 hf, after_upd h.2.2 (tlt_tri (Ne.symm hk) (by simpa using ht))⟩

theorem sorted_setPath (ps : List Text) : ∀ {m : Keys}, m.Sorted → (m.setPath ps).Sorted := by
  induction ps with
  | nil => intro m h; exact h
  | cons p ps ih => intro m h; exact sorted_upd h (fun s hs => ih hs)

theorem sorted_find {p : Text} {s : Keys} : ∀ {m : Keys}, m.Sorted → m.find p = some s → s.Sorted
  | .nil, _, h => by cases h
  | .cons k s' r, hm, h => by
    rw [Keys.find] at h
    split at h
    · cases h; exact hm.1
    · exact sorted_find hm.2.1 h

theorem sorted_mergeFrom : ∀ {b m : Keys}, b.Sorted → m.Sorted → (Keys.mergeFrom b m).Sorted
  | .nil, m, _, hm => hm
  | .cons k v r, m, hb, hm => by
    rw [Keys.mergeFrom]
    have hw : ∀ w, w = (match m.find k with
        | some s => Keys.mergeFrom v s
        | none => v) → w.Sorted := by
      intro w hw
      cases hf : m.find k with
      | none => rw [hf] at hw; subst hw; exact hb.1
      | some s => rw [hf] at hw; subst hw; exact sorted_mergeFrom hb.1 (sorted_find hm hf)
    exact sorted_mergeFrom hb.2.1 (sorted_upd hm (fun _ _ => hw _ rfl))

theorem sorted_merge {a b : Keys} (ha : a.Sorted) (hb : b.Sorted) : (a.merge b).Sorted := sorted_mergeFrom hb ha

theorem sorted_foldMerge : ∀ (l : List Keys) {a : Keys}, a.Sorted → (∀ k ∈ l, k.Sorted) → (l.foldl Keys.merge a).Sorted
  | [], _, ha, _ => ha
  | x :: l, _, ha, hl =>
    sorted_foldMerge l (sorted_merge ha (hl x List.mem_cons_self)) (fun k hk => hl k (List.mem_cons_of_mem _ hk))

/-! ## Printing and reading -/

/-- All paths, each before those inside it. -/
def Keys.paths : Keys → List (List Text)
  | .nil => []
  | .cons k s r => [k] :: (s.paths.map (k :: ·) ++ r.paths)

theorem mem_paths {q : List Text} : ∀ {m : Keys}, q ∈ m.paths ↔ q ≠ [] ∧ m.Has q
  | .nil => by
    cases q with
    | nil => simp [Keys.paths]
    | cons x q => simp [Keys.paths, Keys.Has]
  | .cons k s r => by
    have hs := fun q => mem_paths (q := q) (m := s)
    have hr := mem_paths (q := q) (m := r)
    rw [Keys.paths, List.mem_cons, List.mem_append, hr]
    cases q with
    | nil => simp
    | cons x q =>
      rw [has_cons]
      constructor
      · rintro (h | h | h)
        · cases h; exact ⟨by simp, .inl ⟨rfl, has_nil _⟩⟩
        · obtain ⟨q', hq', h⟩ := List.mem_map.1 h
          cases h
          exact ⟨by simp, .inl ⟨rfl, ((hs _).1 hq').2⟩⟩
        · exact ⟨h.1, .inr h.2⟩
      · rintro ⟨_, ⟨h, h'⟩ | h⟩
        · subst h
          cases q with
          | nil => exact .inl rfl
          | cons y q =>
            exact .inr (.inl (List.mem_map.2 ⟨y :: q, (hs _).2 ⟨by simp, h'⟩, rfl⟩))
        · exact .inr (.inr ⟨by simp, h⟩)

theorem after_lt {k : Text} {p : Text} {ps : List Text} : ∀ {m : Keys}, m.Sorted → m.After k → m.Has (p :: ps) →
    tlt k p = true
  | .nil, _, _, h => absurd h (not_has_nil _ _)
  | .cons k' s r, hm, ha, h => by
    rcases h with ⟨h, _⟩ | h
    · exact h ▸ ha
    · exact tlt_trans ha (after_lt hm.2.1 hm.2.2 h)

theorem paths_nodup : ∀ {m : Keys}, m.Sorted → m.paths.Nodup
  | .nil, _ => List.nodup_nil
  | .cons k s r, h => by
    have hs := paths_nodup h.1
    have hr := paths_nodup h.2.1
    have hne : ∀ q ∈ r.paths, ∀ q', q ≠ k :: q' := by
      intro q hq q' e
      subst e
      have := after_lt h.2.1 h.2.2 (mem_paths.1 hq).2
      rw [tlt_irrefl] at this
      cases this
    rw [Keys.paths, List.nodup_cons, List.mem_append, List.nodup_append]
    refine ⟨?_, ?_, hr, ?_⟩
    · rintro (h' | h')
      · obtain ⟨q', hq', h'⟩ := List.mem_map.1 h'
        cases h'
        exact (mem_paths.1 hq').1 rfl
      · exact hne _ h' [] rfl
    · exact List.Pairwise.map (k :: ·) (fun a b hab e => hab (List.cons.inj e).2) hs
    · intro a ha b hb e
      obtain ⟨q', _, h'⟩ := List.mem_map.1 ha
      exact hne b hb q' (e ▸ h'.symm)

/-- A name as GraphQL has it: no space, no brace. -/
def Plain (n : Text) : Prop := n ≠ [] ∧ ' ' ∉ n ∧ n ≠ ['{'] ∧ n ≠ ['}']

theorem plain_of_valid {n : Text} (h : ValidName n) : Plain n := by
  obtain ⟨c, cs, rfl, hc, hcs⟩ := h
  refine ⟨by simp, ?_, ?_, ?_⟩
  · intro hm
    rcases List.mem_cons.1 hm with h | h
    · subst h; revert hc; decide
    · have := hcs _ h; revert this; decide
  · intro h; cases h; revert hc; decide
  · intro h; cases h; revert hc; decide

/-- The words of a printed key. -/
def Keys.toks : Keys → List Text
  | .nil => []
  | .cons k s r => k :: ((match s with
      | .nil => []
      | .cons _ _ _ => ['{'] :: (s.toks ++ [['}']])) ++ r.toks)

theorem words_acc : ∀ (n acc t : Text), ' ' ∉ n → words acc (n ++ t) = words (acc ++ n) t
  | [], acc, t, _ => by simp
  | c :: cs, acc, t, h => by
    rw [List.mem_cons, not_or] at h
    rw [List.cons_append, words, if_neg (fun e => h.1 e.symm), words_acc cs _ t h.2, List.append_assoc]
    rfl

theorem words_name {n t : Text} (hn : Plain n) (ht : t = [] ∨ ∃ t', t = ' ' :: t') :
    words [] (n ++ t) = n :: words [] t := by
  rw [words_acc _ _ _ hn.2.1, List.nil_append]
  have : n.isEmpty = false := by cases n with
    | nil => exact absurd rfl hn.1
    | cons => rfl
  rcases ht with rfl | ⟨t', rfl⟩
  · simp [words, this]
  · simp [words, this]

theorem words_space (t : Text) : words [] (' ' :: t) = words [] t := by
  rw [words, if_pos rfl]; rfl

/-- All names are plain. -/
def Keys.AllPlain : Keys → Prop
  | .nil => True
  | .cons k s r => Plain k ∧ s.AllPlain ∧ r.AllPlain

/-- What is printed after an entry. -/
def Keys.tail : Keys → Text
  | .nil => []
  | .cons k s r => ' ' :: (Keys.cons k s r).print

/-- What is printed between the name of an entry and the next entry. -/
def Keys.braced : Keys → Text
  | .nil => []
  | .cons k s r => ' ' :: '{' :: ' ' :: ((Keys.cons k s r).print ++ [' ', '}'])

/-- The words of `braced`. -/
def Keys.bracedToks : Keys → List Text
  | .nil => []
  | .cons k s r => ['{'] :: ((Keys.cons k s r).toks ++ [['}']])

theorem print_cons (k : Text) (s r : Keys) : (Keys.cons k s r).print = k ++ (s.braced ++ r.tail) := by
  rw [Keys.print.eq_def]
  cases s <;> cases r <;> simp [Keys.braced, Keys.tail]

theorem toks_cons (k : Text) (s r : Keys) : (Keys.cons k s r).toks = k :: (s.bracedToks ++ r.toks) := by
  rw [Keys.toks.eq_def]
  cases s <;> simp [Keys.bracedToks]

/-- The text is empty or begins with a space. -/
def Gap (t : Text) : Prop := t = [] ∨ ∃ t', t = ' ' :: t'

theorem gap_tail (m : Keys) {t : Text} (ht : Gap t) : Gap (m.tail ++ t) := by
  cases m with
  | nil => exact ht
  | cons => exact .inr ⟨_, rfl⟩

theorem gap_braced (m : Keys) {t : Text} (ht : Gap t) : Gap (m.braced ++ t) := by
  cases m with
  | nil => exact ht
  | cons => exact .inr ⟨_, rfl⟩

theorem words_close {u : Text} (h : Gap u) : words [] ('}' :: u) = ['}'] :: words [] u := by
  rcases h with rfl | ⟨t', rfl⟩ <;> simp [words]

theorem words_print : ∀ {m : Keys}, m ≠ .nil → m.AllPlain → ∀ t : Text, Gap t →
    words [] (m.print ++ t) = m.toks ++ words [] t
  | .nil, h, _, _, _ => absurd rfl h
  | .cons k s r, _, hp, t, ht => by
    have hrest : words [] (r.tail ++ t) = r.toks ++ words [] t := by
      cases r with
      | nil => rfl
      | cons k' s' r' =>
        rw [Keys.tail, List.cons_append, words_space]
        exact words_print (m := .cons k' s' r') (by simp) hp.2.2 t ht
    have hin : words [] (s.braced ++ (r.tail ++ t)) = s.bracedToks ++ words [] (r.tail ++ t) := by
      cases s with
      | nil => rfl
      | cons k' s' r' =>
        have ihs := words_print (m := .cons k' s' r') (by simp) hp.2.1 (' ' :: '}' :: (r.tail ++ t)) (.inr ⟨_, rfl⟩)
        rw [words_space, words_close (gap_tail r ht)] at ihs
        have e : (Keys.cons k' s' r').braced ++ (r.tail ++ t) =
            ' ' :: '{' :: ' ' :: ((Keys.cons k' s' r').print ++ ' ' :: '}' :: (r.tail ++ t)) := by
          simp [Keys.braced]
        have e2 : ∀ u : Text, words [] ('{' :: ' ' :: u) = ['{'] :: words [] u := by intro u; simp [words]
        rw [e, words_space, e2, ihs]
        simp [Keys.bracedToks]
    rw [print_cons, toks_cons, List.append_assoc, List.append_assoc,
      words_name hp.1 (gap_braced s (gap_tail r ht)), hin, hrest]
    simp

theorem readWords_last {ws : List Text} (h : ∀ ws', ws ≠ ['{'] :: ws') (pre : List Text) (last : Text) :
    readWords ws pre last = readWords ws pre [] := by
  cases ws with
  | nil => rfl
  | cons w ws =>
    have : w ≠ ['{'] := fun e => h ws (by rw [e])
    rw [readWords, readWords, if_neg this]
    simp [this]

theorem toks_start {m : Keys} (hp : m.AllPlain) {ws : List Text} (h : ∀ ws', ws ≠ ['{'] :: ws') :
    ∀ ws', m.toks ++ ws ≠ ['{'] :: ws' := by
  cases m with
  | nil => exact h
  | cons k s r =>
    intro ws' e
    rw [toks_cons] at e
    exact hp.1.2.2.1 (List.cons.inj e).1

theorem readWords_toks : ∀ {m : Keys}, m.AllPlain → ∀ (ws : List Text), (∀ ws', ws ≠ ['{'] :: ws') →
    ∀ (pre : List Text) (last : Text),
    readWords (m.toks ++ ws) pre last = m.paths.map (pre ++ ·) ++ readWords ws pre []
  | .nil, _, ws, hws, pre, last => by rw [Keys.toks, Keys.paths]; exact readWords_last hws pre last
  | .cons k s r, hp, ws, hws, pre, last => by
    have ihr := readWords_toks hp.2.2 ws hws pre
    rw [toks_cons, List.cons_append, Keys.paths, readWords, if_neg hp.1.2.2.1, if_neg hp.1.2.2.2, List.map_cons,
      List.cons_append]
    refine congrArg _ ?_
    cases s with
    | nil =>
      rw [Keys.bracedToks, List.nil_append, ihr]
      simp [Keys.paths]
    | cons k' s' r' =>
      have ihs := readWords_toks hp.2.1 (['}'] :: (r.toks ++ ws)) (by intro ws' e; cases e) (pre ++ [k]) []
      have e : (Keys.cons k' s' r').bracedToks ++ r.toks ++ ws =
          ['{'] :: ((Keys.cons k' s' r').toks ++ ['}'] :: (r.toks ++ ws)) := by simp [Keys.bracedToks]
      rw [e, readWords, if_pos rfl, ihs, readWords, if_neg (by decide), if_pos rfl, List.dropLast_concat, ihr]
      simp

theorem keyPaths_print {m : Keys} (hm : m ≠ .nil) (hp : m.AllPlain) : keyPaths m.print = m.paths := by
  have := words_print hm hp [] (.inl rfl)
  rw [List.append_nil] at this
  rw [keyPaths, this]
  have h2 := readWords_toks hp (words [] []) (by intro ws' e; cases e) [] []
  rw [h2]
  simp [words, readWords]

theorem allPlain_of_has : ∀ {m : Keys}, (∀ q, m.Has q → ∀ x ∈ q, Plain x) → m.AllPlain
  | .nil, _ => trivial
  | .cons k s r, h =>
    ⟨h [k] (.inl ⟨rfl, has_nil _⟩) k List.mem_cons_self,
     allPlain_of_has (fun q hq x hx => h (k :: q) (.inl ⟨rfl, hq⟩) x (List.mem_cons_of_mem _ hx)),
     allPlain_of_has (fun q hq x hx => by
      cases q with
      | nil => cases hx
      | cons y q => exact h (y :: q) (.inr hq) x hx)⟩

end Verif.Subgraph
