import Verif.Gql.Lex

/-!
# Reading back values, arguments, directives and selections
-/

namespace Verif.Gql

open Verif.Mustache (Text)
open Verif.HttpUrl (intText boolText joinWith)
open Verif.Input (QVal)

set_option linter.unusedSimpArgs false

mutual
/-- The tokens of a value. -/
def valToks : SVal → List Tok
  | .var n => [.p '$', .word n]
  | .word t => [.word t]
  | .str s => [.str s]
  | .list l => .p '[' :: (valsToks l ++ [.p ']'])
  | .obj kvs => .p '{' :: (kvsToks kvs ++ [.p '}'])
/-- The tokens of values. -/
def valsToks : List SVal → List Tok
  | [] => []
  | v :: l => valToks v ++ valsToks l
/-- The tokens of entries. -/
def kvsToks : List (Text × SVal) → List Tok
  | [] => []
  | kv :: l => kvToks kv ++ kvsToks l
/-- The tokens of an entry. -/
def kvToks : Text × SVal → List Tok
  | (k, v) => .word k :: .p ':' :: valToks v
end

/-- The tokens of arguments. -/
def argsToks (as : List (Text × SVal)) : List Tok :=
  if as.isEmpty then [] else .p '(' :: (kvsToks as ++ [.p ')'])

/-- The tokens of directives. -/
def dirsToks : List SDir → List Tok
  | [] => []
  | d :: l => .p '@' :: .word d.1 :: (argsToks d.2 ++ dirsToks l)

mutual
/-- The tokens of a selection. -/
def selToks : Sel → List Tok
  | .field n as ds sub =>
    .word n :: (argsToks as ++ (dirsToks ds ++
      (if sub.isEmpty then [] else .p '{' :: (selsToks sub ++ [.p '}']))))
  | .frag t sub => .word dots :: .word ['o', 'n'] :: .word t :: .p '{' :: (selsToks sub ++ [.p '}'])
/-- The tokens of selections. -/
def selsToks : List Sel → List Tok
  | [] => []
  | s :: l => selToks s ++ selsToks l
end

theorem valToks_head (v : SVal) : ∃ t r, valToks v = t :: r ∧ t ≠ .p ']' := by
  cases v <;> exact ⟨_, _, by unfold valToks; rfl, by simp⟩

mutual
theorem read_val : ∀ (v : SVal) (d : Nat) (r : List Tok), (valToks v).length ≤ d →
    readVal d (valToks v ++ r) = some (v, r)
  | .var n, d, r, h => by
    cases d with
    | zero => simp [valToks] at h
    | succ d => simp [valToks, readVal]
  | .word n, d, r, h => by
    cases d with
    | zero => simp [valToks] at h
    | succ d => simp [valToks, readVal]
  | .str n, d, r, h => by
    cases d with
    | zero => simp [valToks] at h
    | succ d => simp [valToks, readVal]
  | .list l, d, r, h => by
    cases d with
    | zero => simp [valToks] at h
    | succ d =>
      have hl : (valsToks l).length + 1 ≤ d := by
        simp [valToks] at h; omega
      have := read_vals l d r hl
      simp only [valToks, List.cons_append, List.append_assoc, List.nil_append, readVal]
      rw [this]
      rfl
  | .obj kvs, d, r, h => by
    cases d with
    | zero => simp [valToks] at h
    | succ d =>
      have hl : (kvsToks kvs).length + 1 ≤ d := by
        simp [valToks] at h; omega
      have := read_kvs kvs d '}' r hl
      simp only [valToks, List.cons_append, List.append_assoc, List.nil_append, readVal]
      rw [this]
      rfl
theorem read_vals : ∀ (l : List SVal) (d : Nat) (r : List Tok), (valsToks l).length + 1 ≤ d →
    readVals d (valsToks l ++ .p ']' :: r) = some (l, r)
  | [], d, r, h => by
    cases d with
    | zero => simp at h
    | succ d => simp [valsToks, readVals]
  | v :: l, d, r, h => by
    cases d with
    | zero => simp at h
    | succ d =>
      obtain ⟨t, r', hv, ht⟩ := valToks_head v
      have hlen : 1 ≤ (valToks v).length := by rw [hv]; simp
      simp only [valsToks, List.length_append] at h
      have h1 := read_val v d (valsToks l ++ .p ']' :: r) (by omega)
      have h2 := read_vals l d r (by omega)
      simp only [valsToks, List.append_assoc]
      unfold readVals
      have hh : (valToks v ++ (valsToks l ++ .p ']' :: r)).head? ≠ some (.p ']') := by
        rw [hv]; simpa using ht
      rw [if_neg hh, h1]
      simp only []
      rw [h2]
      rfl
theorem read_kvs : ∀ (l : List (Text × SVal)) (d : Nat) (close : Char) (r : List Tok),
    (kvsToks l).length + 1 ≤ d →
    readKvs d close (kvsToks l ++ .p close :: r) = some (l, r)
  | [], d, close, r, h => by
    cases d with
    | zero => simp at h
    | succ d => simp [kvsToks, readKvs]
  | kv :: l, d, close, r, h => by
    cases d with
    | zero => simp at h
    | succ d =>
      simp only [kvsToks, List.length_append] at h
      have h2 := read_kvs l d close r (by
        have : 1 ≤ (kvToks kv).length := by cases kv; simp [kvToks]
        omega)
      have h1 := read_kv kv d (kvsToks l ++ .p close :: r) (by omega)
      obtain ⟨k, v⟩ := kv
      simp only [kvsToks, kvToks, List.append_assoc, List.cons_append]
      unfold readKvs
      have hh : (Tok.word k :: .p ':' :: (valToks v ++ (kvsToks l ++ .p close :: r))).head? ≠ some (.p close) := by
        simp
      rw [if_neg hh]
      simp only []
      simp only at h1
      rw [h1]
      simp only []
      rw [h2]
      rfl
theorem read_kv : ∀ (kv : Text × SVal) (d : Nat) (r : List Tok), (kvToks kv).length ≤ d + 1 →
    readVal d (valToks kv.2 ++ r) = some (kv.2, r)
  | (_, v), d, r, h => read_val v d r (by simp [kvToks] at h; omega)
end

theorem read_args (as : List (Text × SVal)) (d : Nat) (r : List Tok) (h : (argsToks as).length ≤ d)
    (hr : r.head? ≠ some (.p '(')) : readArgs d (argsToks as ++ r) = some (as, r) := by
  unfold readArgs argsToks
  cases as with
  | nil => simp [hr]
  | cons a l =>
    simp only [argsToks, List.isEmpty_cons, Bool.false_eq_true, if_false, List.length_cons, List.length_append,
      List.length_nil] at h
    simp only [List.isEmpty_cons, Bool.false_eq_true, if_false, List.cons_append, List.head?_cons, if_true,
      List.tail_cons, List.append_assoc, List.nil_append]
    exact read_kvs (a :: l) d ')' r (by omega)

theorem dirsToks_head (ds : List SDir) (r : List Tok) (t : Tok) (ht : t ≠ .p '@') (hr : r.head? ≠ some t) :
    (dirsToks ds ++ r).head? ≠ some t := by
  cases ds with
  | nil => simpa [dirsToks] using hr
  | cons d l => simp [dirsToks, Ne.symm ht]

theorem read_dirs : ∀ (ds : List SDir) (d : Nat) (r : List Tok), (dirsToks ds).length + 1 ≤ d →
    r.head? ≠ some (.p '(') → r.head? ≠ some (.p '@') → readDirs d (dirsToks ds ++ r) = some (ds, r) := by
  intro ds
  induction ds with
  | nil =>
    intro d r h _ h2
    cases d with
    | zero => simp at h
    | succ d =>
      simp only [dirsToks, List.nil_append]
      unfold readDirs
      split
      · exact absurd rfl h2
      · rfl
  | cons x l ih =>
    intro d r h h1 h2
    cases d with
    | zero => simp at h
    | succ d =>
      simp only [dirsToks, List.length_cons, List.length_append] at h
      have ha := read_args x.2 d (dirsToks l ++ r) (by omega) (dirsToks_head l r _ (by decide) h1)
      have hi := ih d r (by omega) h1 h2
      simp only [dirsToks, List.cons_append, List.append_assoc]
      unfold readDirs
      simp only []
      rw [ha]
      simp only []
      rw [hi]
      rfl

mutual
/-- No field is called `...`. -/
def noDots : Sel → Bool
  | .field n _ _ sub => n != dots && noDotss sub
  | .frag _ sub => noDotss sub
/-- No field is called `...`. -/
def noDotss : List Sel → Bool
  | [] => true
  | s :: l => noDots s && noDotss l
end

theorem selsToks_head (l : List Sel) (r : List Tok) :
    ∃ t r', selsToks l ++ .p '}' :: r = t :: r' ∧ (t = .p '}' ∨ ∃ n, t = .word n) := by
  cases l with
  | nil => exact ⟨.p '}', r, by simp [selsToks], Or.inl rfl⟩
  | cons s l =>
    cases s <;> exact ⟨_, _, by simp only [selsToks, selToks, List.cons_append]; rfl, Or.inr ⟨_, rfl⟩⟩

mutual
theorem read_sel : ∀ (s : Sel) (l : List Sel) (d : Nat) (r : List Tok), noDots s = true →
    (selToks s).length + (selsToks l).length + 1 ≤ d + 1 →
    readSels d (selsToks l ++ .p '}' :: r) = some (l, r) →
    readSels (d + 1) (selToks s ++ (selsToks l ++ .p '}' :: r)) = some (s :: l, r)
  | .field n as ds sub, l, d, r, hw, h, hrest => by
    simp only [noDots, Bool.and_eq_true, bne_iff_ne, ne_eq] at hw
    obtain ⟨t, r', ht, htt⟩ := selsToks_head l r
    simp only [selToks, List.length_cons, List.length_append] at h
    simp only [selToks, List.cons_append, List.append_assoc]
    unfold readSels
    simp only [hw.1, if_false]
    -- what follows the directives
    generalize hB : (if sub.isEmpty then [] else Tok.p '{' :: (selsToks sub ++ [.p '}'])) = B at h
    have hB1 : (B ++ (selsToks l ++ .p '}' :: r)).head? ≠ some (.p '(') := by
      cases sub with
      | nil => simp at hB; subst hB; rw [ht]; rcases htt with h | ⟨_, h⟩ <;> subst h <;> simp
      | cons => simp at hB; subst hB; simp
    have hB2 : (B ++ (selsToks l ++ .p '}' :: r)).head? ≠ some (.p '@') := by
      cases sub with
      | nil => simp at hB; subst hB; rw [ht]; rcases htt with h | ⟨_, h⟩ <;> subst h <;> simp
      | cons => simp at hB; subst hB; simp
    rw [read_args as d _ (by omega) (dirsToks_head ds _ _ (by decide) hB1)]
    simp only []
    rw [read_dirs ds d _ (by omega) hB1 hB2]
    simp only []
    cases sub with
    | nil =>
      simp at hB
      subst hB
      simp only [List.nil_append]
      have hne : (selsToks l ++ .p '}' :: r).head? ≠ some (.p '{') := by
        rw [ht]; rcases htt with h | ⟨_, h⟩ <;> subst h <;> simp
      rw [if_neg hne, hrest]
      rfl
    | cons s2 l2 =>
      simp only [List.isEmpty_cons, Bool.false_eq_true, if_false] at hB
      subst hB
      simp only [List.cons_append, List.head?_cons, if_true, List.tail_cons, List.append_assoc, List.nil_append]
      simp only [List.length_cons, List.length_append, List.length_nil] at h
      rw [read_sels (s2 :: l2) d _ hw.2 (by omega)]
      simp only []
      rw [hrest]
      rfl
  | .frag t sub, l, d, r, hw, h, hrest => by
    simp only [noDots] at hw
    simp only [selToks, List.length_cons, List.length_append, List.length_nil] at h
    simp only [selToks, List.cons_append, List.append_assoc, List.nil_append]
    unfold readSels
    simp only [if_true]
    rw [read_sels sub d _ hw (by omega)]
    simp only []
    rw [hrest]
    rfl
theorem read_sels : ∀ (l : List Sel) (d : Nat) (r : List Tok), noDotss l = true →
    (selsToks l).length + 1 ≤ d → readSels d (selsToks l ++ .p '}' :: r) = some (l, r)
  | [], d, r, _, h => by
    cases d with
    | zero => simp at h
    | succ d => simp [selsToks, readSels]
  | s :: l, d, r, hw, h => by
    simp only [noDotss, Bool.and_eq_true] at hw
    cases d with
    | zero => simp at h
    | succ d =>
      simp only [selsToks, List.length_append] at h
      have hs : 1 ≤ (selToks s).length := by cases s <;> simp [selToks]
      have hrest := read_sels l d r hw.2 (by omega)
      simp only [selsToks, List.append_assoc]
      exact read_sel s l d r hw.1 (by omega) hrest
end

/-- A text that reads as the tokens of a selection set is read as that selection set. -/
theorem readSet_of {t : Text} {l : List Sel} (hl : noDotss l = true)
    (h : LexTo t (.p '{' :: (selsToks l ++ [.p '}']))) : readSet t = some l := by
  have := h [] Sep.nil
  simp only [List.append_nil] at this
  unfold readSet
  rw [this]
  simp only [lex, Option.map_some, List.append_nil, List.cons_append]
  rw [read_sels l _ [] hl (by simp)]

end Verif.Gql
