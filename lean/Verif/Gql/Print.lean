import Verif.Gql.Read

/-!
# The printed selection set reads as a document
-/

namespace Verif.Gql

open Verif.Mustache (Text)
open Verif.HttpUrl (intText boolText joinWith)
open Verif.HttpKey (joinComma)
open Verif.Input (QVal)
open Verif.Ir (IR)

set_option linter.unusedSimpArgs false

/-! ## Values that can be printed -/

/-- Characters of GraphQL names. -/
def nameChar (c : Char) : Bool := ('a' ≤ c && c ≤ 'z') || ('A' ≤ c && c ≤ 'Z') || c.isDigit || c == '_'

/-- GraphQL names (a name may begin with a digit here). -/
def isName (t : Text) : Bool := !t.isEmpty && t.all nameChar

/-- Numbers as they are printed. -/
def isNumber (t : Text) : Bool := !t.isEmpty && t.all isWordChar

mutual
/-- A value without variables, with proper names, whose strings satisfy `ch`. -/
def goodQ (ch : Text → Bool) : QVal → Bool
  | .var _ => false
  | .null => true
  | .bool _ => true
  | .int _ => true
  | .float p => isNumber p
  | .str s => ch s
  | .enum s => isName s
  | .list l => goodQs ch l
  | .obj kvs => goodKvs ch kvs
/-- Good values. -/
def goodQs (ch : Text → Bool) : List QVal → Bool
  | [] => true
  | v :: l => goodQ ch v && goodQs ch l
/-- Good entries. -/
def goodKvs (ch : Text → Bool) : List (Text × QVal) → Bool
  | [] => true
  | kv :: l => goodKv ch kv && goodKvs ch l
/-- A good entry. -/
def goodKv (ch : Text → Bool) : Text × QVal → Bool
  | (k, v) => isName k && goodQ ch v
end

theorem word_of_name {t : Text} (h : isName t = true) : Word t := by
  simp only [isName, Bool.and_eq_true, Bool.not_eq_true', List.isEmpty_eq_false_iff, List.all_eq_true] at h
  refine ⟨h.1, fun c hc => ?_⟩
  have := h.2 c hc
  simp only [nameChar, Bool.or_eq_true] at this
  simp only [isWordChar, Bool.or_eq_true]
  rcases this with ((h | h) | h) | h
  · exact Or.inl (Or.inl (Or.inl (Or.inl (Or.inl (Or.inl h)))))
  · exact Or.inl (Or.inl (Or.inl (Or.inl (Or.inl (Or.inr h)))))
  · exact Or.inl (Or.inl (Or.inl (Or.inl (Or.inr h))))
  · exact Or.inl (Or.inl (Or.inl (Or.inr h)))

theorem word_of_number {t : Text} (h : isNumber t = true) : Word t := by
  simpa only [isNumber, Word, Bool.and_eq_true, Bool.not_eq_true', List.isEmpty_eq_false_iff,
    List.all_eq_true] using h

theorem word_int (n : Int) : Word (intText n) := by
  obtain ⟨c, t, h, hc, ht⟩ := Verif.Server.intText_shape n
  rw [h]
  have digit : ∀ c : Char, c.isDigit = true → isWordChar c = true := by
    intro c hc; simp [isWordChar, hc]
  refine ⟨by simp, fun x hx => ?_⟩
  rcases List.mem_cons.mp hx with h | h
  · subst h
    rcases hc with h | h
    · exact digit _ h
    · subst h; rfl
  · exact digit _ (ht x h)

theorem word_bool (b : Bool) : Word (boolText b) := by
  cases b <;> exact ⟨by decide, by decide⟩

/-- Readable strings. -/
def readableS (s : Text) : Bool := s.all readable

theorem sep_punct {c : Char} {t : Text} (h : isWordChar c = false) : ∀ r, Sep r → Sep ((c :: t) ++ r) :=
  fun _ _ => Sep.cons h

theorem LexTo.single_punct {c : Char} (h : isPunct c = true) (h1 : isWordChar c = false) (h2 : c ≠ '"')
    (h3 : isIgnored c = false) : LexTo [c] [.p c] :=
  LexTo.pre_punct h h1 h2 h3 LexTo.nil

/-- `open`, a text, `close`. -/
theorem LexTo.between {o c : Char} {t : Text} {ts : List Tok} (ho : o = '(' ∨ o = '[' ∨ o = '{')
    (hc : c = ')' ∨ c = ']' ∨ c = '}') (h : LexTo t ts) : LexTo (o :: (t ++ [c])) (.p o :: (ts ++ [.p c])) := by
  have h1 : isWordChar c = false := by rcases hc with h | h | h <;> subst h <;> rfl
  have hcl : LexTo [c] [.p c] := by
    rcases hc with h | h | h <;> subst h <;> exact LexTo.single_punct rfl rfl (by decide) rfl
  have := LexTo.append h hcl (fun r _ => Sep.cons h1)
  rcases ho with h | h | h <;> subst h <;> exact LexTo.pre_punct rfl rfl (by decide) rfl this

/-- `name: value`. -/
theorem LexTo.entry {k v : Text} {ts : List Tok} (hk : isName k = true) (hv : LexTo v ts) :
    LexTo (k ++ ':' :: ' ' :: v) (.word k :: .p ':' :: ts) := by
  have h1 : LexTo (':' :: ' ' :: v) (.p ':' :: ts) :=
    LexTo.pre_punct rfl rfl (by decide) rfl (LexTo.pre_ignored rfl (by decide) rfl hv)
  exact LexTo.append (LexTo.word (word_of_name hk)) h1 (fun r _ => Sep.cons rfl)

mutual
theorem lex_val (vars : Text → SVal) : ∀ v : QVal, goodQ readableS v = true →
    LexTo (showQ v) (valToks (meant vars v))
  | .var _, h => by simp [goodQ] at h
  | .null, _ => by
    simp only [showQ, meant, valToks]
    exact LexTo.word ⟨by decide, by decide⟩
  | .bool b, _ => by
    simp only [showQ, meant, valToks]
    exact LexTo.word (word_bool b)
  | .int n, _ => by
    simp only [showQ, meant, valToks]
    exact LexTo.word (word_int n)
  | .float p, h => by
    simp only [showQ, meant, valToks]
    exact LexTo.word (word_of_number (by simpa [goodQ] using h))
  | .str s, h => by
    simp only [showQ, meant, valToks]
    exact LexTo.quote (by simpa [goodQ, readableS] using h)
  | .enum s, h => by
    simp only [showQ, meant, valToks]
    exact LexTo.word (word_of_name (by simpa [goodQ] using h))
  | .list l, h => by
    simp only [showQ, meant, valToks]
    exact LexTo.between (Or.inr (Or.inl rfl)) (Or.inr (Or.inl rfl)) (lex_vals vars l (by simpa [goodQ] using h))
  | .obj l, h => by
    simp only [showQ, meant, valToks]
    exact LexTo.between (Or.inr (Or.inr rfl)) (Or.inr (Or.inr rfl)) (lex_kvs vars l (by simpa [goodQ] using h))
theorem lex_vals (vars : Text → SVal) : ∀ l : List QVal, goodQs readableS l = true →
    LexTo (joinWith ',' (showQs l)) (valsToks (meants vars l))
  | [], _ => LexTo.nil
  | [v], h => by
    simp only [goodQs, Bool.and_eq_true] at h
    simp only [showQs, meants, valsToks, joinWith, List.append_nil]
    exact lex_val vars v h.1
  | v :: w :: l, h => by
    simp only [goodQs, Bool.and_eq_true] at h
    have h2 := lex_vals vars (w :: l) (by simp [goodQs, h.2])
    simp only [showQs, meants, valsToks, joinWith] at h2 ⊢
    exact LexTo.append (lex_val vars v h.1) (LexTo.pre_ignored rfl (by decide) rfl h2) (fun r _ => Sep.cons rfl)
theorem lex_kvs (vars : Text → SVal) : ∀ l : List (Text × QVal), goodKvs readableS l = true →
    LexTo (joinWith ',' (showKvs l)) (kvsToks (meantKvs vars l))
  | [], _ => LexTo.nil
  | [v], h => by
    simp only [goodKvs, Bool.and_eq_true] at h
    simp only [showKvs, meantKvs, kvsToks, joinWith, List.append_nil]
    exact lex_kv vars v h.1
  | v :: w :: l, h => by
    simp only [goodKvs, Bool.and_eq_true] at h
    have h2 := lex_kvs vars (w :: l) (by simp [goodKvs, h.2])
    simp only [showKvs, meantKvs, kvsToks, joinWith] at h2 ⊢
    exact LexTo.append (lex_kv vars v h.1) (LexTo.pre_ignored rfl (by decide) rfl h2) (fun r _ => Sep.cons rfl)
theorem lex_kv (vars : Text → SVal) : ∀ kv : Text × QVal, goodKv readableS kv = true →
    LexTo (showKv kv) (kvToks (meantKv vars kv))
  | (k, v), h => by
    simp only [goodKv, Bool.and_eq_true] at h
    simp only [showKv, meantKv, kvToks]
    exact LexTo.entry h.1 (lex_val vars v h.2)
end

/-! ## Arguments and directives -/

/-- Good arguments of a field. -/
def goodArgs (ch : Text → Bool) (as : List GArg) : Bool :=
  as.all (fun a => match a.value with
    | none => true
    | some v => isName a.name && goodQ ch v)

/-- Good directives: no argument is `null`. -/
def goodDirs (ch : Text → Bool) (ds : List GDir) : Bool :=
  ds.all (fun d => isName d.name && goodKvs ch d.args && d.args.all (fun kv => !isNull kv.2))

theorem joinWith_isEmpty {sep : Char} {l : List Text} (h : ∀ t ∈ l, t ≠ []) :
    (joinWith sep l).isEmpty = l.isEmpty := by
  cases l with
  | nil => rfl
  | cons a l =>
    have := h a List.mem_cons_self
    cases l <;> cases a <;> simp_all [joinWith]

/-- The arguments that have a value. -/
def given (as : List GArg) : List (Text × QVal) := as.filterMap (fun a => a.value.map (fun v => (a.name, v)))

theorem showKvs_eq (l : List (Text × QVal)) : showKvs l = l.map showKv := by
  induction l with
  | nil => rfl
  | cons a l ih => simp [showKvs, ih]

theorem meantKvs_eq (vars : Text → SVal) (l : List (Text × QVal)) : meantKvs vars l = l.map (meantKv vars) := by
  induction l with
  | nil => rfl
  | cons a l ih => simp [meantKvs, ih]

theorem kvsToks_eq (l : List (Text × SVal)) : kvsToks l = (l.map kvToks).flatten := by
  induction l with
  | nil => rfl
  | cons a l ih => simp [kvsToks, ih]

theorem goodKvs_eq (ch : Text → Bool) (l : List (Text × QVal)) : goodKvs ch l = l.all (goodKv ch) := by
  induction l with
  | nil => rfl
  | cons a l ih => simp [goodKvs, ih]

theorem argTexts_eq (as : List GArg) : argTexts as = showKvs (given as) := by
  rw [showKvs_eq]
  simp only [argTexts, given, List.map_filterMap]
  congr 1
  funext a
  cases a.value <;> rfl

theorem meantArgs_eq (vars : Text → SVal) (as : List GArg) : meantArgs vars as = meantKvs vars (given as) := by
  rw [meantKvs_eq]
  simp only [meantArgs, given, List.map_filterMap]
  congr 1
  funext a
  cases a.value <;> rfl

theorem goodArgs_given {ch : Text → Bool} {as : List GArg} (h : goodArgs ch as = true) :
    goodKvs ch (given as) = true := by
  rw [goodKvs_eq, List.all_eq_true]
  intro kv hkv
  simp only [given, List.mem_filterMap, Option.map_eq_some_iff] at hkv
  obtain ⟨a, ha, v, hv, rfl⟩ := hkv
  have := List.all_eq_true.mp h a ha
  simpa only [hv, goodKv] using this

theorem showKv_ne (kv : Text × QVal) : showKv kv ≠ [] := by
  obtain ⟨k, v⟩ := kv
  simp [showKv]

theorem lex_args (vars : Text → SVal) (as : List GArg) (h : goodArgs readableS as = true) :
    LexTo (argsText id as) (argsToks (meantArgs vars as)) := by
  have hl := lex_kvs vars (given as) (goodArgs_given h)
  unfold argsText argsToks
  rw [argTexts_eq, meantArgs_eq]
  have he : (joinWith ',' (showKvs (given as))).isEmpty = (meantKvs vars (given as)).isEmpty := by
    rw [joinWith_isEmpty, showKvs_eq, meantKvs_eq, List.isEmpty_map, List.isEmpty_map]
    intro t ht
    rw [showKvs_eq] at ht
    obtain ⟨kv, _, rfl⟩ := List.mem_map.mp ht
    exact showKv_ne kv
  simp only [he]
  split
  · exact LexTo.nil
  · exact LexTo.between (Or.inl rfl) (Or.inl rfl) hl

theorem sep_args (as : List GArg) (esc : Text → Text) : ∀ r, Sep r → Sep (argsText esc as ++ r) := by
  intro r hr
  unfold argsText
  simp only []
  split
  · exact hr
  · exact Sep.cons rfl

theorem isName_head {t : Text} (h : isName t = true) : ∃ c r, t = c :: r ∧ nameChar c = true := by
  simp only [isName, Bool.and_eq_true, Bool.not_eq_true', List.isEmpty_eq_false_iff, List.all_eq_true] at h
  cases t with
  | nil => exact absurd rfl h.1
  | cons c r => exact ⟨c, r, rfl, h.2 c List.mem_cons_self⟩

theorem toMustache_show {ch : Text → Bool} {v : QVal} (h : goodQ ch v = true) :
    toMustache (showQ v) = showQ v := by
  have key : ∀ (c : Char) (r : Text), c ≠ '$' → toMustache (c :: r) = c :: r := by
    intro c r hc
    unfold toMustache
    split
    · rename_i heq; cases heq; exact absurd rfl hc
    · rfl
  have words : ∀ t : Text, Word t → toMustache t = t := by
    intro t ht
    cases t with
    | nil => exact absurd rfl ht.1
    | cons c r =>
      refine key c r (fun hc => ?_)
      have := ht.2 c List.mem_cons_self
      subst hc
      exact absurd this (by decide)
  cases v with
  | var n => simp [goodQ] at h
  | null => rfl
  | bool b => simpa only [showQ] using words _ (word_bool b)
  | int n => simpa only [showQ] using words _ (word_int n)
  | float p => simpa only [showQ] using words _ (word_of_number (by simpa [goodQ] using h))
  | str s => simp only [showQ, quote]; exact key _ _ (by decide)
  | enum s => simpa only [showQ] using words _ (word_of_name (by simpa [goodQ] using h))
  | list l => simp only [showQ]; exact key _ _ (by decide)
  | obj l => simp only [showQ]; exact key _ _ (by decide)

theorem dirArgTexts_eq {ch : Text → Bool} {as : List (Text × QVal)} (h : goodKvs ch as = true)
    (h2 : ∀ kv ∈ as, isNull kv.2 = false) : dirArgTexts as = showKvs as := by
  induction as with
  | nil => rfl
  | cons a l ih =>
    simp only [goodKvs, Bool.and_eq_true] at h
    have ih := ih h.2 (fun kv hkv => h2 kv (List.mem_cons_of_mem _ hkv))
    have ha := h2 a List.mem_cons_self
    obtain ⟨k, v⟩ := a
    simp only [goodKv, Bool.and_eq_true] at h
    simp only at ha
    unfold dirArgTexts at ih ⊢
    simp only [List.filterMap_cons, ha, Bool.false_eq_true, if_false, ih, toMustache_show h.1.2, showKvs, showKv]

theorem joinComma_isEmpty {l : List Text} (h : ∀ t ∈ l, t ≠ []) : (joinComma l).isEmpty = l.isEmpty := by
  cases l with
  | nil => rfl
  | cons a l =>
    have := h a List.mem_cons_self
    cases l <;> cases a <;> simp_all [joinComma]

theorem lex_joinComma (vars : Text → SVal) : ∀ l : List (Text × QVal), goodKvs readableS l = true →
    LexTo (joinComma (showKvs l)) (kvsToks (meantKvs vars l))
  | [], _ => LexTo.nil
  | [v], h => by
    simp only [goodKvs, Bool.and_eq_true] at h
    simp only [showKvs, meantKvs, kvsToks, joinComma, List.append_nil]
    exact lex_kv vars v h.1
  | v :: w :: l, h => by
    simp only [goodKvs, Bool.and_eq_true] at h
    have h2 := lex_joinComma vars (w :: l) (by simp [goodKvs, h.2])
    simp only [showKvs, meantKvs, kvsToks, joinComma] at h2 ⊢
    exact LexTo.append (lex_kv vars v h.1)
      (LexTo.pre_ignored rfl (by decide) rfl (LexTo.pre_ignored rfl (by decide) rfl h2)) (fun r _ => Sep.cons rfl)

theorem lex_dir (vars : Text → SVal) (d : GDir) (h1 : isName d.name = true)
    (h2 : goodKvs readableS d.args = true) (h3 : ∀ kv ∈ d.args, isNull kv.2 = false) :
    LexTo (dirText d) (.p '@' :: .word d.name :: argsToks (meantKvs vars d.args)) := by
  have hl := lex_joinComma vars d.args h2
  unfold dirText argsToks
  rw [dirArgTexts_eq h2 h3]
  have he : (joinComma (showKvs d.args)).isEmpty = (meantKvs vars d.args).isEmpty := by
    rw [joinComma_isEmpty, showKvs_eq, meantKvs_eq, List.isEmpty_map, List.isEmpty_map]
    intro t ht
    rw [showKvs_eq] at ht
    obtain ⟨kv, _, rfl⟩ := List.mem_map.mp ht
    exact showKv_ne kv
  have hn := LexTo.word (word_of_name h1)
  simp only [he]
  split
  · exact LexTo.pre_punct rfl rfl (by decide) rfl hn
  · refine LexTo.pre_punct rfl rfl (by decide) rfl ?_
    exact LexTo.append hn (LexTo.between (Or.inl rfl) (Or.inl rfl) hl) (fun r _ => Sep.cons rfl)

theorem dirText_ne (d : GDir) : dirText d ≠ [] := by
  unfold dirText
  simp only []
  split <;> simp

theorem lex_dirs (vars : Text → SVal) (ds : List GDir) (h : goodDirs readableS ds = true) :
    LexTo (dirsText id ds) (dirsToks (meantDirs vars ds)) := by
  have hd : ∀ d ∈ ds, LexTo (dirText d) (.p '@' :: .word d.name :: argsToks (meantKvs vars d.args)) := by
    intro d hd
    have := List.all_eq_true.mp h d hd
    simp only [Bool.and_eq_true, List.all_eq_true, Bool.not_eq_true'] at this
    exact lex_dir vars d this.1.1 this.1.2 this.2
  have hj := LexTo.join (sep := ' ') (Or.inl rfl)
    (ds.map (fun d => (dirText d, Tok.p '@' :: .word d.name :: argsToks (meantKvs vars d.args)))) (by
      intro q hq
      obtain ⟨d, hdm, rfl⟩ := List.mem_map.mp hq
      exact hd d hdm)
  simp only [List.map_map] at hj
  have h1 : ((fun x : Text × List Tok => x.1) ∘ fun d : GDir =>
      (dirText d, Tok.p '@' :: Tok.word d.name :: argsToks (meantKvs vars d.args))) = dirText := rfl
  rw [h1] at hj
  have h2 : (ds.map ((fun x : Text × List Tok => x.2) ∘ fun d : GDir =>
      (dirText d, Tok.p '@' :: Tok.word d.name :: argsToks (meantKvs vars d.args)))).flatten =
      dirsToks (meantDirs vars ds) := by
    clear hj h1 hd h
    induction ds with
    | nil => rfl
    | cons d l ih =>
      have e : meantDirs vars (d :: l) = (d.name, meantKvs vars d.args) :: meantDirs vars l := rfl
      rw [e]
      simp only [dirsToks, ← ih, List.map_cons, List.flatten_cons, Function.comp, List.cons_append]
  rw [h2] at hj
  unfold dirsText
  have he : (joinWith ' ' (ds.map dirText)).isEmpty = ds.isEmpty := by
    rw [joinWith_isEmpty, List.isEmpty_map]
    intro t ht
    obtain ⟨d, _, rfl⟩ := List.mem_map.mp ht
    exact dirText_ne d
  simp only [he]
  split
  · rename_i hemp
    have : ds = [] := List.isEmpty_iff.mp hemp
    subst this
    exact LexTo.nil
  · exact LexTo.pre_ignored rfl (by decide) rfl hj

theorem sep_dirs (ds : List GDir) (esc : Text → Text) : ∀ r, Sep r → Sep (dirsText esc ds ++ r) := by
  intro r hr
  unfold dirsText
  simp only []
  split
  · exact hr
  · exact Sep.cons rfl

/-! ## Selection sets -/

/-- A field of the document with what decides where it goes. -/
structure DItem where
  frag : Option Text
  name : Text
  sel : Sel

/-- The document's selections for the items. -/
def assembleDoc (ord : List Text → List Text) (iface : Bool) (l : List DItem) : List Sel :=
  if l.isEmpty then []
  else (l.filter (fun i => !(iface && i.frag.isSome))).map (·.sel)
    ++ (if iface && !(l.any (fun i => i.name == typename && i.frag.isNone)) then [.field typename [] [] []] else [])
    ++ (ord (if iface then fragKeys (l.map (·.frag)) else [])).map
        (fun k => .frag k ((l.filter (fun i => i.frag == some k)).map (·.sel)))

theorem selsToks_eq (l : List Sel) : selsToks l = (l.map selToks).flatten := by
  induction l with
  | nil => rfl
  | cons a l ih => simp [selsToks, ih]

theorem selsToks_append (a b : List Sel) : selsToks (a ++ b) = selsToks a ++ selsToks b := by
  simp [selsToks_eq]

/-- Texts joined by spaces that read as selections. -/
theorem lex_sels (l : List (Text × Sel)) (h : ∀ q ∈ l, LexTo q.1 (selToks q.2)) :
    LexTo (joinWith ' ' (l.map (·.1))) (selsToks (l.map (·.2))) := by
  have := LexTo.join (sep := ' ') (Or.inl rfl) (l.map (fun q => (q.1, selToks q.2))) (by
    intro q hq
    obtain ⟨x, hx, rfl⟩ := List.mem_map.mp hq
    exact h x hx)
  simp only [List.map_map] at this
  rw [selsToks_eq, List.map_map]
  exact this

theorem mem_fragKeys {k : Text} {l : List (Option Text)} : k ∈ fragKeys l ↔ some k ∈ l := by
  induction l with
  | nil => simp [fragKeys]
  | cons a l ih =>
    cases a with
    | none => simp [fragKeys, ih]
    | some j =>
      by_cases h : k = j
      · simp [fragKeys, h]
      · simp [fragKeys, ih, h]

/-- `{ ` text ` }`. -/
theorem lex_braces {t : Text} {ts : List Tok} (h : LexTo t ts) :
    LexTo (['{', ' '] ++ t ++ [' ', '}']) (.p '{' :: (ts ++ [.p '}'])) := by
  have h1 : LexTo [' ', '}'] [.p '}'] :=
    LexTo.pre_ignored rfl (by decide) rfl (LexTo.single_punct rfl rfl (by decide) rfl)
  have h2 := LexTo.append h h1 (fun r _ => Sep.cons rfl)
  have := LexTo.pre_punct (c := '{') rfl rfl (by decide) rfl (LexTo.pre_ignored (c := ' ') rfl (by decide) rfl h2)
  simpa using this

/-- The selection set of items that read as selections reads as the document's selection set. -/
theorem lex_assemble {ord : List Text → List Text} (hord : ∀ l k, k ∈ ord l → k ∈ l) (iface : Bool)
    (q : List (Item × DItem))
    (h : ∀ x ∈ q, x.1.frag = x.2.frag ∧ x.1.name = x.2.name ∧ LexTo x.1.text (selToks x.2.sel))
    (hk : ∀ x ∈ q, ∀ k, x.1.frag = some k → isName k = true) :
    (q = [] ∧ assemble ord iface (q.map (·.1)) = none) ∨
    (q ≠ [] ∧ ∃ t, assemble ord iface (q.map (·.1)) = some t ∧
      LexTo t (.p '{' :: (selsToks (assembleDoc ord iface (q.map (·.2))) ++ [.p '}']))) := by
  cases hq : q with
  | nil => left; exact ⟨rfl, rfl⟩
  | cons x0 q0 =>
    right
    refine ⟨by simp, ?_⟩
    rw [← hq]
    have hne : q.isEmpty = false := by rw [hq]; rfl
    -- the three parts
    have hfr : (q.map (·.1)).map (·.frag) = (q.map (·.2)).map (·.frag) := by
      simp only [List.map_map]
      exact List.map_congr_left (fun x hx => (h x hx).1)
    have hty : typenameAsked (q.map (·.1)) =
        (q.map (·.2)).any (fun i => i.name == typename && i.frag.isNone) := by
      unfold typenameAsked
      rw [List.any_map, List.any_map]
      rw [Bool.eq_iff_iff]
      simp only [List.any_eq_true, Function.comp]
      constructor <;> rintro ⟨x, hx, hp⟩ <;> refine ⟨x, hx, ?_⟩
      · rw [← (h x hx).1, ← (h x hx).2.1]; exact hp
      · rw [(h x hx).1, (h x hx).2.1]; exact hp
    have hpart : ∀ (p : Option Text → Bool),
        ∃ l : List (Text × Sel), ((q.map (·.1)).filter (fun i => p i.frag)).map (·.text) = l.map (·.1) ∧
          ((q.map (·.2)).filter (fun i => p i.frag)).map (·.sel) = l.map (·.2) ∧
          ∀ y ∈ l, LexTo y.1 (selToks y.2) := by
      intro p
      refine ⟨(q.filter (fun x => p x.1.frag)).map (fun x => (x.1.text, x.2.sel)), ?_, ?_, ?_⟩
      · rw [List.filter_map, List.map_map, List.map_map]
        rfl
      · rw [List.filter_map, List.map_map, List.map_map]
        have : q.filter ((fun i : DItem => p i.frag) ∘ (·.2)) = q.filter (fun x => p x.1.frag) :=
          List.filter_congr (fun x hx => by simp only [Function.comp, (h x hx).1])
        rw [this]
        rfl
      · intro y hy
        obtain ⟨x, hx, rfl⟩ := List.mem_map.mp hy
        exact (h x (List.mem_filter.mp hx).1).2.2
    obtain ⟨ln, hn1, hn2, hn3⟩ := hpart (fun f => !(iface && f.isSome))
    have htn : LexTo typename (selToks (.field typename [] [] [])) := by
      simp only [selToks, argsToks, dirsToks, List.isEmpty_nil, if_true, List.append_nil]
      exact LexTo.word ⟨by decide, by decide⟩
    let lt : List (Text × Sel) :=
      if iface && !((q.map (·.2)).any (fun i => i.name == typename && i.frag.isNone)) then
        [(typename, .field typename [] [] [])] else []
    have hlt : ∀ y ∈ lt, LexTo y.1 (selToks y.2) := by
      intro y hy
      simp only [lt] at hy
      split at hy
      · rw [List.mem_singleton.mp hy]; exact htn
      · simp at hy
    let keys := ord (if iface then fragKeys ((q.map (·.2)).map (·.frag)) else [])
    let lf : List (Text × Sel) := keys.map (fun k => (fragText k (q.map (·.1)),
      .frag k (((q.map (·.2)).filter (fun i => i.frag == some k)).map (·.sel))))
    have hlf : ∀ y ∈ lf, LexTo y.1 (selToks y.2) := by
      intro y hy
      obtain ⟨k, hkm, rfl⟩ := List.mem_map.mp hy
      have hkn : isName k = true := by
        have := hord _ k hkm
        split at this
        · rw [mem_fragKeys, ← hfr] at this
          simp only [List.map_map, List.mem_map, Function.comp] at this
          obtain ⟨x, hx, hxk⟩ := this
          exact hk x hx k hxk
        · simp at this
      obtain ⟨l, h1, h2, h3⟩ := hpart (fun f => f == some k)
      simp only [selToks]
      unfold fragText ofFrag
      rw [h1, h2]
      have hb := lex_braces (lex_sels l h3)
      have hkw : LexTo k [.word k] := LexTo.word (word_of_name hkn)
      have e1 : LexTo (' ' :: (['{', ' '] ++ joinWith ' ' (l.map (·.1)) ++ [' ', '}'])) _ :=
        LexTo.pre_ignored rfl (by decide) rfl hb
      have e2 := LexTo.append hkw e1 (fun r _ => Sep.cons rfl)
      have e3 : LexTo (' ' :: (k ++ ' ' :: (['{', ' '] ++ joinWith ' ' (l.map (·.1)) ++ [' ', '}']))) _ :=
        LexTo.pre_ignored rfl (by decide) rfl e2
      have hon : LexTo ['o', 'n'] [.word ['o', 'n']] := LexTo.word ⟨by decide, by decide⟩
      have e4 := LexTo.append hon e3 (fun r _ => Sep.cons rfl)
      have e5 : LexTo (' ' :: (['o', 'n'] ++ ' ' :: (k ++ ' ' :: (['{', ' '] ++ joinWith ' ' (l.map (·.1)) ++ [' ', '}'])))) _ :=
        LexTo.pre_ignored rfl (by decide) rfl e4
      have hd : LexTo dots [.word dots] := LexTo.word ⟨by decide, by decide⟩
      have e6 := LexTo.append hd e5 (fun r _ => Sep.cons rfl)
      simpa [dots] using e6
    have hall := lex_braces (lex_sels (ln ++ lt ++ lf) (by
      intro y hy
      simp only [List.mem_append] at hy
      rcases hy with (hy | hy) | hy
      · exact hn3 y hy
      · exact hlt y hy
      · exact hlf y hy))
    have hdoc : (ln ++ lt ++ lf).map (·.2) = assembleDoc ord iface (q.map (·.2)) := by
      unfold assembleDoc
      simp only [List.isEmpty_map, hne, Bool.false_eq_true, if_false, hn2, List.map_append]
      congr 1
      · congr 1
        simp only [lt]
        split <;> rfl
      · simp only [lf, keys, List.map_map]
        rfl
    rw [hdoc] at hall
    refine ⟨_, ?_, hall⟩
    unfold assemble
    simp only [List.isEmpty_map, hne, Bool.false_eq_true, if_false, normals, hn1, hty, keysOf, hfr, List.map_append]
    congr 4
    congr 1
    · congr 1
      simp only [lt]
      split <;> rfl
    · simp only [lf, keys, List.map_map]
      rfl

/-! ## Fields -/

/-- Resolvers for which the code agrees with `neededName`: constant values and calls, which are not asked
for, paths into the parent's value, and anything around the path that is the field's own name. -/
def simpleIr (name : Text) : Option IR → Bool
  | none => true
  | some (.io _) => true
  | some (.dynamic _) => true
  | some (.ctxPath _) => true
  | some x =>
    match fromParent x with
    | some (n :: _) => n == name
    | _ => false

mutual
/-- A field for which the upstream can be asked: see `C80_asked_partial`. -/
def goodF (ch : Text → Bool) (kind : Text → Kind) : GField → Bool
  | .mk name out ir ty frag args dirs sub =>
    simpleIr name ir && (match neededName (.mk name out ir ty frag args dirs sub) with
      | none => true
      | some n => isName n) &&
    (match frag with
      | none => true
      | some k => isName k) &&
    goodArgs ch args && goodDirs ch dirs && kind ty.name != .union && goodFs ch kind sub
/-- Fields for which the upstream can be asked. -/
def goodFs (ch : Text → Bool) (kind : Text → Kind) : List GField → Bool
  | [] => true
  | f :: l => goodF ch kind f && goodFs ch kind l
end

theorem goodFs_mem {ch : Text → Bool} {kind : Text → Kind} {l : List GField} (h : goodFs ch kind l = true) :
    ∀ f ∈ l, goodF ch kind f = true := by
  induction l with
  | nil => intro f hf; simp at hf
  | cons a l ih =>
    simp only [goodFs, Bool.and_eq_true] at h
    intro f hf
    rcases List.mem_cons.mp hf with e | e
    · subst e; exact h.1
    · exact ih h.2 f e

theorem simple_needed {f : GField} (h : simpleIr f.name f.ir = true) :
    (ownResolver f.ir = true ∧ neededName f = none) ∨
    (ownResolver f.ir = false ∧ neededName f = some (upName f)) := by
  unfold neededName upName
  cases hir : f.ir with
  | none => exact Or.inr ⟨rfl, rfl⟩
  | some x =>
    rw [hir] at h
    cases x with
    | io => exact Or.inl ⟨rfl, rfl⟩
    | dynamic => exact Or.inl ⟨rfl, rfl⟩
    | ctxPath p => cases p <;> exact Or.inr ⟨rfl, rfl⟩
    | _ =>
      right
      refine ⟨rfl, ?_⟩
      unfold simpleIr at h
      simp only [] at h ⊢
      split at h
      · rename_i n r heq
        rw [heq]
        simp only [beq_iff_eq] at h
        simp [h]
      · simp at h

mutual
/-- The document's items for the fields. -/
def docItems (vars : Text → SVal) (ord : List Text → List Text) (ifs : Text → Bool) : List GField → List DItem
  | [] => []
  | f :: l =>
    if ownResolver f.ir then docItems vars ord ifs l else docItem vars ord ifs f :: docItems vars ord ifs l
/-- The document's item for a field. -/
def docItem (vars : Text → SVal) (ord : List Text → List Text) (ifs : Text → Bool) : GField → DItem
  | .mk name out ir ty frag args dirs sub =>
    let n := upName (.mk name out ir ty frag args dirs sub)
    ⟨frag, n, .field n (meantArgs vars args) (meantDirs vars dirs)
      (assembleDoc ord (ifs ty.name) (docItems vars ord ifs sub))⟩
end

theorem items_eq (esc : Text → Text) (ord : List Text → List Text) (ifs : Text → Bool) (l : List GField) :
    items esc ord ifs l = (l.filter (fun f => !ownResolver f.ir)).map (item esc ord ifs) := by
  induction l with
  | nil => rfl
  | cons f l ih =>
    unfold items
    cases h : ownResolver f.ir <;> simp [h, ih]

theorem docItems_eq (vars : Text → SVal) (ord : List Text → List Text) (ifs : Text → Bool) (l : List GField) :
    docItems vars ord ifs l = (l.filter (fun f => !ownResolver f.ir)).map (docItem vars ord ifs) := by
  induction l with
  | nil => rfl
  | cons f l ih =>
    unfold docItems
    cases h : ownResolver f.ir <;> simp [h, ih]

/-- The list of items and document items together. -/
theorem lex_items {vars : Text → SVal} {ord : List Text → List Text} (hord : ∀ l k, k ∈ ord l → k ∈ l)
    {ifs : Text → Bool} {kind : Text → Kind} (iface : Bool) (l : List GField)
    (hg : ∀ f ∈ l, goodF readableS kind f = true)
    (h : ∀ f ∈ l, ownResolver f.ir = false →
      LexTo (item id ord ifs f).text (selToks (docItem vars ord ifs f).sel)) :
    (items id ord ifs l = [] ∧ assemble ord iface (items id ord ifs l) = none) ∨
    (items id ord ifs l ≠ [] ∧ ∃ t, assemble ord iface (items id ord ifs l) = some t ∧
      LexTo t (.p '{' :: (selsToks (assembleDoc ord iface (docItems vars ord ifs l)) ++ [.p '}']))) := by
  have := lex_assemble hord iface ((l.filter (fun f => !ownResolver f.ir)).map
    (fun f => (item id ord ifs f, docItem vars ord ifs f))) (by
      intro x hx
      obtain ⟨f, hf, rfl⟩ := List.mem_map.mp hx
      rw [List.mem_filter, Bool.not_eq_true'] at hf
      refine ⟨?_, ?_, h f hf.1 hf.2⟩
      · cases f; simp [item, docItem]
      · cases f; simp [item, docItem]) (by
      intro x hx k hk
      obtain ⟨f, hf, rfl⟩ := List.mem_map.mp hx
      have hgf := hg f (List.mem_filter.mp hf).1
      cases f with
      | mk name out ir ty frag args dirs sub =>
        simp only [item] at hk
        subst hk
        simp only [goodF, Bool.and_eq_true] at hgf
        exact hgf.1.1.1.1.2)
  rw [items_eq, docItems_eq]
  simp only [List.map_map] at this
  rcases this with ⟨h1, h2⟩ | ⟨h1, h2⟩
  · left
    refine ⟨by simpa using h1, h2⟩
  · right
    refine ⟨by simpa using h1, h2⟩

theorem assembleDoc_ne {ord : List Text → List Text} (hord : ∀ l : List Text, ∀ k, k ∈ l → k ∈ ord l) (iface : Bool)
    {l : List DItem} (h : l ≠ []) : assembleDoc ord iface l ≠ [] := by
  intro he
  unfold assembleDoc at he
  cases hl : l with
  | nil => exact h hl
  | cons x r =>
    have hne : l.isEmpty = false := by rw [hl]; rfl
    simp only [hne, Bool.false_eq_true, if_false, List.append_eq_nil_iff, List.map_eq_nil_iff] at he
    have hx : x ∈ l := by rw [hl]; exact List.mem_cons_self
    by_cases hi : (iface && x.frag.isSome) = true
    · simp only [Bool.and_eq_true] at hi
      obtain ⟨k, hk⟩ := Option.isSome_iff_exists.mp hi.2
      have : k ∈ fragKeys (l.map (·.frag)) := mem_fragKeys.mpr (hk ▸ List.mem_map_of_mem hx)
      have := hord _ k this
      rw [hi.1] at he
      simp only [if_true] at he
      rw [he.2] at this
      simp at this
    · have : x ∈ l.filter (fun i => !(iface && i.frag.isSome)) := by
        rw [List.mem_filter]; exact ⟨hx, by rw [Bool.not_eq_true] at hi; rw [hi]; rfl⟩
      rw [he.1.1] at this
      simp at this

mutual
theorem lex_field (vars : Text → SVal) {ord : List Text → List Text} (hord : ∀ l k, k ∈ ord l ↔ k ∈ l)
    (ifs : Text → Bool) (kind : Text → Kind) : ∀ f : GField, goodF readableS kind f = true →
    ownResolver f.ir = false → LexTo (item id ord ifs f).text (selToks (docItem vars ord ifs f).sel)
  | .mk name out ir ty frag args dirs sub, h, hown => by
    have hsub := lex_fields vars hord ifs kind sub (by
      simp only [goodF, Bool.and_eq_true] at h; exact h.2)
    have hg : goodF readableS kind (.mk name out ir ty frag args dirs sub) = true := h
    simp only [goodF, Bool.and_eq_true] at h
    have hname : isName (upName (.mk name out ir ty frag args dirs sub)) = true := by
      rcases simple_needed (f := .mk name out ir ty frag args dirs sub) h.1.1.1.1.1.1 with ⟨h1, _⟩ | ⟨_, h2⟩
      · rw [h1] at hown; simp at hown
      · have := h.1.1.1.1.1.2
        rw [h2] at this
        exact this
    have hitems := lex_items (fun l k => (hord l k).mp) (ifs ty.name) sub
      (goodFs_mem h.2) hsub
    simp only [item, docItem, selToks]
    have hn : LexTo _ _ := LexTo.word (word_of_name hname)
    have h1 := LexTo.append hn (lex_args vars args h.1.1.1.2) (sep_args args id)
    have h2 := LexTo.append h1 (lex_dirs vars dirs h.1.1.2) (sep_dirs dirs id)
    rcases hitems with ⟨he, ha⟩ | ⟨he, t, ha, ht⟩
    · rw [ha]
      have : docItems vars ord ifs sub = [] := by
        rw [items_eq, List.map_eq_nil_iff] at he
        rw [docItems_eq, he]
        rfl
      rw [this]
      simpa [assembleDoc] using h2
    · rw [ha]
      have hd : docItems vars ord ifs sub ≠ [] := by
        intro hd
        apply he
        rw [docItems_eq, List.map_eq_nil_iff] at hd
        rw [items_eq, hd]
        rfl
      have hne := assembleDoc_ne (fun l k => (hord l k).mpr) (ifs ty.name) hd
      have : (assembleDoc ord (ifs ty.name) (docItems vars ord ifs sub)).isEmpty = false := by
        cases hq : assembleDoc ord (ifs ty.name) (docItems vars ord ifs sub) with
        | nil => exact absurd hq hne
        | cons => rfl
      rw [this]
      have h3 := LexTo.append h2 (LexTo.pre_ignored (c := ' ') rfl (by decide) rfl ht) (fun r _ => Sep.cons rfl)
      simpa using h3
theorem lex_fields (vars : Text → SVal) {ord : List Text → List Text} (hord : ∀ l k, k ∈ ord l ↔ k ∈ l)
    (ifs : Text → Bool) (kind : Text → Kind) : ∀ l : List GField, goodFs readableS kind l = true →
    ∀ f ∈ l, ownResolver f.ir = false → LexTo (item id ord ifs f).text (selToks (docItem vars ord ifs f).sel)
  | [], _ => fun f hf => by simp at hf
  | g :: l, h => fun f hf hown => by
    simp only [goodFs, Bool.and_eq_true] at h
    have h1 := lex_field vars hord ifs kind g h.1
    have h2 := lex_fields vars hord ifs kind l h.2
    rcases List.mem_cons.mp hf with e | e
    · subst e; exact h1 hown
    · exact h2 f e hown
end

end Verif.Gql
