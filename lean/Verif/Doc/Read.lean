import Verif.Doc.Model
import Verif.Doc.Spec
import Verif.Gql.Print

/-!
# Reading back the tokens of a document
-/

namespace Verif.Doc

open Verif.Mustache (Text)
open Verif.HttpUrl (joinWith intText boolText)
open Verif.Gql (Tok SVal SDir isWordChar isIgnored unesc readVal readDirs valToks kvsToks dirsToks argsToks meant meantKvs isName isNumber
  readableS read_val read_dirs)
open Verif.Sdl (V GTy Dir InDef FieldDef ValDef Kind TypeDef SchemaDef Def)

set_option linter.unusedSimpArgs false

/-! ## Values -/

/-- A number that is not an integer. -/
def isFloat (t : Text) : Bool :=
  isNumber t && (match t with
    | [] => false
    | c :: r => (c == '-' || c.isDigit) && !r.all Char.isDigit)

/-- The name of an enum value. -/
def isEnum (t : Text) : Bool :=
  isName t && t != "null".toList && t != "true".toList && t != "false".toList &&
    (match t with
      | [] => false
      | c :: _ => !c.isDigit)

mutual
/-- Values that can be written: floats are no integers, enum values have proper names, strings have no control
characters. -/
def goodV : V → Bool
  | .null => true
  | .bool _ => true
  | .int _ => true
  | .float p => isFloat p
  | .str s => readableS s
  | .enum s => isEnum s
  | .arr l => goodVs l
  | .obj kvs => goodVKvs kvs
/-- Good values. -/
def goodVs : List V → Bool
  | [] => true
  | v :: l => goodV v && goodVs l
/-- Good entries. -/
def goodVKvs : List (Text × V) → Bool
  | [] => true
  | kv :: l => goodVKv kv && goodVKvs l
/-- A good entry. -/
def goodVKv : Text × V → Bool
  | (k, v) => isName k && goodV v
end

/-- There are no variables. -/
def noVars : Text → SVal := fun _ => .word []

/-- The value as it is read. -/
def sV (v : V) : SVal := meant noVars (toQ v)

/-- The entries as they are read. -/
def sKvs (kvs : List (Text × V)) : List (Text × SVal) := meantKvs noVars (toQKvs kvs)

theorem wordVal_int (n : Int) : wordVal (intText n) = .int n := by
  rw [Verif.Server.intText_eq]
  have hd : ∀ m : Nat, ∃ c r, Nat.toDigits 10 m = c :: r ∧ c.isDigit = true ∧ r.all Char.isDigit = true := by
    intro m
    cases h : Nat.toDigits 10 m with
    | nil => exact absurd h Nat.toDigits_ne_nil
    | cons c r =>
      have hm : ∀ x ∈ c :: r, x.isDigit = true := fun x hx => Verif.Server.digit_of_mem (n := m) (by rw [h]; exact hx)
      exact ⟨c, r, rfl, hm c List.mem_cons_self, List.all_eq_true.mpr (fun x hx => hm x (List.mem_cons_of_mem _ hx))⟩
  have hw : ∀ (c : Char) (r : Text), (c.isDigit = true ∨ c = '-') →
      c :: r ≠ "null".toList ∧ c :: r ≠ "true".toList ∧ c :: r ≠ "false".toList := by
    intro c r hc
    refine ⟨?_, ?_, ?_⟩ <;>
    · intro e
      have e1 := (List.cons.inj e).1
      subst e1
      revert hc
      decide
  split
  · obtain ⟨c, r, h, hc, hr⟩ := hd n.toNat
    rw [h]
    obtain ⟨h1, h2, h3⟩ := hw c r (Or.inl hc)
    have hc' : c ≠ '-' := by intro e; subst e; exact absurd hc (by decide)
    unfold wordVal
    rw [if_neg h1, if_neg h2, if_neg h3]
    simp only [hc', if_false, hc, if_true, hr]
    rw [← h, natOf, Nat.ofDigitChars_ten_toDigits]
    congr 1
    omega
  · obtain ⟨c, r, h, hc, hr⟩ := hd (-n).toNat
    obtain ⟨h1, h2, h3⟩ := hw '-' (Nat.toDigits 10 (-n).toNat) (Or.inr rfl)
    unfold wordVal
    rw [if_neg h1, if_neg h2, if_neg h3]
    have ha : (Nat.toDigits 10 (-n).toNat).all Char.isDigit = true := by rw [h]; simp [hc] at hr ⊢; exact hr
    simp only [if_true, ha]
    rw [natOf, Nat.ofDigitChars_ten_toDigits]
    congr 1
    omega

theorem wordVal_float {t : Text} (h : isFloat t = true) : wordVal t = .float t := by
  unfold isFloat at h
  cases t with
  | nil => simp at h
  | cons c r =>
    simp only [Bool.and_eq_true, Bool.or_eq_true, beq_iff_eq, Bool.not_eq_true'] at h
    obtain ⟨_, h1, h2⟩ := h
    have hw : c :: r ≠ "null".toList ∧ c :: r ≠ "true".toList ∧ c :: r ≠ "false".toList := by
      refine ⟨?_, ?_, ?_⟩ <;>
      · intro e
        have e1 := (List.cons.inj e).1
        subst e1
        revert h1
        decide
    unfold wordVal
    rw [if_neg hw.1, if_neg hw.2.1, if_neg hw.2.2]
    simp only [h2, Bool.false_eq_true, if_false]
    by_cases hc : c = '-'
    · simp only [hc, if_true]
    · have hd : c.isDigit = true := by
        rcases h1 with h | h
        · exact absurd h hc
        · exact h
      simp only [hc, if_false, hd, if_true]

theorem wordVal_enum {t : Text} (h : isEnum t = true) : wordVal t = .enum t := by
  unfold isEnum at h
  cases t with
  | nil => simp [isName] at h
  | cons c r =>
    simp only [Bool.and_eq_true, bne_iff_ne, Bool.not_eq_true'] at h
    obtain ⟨⟨⟨⟨h0, h1⟩, h2⟩, h3⟩, h4⟩ := h
    unfold wordVal
    rw [if_neg h1, if_neg h2, if_neg h3]
    have hc : c ≠ '-' := by
      intro e
      subst e
      simp only [isName, List.all_cons, Bool.and_eq_true] at h0
      exact absurd h0.2.1 (by decide)
    simp only [hc, if_false, h4, Bool.false_eq_true]

mutual
theorem toV_sV : ∀ v : V, goodV v = true → toV (meant noVars (toQ v)) = some v
  | .null, _ => by simp only [toQ, meant, toV]; rfl
  | .bool b, _ => by cases b <;> (simp only [toQ, meant, toV]; rfl)
  | .int i, _ => by simp only [toQ, meant, toV, wordVal_int]
  | .float p, h => by simp only [toQ, meant, toV, wordVal_float (by simpa only [goodV] using h)]
  | .str s, _ => by simp only [toQ, meant, toV]
  | .enum s, h => by simp only [toQ, meant, toV, wordVal_enum (by simpa only [goodV] using h)]
  | .arr l, h => by
    simp only [toQ, meant, toV, toVs_s l (by simpa only [goodV] using h), Option.map_some]
  | .obj l, h => by
    simp only [toQ, meant, toV, toVKvs_s l (by simpa only [goodV] using h), Option.map_some]
theorem toVs_s : ∀ l : List V, goodVs l = true → toVs (Verif.Gql.meants noVars (toQs l)) = some l
  | [], _ => rfl
  | v :: l, h => by
    simp only [goodVs, Bool.and_eq_true] at h
    simp only [toQs, Verif.Gql.meants, toVs, toV_sV v h.1, toVs_s l h.2, Option.bind_some, Option.map_some]
theorem toVKvs_s : ∀ l : List (Text × V), goodVKvs l = true → toVKvs (meantKvs noVars (toQKvs l)) = some l
  | [], _ => rfl
  | v :: l, h => by
    simp only [goodVKvs, Bool.and_eq_true] at h
    simp only [toQKvs, meantKvs, toVKvs, toVKv_s v h.1, toVKvs_s l h.2, Option.bind_some, Option.map_some]
theorem toVKv_s : ∀ kv : Text × V, goodVKv kv = true → toVKv (Verif.Gql.meantKv noVars (toQKv kv)) = some kv
  | (k, v), h => by
    simp only [goodVKv, Bool.and_eq_true] at h
    simp only [toQKv, Verif.Gql.meantKv, toVKv, toV_sV v h.2, Option.map_some]
end

/-! ## Tokens of definitions -/

/-- A directive as it is read. -/
def sDir (d : Dir) : SDir := (d.name, sKvs d.args)

/-- The tokens of directives. -/
def dToks (ds : List Dir) : List Tok := dirsToks (ds.map sDir)

/-- The tokens of `!`. -/
def bangToks (nullable : Bool) : List Tok := if nullable then [] else [.p '!']

/-- The tokens of a type. -/
def tyToks : GTy → List Tok
  | .named n b => .word n :: bangToks b
  | .list t b => .p '[' :: (tyToks t ++ .p ']' :: bangToks b)

/-- The tokens of a description. -/
def descToks : Option Text → List Tok
  | none => []
  | some s => [.str s]

/-- The tokens of a default value. -/
def dfltToks : Option V → List Tok
  | none => []
  | some v => .p '=' :: valToks (sV v)

/-- The tokens of an argument or input field. -/
def inToks (a : InDef) : List Tok :=
  descToks a.doc ++ .word a.name :: .p ':' :: (tyToks a.ty ++ (dfltToks a.dflt ++ dToks a.dirs))

/-- The tokens of the definitions of arguments. -/
def argDefToks (as : List InDef) : List Tok := if as.isEmpty then [] else .p '(' :: (as.flatMap inToks ++ [.p ')'])

/-- The tokens of a field. -/
def fieldToks (f : FieldDef) : List Tok :=
  descToks f.doc ++ .word f.name :: (argDefToks f.args ++ .p ':' :: (tyToks f.ty ++ dToks f.dirs))

/-- The tokens of an enum value. -/
def enumToks (v : ValDef) : List Tok := descToks v.doc ++ .word v.name :: dToks v.dirs

/-- The tokens of names between separators. -/
def nameToks (sep : Char) : List Text → List Tok
  | [] => []
  | [x] => [.word x]
  | x :: y :: r => .word x :: .p sep :: nameToks sep (y :: r)

/-- The tokens of `implements`. -/
def implToks (l : List Text) : List Tok := if l.isEmpty then [] else .word "implements".toList :: nameToks '&' l

/-- The tokens of a body. -/
def bodyToks (l : List (List Tok)) : List Tok := .p '{' :: (l.flatten ++ [.p '}'])

/-- The roots of a schema. -/
def roots (s : SchemaDef) : List (Text × Text) :=
  (s.query.map (fun n => ("query".toList, n))).toList ++ ((s.mutation.map (fun n => ("mutation".toList, n))).toList ++
    (s.subscription.map (fun n => ("subscription".toList, n))).toList)

/-- The tokens of a root. -/
def rootToks (q : Text × Text) : List Tok := [.word q.1, .p ':', .word q.2]

/-- The tokens of a type definition. -/
def typeToks (t : TypeDef) : List Tok :=
  descToks t.doc ++
    match t.kind with
    | .scalar => .word "scalar".toList :: .word t.name :: dToks t.dirs
    | .union ms => .word "union".toList :: .word t.name :: (dToks t.dirs ++ .p '=' :: nameToks '|' ms)
    | .input fs => .word "input".toList :: .word t.name :: (dToks t.dirs ++ bodyToks (fs.map inToks))
    | .iface is fs => .word "interface".toList :: .word t.name :: (implToks is ++ (dToks t.dirs ++ bodyToks (fs.map fieldToks)))
    | .object is fs => .word "type".toList :: .word t.name :: (implToks is ++ (dToks t.dirs ++ bodyToks (fs.map fieldToks)))
    | .enum vs => .word "enum".toList :: .word t.name :: (dToks t.dirs ++ bodyToks (vs.map enumToks))

/-- The tokens of a definition. -/
def defToks : Def → List Tok
  | .schema s => .word "schema".toList :: (dToks s.dirs ++ bodyToks ((roots s).map rootToks))
  | .type t => typeToks t
  | .directive => []

/-! ## Reading them -/

/-- What follows an item does not begin with a punctuator other than a closing one. -/
def Stop (r : List Tok) : Prop := ∀ c, r.head? = some (.p c) → c = '}' ∨ c = ')'

/-- Not this punctuator. -/
theorem Stop.ne {r : List Tok} (h : Stop r) {c : Char} (h1 : c ≠ '}') (h2 : c ≠ ')') : r.head? ≠ some (.p c) := by
  intro e
  rcases h c e with h | h
  · exact h1 h
  · exact h2 h

theorem read_bang (b : Bool) (r : List Tok) (h : r.head? ≠ some (.p '!')) : readBang (bangToks b ++ r) = some (b, r) := by
  unfold readBang bangToks
  cases b <;> simp [h]

theorem read_ty : ∀ (t : GTy) (d : Nat) (r : List Tok), (tyToks t).length ≤ d → r.head? ≠ some (.p '!') →
    readTy d (tyToks t ++ r) = some (t, r)
  | .named n b, 0, r, h, _ => by simp [tyToks] at h
  | .named n b, d + 1, r, _, hr => by
    simp only [tyToks, List.cons_append, readTy, read_bang b r hr, Option.map_some]
  | .list t b, 0, r, h, _ => by simp [tyToks] at h
  | .list t b, d + 1, r, h, hr => by
    simp only [tyToks, List.length_cons, List.length_append] at h
    have h1 := read_ty t d (.p ']' :: (bangToks b ++ r)) (by omega) (by simp)
    simp only [tyToks, List.cons_append, List.append_assoc, readTy]
    simp only [h1, bind, Option.bind, expect, List.head?_cons, if_true, List.tail_cons, read_bang b r hr, pure]

theorem read_dflt (o : Option V) (d : Nat) (r : List Tok) (hg : ∀ v ∈ o, goodV v = true) (h : (dfltToks o).length ≤ d)
    (hr : r.head? ≠ some (.p '=')) : readDflt d (dfltToks o ++ r) = some (o, r) := by
  cases o with
  | none => simp [readDflt, dfltToks, hr]
  | some v =>
    simp only [dfltToks, List.length_cons] at h
    have h1 := read_val (sV v) d r (by omega)
    have h2 : toV (sV v) = some v := toV_sV v (hg v rfl)
    unfold readDflt
    simp only [dfltToks, List.cons_append, List.head?_cons, if_true, List.tail_cons]
    simp only [h1, bind, Option.bind, h2, pure]

theorem toDirs_s (ds : List Dir) (h : ∀ d ∈ ds, goodVKvs d.args = true) : toDirs (ds.map sDir) = some ds := by
  induction ds with
  | nil => rfl
  | cons d l ih =>
    simp only [List.map_cons, toDirs, sDir, sKvs, toVKvs_s d.args (h d List.mem_cons_self), Option.bind_some]
    rw [ih (fun d hd => h d (List.mem_cons_of_mem _ hd))]
    rfl

theorem read_directives (ds : List Dir) (d : Nat) (r : List Tok) (hg : ∀ x ∈ ds, goodVKvs x.args = true)
    (h : (dToks ds).length + 1 ≤ d) (h1 : r.head? ≠ some (.p '(')) (h2 : r.head? ≠ some (.p '@')) :
    readDirectives d (dToks ds ++ r) = some (ds, r) := by
  unfold readDirectives dToks
  simp only [read_dirs (ds.map sDir) d r h h1 h2, bind, Option.bind, toDirs_s ds hg, pure]

theorem read_many {α : Type} {item : Reader α} {tk : α → List Tok} {close : Char} (hc : close = '}' ∨ close = ')')
    (r : List Tok) : ∀ (l : List α), (∀ x ∈ l, ∀ r, Stop r → item (tk x ++ r) = some (x, r)) →
    (∀ x ∈ l, ∃ t ts, tk x = t :: ts ∧ ∀ c, t ≠ .p c) → ∀ d, l.length + 1 ≤ d →
    readMany item close d (l.flatMap tk ++ .p close :: r) = some (l, r) := by
  intro l
  induction l with
  | nil =>
    intro _ _ d hd
    cases d with
    | zero => simp at hd
    | succ d => simp [readMany]
  | cons x l ih =>
    intro hi hh d hd
    cases d with
    | zero => simp at hd
    | succ d =>
      have ih := ih (fun x hx => hi x (List.mem_cons_of_mem _ hx)) (fun x hx => hh x (List.mem_cons_of_mem _ hx)) d
        (by simp only [List.length_cons] at hd; omega)
      obtain ⟨t, ts, hx, ht⟩ := hh x List.mem_cons_self
      have hstop : Stop (l.flatMap tk ++ .p close :: r) := by
        intro c e
        cases l with
        | nil =>
          simp only [List.flatMap_nil, List.nil_append, List.head?_cons, Option.some.injEq, Tok.p.injEq] at e
          subst e; exact hc
        | cons y l =>
          obtain ⟨u, us, hy, hu⟩ := hh y (List.mem_cons_of_mem _ List.mem_cons_self)
          simp only [List.flatMap_cons, hy, List.cons_append, List.head?_cons, Option.some.injEq] at e
          exact absurd e (hu c)
      have h1 := hi x List.mem_cons_self _ hstop
      simp only [List.flatMap_cons, List.append_assoc]
      unfold readMany
      rw [if_neg (by rw [hx]; simpa using ht close)]
      simp only [h1, bind, Option.bind, ih, pure]

theorem read_body {α : Type} {item : Reader α} {tk : α → List Tok} {o close : Char} (hc : close = '}' ∨ close = ')')
    (r : List Tok) (l : List α) (hn : l ≠ []) (hi : ∀ x ∈ l, ∀ r, Stop r → item (tk x ++ r) = some (x, r))
    (hh : ∀ x ∈ l, ∃ t ts, tk x = t :: ts ∧ ∀ c, t ≠ .p c) (d : Nat) (hd : l.length + 1 ≤ d) :
    readBody item o close d (.p o :: (l.flatMap tk ++ .p close :: r)) = some (l, r) := by
  unfold readBody
  have h := read_many hc r l hi hh d hd
  simp only [expect, List.head?_cons, if_true, List.tail_cons, bind, Option.bind, h]
  cases l with
  | nil => exact absurd rfl hn
  | cons x l => rfl

theorem desc_head (o : Option Text) (n : Text) (r : List Tok) :
    ∃ t ts, descToks o ++ .word n :: r = t :: ts ∧ ∀ c, t ≠ .p c := by
  cases o with
  | none => exact ⟨_, _, rfl, fun c => by simp⟩
  | some s => exact ⟨_, _, rfl, fun c => by simp⟩

theorem read_desc (o : Option Text) (n : Text) (r : List Tok) :
    readDesc (descToks o ++ .word n :: r) = some (o, .word n :: r) := by
  cases o <;> rfl

theorem len_flatMap {α : Type} (tk : α → List Tok) (l : List α) (h : ∀ x ∈ l, 1 ≤ (tk x).length) :
    l.length ≤ (l.flatMap tk).length ∧ ∀ x ∈ l, (tk x).length ≤ (l.flatMap tk).length := by
  induction l with
  | nil => simp
  | cons a l ih =>
    have ha := h a List.mem_cons_self
    obtain ⟨h1, h2⟩ := ih (fun x hx => h x (List.mem_cons_of_mem _ hx))
    simp only [List.flatMap_cons, List.length_append, List.length_cons]
    refine ⟨by omega, fun x hx => ?_⟩
    rcases List.mem_cons.mp hx with rfl | hx
    · omega
    · have := h2 x hx; omega

/-- The values of an argument or input field can be written. -/
def InVals (a : InDef) : Prop := (∀ v ∈ a.dflt, goodV v = true) ∧ ∀ x ∈ a.dirs, goodVKvs x.args = true

theorem read_in (a : InDef) (d : Nat) (r : List Tok) (hg : InVals a) (h : (inToks a).length + 1 ≤ d) (hr : Stop r) :
    readIn d (inToks a ++ r) = some (a, r) := by
  simp only [inToks, List.length_append, List.length_cons] at h
  have hhead : ∀ (c : Char), c ≠ '@' → c ≠ '}' → c ≠ ')' → (dToks a.dirs ++ r).head? ≠ some (.p c) := by
    intro c h1 h2 h3
    exact Verif.Gql.dirsToks_head _ r (.p c) (by simpa using h1) (hr.ne h2 h3)
  have h1 := read_ty a.ty d (dfltToks a.dflt ++ (dToks a.dirs ++ r)) (by omega) (by
    cases a.dflt with
    | none => exact hhead '!' (by decide) (by decide) (by decide)
    | some v => simp [dfltToks])
  have h2 := read_dflt a.dflt d (dToks a.dirs ++ r) hg.1 (by omega) (hhead '=' (by decide) (by decide) (by decide))
  have h3 := read_directives a.dirs d r hg.2 (by omega) (hr.ne (by decide) (by decide)) (hr.ne (by decide) (by decide))
  unfold readIn inToks
  simp only [List.append_assoc, List.cons_append, read_desc, bind, Option.bind, readName, expect, List.head?_cons, if_true,
    List.tail_cons, h1, h2, h3, pure]

theorem in_head (a : InDef) : ∃ t ts, inToks a = t :: ts ∧ ∀ c, t ≠ .p c := desc_head _ _ _

theorem in_len (a : InDef) : 1 ≤ (inToks a).length := by
  obtain ⟨t, ts, h, _⟩ := in_head a
  rw [h]; simp

theorem read_argDefs (as : List InDef) (d : Nat) (r : List Tok) (hg : ∀ a ∈ as, InVals a)
    (h : (argDefToks as).length ≤ d) (hr : r.head? ≠ some (.p '(')) : readArgDefs d (argDefToks as ++ r) = some (as, r) := by
  unfold readArgDefs argDefToks
  cases as with
  | nil => simp [hr]
  | cons a l =>
    simp only [argDefToks, List.isEmpty_cons, Bool.false_eq_true, if_false, List.length_cons, List.length_append, List.length_nil] at h
    obtain ⟨h1, h2⟩ := len_flatMap inToks (a :: l) (fun x _ => in_len x)
    simp only [List.isEmpty_cons, Bool.false_eq_true, if_false, List.cons_append, List.head?_cons, if_true, List.append_assoc,
      List.nil_append]
    exact read_body (Or.inr rfl) r (a :: l) (by simp)
      (fun x hx r hr => read_in x d r (hg x hx) (by have := h2 x hx; omega) hr) (fun x _ => in_head x) d (by omega)

/-- The values of a field can be written. -/
def FieldVals (f : FieldDef) : Prop := (∀ a ∈ f.args, InVals a) ∧ ∀ x ∈ f.dirs, goodVKvs x.args = true

theorem read_field (f : FieldDef) (d : Nat) (r : List Tok) (hg : FieldVals f) (h : (fieldToks f).length + 1 ≤ d) (hr : Stop r) :
    readField d (fieldToks f ++ r) = some (f, r) := by
  simp only [fieldToks, List.length_append, List.length_cons] at h
  have h0 := read_argDefs f.args d (.p ':' :: (tyToks f.ty ++ (dToks f.dirs ++ r))) hg.1 (by omega) (by simp)
  have h1 := read_ty f.ty d (dToks f.dirs ++ r) (by omega)
    (Verif.Gql.dirsToks_head _ r (.p '!') (by decide) (hr.ne (by decide) (by decide)))
  have h3 := read_directives f.dirs d r hg.2 (by omega) (hr.ne (by decide) (by decide)) (hr.ne (by decide) (by decide))
  unfold readField fieldToks
  simp only [List.append_assoc, List.cons_append, read_desc, bind, Option.bind, readName, expect, List.head?_cons, if_true,
    List.tail_cons, h0, h1, h3, pure]

theorem field_head (f : FieldDef) : ∃ t ts, fieldToks f = t :: ts ∧ ∀ c, t ≠ .p c := desc_head _ _ _

/-- The values of an enum value can be written. -/
def ValVals (v : ValDef) : Prop := ∀ x ∈ v.dirs, goodVKvs x.args = true

theorem read_enumVal (v : ValDef) (d : Nat) (r : List Tok) (hg : ValVals v) (h : (enumToks v).length + 1 ≤ d) (hr : Stop r) :
    readEnumVal d (enumToks v ++ r) = some (v, r) := by
  simp only [enumToks, List.length_append, List.length_cons] at h
  have h3 := read_directives v.dirs d r hg (by omega) (hr.ne (by decide) (by decide)) (hr.ne (by decide) (by decide))
  unfold readEnumVal enumToks
  simp only [List.append_assoc, List.cons_append, read_desc, bind, Option.bind, readName, h3, pure]

theorem enum_head (v : ValDef) : ∃ t ts, enumToks v = t :: ts ∧ ∀ c, t ≠ .p c := desc_head _ _ _

theorem read_names (sep : Char) (r : List Tok) (hr : r.head? ≠ some (.p sep)) : ∀ (l : List Text), l ≠ [] → ∀ d, l.length ≤ d →
    readNames sep d (nameToks sep l ++ r) = some (l, r)
  | [], h, _, _ => absurd rfl h
  | [x], _, 0, hd => by simp at hd
  | [x], _, d + 1, _ => by
    simp only [nameToks, List.cons_append, List.nil_append, readNames, readName, bind, Option.bind, hr, if_false, pure]
  | x :: y :: l, _, 0, hd => by simp at hd
  | x :: y :: l, _, d + 1, hd => by
    have ih := read_names sep r hr (y :: l) (by simp) d (by simpa using hd)
    simp only [nameToks, List.cons_append, readNames, readName, bind, Option.bind, List.head?_cons, if_true, List.tail_cons, ih, pure]

theorem name_len (sep : Char) : ∀ l : List Text, l.length ≤ (nameToks sep l).length
  | [] => by simp [nameToks]
  | [x] => by simp [nameToks]
  | x :: y :: l => by
    have := name_len sep (y :: l)
    simp only [nameToks, List.length_cons] at this ⊢
    omega

theorem read_impl (l : List Text) (d : Nat) (r : List Tok) (h : (implToks l).length ≤ d) (hr : r.head? ≠ some (.p '&'))
    (hr2 : r.head? ≠ some (.word "implements".toList)) : readImpl d (implToks l ++ r) = some (l, r) := by
  unfold readImpl implToks
  cases l with
  | nil => simp only [List.isEmpty_nil, if_true, List.nil_append, if_neg hr2]
  | cons x l =>
    simp only [implToks, List.isEmpty_cons, Bool.false_eq_true, if_false, List.length_cons] at h
    have := name_len '&' (x :: l)
    simp only [List.isEmpty_cons, Bool.false_eq_true, if_false, List.cons_append, List.head?_cons, if_true, List.tail_cons]
    exact read_names '&' r hr (x :: l) (by simp) d (by omega)

theorem read_root (q : Text × Text) (r : List Tok) : readRoot (rootToks q ++ r) = some (q, r) := rfl

/-! ## Definitions -/

/-- The values of a definition can be written, and it is one that the grammar knows. -/
def DefVals : Def → Prop
  | .schema s => s.ext = false ∧ (∀ x ∈ s.dirs, goodVKvs x.args = true) ∧ roots s ≠ []
  | .type t => t.ext = false ∧ (∀ x ∈ t.dirs, goodVKvs x.args = true) ∧
    match t.kind with
    | .scalar => True
    | .union ms => ms ≠ []
    | .input fs => fs ≠ [] ∧ ∀ f ∈ fs, InVals f
    | .iface _ fs => fs ≠ [] ∧ ∀ f ∈ fs, FieldVals f
    | .object _ fs => fs ≠ [] ∧ ∀ f ∈ fs, FieldVals f
    | .enum vs => vs ≠ [] ∧ ∀ v ∈ vs, ValVals v
  | .directive => False

/-- What follows a definition. -/
def After (r : List Tok) : Prop := ∀ c, r.head? ≠ some (.p c)

theorem roots_query (s : SchemaDef) : rootOf (roots s) "query".toList = s.query := by
  obtain ⟨_, _, q, m, u⟩ := s
  cases q <;> cases m <;> cases u <;> rfl

theorem roots_mutation (s : SchemaDef) : rootOf (roots s) "mutation".toList = s.mutation := by
  obtain ⟨_, _, q, m, u⟩ := s
  cases q <;> cases m <;> cases u <;> rfl

theorem roots_subscription (s : SchemaDef) : rootOf (roots s) "subscription".toList = s.subscription := by
  obtain ⟨_, _, q, m, u⟩ := s
  cases q <;> cases m <;> cases u <;> rfl

theorem body_eq {α : Type} (tk : α → List Tok) (l : List α) (r : List Tok) :
    bodyToks (l.map tk) ++ r = .p '{' :: (l.flatMap tk ++ .p '}' :: r) := by
  simp [bodyToks, List.flatMap]

theorem body_len {α : Type} (tk : α → List Tok) (l : List α) : (bodyToks (l.map tk)).length = (l.flatMap tk).length + 2 := by
  simp [bodyToks, List.flatMap]

theorem body_head (l : List (List Tok)) (r : List Tok) : (bodyToks l ++ r).head? = some (.p '{') := rfl

theorem dispatch (d : Nat) (doc : Option Text) (k : Text) (n : Text) (r : List Tok) :
    readDef d (descToks doc ++ .word k :: .word n :: r) =
      (if k = "schema".toList then readSchema d (.word n :: r)
      else if k = "scalar".toList then readScalar d doc n r
      else if k = "union".toList then readUnion d doc n r
      else if k = "input".toList then readInput d doc n r
      else if k = "interface".toList then readComposite d .iface doc n r
      else if k = "type".toList then readComposite d .object doc n r
      else if k = "enum".toList then readEnum d doc n r
      else none) := by
  unfold readDef
  rw [read_desc]
  rfl

theorem dispatch_schema (d : Nat) (r : List Tok) : readDef d (.word "schema".toList :: r) = readSchema d r := by
  unfold readDef
  simp only [readDesc, readName, bind, Option.bind, if_true]

theorem read_def (x : Def) (d : Nat) (r : List Tok) (hg : DefVals x) (h : (defToks x).length + 1 ≤ d) (hr : After r) :
    readDef d (defToks x ++ r) = some (x, r) := by
  have hbr : ∀ (ds : List Dir) (l : List (List Tok)), (∀ x ∈ ds, goodVKvs x.args = true) → (dToks ds).length + 1 ≤ d →
      readDirectives d (dToks ds ++ (bodyToks l ++ r)) = some (ds, bodyToks l ++ r) := fun ds l h1 h2 =>
    read_directives ds d _ h1 h2 (by rw [body_head]; simp) (by rw [body_head]; simp)
  have him : ∀ (is : List Text) (ds : List Dir) (l : List (List Tok)), (implToks is).length ≤ d →
      readImpl d (implToks is ++ (dToks ds ++ (bodyToks l ++ r))) = some (is, dToks ds ++ (bodyToks l ++ r)) := by
    intro is ds l hl
    refine read_impl is d _ hl ?_ ?_
    · exact Verif.Gql.dirsToks_head _ _ _ (by decide) (by rw [body_head]; decide)
    · exact Verif.Gql.dirsToks_head _ _ _ (by simp) (by rw [body_head]; simp)
  cases x with
  | directive => exact absurd hg (by simp [DefVals])
  | schema s =>
    obtain ⟨he, hd, hn⟩ := hg
    simp only [defToks, List.length_append, List.length_cons, body_len] at h
    obtain ⟨h1, _⟩ := len_flatMap rootToks (roots s) (fun x _ => by simp [rootToks])
    have hb := read_body (item := readRoot) (tk := rootToks) (o := '{') (Or.inl rfl) r (roots s) hn
      (fun x _ r _ => read_root x r) (fun x _ => ⟨_, _, rfl, fun c => by simp⟩) d (by omega)
    have h2 := hbr s.dirs ((roots s).map rootToks) hd (by omega)
    simp only [defToks, List.cons_append, List.append_assoc]
    rw [dispatch_schema]
    unfold readSchema
    simp only [bind, Option.bind, h2, pure]
    simp only [body_eq, hb, roots_query, roots_mutation, roots_subscription]
    rw [← he]
  | type t =>
    obtain ⟨he, hd, hk⟩ := hg
    obtain ⟨ext, doc, name, dirs, kind⟩ := t
    simp only at he hd hk
    subst he
    cases kind with
    | scalar =>
      simp only [defToks, typeToks, List.length_append, List.length_cons] at h
      have h2 := read_directives dirs d r hd (by omega) (hr '(') (hr '@')
      simp only [defToks, typeToks, List.cons_append, List.append_assoc]
      rw [dispatch, if_neg (by decide), if_pos rfl]
      unfold readScalar
      simp only [bind, Option.bind, h2, pure]
    | union ms =>
      simp only [defToks, typeToks, List.length_append, List.length_cons] at h
      have := name_len '|' ms
      have h2 := read_directives dirs d (.p '=' :: (nameToks '|' ms ++ r)) hd (by omega) (by simp) (by simp)
      have h3 := read_names '|' r (hr '|') ms hk d (by omega)
      simp only [defToks, typeToks, List.cons_append, List.append_assoc]
      rw [dispatch, if_neg (by decide), if_neg (by decide), if_pos rfl]
      unfold readUnion
      simp only [bind, Option.bind, h2, h3, expect, List.head?_cons, List.tail_cons, if_true, pure]
    | input fs =>
      simp only [defToks, typeToks, List.length_append, List.length_cons, body_len] at h
      obtain ⟨h4, h5⟩ := len_flatMap inToks fs (fun x _ => in_len x)
      have h2 := hbr dirs (fs.map inToks) hd (by omega)
      have hb := read_body (item := readIn d) (tk := inToks) (o := '{') (Or.inl rfl) r fs hk.1
        (fun x hx r hr => read_in x d r (hk.2 x hx) (by have := h5 x hx; omega) hr) (fun x _ => in_head x) d (by omega)
      simp only [defToks, typeToks, List.cons_append, List.append_assoc]
      rw [dispatch, if_neg (by decide), if_neg (by decide), if_neg (by decide), if_pos rfl]
      unfold readInput
      simp only [bind, Option.bind, h2, pure]
      simp only [body_eq, hb]
    | iface is fs =>
      simp only [defToks, typeToks, List.length_append, List.length_cons, body_len] at h
      obtain ⟨h4, h5⟩ := len_flatMap fieldToks fs (fun x _ => by obtain ⟨t, ts, e, _⟩ := field_head x; rw [e]; simp)
      have h1 := him is dirs (fs.map fieldToks) (by omega)
      have h2 := hbr dirs (fs.map fieldToks) hd (by omega)
      have hb := read_body (item := readField d) (tk := fieldToks) (o := '{') (Or.inl rfl) r fs hk.1
        (fun x hx r hr => read_field x d r (hk.2 x hx) (by have := h5 x hx; omega) hr) (fun x _ => field_head x) d (by omega)
      simp only [defToks, typeToks, List.cons_append, List.append_assoc]
      rw [dispatch, if_neg (by decide), if_neg (by decide), if_neg (by decide), if_neg (by decide), if_pos rfl]
      unfold readComposite
      simp only [bind, Option.bind, h1, h2, pure]
      simp only [body_eq, hb]
    | object is fs =>
      simp only [defToks, typeToks, List.length_append, List.length_cons, body_len] at h
      obtain ⟨h4, h5⟩ := len_flatMap fieldToks fs (fun x _ => by obtain ⟨t, ts, e, _⟩ := field_head x; rw [e]; simp)
      have h1 := him is dirs (fs.map fieldToks) (by omega)
      have h2 := hbr dirs (fs.map fieldToks) hd (by omega)
      have hb := read_body (item := readField d) (tk := fieldToks) (o := '{') (Or.inl rfl) r fs hk.1
        (fun x hx r hr => read_field x d r (hk.2 x hx) (by have := h5 x hx; omega) hr) (fun x _ => field_head x) d (by omega)
      simp only [defToks, typeToks, List.cons_append, List.append_assoc]
      rw [dispatch, if_neg (by decide), if_neg (by decide), if_neg (by decide), if_neg (by decide), if_neg (by decide), if_pos rfl]
      unfold readComposite
      simp only [bind, Option.bind, h1, h2, pure]
      simp only [body_eq, hb]
    | enum vs =>
      simp only [defToks, typeToks, List.length_append, List.length_cons, body_len] at h
      obtain ⟨h4, h5⟩ := len_flatMap enumToks vs (fun x _ => by obtain ⟨t, ts, e, _⟩ := enum_head x; rw [e]; simp)
      have h2 := hbr dirs (vs.map enumToks) hd (by omega)
      have hb := read_body (item := readEnumVal d) (tk := enumToks) (o := '{') (Or.inl rfl) r vs hk.1
        (fun x hx r hr => read_enumVal x d r (hk.2 x hx) (by have := h5 x hx; omega) hr) (fun x _ => enum_head x) d (by omega)
      simp only [defToks, typeToks, List.cons_append, List.append_assoc]
      rw [dispatch, if_neg (by decide), if_neg (by decide), if_neg (by decide), if_neg (by decide), if_neg (by decide), if_neg (by decide), if_pos rfl]
      unfold readEnum
      simp only [bind, Option.bind, h2, pure]
      simp only [body_eq, hb]

theorem def_head (x : Def) (hg : DefVals x) : ∃ t ts, defToks x = t :: ts ∧ ∀ c, t ≠ .p c := by
  cases x with
  | directive => exact absurd hg (by simp [DefVals])
  | schema s => exact ⟨_, _, rfl, fun c => by simp⟩
  | type t =>
    obtain ⟨ext, doc, name, dirs, kind⟩ := t
    cases kind <;> exact desc_head _ _ _

theorem read_defs (d : Nat) : ∀ (l : List Def), (∀ x ∈ l, DefVals x) → (∀ x ∈ l, (defToks x).length + 1 ≤ d) → ∀ n, l.length ≤ n →
    readDefs d n (l.flatMap defToks) = some l := by
  intro l
  induction l with
  | nil => intro _ _ n _; cases n <;> rfl
  | cons x l ih =>
    intro hg hl n hn
    cases n with
    | zero => simp at hn
    | succ n =>
      have ih := ih (fun y hy => hg y (List.mem_cons_of_mem _ hy)) (fun y hy => hl y (List.mem_cons_of_mem _ hy)) n (by simpa using hn)
      have ha : After (l.flatMap defToks) := by
        intro c e
        cases l with
        | nil => simp at e
        | cons y l =>
          obtain ⟨u, us, hy, hu⟩ := def_head y (hg y (List.mem_cons_of_mem _ List.mem_cons_self))
          simp only [List.flatMap_cons, hy, List.cons_append, List.head?_cons, Option.some.injEq] at e
          exact absurd e (hu c)
      have h1 := read_def x d (l.flatMap defToks) (hg x List.mem_cons_self) (hl x List.mem_cons_self) ha
      obtain ⟨u, us, hx, _⟩ := def_head x (hg x List.mem_cons_self)
      simp only [List.flatMap_cons]
      rw [hx] at h1 ⊢
      simp only [List.cons_append] at h1 ⊢
      unfold readDefs
      simp only [h1, bind, Option.bind, ih, pure]

/-- Tokens of a document read as the document. -/
theorem read_toks (l : List Def) (hg : ∀ x ∈ l, DefVals x) {t : Text} (h : lex .top t = some (l.flatMap defToks)) :
    readText t = some l := by
  obtain ⟨h1, h2⟩ := len_flatMap defToks l (fun x hx => by obtain ⟨t, ts, e, _⟩ := def_head x (hg x hx); rw [e]; simp)
  unfold readText
  simp only [h, bind, Option.bind]
  exact read_defs _ l hg (fun x hx => by have := h2 x hx; omega) _ (by omega)

end Verif.Doc
