import Verif.Schema.Model

set_option linter.unusedSimpArgs false

/-!
# Specification and lemmas for the JSON schema checks
-/

namespace Verif.Schema

open Verif.Mustache (Text)
open Verif.HttpUrl (GVal intText)
open Verif.Exec (Ty)

/-! ## Specification -/

/-- The member of an object under a key. -/
def At {α : Type} (kvs : List (Text × α)) (k : Text) (x : α) : Prop :=
  (kvs.find? (fun p => p.1 = k)).map (·.2) = some x

/-- The object has no member of this name. -/
def Lacks {α : Type} (kvs : List (Text × α)) (k : Text) : Prop := k ∉ kvs.map (·.1)

/-- What a schema means: the values it describes. -/
inductive Has : JS → GVal → Prop
  | str (s) : Has .str (.str s)
  | int (i) : Has .num (.int i)
  | float (t) : Has .num (.float t)
  | bool (b) : Has .bool (.bool b)
  | emptyNull : Has .empty .null
  | emptyObj : Has .empty (.obj [])
  | any (v) : Has .any v
  | enum (ns v) : Has (.enum ns) v
  | arr (s l) : (∀ x ∈ l, Has s x) → Has (.arr s) (.list l)
  | optNull (s) : Has (.opt s) .null
  | opt (s v) : Has s v → Has (.opt s) v
  | obj (fs kvs) :
      (∀ p ∈ fs, ∀ x, At kvs p.1 x → Has p.2 x) →
      (∀ p ∈ fs, Lacks kvs p.1 → ∃ s, p.2 = .opt s) →
      Has (.obj fs) (.obj kvs)

/-- The part of a schema an error of `validate` points at. -/
inductive Part : JS → List Text → JS → Prop
  | here (s) : Part s [] s
  | opt (s p t) : Part s p t → Part (.opt s) p t
  | item (s i p t) : Part s p t → Part (.arr s) (intText i :: p) t
  | field (fs k s p t) : (k, s) ∈ fs → Part s p t → Part (.obj fs) (k :: p) t

/-- No member of an object is declared as `Any` (a required member of any kind), anywhere. -/
inductive NoAnyField : JS → Prop
  | str : NoAnyField .str
  | num : NoAnyField .num
  | bool : NoAnyField .bool
  | empty : NoAnyField .empty
  | any : NoAnyField .any
  | enum (ns) : NoAnyField (.enum ns)
  | arr (s) : NoAnyField s → NoAnyField (.arr s)
  | opt (s) : NoAnyField s → NoAnyField (.opt s)
  | obj (fs) : (∀ p ∈ fs, NoAnyField p.2) → (∀ p ∈ fs, p.2 ≠ .any) → NoAnyField (.obj fs)

/-- The member names of every object are distinct, as in a `BTreeMap`. -/
inductive Distinct : JS → Prop
  | str : Distinct .str
  | num : Distinct .num
  | bool : Distinct .bool
  | empty : Distinct .empty
  | any : Distinct .any
  | enum (ns) : Distinct (.enum ns)
  | arr (s) : Distinct s → Distinct (.arr s)
  | opt (s) : Distinct s → Distinct (.opt s)
  | obj (fs) : (fs.map (·.1)).Nodup → (∀ p ∈ fs, Distinct p.2) → Distinct (.obj fs)

/-! ## Lookups -/

theorem getKey_some {kvs : List (Text × GVal)} {k : Text} {x : GVal} :
    getKey kvs k = some x ↔ At kvs k x := by
  induction kvs with
  | nil => simp [getKey, At]
  | cons p r ih =>
    obtain ⟨k', v⟩ := p
    by_cases h : k' = k
    · simp [getKey, At, h]
    · simp only [getKey, h, if_false, At, List.find?_cons, decide_false]
      simpa [At] using ih

theorem getKey_none {kvs : List (Text × GVal)} {k : Text} :
    getKey kvs k = none ↔ Lacks kvs k := by
  induction kvs with
  | nil => simp [getKey, Lacks]
  | cons p r ih =>
    obtain ⟨k', v⟩ := p
    by_cases h : k' = k
    · simp [getKey, Lacks, h]
    · simp only [getKey, h, if_false, ih, Lacks, List.map_cons, List.mem_cons, not_or]
      exact ⟨fun hh => ⟨fun e => h e.symm, hh⟩, fun hh => hh.2⟩

theorem getField_mem {fs : List (Text × JS)} {k : Text} {s : JS} (h : getField fs k = some s) :
    (k, s) ∈ fs := by
  induction fs with
  | nil => simp [getField] at h
  | cons p r ih =>
    obtain ⟨k', v⟩ := p
    by_cases hk : k' = k
    · simp only [getField, hk, if_true, Option.some.injEq] at h
      simp [hk, h]
    · simp only [getField, hk, if_false] at h
      exact List.mem_cons_of_mem _ (ih h)

theorem getField_of_mem {fs : List (Text × JS)} (hd : (fs.map (·.1)).Nodup) {k : Text} {s : JS}
    (h : (k, s) ∈ fs) : getField fs k = some s := by
  induction fs with
  | nil => simp at h
  | cons p r ih =>
    obtain ⟨k', v⟩ := p
    simp only [List.map_cons, List.nodup_cons] at hd
    by_cases hk : k' = k
    · simp only [getField, hk, if_true]
      rcases List.mem_cons.1 h with h | h
      · cases h; rfl
      · exact absurd (List.mem_map_of_mem (f := (·.1)) h) (hk ▸ hd.1)
    · simp only [getField, hk, if_false]
      rcases List.mem_cons.1 h with h | h
      · cases h; exact absurd rfl hk
      · exact ih hd.2 h

/-! ## `validate` decides `Has` -/

theorem required_iff (s : JS) : s.isRequired = false ↔ ∃ t, s = .opt t := by
  cases s <;> simp [JS.isRequired]

theorem validateFields_mem {fs : List (Text × JS)} {kvs : List (Text × GVal)} {e : VErr} :
    e ∈ validateFields fs kvs ↔ ∃ p ∈ fs,
      (∃ x, At kvs p.1 x ∧ e ∈ (validate p.2 x).map (VErr.at p.1)) ∨
      (Lacks kvs p.1 ∧ (∀ s, p.2 ≠ .opt s) ∧ e = ⟨[p.1], .missing⟩) := by
  induction fs with
  | nil => simp [validateFields]
  | cons p r ih =>
    obtain ⟨k, s⟩ := p
    simp only [validateFields, List.mem_append, ih, List.mem_cons, exists_eq_or_imp]
    refine or_congr ?_ Iff.rfl
    cases hg : getKey kvs k with
    | some x =>
      have hx := getKey_some.1 hg
      have hnl : ¬ Lacks kvs k := fun h => by rw [getKey_none.2 h] at hg; cases hg
      simp only [hnl, false_and, or_false]
      constructor
      · intro h; exact ⟨x, hx, h⟩
      · rintro ⟨y, hy, h⟩
        rw [getKey_some.2 hy] at hg
        cases hg
        exact h
    | none =>
      have hl := getKey_none.1 hg
      have hna : ∀ x, ¬ At kvs k x := fun x h => by rw [getKey_some.2 h] at hg; cases hg
      simp only [hl, true_and]
      constructor
      · intro h
        right
        by_cases hr : s.isRequired = true
        · simp only [hr, if_true, vfail, List.map_cons, List.map_nil, List.mem_singleton] at h
          refine ⟨fun t ht => ?_, h⟩
          rw [ht] at hr
          cases hr
        · simp [hr] at h
      · rintro (⟨x, hx, _⟩ | ⟨hs, he⟩)
        · exact absurd hx (hna x)
        · have hr : s.isRequired = true := by
            cases h : s.isRequired with
            | true => rfl
            | false => obtain ⟨t, ht⟩ := (required_iff s).1 h; exact absurd ht (hs t)
          simp [hr, vfail, VErr.at, he]

theorem validateFields_nil {fs : List (Text × JS)} {kvs : List (Text × GVal)} :
    validateFields fs kvs = [] ↔
      (∀ p ∈ fs, ∀ x, At kvs p.1 x → validate p.2 x = []) ∧
      (∀ p ∈ fs, Lacks kvs p.1 → ∃ s, p.2 = .opt s) := by
  rw [List.eq_nil_iff_forall_not_mem]
  constructor
  · intro h
    refine ⟨fun p hp x hx => ?_, fun p hp hl => ?_⟩
    · rw [List.eq_nil_iff_forall_not_mem]
      intro e he
      exact h (VErr.at p.1 e) (validateFields_mem.2 ⟨p, hp, .inl ⟨x, hx, List.mem_map_of_mem he⟩⟩)
    · apply Classical.byContradiction
      intro hn
      exact h ⟨[p.1], .missing⟩ (validateFields_mem.2 ⟨p, hp, .inr ⟨hl, fun s hs => hn ⟨s, hs⟩, rfl⟩⟩)
  · rintro ⟨h1, h2⟩ e he
    obtain ⟨p, hp, hh⟩ := validateFields_mem.1 he
    rcases hh with ⟨x, hx, h⟩ | ⟨hl, hn, _⟩
    · rw [h1 p hp x hx] at h; simp at h
    · obtain ⟨s, hs⟩ := h2 p hp hl; exact hn s hs

theorem validateItems_nil {s : JS} {l : List GVal} {n : Nat} :
    (l.zipIdx n).flatMap (fun p => (validate s p.1).map (VErr.at (intText p.2))) = [] ↔
      ∀ x ∈ l, validate s x = [] := by
  induction l generalizing n with
  | nil => simp
  | cons a r ih => simp [List.zipIdx_cons, ih]

/-- Induction over schemas with the members of objects. -/
theorem JS.induct {P : JS → Prop} (hstr : P .str) (hnum : P .num) (hbool : P .bool)
    (hempty : P .empty) (hany : P .any) (henum : ∀ ns, P (.enum ns))
    (harr : ∀ s, P s → P (.arr s)) (hopt : ∀ s, P s → P (.opt s))
    (hobj : ∀ fs, (∀ p ∈ fs, P p.2) → P (.obj fs)) : ∀ s, P s := by
  intro s
  refine JS.rec (motive_1 := P) (motive_2 := fun fs => ∀ p ∈ fs, P p.2) (motive_3 := fun p => P p.2)
    hobj harr hopt henum hstr hnum hbool hempty hany ?_ ?_ ?_ s
  · simp
  · intro p r hp hr q hq
    rcases List.mem_cons.1 hq with h | h
    · exact h ▸ hp
    · exact hr q h
  · intro k s hs; exact hs

theorem validate_iff (s : JS) : ∀ v, validate s v = [] ↔ Has s v := by
  induction s using JS.induct with
  | hstr =>
    intro v
    constructor
    · cases v <;> simp [validate, vfail]; exact Has.str _
    · intro h; cases h; simp [validate]
  | hnum =>
    intro v
    constructor
    · cases v <;> simp [validate, vfail]
      · exact Has.int _
      · exact Has.float _
    · intro h; cases h <;> simp [validate]
  | hbool =>
    intro v
    constructor
    · cases v <;> simp [validate, vfail]; exact Has.bool _
    · intro h; cases h; simp [validate]
  | hempty =>
    intro v
    constructor
    · intro h
      cases v with
      | null => exact .emptyNull
      | obj kvs => cases kvs with
        | nil => exact .emptyObj
        | cons a r => simp [validate, vfail] at h
      | _ => simp [validate, vfail] at h
    · intro h; cases h <;> simp [validate]
  | hany => intro v; simp [validate]; exact .any _
  | henum ns => intro v; simp [validate]; exact .enum _ _
  | harr s ih =>
    intro v
    constructor
    · intro h
      cases v with
      | list l =>
        simp only [validate] at h
        exact .arr _ _ (fun x hx => (ih x).1 (validateItems_nil.1 h x hx))
      | _ => simp [validate, vfail] at h
    · intro h
      cases h with
      | arr _ l h => simp only [validate]; exact validateItems_nil.2 (fun x hx => (ih x).2 (h x hx))
  | hopt s ih =>
    intro v
    constructor
    · intro h
      cases v with
      | null => exact .optNull _
      | _ => exact .opt _ _ ((ih _).1 (by simpa [validate] using h))
    · intro h
      cases h with
      | optNull => simp [validate]
      | opt _ _ h =>
        have := (ih v).2 h
        cases v <;> simp_all [validate]
  | hobj fs ih =>
    intro v
    constructor
    · intro h
      cases v with
      | obj kvs =>
        simp only [validate] at h
        obtain ⟨h1, h2⟩ := validateFields_nil.1 h
        exact .obj _ _ (fun p hp x hx => (ih p hp x).1 (h1 p hp x hx)) h2
      | _ => simp [validate, vfail] at h
    · intro h
      cases h with
      | obj _ kvs h1 h2 =>
        simp only [validate]
        exact validateFields_nil.2 ⟨fun p hp x hx => (ih p hp x).2 (h1 p hp x hx), h2⟩

/-! ## `is_a` -/

theorem isAFields_nil {actual fs : List (Text × JS)} :
    isAFields actual fs = [] ↔ ∀ p ∈ fs, ∃ a, getField actual p.1 = some a ∧ isA a p.2 p.1 = [] := by
  induction fs with
  | nil => simp [isAFields]
  | cons p r ih =>
    obtain ⟨k, e⟩ := p
    simp only [isAFields, List.append_eq_nil_iff, ih, List.mem_cons, forall_eq_or_imp]
    refine and_congr ?_ Iff.rfl
    cases getField actual k <;> simp

/-- The name only appears in the errors. -/
theorem isA_name (b : JS) : ∀ (a : JS) (n m : Text), isA a b n = [] ↔ isA a b m = [] := by
  induction b using JS.induct with
  | harr s ih => intro a n m; cases a <;> simp [isA, ifail]; exact ih _ n m
  | hopt s ih => intro a n m; cases a <;> simp [isA, ifail] <;> exact ih _ n m
  | henum ns => intro a n m; cases a <;> simp [isA, ifail]
  | _ => intro a n m; cases a <;> simp [isA, ifail]

/-- `sub` is accepted where `sup` is expected. -/
def Sub (sub sup : JS) : Prop := isA sub sup [] = []

theorem sub_any (a : JS) : Sub a .any := by simp [Sub, isA]

theorem sub_obj {a b : List (Text × JS)} :
    Sub (.obj a) (.obj b) ↔ ∀ p ∈ b, ∃ x, getField a p.1 = some x ∧ Sub x p.2 := by
  simp only [Sub, isA, List.map_eq_nil_iff, isAFields_nil]
  constructor
  · intro h p hp; obtain ⟨x, hx, h⟩ := h p hp; exact ⟨x, hx, (isA_name _ _ _ _).1 h⟩
  · intro h p hp; obtain ⟨x, hx, h⟩ := h p hp; exact ⟨x, hx, (isA_name _ _ _ _).1 h⟩

theorem sub_arr {a b : JS} : Sub (.arr a) (.arr b) ↔ Sub a b := by simp [Sub, isA]

theorem sub_opt_opt {a b : JS} : Sub (.opt a) (.opt b) ↔ Sub a b := by simp [Sub, isA]

theorem sub_opt {a b : JS} (ha : ∀ x, a ≠ .opt x) : Sub a (.opt b) ↔ Sub a b := by
  cases a with
  | opt x => exact absurd rfl (ha x)
  | _ => simp [Sub, isA]

/-- What can stand where a schema other than `Any` is expected. -/
theorem sub_inv {a b : JS} (h : Sub a b) : b = .any ∨ (∃ y, b = .opt y) ∨ (∃ x y, a = .arr x ∧ b = .arr y)
    ∨ (∃ x y, a = .obj x ∧ b = .obj y) ∨ (a = b ∧ (b = .str ∨ b = .num ∨ b = .bool ∨ b = .empty ∨ ∃ n, b = .enum n)) := by
  cases b with
  | any => exact .inl rfl
  | opt y => exact .inr (.inl ⟨y, rfl⟩)
  | arr y => cases a <;> simp [Sub, isA, ifail] at h <;> simp
  | obj y => cases a <;> simp [Sub, isA, ifail] at h <;> simp
  | enum n =>
    cases a with
    | enum m =>
      simp only [Sub, isA, ifail] at h
      split at h
      · rename_i e; simp [e]
      · cases h
    | _ => simp [Sub, isA, ifail] at h
  | _ => cases a <;> simp [Sub, isA, ifail] at h <;> simp

theorem sub_refl {a : JS} (hd : Distinct a) : Sub a a := by
  induction hd with
  | str => simp [Sub, isA]
  | num => simp [Sub, isA]
  | bool => simp [Sub, isA]
  | empty => simp [Sub, isA]
  | any => simp [Sub, isA]
  | enum ns => simp [Sub, isA]
  | arr s _ ih => exact sub_arr.2 ih
  | opt s _ ih => exact sub_opt_opt.2 ih
  | obj fs hn _ ih => exact sub_obj.2 (fun p hp => ⟨p.2, getField_of_mem hn hp, ih p hp⟩)

/-- Where `Any` is accepted everything is. -/
theorem sub_of_any (b : JS) : ∀ {a}, Sub .any b → Sub a b := by
  induction b using JS.induct with
  | hopt s ih =>
    intro a h
    have h' : Sub .any s := (sub_opt (by simp)).1 h
    by_cases ha : ∃ x, a = .opt x
    · obtain ⟨x, rfl⟩ := ha; exact sub_opt_opt.2 (ih h')
    · exact (sub_opt (fun x hx => ha ⟨x, hx⟩)).2 (ih h')
  | hany => intro a _; exact sub_any a
  | _ => intros; rename_i h; simp [Sub, isA, ifail] at h

theorem sub_trans (c : JS) : ∀ {a b : JS}, Sub a b → Sub b c → Sub a c := by
  induction c using JS.induct with
  | hany => intro a b _ _; exact sub_any a
  | hopt s ih =>
    intro a b hab hbc
    by_cases hb : ∃ y, b = .opt y
    · obtain ⟨y, rfl⟩ := hb
      have hys := sub_opt_opt.1 hbc
      by_cases ha : ∃ x, a = .opt x
      · obtain ⟨x, rfl⟩ := ha
        exact sub_opt_opt.2 (ih (sub_opt_opt.1 hab) hys)
      · have ha' : ∀ x, a ≠ .opt x := fun x hx => ha ⟨x, hx⟩
        exact (sub_opt ha').2 (ih ((sub_opt ha').1 hab) hys)
    · have hb' : ∀ y, b ≠ .opt y := fun y hy => hb ⟨y, hy⟩
      have hbs := (sub_opt hb').1 hbc
      by_cases ha : ∃ x, a = .opt x
      · obtain ⟨x, rfl⟩ := ha
        rcases sub_inv hab with rfl | ⟨y, rfl⟩ | ⟨_, _, h, _⟩ | ⟨_, _, h, _⟩ | ⟨h, _⟩
        · exact sub_opt_opt.2 (sub_of_any _ hbs)
        · exact absurd rfl (hb' y)
        · cases h
        · cases h
        · exact absurd h.symm (hb' x)
      · have ha' : ∀ x, a ≠ .opt x := fun x hx => ha ⟨x, hx⟩
        exact (sub_opt ha').2 (ih hab hbs)
  | harr s ih =>
    intro a b hab hbc
    rcases sub_inv hbc with h | ⟨y, h⟩ | ⟨x, y, rfl, h⟩ | ⟨_, _, _, h⟩ | ⟨_, h⟩
    · cases h
    · cases h
    · cases h
      rcases sub_inv hab with h | ⟨y, h⟩ | ⟨x', y', rfl, h⟩ | ⟨_, _, _, h⟩ | ⟨_, h⟩
      · cases h
      · cases h
      · cases h; exact sub_arr.2 (ih (sub_arr.1 hab) (sub_arr.1 hbc))
      · cases h
      · simp at h
    · cases h
    · simp at h
  | hobj fs ih =>
    intro a b hab hbc
    rcases sub_inv hbc with h | ⟨y, h⟩ | ⟨_, _, _, h⟩ | ⟨x, y, rfl, h⟩ | ⟨_, h⟩
    · cases h
    · cases h
    · cases h
    · cases h
      rcases sub_inv hab with h | ⟨y, h⟩ | ⟨_, _, _, h⟩ | ⟨x', y', rfl, h⟩ | ⟨_, h⟩
      · cases h
      · cases h
      · cases h
      · cases h
        refine sub_obj.2 (fun p hp => ?_)
        obtain ⟨q, hq, hqp⟩ := sub_obj.1 hbc p hp
        obtain ⟨r, hr, hrq⟩ := sub_obj.1 hab (p.1, q) (getField_mem hq)
        exact ⟨r, hr, ih p hp hrq hqp⟩
      · simp at h
    · simp at h
  | henum ns =>
    intro a b hab hbc
    rcases sub_inv hbc with h | ⟨y, h⟩ | ⟨_, _, _, h⟩ | ⟨_, _, _, h⟩ | ⟨rfl, _⟩
    · cases h
    · cases h
    · cases h
    · cases h
    · exact hab
  | _ =>
    intro a b hab hbc
    rcases sub_inv hbc with h | ⟨y, h⟩ | ⟨_, _, _, h⟩ | ⟨_, _, _, h⟩ | ⟨rfl, _⟩
    · cases h
    · cases h
    · cases h
    · cases h
    · exact hab

/-- A value of the smaller schema fails the larger one only by lacking members declared `Any`. -/
theorem sub_errors (b : JS) : ∀ {a : JS} {v : GVal}, Sub a b → Has a v →
    ∀ e ∈ validate b v, e.msg = .missing ∧ Part b e.trace .any := by
  induction b using JS.induct with
  | hany => intro a v _ _ e he; simp [validate] at he
  | henum ns => intro a v _ _ e he; simp [validate] at he
  | hopt s ih =>
    intro a v hab hv e he
    cases hnull : v with
    | null => rw [hnull] at he; simp [validate] at he
    | _ =>
      have he' : e ∈ validate s v := by rw [hnull] at he ⊢; simpa [validate] using he
      have hsub : ∃ a', Sub a' s ∧ Has a' v := by
        by_cases ha : ∃ x, a = .opt x
        · obtain ⟨x, rfl⟩ := ha
          refine ⟨x, sub_opt_opt.1 hab, ?_⟩
          cases hv with
          | optNull => cases hnull
          | opt _ _ h => exact h
        · exact ⟨a, (sub_opt (fun x hx => ha ⟨x, hx⟩)).1 hab, hv⟩
      obtain ⟨a', h1, h2⟩ := hsub
      have := ih h1 h2 e he'
      exact ⟨this.1, .opt _ _ _ this.2⟩
  | harr s ih =>
    intro a v hab hv e he
    rcases sub_inv hab with h | ⟨y, h⟩ | ⟨x, y, rfl, h⟩ | ⟨_, _, _, h⟩ | ⟨_, h⟩
    · cases h
    · cases h
    · cases h
      cases hv with
      | arr _ l hl =>
        simp only [validate, List.mem_flatMap, List.mem_map] at he
        obtain ⟨p, hp, e', he', rfl⟩ := he
        have hpl : p.1 ∈ l := List.fst_mem_of_mem_zipIdx hp
        have := ih (sub_arr.1 hab) (hl _ hpl) e' he'
        exact ⟨this.1, .item _ _ _ _ this.2⟩
    · cases h
    · simp at h
  | hobj fs ih =>
    intro a v hab hv e he
    rcases sub_inv hab with h | ⟨y, h⟩ | ⟨_, _, _, h⟩ | ⟨x, y, rfl, h⟩ | ⟨_, h⟩
    · cases h
    · cases h
    · cases h
    · cases h
      cases hv with
      | obj _ kvs h1 h2 =>
        simp only [validate] at he
        obtain ⟨p, hp, hh⟩ := validateFields_mem.1 he
        obtain ⟨s, hs, hsp⟩ := sub_obj.1 hab p hp
        have hmem := getField_mem hs
        rcases hh with ⟨w, hw, hh⟩ | ⟨hl, hno, rfl⟩
        · obtain ⟨e', he', rfl⟩ := List.mem_map.1 hh
          have := ih p hp hsp (h1 _ hmem w hw) e' he'
          exact ⟨this.1, .field _ _ _ _ _ hp this.2⟩
        · obtain ⟨t, ht⟩ := h2 _ hmem hl
          simp only at ht
          subst ht
          refine ⟨rfl, .field _ _ _ _ _ hp ?_⟩
          rcases sub_inv hsp with h | ⟨y, h⟩ | ⟨_, _, h, _⟩ | ⟨_, _, h, _⟩ | ⟨h, h'⟩
          · rw [h]; exact .here _
          · exact absurd h (hno y)
          · cases h
          · cases h
          · exact absurd h.symm (hno t)
    · simp at h
  | _ =>
    intro a v hab hv e he
    rcases sub_inv hab with h | ⟨y, h⟩ | ⟨_, _, _, h⟩ | ⟨_, _, _, h⟩ | ⟨rfl, _⟩
    · cases h
    · cases h
    · cases h
    · cases h
    · rw [(validate_iff _ _).2 hv] at he; cases he

/-- Without members declared `Any`, every value of the smaller schema is a value of the larger. -/
theorem sub_sound (b : JS) : NoAnyField b → ∀ {a : JS} {v : GVal}, Sub a b → Has a v → Has b v := by
  induction b using JS.induct with
  | hany => intro _ a v _ _; exact .any v
  | henum ns => intro _ a v _ _; exact .enum ns v
  | hopt s ih =>
    intro hn a v hab hv
    cases hn with
    | opt _ hn =>
      by_cases ha : ∃ x, a = .opt x
      · obtain ⟨x, rfl⟩ := ha
        cases hv with
        | optNull => exact .optNull _
        | opt _ _ h => exact .opt _ _ (ih hn (sub_opt_opt.1 hab) h)
      · exact .opt _ _ (ih hn ((sub_opt (fun x hx => ha ⟨x, hx⟩)).1 hab) hv)
  | harr s ih =>
    intro hn a v hab hv
    cases hn with
    | arr _ hn =>
      rcases sub_inv hab with h | ⟨y, h⟩ | ⟨x, y, rfl, h⟩ | ⟨_, _, _, h⟩ | ⟨_, h⟩
      · cases h
      · cases h
      · cases h
        cases hv with
        | arr _ l hl => exact .arr _ _ (fun x hx => ih hn (sub_arr.1 hab) (hl x hx))
      · cases h
      · simp at h
  | hobj fs ih =>
    intro hn a v hab hv
    cases hn with
    | obj _ hn hna =>
      rcases sub_inv hab with h | ⟨y, h⟩ | ⟨_, _, _, h⟩ | ⟨x, y, rfl, h⟩ | ⟨_, h⟩
      · cases h
      · cases h
      · cases h
      · cases h
        cases hv with
        | obj _ kvs h1 h2 =>
          refine .obj _ _ (fun p hp w hw => ?_) (fun p hp hl => ?_)
          · obtain ⟨s, hs, hsp⟩ := sub_obj.1 hab p hp
            exact ih p hp (hn p hp) hsp (h1 _ (getField_mem hs) w hw)
          · obtain ⟨s, hs, hsp⟩ := sub_obj.1 hab p hp
            obtain ⟨t, ht⟩ := h2 _ (getField_mem hs) hl
            simp only at ht
            subst ht
            rcases sub_inv hsp with h | h | ⟨_, _, h, _⟩ | ⟨_, _, h, _⟩ | ⟨h, h'⟩
            · exact absurd h (hna p hp)
            · exact h
            · cases h
            · cases h
            · exact ⟨t, h.symm⟩
      · simp at h
  | _ =>
    intro _ a v hab hv
    rcases sub_inv hab with h | ⟨y, h⟩ | ⟨_, _, _, h⟩ | ⟨_, _, _, h⟩ | ⟨rfl, _⟩
    · cases h
    · cases h
    · cases h
    · cases h
    · exact hv

end Verif.Schema
