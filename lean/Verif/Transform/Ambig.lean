import Verif.Transform.Lemmas

set_option linter.unusedSimpArgs false

/-!
# Splitting types used as input and as output (C52)
-/

namespace Verif.Transform

open Verif.Mustache (Text)
open Verif.Exec (Ty)

/-! ## Specification -/

/-- A scalar: declared without fields, or predefined. -/
def Scal (pre : Text → Bool) (c : Cfg) (n : Text) : Prop :=
  (∃ t, At c.types n t ∧ t.fields = []) ∨ (Lacks c.types n ∧ pre n = true)

/-- A type, union or enum is declared under the name. -/
def Decl (c : Cfg) (n : Text) : Prop :=
  (∃ u, At c.unions n u) ∨ (∃ t, At c.types n t) ∨ (∃ e, At c.enums n e)

/-- Used as input: the type of an argument, or below one. -/
inductive InRef (pre : Text → Bool) (c : Cfg) : Text → Prop
  | arg (k t f fd a ad) : At c.types k t → (f, fd) ∈ t.fields → (a, ad) ∈ fd.args →
      ¬ Scal pre c ad.ty.name → InRef pre c ad.ty.name
  | field (x t f fd) : InRef pre c x → At c.types x t → (f, fd) ∈ t.fields →
      ¬ Scal pre c fd.ty.name → InRef pre c fd.ty.name
  | member (x u m) : InRef pre c x → At c.unions x u → m ∈ u.types → InRef pre c m

/-- Used as output: the query or mutation type, or below one. -/
inductive OutRef (pre : Text → Bool) (c : Cfg) : Text → Prop
  | query (n) : c.query = some n → OutRef pre c n
  | mutation (n) : c.mutation = some n → OutRef pre c n
  | field (x t f fd) : OutRef pre c x → At c.types x t → (f, fd) ∈ t.fields →
      ¬ Scal pre c fd.ty.name → OutRef pre c fd.ty.name
  | member (x u m) : OutRef pre c x → At c.unions x u → m ∈ u.types → OutRef pre c m

/-- A type used both ways. -/
def Both (pre : Text → Bool) (c : Cfg) (n : Text) : Prop :=
  InRef pre c n ∧ OutRef pre c n ∧ ∃ t, At c.types n t

/-- The name occurs nowhere in the configuration. -/
structure New (c : Cfg) (m : Text) : Prop where
  decl : ¬ Decl c m
  query : c.query ≠ some m
  mutation : c.mutation ≠ some m
  member : ∀ k u, At c.unions k u → m ∉ u.types
  field : ∀ k t f fd, At c.types k t → (f, fd) ∈ t.fields → fd.ty.name ≠ m
  arg : ∀ k t f fd a ad, At c.types k t → (f, fd) ∈ t.fields → (a, ad) ∈ fd.args → ad.ty.name ≠ m

/-- What the theorems assume: names are declared once; the new names are not used yet; no union is used as
input (`UnionInputType` comes before); and the arguments on fields of types used both ways are not of an enum
or declared scalar that is also used as output. -/
structure Tame (pre : Text → Bool) (c : Cfg) : Prop where
  keys : (c.types.map (·.1)).Nodup
  once : ∀ n t u, At c.types n t → At c.unions n u → False
  new : ∀ n, Both pre c n → New c (n ++ ['I', 'n', 'p', 'u', 't'])
  plain : ∀ x u, InRef pre c x → At c.unions x u → False
  args : ∀ k t f fd a ad, Both pre c k → At c.types k t → (f, fd) ∈ t.fields → (a, ad) ∈ fd.args →
    OutRef pre c ad.ty.name → Decl c ad.ty.name → ∃ t', At c.types ad.ty.name t' ∧ t'.fields ≠ []

/-- A type expression with the name replaced by a related one. -/
inductive TyTo (R : Text → Text → Prop) : Ty → Ty → Prop
  | named (a b nn) : R a b → TyTo R (.named a nn) (.named b nn)
  | list (t t' nn) : TyTo R t t' → TyTo R (.list t nn) (.list t' nn)

/-- Two maps with the same keys in the same order and related values. -/
inductive Alike {α : Type} (R : α → α → Prop) : List (Text × α) → List (Text × α) → Prop
  | nil : Alike R [] []
  | cons (k a b r s) : R a b → Alike R r s → Alike R ((k, a) :: r) ((k, b) :: s)

/-- A copy of a type: field types related by `F`, argument types related by `A`. -/
def Copy (F A : Text → Text → Prop) (t t' : TypeD) : Prop :=
  t'.info = t.info ∧ t'.implements = t.implements ∧
  Alike (fun f g => g.info = f.info ∧ TyTo F f.ty g.ty ∧
    Alike (fun a b => b.info = a.info ∧ TyTo A a.ty b.ty) f.args g.args) t.fields t'.fields

/-- The name is kept. -/
def Kept (a b : Text) : Prop := b = a

/-- The name is replaced by the input name when it is used both ways. -/
def ToInput (pre : Text → Bool) (c : Cfg) (a b : Text) : Prop :=
  (Both pre c a ∧ b = a ++ ['I', 'n', 'p', 'u', 't']) ∨ (¬ Both pre c a ∧ b = a)

/-! ## Connections -/

theorem isScalar_iff {pre : Text → Bool} {c : Cfg} {n : Text} : isScalar pre c n = true ↔ Scal pre c n := by
  unfold isScalar Scal
  cases h : get c.types n with
  | some t =>
    have ht := get_some.1 h
    simp only [List.isEmpty_iff]
    constructor
    · intro hf; exact .inl ⟨t, ht, hf⟩
    · rintro (⟨t', ht', hf⟩ | ⟨hl, _⟩)
      · rw [at_unique ht ht']; exact hf
      · exact (at_not_lacks ht hl).elim
  | none =>
    have hl := get_none.1 h
    constructor
    · intro hp; exact .inr ⟨hl, hp⟩
    · rintro (⟨t', ht', hf⟩ | ⟨_, hp⟩)
      · exact (at_not_lacks ht' hl).elim
      · exact hp

theorem decl_iff {c : Cfg} {n : Text} :
    Decl c n ↔ (get c.unions n).isSome ∨ (get c.types n).isSome ∨ (get c.enums n).isSome := by
  unfold Decl
  simp only [← get_some, Option.isSome_iff_exists]

/-- Where `conn` goes from a name. -/
def succs (pre : Text → Bool) (c : Cfg) (x : Text) : List Text :=
  match get c.unions x with
  | some u => u.types
  | none => match get c.types x with
    | some t => (t.fields.map (fun f => f.2.ty.name)).filter (fun y => !isScalar pre c y)
    | none => []

/-- What a search from the names `xs` establishes. -/
structure Found (pre : Text → Bool) (c : Cfg) (xs set r : List Text) : Prop where
  keep : ∀ y ∈ set, y ∈ r
  start : ∀ x ∈ xs, Decl c x → x ∈ r
  decl : ∀ y ∈ r, y ∈ set ∨ Decl c y
  closed : ∀ y ∈ r, y ∈ set ∨ ∀ z ∈ succs pre c y, Decl c z → z ∈ r
  only : ∀ P : Text → Prop, (∀ x y, P x → y ∈ succs pre c x → P y) → (∀ x ∈ xs, P x) → ∀ y ∈ r, y ∈ set ∨ P y

theorem found_nil {pre : Text → Bool} {c : Cfg} {set : List Text} : Found pre c [] set set :=
  ⟨fun _ h => h, by simp, fun _ h => .inl h, fun _ h => .inl h, fun _ _ _ _ h => .inl h⟩

theorem found_cons {pre : Text → Bool} {c : Cfg} {x : Text} {xs set mid r : List Text}
    (h1 : Found pre c [x] set mid) (h2 : Found pre c xs mid r) : Found pre c (x :: xs) set r := by
  refine ⟨fun y hy => h2.keep y (h1.keep y hy), fun y hy hd => ?_, fun y hy => ?_, fun y hy => ?_, fun P hP hx y hy => ?_⟩
  · rcases List.mem_cons.1 hy with rfl | hy
    · exact h2.keep _ (h1.start _ List.mem_cons_self hd)
    · exact h2.start y hy hd
  · rcases h2.decl y hy with h | h
    · exact h1.decl y h
    · exact .inr h
  · rcases h2.closed y hy with h | h
    · rcases h1.closed y h with h | h
      · exact .inl h
      · exact .inr (fun z hz hd => h2.keep z (h z hz hd))
    · exact .inr h
  · rcases h2.only P hP (fun z hz => hx z (List.mem_cons_of_mem _ hz)) y hy with h | h
    · exact h1.only P hP (by simpa using hx x List.mem_cons_self) y h
    · exact .inr h

theorem found_skip {pre : Text → Bool} {c : Cfg} {x : Text} {xs set r : List Text}
    (hx : x ∈ set) (h2 : Found pre c xs set r) : Found pre c (x :: xs) set r := by
  refine ⟨h2.keep, fun y hy hd => ?_, h2.decl, h2.closed, fun P hP hx y hy => h2.only P hP (fun z hz => hx z (List.mem_cons_of_mem _ hz)) y hy⟩
  rcases List.mem_cons.1 hy with rfl | hy
  · exact h2.keep _ hx
  · exact h2.start y hy hd

theorem connMembers_found {pre : Text → Bool} {c : Cfg} {rec : Text → List Text → Option (List Text)}
    (hrec : ∀ x set r, rec x set = some r → Found pre c [x] set r) :
    ∀ (l set r : List Text), connMembers rec l set = some r → Found pre c l set r
  | [], set, r, h => by
    simp only [connMembers, Option.some.injEq] at h
    subst h
    exact found_nil
  | t :: l, set, r, h => by
    simp only [connMembers] at h
    cases hr : rec t set with
    | none => simp [hr] at h
    | some mid =>
      simp only [hr] at h
      exact found_cons (hrec t set mid hr) (connMembers_found hrec l mid r h)

theorem connFields_found {pre : Text → Bool} {c : Cfg} {rec : Text → List Text → Option (List Text)}
    (hrec : ∀ x set r, rec x set = some r → Found pre c [x] set r) :
    ∀ (l : List (Text × FieldD)) (set r : List Text), connFields pre c rec l set = some r →
      Found pre c ((l.map (fun f => f.2.ty.name)).filter (fun y => !isScalar pre c y)) set r
  | [], set, r, h => by
    simp only [connFields, Option.some.injEq] at h
    subst h
    exact found_nil
  | f :: l, set, r, h => by
    simp only [connFields] at h
    simp only [List.map_cons, List.filter_cons]
    by_cases hs : isScalar pre c f.2.ty.name = true
    · simp only [hs, Bool.not_true, Bool.and_false, Bool.false_eq_true, if_false] at h ⊢
      exact connFields_found hrec l set r h
    · have hs' : isScalar pre c f.2.ty.name = false := by simpa using hs
      simp only [hs', Bool.not_false, if_true]
      by_cases hc : f.2.ty.name ∈ set
      · simp only [hs', List.contains_eq_mem, hc, decide_true, Bool.not_true, Bool.false_and, Bool.false_eq_true,
          if_false] at h
        exact found_skip hc (connFields_found hrec l set r h)
      · simp only [hs', List.contains_eq_mem, hc, decide_false, Bool.not_false, Bool.and_true, if_true] at h
        cases hr : rec f.2.ty.name set with
        | none => simp [hr] at h
        | some mid =>
          simp only [hr] at h
          exact found_cons (hrec _ set mid hr) (connFields_found hrec l mid r h)

/-- The search from one name, after the name was put into the set. -/
theorem found_enter {pre : Text → Bool} {c : Cfg} {x : Text} {set r : List Text} (hd : Decl c x)
    (h : Found pre c (succs pre c x) (x :: set) r) : Found pre c [x] set r := by
  refine ⟨fun y hy => h.keep y (List.mem_cons_of_mem _ hy), fun y hy _ => ?_, fun y hy => ?_, fun y hy => ?_,
    fun P hP hx y hy => ?_⟩
  · have : y = x := by simpa using hy
    subst this
    exact h.keep _ List.mem_cons_self
  · rcases h.decl y hy with h | h
    · rcases List.mem_cons.1 h with rfl | h
      · exact .inr hd
      · exact .inl h
    · exact .inr h
  · rcases h.closed y hy with h' | h'
    · rcases List.mem_cons.1 h' with rfl | h'
      · exact .inr (fun z hz hdz => h.start z hz hdz)
      · exact .inl h'
    · exact .inr h'
  · have hPx : P x := hx x List.mem_cons_self
    rcases h.only P hP (fun z hz => hP x z hPx hz) y hy with h | h
    · rcases List.mem_cons.1 h with rfl | h
      · exact .inr hPx
      · exact .inl h
    · exact .inr h

theorem conn_found (pre : Text → Bool) (c : Cfg) : ∀ (n : Nat) (x : Text) (set r : List Text),
    conn pre c n x set = some r → Found pre c [x] set r
  | 0, _, _, _, h => by simp [conn] at h
  | n + 1, x, set, r, h => by
    simp only [conn] at h
    cases hu : get c.unions x with
    | some u =>
      simp only [hu] at h
      have hf := connMembers_found (pre := pre) (c := c) (conn_found pre c n) u.types (x :: set) r h
      refine found_enter (decl_iff.2 (.inl (by simp [hu]))) ?_
      simpa [succs, hu] using hf
    | none =>
      simp only [hu] at h
      cases ht : get c.types x with
      | some t =>
        simp only [ht] at h
        have hf := connFields_found (pre := pre) (c := c) (conn_found pre c n) t.fields (x :: set) r h
        refine found_enter (decl_iff.2 (.inr (.inl (by simp [ht])))) ?_
        simpa [succs, hu, ht] using hf
      | none =>
        simp only [ht] at h
        by_cases he : (get c.enums x).isSome = true
        · simp only [he, if_true, Option.some.injEq] at h
          subst h
          refine found_enter (decl_iff.2 (.inr (.inr he))) ?_
          simpa [succs, hu, ht] using (found_nil (pre := pre) (c := c) (set := x :: set))
        · simp only [he, Bool.false_eq_true, if_false, Option.some.injEq] at h
          subst h
          refine ⟨fun _ h => h, fun y hy hd => ?_, fun _ h => .inl h, fun _ h => .inl h, fun _ _ _ _ h => .inl h⟩
          have : y = x := by simpa using hy
          subst this
          rw [decl_iff] at hd
          simp [hu, ht, he] at hd

/-- The successors of a name are what its declaration refers to. -/
theorem mem_succs {pre : Text → Bool} {c : Cfg} (ha : ∀ n t u, At c.types n t → At c.unions n u → False)
    {x y : Text} : y ∈ succs pre c x ↔ (∃ u, At c.unions x u ∧ y ∈ u.types) ∨
      (∃ t f fd, At c.types x t ∧ (f, fd) ∈ t.fields ∧ ¬ Scal pre c fd.ty.name ∧ y = fd.ty.name) := by
  unfold succs
  cases hu : get c.unions x with
  | some u =>
    have hu' := get_some.1 hu
    constructor
    · intro h; exact .inl ⟨u, hu', h⟩
    · rintro (⟨u', hu'', h⟩ | ⟨t, f, fd, ht, _⟩)
      · rw [at_unique hu' hu'']; exact h
      · exact (ha x t u ht hu').elim
  | none =>
    have hl := get_none.1 hu
    cases ht : get c.types x with
    | some t =>
      have ht' := get_some.1 ht
      simp only [List.mem_filter, List.mem_map, Bool.not_eq_true']
      constructor
      · rintro ⟨⟨f, hf, rfl⟩, hs⟩
        refine .inr ⟨t, f.1, f.2, ht', hf, ?_, rfl⟩
        rw [← isScalar_iff]; simp [hs]
      · rintro (⟨u', hu'', h⟩ | ⟨t', f, fd, ht'', hf, hs, rfl⟩)
        · exact (at_not_lacks hu'' hl).elim
        · have := at_unique ht' ht''
          subst this
          rw [← isScalar_iff] at hs
          exact ⟨⟨(f, fd), hf, rfl⟩, by simpa using hs⟩
    | none =>
      have hl' := get_none.1 ht
      constructor
      · intro h; cases h
      · rintro (⟨u', hu'', h⟩ | ⟨t', f, fd, ht'', _⟩)
        · exact (at_not_lacks hu'' hl).elim
        · exact (at_not_lacks ht'' hl').elim

theorem at_of_mem {α : Type} : ∀ {l : List (Text × α)}, (l.map (·.1)).Nodup → ∀ {p}, p ∈ l → At l p.1 p.2
  | [], _, p, h => by cases h
  | a :: l, hd, p, h => by
    simp only [List.map_cons, List.nodup_cons] at hd
    rw [← get_some]
    rcases List.mem_cons.1 h with rfl | h
    · simp [get]
    · have hne : a.1 ≠ p.1 := fun e => hd.1 (e ▸ List.mem_map_of_mem (f := (·.1)) h)
      simp only [get, hne, if_false]
      exact get_some.2 (at_of_mem hd.2 h)

theorem inputTypes_iff {pre : Text → Bool} {c : Cfg} (hk : (c.types.map (·.1)).Nodup)
    (ha : ∀ n t u, At c.types n t → At c.unions n u → False) {n : Nat} {r : List Text}
    (h : inputTypes pre c n = some r) (x : Text) : x ∈ r ↔ InRef pre c x ∧ Decl c x := by
  have hf := connMembers_found (pre := pre) (c := c) (conn_found pre c n) _ [] r h
  have hsucc : ∀ x y, InRef pre c x → y ∈ succs pre c x → InRef pre c y := by
    intro x y hx hy
    rcases (mem_succs ha).1 hy with ⟨u, hu, hm⟩ | ⟨t, f, fd, ht, hfd, hs, rfl⟩
    · exact .member x u y hx hu hm
    · exact .field x t f fd hx ht hfd hs
  have hstart : ∀ x, x ∈ (argNames c).filter (fun x => !isScalar pre c x) ↔
      ∃ k t f fd a ad, At c.types k t ∧ (f, fd) ∈ t.fields ∧ (a, ad) ∈ fd.args ∧
        ¬ Scal pre c ad.ty.name ∧ x = ad.ty.name := by
    intro x
    simp only [List.mem_filter, argNames, List.mem_flatMap, List.mem_map, Bool.not_eq_true']
    constructor
    · rintro ⟨⟨p, hp, f, hf, a, ha, rfl⟩, hs⟩
      refine ⟨p.1, p.2, f.1, f.2, a.1, a.2, at_of_mem hk hp, hf, ha, ?_, rfl⟩
      rw [← isScalar_iff]; simp [hs]
    · rintro ⟨k, t, f, fd, a, ad, ht, hf, ha, hs, rfl⟩
      rw [← isScalar_iff] at hs
      exact ⟨⟨(k, t), at_mem ht, (f, fd), hf, (a, ad), ha, rfl⟩, by simpa using hs⟩
  constructor
  · intro hx
    constructor
    · rcases hf.only (InRef pre c) hsucc (fun y hy => by
        obtain ⟨k, t, f, fd, a, ad, h1, h2, h3, h4, rfl⟩ := (hstart y).1 hy
        exact .arg k t f fd a ad h1 h2 h3 h4) x hx with h | h
      · cases h
      · exact h
    · rcases hf.decl x hx with h | h
      · cases h
      · exact h
  · rintro ⟨hi, hd⟩
    have closed : ∀ y ∈ r, ∀ z ∈ succs pre c y, Decl c z → z ∈ r := by
      intro y hy
      rcases hf.closed y hy with h | h
      · cases h
      · exact h
    induction hi with
    | arg k t f fd a ad h1 h2 h3 h4 =>
      exact hf.start _ ((hstart _).2 ⟨k, t, f, fd, a, ad, h1, h2, h3, h4, rfl⟩) hd
    | field y t f fd _ h2 h3 h4 ih =>
      exact closed y (ih (.inr (.inl ⟨t, h2⟩))) _ ((mem_succs ha).2 (.inr ⟨t, f, fd, h2, h3, h4, rfl⟩)) hd
    | member y u m _ h2 h3 ih =>
      exact closed y (ih (.inl ⟨u, h2⟩)) _ ((mem_succs ha).2 (.inl ⟨u, h2, h3⟩)) hd

theorem outputTypes_iff {pre : Text → Bool} {c : Cfg}
    (ha : ∀ n t u, At c.types n t → At c.unions n u → False) {n : Nat} {r : List Text}
    (h : outputTypes pre c n = some r) (x : Text) : x ∈ r ↔ OutRef pre c x ∧ Decl c x := by
  have hf := connMembers_found (pre := pre) (c := c) (conn_found pre c n) _ [] r h
  have hsucc : ∀ x y, OutRef pre c x → y ∈ succs pre c x → OutRef pre c y := by
    intro x y hx hy
    rcases (mem_succs ha).1 hy with ⟨u, hu, hm⟩ | ⟨t, f, fd, ht, hfd, hs, rfl⟩
    · exact .member x u y hx hu hm
    · exact .field x t f fd hx ht hfd hs
  constructor
  · intro hx
    constructor
    · rcases hf.only (OutRef pre c) hsucc (fun y hy => by
        simp only [List.mem_append, Option.mem_toList] at hy
        rcases hy with hy | hy
        · exact .query _ hy
        · exact .mutation _ hy) x hx with h | h
      · cases h
      · exact h
    · rcases hf.decl x hx with h | h
      · cases h
      · exact h
  · rintro ⟨hi, hd⟩
    have closed : ∀ y ∈ r, ∀ z ∈ succs pre c y, Decl c z → z ∈ r := by
      intro y hy
      rcases hf.closed y hy with h | h
      · cases h
      · exact h
    induction hi with
    | query n hq => exact hf.start _ (by simp [hq]) hd
    | mutation n hq => exact hf.start _ (by simp [hq]) hd
    | field y t f fd _ h2 h3 h4 ih =>
      exact closed y (ih (.inr (.inl ⟨t, h2⟩))) _ ((mem_succs ha).2 (.inr ⟨t, f, fd, h2, h3, h4, rfl⟩)) hd
    | member y u m _ h2 h3 ih =>
      exact closed y (ih (.inl ⟨u, h2⟩)) _ ((mem_succs ha).2 (.inl ⟨u, h2, h3⟩)) hd

/-! ## The new types -/

theorem inputName_inj {a b : Text} (h : inputName a = inputName b) : a = b := by
  unfold inputName at h
  exact List.append_cancel_right h

theorem splitLoop_spec : ∀ (order : List Text) (s : AState), order.Nodup →
    (∀ n ∈ order, inputName n ∉ order) → (∀ n ∈ order, ∃ t, get s.types n = some t) →
    (∀ n ∈ order, get s.types (inputName n) = none) →
    (∀ n ∈ order, get (splitLoop order s).types (inputName n) = get s.types n) ∧
    (∀ k, (∀ n ∈ order, k ≠ inputName n) → get (splitLoop order s).types k = get s.types k) ∧
    (∀ k, k ∈ (splitLoop order s).outs ↔ k ∈ s.outs ∨ k ∈ order) ∧
    (∀ k, k ∈ (splitLoop order s).ins ↔ (k ∈ s.ins ∧ k ∉ order) ∨ ∃ n ∈ order, k = inputName n)
  | [], s, _, _, _, _ => by simp [splitLoop]
  | m :: r, s, hd, hx, ht, hf => by
    simp only [List.nodup_cons] at hd
    obtain ⟨t, htm⟩ := ht m List.mem_cons_self
    have hfm := hf m List.mem_cons_self
    have hxm : inputName m ≠ m ∧ inputName m ∉ r := by
      have := hx m List.mem_cons_self
      simpa using this
    have hstep : splitStep s m =
        ⟨insert (insert (remove s.types m) (inputName m) t) m t, inputName m :: s.ins.filter (· ≠ m),
          m :: s.outs.filter (· ≠ m)⟩ := by simp only [splitStep, htm]
    have hget : ∀ k, get (splitStep s m).types k = if k = inputName m then get s.types m else get s.types k := by
      intro k
      rw [hstep]
      simp only [get_insert, get_remove]
      by_cases h1 : k = m
      · subst h1
        simp [htm, fun e : k = inputName k => hxm.1 e.symm]
      · by_cases h2 : k = inputName m
        · simp [h1, h2, htm]
        · simp [h1, h2]
    have ne_im : ∀ n ∈ r, inputName n ≠ inputName m := fun n hn e => hd.1 (inputName_inj e ▸ hn)
    obtain ⟨i1, i2, i3, i4⟩ := splitLoop_spec r (splitStep s m) hd.2
      (fun n hn hr => hx n (List.mem_cons_of_mem _ hn) (List.mem_cons_of_mem _ hr))
      (fun n hn => by
        rw [hget, if_neg]
        · exact ht n (List.mem_cons_of_mem _ hn)
        · rintro rfl; exact hxm.2 hn)
      (fun n hn => by
        rw [hget, if_neg (ne_im n hn)]
        exact hf n (List.mem_cons_of_mem _ hn))
    have hl : splitLoop (m :: r) s = splitLoop r (splitStep s m) := rfl
    rw [hl]
    refine ⟨fun n hn => ?_, fun k hk => ?_, fun k => ?_, fun k => ?_⟩
    · rcases List.mem_cons.1 hn with rfl | hn
      · rw [i2 _ (fun n' hn' => (ne_im n' hn').symm), hget, if_pos rfl]
      · rw [i1 n hn, hget, if_neg]
        rintro rfl; exact hxm.2 hn
    · rw [i2 k (fun n hn => hk n (List.mem_cons_of_mem _ hn)), hget, if_neg (hk m List.mem_cons_self)]
    · rw [i3, hstep]
      simp only [List.mem_cons, List.mem_filter, ne_eq, decide_not, Bool.not_eq_true', decide_eq_false_iff_not]
      by_cases hkm : k = m
      · simp [hkm]
      · simp [hkm]
    · rw [i4, hstep]
      simp only [List.mem_cons, List.mem_filter, ne_eq, decide_not, Bool.not_eq_true', decide_eq_false_iff_not,
        not_or]
      constructor
      · rintro (⟨h1 | ⟨h1, h2⟩, h3⟩ | ⟨n, hn, e⟩)
        · exact .inr ⟨m, .inl rfl, h1⟩
        · exact .inl ⟨h1, h2, h3⟩
        · exact .inr ⟨n, .inr hn, e⟩
      · rintro (⟨h1, h2, h3⟩ | ⟨n, rfl | hn, e⟩)
        · exact .inl ⟨.inr ⟨h1, h2⟩, h3⟩
        · exact .inl ⟨.inl e, by rw [e]; exact hxm.2⟩
        · exact .inr ⟨n, hn, e⟩

theorem get_mapKey {α β : Type} (l : List (Text × α)) (f : Text → α → β) (k : Text) :
    get (l.map (fun p => (p.1, f p.1 p.2))) k = (get l k).map (f k) := by
  induction l with
  | nil => rfl
  | cons p r ih =>
    simp only [List.map_cons, get]
    split
    · rename_i h
      simp [h]
    · exact ih

/-! ## References -/

theorem tyTo_withName {R : Text → Text → Prop} {b : Text} : ∀ t : Ty, R t.name b → TyTo R t (withName b t)
  | .named a nn, h => .named a b nn h
  | .list t nn, h => .list t _ nn (tyTo_withName t h)

theorem tyTo_keep {R : Text → Text → Prop} : ∀ t : Ty, R t.name t.name → TyTo R t t
  | .named a nn, h => .named a a nn h
  | .list t nn, h => .list t _ nn (tyTo_keep t h)

theorem alike_map {α : Type} {R : α → α → Prop} {f : α → α} (h : ∀ a, R a (f a)) :
    ∀ l : List (Text × α), Alike R l (l.map (fun p => (p.1, f p.2)))
  | [] => .nil
  | (k, a) :: r => .cons k a (f a) r _ (h a) (alike_map h r)

theorem splitType_copy {F A : Text → Text → Prop} {keys ins outs : List Text} {k : Text}
    (hin : ∀ a, keys.contains a = true → A a (inputName a)) (hout : ∀ a, keys.contains a = false → A a a)
    (hF : ∀ t : Ty, TyTo F t (if keys.contains t.name then
          (if outs.contains k then withName t.name t
           else if ins.contains k then withName (inputName t.name) t else t)
        else t)) (t : TypeD) : Copy F A t (splitType keys ins outs k t) := by
  refine ⟨rfl, rfl, ?_⟩
  refine alike_map (R := fun f g : FieldD => g.info = f.info ∧ TyTo F f.ty g.ty ∧
    Alike (fun a b : ArgD => b.info = a.info ∧ TyTo A a.ty b.ty) f.args g.args) (f := fun fd => { fd with
      ty := if keys.contains fd.ty.name then
          (if outs.contains k then withName fd.ty.name fd.ty
           else if ins.contains k then withName (inputName fd.ty.name) fd.ty else fd.ty)
        else fd.ty
      args := fd.args.map (fun a => (a.1, { a.2 with
        ty := if keys.contains a.2.ty.name then withName (inputName a.2.ty.name) a.2.ty else a.2.ty })) })
    (fun f => ⟨rfl, hF f.ty, ?_⟩) t.fields
  refine alike_map (R := fun a b : ArgD => b.info = a.info ∧ TyTo A a.ty b.ty) (f := fun a => { a with
        ty := if keys.contains a.ty.name then withName (inputName a.ty.name) a.ty else a.ty })
    (fun a => ⟨rfl, ?_⟩) f.args
  cases hc : keys.contains a.ty.name with
  | true => simpa [hc] using tyTo_withName a.ty (hin _ hc)
  | false => simpa [hc] using tyTo_keep a.ty (hout _ hc)

/-- The keys of the map are the types used both ways. -/
theorem keys_iff {pre : Text → Bool} {c : Cfg} (hT : Tame pre c) {ins outs inter order : List Text} {n : Nat}
    (hi : inputTypes pre c n = some ins) (ho : outputTypes pre c n = some outs)
    (hint : ∀ x, x ∈ inter ↔ x ∈ ins ∧ x ∈ outs)
    (hord : ∀ x, x ∈ order ↔ x ∈ resolutionKeys c outs inter) (x : Text) : x ∈ order ↔ Both pre c x := by
  have hii := inputTypes_iff hT.keys hT.once hi
  have hoi := outputTypes_iff hT.once ho
  have hbi : ∀ y t, get c.types y = some t → (y ∈ inter ↔ Both pre c y) := by
    intro y t ht
    have hd : Decl c y := .inr (.inl ⟨t, get_some.1 ht⟩)
    rw [hint, hii, hoi]
    exact ⟨fun ⟨⟨a, _⟩, b, _⟩ => ⟨a, b, t, get_some.1 ht⟩, fun ⟨a, b, _⟩ => ⟨⟨a, hd⟩, b, hd⟩⟩
  rw [hord]
  simp only [resolutionKeys, List.mem_flatMap]
  constructor
  · rintro ⟨y, hy, hx⟩
    cases ht : get c.types y with
    | none => simp [ht] at hx
    | some t =>
      have hby := (hbi y t ht).1 hy
      simp only [ht, List.mem_cons, List.mem_filter, List.mem_flatMap, List.mem_map] at hx
      rcases hx with rfl | ⟨⟨f, hf, a, ha, rfl⟩, hout⟩
      · exact hby
      · have hout' := (hoi _).1 (by simpa using hout)
        obtain ⟨t', ht', hne⟩ := hT.args y t f.1 f.2 a.1 a.2 hby (get_some.1 ht) hf ha hout'.1 hout'.2
        refine ⟨.arg y t f.1 f.2 a.1 a.2 (get_some.1 ht) hf ha ?_, hout'.1, t', ht'⟩
        rintro (⟨t'', ht'', he⟩ | ⟨hl, _⟩)
        · rw [at_unique ht' ht''] at hne; exact hne he
        · exact at_not_lacks ht' hl
  · intro hb
    have hb' := hb
    obtain ⟨_, _, t, ht⟩ := hb'
    have ht' := get_some.2 ht
    exact ⟨x, (hbi x t ht').2 hb, by simp [ht']⟩

/-- What is in the new configuration. -/
theorem split_types {pre : Text → Bool} {c c' : Cfg} (hT : Tame pre c) (h : Splits pre c c') :
    (∀ k t', At c'.types k t' ↔
      (∃ n t, Both pre c n ∧ k = inputName n ∧ At c.types n t ∧ ∃ t1, t1 = t' ∧ Copy (ToInput pre c) (ToInput pre c) t t1 ∧
        At c'.types k t') ∨
      (∃ t, (∀ n, Both pre c n → k ≠ inputName n) ∧ At c.types k t ∧ At c'.types k t' ∧
        (OutRef pre c k → Copy Kept (ToInput pre c) t t') ∧
        (¬ OutRef pre c k → InRef pre c k → Copy (ToInput pre c) (ToInput pre c) t t') ∧
        (¬ OutRef pre c k → ¬ InRef pre c k → Copy Kept (ToInput pre c) t t'))) ∧
    (∀ n t, Both pre c n → At c.types n t → ∃ t', At c'.types (inputName n) t') ∧
    (∀ k t, At c.types k t → ∃ t', At c'.types k t') ∧
    c'.unions = c.unions ∧ c'.enums = c.enums ∧ c'.query = c.query ∧ c'.mutation = c.mutation ∧
    c'.subscription = c.subscription := by
  obtain ⟨n, ins, outs, inter, order, hi, ho, hint, hnd, hord, rfl⟩ := h
  have hkeys := keys_iff hT hi ho hint hord
  have hii := inputTypes_iff hT.keys hT.once hi
  have hoi := outputTypes_iff hT.once ho
  have hlack : ∀ n ∈ order, get c.types (inputName n) = none := by
    intro n hn
    rw [get_none]
    have := (hT.new n ((hkeys n).1 hn)).decl
    rcases at_or_lacks c.types (inputName n) with ⟨t, ht⟩ | hl
    · exact (this (.inr (.inl ⟨t, ht⟩))).elim
    · exact hl
  have htyp : ∀ n ∈ order, ∃ t, get c.types n = some t := by
    intro n hn
    obtain ⟨_, _, t, ht⟩ := (hkeys n).1 hn
    exact ⟨t, get_some.2 ht⟩
  have hx : ∀ n ∈ order, inputName n ∉ order := by
    intro n hn hn'
    obtain ⟨t, ht⟩ := htyp _ hn'
    rw [hlack n hn] at ht
    cases ht
  obtain ⟨s1, s2, s3, s4⟩ := splitLoop_spec order ⟨c.types, ins, outs⟩ hnd hx htyp hlack
  have hget : ∀ k, get (splitTypes c ins outs order).types k =
      (get (splitLoop order ⟨c.types, ins, outs⟩).types k).map
        (splitType order (splitLoop order ⟨c.types, ins, outs⟩).ins (splitLoop order ⟨c.types, ins, outs⟩).outs k) := by
    intro k
    exact get_mapKey _ _ k
  generalize splitLoop order ⟨c.types, ins, outs⟩ = s at s1 s2 s3 s4 hget
  simp only at s1 s2 s3 s4
  have hA1 : ∀ a, order.contains a = true → ToInput pre c a (inputName a) := by
    intro a ha
    exact .inl ⟨(hkeys a).1 (by simpa using ha), rfl⟩
  have hA2 : ∀ a, order.contains a = false → ToInput pre c a a := by
    intro a ha
    refine .inr ⟨fun hb => ?_, rfl⟩
    have := (hkeys a).2 hb
    simp [this] at ha
  -- a type that is not an output but an input
  have hFin : ∀ k, k ∉ s.outs → k ∈ s.ins → ∀ t : Ty, TyTo (ToInput pre c) t (if order.contains t.name then
          (if s.outs.contains k then withName t.name t
           else if s.ins.contains k then withName (inputName t.name) t else t) else t) := by
    intro k h1 h2 t
    cases hc : order.contains t.name with
    | true => simpa [h1, h2, hc] using tyTo_withName t (hA1 _ hc)
    | false => simpa [h1, h2, hc] using tyTo_keep t (hA2 _ hc)
  have withSelf : ∀ t : Ty, withName t.name t = t := by
    intro t
    induction t with
    | named a nn => rfl
    | list t nn ih => simp only [withName, Ty.name, ih]
  have hFkeep : ∀ k, (k ∈ s.outs ∨ k ∉ s.ins) → ∀ t : Ty, TyTo Kept t (if order.contains t.name then
          (if s.outs.contains k then withName t.name t
           else if s.ins.contains k then withName (inputName t.name) t else t) else t) := by
    intro k hk t
    have : (if order.contains t.name then
          (if s.outs.contains k then withName t.name t
           else if s.ins.contains k then withName (inputName t.name) t else t) else t) = t := by
      rcases hk with hk | hk
      · simp [hk, withSelf]
      · simp [hk, withSelf]
    rw [this]
    exact tyTo_keep t rfl
  refine ⟨fun k t' => ?_, fun n t hb ht => ?_, fun k t ht => ?_, rfl, rfl, rfl, rfl, rfl⟩
  · constructor
    · intro h
      have hat := h
      rw [← get_some, hget] at h
      by_cases hin : ∃ n ∈ order, k = inputName n
      · obtain ⟨n, hn, rfl⟩ := hin
        rw [s1 n hn] at h
        obtain ⟨t, ht⟩ := htyp n hn
        rw [ht] at h
        simp only [Option.map_some, Option.some.injEq] at h
        subst h
        refine .inl ⟨n, t, (hkeys n).1 hn, rfl, get_some.1 ht, _, rfl, ?_, hat⟩
        refine splitType_copy hA1 hA2 (hFin _ ?_ ((s4 _).2 (.inr ⟨n, hn, rfl⟩))) t
        rw [s3]
        rintro (h | h)
        · exact (hT.new n ((hkeys n).1 hn)).decl ((hoi _).1 h).2
        · exact hx n hn h
      · have hin' : ∀ n ∈ order, k ≠ inputName n := fun n hn e => hin ⟨n, hn, e⟩
        rw [s2 k hin'] at h
        cases ht : get c.types k with
        | none => simp [ht] at h
        | some t =>
          rw [ht] at h
          simp only [Option.map_some, Option.some.injEq] at h
          subst h
          have hd : Decl c k := .inr (.inl ⟨t, get_some.1 ht⟩)
          have houts : k ∈ s.outs ↔ OutRef pre c k := by
            rw [s3, hoi, hkeys]
            exact ⟨fun h => h.elim (·.1) (·.2.1), fun h => .inl ⟨h, hd⟩⟩
          have hins : ¬ OutRef pre c k → (k ∈ s.ins ↔ InRef pre c k) := by
            intro hno
            rw [s4, hii, hkeys]
            constructor
            · rintro (⟨⟨h, _⟩, _⟩ | ⟨n, hn, e⟩)
              · exact h
              · exact (hin' n hn e).elim
            · intro h
              exact .inl ⟨⟨h, hd⟩, fun hb => hno hb.2.1⟩
          refine .inr ⟨t, fun n hb => hin' n ((hkeys n).2 hb), get_some.1 ht, hat, fun h => ?_, fun h1 h2 => ?_,
            fun h1 h2 => ?_⟩
          · exact splitType_copy hA1 hA2 (hFkeep k (.inl (houts.2 h))) t
          · exact splitType_copy hA1 hA2 (hFin k (fun h => h1 (houts.1 h)) ((hins h1).2 h2)) t
          · exact splitType_copy hA1 hA2 (hFkeep k (.inr (fun h => h2 ((hins h1).1 h)))) t
    · rintro (⟨n, t, _, _, _, t1, _, _, h⟩ | ⟨t, _, _, h, _⟩)
      · exact h
      · exact h
  · have hn := (hkeys n).2 hb
    refine ⟨_, get_some.1 (by rw [hget, s1 n hn, get_some.2 ht]; rfl)⟩
  · refine ⟨_, get_some.1 (by
      rw [hget, s2 k (fun n hn e => by
        have h0 := hlack n hn
        rw [← e, get_some.2 ht] at h0
        cases h0), get_some.2 ht]
      rfl)⟩

/-! ## C52 -/

/-- With unused input names, splitting keeps every type under its name, adds a copy under the input name for
each type used both ways, and adds or changes nothing else.  Output types keep their field types; input types
and all arguments refer to the input names of the types used both ways. -/
theorem C52_content_partial (pre : Text → Bool) (c c' : Cfg) (hT : Tame pre c) (h : Splits pre c c') :
    (∀ k t, At c.types k t → ∃ t', At c'.types k t' ∧
      (OutRef pre c k ∨ ¬ InRef pre c k → Copy Kept (ToInput pre c) t t') ∧
      (¬ OutRef pre c k → InRef pre c k → Copy (ToInput pre c) (ToInput pre c) t t')) ∧
    (∀ k t, Both pre c k → At c.types k t →
      ∃ t', At c'.types (k ++ ['I', 'n', 'p', 'u', 't']) t' ∧ Copy (ToInput pre c) (ToInput pre c) t t') ∧
    (∀ k t', At c'.types k t' → (∃ t, At c.types k t) ∨
      ∃ n, Both pre c n ∧ k = n ++ ['I', 'n', 'p', 'u', 't']) ∧
    c'.unions = c.unions ∧ c'.enums = c.enums ∧ c'.query = c.query ∧ c'.mutation = c.mutation ∧
    c'.subscription = c.subscription := by
  obtain ⟨h1, h2, h3, h4⟩ := split_types hT h
  refine ⟨fun k t ht => ?_, fun k t hb ht => ?_, fun k t' ht' => ?_, h4⟩
  · obtain ⟨t', ht'⟩ := h3 k t ht
    refine ⟨t', ht', ?_⟩
    rcases (h1 k t').1 ht' with ⟨n, t0, hb, rfl, _⟩ | ⟨t0, _, ht0, _, c1, c2, c3⟩
    · exact ((hT.new n hb).decl (.inr (.inl ⟨t, ht⟩))).elim
    · have := at_unique ht ht0
      subst this
      refine ⟨?_, c2⟩
      intro h
      by_cases ho : OutRef pre c k
      · exact c1 ho
      · exact c3 ho (h.resolve_left ho)
  · obtain ⟨t', ht'⟩ := h2 k t hb ht
    refine ⟨t', ht', ?_⟩
    rcases (h1 _ t').1 ht' with ⟨n, t0, hb', e, ht0, t1, rfl, hc, _⟩ | ⟨t0, hno, _⟩
    · have := inputName_inj e
      subst this
      have := at_unique ht ht0
      subst this
      exact hc
    · exact (hno k hb rfl).elim
  · rcases (h1 k t').1 ht' with ⟨n, t0, hb', e, _⟩ | ⟨t0, _, ht0, _⟩
    · exact .inr ⟨n, hb', e⟩
    · exact .inl ⟨t0, ht0⟩

theorem tyTo_name {R : Text → Text → Prop} {t t' : Ty} (h : TyTo R t t') : R t.name t'.name := by
  induction h with
  | named a b nn h => exact h
  | list t t' nn _ ih => exact ih

theorem alike_mem {α : Type} {R : α → α → Prop} {l l' : List (Text × α)} (h : Alike R l l') {k : Text} {b : α}
    (hm : (k, b) ∈ l') : ∃ a, (k, a) ∈ l ∧ R a b := by
  induction h with
  | nil => cases hm
  | cons k' a b' r s hr _ ih =>
    rcases List.mem_cons.1 hm with e | hm
    · cases e
      exact ⟨a, List.mem_cons_self, hr⟩
    · obtain ⟨a', ha, hR⟩ := ih hm
      exact ⟨a', List.mem_cons_of_mem _ ha, hR⟩

theorem alike_nil {α : Type} {R : α → α → Prop} {l l' : List (Text × α)} (h : Alike R l l') : l = [] ↔ l' = [] := by
  cases h <;> simp

/-- A field of a copy. -/
theorem copy_field {F A : Text → Text → Prop} {t t' : TypeD} (h : Copy F A t t') {k : Text} {g : FieldD}
    (hm : (k, g) ∈ t'.fields) : ∃ f, (k, f) ∈ t.fields ∧ F f.ty.name g.ty.name ∧
      ∀ a b, (a, b) ∈ g.args → ∃ d, (a, d) ∈ f.args ∧ A d.ty.name b.ty.name := by
  obtain ⟨f, hf, _, h2, h3⟩ := alike_mem h.2.2 hm
  refine ⟨f, hf, tyTo_name h2, fun a b hab => ?_⟩
  obtain ⟨d, hd, _, h4⟩ := alike_mem h3 hab
  exact ⟨d, hd, tyTo_name h4⟩

/-- With unused input names, afterwards no type is used both as input and as output. -/
theorem C52_separated_partial (pre : Text → Bool) (c c' : Cfg) (hT : Tame pre c) (h : Splits pre c c') (x : Text) :
    ¬ Both pre c' x := by
  obtain ⟨h1, h2, h3, hu, he, hq, hm, _⟩ := split_types hT h
  -- an unused name is not referred to
  have out_not_new : ∀ y, OutRef pre c y → ∀ n, Both pre c n → y ≠ inputName n := by
    intro y hy n hb e
    have hn := hT.new n hb
    have e : y = n ++ ['I', 'n', 'p', 'u', 't'] := e
    cases hy with
    | query _ h => exact hn.query (by rw [h, e])
    | mutation _ h => exact hn.mutation (by rw [h, e])
    | field z t f fd _ h2 h3 _ => exact hn.field z t f fd h2 h3 e
    | member z u m _ h2 h3 => exact hn.member z u h2 (e ▸ h3)
  have in_not_new : ∀ y, InRef pre c y → ∀ n, Both pre c n → y ≠ inputName n := by
    intro y hy n hb e
    have hn := hT.new n hb
    have e : y = n ++ ['I', 'n', 'p', 'u', 't'] := e
    cases hy with
    | arg z t f fd a ad h1 h2 h3 _ => exact hn.arg z t f fd a ad h1 h2 h3 e
    | field z t f fd _ h2 h3 _ => exact hn.field z t f fd h2 h3 e
    | member z u m _ h2 h3 => exact hn.member z u h2 (e ▸ h3)
  -- every new type is a copy of an old one
  have fields_nil : ∀ {F A t t'}, Copy F A t t' → (t.fields = [] ↔ t'.fields = []) := fun hc => alike_nil hc.2.2
  have scal_keep : ∀ y, (∀ n, Both pre c n → y ≠ inputName n) → Scal pre c y → Scal pre c' y := by
    rintro y hne (⟨t, ht, hf⟩ | ⟨hl, hp⟩)
    · obtain ⟨t', ht'⟩ := h3 y t ht
      rcases (h1 y t').1 ht' with ⟨n, t0, hb, e, _⟩ | ⟨t0, _, ht0, _, c1, c2, c3⟩
      · exact (hne n hb e).elim
      · have := at_unique ht ht0
        subst this
        refine .inl ⟨t', ht', ?_⟩
        by_cases ho : OutRef pre c y
        · exact (fields_nil (c1 ho)).1 hf
        · by_cases hi : InRef pre c y
          · exact (fields_nil (c2 ho hi)).1 hf
          · exact (fields_nil (c3 ho hi)).1 hf
    · refine .inr ⟨?_, hp⟩
      rcases at_or_lacks c'.types y with ⟨t', ht'⟩ | hl'
      · rcases (h1 y t').1 ht' with ⟨n, t0, hb, e, _⟩ | ⟨t0, _, ht0, _⟩
        · exact (hne n hb e).elim
        · exact (at_not_lacks ht0 hl).elim
      · exact hl'
  have scal_input : ∀ n, Both pre c n → Scal pre c n → Scal pre c' (inputName n) := by
    intro n hb hs
    have hb0 := hb
    obtain ⟨_, _, t, ht⟩ := hb0
    obtain ⟨t', ht'⟩ := h2 n t hb ht
    rcases (h1 _ t').1 ht' with ⟨n', t0, hb', e, ht0, t1, rfl, hc, _⟩ | ⟨t0, hno, _⟩
    · have := inputName_inj e
      subst this
      have := at_unique ht ht0
      subst this
      rcases hs with ⟨t2, ht2, hf⟩ | ⟨hl, _⟩
      · have := at_unique ht ht2
        subst this
        exact .inl ⟨_, ht', (fields_nil hc).1 hf⟩
      · exact (at_not_lacks ht hl).elim
    · exact (hno n hb rfl).elim
  have hto : ∀ a b, ToInput pre c a b → (∀ n, Both pre c n → a ≠ inputName n) → ¬ Scal pre c' b → ¬ Scal pre c a := by
    rintro a b (⟨hb, rfl⟩ | ⟨_, rfl⟩) hne hs hsa
    · exact hs (scal_input a hb hsa)
    · exact hs (scal_keep b hne hsa)
  -- the outputs are the old outputs
  have hout : ∀ y, OutRef pre c' y → OutRef pre c y := by
    intro y hy
    induction hy with
    | query n h => exact .query n (hq ▸ h)
    | mutation n h => exact .mutation n (hm ▸ h)
    | member z u m _ hz hmem ih => exact .member z u m ih (hu ▸ hz) hmem
    | field z t' f fd _ hz hf hs ih =>
      rcases (h1 z t').1 hz with ⟨n, t0, hb, e, _⟩ | ⟨t0, _, ht0, _, c1, _⟩
      · exact (out_not_new z ih n hb e).elim
      · obtain ⟨f0, hf0, hk, _⟩ := copy_field (c1 ih) hf
        rw [Kept] at hk
        rw [hk] at hs ⊢
        refine .field z t0 f f0 ih ht0 hf0 (fun hs0 => hs (scal_keep _ ?_ hs0))
        intro n hb e
        exact (hT.new n hb).field z t0 f f0 ht0 hf0 e
  -- the inputs are the old inputs with input names
  have hin : ∀ y, InRef pre c' y → ∃ x, InRef pre c x ∧ ToInput pre c x y := by
    intro y hy
    induction hy with
    | arg z t' f fd a ad hz hf ha hs =>
      have key : ∀ t0, (∃ k, At c.types k t0) → (∃ F, Copy F (ToInput pre c) t0 t') →
          ∃ x, InRef pre c x ∧ ToInput pre c x ad.ty.name := by
        rintro t0 ⟨k, ht0⟩ ⟨F, hc⟩
        obtain ⟨f0, hf0, _, hargs⟩ := copy_field hc hf
        obtain ⟨d, hd, hT'⟩ := hargs a ad ha
        refine ⟨d.ty.name, .arg k t0 f f0 a d ht0 hf0 hd (hto _ _ hT' ?_ hs), hT'⟩
        intro n hb e
        exact (hT.new n hb).arg k t0 f f0 a d ht0 hf0 hd e
      rcases (h1 z t').1 hz with ⟨n, t0, hb, _, ht0, t1, rfl, hc, _⟩ | ⟨t0, _, ht0, _, c1, c2, c3⟩
      · exact key t0 ⟨n, ht0⟩ ⟨_, hc⟩
      · refine key t0 ⟨z, ht0⟩ ?_
        by_cases ho : OutRef pre c z
        · exact ⟨_, c1 ho⟩
        · by_cases hi : InRef pre c z
          · exact ⟨_, c2 ho hi⟩
          · exact ⟨_, c3 ho hi⟩
    | field z t' f fd _ hz hf hs ih =>
      obtain ⟨x, hx, hto'⟩ := ih
      have key : ∀ t0, At c.types x t0 → Copy (ToInput pre c) (ToInput pre c) t0 t' →
          ∃ x, InRef pre c x ∧ ToInput pre c x fd.ty.name := by
        intro t0 ht0 hc
        obtain ⟨f0, hf0, hk, _⟩ := copy_field hc hf
        refine ⟨f0.ty.name, .field x t0 f f0 hx ht0 hf0 (hto _ _ hk ?_ hs), hk⟩
        intro n hb e
        exact (hT.new n hb).field x t0 f f0 ht0 hf0 e
      rcases hto' with ⟨hb, rfl⟩ | ⟨hnb, rfl⟩
      · rcases (h1 _ t').1 hz with ⟨n, t0, hb', e, ht0, t1, rfl, hc, _⟩ | ⟨t0, hno, _⟩
        · have := inputName_inj e
          subst this
          exact key t0 ht0 hc
        · exact (hno x hb rfl).elim
      · rcases (h1 _ t').1 hz with ⟨n, t0, hb', e, _⟩ | ⟨t0, _, ht0, _, _, c2, _⟩
        · exact (in_not_new _ hx n hb' e).elim
        · exact key t0 ht0 (c2 (fun ho => hnb ⟨hx, ho, t0, ht0⟩) hx)
    | member z u m _ hz hmem ih =>
      obtain ⟨x, hx, hto'⟩ := ih
      rw [hu] at hz
      have hxz : x = z := by
        rcases hto' with ⟨hb, rfl⟩ | ⟨_, rfl⟩
        · exact ((hT.new x hb).decl (.inl ⟨u, hz⟩)).elim
        · rfl
      subst hxz
      exact (hT.plain x u hx hz).elim
  rintro ⟨hi, ho, t', ht'⟩
  have ho' := hout x ho
  obtain ⟨y, hy, hto'⟩ := hin x hi
  rcases hto' with ⟨hb, rfl⟩ | ⟨hnb, rfl⟩
  · exact out_not_new _ ho' y hb rfl
  · rcases (h1 _ t').1 ht' with ⟨n, t0, hb', e, _⟩ | ⟨t0, _, ht0, _⟩
    · exact out_not_new _ ho' n hb' e
    · exact hnb ⟨hy, ho', t0, ht0⟩

/-- Every field, argument and union member refers to something declared or predefined. -/
structure Linked (pre : Text → Bool) (c : Cfg) : Prop where
  field : ∀ k t f fd, At c.types k t → (f, fd) ∈ t.fields → Decl c fd.ty.name ∨ pre fd.ty.name = true
  arg : ∀ k t f fd a ad, At c.types k t → (f, fd) ∈ t.fields → (a, ad) ∈ fd.args →
    Decl c ad.ty.name ∨ pre ad.ty.name = true
  member : ∀ k u m, At c.unions k u → m ∈ u.types → Decl c m

/-- With unused input names, splitting leaves no reference without a declaration. -/
theorem C52_references_partial (pre : Text → Bool) (c c' : Cfg) (hT : Tame pre c) (h : Splits pre c c')
    (hl : Linked pre c) : Linked pre c' := by
  obtain ⟨h1, h2, h3, hu, he, hq, hm, _⟩ := split_types hT h
  have decl_keep : ∀ n, Decl c n → Decl c' n := by
    rintro n (⟨u, h⟩ | ⟨t, h⟩ | ⟨e, h⟩)
    · exact .inl ⟨u, by rw [hu]; exact h⟩
    · exact .inr (.inl (h3 n t h))
    · exact .inr (.inr ⟨e, by rw [he]; exact h⟩)
  have keep : ∀ a b, Kept a b → Decl c a ∨ pre a = true → Decl c' b ∨ pre b = true := by
    rintro a b rfl (h | h)
    · exact .inl (decl_keep _ h)
    · exact .inr h
  have toin : ∀ a b, ToInput pre c a b → Decl c a ∨ pre a = true → Decl c' b ∨ pre b = true := by
    rintro a b (⟨hb, rfl⟩ | ⟨_, rfl⟩) h
    · obtain ⟨t, ht⟩ := hb.2.2
      exact .inl (.inr (.inl (h2 a t hb ht)))
    · exact keep b b rfl h
  have src : ∀ k t', At c'.types k t' → ∃ k0 t0 F, At c.types k0 t0 ∧ Copy F (ToInput pre c) t0 t' ∧
      ∀ a b, F a b → Decl c a ∨ pre a = true → Decl c' b ∨ pre b = true := by
    intro k t' ht'
    rcases (h1 k t').1 ht' with ⟨n, t0, _, _, ht0, t1, rfl, hc, _⟩ | ⟨t0, _, ht0, _, c1, c2, c3⟩
    · exact ⟨n, t0, _, ht0, hc, toin⟩
    · by_cases ho : OutRef pre c k
      · exact ⟨k, t0, _, ht0, c1 ho, keep⟩
      · by_cases hi : InRef pre c k
        · exact ⟨k, t0, _, ht0, c2 ho hi, toin⟩
        · exact ⟨k, t0, _, ht0, c3 ho hi, keep⟩
  refine ⟨fun k t f fd ht hf => ?_, fun k t f fd a ad ht hf ha => ?_, fun k u m hk hmem => ?_⟩
  · obtain ⟨k0, t0, F, ht0, hc, hF⟩ := src k t ht
    obtain ⟨f0, hf0, hk, _⟩ := copy_field hc hf
    exact hF _ _ hk (hl.field k0 t0 f f0 ht0 hf0)
  · obtain ⟨k0, t0, F, ht0, hc, hF⟩ := src k t ht
    obtain ⟨f0, hf0, _, hargs⟩ := copy_field hc hf
    obtain ⟨d, hd, hk⟩ := hargs a ad ha
    exact toin _ _ hk (hl.arg k0 t0 f f0 a d ht0 hf0 hd)
  · rw [hu] at hk
    exact decl_keep _ (hl.member k u m hk hmem)

/-! ## Termination -/

/-- The declared names outside a set. -/
def rest (c : Cfg) (set : List Text) : Nat :=
  ((c.unions.map (·.1) ++ (c.types.map (·.1) ++ c.enums.map (·.1))).filter (fun x => !set.contains x)).length

theorem filterLen_le {p q : Text → Bool} (h : ∀ x, p x = true → q x = true) :
    ∀ l : List Text, (l.filter p).length ≤ (l.filter q).length
  | [] => by simp
  | a :: l => by
    have ih := filterLen_le h l
    simp only [List.filter_cons]
    by_cases ha : p a = true
    · simp only [ha, h a ha, if_true, List.length_cons]; omega
    · simp only [ha, Bool.false_eq_true, if_false]
      split
      · simp only [List.length_cons]; omega
      · omega

theorem filterLen_lt {p q : Text → Bool} (h : ∀ x, p x = true → q x = true) {y : Text} (hp : p y = false)
    (hq : q y = true) : ∀ l : List Text, y ∈ l → (l.filter p).length < (l.filter q).length
  | [], hm => by cases hm
  | a :: l, hm => by
    simp only [List.filter_cons]
    by_cases ha : a = y
    · subst ha
      have := filterLen_le h l
      simp only [hp, hq, Bool.false_eq_true, if_false, if_true, List.length_cons]
      omega
    · have hml : y ∈ l := by
        rcases List.mem_cons.1 hm with e | hm
        · exact absurd e.symm ha
        · exact hm
      have ih := filterLen_lt h hp hq l hml
      by_cases hpa : p a = true
      · simp only [hpa, h a hpa, if_true, List.length_cons]; omega
      · simp only [hpa, Bool.false_eq_true, if_false]
        split
        · simp only [List.length_cons]; omega
        · omega

theorem rest_mono {c : Cfg} {a b : List Text} (h : ∀ x ∈ a, x ∈ b) : rest c b ≤ rest c a := by
  apply filterLen_le
  intro x hx
  simp at hx ⊢
  exact fun hxa => hx (h x hxa)

theorem rest_lt {c : Cfg} {set : List Text} {x : Text} (hd : Decl c x) (hx : x ∉ set) :
    rest c (x :: set) < rest c set := by
  apply filterLen_lt (y := x)
  · intro y hy
    simp at hy ⊢
    exact hy.2
  · simp
  · simpa using hx
  · simp only [List.mem_append, List.mem_map]
    rcases hd with ⟨u, h⟩ | ⟨t, h⟩ | ⟨e, h⟩
    · exact .inl ⟨_, at_mem h, rfl⟩
    · exact .inr (.inl ⟨_, at_mem h, rfl⟩)
    · exact .inr (.inr ⟨_, at_mem h, rfl⟩)

theorem connMembers_finishes {rec : Text → List Text → Option (List Text)} {P : Text → List Text → Prop}
    (hrec : ∀ x set, P x set → ∃ r, rec x set = some r ∧ ∀ y ∈ set, y ∈ r) :
    ∀ (l set : List Text), (∀ x ∈ l, ∀ set', (∀ y ∈ set, y ∈ set') → P x set') →
      ∃ r, connMembers rec l set = some r ∧ ∀ y ∈ set, y ∈ r
  | [], set, _ => ⟨set, rfl, fun _ h => h⟩
  | t :: l, set, hP => by
    obtain ⟨mid, h1, k1⟩ := hrec t set (hP t List.mem_cons_self set (fun _ h => h))
    obtain ⟨r, h2, k2⟩ := connMembers_finishes hrec l mid (fun x hx set' hs =>
      hP x (List.mem_cons_of_mem _ hx) set' (fun y hy => hs y (k1 y hy)))
    exact ⟨r, by simp only [connMembers, h1, h2], fun y hy => k2 y (k1 y hy)⟩

theorem connFields_finishes {pre : Text → Bool} {c : Cfg} {rec : Text → List Text → Option (List Text)}
    {P : Text → List Text → Prop}
    (hrec : ∀ x set, P x set → ∃ r, rec x set = some r ∧ ∀ y ∈ set, y ∈ r) :
    ∀ (l : List (Text × FieldD)) (set : List Text),
      (∀ x set', (∀ y ∈ set, y ∈ set') → x ∉ set' → P x set') →
      ∃ r, connFields pre c rec l set = some r ∧ ∀ y ∈ set, y ∈ r
  | [], set, _ => ⟨set, rfl, fun _ h => h⟩
  | f :: l, set, hP => by
    by_cases hc : (!set.contains f.2.ty.name && !isScalar pre c f.2.ty.name) = true
    · have hn : f.2.ty.name ∉ set := by
        simp only [Bool.and_eq_true, Bool.not_eq_true'] at hc
        have := hc.1
        simpa using this
      obtain ⟨mid, h1, k1⟩ := hrec f.2.ty.name set (hP _ set (fun _ h => h) hn)
      obtain ⟨r, h2, k2⟩ := connFields_finishes (pre := pre) (c := c) hrec l mid (fun x set' hs =>
        hP x set' (fun y hy => hs y (k1 y hy)))
      exact ⟨r, by simp only [connFields, hc, if_true, h1, h2], fun y hy => k2 y (k1 y hy)⟩
    · obtain ⟨r, h2, k2⟩ := connFields_finishes (pre := pre) (c := c) hrec l set hP
      exact ⟨r, by simp only [connFields, hc, Bool.false_eq_true, if_false, h2], k2⟩

theorem conn_finishes (pre : Text → Bool) (c : Cfg)
    (hflat : ∀ x u m, At c.unions x u → m ∈ u.types → Lacks c.unions m) :
    ∀ (n : Nat) (x : Text) (set : List Text),
      (1 ≤ n ∧ ((∃ u, At c.unions x u) → 2 * rest c (x :: set) + 3 ≤ n) ∧
        (Decl c x → 2 * rest c (x :: set) + 2 ≤ n)) →
      ∃ r, conn pre c n x set = some r ∧ ∀ y ∈ set, y ∈ r
  | 0, _, _, h => by omega
  | n + 1, x, set, ⟨_, hU, hD⟩ => by
    have ih := conn_finishes pre c hflat n
    cases hu : get c.unions x with
    | some u =>
      have hu' := get_some.1 hu
      have hb := hU ⟨u, hu'⟩
      obtain ⟨r, h, k⟩ := connMembers_finishes ih u.types (x :: set) (fun m hm set' hs => by
        have hle : rest c (m :: set') ≤ rest c (x :: set) :=
          rest_mono (fun y hy => List.mem_cons_of_mem _ (hs y hy))
        refine ⟨by omega, fun ⟨u', hm'⟩ => (at_not_lacks hm' (hflat x u m hu' hm)).elim, fun _ => by omega⟩)
      exact ⟨r, by simp only [conn, hu, h], fun y hy => k y (List.mem_cons_of_mem _ hy)⟩
    | none =>
      cases ht : get c.types x with
      | some t =>
        have hb := hD (.inr (.inl ⟨t, get_some.1 ht⟩))
        obtain ⟨r, h, k⟩ := connFields_finishes (pre := pre) (c := c) ih t.fields (x :: set) (fun m set' hs hm => by
          have hle : rest c set' ≤ rest c (x :: set) := rest_mono hs
          refine ⟨by omega, fun ⟨u', hm'⟩ => ?_, fun hd => ?_⟩
          · have := rest_lt (c := c) (.inl ⟨u', hm'⟩) hm
            omega
          · have := rest_lt (c := c) hd hm
            omega)
        exact ⟨r, by simp only [conn, hu, ht, h], fun y hy => k y (List.mem_cons_of_mem _ hy)⟩
      | none =>
        by_cases he : (get c.enums x).isSome = true
        · exact ⟨x :: set, by simp only [conn, hu, ht, he, if_true], fun y hy => List.mem_cons_of_mem _ hy⟩
        · refine ⟨set, by simp only [conn, hu, ht, he, if_false]; rfl, fun y hy => hy⟩

/-- A list without repetitions. -/
def dedup : List Text → List Text
  | [] => []
  | a :: l => if a ∈ dedup l then dedup l else a :: dedup l

theorem dedup_spec : ∀ l : List Text, (dedup l).Nodup ∧ ∀ x, x ∈ dedup l ↔ x ∈ l
  | [] => ⟨by simp [dedup], fun x => Iff.rfl⟩
  | a :: l => by
    obtain ⟨h1, h2⟩ := dedup_spec l
    simp only [dedup]
    split
    · rename_i ha
      refine ⟨h1, fun x => ?_⟩
      rw [h2, List.mem_cons]
      exact ⟨.inr, fun h => h.elim (fun e => e ▸ (h2 a).1 ha) id⟩
    · rename_i ha
      exact ⟨List.nodup_cons.2 ⟨ha, h1⟩, fun x => by simp [h2]⟩

/-- When no union is a member of a union, splitting always ends. -/
theorem C52_terminates (pre : Text → Bool) (c : Cfg)
    (hflat : ∀ x u m, At c.unions x u → m ∈ u.types → Lacks c.unions m) : ∃ c', Splits pre c c' := by
  have enough : ∀ x set, (1 ≤ 2 * rest c [] + 3 ∧
      ((∃ u, At c.unions x u) → 2 * rest c (x :: set) + 3 ≤ 2 * rest c [] + 3) ∧
      (Decl c x → 2 * rest c (x :: set) + 2 ≤ 2 * rest c [] + 3)) := by
    intro x set
    have : rest c (x :: set) ≤ rest c [] := rest_mono (by simp)
    refine ⟨by omega, fun _ => by omega, fun _ => by omega⟩
  obtain ⟨ins, hi, _⟩ := connMembers_finishes (conn_finishes pre c hflat (2 * rest c [] + 3))
    ((argNames c).filter (fun x => !isScalar pre c x)) [] (fun x _ set' _ => enough x set')
  obtain ⟨outs, ho, _⟩ := connMembers_finishes (conn_finishes pre c hflat (2 * rest c [] + 3))
    (c.query.toList ++ c.mutation.toList) [] (fun x _ set' _ => enough x set')
  obtain ⟨d1, d2⟩ := dedup_spec (resolutionKeys c outs (ins.filter (fun x => outs.contains x)))
  exact ⟨_, _, ins, outs, _, _, hi, ho, fun x => by simp, d1, d2, rfl⟩

/-! ## Examples and violations -/

/-- A run with a concrete order. -/
theorem splits_of {pre : Text → Bool} {c : Cfg} {n : Nat} {ins outs : List Text}
    (hi : inputTypes pre c n = some ins) (ho : outputTypes pre c n = some outs)
    (hn : (resolutionKeys c outs (ins.filter (fun x => outs.contains x))).Nodup) :
    Splits pre c (splitTypes c ins outs (resolutionKeys c outs (ins.filter (fun x => outs.contains x)))) :=
  ⟨n, ins, outs, _, _, hi, ho, fun x => by simp, hn, fun x => Iff.rfl, rfl⟩

/-- The only predefined scalar of the examples. -/
def preS (t : Text) : Bool := t = ['S']

/-- `P` and `R` are used both ways, `T` and `E` as outputs, `W` as input, `Z` not at all. -/
def splitCfg : Cfg where
  types := [
    (['Q'], ⟨[(['p'], ⟨.named ['P'] true, [(['x'], ⟨.list (.named ['P'] true) false, ['d']⟩), (['w'], ⟨.named ['W'] false, []⟩)], ['h']⟩),
              (['u'], ⟨.named ['U'] false, [(['s'], ⟨.named ['S'] true, []⟩)], []⟩)], [], []⟩),
    (['P'], ⟨[(['n'], ⟨.named ['S'] false, [], []⟩), (['r'], ⟨.named ['R'] false, [], []⟩)], [], ['p']⟩),
    (['R'], ⟨[(['p'], ⟨.named ['P'] false, [(['s'], ⟨.named ['S'] true, []⟩)], []⟩)], [], ['r']⟩),
    (['T'], ⟨[(['e'], ⟨.named ['E'] false, [], []⟩)], [], []⟩),
    (['W'], ⟨[(['r'], ⟨.named ['R'] true, [], []⟩)], [], []⟩),
    (['Z'], ⟨[(['r'], ⟨.named ['R'] true, [], []⟩)], [], []⟩)]
  unions := [(['U'], ⟨[['P'], ['T']], []⟩)]
  enums := [(['E'], [])]
  query := some ['Q']
  mutation := none
  subscription := none

theorem splitCfg_ins : inputTypes preS splitCfg 9 = some [['W'], ['R'], ['P']] := by rfl

theorem splitCfg_outs : outputTypes preS splitCfg 9 = some [['E'], ['T'], ['P'], ['U'], ['R'], ['P'], ['Q']] := by rfl

theorem splitCfg_once : ∀ n t u, At splitCfg.types n t → At splitCfg.unions n u → False := by
  intro n t u ht hu
  have h1 := List.mem_map_of_mem (f := (·.1)) (at_mem ht)
  have h2 := List.mem_map_of_mem (f := (·.1)) (at_mem hu)
  simp only [splitCfg, List.map_cons, List.map_nil, List.mem_cons, List.not_mem_nil, or_false] at h1 h2
  subst h2
  simp at h1

theorem splitCfg_both {n : Text} (h : Both preS splitCfg n) : n = ['R'] ∨ n = ['P'] := by
  obtain ⟨hi, ho, t, ht⟩ := h
  have hd : Decl splitCfg n := .inr (.inl ⟨t, ht⟩)
  have h1 := (inputTypes_iff (by decide) splitCfg_once splitCfg_ins n).2 ⟨hi, hd⟩
  have h2 := (outputTypes_iff splitCfg_once splitCfg_outs n).2 ⟨ho, hd⟩
  simp only [List.mem_cons, List.not_mem_nil, or_false] at h1 h2
  rcases h1 with rfl | rfl | rfl
  · simp at h2
  · exact .inl rfl
  · exact .inr rfl

/-- A name that is not among the names of the configuration. -/
theorem new_of {c : Cfg} {m : Text}
    (h : (c.types.all (fun p => p.1 ≠ m && p.2.fields.all (fun f => f.2.ty.name ≠ m && f.2.args.all (fun a => a.2.ty.name ≠ m)))
      && c.unions.all (fun p => p.1 ≠ m && p.2.types.all (· ≠ m)) && c.enums.all (fun p => p.1 ≠ m)
      && c.query ≠ some m && c.mutation ≠ some m) = true) : New c m := by
  simp only [Bool.and_eq_true, List.all_eq_true, decide_eq_true_eq] at h
  obtain ⟨⟨⟨⟨hT, hU⟩, hE⟩, hq⟩, hm⟩ := h
  refine ⟨?_, hq, hm, fun k u hu hmem => (hU _ (at_mem hu)).2 m hmem rfl,
    fun k t f fd ht hf => ((hT _ (at_mem ht)).2 _ hf).1, fun k t f fd a ad ht hf ha => ((hT _ (at_mem ht)).2 _ hf).2 _ ha⟩
  rintro (⟨u, h⟩ | ⟨t, h⟩ | ⟨e, h⟩)
  · exact (hU _ (at_mem h)).1 rfl
  · exact (hT _ (at_mem h)).1 rfl
  · exact hE _ (at_mem h) rfl

theorem splitCfg_tame : Tame preS splitCfg := by
  refine ⟨by decide, splitCfg_once, fun n hb => ?_, fun x u hx hu => ?_, fun k t f fd a ad hb ht hf ha ho hd => ?_⟩
  · rcases splitCfg_both hb with rfl | rfl
    · exact new_of (by decide)
    · exact new_of (by decide)
  · have h1 := (inputTypes_iff (by decide) splitCfg_once splitCfg_ins x).2 ⟨hx, .inl ⟨u, hu⟩⟩
    have h2 := List.mem_map_of_mem (f := (·.1)) (at_mem hu)
    simp only [splitCfg, List.map_cons, List.map_nil, List.mem_cons, List.not_mem_nil, or_false] at h1 h2
    subst h2
    simp at h1
  · exfalso
    have key : ∀ k t, (k = ['R'] ∨ k = ['P']) → At splitCfg.types k t → ∀ f fd a ad, (f, fd) ∈ t.fields → (a, ad) ∈ fd.args →
        ad.ty.name = ['S'] := by
      rintro k t (rfl | rfl) ht f fd a ad hf ha
      · have := Option.some.inj ((get_some.2 ht).symm.trans (show get splitCfg.types ['R'] = some _ from rfl))
        subst this
        simp only [List.mem_cons, List.not_mem_nil, or_false, Prod.mk.injEq] at hf
        obtain ⟨_, rfl⟩ := hf
        simp only [List.mem_cons, List.not_mem_nil, or_false, Prod.mk.injEq] at ha
        obtain ⟨_, rfl⟩ := ha
        rfl
      · have := Option.some.inj ((get_some.2 ht).symm.trans (show get splitCfg.types ['P'] = some _ from rfl))
        subst this
        simp only [List.mem_cons, List.not_mem_nil, or_false, Prod.mk.injEq] at hf
        rcases hf with ⟨_, rfl⟩ | ⟨_, rfl⟩ <;> simp at ha
    have := key k t (splitCfg_both hb) ht f fd a ad hf ha
    rw [this] at hd
    rw [decl_iff] at hd
    revert hd
    decide

/-- The configuration after splitting. -/
def splitCfg' : Cfg := { splitCfg with types := [
    (['P'], ⟨[(['n'], ⟨.named ['S'] false, [], []⟩), (['r'], ⟨.named ['R'] false, [], []⟩)], [], ['p']⟩),
    (['P','I','n','p','u','t'], ⟨[(['n'], ⟨.named ['S'] false, [], []⟩), (['r'], ⟨.named ['R','I','n','p','u','t'] false, [], []⟩)], [], ['p']⟩),
    (['R'], ⟨[(['p'], ⟨.named ['P'] false, [(['s'], ⟨.named ['S'] true, []⟩)], []⟩)], [], ['r']⟩),
    (['R','I','n','p','u','t'], ⟨[(['p'], ⟨.named ['P','I','n','p','u','t'] false, [(['s'], ⟨.named ['S'] true, []⟩)], []⟩)], [], ['r']⟩),
    (['Q'], ⟨[(['p'], ⟨.named ['P'] true, [(['x'], ⟨.list (.named ['P','I','n','p','u','t'] true) false, ['d']⟩), (['w'], ⟨.named ['W'] false, []⟩)], ['h']⟩),
              (['u'], ⟨.named ['U'] false, [(['s'], ⟨.named ['S'] true, []⟩)], []⟩)], [], []⟩),
    (['T'], ⟨[(['e'], ⟨.named ['E'] false, [], []⟩)], [], []⟩),
    (['W'], ⟨[(['r'], ⟨.named ['R','I','n','p','u','t'] true, [], []⟩)], [], []⟩),
    (['Z'], ⟨[(['r'], ⟨.named ['R'] true, [], []⟩)], [], []⟩)] }

example : Tame preS splitCfg ∧ Splits preS splitCfg splitCfg' :=
  ⟨splitCfg_tame, splits_of splitCfg_ins splitCfg_outs (by decide)⟩

example : Both preS splitCfg ['P'] := by
  have h1 := (inputTypes_iff (by decide) splitCfg_once splitCfg_ins ['P']).1 (by decide)
  have h2 := (outputTypes_iff splitCfg_once splitCfg_outs ['P']).1 (by decide)
  exact ⟨h1.1, h2.1, _, rfl⟩

/-- A type `PInput` of the configuration is lost when `P` is split. -/
theorem C52_violated_by_existing_input_type :
    ∃ (pre : Text → Bool) (c c' : Cfg) (k : Text) (t : TypeD), Splits pre c c' ∧ At c.types k t ∧
      ∀ k' t', At c'.types k' t' → t'.info ≠ t.info := by
  refine ⟨preS, { splitCfg with types := (['P','I','n','p','u','t'], ⟨[(['z'], ⟨.named ['S'] true, [], []⟩)], [], ['z']⟩) :: splitCfg.types }, _,
    ['P','I','n','p','u','t'], _, splits_of (n := 9) (ins := [['W'], ['R'], ['P']])
      (outs := [['E'], ['T'], ['P'], ['U'], ['R'], ['P'], ['Q']]) rfl rfl (by decide), rfl, ?_⟩
  intro k' t' h
  have hm := List.mem_map_of_mem (f := fun p : Text × TypeD => p.2.info) (at_mem h)
  intro e
  rw [e] at hm
  revert hm
  decide

/-- A field of a type used both ways has an argument of an enum that is also an output: afterwards the
argument refers to a type that is declared nowhere. -/
theorem C52_violated_by_enum_argument :
    ∃ (pre : Text → Bool) (c c' : Cfg) (k : Text) (t t' : TypeD) (f a : Text) (fd fd' : FieldD) (ad ad' : ArgD),
      Splits pre c c' ∧ At c.types k t ∧ (f, fd) ∈ t.fields ∧ (a, ad) ∈ fd.args ∧ Decl c ad.ty.name ∧
      At c'.types k t' ∧ (f, fd') ∈ t'.fields ∧ (a, ad') ∈ fd'.args ∧
      ¬ Decl c' ad'.ty.name ∧ pre ad'.ty.name = false := by
  refine ⟨preS, { splitCfg with
      types := [
        (['Q'], ⟨[(['p'], ⟨.named ['P'] true, [(['x'], ⟨.named ['P'] true, []⟩)], []⟩), (['e'], ⟨.named ['E'] true, [], []⟩)], [], []⟩),
        (['P'], ⟨[(['n'], ⟨.named ['S'] false, [(['a'], ⟨.named ['E'] true, []⟩)], []⟩)], [], []⟩)]
      unions := [] }, _, ['P'], _, _, ['n'], ['a'], _, _, _, _,
    splits_of (n := 9) (ins := [['E'], ['P']]) (outs := [['E'], ['P'], ['Q']]) rfl rfl (by decide),
    rfl, List.mem_cons_self, List.mem_cons_self, .inr (.inr ⟨_, rfl⟩), rfl, List.mem_cons_self, List.mem_cons_self, ?_, rfl⟩
  rw [decl_iff]
  decide

/-- A type that implements an interface used as output, and is itself used as input, is not split. -/
theorem C52_violated_by_implementing_type :
    ∃ (pre : Text → Bool) (c c' : Cfg) (i k : Text) (t' : TypeD), Splits pre c c' ∧ OutRef pre c' i ∧
      InRef pre c' k ∧ At c'.types k t' ∧ i ∈ t'.implements := by
  let c : Cfg := { splitCfg with
      types := [
        (['Q'], ⟨[(['p'], ⟨.named ['I'] true, [(['x'], ⟨.named ['P'] true, []⟩)], []⟩)], [], []⟩),
        (['I'], ⟨[(['n'], ⟨.named ['S'] false, [], []⟩)], [], []⟩),
        (['P'], ⟨[(['n'], ⟨.named ['S'] false, [], []⟩)], [['I']], []⟩)]
      unions := [] }
  have once : ∀ n t u, At c.types n t → At c.unions n u → False := fun n t u _ hu => by
    have := at_mem hu
    cases this
  have hi : inputTypes preS c 9 = some [['P']] := rfl
  have ho : outputTypes preS c 9 = some [['I'], ['Q']] := rfl
  have hs := splits_of hi ho (by decide)
  have he : splitTypes c [['P']] [['I'], ['Q']] (resolutionKeys c [['I'], ['Q']]
      (List.filter (fun x => [['I'], ['Q']].contains x) [['P']])) = c := rfl
  rw [he] at hs
  exact ⟨preS, c, c, ['I'], ['P'], _, hs, ((outputTypes_iff once ho ['I']).1 (by decide)).1,
    ((inputTypes_iff (by decide) once hi ['P']).1 (by decide)).1, rfl, List.mem_cons_self⟩

end Verif.Transform
