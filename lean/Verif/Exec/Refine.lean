import Verif.Exec.Lists

/-!
# C36, C37: execution and synthesis together answer as the reference does
-/

namespace Verif.Exec

open Verif.Mustache (Text)
open Verif.HttpUrl (GVal)
open Verif.Ir (Res getTypeName)

set_option linter.unusedSimpArgs false

variable {σ : Type}

/-- The kind of an error, without its path. -/
def kinds {α : Type} : Except SErr α → Except Kind α
  | .ok a => .ok a
  | .error x => .error x.kind

/-- The answers of the resolvers do not depend on the state (the order of the calls). -/
def Stable (e : Env σ) (R : Hdr → Option GVal → Res) : Prop := ∀ s h v, (e.resolve s h v).2 = R h v

/-! ## Values and stores without the state -/

/-- Proof helper: a resolver called on one value, not at all on null. -/
def callR (R : Hdr → Option GVal → Res) (h : Hdr) : GVal → Res
  | .null => .ok .null
  | v => R h (some v)

/-- `execIr` without the state. -/
def irVal (e : Env σ) (R : Hdr → Option GVal → Res) (h : Hdr) : Option GVal → Res
  | none => R h none
  | some (.list l) =>
    (mapRef (fun (_ : Unit) x => ((), if partOf e h x then callR R h x else .ok .null)) () (.list l)).2
  | some v => callR R h v

theorem callAll_stable {e : Env σ} {R} (hR : Stable e R) (h : Hdr) (s : σ) (l : List GVal) :
    (callAll e h s l).2 = l.map (callR R h) := by
  induction l generalizing s with
  | nil => rfl
  | cons v r ih =>
    simp only [callAll, List.map_cons, ih]
    congr 1
    cases v <;> simp [call, callR, hR s h]

theorem execIr_stable {e : Env σ} {R} (hR : Stable e R) (h : Hdr) (s : σ) (V : Option GVal) :
    (execIr e h s V).2 = irVal e R h V := by
  cases V with
  | none => simp [execIr, irVal, call, hR s h]
  | some v =>
    cases v with
    | list l =>
      simp only [execIr, irVal, callAll_stable hR]
      have := (mapRef_place e h (callR R h) (.list l) []).1
      simpa using this
    | _ => simp [execIr, irVal, call, callR, hR s h]

mutual
/-- The store holds what executing a field on a parent value leaves. -/
def Stored (e : Env σ) (R : Hdr → Option GVal → Res) (st : Store) : Field → Option GVal → Prop
  | .mk h sub, V =>
    match h.ir with
    | some _ =>
      match irVal e R h V with
      | .ok x => st h.id = some (.ok x) ∧ StoredAll e R st sub (some x)
      | .error x => st h.id = some (.error x)
    | none => st h.id = none ∧ StoredAll e R st sub (some (plainValue h V))
/-- Proof invariant: `Stored` for every field of a selection. -/
def StoredAll (e : Env σ) (R : Hdr → Option GVal → Res) (st : Store) : List Field → Option GVal → Prop
  | [], _ => True
  | f :: r, V => Stored e R st f V ∧ StoredAll e R st r V
end

/-- Proof helper: the ids of a list of fields. -/
def ids (l : List Hdr) : List Nat := l.map Hdr.id

mutual
theorem stored_congr (e : Env σ) (R) (st st' : Store) (f : Field) (V : Option GVal)
    (hs : ∀ i ∈ ids (dfsF f), st' i = st i) (h : Stored e R st f V) : Stored e R st' f V := by
  match f with
  | .mk h0 sub =>
    simp only [dfsF, ids, List.map_cons, List.mem_cons] at hs
    have h0' := hs h0.id (Or.inl rfl)
    have hsub : ∀ i ∈ ids (dfs sub), st' i = st i := fun i hi => hs i (Or.inr hi)
    simp only [Stored] at h ⊢
    cases hir : h0.ir with
    | none =>
      rw [hir] at h
      simp only [] at h ⊢
      exact ⟨by rw [h0', h.1], storedAll_congr e R st st' sub _ hsub h.2⟩
    | some ir =>
      rw [hir] at h
      simp only [] at h ⊢
      cases hv : irVal e R h0 V with
      | error x => rw [hv] at h; simp only [] at h ⊢; rw [h0', h]
      | ok x =>
        rw [hv] at h
        simp only [] at h ⊢
        exact ⟨by rw [h0', h.1], storedAll_congr e R st st' sub _ hsub h.2⟩
theorem storedAll_congr (e : Env σ) (R) (st st' : Store) (l : List Field) (V : Option GVal)
    (hs : ∀ i ∈ ids (dfs l), st' i = st i) (h : StoredAll e R st l V) : StoredAll e R st' l V := by
  match l with
  | [] => trivial
  | f :: r =>
    simp only [dfs, ids, List.map_append, List.mem_append] at hs
    simp only [StoredAll] at h ⊢
    exact ⟨stored_congr e R st st' f V (fun i hi => hs i (Or.inl hi)) h.1,
      storedAll_congr e R st st' r V (fun i hi => hs i (Or.inr hi)) h.2⟩
end

mutual
theorem execField_other (e : Env σ) (f : Field) (V : Option GVal) (q : σ × Store) (i : Nat)
    (hi : i ∉ ids (dfsF f)) : (execField e f V q).2 i = q.2 i := by
  match f, q with
  | .mk h sub, (s, st) =>
    simp only [dfsF, ids, List.map_cons, List.mem_cons, not_or] at hi
    simp only [execField]
    cases h.ir with
    | none => simp only []; exact execAll_other e sub _ (s, st) i hi.2
    | some ir =>
      simp only []
      rcases execIr e h s V with ⟨s', r⟩
      cases r with
      | error x => simp [Store.set, hi.1]
      | ok x =>
        simp only [Store.set, if_neg hi.1]
        exact execAll_other e sub _ (s', st) i hi.2
theorem execAll_other (e : Env σ) (l : List Field) (V : Option GVal) (q : σ × Store) (i : Nat)
    (hi : i ∉ ids (dfs l)) : (execAll e l V q).2 i = q.2 i := by
  match l with
  | [] => rfl
  | f :: r =>
    simp only [dfs, ids, List.map_append, List.mem_append, not_or] at hi
    simp only [execAll]
    rw [execAll_other e r V _ i hi.2, execField_other e f V q i hi.1]
end

mutual
theorem execField_stored {e : Env σ} {R} (hR : Stable e R) (f : Field) (V : Option GVal) (q : σ × Store)
    (hnd : (ids (dfsF f)).Nodup) (hno : ∀ i ∈ ids (dfsF f), q.2 i = none) :
    Stored e R (execField e f V q).2 f V := by
  match f, q with
  | .mk h sub, (s, st) =>
    simp only [dfsF, ids, List.map_cons, List.nodup_cons] at hnd
    simp only [dfsF, ids, List.map_cons, List.mem_cons] at hno
    have hsub : ∀ i ∈ ids (dfs sub), st i = none := fun i hi => hno i (Or.inr hi)
    simp only [execField, Stored]
    cases hir : h.ir with
    | none =>
      simp only []
      refine ⟨?_, execAll_stored hR sub _ (s, st) hnd.2 hsub⟩
      rw [execAll_other e sub _ (s, st) h.id hnd.1]
      exact hno h.id (Or.inl rfl)
    | some ir =>
      simp only []
      have hv := execIr_stable hR h s V
      rcases hx : execIr e h s V with ⟨s', r⟩
      rw [hx] at hv
      simp only [] at hv
      rw [← hv]
      cases r with
      | error x => simp [Store.set]
      | ok x =>
        simp only []
        refine ⟨by simp [Store.set], ?_⟩
        refine storedAll_congr e R _ _ sub _ ?_ (execAll_stored hR sub (some x) (s', st) hnd.2 hsub)
        intro i hi
        have : i ≠ h.id := fun he => hnd.1 (he ▸ hi)
        simp [Store.set, this]
theorem execAll_stored {e : Env σ} {R} (hR : Stable e R) (l : List Field) (V : Option GVal) (q : σ × Store)
    (hnd : (ids (dfs l)).Nodup) (hno : ∀ i ∈ ids (dfs l), q.2 i = none) :
    StoredAll e R (execAll e l V q).2 l V := by
  match l with
  | [] => trivial
  | f :: r =>
    simp only [dfs, ids, List.map_append, List.nodup_append] at hnd
    simp only [dfs, ids, List.map_append, List.mem_append] at hno
    obtain ⟨n1, n2, n3⟩ := hnd
    simp only [execAll, StoredAll]
    constructor
    · refine stored_congr e R _ _ f V ?_ (execField_stored hR f V q n1 (fun i hi => hno i (Or.inl hi)))
      intro i hi
      exact execAll_other e r V _ i (fun hi' => n3 i hi i hi' rfl)
    · refine execAll_stored hR r V _ n2 ?_
      intro i hi
      rw [execField_other e f V q i (fun hi' => n3 i hi' i hi rfl)]
      exact hno i (Or.inr hi)
end

/-! ## Values at positions -/

theorem irVal_at {e : Env σ} {R : Hdr → Option GVal → Res} {h : Hdr} {V W : GVal} {dp : List Nat}
    {kvs : List (Text × GVal)} (hV : atPos V dp = some (.obj kvs)) (hp : partOf e h (.obj kvs) = true)
    (hW : irVal e R h (some V) = .ok W) :
    ∃ w, R h (some (.obj kvs)) = .ok w ∧ atPos W dp = some w := by
  cases V with
  | list l =>
    simp only [irVal] at hW
    obtain ⟨y, hy, hyW⟩ := (mapRef_pos _ _ _ hW dp _ hV).1 rfl
    rw [if_pos hp] at hy
    exact ⟨y, hy, hyW⟩
  | obj kvs' =>
    cases dp with
    | cons i p => simp [atPos] at hV
    | nil =>
      simp only [atPos, Option.some.injEq] at hV
      rw [hV] at hW
      exact ⟨W, hW, rfl⟩
  | _ => cases dp <;> simp [atPos] at hV

mutual
theorem mapRef_total (g : GVal → GVal) (v : GVal) :
    ∃ w, (mapRef (fun (_ : Unit) x => ((), (.ok (g x) : Except Unit GVal))) () v).2 = .ok w ∧
      ∀ p x, atPos v p = some x → isArr x = false → atPos w p = some (g x) := by
  match v with
  | .list l =>
    obtain ⟨l', h1, h2⟩ := mapRefs_total g l
    refine ⟨.list l', ?_, ?_⟩
    · simp only [mapRef]
      revert h1
      rcases mapRefs (fun (_ : Unit) x => ((), (.ok (g x) : Except Unit GVal))) () l with ⟨s, _ | y⟩
      · simp
      · simp
    · intro p x hx ha
      cases p with
      | nil => simp only [atPos, Option.some.injEq] at hx; subst hx; simp [isArr] at ha
      | cons i p =>
        simp only [atPos] at hx ⊢
        cases hi : l[i]? with
        | none => rw [hi] at hx; simp at hx
        | some u =>
          rw [hi] at hx
          obtain ⟨u', hu', hp⟩ := h2 i u hi
          rw [hu']
          exact hp p x hx ha
  | .null | .bool _ | .int _ | .float _ | .str _ | .enum _ | .obj _ =>
    refine ⟨_, by simp only [mapRef]; rfl, ?_⟩
    intro p x hx ha
    cases p with
    | cons i p => simp [atPos] at hx
    | nil => simp only [atPos, Option.some.injEq] at hx; subst hx; rfl
theorem mapRefs_total (g : GVal → GVal) (l : List GVal) :
    ∃ l', (mapRefs (fun (_ : Unit) x => ((), (.ok (g x) : Except Unit GVal))) () l).2 = .ok l' ∧
      ∀ (i : Nat) v, l[i]? = some v → ∃ v', l'[i]? = some v' ∧
        ∀ p x, atPos v p = some x → isArr x = false → atPos v' p = some (g x) := by
  match l with
  | [] => exact ⟨[], rfl, by simp⟩
  | v :: r =>
    obtain ⟨w, h1, h2⟩ := mapRef_total g v
    obtain ⟨r', h3, h4⟩ := mapRefs_total g r
    refine ⟨w :: r', ?_, ?_⟩
    · simp only [mapRefs]
      revert h1
      rcases mapRef (fun (_ : Unit) x => ((), (.ok (g x) : Except Unit GVal))) () v with ⟨⟨⟩, _ | y⟩
      · simp
      · intro h1
        simp only [Except.ok.injEq] at h1
        subst h1
        simp only []
        revert h3
        rcases mapRefs (fun (_ : Unit) x => ((), (.ok (g x) : Except Unit GVal))) () r with ⟨⟨⟩, _ | z⟩
        · simp
        · simp
    · intro i u hu
      cases i with
      | zero =>
        simp only [List.getElem?_cons_zero, Option.some.injEq] at hu
        subst hu
        exact ⟨w, rfl, h2⟩
      | succ i =>
        simp only [List.getElem?_cons_succ] at hu ⊢
        exact h4 i u hu
end

theorem plain_at (h : Hdr) (V : GVal) (dp : List Nat) (kvs : List (Text × GVal))
    (hV : atPos V dp = some (.obj kvs)) :
    atPos (plainValue h (some V)) dp = some ((Verif.Merge.get h.out kvs).getD .null) := by
  obtain ⟨w, h1, h2⟩ := mapRef_total (fun x => (getKey h.out x).getD .null) V
  unfold plainValue
  simp only [h1]
  exact h2 dp _ hV rfl

/-! ## Completion -/

theorem leafRule_checked (e : Env σ) (h : Hdr) (v : GVal) (path : Path) (k : Path × Except SErr GVal)
    (hi : included e h = true) :
    kinds (checked e h v path k).2 = (match leafRule e h v with | some r => r | none => kinds k.2) := by
  unfold checked leafRule
  simp only [hi, Bool.not_true, Bool.false_eq_true, if_false]
  cases h.scalar with
  | some s =>
    simp only []
    split <;> rfl
  | none =>
    simp only []
    cases h.isEnum with
    | false => rfl
    | true =>
      have : enumValue e h v = (asItems v).all (isVariant e h.ty.name) := by
        have he : enumItem e h = isVariant e h.ty.name := by
          funext x
          cases x <;> rfl
        cases v <;> simp [enumValue, asItems, he]
      simp only [if_true, this]
      split <;> rfl

theorem nullData_eq (t : Ty) (path : Path) :
    kinds (if t.nullInside then .ok .null else (.error ⟨.valueRequired, some path⟩ : Except SErr GVal))
      = nullData t := by
  cases t with
  | named n nn => cases nn <;> rfl
  | list t nn =>
    cases t with
    | named _ nn' => cases nn' <;> rfl
    | list _ nn' => cases nn' <;> rfl

theorem absent_eq (h : Hdr) (path : Path) : kinds (guard h none path) = absent h.ty := by
  unfold guard
  cases h.ty with
  | named _ nn => cases nn <;> rfl
  | list _ nn => cases nn <;> rfl

/-- The synthesised result is the expected one, or the error of a field whose resolver failed. -/
def Ag (st : Store) {α : Type} (r : Except SErr α) (q : Except Kind α) : Prop :=
  kinds r = q ∨ ∃ i x, st i = some (.error x) ∧ r = .error ⟨.resolver x, none⟩

theorem checked_ag (st : Store) (e : Env σ) (h : Hdr) (v : GVal) (path : Path) (k : Path × Except SErr GVal)
    (q : Except Kind GVal) (hi : included e h = true) (hk : Ag st k.2 q) :
    Ag st (checked e h v path k).2 (match leafRule e h v with | some r => r | none => q) := by
  have := leafRule_checked e h v path k hi
  cases hl : leafRule e h v with
  | some r =>
    left
    rw [this, hl]
  | none =>
    rw [hl] at this
    simp only [] at this ⊢
    rcases hk with hk | ⟨i, x, hx, hk⟩
    · left; rw [this, hk]
    · right
      refine ⟨i, x, hx, ?_⟩
      unfold leafRule at hl
      unfold checked
      cases hs : h.scalar with
      | some s => rw [hs] at hl; simp at hl
      | none =>
        cases he : h.isEnum with
        | true => rw [hs, he] at hl; simp at hl
        | false => simp [hi, hk]

mutual
theorem inner_complete (st : Store) (e : Env σ) (h : Hdr) (kids : Kids) (sub : Sub) (I : GVal → List Nat → Prop)
    (hi : included e h = true)
    (hI : ∀ l dp (i : Nat) v, I (.list l) dp → l[i]? = some v → I v (dp ++ [i]))
    (hk : ∀ kvs dp path, I (.obj kvs) dp → Ag st (kids (.obj kvs) kvs dp path).2 (sub kvs))
    (v : GVal) (dp : List Nat) (path : Path) (hv : I v dp) :
    Ag st (inner e h kids v dp path).2 (complete e h sub v) := by
  match v with
  | .null =>
    left
    simp only [inner, hi, complete, Bool.not_true, Bool.false_eq_true, if_false]
    rw [← nullData_eq h.ty path]
    split <;> rfl
  | .obj kvs =>
    simp only [inner, complete]
    have := hk kvs dp path hv
    refine checked_ag st e h _ path _ ((sub kvs).map .obj) hi ?_
    rcases this with this | ⟨i, x, hx, this⟩
    · left
      rw [← this]
      rcases kids (.obj kvs) kvs dp path with ⟨p, _ | y⟩ <;> rfl
    · right
      refine ⟨i, x, hx, ?_⟩
      revert this
      rcases kids (.obj kvs) kvs dp path with ⟨p, _ | y⟩
      · intro this; simpa [asObj] using this
      · intro this; simp at this
  | .list l =>
    simp only [inner, complete]
    have := inners_complete st e h kids sub I hi hI hk l 0 dp path
      (fun j v hj => by rw [Nat.zero_add]; exact hI l dp j v hv hj)
    refine checked_ag st e h _ path _ ((completes e h sub l).map .list) hi ?_
    rcases this with this | ⟨i, x, hx, this⟩
    · left
      rw [← this]
      rcases inners e h kids l 0 dp path with ⟨p, _ | y⟩ <;> rfl
    · right
      refine ⟨i, x, hx, ?_⟩
      revert this
      rcases inners e h kids l 0 dp path with ⟨p, _ | y⟩
      · intro this; simpa [asList] using this
      · intro this; simp at this
  | .bool _ | .int _ | .float _ | .str _ | .enum _ =>
    simp only [inner, complete]
    exact checked_ag st e h _ path _ _ hi (Or.inl rfl)
theorem inners_complete (st : Store) (e : Env σ) (h : Hdr) (kids : Kids) (sub : Sub) (I : GVal → List Nat → Prop)
    (hi : included e h = true)
    (hI : ∀ l dp (i : Nat) v, I (.list l) dp → l[i]? = some v → I v (dp ++ [i]))
    (hk : ∀ kvs dp path, I (.obj kvs) dp → Ag st (kids (.obj kvs) kvs dp path).2 (sub kvs))
    (l : List GVal) (i : Nat) (dp : List Nat) (path : Path)
    (hl : ∀ (j : Nat) v, l[j]? = some v → I v (dp ++ [i + j])) :
    Ag st (inners e h kids l i dp path).2 (completes e h sub l) := by
  match l with
  | [] => exact Or.inl rfl
  | v :: r =>
    simp only [inners, completes]
    have h1 := inner_complete st e h kids sub I hi hI hk v (dp ++ [i]) (path ++ [.idx i]) (hl 0 v rfl)
    revert h1
    generalize inner e h kids v (dp ++ [i]) (path ++ [.idx i]) = q
    obtain ⟨p, y⟩ := q
    rintro (h1 | ⟨j, x, hx, h1⟩)
    · rw [← h1]
      cases y with
      | error y => exact Or.inl rfl
      | ok y =>
        have h2 := inners_complete st e h kids sub I hi hI hk r (i + 1) dp p.dropLast (fun j v hj => by
          have := hl (j + 1) v (by simpa using hj)
          have he : i + (j + 1) = i + 1 + j := by omega
          rw [he] at this; exact this)
        simp only []
        revert h2
        generalize inners e h kids r (i + 1) dp p.dropLast = q
        obtain ⟨p', z⟩ := q
        rintro (h2 | ⟨j, x, hx, h2⟩)
        · rw [← h2]
          cases z <;> exact Or.inl rfl
        · right
          simp only [] at h2
          subst h2
          exact ⟨j, x, hx, rfl⟩
    · right
      simp only [] at h1
      subst h1
      exact ⟨j, x, hx, rfl⟩
end

/-! ## Selections -/

/-- Some field in the tree of `f`, `f` included, has a resolver. -/
def HasIr (f : Field) : Prop := ∃ g, InPlan [f] g ∧ g.hdr.ir ≠ none

theorem inPlan_sub {h : Hdr} {sub : List Field} {g : Field} (hg : InPlan sub g) : InPlan [.mk h sub] g :=
  .deeper (List.mem_singleton.2 rfl) hg

theorem inPlan_mem {l : List Field} {f g : Field} (hf : f ∈ l) (hg : InPlan [f] g) : InPlan l g := by
  cases hg with
  | here hm => rw [List.mem_singleton.1 hm]; exact .here hf
  | deeper hm hg => rw [List.mem_singleton.1 hm] at hg; exact .deeper hf hg

theorem inPlan_member {l : List Field} {g : Field} (hg : InPlan l g) : ∃ f ∈ l, InPlan [f] g := by
  cases hg with
  | here hm => exact ⟨g, hm, .here (List.mem_singleton.2 rfl)⟩
  | deeper hm hg => exact ⟨_, hm, .deeper (List.mem_singleton.2 rfl) hg⟩

/-- Where a field finds the object it belongs to. -/
def Located (e : Env σ) (f : Field) (V : Option GVal) (dp : List Nat) : Option (List (Text × GVal)) → Prop
  | none => V = none ∧ dp = []
  | some kvs => partOf e f.hdr (.obj kvs) = true ∧
      (HasIr f → ∃ V', V = some V' ∧ atPos V' dp = some (.obj kvs))

mutual
theorem synthField_answer (e : Env σ) (R) (st : Store) (f : Field)
    (V : Option GVal) (hs : Stored e R st f V) (hinc : ∀ g, InPlan [f] g → included e g.hdr = true)
    (hal : PlainNames [f]) (parent : Option (List (Text × GVal))) (dp : List Nat) (path : Path)
    (hV : Located e f V dp parent) :
    Ag st (synthField e st f (parent.bind (Verif.Merge.get f.hdr.name)) dp none path).2
      (answerField e R f parent) := by
  match f with
  | .mk h sub =>
    have hself : InPlan [.mk h sub] (.mk h sub) := .here (List.mem_singleton.2 rfl)
    have hih : included e h = true := hinc _ hself
    have hkids : ∀ W : GVal, StoredAll e R st sub (some W) → ∀ kvs dp path,
        ((∃ c ∈ sub, HasIr c) → atPos W dp = some (.obj kvs)) →
        Ag st (synthKids e st sub h (.obj kvs) kvs dp path).2 (answerSel e R sub h kvs) := by
      intro W hW kvs dp path hat
      exact synthKids_answer e R st sub (some W) hW (fun g hg => hinc g (inPlan_sub hg))
        (fun g hg => hal g (inPlan_sub hg)) h kvs dp path
        (fun c hc hir => ⟨W, rfl, hat ⟨c, hc, hir⟩⟩)
    have hcomp : ∀ W : GVal, StoredAll e R st sub (some W) → ∀ v dp path,
        ((∃ c ∈ sub, HasIr c) → atPos W dp = some v) →
        Ag st (inner e h (synthKids e st sub h) v dp path).2 (complete e h (answerSel e R sub h) v) := by
      intro W hW v dp path hv
      refine inner_complete st e h _ _ (fun v dp => (∃ c ∈ sub, HasIr c) → atPos W dp = some v) hih ?_ ?_ v dp path hv
      · intro l dp i v hl hi hc
        rw [atPos_append, hl hc]
        simp [atPos, hi]
      · intro kvs dp path hk
        exact hkids W hW kvs dp path hk
    simp only [Stored] at hs
    simp only [synthField, answerField]
    cases hir : h.ir with
    | some ir =>
      rw [hir] at hs
      simp only [] at hs ⊢
      cases hW : irVal e R h V with
      | error x =>
        rw [hW] at hs
        simp only [] at hs
        rw [hs]
        exact Or.inr ⟨h.id, x, hs, rfl⟩
      | ok W =>
        rw [hW] at hs
        simp only [] at hs
        rw [hs.1]
        simp only []
        have : ∃ w, R h (parent.map .obj) = .ok w ∧ atPos W dp = some w := by
          cases parent with
          | none =>
            obtain ⟨rfl, rfl⟩ := hV
            exact ⟨W, hW, by cases W <;> rfl⟩
          | some kvs =>
            obtain ⟨hp, hV⟩ := hV
            obtain ⟨V', rfl, hat⟩ := hV ⟨_, hself, by simp [Field.hdr, hir]⟩
            exact irVal_at hat hp hW
        obtain ⟨w, hw, hat⟩ := this
        rw [hw, walk_atPos _ _ _ hat]
        simp only []
        have hc := hcomp W hs.2 w dp (path ++ [.field h.out]) (fun _ => hat)
        have ha := absent_eq h (path ++ [.field h.out])
        cases hty : h.ty with
        | named n nn =>
          rw [hty] at ha
          cases w <;> simp only [Ty.isList, isArr, popped] <;> first | exact hc | exact Or.inl ha
        | list t nn =>
          rw [hty] at ha
          cases w <;> simp only [Ty.isList, isArr, popped] <;> first | exact hc | exact Or.inl ha
    | none =>
      rw [hir] at hs
      simp only [] at hs ⊢
      rw [hs.1]
      simp only [Field.hdr]
      cases hval : parent.bind (Verif.Merge.get h.name) with
      | none => simp only [popped]; exact Or.inl (absent_eq h _)
      | some v =>
        simp only [popped]
        refine hcomp _ hs.2 v dp _ ?_
        rintro ⟨c, hc, g, hg, hgir⟩
        cases parent with
        | none => simp at hval
        | some kvs =>
          simp only [Option.bind_some] at hval
          obtain ⟨hp, hV⟩ := hV
          have hgin : InPlan sub g := inPlan_mem hc hg
          obtain ⟨V', rfl, hat⟩ := hV ⟨g, inPlan_sub hgin, hgir⟩
          have hname : h.out = h.name := by
            refine Classical.byContradiction fun hn => hgir ?_
            exact hal _ hself hir hn g hgin
          rw [plain_at h V' dp kvs hat, hname, hval]
          rfl
theorem synthKids_answer (e : Env σ) (R) (st : Store) (l : List Field)
    (V : Option GVal) (hs : StoredAll e R st l V) (hinc : ∀ g, InPlan l g → included e g.hdr = true)
    (hal : PlainNames l) (h : Hdr) (kvs : List (Text × GVal)) (dp : List Nat) (path : Path)
    (hV : ∀ c ∈ l, HasIr c → ∃ V', V = some V' ∧ atPos V' dp = some (.obj kvs)) :
    Ag st (synthKids e st l h (.obj kvs) kvs dp path).2 (answerSel e R l h kvs) := by
  match l with
  | [] => exact Or.inl rfl
  | f :: r =>
    simp only [StoredAll] at hs
    have hr := fun path => synthKids_answer e R st r V hs.2 (fun g hg => hinc g (by
        obtain ⟨c, hc, hg⟩ := inPlan_member hg
        exact inPlan_mem (List.mem_cons_of_mem _ hc) hg))
      (fun g hg => hal g (by
        obtain ⟨c, hc, hg⟩ := inPlan_member hg
        exact inPlan_mem (List.mem_cons_of_mem _ hc) hg)) h kvs dp path
      (fun c hc => hV c (List.mem_cons_of_mem _ hc))
    have hfinc := hinc f (.here (List.mem_cons_self ..))
    simp only [synthKids, answerSel, belongs_partOf, hfinc, Bool.and_true]
    by_cases hb : belongs e f.hdr kvs = true
    · simp only [hb, if_true]
      have hname : Verif.Ir.typenameField = "__typename".toList := rfl
      rw [hname]
      by_cases hn : f.hdr.name = "__typename".toList
      · rw [if_pos hn, if_pos hn, valueType_typeName]
        have hr := hr path
        revert hr
        generalize synthKids e st r h (.obj kvs) kvs dp path = q
        obtain ⟨p, y⟩ := q
        rintro (hr | ⟨i, x, hx, hr⟩)
        · rw [← hr]
          cases y <;> exact Or.inl rfl
        · simp only [] at hr
          subst hr
          exact Or.inr ⟨i, x, hx, rfl⟩
      · rw [if_neg hn, if_neg hn]
        have hf := synthField_answer e R st f V hs.1
          (fun g hg => hinc g (inPlan_mem (List.mem_cons_self ..) hg))
          (fun g hg => hal g (inPlan_mem (List.mem_cons_self ..) hg)) (some kvs) dp path
          ⟨by rw [belongs_partOf, hb], hV f (List.mem_cons_self ..)⟩
        simp only [Option.bind_some] at hf
        revert hf
        generalize synthField e st f (Verif.Merge.get f.hdr.name kvs) dp none path = q
        obtain ⟨p, y⟩ := q
        rintro (hf | ⟨i, x, hx, hf⟩)
        · rw [← hf]
          cases y with
          | error y => exact Or.inl rfl
          | ok y =>
            simp only []
            have hr := hr p
            revert hr
            generalize synthKids e st r h (.obj kvs) kvs dp p = q
            obtain ⟨p', z⟩ := q
            rintro (hr | ⟨i, x, hx, hr⟩)
            · rw [← hr]
              cases z <;> exact Or.inl rfl
            · simp only [] at hr
              subst hr
              exact Or.inr ⟨i, x, hx, rfl⟩
        · simp only [] at hf
          subst hf
          exact Or.inr ⟨i, x, hx, rfl⟩
    · simp only [hb, if_false, Bool.false_eq_true]
      exact hr path
end

theorem synthField_root (e : Env σ) (st : Store) (f : Field) (v : Option GVal) (dp : List Nat) (r : Text) (path : Path)
    (h : f.hdr.name ≠ "__typename".toList ∨ st f.hdr.id ≠ none) :
    synthField e st f v dp (some r) path = synthField e st f v dp none path := by
  match f with
  | .mk h0 sub =>
    simp only [Field.hdr] at h
    simp only [synthField]
    cases hst : st h0.id with
    | some q => cases q <;> rfl
    | none =>
      simp only []
      cases v with
      | some v => rfl
      | none =>
        have hn : h0.name ≠ Verif.Ir.typenameField := by
          rcases h with h | h
          · exact h
          · exact absurd hst h
        simp [guard, hn]

/-- Specification: an object with one key set, an existing key keeping its place. -/
def putKey (acc : List (Text × GVal)) (p : Text × GVal) : List (Text × GVal) :=
  if acc.any (fun q => q.1 = p.1) then acc.map (fun q => if q.1 = p.1 then p else q) else acc ++ [p]

theorem get_any (k : Text) (acc : List (Text × GVal)) :
    (Verif.Merge.get k acc).isSome = acc.any (fun q => q.1 = k) := by
  induction acc with
  | nil => rfl
  | cons a r ih =>
    obtain ⟨k', v⟩ := a
    simp only [Verif.Merge.get, List.any_cons]
    by_cases hk : k' = k <;> simp [hk, ih]

theorem setKey_map (k : Text) (v : GVal) (acc : List (Text × GVal)) (hnd : (acc.map (·.1)).Nodup) :
    Verif.Merge.setKey k v acc = acc.map (fun q => if q.1 = k then (k, v) else q) := by
  induction acc with
  | nil => rfl
  | cons a r ih =>
    obtain ⟨k', v'⟩ := a
    simp only [List.map_cons, List.nodup_cons] at hnd
    simp only [Verif.Merge.setKey, List.map_cons]
    by_cases hk : k' = k
    · simp only [hk, if_true]
      congr 1
      have : ∀ q ∈ r, q.1 ≠ k := by
        intro q hq he
        exact hnd.1 (List.mem_map.2 ⟨q, hq, by rw [he, hk]⟩)
      conv => lhs; rw [← List.map_id r]
      apply List.map_congr_left
      intro q hq
      simp [this q hq]
    · simp only [hk, if_false]
      rw [ih hnd.2]

theorem insertKey_put (k : Text) (v : GVal) (acc : List (Text × GVal)) (hnd : (acc.map (·.1)).Nodup) :
    Verif.Ir.insertKey k v acc = putKey acc (k, v) := by
  unfold Verif.Ir.insertKey putKey
  have := get_any k acc
  cases hg : Verif.Merge.get k acc with
  | none => rw [hg] at this; simp only [← this, Option.isSome, Bool.false_eq_true, if_false]
  | some w => rw [hg] at this; simp only [← this, Option.isSome, if_true]; exact setKey_map k v acc hnd

theorem putKey_nodup (acc : List (Text × GVal)) (p : Text × GVal) (hnd : (acc.map (·.1)).Nodup) :
    ((putKey acc p).map (·.1)).Nodup := by
  unfold putKey
  split
  · have : (acc.map (fun q => if q.1 = p.1 then p else q)).map (·.1) = acc.map (·.1) := by
      rw [List.map_map]
      apply List.map_congr_left
      intro q _
      simp only [Function.comp]
      split <;> rename_i hq
      · exact hq.symm
      · rfl
    rw [this]; exact hnd
  · rename_i hany
    rw [List.map_append, List.nodup_append]
    refine ⟨hnd, by simp, ?_⟩
    intro a ha b hb hab
    simp only [List.map_cons, List.map_nil, List.mem_singleton] at hb
    obtain ⟨q, hq, rfl⟩ := List.mem_map.1 ha
    exact hany (List.any_eq_true.2 ⟨q, hq, by simp [hab, hb]⟩)

theorem synthRoots_answer (e : Env σ) (R) (st : Store) (root : Text)
    (l : List Field) (hs : StoredAll e R st l none) (hinc : ∀ g, InPlan l g → included e g.hdr = true)
    (hal : PlainNames l) (path : Path) (acc : List (Text × GVal)) (hnd : (acc.map (·.1)).Nodup) :
    Ag st (synthRoots e st root l path acc) ((answerRoots e R root l).map (fun fs => fs.foldl putKey acc)) := by
  induction l generalizing path acc with
  | nil => exact Or.inl rfl
  | cons f r ih =>
    simp only [StoredAll] at hs
    have hr := fun path acc => ih hs.2 (fun g hg => hinc g (by
        obtain ⟨c, hc, hg⟩ := inPlan_member hg
        exact inPlan_mem (List.mem_cons_of_mem _ hc) hg))
      (fun g hg => hal g (by
        obtain ⟨c, hc, hg⟩ := inPlan_member hg
        exact inPlan_mem (List.mem_cons_of_mem _ hc) hg)) path acc
    have hfinc := hinc f (.here (List.mem_cons_self ..))
    simp only [synthRoots, answerRoots, hfinc, if_true]
    have hstep : Ag st (synthField e st f none [] (some root) path).2 (answerRoot e R root f) := by
      unfold answerRoot
      by_cases hc : f.hdr.name = "__typename".toList ∧ f.hdr.ir.isNone
      · rw [if_pos hc]
        match f, hs.1, hc with
        | .mk h sub, hs, hc =>
          simp only [Field.hdr] at hc
          simp only [Stored] at hs
          have hir : h.ir = none := by simpa using hc.2
          rw [hir] at hs
          simp only [synthField, hs.1]
          have : h.name = Verif.Ir.typenameField := hc.1
          left
          simp [popped, guard, this, kinds]
      · rw [if_neg hc]
        rw [synthField_root]
        · exact synthField_answer e R st f none hs.1
            (fun g hg => hinc g (inPlan_mem (List.mem_cons_self ..) hg))
            (fun g hg => hal g (inPlan_mem (List.mem_cons_self ..) hg)) none [] path ⟨rfl, rfl⟩
        · by_cases hn : f.hdr.name = "__typename".toList
          · right
            match f, hs.1, hc, hn with
            | .mk h sub, hs, hc, hn =>
              simp only [Field.hdr] at hc hn ⊢
              simp only [Stored] at hs
              cases hir : h.ir with
              | none => exact absurd ⟨hn, by simp [hir]⟩ hc
              | some ir =>
                rw [hir] at hs
                simp only [] at hs
                cases hW : irVal e R h none with
                | error x => rw [hW] at hs; simp only [] at hs; simp [hs]
                | ok x => rw [hW] at hs; simp only [] at hs; simp [hs.1]
          · exact Or.inl hn
    revert hstep
    generalize synthField e st f none [] (some root) path = q
    obtain ⟨p, y⟩ := q
    rintro (hf | ⟨i, x, hx, hf⟩)
    · rw [← hf]
      cases y with
      | error y => exact Or.inl rfl
      | ok y =>
        simp only []
        rw [insertKey_put _ _ _ hnd]
        have hr := hr p _ (putKey_nodup _ (f.hdr.out, y) hnd)
        rcases hr with hr | hr
        · left
          rw [hr]
          rcases answerRoots e R root r with _ | z <;> rfl
        · exact Or.inr hr
    · simp only [] at hf
      subst hf
      exact Or.inr ⟨i, x, hx, rfl⟩

/-! ## Where errors come from -/

/-- Some call of a resolver of the plan failed with `x`. -/
def Failed (R : Hdr → Option GVal → Res) (sel : List Field) (x : Verif.Ir.Err) : Prop :=
  ∃ f v, InPlan sel f ∧ R f.hdr v = .error x

mutual
theorem mapRef_error (g : GVal → Res) (v : GVal) (x : Verif.Ir.Err)
    (h : (mapRef (fun (_ : Unit) x => ((), g x)) () v).2 = .error x) : ∃ u, g u = .error x := by
  match v with
  | .list l =>
    simp only [mapRef] at h
    refine mapRefs_error g l x ?_
    revert h
    rcases mapRefs (fun (_ : Unit) x => ((), g x)) () l with ⟨s, _ | y⟩ <;> simp
  | .null | .bool _ | .int _ | .float _ | .str _ | .enum _ | .obj _ =>
    simp only [mapRef] at h
    exact ⟨_, h⟩
theorem mapRefs_error (g : GVal → Res) (l : List GVal) (x : Verif.Ir.Err)
    (h : (mapRefs (fun (_ : Unit) x => ((), g x)) () l).2 = .error x) : ∃ u, g u = .error x := by
  match l with
  | [] => simp [mapRefs] at h
  | v :: r =>
    simp only [mapRefs] at h
    have h1 := mapRef_error g v x
    have h2 := mapRefs_error g r x
    revert h h1
    generalize mapRef (fun (_ : Unit) x => ((), g x)) () v = q
    obtain ⟨⟨⟩, y⟩ := q
    cases y with
    | error y => intro h h1; simp only [] at h; injection h with h; exact h1 (by rw [h])
    | ok y =>
      simp only []
      revert h2
      rcases mapRefs (fun (_ : Unit) x => ((), g x)) () r with ⟨⟨⟩, _ | z⟩
      · intro h2 h _; simp only [] at h h2; exact h2 h
      · intro _ h; simp at h
end

theorem irVal_error {e : Env σ} {R : Hdr → Option GVal → Res} {h : Hdr} {V : Option GVal} {x : Verif.Ir.Err}
    (hx : irVal e R h V = .error x) : ∃ v, R h v = .error x := by
  have hcall : ∀ v, callR R h v = .error x → ∃ v, R h v = .error x := by
    intro v hv
    cases v <;> simp only [callR] at hv <;> first | (simp at hv; done) | exact ⟨_, hv⟩
  cases V with
  | none => exact ⟨none, hx⟩
  | some v =>
    cases v with
    | list l =>
      simp only [irVal] at hx
      obtain ⟨u, hu⟩ := mapRef_error (fun x => if partOf e h x then callR R h x else .ok .null) _ _ hx
      split at hu
      · exact hcall _ hu
      · simp at hu
    | _ => simp only [irVal] at hx; exact hcall _ hx

mutual
theorem execField_failed {e : Env σ} {R} (hR : Stable e R) (f : Field) (V : Option GVal) (q : σ × Store) (i : Nat)
    (x : Verif.Ir.Err) (h : (execField e f V q).2 i = some (.error x)) :
    q.2 i = some (.error x) ∨ Failed R [f] x := by
  match f, q with
  | .mk h0 sub, (s, st) =>
    have hself : InPlan [.mk h0 sub] (.mk h0 sub) := .here (List.mem_singleton.2 rfl)
    simp only [execField] at h
    cases hir : h0.ir with
    | none =>
      rw [hir] at h
      simp only [] at h
      rcases execAll_failed hR sub _ (s, st) i x h with h | ⟨g, v, hg, hv⟩
      · exact Or.inl h
      · exact Or.inr ⟨g, v, inPlan_sub hg, hv⟩
    | some ir =>
      rw [hir] at h
      simp only [] at h
      have hv := execIr_stable hR h0 s V
      revert h hv
      generalize execIr e h0 s V = q
      obtain ⟨s', r⟩ := q
      cases r with
      | error y =>
        intro h hv
        simp only [Store.set] at h
        split at h
        · injection h with h
          injection h with h
          subst h
          obtain ⟨v, hv⟩ := irVal_error hv.symm
          exact Or.inr ⟨_, v, hself, hv⟩
        · exact Or.inl h
      | ok y =>
        intro h hv
        simp only [Store.set] at h
        split at h
        · simp at h
        · rcases execAll_failed hR sub _ (s', st) i x h with h | ⟨g, v, hg, hv⟩
          · exact Or.inl h
          · exact Or.inr ⟨g, v, inPlan_sub hg, hv⟩
theorem execAll_failed {e : Env σ} {R} (hR : Stable e R) (l : List Field) (V : Option GVal) (q : σ × Store) (i : Nat)
    (x : Verif.Ir.Err) (h : (execAll e l V q).2 i = some (.error x)) :
    q.2 i = some (.error x) ∨ Failed R l x := by
  match l with
  | [] => exact Or.inl h
  | f :: r =>
    simp only [execAll] at h
    rcases execAll_failed hR r V _ i x h with h | ⟨g, v, hg, hv⟩
    · rcases execField_failed hR f V q i x h with h | ⟨g, v, hg, hv⟩
      · exact Or.inl h
      · exact Or.inr ⟨g, v, inPlan_mem (List.mem_cons_self ..) hg, hv⟩
    · obtain ⟨c, hc, hg⟩ := inPlan_member hg
      exact Or.inr ⟨g, v, inPlan_mem (List.mem_cons_of_mem _ hc) hg, hv⟩
end

end Verif.Exec
