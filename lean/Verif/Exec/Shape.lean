import Verif.Exec.Props

/-!
# C38: null and list rules of the response, and C37: the keys of its objects
-/

namespace Verif.Exec

open Verif.Mustache (Text)
open Verif.HttpUrl (GVal)
open Verif.Ir (IR Res)
open Verif.Plan (skipField)

set_option linter.unusedSimpArgs false

variable {σ : Type}

/-! ## Specification -/

/-- A type that excludes null. -/
def Ty.NonNull : Ty → Prop
  | .named _ b => b = true
  | .list _ b => b = true

/-- The type of the items of a list; of a single value, its own type. -/
def Ty.item : Ty → Ty
  | .list t _ => t
  | t => t

/-- `P` holds of every field of a response and `Q` of every item of its lists.  The objects have the
output names of fields of the selection, in its order, and of all those that no fragment guards. -/
inductive Deep (P Q : Field → GVal → Prop) : Field → GVal → Prop where
  | copied {f v} : f.hdr.scalar.isSome ∨ f.hdr.isEnum = true → Deep P Q f v
  | atom {f v} : (∀ l, v ≠ .list l) → (∀ k, v ≠ .obj k) → Deep P Q f v
  | list {f l} : (∀ v, v ∈ l → Q f v) → (∀ v, v ∈ l → Deep P Q f v) → Deep P Q f (.list l)
  | obj {f} (ps : List (Field × GVal)) : (ps.map (·.1)).Sublist f.sub →
      (∀ g, g ∈ f.sub → g.hdr.tc = none → g ∈ ps.map (·.1)) →
      (∀ p, p ∈ ps → P p.1 p.2) → (∀ p, p ∈ ps → Deep P Q p.1 p.2) →
      Deep P Q f (.obj (ps.map (fun p => (p.1.hdr.out, p.2))))

/-- What holds of a field of a response: null only if the type allows it — for a list without
resolver, if its items may be null; and a resolver of a list type gives a list, of another type
none. -/
def FieldRule (f : Field) (v : GVal) : Prop :=
  f.hdr.name = "__typename".toList ∨
  ((v = .null → ¬ f.hdr.ty.NonNull ∨ (f.hdr.ir = none ∧ ¬ f.hdr.ty.item.NonNull)) ∧
   (f.hdr.ir ≠ none → v ≠ .null → ((∃ t b, f.hdr.ty = .list t b) ↔ ∃ l, v = .list l)))

/-- What holds of an item of a list: null only if the items may be null. -/
def ItemRule (f : Field) (v : GVal) : Prop := v = .null → ¬ f.hdr.ty.item.NonNull

/-! ## Proof -/

/-- What a selection gives for an object. -/
def Obj (f : Field) (fs : List (Text × GVal)) : Prop :=
  ∃ ps : List (Field × GVal), fs = ps.map (fun p => (p.1.hdr.out, p.2)) ∧ (ps.map (·.1)).Sublist f.sub ∧
    (∀ g, g ∈ f.sub → g.hdr.tc = none → g ∈ ps.map (·.1)) ∧ (∀ p, p ∈ ps → FieldRule p.1 p.2) ∧
    (∀ p, p ∈ ps → Deep FieldRule ItemRule p.1 p.2)

theorem absent_ok {t : Ty} {w : GVal} (h : absent t = .ok w) : w = .null ∧ ¬ t.NonNull := by
  unfold absent at h
  split at h
  · cases h
  · cases h
  · rename_i h1 h2
    simp only [Except.ok.injEq] at h
    refine ⟨h.symm, ?_⟩
    cases t with
    | named n b => cases b <;> simp_all [Ty.NonNull]
    | list n b => cases b <;> simp_all [Ty.NonNull]

theorem nullData_ok {t : Ty} {w : GVal} (h : nullData t = .ok w) : w = .null ∧ ¬ t.item.NonNull := by
  cases t with
  | named n b => exact absent_ok h
  | list t b => exact absent_ok h

theorem leafRule_ok {e : Env σ} {h : Hdr} {v w : GVal} (hl : leafRule e h v = some (.ok w)) :
    w = v ∧ (h.scalar.isSome ∨ h.isEnum = true) := by
  unfold leafRule at hl
  split at hl
  · rename_i k _ hk
    simp only [Option.some.injEq] at hl
    split at hl
    · simp only [Except.ok.injEq] at hl; exact ⟨hl.symm, by simp [hk]⟩
    · cases hl
  · rename_i hk he
    simp only [Option.some.injEq] at hl
    split at hl
    · simp only [Except.ok.injEq] at hl; exact ⟨hl.symm, by simp [he]⟩
    · cases hl
  · cases hl

mutual
theorem complete_deep (e : Env σ) (f : Field) (sub : Sub) (hsub : ∀ kvs fs, sub kvs = .ok fs → Obj f fs)
    (v w : GVal) (h : complete e f.hdr sub v = .ok w) :
    Deep FieldRule ItemRule f w ∧ ItemRule f w ∧ (isArr w = isArr v) ∧ (w = .null → v = .null) := by
  match v with
  | .null =>
    obtain ⟨rfl, hn⟩ := nullData_ok h
    exact ⟨.atom (by simp) (by simp), fun _ => hn, rfl, fun _ => rfl⟩
  | .obj kvs =>
    simp only [complete] at h
    cases hl : leafRule e f.hdr (.obj kvs) with
    | some r =>
      rw [hl] at h
      simp only [] at h
      subst h
      obtain ⟨rfl, hc⟩ := leafRule_ok hl
      exact ⟨.copied hc, fun h => (by cases h), rfl, fun h => (by cases h)⟩
    | none =>
      rw [hl] at h
      simp only [] at h
      cases hs : sub kvs with
      | error x => rw [hs] at h; cases h
      | ok fs =>
        rw [hs] at h
        simp only [Except.map, Except.ok.injEq] at h
        subst h
        obtain ⟨ps, rfl, h1, h2, h3, h4⟩ := hsub kvs fs hs
        exact ⟨.obj ps h1 h2 h3 h4, fun h => (by cases h), rfl, fun h => (by cases h)⟩
  | .list l =>
    simp only [complete] at h
    cases hl : leafRule e f.hdr (.list l) with
    | some r =>
      rw [hl] at h
      simp only [] at h
      subst h
      obtain ⟨rfl, hc⟩ := leafRule_ok hl
      exact ⟨.copied hc, fun h => (by cases h), rfl, fun h => (by cases h)⟩
    | none =>
      rw [hl] at h
      simp only [] at h
      have hall := completes_deep e f sub hsub l
      cases hs : completes e f.hdr sub l with
      | error x => rw [hs] at h; cases h
      | ok l' =>
        rw [hs] at h
        simp only [Except.map, Except.ok.injEq] at h
        subst h
        have := hall l' hs
        exact ⟨.list (fun v hv => (this v hv).2) (fun v hv => (this v hv).1), fun h => (by cases h), rfl,
          fun h => (by cases h)⟩
  | .bool _ | .int _ | .float _ | .str _ | .enum _ =>
    simp only [complete] at h
    split at h
    · rename_i r hl
      subst h
      obtain ⟨rfl, hc⟩ := leafRule_ok hl
      exact ⟨.copied hc, fun h => (by cases h), rfl, fun h => (by cases h)⟩
    · simp only [Except.ok.injEq] at h
      subst h
      exact ⟨.atom (by simp) (by simp), fun h => (by cases h), rfl, fun h => (by cases h)⟩
theorem completes_deep (e : Env σ) (f : Field) (sub : Sub) (hsub : ∀ kvs fs, sub kvs = .ok fs → Obj f fs)
    (l l' : List GVal) (h : completes e f.hdr sub l = .ok l') :
    ∀ w, w ∈ l' → Deep FieldRule ItemRule f w ∧ ItemRule f w := by
  match l with
  | [] => simp only [completes, Except.ok.injEq] at h; subst h; intro w hw; cases hw
  | v :: r =>
    simp only [completes] at h
    have h1 := complete_deep e f sub hsub v
    have h2 := completes_deep e f sub hsub r
    cases hv : complete e f.hdr sub v with
    | error x => rw [hv] at h; cases h
    | ok v' =>
      rw [hv] at h
      cases hr : completes e f.hdr sub r with
      | error x => rw [hr] at h; cases h
      | ok r' =>
        rw [hr] at h
        simp only [bind, Except.bind, pure, Except.pure, Except.ok.injEq] at h
        subst h
        intro w hw
        rcases List.mem_cons.1 hw with rfl | hw
        · exact ⟨(h1 _ hv).1, (h1 _ hv).2.1⟩
        · exact h2 r' hr w hw
end

mutual
theorem answerField_rule (e : Env σ) (R : Hdr → Option GVal → Res) (f : Field)
    (parent : Option (List (Text × GVal))) (w : GVal) (h : answerField e R f parent = .ok w) :
    FieldRule f w ∧ Deep FieldRule ItemRule f w := by
  match f with
  | .mk h0 sub =>
    have hsub : ∀ kvs fs, answerSel e R sub h0 kvs = .ok fs → Obj (.mk h0 sub) fs :=
      fun kvs fs hh => answerSel_obj e R sub h0 kvs fs hh
    have hc := complete_deep e (.mk h0 sub) (answerSel e R sub h0) hsub
    have hatom : Deep FieldRule ItemRule (.mk h0 sub) .null := .atom (by simp) (by simp)
    simp only [answerField] at h
    cases hir : h0.ir with
    | none =>
      rw [hir] at h
      simp only [] at h
      cases hg : parent.bind (Verif.Merge.get h0.name) with
      | none =>
        rw [hg] at h
        obtain ⟨rfl, hn⟩ := absent_ok h
        exact ⟨Or.inr ⟨fun _ => Or.inl hn, fun hx => absurd hir hx⟩, hatom⟩
      | some v =>
        rw [hg] at h
        obtain ⟨h1, h2, -, -⟩ := hc v w h
        exact ⟨Or.inr ⟨fun hw => Or.inr ⟨hir, h2 hw⟩, fun hx => absurd hir hx⟩, h1⟩
    | some ir =>
      rw [hir] at h
      simp only [] at h
      cases hr : R h0 (parent.map .obj) with
      | error x => rw [hr] at h; cases h
      | ok v =>
        rw [hr] at h
        simp only [] at h
        split at h
        · rename_i t b l hty
          obtain ⟨h1, h2, h3, h4⟩ := hc _ w h
          refine ⟨Or.inr ⟨fun hw => absurd (h4 hw) (by simp), fun _ _ => ?_⟩, h1⟩
          simp only [Field.hdr]
          constructor
          · intro _
            cases w <;> simp [isArr] at h3
            exact ⟨_, rfl⟩
          · intro _; exact ⟨t, b, hty⟩
        · obtain ⟨rfl, hn⟩ := absent_ok h
          exact ⟨Or.inr ⟨fun _ => Or.inl hn, fun _ hx => absurd rfl hx⟩, hatom⟩
        · rename_i v _ _ n b hty hv
          obtain ⟨h1, h2, h3, h4⟩ := hc _ w h
          refine ⟨Or.inr ⟨fun hw => Or.inl ?_, fun _ _ => ?_⟩, h1⟩
          · have := h2 hw
            simp only [Field.hdr, hty, Ty.item] at this ⊢
            exact this
          · simp only [Field.hdr, hty]
            constructor
            · rintro ⟨_, _, hx⟩; cases hx
            · rintro ⟨l, rfl⟩
              cases hvv : v <;> rw [hvv] at h3 <;> simp [isArr] at h3
              exact (hv _ hvv).elim
        · obtain ⟨rfl, hn⟩ := absent_ok h
          exact ⟨Or.inr ⟨fun _ => Or.inl hn, fun _ hx => absurd rfl hx⟩, hatom⟩
theorem answerSel_obj (e : Env σ) (R : Hdr → Option GVal → Res) (l : List Field) (h0 : Hdr)
    (kvs : List (Text × GVal)) (fs : List (Text × GVal)) (h : answerSel e R l h0 kvs = .ok fs) :
    ∃ ps : List (Field × GVal), fs = ps.map (fun p => (p.1.hdr.out, p.2)) ∧ (ps.map (·.1)).Sublist l ∧
      (∀ g, g ∈ l → g.hdr.tc = none → g ∈ ps.map (·.1)) ∧ (∀ p, p ∈ ps → FieldRule p.1 p.2) ∧
      (∀ p, p ∈ ps → Deep FieldRule ItemRule p.1 p.2) := by
  match l with
  | [] =>
    simp only [answerSel, Except.ok.injEq] at h
    subst h
    exact ⟨[], rfl, List.Sublist.refl _, by simp, by simp, by simp⟩
  | f :: r =>
    have h1 := answerField_rule e R f (some kvs)
    have h2 := answerSel_obj e R r h0 kvs
    simp only [answerSel] at h
    by_cases hb : belongs e f.hdr kvs = true
    · rw [if_pos hb] at h
      have hx : ∀ x rest, FieldRule f x → Deep FieldRule ItemRule f x → answerSel e R r h0 kvs = .ok rest →
          fs = (f.hdr.out, x) :: rest →
          ∃ ps : List (Field × GVal), fs = ps.map (fun p => (p.1.hdr.out, p.2)) ∧
            (ps.map (·.1)).Sublist (f :: r) ∧
            (∀ g, g ∈ f :: r → g.hdr.tc = none → g ∈ ps.map (·.1)) ∧ (∀ p, p ∈ ps → FieldRule p.1 p.2) ∧
            (∀ p, p ∈ ps → Deep FieldRule ItemRule p.1 p.2) := by
        intro x rest hx1 hx2 hrest hfs
        obtain ⟨ps, hps, g1, g2, g3, g4⟩ := h2 rest hrest
        refine ⟨(f, x) :: ps, by simp [hfs, hps], by simpa using g1.cons_cons f, ?_, ?_, ?_⟩
        · intro g hg htc
          rcases List.mem_cons.1 hg with rfl | hg
          · simp
          · exact List.mem_cons_of_mem _ (g2 g hg htc)
        · intro p hp
          rcases List.mem_cons.1 hp with rfl | hp
          · exact hx1
          · exact g3 p hp
        · intro p hp
          rcases List.mem_cons.1 hp with rfl | hp
          · exact hx2
          · exact g4 p hp
      by_cases hn : f.hdr.name = "__typename".toList
      · simp only [if_pos hn, bind, Except.bind] at h
        cases hr : answerSel e R r h0 kvs with
        | error y => rw [hr] at h; cases h
        | ok rest =>
          rw [hr] at h
          simp only [pure, Except.pure, Except.ok.injEq] at h
          exact hx _ rest (Or.inl hn) (.atom (by simp) (by simp)) hr h.symm
      · simp only [if_neg hn, bind, Except.bind] at h
        cases ha : answerField e R f (some kvs) with
        | error y => rw [ha] at h; cases h
        | ok x =>
          rw [ha] at h
          simp only [] at h
          cases hr : answerSel e R r h0 kvs with
          | error y => rw [hr] at h; cases h
          | ok rest =>
            rw [hr] at h
            simp only [pure, Except.pure, Except.ok.injEq] at h
            exact hx _ rest (h1 x ha).1 (h1 x ha).2 hr h.symm
    · rw [if_neg hb] at h
      obtain ⟨ps, hps, g1, g2, g3, g4⟩ := h2 fs h
      refine ⟨ps, hps, g1.cons f, ?_, g3, g4⟩
      intro g hg htc
      rcases List.mem_cons.1 hg with rfl | hg
      · exact absurd (by simp [belongs, htc]) hb
      · exact g2 g hg htc
end

theorem answerRoots_rule (e : Env σ) (R : Hdr → Option GVal → Res) (root : Text) (sel : List Field)
    (fs : List (Text × GVal)) (h : answerRoots e R root sel = .ok fs) :
    ∃ ps : List (Field × GVal), fs = ps.map (fun p => (p.1.hdr.out, p.2)) ∧ ps.map (·.1) = sel ∧
      (∀ p, p ∈ ps → FieldRule p.1 p.2) ∧ (∀ p, p ∈ ps → Deep FieldRule ItemRule p.1 p.2) := by
  induction sel generalizing fs with
  | nil =>
    simp only [answerRoots, Except.ok.injEq] at h
    subst h
    exact ⟨[], rfl, rfl, by simp, by simp⟩
  | cons f r ih =>
    simp only [answerRoots, bind, Except.bind] at h
    cases ha : answerRoot e R root f with
    | error y => rw [ha] at h; cases h
    | ok x =>
      rw [ha] at h
      simp only [] at h
      cases hr : answerRoots e R root r with
      | error y => rw [hr] at h; cases h
      | ok rest =>
        rw [hr] at h
        simp only [pure, Except.pure, Except.ok.injEq] at h
        obtain ⟨ps, hps, g1, g2, g3⟩ := ih rest hr
        have hx : FieldRule f x ∧ Deep FieldRule ItemRule f x := by
          unfold answerRoot at ha
          split at ha
          · rename_i hn
            simp only [Except.ok.injEq] at ha
            subst ha
            exact ⟨Or.inl hn.1, .atom (by simp) (by simp)⟩
          · exact answerField_rule e R f none x ha
        refine ⟨(f, x) :: ps, by simp [← h, hps], by simp [g1], ?_, ?_⟩
        · intro p hp
          rcases List.mem_cons.1 hp with rfl | hp
          · exact hx.1
          · exact g2 p hp
        · intro p hp
          rcases List.mem_cons.1 hp with rfl | hp
          · exact hx.2
          · exact g3 p hp

theorem toObject_nodup (l : List (Text × GVal)) (h : (l.map (·.1)).Nodup) : toObject l = l := by
  have key : ∀ (l acc : List (Text × GVal)), ((acc ++ l).map (·.1)).Nodup → l.foldl putKey acc = acc ++ l := by
    intro l
    induction l with
    | nil => intro acc _; simp
    | cons p r ih =>
      intro acc h
      have hp : putKey acc p = acc ++ [p] := by
        unfold putKey
        rw [if_neg]
        simp only [List.map_append, List.map_cons, List.nodup_append, List.mem_cons] at h
        simp only [List.any_eq_true, not_exists, not_and, decide_eq_true_eq]
        intro q hq heq
        exact h.2.2 q.1 (List.mem_map.2 ⟨q, hq, rfl⟩) p.1 (Or.inl rfl) heq
      rw [List.foldl_cons, hp, ih (acc ++ [p]) (by simpa using h)]
      simp
  exact (key l [] (by simpa using h)).trans (List.nil_append l)

/-! ## The theorems -/

/-- C37: a response has the output names of the root fields, once each and in order, when these
names differ; and inside, every object has the output names of fields of its selection, in order,
and every field that no fragment guards is there.  C38: every field in it obeys `FieldRule` and
every item of a list `ItemRule`.  Partial: `FieldRule` is weaker than the type for fields without
resolver, and the nested lists of a list type all count as its items. -/
theorem C38_null_and_list_rules_partial (e : Env σ) (R : Hdr → Option GVal → Res) (hR : Stable e R) (root : Text)
    (sel : List Field) (s : σ) (hids : ((dfs sel).map Hdr.id).Nodup)
    (hinc : ∀ f, InPlan sel f → skipField e.vars f.hdr.skip f.hdr.incl = false) (hnames : PlainNames sel)
    (hout : (sel.map (fun f => f.hdr.out)).Nodup) (v : GVal) (hv : run e root sel s = .ok v) :
    ∃ ps : List (Field × GVal), v = .obj (ps.map (fun p => (p.1.hdr.out, p.2))) ∧ ps.map (·.1) = sel ∧
      (∀ p, p ∈ ps → FieldRule p.1 p.2) ∧ (∀ p, p ∈ ps → Deep FieldRule ItemRule p.1 p.2) := by
  have h := C37_success_is_reference e R hR root sel s hids hinc hnames v hv
  unfold answer at h
  cases ha : answerRoots e R root sel with
  | error y => rw [ha] at h; cases h
  | ok fs =>
    rw [ha] at h
    simp only [Except.map, Except.ok.injEq] at h
    subst h
    obtain ⟨ps, hps, g1, g2, g3⟩ := answerRoots_rule e R root sel fs ha
    refine ⟨ps, ?_, g1, g2, g3⟩
    rw [toObject_nodup, hps]
    rw [hps]
    subst g1
    simpa [List.map_map, Function.comp_def] using hout

/-- The rule on a field with a resolver is that of GraphQL. -/
theorem C38_resolver_field (f : Field) (v : GVal) (h : FieldRule f v) (hir : f.hdr.ir ≠ none)
    (hn : f.hdr.name ≠ "__typename".toList) :
    (f.hdr.ty.NonNull → v ≠ .null) ∧
    ((∃ t b, f.hdr.ty = .list t b) → v = .null ∨ ∃ l, v = .list l) := by
  rcases h with h | ⟨h1, h2⟩
  · exact absurd h hn
  · refine ⟨fun hnn hv => ?_, fun hl => ?_⟩
    · rcases h1 hv with h | ⟨h, _⟩
      · exact h hnn
      · exact hir h
    · by_cases hv : v = .null
      · exact Or.inl hv
      · exact Or.inr ((h2 hir hv).1 hl)

/-- So is the rule on a field of a single value. -/
theorem C38_named_field (f : Field) (v : GVal) (h : FieldRule f v) (n : Text) (hty : f.hdr.ty = .named n true)
    (hn : f.hdr.name ≠ "__typename".toList) : v ≠ .null := by
  rcases h with h | ⟨h1, _⟩
  · exact absurd h hn
  · intro hv
    rcases h1 hv with h | ⟨_, h⟩ <;> simp [hty, Ty.NonNull, Ty.item] at h

example : ∃ ps : List (Field × GVal), ps.map (·.1) = demoSel "tag" ∧ (∀ p, p ∈ ps → FieldRule p.1 p.2) ∧
    ∃ v, run demoEnv [] (demoSel "tag") 0 = .ok v ∧ v = .obj (ps.map (fun p => (p.1.hdr.out, p.2))) := by
  have hv : run demoEnv [] (demoSel "tag") 0 = .ok (obj [("users", .list
    [obj [("name", str "a"), ("up", str "a"), ("tag", obj [("upper", str "t")])],
     obj [("name", str "b"), ("up", str "b"), ("tag", .null)]])]) := by rfl
  obtain ⟨ps, h1, h2, h3, -⟩ := C38_null_and_list_rules_partial demoEnv demoR demo_stable [] (demoSel "tag") 0
    demo_meets.1 demo_meets.2.1 demo_meets.2.2 (by decide) _ hv
  exact ⟨ps, h2, h3, _, hv, h1⟩

/-- A resolver whose data is missing a required name is an error. -/
example : run demoEnv [] [fld 1 "user" "user" true opt [fld 2 "name" "name" false req []]] 0 =
    .error ⟨.valueRequired, some [.field "user".toList, .field "name".toList]⟩ := by rfl

/-! ## Where the types are not kept -/

/-- One root resolver that answers with `v`. -/
def constEnv (v : GVal) : Env Nat := { demoEnv with resolve := fun n _ _ => (n, .ok v) }

/-- `{ user { tags } }` where `tags` has no resolver. -/
def tagsOf (ty : Ty) : List Field := [fld 1 "user" "user" true opt [fld 2 "tags" "tags" false ty []]]

/-- C38 is violated by a required list without resolver whose data is null: the response has null
where `[T]!` is declared. -/
theorem C38_violated_by_plain_list :
    run (constEnv (obj [("tags", .null)])) [] (tagsOf (.list opt true)) 0 =
      .ok (obj [("user", obj [("tags", .null)])]) := rfl

/-- C38 is violated by a plain list field whose data is a single value: the response has the value
where a list is declared. -/
theorem C38_violated_by_single_value :
    run (constEnv (obj [("tags", str "x")])) [] (tagsOf (listOf opt)) 0 =
      .ok (obj [("user", obj [("tags", str "x")])]) := rfl

/-- C38 is violated by a list without resolver in a field that is no list. -/
theorem C38_violated_by_list_for_single :
    run (constEnv (obj [("tags", .list [str "x"])])) [] (tagsOf opt) 0 =
      .ok (obj [("user", obj [("tags", .list [str "x"])])]) := rfl

/-- C38 is violated by a null two lists deep: `[[T!]]` is checked against the nullability of the
inner list. -/
theorem C38_violated_by_nested_list :
    run (constEnv (.list [.list [.null]])) [] [fld 1 "rows" "rows" true (listOf (listOf req)) []] 0 =
      .ok (obj [("rows", .list [.list [.null]])]) := rfl

/-- A field of a custom scalar. -/
def scalarFld (ty : Ty) (sub : List Field) : Field :=
  .mk { (fld 1 "rows" "rows" true ty sub).hdr with scalar := some 0 } sub

/-- C38 is violated by a list of required custom scalars: the value is copied with its nulls once
the validator accepts the list as a whole. -/
theorem C38_violated_by_scalar_list :
    run (constEnv (.list [.null])) [] [scalarFld (listOf req) []] 0 = .ok (obj [("rows", .list [.null])]) := rfl

/-! ## C69: data of the declared type is not rejected -/

/-- The data has the declared type `t`, and what the selection of the field asks of it has its type:
null where it may be, lists for lists, variants for enums, single values or objects for the
rest; resolvers below succeed with data of their type. -/
inductive Typed (e : Env σ) (R : Hdr → Option GVal → Res) : Field → Ty → GVal → Prop where
  | null {f t} : ¬ t.NonNull → Typed e R f t .null
  | list {f t b l} : (∀ v, v ∈ l → Typed e R f t v) → Typed e R f (.list t b) (.list l)
  | variant {f n b s} : f.hdr.isEnum = true → e.enumOk n s = true → Typed e R f (.named n b) (.str s)
  | atom {f n b v} : f.hdr.isEnum = false → v ≠ .null → (∀ l, v ≠ .list l) → (∀ k, v ≠ .obj k) →
      Typed e R f (.named n b) v
  | object {f n b kvs} : f.hdr.isEnum = false →
      (∀ c v, c ∈ f.sub → c.hdr.ir = none → Verif.Merge.get c.hdr.name kvs = some v → Typed e R c c.hdr.ty v) →
      (∀ c, c ∈ f.sub → c.hdr.ir = none → Verif.Merge.get c.hdr.name kvs = none → ¬ c.hdr.ty.NonNull) →
      (∀ c v, c ∈ f.sub → c.hdr.ir ≠ none → R c.hdr (some (.obj kvs)) = .ok v → Typed e R c c.hdr.ty v) →
      (∀ c x, c ∈ f.sub → c.hdr.ir ≠ none → R c.hdr (some (.obj kvs)) ≠ .error x) →
      Typed e R f (.named n b) (.obj kvs)

/-- Fields whose type the synthesis handles as declared: no custom scalar, lists of one level, no
`[T!]` without resolver, and no nullable enums in lists. -/
def Plain (f : Field) : Prop :=
  f.hdr.scalar = none ∧
  ((∃ n b, f.hdr.ty = .named n b) ∨
   ∃ n b c, f.hdr.ty = .list (.named n b) c ∧ (f.hdr.ir = none → b = true → c = true) ∧
     (f.hdr.isEnum = true → b = true))

theorem not_nonNull_absent {t : Ty} (h : ¬ t.NonNull) : absent t = .ok .null := by
  cases t with
  | named n b => cases b <;> simp_all [absent, Ty.NonNull]
  | list n b => cases b <;> simp_all [absent, Ty.NonNull]

theorem leafRule_none {e : Env σ} {h : Hdr} {v : GVal} (h1 : h.scalar = none) (h2 : h.isEnum = false) :
    leafRule e h v = none := by simp [leafRule, h1, h2]

theorem completes_ok {e : Env σ} {h : Hdr} {sub : Sub} {l : List GVal}
    (hl : ∀ v, v ∈ l → ∃ w, complete e h sub v = .ok w) : ∃ l', completes e h sub l = .ok l' := by
  induction l with
  | nil => exact ⟨[], rfl⟩
  | cons v r ih =>
    obtain ⟨w, hw⟩ := hl v List.mem_cons_self
    obtain ⟨l', hl'⟩ := ih (fun u hu => hl u (List.mem_cons_of_mem _ hu))
    exact ⟨w :: l', by simp [completes, hw, hl', bind, Except.bind, pure, Except.pure]⟩

theorem answerSel_ok {e : Env σ} {R : Hdr → Option GVal → Res} {h : Hdr} {kvs : List (Text × GVal)}
    {l : List Field} (hl : ∀ c, c ∈ l → ∃ w, answerField e R c (some kvs) = .ok w) :
    ∃ fs, answerSel e R l h kvs = .ok fs := by
  induction l with
  | nil => exact ⟨[], rfl⟩
  | cons c r ih =>
    obtain ⟨w, hw⟩ := hl c List.mem_cons_self
    obtain ⟨fs, hfs⟩ := ih (fun u hu => hl u (List.mem_cons_of_mem _ hu))
    simp only [answerSel]
    split
    · split <;> simp [hw, hfs, bind, Except.bind, pure, Except.pure]
    · exact ⟨fs, hfs⟩

/-- The answer of a field from the completion of its value. -/
theorem answerField_of {e : Env σ} {R : Hdr → Option GVal → Res} {c : Field} {kvs : Option (List (Text × GVal))}
    (hmiss : c.hdr.ir = none → kvs.bind (Verif.Merge.get c.hdr.name) = none → ¬ c.hdr.ty.NonNull)
    (hok : c.hdr.ir ≠ none → ∀ x, R c.hdr (kvs.map .obj) ≠ .error x)
    (hshape : c.hdr.ir ≠ none → ∀ v, R c.hdr (kvs.map .obj) = .ok v →
      (¬ c.hdr.ty.NonNull ∧ v = .null ∧ ∃ t b, c.hdr.ty = .list t b) ∨ isArr v = c.hdr.ty.isList)
    (hval : ∀ v, (c.hdr.ir = none ∧ kvs.bind (Verif.Merge.get c.hdr.name) = some v ∨
        c.hdr.ir ≠ none ∧ R c.hdr (kvs.map .obj) = .ok v ∧ isArr v = c.hdr.ty.isList) →
      ∃ w, complete e c.hdr (answerSel e R c.sub c.hdr) v = .ok w) :
    ∃ w, answerField e R c kvs = .ok w := by
  cases c with
  | mk h sub =>
    simp only [Field.hdr, Field.sub] at *
    simp only [answerField]
    cases hir : h.ir with
    | none =>
      simp only []
      cases hg : kvs.bind (Verif.Merge.get h.name) with
      | none => exact ⟨.null, not_nonNull_absent (hmiss hir hg)⟩
      | some v => exact hval v (Or.inl ⟨hir, hg⟩)
    | some ir =>
      have hne : h.ir ≠ none := by simp [hir]
      simp only []
      cases hr : R h (kvs.map .obj) with
      | error x => exact absurd hr (hok hne x)
      | ok v =>
        simp only []
        rcases hshape hne v hr with ⟨h1, rfl, t, b, hty⟩ | harr
        · rw [hty] at h1 ⊢
          exact ⟨.null, not_nonNull_absent h1⟩
        · obtain ⟨w, hw⟩ := hval v (Or.inr ⟨hne, hr, harr⟩)
          refine ⟨w, ?_⟩
          rw [← hw]
          cases hty : h.ty with
          | named n b =>
            rw [hty] at harr
            cases v <;> simp [isArr, Ty.isList] at harr <;> rfl
          | list t b =>
            rw [hty] at harr
            cases v <;> simp [isArr, Ty.isList] at harr <;> rfl

theorem typed_completes (e : Env σ) (R : Hdr → Option GVal → Res) (f : Field) (t : Ty) (v : GVal)
    (h : Typed e R f t v) : (∀ g, InPlan [f] g → Plain g) →
    (t = f.hdr.ty ∧ (v = .null → f.hdr.ir = none ∨ ∃ n b, f.hdr.ty = .named n b) ∨
      ∃ c, f.hdr.ty = .list t c) →
    (∃ w, complete e f.hdr (answerSel e R f.sub f.hdr) v = .ok w) := by
  induction h with
  | @null f t hn =>
    intro hp ht
    obtain ⟨-, hp⟩ := hp f (.here (List.mem_singleton.2 rfl))
    refine ⟨.null, ?_⟩
    simp only [complete]
    rcases ht with ⟨rfl, ht⟩ | ⟨c, ht⟩
    · rcases hp with ⟨n, b, hty⟩ | ⟨n, b, c, hty, h1, h2⟩
      · rw [hty] at hn ⊢
        exact not_nonNull_absent hn
      · rcases ht rfl with hir | ⟨n', b', hty'⟩
        · rw [hty] at hn ⊢
          simp only [nullData]
          apply not_nonNull_absent
          intro hb
          exact hn (h1 hir hb)
        · rw [hty] at hty'; cases hty'
    · rw [ht]
      exact not_nonNull_absent hn
  | @list f t b l hl ih =>
    intro hp ht
    obtain ⟨hs, hp'⟩ := hp f (.here (List.mem_singleton.2 rfl))
    have hty : f.hdr.ty = .list t b := by
      rcases ht with ⟨ht, _⟩ | ⟨c, ht⟩
      · exact ht.symm
      · rcases hp' with ⟨n, b', hty⟩ | ⟨n, b', c', hty, -⟩
        · rw [ht] at hty; cases hty
        · rw [ht] at hty; injection hty with hty _; cases hty
    simp only [complete]
    cases he : f.hdr.isEnum with
    | false =>
      rw [leafRule_none hs he]
      obtain ⟨l', hl'⟩ := completes_ok (fun v hv => ih v hv hp (Or.inr ⟨b, hty⟩))
      exact ⟨.list l', by simp [hl', Except.map]⟩
    | true =>
      rcases hp' with ⟨n, b', hty'⟩ | ⟨n, b', c', hty', -, h2⟩
      · rw [hty] at hty'; cases hty'
      · have hb' := h2 he
        rw [hty] at hty'
        injection hty' with ht1 ht2
        have hall : l.all (isVariant e f.hdr.ty.name) = true := by
          rw [List.all_eq_true]
          intro v hv
          have hv' := hl v hv
          rw [ht1, hb'] at hv'
          cases hv' with
          | null hx => simp [Ty.NonNull] at hx
          | variant _ hx => rw [hty, ht1]; exact hx
          | atom hx _ _ _ => rw [he] at hx; cases hx
          | object hx _ _ _ _ => rw [he] at hx; cases hx
        exact ⟨.list l, by simp [leafRule, hs, he, asItems, hall]⟩
  | @variant f n b s he hv =>
    intro hp ht
    obtain ⟨hs, hp'⟩ := hp f (.here (List.mem_singleton.2 rfl))
    have hname : f.hdr.ty.name = n := by
      rcases ht with ⟨ht, _⟩ | ⟨c, ht⟩
      · rw [← ht]; rfl
      · rw [ht]; rfl
    exact ⟨.str s, by simp [complete, leafRule, hs, he, asItems, isVariant, hname, hv]⟩
  | @atom f n b v he h1 h2 h3 =>
    intro hp ht
    obtain ⟨hs, hp'⟩ := hp f (.here (List.mem_singleton.2 rfl))
    refine ⟨v, ?_⟩
    cases v with
    | null => exact absurd rfl h1
    | list l => exact absurd rfl (h2 l)
    | obj k => exact absurd rfl (h3 k)
    | _ => simp [complete, leafRule_none hs he]
  | @object f n b kvs he h1 h2 h3 h4 ih1 ih3 =>
    intro hp ht
    obtain ⟨hs, hp'⟩ := hp f (.here (List.mem_singleton.2 rfl))
    simp only [complete, leafRule_none hs he]
    have hpc : ∀ c, c ∈ f.sub → ∀ g, InPlan [c] g → Plain g :=
      fun c hc g hg => hp g (.deeper (List.mem_singleton.2 rfl) (inPlan_mem hc hg))
    obtain ⟨fs, hfs⟩ := answerSel_ok (e := e) (R := R) (h := f.hdr) (kvs := kvs) (l := f.sub) (by
      intro c hc
      refine answerField_of (fun hir hg => h2 c hc hir hg) (fun hir x => h4 c x hc hir) ?_ ?_
      · intro hir v hv
        have hty := h3 c v hc hir hv
        obtain ⟨-, hq⟩ := hpc c hc c (.here (List.mem_singleton.2 rfl))
        rcases hq with ⟨n', b', hq⟩ | ⟨n', b', c', hq, -⟩
        · right
          rw [hq] at hty ⊢
          cases hty with
          | null _ => rfl
          | variant _ _ => rfl
          | atom _ _ hx _ => cases v <;> first | rfl | exact absurd rfl (hx _)
          | object _ _ _ _ _ => rfl
        · rw [hq] at hty ⊢
          cases hty with
          | null hx => left; exact ⟨hx, rfl, _, _, rfl⟩
          | list _ => right; rfl
      · rintro v (⟨hir, hg⟩ | ⟨hir, hr, harr⟩)
        · exact ih1 c v hc hir hg (hpc c hc) (Or.inl ⟨rfl, fun _ => Or.inl hir⟩)
        · refine ih3 c v hc hir hr (hpc c hc) (Or.inl ⟨rfl, fun hv => ?_⟩)
          rw [hv] at harr
          cases hty : c.hdr.ty with
          | named n b => exact Or.inr ⟨n, b, rfl⟩
          | list t b => rw [hty] at harr; simp [isArr, Ty.isList] at harr)
    exact ⟨.obj fs, by simp [hfs, Except.map]⟩

/-- C69: resolvers that answer with data of the declared types get a response without error.
Partial: for `Plain` fields; the violations below are the reasons. -/
theorem C69_typed_data_answered_partial (e : Env σ) (R : Hdr → Option GVal → Res) (hR : Stable e R) (root : Text)
    (sel : List Field) (s : σ) (hids : ((dfs sel).map Hdr.id).Nodup)
    (hinc : ∀ f, InPlan sel f → skipField e.vars f.hdr.skip f.hdr.incl = false) (hnames : PlainNames sel)
    (hplain : ∀ f, InPlan sel f → Plain f)
    (hok : ∀ f v, InPlan sel f → ∃ x, R f.hdr v = .ok x)
    (hroot : ∀ f, f ∈ sel → f.hdr.ir ≠ none ∨ f.hdr.name = "__typename".toList)
    (htyped : ∀ f v, f ∈ sel → R f.hdr none = .ok v → Typed e R f f.hdr.ty v) :
    ∃ v, run e root sel s = .ok v := by
  have h := C37_reference_when_resolved e R hR root sel s hids hinc hnames hok
  have hroots : ∀ l : List Field, (∀ f, f ∈ l → f ∈ sel) → ∃ fs, answerRoots e R root l = .ok fs := by
    intro l
    induction l with
    | nil => intro _; exact ⟨[], rfl⟩
    | cons f r ih =>
      intro hl
      obtain ⟨fs, hfs⟩ := ih (fun g hg => hl g (List.mem_cons_of_mem _ hg))
      have hf := hl f List.mem_cons_self
      have hx : ∃ x, answerRoot e R root f = .ok x := by
        unfold answerRoot
        split
        · exact ⟨_, rfl⟩
        · rename_i hn
          have hir : f.hdr.ir ≠ none := by
            rcases hroot f hf with h | h
            · exact h
            · intro h0; exact hn ⟨h, by simp [h0]⟩
          obtain ⟨v, hv⟩ := hok f none (.here hf)
          have hty := htyped f v hf hv
          have hp : ∀ g, InPlan [f] g → Plain g := fun g hg => hplain g (inPlan_mem hf hg)
          refine answerField_of (kvs := none) (fun h0 => absurd h0 hir) (fun _ x hx => ?_) ?_ ?_
          · rw [show (Option.map GVal.obj none : Option GVal) = none from rfl, hv] at hx; cases hx
          · intro _ u hu
            rw [show (Option.map GVal.obj none : Option GVal) = none from rfl, hv] at hu
            simp only [Except.ok.injEq] at hu
            subst hu
            obtain ⟨-, hq⟩ := hp f (.here (List.mem_singleton.2 rfl))
            rcases hq with ⟨n', b', hq⟩ | ⟨n', b', c', hq, -⟩
            · right
              rw [hq] at hty ⊢
              cases hty with
              | null _ => rfl
              | variant _ _ => rfl
              | atom _ _ hx _ => cases v <;> first | rfl | exact absurd rfl (hx _)
              | object _ _ _ _ _ => rfl
            · rw [hq] at hty ⊢
              cases hty with
              | null hx => left; exact ⟨hx, rfl, _, _, rfl⟩
              | list _ => right; rfl
          · rintro u (⟨h0, _⟩ | ⟨_, hu, harr⟩)
            · exact absurd h0 hir
            · rw [show (Option.map GVal.obj none : Option GVal) = none from rfl, hv] at hu
              simp only [Except.ok.injEq] at hu
              subst hu
              refine typed_completes e R f _ v hty hp (Or.inl ⟨rfl, fun hv => ?_⟩)
              rw [hv] at harr
              cases hty : f.hdr.ty with
              | named n b => exact Or.inr ⟨n, b, rfl⟩
              | list t b => rw [hty] at harr; simp [isArr, Ty.isList] at harr
      obtain ⟨x, hx⟩ := hx
      exact ⟨(f.hdr.out, x) :: fs, by simp [answerRoots, hx, hfs, bind, Except.bind, pure, Except.pure]⟩
  obtain ⟨fs, hfs⟩ := hroots sel (fun _ h => h)
  unfold answer at h
  rw [hfs] at h
  revert h
  cases run e root sel s with
  | ok v => intro _; exact ⟨v, rfl⟩
  | error x => intro h; simp [kinds, Except.map] at h

theorem inPlan_nil {f : Field} (h : InPlan [] f) : False := by
  cases h with
  | here h => cases h
  | deeper h _ => cases h

/-- `{ rows { name tags } }` with a list of users, of which the second has nothing but a name. -/
def rowSel : List Field :=
  [fld 1 "rows" "rows" true (.list req true)
    [fld 2 "name" "name" false req [], fld 3 "tags" "tags" false (listOf opt) []]]
/-- Example data for the concrete cases below. -/
def rowData : GVal :=
  .list [obj [("name", str "a"), ("tags", .list [str "x", .null])], obj [("name", str "b"), ("tags", .null)],
    obj [("name", str "c")]]

example : ∃ v, run (constEnv rowData) [] rowSel 0 = .ok v := by
  have hmem : ∀ f, InPlan rowSel f → f.hdr ∈ dfs rowSel := fun f hf => inPlan_dfs hf
  have hall : ∀ f, InPlan rowSel f → f = rowSel[0] ∨ f ∈ rowSel[0].sub := by
    intro f hf
    cases hf with
    | here hm => exact Or.inl (by simpa [rowSel] using hm)
    | deeper hm hg =>
      have := (List.mem_singleton.1 hm)
      subst this
      cases hg with
      | here hm => exact Or.inr hm
      | deeper hm hg =>
        simp only [fld, Field.sub, List.mem_cons, List.not_mem_nil, or_false] at hm
        rcases hm with rfl | rfl <;> exact (inPlan_nil hg).elim
  have hrow : ∀ kvs, (∃ s, Verif.Merge.get "name".toList kvs = some (.str s)) →
      (∀ v, Verif.Merge.get "tags".toList kvs = some v → v = .null ∨ ∃ l, v = .list l ∧ ∀ u, u ∈ l → u = .null ∨ ∃ s, u = .str s) →
      Typed (constEnv rowData) (fun _ _ => .ok rowData) rowSel[0] req (.obj kvs) := by
    intro kvs ⟨s, hs⟩ htags
    refine .object rfl ?_ ?_ ?_ ?_
    · intro c v hc hir hg
      simp only [rowSel, fld, Field.sub, List.getElem_cons_zero, List.mem_cons, List.not_mem_nil, or_false] at hc
      rcases hc with rfl | rfl
      · rw [show (Field.hdr _).name = "name".toList from rfl, hs] at hg
        cases hg
        exact .atom rfl (by simp) (by simp) (by simp)
      · rcases htags v hg with rfl | ⟨l, rfl, hl⟩
        · exact .null (by simp [Field.hdr, listOf, Ty.NonNull])
        · refine .list ?_
          intro u hu
          rcases hl u hu with rfl | ⟨s, rfl⟩
          · exact .null (by simp [opt, Ty.NonNull])
          · exact .atom rfl (by simp) (by simp) (by simp)
    · intro c hc hir hg
      simp only [rowSel, fld, Field.sub, List.getElem_cons_zero, List.mem_cons, List.not_mem_nil, or_false] at hc
      rcases hc with rfl | rfl
      · rw [show (Field.hdr _).name = "name".toList from rfl, hs] at hg
        cases hg
      · simp [Field.hdr, listOf, Ty.NonNull]
    · intro c v hc hir
      simp only [rowSel, fld, Field.sub, List.getElem_cons_zero, List.mem_cons, List.not_mem_nil, or_false] at hc
      rcases hc with rfl | rfl <;> simp [Field.hdr] at hir
    · intro c x hc hir
      simp only [rowSel, fld, Field.sub, List.getElem_cons_zero, List.mem_cons, List.not_mem_nil, or_false] at hc
      rcases hc with rfl | rfl <;> simp [Field.hdr] at hir
  refine C69_typed_data_answered_partial (constEnv rowData) (fun _ _ => .ok rowData) (fun _ _ _ => rfl) [] rowSel 0
    (by decide) ?_ ?_ ?_ (fun _ _ _ => ⟨_, rfl⟩) ?_ ?_
  · intro f hf
    have h := hmem f hf
    simp only [rowSel, fld, dfs, dfsF, List.append_nil, List.nil_append, List.cons_append, List.mem_cons,
      List.not_mem_nil, or_false] at h
    rcases h with h | h | h <;> rw [h] <;> rfl
  · apply plainNames_of
    intro x h
    simp only [rowSel, fld, dfs, dfsF, List.append_nil, List.nil_append, List.cons_append, List.mem_cons,
      List.not_mem_nil, or_false] at h
    rcases h with h | h | h <;> rw [h] <;> simp
  · intro f hf
    rcases hall f hf with rfl | hm
    · exact ⟨rfl, Or.inr ⟨_, _, _, rfl, by simp [rowSel, fld, Field.hdr], by simp [rowSel, fld, Field.hdr]⟩⟩
    · simp only [rowSel, fld, Field.sub, List.getElem_cons_zero, List.mem_cons, List.not_mem_nil, or_false] at hm
      rcases hm with rfl | rfl
      · exact ⟨rfl, Or.inl ⟨_, _, rfl⟩⟩
      · exact ⟨rfl, Or.inr ⟨_, _, _, rfl, by simp [opt], by simp [Field.hdr]⟩⟩
  · intro f hf
    rw [show f = rowSel[0] by simpa [rowSel] using hf]
    left
    simp [rowSel, fld, Field.hdr]
  · intro f v hf hv
    rw [show f = rowSel[0] by simpa [rowSel] using hf]
    simp only [Except.ok.injEq] at hv
    subst hv
    refine .list ?_
    intro v hv
    simp only [List.mem_cons, List.not_mem_nil, or_false] at hv
    rcases hv with rfl | rfl | rfl <;> refine hrow _ ⟨_, rfl⟩ ?_
    · intro v hv
      right
      refine ⟨[str "x", .null], ?_, ?_⟩
      · have h0 : Verif.Merge.get "tags".toList [("name".toList, str "a"), ("tags".toList, .list [str "x", .null])] =
          some (.list [str "x", .null]) := rfl
        exact (Option.some.inj (h0.symm.trans hv)).symm
      · intro u hu
        simp only [List.mem_cons, List.not_mem_nil, or_false] at hu
        rcases hu with rfl | rfl
        · exact Or.inr ⟨_, rfl⟩
        · exact Or.inl rfl
    · intro v hv
      left
      exact (Option.some.inj (show some GVal.null = some v from hv)).symm
    · intro v hv
      cases hv

/-- C69 is violated by null for a nullable list of required items: `[T!]` allows null, but the
response is an error. -/
theorem C69_violated_by_null_list :
    Typed demoEnv demoR (fld 2 "tags" "tags" false (listOf req) []) (listOf req) .null ∧
    run (constEnv (obj [("tags", .null)])) [] (tagsOf (listOf req)) 0 =
      .error ⟨.valueRequired, some [.field "user".toList, .field "tags".toList]⟩ :=
  ⟨.null (by simp [listOf, Ty.NonNull]), rfl⟩

/-- A validator of texts, such as that of `Email`. -/
def textOnly (v : GVal) : Env Nat :=
  { constEnv v with scalarOk := fun _ v => match v with | .str _ => true | _ => false }

/-- C69 is violated by a list of custom scalars: the validator of the scalar is given the list. -/
theorem C69_violated_by_scalar_list :
    (textOnly .null).scalarOk 0 (str "a@b.c") = true ∧
    run (textOnly (.list [str "a@b.c"])) [] [scalarFld (listOf opt) []] 0 =
      .error ⟨.scalarInvalid, some [.field "rows".toList]⟩ := ⟨rfl, rfl⟩

/-- A field of an enum. -/
def enumFld (ty : Ty) : Field :=
  .mk { (fld 1 "rows" "rows" true ty []).hdr with isEnum := true } []

/-- C69 is violated by a null among the items of a list of enums. -/
theorem C69_violated_by_enum_list :
    Typed demoEnv demoR (enumFld (listOf opt)) (listOf opt) (.list [.null]) ∧
    run (constEnv (.list [.null])) [] [enumFld (listOf opt)] 0 =
      .error ⟨.enumInvalid, some [.field "rows".toList]⟩ := by
  refine ⟨.list ?_, rfl⟩
  intro v hv
  rw [List.mem_singleton.1 hv]
  exact .null (by simp [opt, Ty.NonNull])

/-- C69 is violated by a null two lists deep: `[[T]!]` allows it, but it is checked against the
nullability of the inner list. -/
theorem C69_violated_by_nested_list :
    Typed demoEnv demoR (fld 1 "rows" "rows" true (listOf (.list opt true)) []) (listOf (.list opt true))
      (.list [.list [.null]]) ∧
    run (constEnv (.list [.list [.null]])) [] [fld 1 "rows" "rows" true (listOf (.list opt true)) []] 0 =
      .error ⟨.valueRequired, some [.field "rows".toList, .idx 0, .idx 0]⟩ := by
  refine ⟨.list ?_, rfl⟩
  intro v hv
  rw [List.mem_singleton.1 hv]
  refine .list ?_
  intro v hv
  rw [List.mem_singleton.1 hv]
  exact .null (by simp [opt, Ty.NonNull])

end Verif.Exec
