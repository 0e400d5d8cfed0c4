import Verif.Exec.Refine

/-!
# C36, C37, C38, C69: what an executed plan answers
-/

namespace Verif.Exec

open Verif.Mustache (Text)
open Verif.HttpUrl (GVal)
open Verif.Ir (IR Res getTypeName)
open Verif.Plan (skipField)

set_option linter.unusedSimpArgs false

variable {σ : Type}

/-! ## A plan to look at -/

/-- A field of type `ty`, with a resolver if `ir`. -/
def fld (id : Nat) (name out : String) (ir : Bool) (ty : Ty) (sub : List Field) : Field :=
  .mk { id := id, name := name.toList, out := out.toList,
        ir := if ir then some (.io ⟨id, false, false⟩) else none, ty := ty, tc := none, skip := none,
        incl := none, args := [], isEnum := false, scalar := none } sub

/-- The type `T`, `T!`, and lists. -/
def opt : Ty := .named "T".toList false
/-- Example data for the concrete cases below. -/
def req : Ty := .named "T".toList true
/-- Example data for the concrete cases below. -/
def listOf (t : Ty) : Ty := .list t false
/-- Example data for the concrete cases below. -/
def str (s : String) : GVal := .str s.toList
/-- Example data for the concrete cases below. -/
def obj (l : List (String × GVal)) : GVal := .obj (l.map (fun p => (p.1.toList, p.2)))

/-- `users` lists two users, `user` is an object with two lists, `upper` answers with the name of
its parent, `nothing` with null, and anything else fails. -/
def demoR (h : Hdr) (v : Option GVal) : Res :=
  if h.name = "users".toList then
    .ok (.list [obj [("name", str "a"), ("tag", obj [("name", str "t")])], obj [("name", str "b")]])
  else if h.name = "user".toList then .ok (obj [("a", .list []), ("b", .list [obj [("name", str "x")]])])
  else if h.name = "nothing".toList then .ok .null
  else if h.name = "upper".toList then .ok (((v.bind (getKey "name".toList))).getD .null)
  else .error .discriminate

/-- The state counts the calls. -/
def demoEnv : Env Nat where
  implements a b := a = b
  enumOk _ _ := true
  scalarOk _ _ := true
  vars _ := none
  resolve n h v := (n + 1, demoR h v)

theorem demo_stable : Stable demoEnv demoR := fun _ _ _ => rfl

/-- `{ users { name up: upper tag { upper } } }`, with the plain field `tag` under some alias. -/
def demoSel (alias : String) : List Field :=
  [fld 1 "users" "users" true (listOf opt)
    [fld 2 "name" "name" false req [], fld 3 "upper" "up" true opt [],
     fld 4 "tag" alias false opt [fld 5 "upper" "upper" true opt []]]]

/-! ## C36 on a nested list -/

/-- `upper` below a list of lists with a null in it. -/
def upperHdr : Hdr := (fld 3 "upper" "up" true opt []).hdr
/-- Example data for the concrete cases below. -/
def nested : List GVal :=
  [.list [obj [("name", str "a")]], .list [.null, obj [("name", str "b")]], .list []]

example : execIr demoEnv upperHdr 0 (some (.list nested)) =
    (2, .ok (.list [.list [str "a"], .list [.null, str "b"], .list []])) := by rfl

/-- The item at position 1, 1 gets its own result. -/
example : atPos (.list [.list [str "a"], .list [.null, str "b"], .list []]) [1, 1] = some (str "b") := by
  have h := (C36_result_of_each_item demoEnv upperHdr 0 nested
    (.list [.list [str "a"], .list [.null, str "b"], .list []]) (partOf demoEnv upperHdr)
    (fun v => (applies_partOf demoEnv upperHdr v).symm) (by rfl) [1, 1] (obj [("name", str "b")]) (by rfl)).1
    (by intro k hk; cases hk) (by intro tc kvs t htc; cases htc)
  obtain ⟨y, h1, h2⟩ := h
  have hy : (Except.ok (str "b") : Res) = .ok y := h2
  cases hy
  exact h1

/-- The first failing item decides. -/
example : (execIr demoEnv (fld 3 "broken" "up" true opt []).hdr 0 (some (.list nested))).2 = .error .discriminate :=
  (C36_fails_with_first_error demoEnv _ 0 nested .discriminate (partOf demoEnv _)
    (fun v => (applies_partOf demoEnv _ v).symm)).2
    ⟨0, obj [("name", str "a")], by rfl, by rfl, by intro m u hm; omega⟩

/-- Executing and synthesising a selection (jit/exec.rs:43-53). -/
def run (e : Env σ) (root : Text) (sel : List Field) (s : σ) : Except SErr GVal :=
  synthesize e (execAll e sel none (s, fun _ => none)).2 root sel

/-! ## C36, C37: the answer is the reference's -/

/-- C37: what execution over lists, the store and synthesis produce together is the answer of the
reference, which resolves each field on its own object; or a resolver of the plan failed, and the
response is its error. -/
theorem C37_answers_as_reference (e : Env σ) (R : Hdr → Option GVal → Res) (hR : Stable e R) (root : Text)
    (sel : List Field) (s : σ) (hids : ((dfs sel).map Hdr.id).Nodup)
    (hinc : ∀ f, InPlan sel f → skipField e.vars f.hdr.skip f.hdr.incl = false) (hnames : PlainNames sel) :
    kinds (run e root sel s) = answer e R root sel ∨
    ∃ f v x, InPlan sel f ∧ R f.hdr v = .error x ∧ run e root sel s = .error ⟨.resolver x, none⟩ := by
  have hst := execAll_stored hR sel none (s, fun _ => none) hids (fun _ _ => rfl)
  have hmain := synthRoots_answer e R _ root sel hst
    (fun g hg => by simp [included, hinc g hg]) hnames [] [] (by simp)
  unfold run synthesize
  rcases hmain with h | ⟨i, x, hi, h⟩
  · left
    unfold answer
    revert h
    generalize synthRoots e (execAll e sel none (s, fun _ => none)).2 root sel [] [] = q
    cases q with
    | error y =>
      intro h
      cases ha : answerRoots e R root sel with
      | error z =>
        rw [ha] at h
        simp only [kinds, Except.map, Except.error.injEq] at h ⊢
        exact h
      | ok z => rw [ha] at h; simp [kinds, Except.map] at h
    | ok y =>
      intro h
      cases ha : answerRoots e R root sel with
      | error z => rw [ha] at h; simp [kinds, Except.map] at h
      | ok z =>
        rw [ha] at h
        simp only [kinds, Except.map, Except.ok.injEq] at h ⊢
        rw [h]
        rfl
  · right
    rcases execAll_failed hR sel none _ i x hi with hbad | ⟨f, v, hf, hv⟩
    · simp at hbad
    · exact ⟨f, v, x, hf, hv, by rw [h]⟩

/-- C37: a successful response is the answer of the reference. -/
theorem C37_success_is_reference (e : Env σ) (R : Hdr → Option GVal → Res) (hR : Stable e R) (root : Text)
    (sel : List Field) (s : σ) (hids : ((dfs sel).map Hdr.id).Nodup)
    (hinc : ∀ f, InPlan sel f → skipField e.vars f.hdr.skip f.hdr.incl = false) (hnames : PlainNames sel)
    (v : GVal) (hv : run e root sel s = .ok v) : answer e R root sel = .ok v := by
  rcases C37_answers_as_reference e R hR root sel s hids hinc hnames with h | ⟨_, _, _, _, _, h⟩
  · rw [← h, hv]; rfl
  · rw [hv] at h; cases h

/-- C37: when the resolvers succeed, the response is the answer of the reference, error or not. -/
theorem C37_reference_when_resolved (e : Env σ) (R : Hdr → Option GVal → Res) (hR : Stable e R) (root : Text)
    (sel : List Field) (s : σ) (hids : ((dfs sel).map Hdr.id).Nodup)
    (hinc : ∀ f, InPlan sel f → skipField e.vars f.hdr.skip f.hdr.incl = false) (hnames : PlainNames sel)
    (hok : ∀ f v, InPlan sel f → ∃ x, R f.hdr v = .ok x) :
    kinds (run e root sel s) = answer e R root sel := by
  rcases C37_answers_as_reference e R hR root sel s hids hinc hnames with h | ⟨f, v, x, hf, hx, _⟩
  · exact h
  · obtain ⟨y, hy⟩ := hok f v hf
    rw [hy] at hx; cases hx

theorem inPlan_dfs {l : List Field} {f : Field} (h : InPlan l f) : f.hdr ∈ dfs l := by
  have key : ∀ (l : List Field) (g : Field), g ∈ l → ∀ x ∈ dfsF g, x ∈ dfs l := by
    intro l g hg x hx
    induction l with
    | nil => simp at hg
    | cons a r ih =>
      simp only [dfs, List.mem_append]
      rcases List.mem_cons.1 hg with rfl | hg
      · exact Or.inl hx
      · exact Or.inr (ih hg)
  induction h with
  | here hm =>
    rename_i l f
    refine key l f hm _ ?_
    cases f
    exact List.mem_cons_self
  | deeper hm _ ih =>
    rename_i l g f _
    refine key l g hm _ ?_
    cases g
    exact List.mem_cons_of_mem _ ih

/-- A plan that renames no field without resolver. -/
theorem plainNames_of (sel : List Field) (h : ∀ x ∈ dfs sel, x.ir = none → x.out = x.name) : PlainNames sel :=
  fun _ hf hir hout _ _ => absurd (h _ (inPlan_dfs hf) hir) hout

/-- The hypotheses of the theorems hold for the plan. -/
theorem demo_meets : ((dfs (demoSel "tag")).map Hdr.id).Nodup ∧
    (∀ f, InPlan (demoSel "tag") f → skipField demoEnv.vars f.hdr.skip f.hdr.incl = false) ∧
    PlainNames (demoSel "tag") := by
  refine ⟨by decide, ?_, ?_⟩
  · intro f hf
    have h := inPlan_dfs hf
    simp only [demoSel, fld, dfs, dfsF, List.append_nil, List.nil_append, List.cons_append, List.mem_cons,
      List.not_mem_nil, or_false] at h
    rcases h with h | h | h | h | h <;> rw [h] <;> rfl
  · apply plainNames_of
    intro x h
    simp only [demoSel, fld, dfs, dfsF, List.append_nil, List.nil_append, List.cons_append, List.mem_cons,
      List.not_mem_nil, or_false] at h
    rcases h with h | h | h | h | h <;> rw [h] <;> simp

example : kinds (run demoEnv [] (demoSel "tag") 0) = answer demoEnv demoR [] (demoSel "tag") := by
  rcases C37_answers_as_reference demoEnv demoR demo_stable [] (demoSel "tag") 0 demo_meets.1 demo_meets.2.1
    demo_meets.2.2 with h | ⟨_, _, _, _, _, h⟩
  · exact h
  · exact absurd h (by intro h; cases h)

/-- The plan answers every user with their own name, also below the plain field. -/
example : run demoEnv [] (demoSel "tag") 0 = .ok (obj [("users", .list
    [obj [("name", str "a"), ("up", str "a"), ("tag", obj [("upper", str "t")])],
     obj [("name", str "b"), ("up", str "b"), ("tag", .null)]])]) := by rfl

/-- C37 is violated by an alias on a field without resolver: the selection below it is executed
on the value under the alias, which is not there, so the nested resolver is given nothing and its
field is null in a response without errors. -/
theorem C37_violated_by_alias :
    run demoEnv [] (demoSel "t") 0 = .ok (obj [("users", .list
      [obj [("name", str "a"), ("up", str "a"), ("t", obj [("upper", .null)])],
       obj [("name", str "b"), ("up", str "b"), ("t", .null)]])]) ∧
    answer demoEnv demoR [] (demoSel "t") = .ok (obj [("users", .list
      [obj [("name", str "a"), ("up", str "a"), ("t", obj [("upper", str "t")])],
       obj [("name", str "b"), ("up", str "b"), ("t", .null)]])]) := ⟨rfl, rfl⟩

/-- `{ user { a: b { upper } } }` where the data has lists under both names. -/
def clashSel : List Field :=
  [fld 1 "user" "user" true opt [fld 2 "b" "a" false (listOf opt) [fld 3 "upper" "upper" true opt []]]]

/-- C37: with an alias that is the name of a shorter list, synthesis looks outside that list and
panics. -/
theorem C37_violated_by_alias_panic :
    run demoEnv [] clashSel 0 = .error ⟨.panic, none⟩ ∧
    answer demoEnv demoR [] clashSel =
      .ok (obj [("user", obj [("a", .list [obj [("upper", str "x")]])])]) := ⟨rfl, rfl⟩

/-! ### The selection after `@skip` and `@include` -/

theorem skipF_hdr (vars : Verif.Plan.Vars) (f : Field) : (skipF vars f).hdr = f.hdr ∧ (skipF vars f).sub = skipFs vars f.sub := by
  cases f; exact ⟨rfl, rfl⟩

theorem mem_skipFs (vars : Verif.Plan.Vars) (sel : List Field) (f : Field) :
    f ∈ skipFs vars sel ↔ ∃ g ∈ sel, skipField vars g.hdr.skip g.hdr.incl = false ∧ f = skipF vars g := by
  induction sel with
  | nil => simp [skipFs]
  | cons a r ih =>
    simp only [skipFs]
    split <;> rename_i ha
    · rw [ih]
      constructor
      · rintro ⟨g, hg, h⟩; exact ⟨g, List.mem_cons_of_mem _ hg, h⟩
      · rintro ⟨g, hg, h1, h2⟩
        rcases List.mem_cons.1 hg with rfl | hg
        · rw [ha] at h1; cases h1
        · exact ⟨g, hg, h1, h2⟩
    · rw [List.mem_cons, ih]
      constructor
      · rintro (rfl | ⟨g, hg, h⟩)
        · exact ⟨a, List.mem_cons_self, by simpa using ha, rfl⟩
        · exact ⟨g, List.mem_cons_of_mem _ hg, h⟩
      · rintro ⟨g, hg, h1, h2⟩
        rcases List.mem_cons.1 hg with rfl | hg
        · exact Or.inl h2
        · exact Or.inr ⟨g, hg, h1, h2⟩

/-- The fields left by `@skip` and `@include` are fields of the plan that are not skipped. -/
theorem inPlan_skipFs (vars : Verif.Plan.Vars) (sel : List Field) (f : Field) (h : InPlan (skipFs vars sel) f) :
    ∃ g, InPlan sel g ∧ skipField vars g.hdr.skip g.hdr.incl = false ∧ f = skipF vars g := by
  generalize hl : skipFs vars sel = l at h
  induction h generalizing sel with
  | here hm =>
    subst hl
    obtain ⟨g, hg, h1, h2⟩ := (mem_skipFs vars sel _).1 hm
    exact ⟨g, .here hg, h1, h2⟩
  | deeper hm _ ih =>
    subst hl
    obtain ⟨g, hg, h1, rfl⟩ := (mem_skipFs vars sel _).1 hm
    obtain ⟨g', hg', h⟩ := ih g.sub (skipF_hdr vars g).2.symm
    exact ⟨g', .deeper hg hg', h⟩

mutual
theorem dfsF_skip (vars : Verif.Plan.Vars) (f : Field) : (dfsF (skipF vars f)).Sublist (dfsF f) := by
  match f with
  | .mk h sub => simp only [skipF, dfsF]; exact (dfs_skip vars sub).cons_cons _
theorem dfs_skip (vars : Verif.Plan.Vars) (l : List Field) : (dfs (skipFs vars l)).Sublist (dfs l) := by
  match l with
  | [] => exact List.Sublist.refl _
  | f :: r =>
    simp only [skipFs]
    split
    · simp only [dfs]; exact (dfs_skip vars r).trans (List.sublist_append_right _ _)
    · simp only [dfs]; exact (dfsF_skip vars f).append (dfs_skip vars r)
end

/-- C37: a query without guard or introspection whose resolvers succeed answers with what the
reference says about the fields that `@skip` and `@include` keep. -/
theorem C37_response_is_reference_partial (o : Outer σ) (R : Hdr → Option GVal → Res) (hR : Stable o.env R)
    (p : Plan) (s : σ) (hids : ((dfs p.sel).map Hdr.id).Nodup) (hnames : PlainNames p.sel)
    (hok : ∀ f v, InPlan p.sel f → ∃ x, R f.hdr v = .ok x)
    (hbefore : p.before = none) (hintro : p.introspection = false)
    (hinput : ∀ sel, o.input sel = .ok sel) (hextra : ∀ s, o.extra s = []) :
    match answer o.env R p.root (skipFs o.env.vars p.sel) with
    | .ok v => (executePlan o p s).2 = ⟨v, []⟩
    | .error k => ∃ path, (executePlan o p s).2 = ⟨.null, [.synth ⟨k, path⟩]⟩ := by
  have hsub : ∀ f, InPlan (skipFs o.env.vars p.sel) f → _ := inPlan_skipFs o.env.vars p.sel
  have h := C37_reference_when_resolved o.env R hR p.root (skipFs o.env.vars p.sel) s
    (((dfs_skip o.env.vars p.sel).map _).nodup hids)
    (by
      intro f hf
      obtain ⟨g, _, h1, rfl⟩ := hsub f hf
      rw [(skipF_hdr _ g).1]; exact h1)
    (by
      intro f hf hir hout g hg
      obtain ⟨f', hf', _, rfl⟩ := hsub f hf
      rw [(skipF_hdr _ f').1] at hir hout
      rw [(skipF_hdr _ f').2] at hg
      obtain ⟨g', hg', _, rfl⟩ := inPlan_skipFs _ _ _ hg
      rw [(skipF_hdr _ g').1]
      exact hnames f' hf' hir hout g' hg')
    (by
      intro f v hf
      obtain ⟨g, hg, _, rfl⟩ := hsub f hf
      rw [(skipF_hdr _ g).1]; exact hok g v hg)
  have hexec : (executePlan o p s).2 = respond (run o.env p.root (skipFs o.env.vars p.sel) s) [] := by
    simp only [executePlan, hbefore, hinput, hintro, Bool.and_false, hextra, run]
    rfl
  rw [hexec, ← h]
  cases run o.env p.root (skipFs o.env.vars p.sel) s with
  | ok v => rfl
  | error x => exact ⟨x.path, rfl⟩

end Verif.Exec
