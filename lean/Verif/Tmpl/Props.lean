import Verif.Tmpl.Model

/-!
# Properties of the checks on templates
-/

namespace Verif.Tmpl

open Verif.Mustache (Text Template Seg)
open Verif.HttpUrl (GVal VS RCtx cowText)
open Verif.Exec (Ty)
open Verif.Ir (IR Io Ctx World getPath parseUsize)

set_option linter.unusedSimpArgs false

/-! ## Data that agrees with the configuration -/

/-- Values of scalar types. -/
def literal : GVal → Bool
  | .bool _ | .int _ | .float _ | .str _ => true
  | _ => false

/-- Scalars that can be anything. -/
def anyScalar (t : Text) : Bool := t == "JSON".toList || t == "Empty".toList

/-- The value agrees with the type.  Data from an upstream (`up`) need not hold the fields that have a
resolver; enum values of an upstream are strings. -/
inductive Conforms (k : Conf) (up : Bool) : Ty → GVal → Prop
  | null {ty} : ty.isNullable = true → Conforms k up ty .null
  | list {t nn l} : (∀ v ∈ l, Conforms k up t v) → Conforms k up (.list t nn) (.list l)
  | scalar {t nn v} : predefined t = true → anyScalar t = false → literal v = true → Conforms k up (.named t nn) v
  | any {t nn v} : anyScalar t = true → v ≠ .null → (∀ s, v ≠ .enum s) → Conforms k up (.named t nn) v
  | enum {t nn s} : t ∈ k.enums → Verif.Merge.get t k.types = none →
      Conforms k up (.named t nn) (if up then .str s else .enum s)
  | obj {t nn fs kvs} : Verif.Merge.get t k.types = some fs →
      (∀ n f, Verif.Merge.get n fs = some f → (up = true → f.hasResolver = false) → f.ty.isNullable = false →
        (Verif.Merge.get n kvs).isSome = true) →
      (∀ n f v, Verif.Merge.get n fs = some f → (up = true → f.hasResolver = false) →
        Verif.Merge.get n kvs = some v → Conforms k up f.ty v) →
      Conforms k up (.named t nn) (.obj kvs)

/-- Names of types are not shared between kinds. -/
def Conf.disjoint (k : Conf) : Bool := k.types.all (fun p => !predefined p.1 && !k.enums.contains p.1)

theorem get_mem {V : Type} {t : Text} {v : V} {l : List (Text × V)} (h : Verif.Merge.get t l = some v) : (t, v) ∈ l := by
  induction l with
  | nil => simp [Verif.Merge.get] at h
  | cons p l ih =>
    obtain ⟨a, b⟩ := p
    unfold Verif.Merge.get at h
    split at h
    · rename_i he
      obtain rfl := Option.some.inj h
      subst he
      exact List.mem_cons_self
    · exact List.mem_cons_of_mem _ (ih h)

theorem disjoint_get {k : Conf} (h : k.disjoint = true) {t : Text} {fs : List (Text × TField)}
    (hg : Verif.Merge.get t k.types = some fs) : predefined t = false ∧ t ∉ k.enums := by
  have := (List.all_eq_true.mp h) (t, fs) (get_mem hg)
  simpa using this

/-- The path reads the parent's data only: no field on it has a resolver and none is a list. -/
def plainPath (k : Conf) (fs : List (Text × TField)) : List Text → Bool
  | [] => true
  | n :: r =>
    match Verif.Merge.get n fs with
    | none => false
    | some f => !f.hasResolver && !f.ty.isList &&
      (match Verif.Merge.get f.ty.name k.types with
       | none => true
       | some fs' => plainPath k fs' r)

theorem anyScalar_predefined {t : Text} (h : anyScalar t = true) : predefined t = true := by
  unfold anyScalar at h
  simp only [Bool.or_eq_true, beq_iff_eq] at h
  rcases h with rfl | rfl <;> decide

/-- The value at an accepted path of data that agrees with the configuration. -/
theorem path_value {k : Conf} (hd : k.disjoint = true) : ∀ (parts done : List Text) (t : Text)
    (fs : List (Text × TField)) (v : GVal),
    Verif.Merge.get t k.types = some fs → Conforms k true (.named t true) v →
    validateType k false fs done parts = none → plainPath k fs parts = true → parts ≠ [] →
    ∃ u, getPath v parts = some u ∧ u ≠ .null ∧ ∀ s, u ≠ .enum s := by
  intro parts
  induction parts with
  | nil => intro done t fs v _ _ _ _ h; exact absurd rfl h
  | cons item rest ih =>
    intro done t fs v ht hc hv hp _
    generalize hty : Ty.named t true = ty at hc
    cases hc with
    | null h => subst hty; simp [Ty.isNullable] at h
    | list => simp at hty
    | scalar h1 => cases hty; have := (disjoint_get hd ht).1; rw [h1] at this; simp at this
    | any h1 => cases hty; have := (disjoint_get hd ht).1; rw [anyScalar_predefined h1] at this; simp at this
    | enum h1 => cases hty; exact absurd h1 (disjoint_get hd ht).2
    | @obj t' nn fs' kvs h1 h2 h3 =>
      cases hty
      rw [ht] at h1
      obtain rfl := Option.some.inj h1
      unfold validateType at hv
      unfold plainPath at hp
      cases hf : Verif.Merge.get item fs with
      | none => rw [hf] at hv; simp at hv
      | some f =>
        rw [hf] at hv hp
        simp only [Bool.and_eq_true, Bool.not_eq_true'] at hp
        simp only [Bool.not_false, Bool.true_and] at hv
        cases hn : f.ty.isNullable with
        | true => simp [hn] at hv
        | false =>
          simp only [hn, Bool.false_eq_true, if_false] at hv
          have hs := h2 item f hf (fun _ => hp.1.1) hn
          obtain ⟨w, hw⟩ := Option.isSome_iff_exists.mp hs
          have hcw := h3 item f w hf (fun _ => hp.1.1) hw
          obtain ⟨ft, fr⟩ := f
          cases ft with
          | list => simp [Ty.isList] at hp
          | named tn nn =>
            simp only [Ty.isNullable, Bool.not_eq_false'] at hn
            subst hn
            simp only [Ty.name] at hv hp
            cases rest with
            | nil =>
              simp only at hv
              cases hpre : predefined tn with
              | false => simp [hpre] at hv
              | true =>
                refine ⟨w, by simp [getPath, hw], ?_⟩
                generalize hty : Ty.named tn true = ty at hcw
                cases hcw with
                | null h => subst hty; simp [Ty.isNullable] at h
                | list => simp at hty
                | scalar _ _ hl =>
                  constructor
                  · rintro rfl; simp [literal] at hl
                  · rintro s rfl; simp [literal] at hl
                | any _ h1 h2 => exact ⟨h1, h2⟩
                | enum h1 => simp
                | obj => simp
            | cons r rs =>
              simp only at hv
              cases hg : Verif.Merge.get tn k.types with
              | none => rw [hg] at hv; simp at hv
              | some fs2 =>
                rw [hg] at hv hp
                obtain ⟨u, hu, hu2⟩ := ih (done ++ [item]) tn fs2 w hg hcw hv hp.2 (by simp)
                exact ⟨u, by rw [getPath]; simp [hw, hu], hu2⟩

/-! ## C82: accepted URLs are complete -/

/-- The call is one of the merged calls of the resolver. -/
inductive Direct (i : Io) : IR → Prop
  | io : Direct i (.io i)
  | merge {l x} : x ∈ l → Direct i x → Direct i (.merge l)

theorem resolvers_mem {k : Conf} {fs : List (Text × TField)} {args : List TArg} {calls : Io → Call} {x : IR} :
    ∀ {l : List IR}, validateResolvers k fs args calls l = [] → x ∈ l → validateResolver k fs args calls x = [] := by
  intro l
  induction l with
  | nil => intro _ h; simp at h
  | cons a l ih =>
    intro h hx
    simp only [validateResolvers, List.append_eq_nil_iff] at h
    rcases List.mem_cons.mp hx with e | e
    · subst e; exact h.1
    · exact ih h.2 e

theorem direct_valid {k : Conf} {fs : List (Text × TField)} {args : List TArg} {calls : Io → Call} {i : Io} {x : IR}
    (h : Direct i x) (hv : validateResolver k fs args calls x = []) : validateCall k fs args (calls i) = [] := by
  induction h with
  | io => simpa [validateResolver] using hv
  | merge hx _ ih => exact ih (resolvers_mem (by simpa [validateResolver] using hv) hx)

/-- The URL of a call. -/
def urlOf : Call → Option Template
  | .http root _ _ _ => some root
  | .grpc url _ _ => some url
  | _ => none

theorem checkAll_nil {k : Conf} {fs : List (Text × TField)} {args : List TArg} {q : Bool} {tr : List Text}
    {ts : List Template} (h : checkAll k fs args q tr ts = []) {t : Template} (ht : t ∈ ts) {ps : List Text}
    (hp : Seg.expr ps ∈ t) : validate k fs args q ps = none := by
  unfold checkAll at h
  rw [List.filterMap_eq_nil_iff] at h
  have := h ps (by
    rw [List.mem_flatten]
    refine ⟨exprs t, List.mem_map_of_mem ht, ?_⟩
    unfold exprs
    rw [List.mem_filterMap]
    exact ⟨.expr ps, hp, rfl⟩)
  simpa using this

theorem url_valid {k : Conf} {fs : List (Text × TField)} {args : List TArg} {c : Call}
    (h : validateCall k fs args c = []) {t : Template} (ht : urlOf c = some t) {ps : List Text}
    (hp : Seg.expr ps ∈ t) : validate k fs args false ps = none := by
  cases c with
  | http root query hs b =>
    obtain rfl := Option.some.inj ht
    simp only [validateCall, List.append_eq_nil_iff] at h
    exact checkAll_nil h.1 List.mem_cons_self hp
  | grpc url hs b =>
    obtain rfl := Option.some.inj ht
    simp only [validateCall] at h
    split at h
    · rename_i he
      simp only [List.isEmpty_iff, List.append_eq_nil_iff] at he
      exact checkAll_nil he.1 List.mem_cons_self hp
    · rename_i he
      rw [h] at he
      simp at he
  | graphql => simp [urlOf] at ht
  | js => simp [urlOf] at ht

/-- The request's data agrees with the configuration: the parent's value, the arguments with a non-null
type and the variables of the server. -/
structure Agrees (k : Conf) (ty : Text) (args : List TArg) (c : Ctx) : Prop where
  value : ∃ v, c.pathValue [] = some v ∧ Conforms k true (.named ty true) v
  args : c.argsO = none ∧ ∃ as, c.args = some as ∧
    ∀ a ∈ args, a.ty.isNullable = false → ∃ v, Verif.Merge.get a.name as = some v ∧ v ≠ .null
  vars : ∀ n ∈ k.vars, (Verif.Merge.get n c.vars).isSome = true

/-- The expressions for which the checks are enough: paths into the parent's data, whole arguments with a
non-null type, variables of the server. -/
def covered (k : Conf) (fs : List (Text × TField)) (args : List TArg) : List Text → Bool
  | [] => true
  | [_] => true
  | head :: n :: rest =>
    if head = "value".toList then plainPath k fs (n :: rest)
    else if head = "args".toList then rest.isEmpty && args.all (fun a => a.name != n || !a.ty.isNullable)
    else head != "headers".toList && head != "env".toList

theorem cow_some (json : GVal → Text) (owned : Bool) {u : GVal} (h1 : u ≠ .null) (h2 : owned = true → ∀ s, u ≠ .enum s) :
    ∃ s, cowText json owned u = some s := by
  cases u with
  | null => exact absurd rfl h1
  | enum s =>
    cases owned with
    | true => exact absurd rfl (h2 rfl s)
    | false => exact ⟨s, rfl⟩
  | _ => exact ⟨_, rfl⟩

theorem getPath_root {c : Ctx} {v : GVal} (h : c.pathValue [] = some v) (ps : List Text) :
    c.pathValue ps = getPath v ps := by
  unfold Ctx.pathValue at h ⊢
  cases ho : c.valueO with
  | some w =>
    rw [ho] at h
    simp only [getPath, Option.some.injEq] at h
    subst h; rfl
  | none =>
    rw [ho] at h
    cases hv : c.value with
    | none => rw [hv] at h; simp at h
    | some w =>
      rw [hv] at h
      simp only [getPath, Option.some.injEq] at h
      subst h; rfl

/-- C82, the part that holds: in an accepted resolver, every expression in the URL of every call has a
text whenever the request's data agrees with the configuration.

Missing from the full statement: see `covered` and the violations below. -/
theorem C82_url_complete_partial (k : Conf) (hd : k.disjoint = true) (ty : Text) (fs : List (Text × TField))
    (hty : Verif.Merge.get ty k.types = some fs) (args : List TArg) (calls : Io → Call) (x : IR)
    (hv : validateResolver k fs args calls x = []) (i : Io) (hi : Direct i x) (url : Template)
    (hu : urlOf (calls i) = some url) (ps : List Text) (hps : Seg.expr ps ∈ url) (hc : covered k fs args ps = true)
    (w : World) (c : Ctx) (ha : Agrees k ty args c) :
    ∃ s, c.str w ps = some s := by
  have hval := url_valid (direct_valid hi hv) hu hps
  match ps, hval, hc with
  | [], hval, _ => simp [validate] at hval
  | [_], hval, _ => simp [validate] at hval
  | head :: n :: rest, hval, hc =>
    unfold validate at hval
    unfold covered at hc
    unfold Ctx.str RCtx.str
    simp only [Ctx.raw]
    by_cases h1 : head = "value".toList
    · simp only [h1, if_true] at hval hc ⊢
      obtain ⟨v, hv0, hcv⟩ := ha.value
      obtain ⟨u, hu0, hu1, hu2⟩ := path_value hd (n :: rest) [] ty fs v hty hcv hval hc (by simp)
      rw [getPath_root hv0, hu0]
      simp only [Option.map_some]
      exact cow_some _ _ hu1 (fun _ => hu2)
    · simp only [h1, if_false] at hval hc ⊢
      by_cases h2 : head = "args".toList
      · simp only [h2, if_true, Bool.and_eq_true] at hval hc ⊢
        have hr : rest = [] := by simpa using hc.1
        subst hr
        obtain ⟨ho, as, has, hall⟩ := ha.args
        cases hf : args.find? (fun a => a.name == n) with
        | none => rw [hf] at hval; simp at hval
        | some a =>
          have hm := List.mem_of_find?_eq_some hf
          have hname : a.name = n := by have := List.find?_some hf; simpa using this
          have hnn : a.ty.isNullable = false := by
            have := (List.all_eq_true.mp hc.2) a hm
            simpa [hname] using this
          obtain ⟨v, hg, hne⟩ := hall a hm hnn
          rw [hname] at hg
          have hpath : c.pathArg [n] = some v := by
            simp [Ctx.pathArg, ho, has, hg, getPath]
          rw [hpath, ho]
          simp only [Option.map_some, Option.isSome_none]
          exact cow_some _ _ hne (by simp)
      · simp only [h2, if_false] at hval hc ⊢
        by_cases h3 : head = "vars".toList
        · simp only [h3, if_true] at hval ⊢
          have hm : n ∈ k.vars := by
            simpa using hval
          obtain ⟨s, hs⟩ := Option.isSome_iff_exists.mp (ha.vars n hm)
          have h4 : ("vars".toList : Text) ≠ "headers".toList := by decide
          simp only [h4, if_false, hs, Option.map_some]
          exact ⟨s, rfl⟩
        · simp only [h3, if_false] at hval
          simp only [Bool.and_eq_true, bne_iff_ne] at hc
          have h4 : ¬ ((decide (head = "headers".toList) || decide (head = "env".toList)) = true) := by
            simp only [Bool.or_eq_true, decide_eq_true_eq]
            rintro (h | h)
            · exact hc.1 h
            · exact hc.2 h
          rw [if_neg h4] at hval
          simp at hval

/-- C82, the part that holds for whole arguments: an argument in an accepted URL is one that every request
has a value for, unless the client sends null, and that value is not a list.

Missing from the full statement: a null for a nullable argument with a default, and paths into arguments
(violations below). -/
theorem C82_argument_given_partial (k : Conf) (fs : List (Text × TField)) (args : List TArg) (calls : Io → Call)
    (x : IR) (hv : validateResolver k fs args calls x = []) (i : Io) (hi : Direct i x) (url : Template)
    (hu : urlOf (calls i) = some url) (n : Text) (hps : Seg.expr ["args".toList, n] ∈ url)
    (w : World) (c : Ctx) (ho : c.argsO = none) (as : List (Text × GVal)) (has : c.args = some as)
    (hreq : ∀ a ∈ args, a.ty.isNullable = false ∨ a.hasDefault = true → (Verif.Merge.get a.name as).isSome = true)
    (hnull : Verif.Merge.get n as ≠ some .null)
    (hconf : ∀ a ∈ args, anyScalar a.ty.name = false → ∀ v, Verif.Merge.get a.name as = some v → Conforms k false a.ty v) :
    ∃ v s, Verif.Merge.get n as = some v ∧ c.str w ["args".toList, n] = some s ∧
      ((∃ a ∈ args, a.name = n ∧ anyScalar a.ty.name = true) ∨ ∀ l, v ≠ .list l) := by
  have hval := url_valid (direct_valid hi hv) hu hps
  unfold validate at hval
  have h1 : ("args".toList : Text) ≠ "value".toList := by decide
  simp only [h1, if_false, if_true] at hval
  cases hf : args.find? (fun a => a.name == n) with
  | none => rw [hf] at hval; simp at hval
  | some a =>
    rw [hf] at hval
    have hm := List.mem_of_find?_eq_some hf
    have hname : a.name = n := by have := List.find?_some hf; simpa using this
    simp only [Bool.not_false, Bool.true_and] at hval
    cases hl : a.ty.isList with
    | true => simp [hl] at hval
    | false =>
      have hr : a.ty.isNullable = false ∨ a.hasDefault = true := by
        cases hd : a.hasDefault with
        | true => exact .inr rfl
        | false =>
          cases hn : a.ty.isNullable with
          | false => exact .inl rfl
          | true => simp [hl, hd, hn] at hval
      obtain ⟨v, hg⟩ := Option.isSome_iff_exists.mp (hreq a hm hr)
      have hg' := hg
      rw [hname] at hg'
      have hpath : c.pathArg [n] = some v := by simp [Ctx.pathArg, ho, has, hg', getPath]
      obtain ⟨s, hs⟩ := cow_some w.json c.argsO.isSome (u := v) (by rintro rfl; exact hnull hg') (by simp [ho])
      refine ⟨v, s, hg', ?_, ?_⟩
      · unfold Ctx.str RCtx.str
        simp only [Ctx.raw, h1, if_false, if_true, hpath, Option.map_some]
        exact hs
      · cases ha : anyScalar a.ty.name with
        | true => exact .inl ⟨a, hm, hname, ha⟩
        | false =>
          refine .inr (fun l hv => ?_)
          subst hv
          have hc := hconf a hm ha _ hg
          obtain ⟨an, aty, ad⟩ := a
          cases aty with
          | list => simp [Ty.isList] at hl
          | named t nn =>
            generalize hty : Ty.named t nn = ty at hc
            cases hc with
            | list => simp at hty
            | scalar _ _ h => simp [literal] at h
            | any h => cases hty; rw [show anyScalar t = false from ha] at h; simp at h

/-! ### A case that meets the hypotheses -/

/-- The fields of `User { id: Int!, home: Address!, all: [Address!]!, score: Int! @http }`. -/
def userFields : List (Text × TField) :=
  [("id".toList, ⟨.named "Int".toList true, false⟩), ("home".toList, ⟨.named "Address".toList true, false⟩),
   ("all".toList, ⟨.list (.named "Address".toList true) true, false⟩), ("score".toList, ⟨.named "Int".toList true, true⟩)]

/-- `User`, `Address { zip: String! }` and `input Filter { name: String! }`. -/
def conf : Conf where
  types := [("User".toList, userFields),
    ("Address".toList, [("zip".toList, ⟨.named "String".toList true, false⟩)]),
    ("Filter".toList, [("name".toList, ⟨.named "String".toList true, false⟩)])]
  enums := ["Kind".toList]
  vars := ["key".toList]

theorem conf_disjoint : conf.disjoint = true := by decide

/-- A parsed expression. -/
def e (s : List String) : Seg := .expr (s.map String.toList)

/-- `http://a/{{value.home.zip}}/{{args.n}}?k={{vars.key}}`. -/
def goodUrl : Template := [.lit "http://a/".toList, e ["value", "home", "zip"], .lit "/".toList, e ["args", "n"],
  .lit "?k=".toList, e ["vars", "key"]]

/-- The data of a parent. -/
def userData : GVal := .obj [("id".toList, .int 1), ("home".toList, .obj [("zip".toList, .str "8001".toList)]),
  ("all".toList, .list [])]

/-- A context with the parent's data and some arguments. -/
def ctxOf (v : GVal) (as : List (Text × GVal)) : Ctx :=
  { value := some v, args := some as, valueO := none, argsO := none, isQuery := true, header := fun _ => none
    vars := [("key".toList, "s".toList)], env := fun _ => none
    auth := ⟨.absent, fun _ _ _ => false, fun _ => none, fun _ _ => none⟩ }

/-- No upstream is called here. -/
def quiet : World where
  json := fun _ => []
  parse := fun _ => none
  key := fun _ _ => none
  run := fun _ _ _ => (0, .ok .null)
  join := fun _ _ => none
  cap := 0

/-- A whole argument. -/
def argN (nn : Bool) (dflt : Bool) : TArg := ⟨"n".toList, .named "Int".toList nn, dflt⟩

theorem address_conforms (z : Text) : Conforms conf true (.named "Address".toList true) (.obj [("zip".toList, .str z)]) := by
  refine .obj (fs := [("zip".toList, ⟨.named "String".toList true, false⟩)]) rfl ?_ ?_
  · intro n f hf _ _
    have hm := get_mem hf
    simp only [List.mem_cons, Prod.mk.injEq, List.not_mem_nil, or_false] at hm
    obtain ⟨rfl, rfl⟩ := hm
    rfl
  · intro n f v hf _ hv
    have hm := get_mem hf
    simp only [List.mem_cons, Prod.mk.injEq, List.not_mem_nil, or_false] at hm
    obtain ⟨rfl, rfl⟩ := hm
    obtain rfl := Option.some.inj hv
    exact .scalar (by decide) (by decide) rfl

theorem user_conforms : Conforms conf true (.named "User".toList true) userData := by
  refine .obj (fs := userFields) rfl ?_ ?_
  · intro n f hf hr hn
    have hm := get_mem hf
    simp only [userFields, List.mem_cons, Prod.mk.injEq, List.not_mem_nil, or_false] at hm
    rcases hm with ⟨rfl, rfl⟩ | ⟨rfl, rfl⟩ | ⟨rfl, rfl⟩ | ⟨rfl, rfl⟩
    · rfl
    · rfl
    · rfl
    · have := hr rfl; simp at this
  · intro n f v hf hr hv
    have hm := get_mem hf
    simp only [userFields, List.mem_cons, Prod.mk.injEq, List.not_mem_nil, or_false] at hm
    rcases hm with ⟨rfl, rfl⟩ | ⟨rfl, rfl⟩ | ⟨rfl, rfl⟩ | ⟨rfl, rfl⟩
    · obtain rfl := Option.some.inj hv
      exact .scalar (by decide) (by decide) rfl
    · obtain rfl := Option.some.inj hv
      exact address_conforms _
    · obtain rfl := Option.some.inj hv
      exact .list (by simp)
    · have := hr rfl; simp at this

theorem agrees (args : List TArg) (as : List (Text × GVal))
    (h : ∀ a ∈ args, a.ty.isNullable = false → ∃ v, Verif.Merge.get a.name as = some v ∧ v ≠ .null) :
    Agrees conf "User".toList args (ctxOf userData as) where
  value := ⟨userData, rfl, user_conforms⟩
  args := ⟨rfl, as, rfl, h⟩
  vars := by
    intro n hn
    simp only [conf, List.mem_cons, List.not_mem_nil, or_false] at hn
    subst hn
    rfl

/-- The resolver: two merged calls, one of them with this URL. -/
def merged : IR := .merge [.io ⟨0, true, false⟩, .io ⟨1, false, false⟩]

/-- The calls: call 1 has this URL, the others are scripts. -/
def callsOf (url : Template) : Io → Call := fun i => if i.id = 1 then .http url [] [] none else .js

example : ∃ s, (ctxOf userData [("n".toList, .int 7)]).str quiet ["value".toList, "home".toList, "zip".toList] = some s :=
  C82_url_complete_partial conf conf_disjoint "User".toList userFields rfl [argN true false] (callsOf goodUrl) merged
    (by decide) ⟨1, false, false⟩ (.merge (List.mem_cons_of_mem _ List.mem_cons_self) .io) goodUrl rfl _
    (List.mem_cons_of_mem _ List.mem_cons_self) (by decide) quiet _
    (agrees _ _ (by
      intro a ha _
      simp only [List.mem_cons, List.not_mem_nil, or_false] at ha
      subst ha
      exact ⟨.int 7, rfl, by simp⟩))

example : ∀ ps, Seg.expr ps ∈ goodUrl → covered conf userFields [argN true false] ps = true := by
  intro ps h
  simp only [goodUrl, e, List.mem_cons, Seg.expr.injEq, reduceCtorEq, List.not_mem_nil, or_false, false_or] at h
  rcases h with rfl | rfl | rfl <;> decide

example : ∃ v s, Verif.Merge.get "n".toList [("n".toList, GVal.int 7)] = some v ∧
    (ctxOf userData [("n".toList, .int 7)]).str quiet ["args".toList, "n".toList] = some s ∧
    ((∃ a ∈ [argN false true], a.name = "n".toList ∧ anyScalar a.ty.name = true) ∨ ∀ l, v ≠ .list l) :=
  C82_argument_given_partial conf userFields [argN false true] (callsOf goodUrl) merged
    (by decide) ⟨1, false, false⟩ (.merge (List.mem_cons_of_mem _ List.mem_cons_self) .io) goodUrl rfl _
    (by simp [goodUrl, e]) quiet _ rfl _ rfl
    (by
      intro a ha _
      simp only [List.mem_cons, List.not_mem_nil, or_false] at ha
      subst ha; rfl) (by simp [Verif.Merge.get])
    (by
      intro a ha _ v hv
      simp only [List.mem_cons, List.not_mem_nil, or_false] at ha
      subst ha
      obtain rfl := Option.some.inj hv
      exact .scalar (by decide) (by decide) rfl)

/-! ### Violations -/

/-- A single call with this URL. -/
def one : IR := .io ⟨1, false, false⟩

/-- A path through a list is accepted, but has no value. -/
theorem C82_violated_by_list :
    ∃ (url : Template) (ps : List Text) (c : Ctx), validateResolver conf userFields [] (callsOf url) one = [] ∧
      Seg.expr ps ∈ url ∧ Agrees conf "User".toList [] c ∧ ∀ w, c.str w ps = none :=
  ⟨[e ["value", "all", "zip"]], _, ctxOf userData [], by decide, List.mem_cons_self, agrees _ _ (by simp), fun _ => rfl⟩

/-- A field with a resolver of its own is accepted, but the parent's data does not hold it. -/
theorem C82_violated_by_own_resolver :
    ∃ (url : Template) (ps : List Text) (c : Ctx), validateResolver conf userFields [] (callsOf url) one = [] ∧
      Seg.expr ps ∈ url ∧ Agrees conf "User".toList [] c ∧ ∀ w, c.str w ps = none :=
  ⟨[e ["value", "score"]], _, ctxOf userData [], by decide, List.mem_cons_self, agrees _ _ (by simp), fun _ => rfl⟩

/-- Of an argument only the name is checked: a path into it that does not exist is accepted. -/
theorem C82_violated_by_argument_path :
    ∃ (url : Template) (ps : List Text) (args : List TArg) (c : Ctx),
      validateResolver conf userFields args (callsOf url) one = [] ∧
      Seg.expr ps ∈ url ∧ Agrees conf "User".toList args c ∧ ∀ w, c.str w ps = none :=
  ⟨[e ["args", "n", "nope"]], _, [argN true false], ctxOf userData [("n".toList, .int 1)], by decide, List.mem_cons_self,
    agrees _ _ (by
      intro a ha _
      simp only [List.mem_cons, List.not_mem_nil, or_false] at ha
      subst ha
      exact ⟨.int 1, rfl, by simp⟩), fun _ => rfl⟩

/-- A nullable argument with a default is accepted, but a client can send null. -/
theorem C82_violated_by_explicit_null :
    ∃ (url : Template) (ps : List Text) (args : List TArg) (c : Ctx),
      validateResolver conf userFields args (callsOf url) one = [] ∧
      Seg.expr ps ∈ url ∧ Agrees conf "User".toList args c ∧
      c.args = some [("n".toList, .null)] ∧ ∀ w, c.str w ps = none :=
  ⟨[e ["args", "n"]], _, [argN false true], ctxOf userData [("n".toList, .null)], by decide, List.mem_cons_self,
    agrees _ _ (by
      intro a ha hn
      simp only [List.mem_cons, List.not_mem_nil, or_false] at ha
      subst ha
      simp [argN, Ty.isNullable] at hn), rfl, fun _ => rfl⟩

/-- With `select` the resolver is a pipe, whose templates are not checked at all. -/
theorem C82_violated_by_select :
    ∃ (url : Template) (ps : List Text) (sel : Verif.Ir.Dyn) (c : Ctx),
      validateResolver conf userFields [] (callsOf url) (.pipe one (.dynamic sel)) = [] ∧
      Seg.expr ps ∈ url ∧ Agrees conf "User".toList [] c ∧ ∀ w, c.str w ps = none :=
  ⟨[e ["value", "nope"]], _, .value .null, ctxOf userData [], rfl, List.mem_cons_self, agrees _ _ (by simp), fun _ => rfl⟩

/-- The headers and the body of an HTTP call are not checked. -/
theorem C82_violated_by_headers_and_body :
    ∃ (t : Template) (ps : List Text), Seg.expr ps ∈ t ∧ (∀ w c, Ctx.str w c ps = none) ∧
      ∀ k fs args, validateCall k fs args (.http [] [] [("h".toList, t)] (some t)) = [] :=
  ⟨[e ["nothing", "at", "all"]], _, List.mem_cons_self, fun _ _ => rfl, fun _ _ _ => rfl⟩

/-- A field of the query type may use a sibling field, although there is no parent's value. -/
theorem C82_violated_by_root :
    ∃ (url : Template) (ps : List Text), validateResolver conf userFields [] (callsOf url) one = [] ∧
      Seg.expr ps ∈ url ∧ ∀ w (c : Ctx), c.value = none → c.valueO = none → c.str w ps = none := by
  refine ⟨[e ["value", "id"]], _, by decide, List.mem_cons_self, fun w c h1 h2 => ?_⟩
  have h : c.pathValue ["id".toList] = none := by simp [Ctx.pathValue, h1, h2]
  unfold Ctx.str RCtx.str
  simp only [List.map_cons, List.map_nil, Ctx.raw, if_true, h, Option.map_none]

/-! ## C83: query parameters send scalars -/

mutual
/-- No object anywhere. -/
def flat : GVal → Bool
  | .obj _ => false
  | .list l => flats l
  | _ => true
/-- No object in any of the values. -/
def flats : List GVal → Bool
  | [] => true
  | v :: l => flat v && flats l
end

theorem flats_iff (l : List GVal) : flats l = true ↔ ∀ v ∈ l, flat v = true := by
  induction l with
  | nil => simp [flats]
  | cons a l ih => simp [flats, ih]

/-- No argument or field has a type that allows any value. -/
def noAny (k : Conf) (args : List TArg) : Bool :=
  args.all (fun a => !anyScalar a.ty.name) && k.types.all (fun p => p.2.all (fun f => !anyScalar f.2.ty.name))

theorem conforms_leaf {k : Conf} {up : Bool} {ty : Ty} {v : GVal} (h : Conforms k up ty v)
    (ha : anyScalar ty.name = false) (ht : Verif.Merge.get ty.name k.types = none) : flat v = true := by
  induction h with
  | null => rfl
  | list _ ih => simp only [flat, flats_iff]; exact fun v hv => ih v hv ha ht
  | @scalar t nn v _ _ hl => cases v <;> simp [literal, flat] at hl ⊢
  | any h => simp only [Ty.name] at ha; rw [h] at ha; simp at ha
  | enum => split <;> rfl
  | obj h => simp only [Ty.name] at ht; rw [h] at ht; simp at ht

theorem path_flat {k : Conf}
    (hk : ∀ t fs, Verif.Merge.get t k.types = some fs → ∀ n f, Verif.Merge.get n fs = some f → anyScalar f.ty.name = false) :
    ∀ (path : List Text) (ty : Ty) (v u : GVal), Conforms k false ty v → anyScalar ty.name = false →
      (∀ n ∈ path, parseUsize n = none) → pathValidator k ty.name path = none → getPath v path = some u → flat u = true := by
  intro path
  induction path with
  | nil =>
    intro ty v u hc ha _ hp hg
    simp only [getPath, Option.some.injEq] at hg
    subst hg
    unfold pathValidator at hp
    cases ht : Verif.Merge.get ty.name k.types with
    | none => exact conforms_leaf hc ha ht
    | some fs => rw [ht] at hp; simp at hp
  | cons n r ih =>
    intro ty v u hc ha hn hp hg
    unfold getPath at hg
    cases v with
    | obj kvs =>
      cases hc with
      | scalar _ _ hl => simp [literal] at hl
      | any h => simp only [Ty.name] at ha; rw [h] at ha; simp at ha
      | obj ht _ h3 =>
        simp only [pathValidator, Ty.name, ht] at hp
        simp only at hg
        split at hp
        · rename_i f hf
          split at hg
          · rename_i w hw
            exact ih f.ty w u (h3 n f w hf (by simp) hw) (hk _ _ ht n f hf) (fun m hm => hn m (List.mem_cons_of_mem _ hm))
              hp hg
          · simp at hg
        · simp at hp
    | list l =>
      simp only [hn n List.mem_cons_self] at hg
      simp at hg
    | _ => simp at hg

/-- C83, the part that holds: an expression of an accepted query parameter that reads an argument never
gives an object, for arguments that agree with their types.

Missing from the full statement: that there is a value whenever the objects on the way are given, see
`C83_violated_by_list` and `C83_violated_by_path_into_scalar`. -/
theorem C83_no_object_partial (k : Conf) (args : List TArg) (hn : noAny k args = true)
    (query : List (Text × Template)) (h : validateQuery k args query = []) (key : Text) (t : Template)
    (hq : (key, t) ∈ query) (n : Text) (path : List Text) (hp : Seg.expr ("args".toList :: n :: path) ∈ t)
    (hnum : ∀ m ∈ path, parseUsize m = none) (w : World) (c : Ctx) (ho : c.argsO = none) (as : List (Text × GVal))
    (has : c.args = some as) (hc : ∀ a ∈ args, ∀ v, Verif.Merge.get a.name as = some v → Conforms k false a.ty v)
    (o : Bool) (u : GVal) (hr : c.raw w ("args".toList :: n :: path) = some (.value o u)) : flat u = true := by
  unfold validateQuery at h
  rw [List.filterMap_eq_nil_iff] at h
  have hv := h ("args".toList :: n :: path) (by
    rw [List.mem_flatten]
    refine ⟨exprs t, ?_, ?_⟩
    · rw [List.map_map]
      exact List.mem_map.mpr ⟨(key, t), hq, rfl⟩
    · unfold exprs
      rw [List.mem_filterMap]
      exact ⟨_, hp, rfl⟩)
  have hcon : containsText "args".toList "args".toList = true := by decide
  simp only [validateArgExpr, hcon, if_true] at hv
  simp only [noAny, Bool.and_eq_true, List.all_eq_true, Bool.not_eq_true'] at hn
  cases hf : args.find? (fun a => a.name == n) with
  | none => rw [hf] at hv; simp at hv
  | some a =>
    rw [hf] at hv
    have hm := List.mem_of_find?_eq_some hf
    have hname : a.name = n := by have := List.find?_some hf; simpa using this
    have hne : ("args".toList : Text) ≠ "value".toList := by decide
    simp only [Ctx.raw, hne, if_false, if_true, Ctx.pathArg, ho, has] at hr
    cases hg : Verif.Merge.get n as with
    | none => rw [hg] at hr; simp at hr
    | some v =>
      rw [hg] at hr
      simp only [Option.map_eq_some_iff, VS.value.injEq] at hr
      obtain ⟨u', hu', _, rfl⟩ := hr
      refine path_flat ?_ path a.ty v u' (hc a hm v (by rw [hname]; exact hg)) (hn.1 a hm) hnum hv hu'
      intro t fs ht m f hmf
      exact hn.2 (t, fs) (get_mem ht) (m, f) (get_mem hmf)

/-- An argument of an input type. -/
def argF : TArg := ⟨"f".toList, .named "Filter".toList false, false⟩

theorem filter_conforms (s : Text) : Conforms conf false (.named "Filter".toList false)
    (.obj [("name".toList, .str s)]) := by
  refine .obj (fs := [("name".toList, ⟨.named "String".toList true, false⟩)]) rfl ?_ ?_
  · intro n f hf _ _
    simp only [Verif.Merge.get] at hf ⊢
    split at hf
    · rename_i h; simp [h]
    · simp at hf
  · intro n f v hf _ hv
    simp only [Verif.Merge.get] at hf hv
    split at hf
    · rename_i h
      simp only [h, if_true, Option.some.injEq] at hv hf
      subst hv; subst hf
      exact .scalar (by decide) (by decide) rfl
    · simp at hf

example : flat (.str "x".toList) = true :=
  C83_no_object_partial conf [argF] (by decide)
    [("q".toList, [e ["args", "f", "name"]])] (by decide) "q".toList _ List.mem_cons_self "f".toList ["name".toList]
    List.mem_cons_self (by decide) quiet (ctxOf userData [("f".toList, .obj [("name".toList, .str "x".toList)])]) rfl _ rfl
    (by
      intro a ha v hv
      simp only [List.mem_cons, List.not_mem_nil, or_false] at ha
      subst ha
      obtain rfl := Option.some.inj hv
      exact filter_conforms _) false _ rfl

/-- Without the check an object could be sent. -/
example : validateQuery conf [argF] [("q".toList, [e ["args", "f"]])] ≠ [] := by decide

/-- A path through a list of input objects is accepted, but has no value. -/
theorem C83_violated_by_list :
    ∃ (args : List TArg) (t : Template) (ps : List Text) (c : Ctx) (s : Text), validateQuery conf args [("q".toList, t)] = [] ∧
      Seg.expr ps ∈ t ∧ c.args = some [("f".toList, .list [.obj [("name".toList, .str s)]])] ∧
      (∀ a ∈ args, Conforms conf false a.ty (.list [.obj [("name".toList, .str s)]])) ∧ ∀ w, c.raw w ps = none := by
  refine ⟨[⟨"f".toList, .list (.named "Filter".toList false) false, false⟩], [e ["args", "f", "name"]], _,
    ctxOf userData [("f".toList, .list [.obj [("name".toList, .str [])]])], [], by decide, List.mem_cons_self, rfl, ?_,
    fun _ => rfl⟩
  intro a ha
  simp only [List.mem_cons, List.not_mem_nil, or_false] at ha
  subst ha
  refine .list ?_
  intro v hv
  simp only [List.mem_cons, List.not_mem_nil, or_false] at hv
  subst hv
  exact filter_conforms _

/-- What follows a scalar in a path is not checked. -/
theorem C83_violated_by_path_into_scalar :
    ∃ (args : List TArg) (t : Template) (ps : List Text) (c : Ctx), validateQuery conf args [("q".toList, t)] = [] ∧
      Seg.expr ps ∈ t ∧ c.args = some [("n".toList, .int 1)] ∧ (∀ a ∈ args, Conforms conf false a.ty (.int 1)) ∧
      ∀ w, c.raw w ps = none := by
  refine ⟨[argN true false], [e ["args", "n", "nope"]], _, ctxOf userData [("n".toList, .int 1)], by decide,
    List.mem_cons_self, rfl, ?_, fun _ => rfl⟩
  intro a ha
  simp only [List.mem_cons, List.not_mem_nil, or_false] at ha
  subst ha
  exact .scalar (by decide) (by decide) rfl

end Verif.Tmpl

