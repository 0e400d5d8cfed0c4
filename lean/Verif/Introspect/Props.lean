import Verif.Introspect.Spec
import Verif.Transform.Lemmas

/-!
# C129, C130 and C131: what clients get to know about the schema
-/

set_option linter.unusedSimpArgs false

namespace Verif.Introspect

open Verif.Mustache (Text)
open Verif.Exec (Ty)
open Verif.HttpUrl (GVal)
open Verif.Transform (get insert get_insert)

/-! ## C129: clients get to know what is configured -/

theorem printRef_toRef (t : Ty) : printRef (toRef t) = printTy t := by
  induction t with
  | named n nn => cases nn <;> simp [toRef, printRef, printTy]
  | list t nn ih => cases nn <;> simp [toRef, printRef, printTy, ih]

theorem name_toRef (t : Ty) : (toRef t).name = t.name := by
  induction t with
  | named n nn => cases nn <;> simp [toRef, TRef.name, Ty.name]
  | list t nn ih => cases nn <;> simp [toRef, TRef.name, Ty.name, ih]

theorem get_defs : ∀ (defs : List Def) (s : Schema) (n : Text),
    ((∀ d ∈ defs, d.name ≠ n) → get (defs.foldl (fun s d => insert s d.name (toType d)) s) n = get s n) ∧
    (∀ d ∈ defs, d.name = n → (defs.map Def.name).Nodup →
      get (defs.foldl (fun s d => insert s d.name (toType d)) s) n = some (toType d)) := by
  intro defs
  induction defs with
  | nil => intro s n; simp
  | cons d r ih =>
    intro s n
    simp only [List.foldl_cons]
    obtain ⟨h1, h2⟩ := ih (insert s d.name (toType d)) n
    constructor
    · intro h
      rw [h1 (fun e he => h e (List.mem_cons_of_mem _ he)), get_insert, if_neg]
      exact fun e => h d List.mem_cons_self e.symm
    · intro e he hn hnd
      rw [List.map_cons, List.nodup_cons] at hnd
      rcases List.mem_cons.mp he with rfl | he
      · rw [h1, get_insert, if_pos hn.symm]
        intro x hx hxn
        exact hnd.1 (List.mem_map.mpr ⟨x, hx, by rw [hxn, hn]⟩)
      · exact h2 e he hn hnd.2

theorem get_scalars : ∀ (l : List Text) (s : Schema) (n : Text),
    get (l.foldl injectScalar s) n = if n ∈ l ∧ n ∈ customScalars then some (.scalar none) else get s n := by
  intro l
  induction l with
  | nil => intro s n; simp
  | cons m r ih =>
    intro s n
    rw [List.foldl_cons, ih]
    by_cases hr : n ∈ r ∧ n ∈ customScalars
    · rw [if_pos hr, if_pos ⟨List.mem_cons_of_mem _ hr.1, hr.2⟩]
    · rw [if_neg hr]
      unfold injectScalar
      by_cases hm : m ∈ customScalars
      · rw [if_pos hm, get_insert]
        by_cases hn : n = m
        · rw [if_pos hn, if_pos]
          subst hn
          exact ⟨List.mem_cons_self, hm⟩
        · rw [if_neg hn, if_neg]
          rintro ⟨h1, h2⟩
          rcases List.mem_cons.mp h1 with h | h
          · exact hn h
          · exact hr ⟨h, h2⟩
      · rw [if_neg hm, if_neg]
        rintro ⟨h1, h2⟩
        rcases List.mem_cons.mp h1 with rfl | h
        · exact hm h2
        · exact hr ⟨h, h2⟩

theorem get_toSchema {defs : List Def} (hnd : (defs.map Def.name).Nodup) {d : Def} (hd : d ∈ defs) :
    get (toSchema defs) d.name = some (toType d) := (get_defs defs _ d.name).2 d hd rfl hnd

theorem get_other {defs : List Def} {n : Text} (h : ∀ d ∈ defs, d.name ≠ n) :
    get (toSchema defs) n = if n ∈ defs.flatMap fieldTypes ∧ n ∈ customScalars then some (.scalar none) else none := by
  unfold toSchema
  rw [(get_defs defs _ n).1 h, get_scalars]
  rfl

theorem shows_about {n : Text} {t : DType} {x : Fact} (h : Shows n t x) : x.about = n := by
  cases h <;> first | rfl | (rename_i hf; cases hf <;> rfl)

theorem says_about {d : Def} {x : Fact} (h : Says d x) : x.about = d.name := by
  cases h <;> first | rfl | (rename_i hf; cases hf <;> rfl)

theorem field_shows {t : Text} {f : FieldDef} {x : Fact} (h : FieldShows t (toField f) x) : FieldSays t f x := by
  cases h with
  | field => rw [show (toField f).ty = toRef f.ty from rfl, printRef_toRef]; exact .field
  | descr h => exact .descr h
  | arg h =>
    obtain ⟨a, ha, rfl⟩ := List.mem_map.mp h
    rw [show (toArg a).ty = toRef a.ty from rfl, printRef_toRef]
    exact .arg ha
  | argDefault h hv =>
    obtain ⟨a, ha, rfl⟩ := List.mem_map.mp h
    exact .argDefault ha hv
  | argDescr h hv =>
    obtain ⟨a, ha, rfl⟩ := List.mem_map.mp h
    cases hv

theorem says_of_shows {d : Def} {x : Fact} (h : Shows d.name (toType d) x) : Says d x := by
  cases d with
  | interface n fs de is =>
    cases h with
    | interface => exact .interface
    | interfaceField hf hx =>
      obtain ⟨f, hfm, rfl⟩ := List.mem_map.mp hf
      refine .interfaceField hfm ?_
      cases hx with
      | field => rw [show (toInterfaceField f).ty = toRef f.ty from rfl, printRef_toRef]; exact .field
      | descr h => cases h
      | arg h => cases h
      | argDefault h _ => cases h
      | argDescr h _ => cases h
    | interfaceImplements h => cases h
  | object n fs de is =>
    simp only [toType] at h
    cases h with
    | object => exact .object
    | objectDescr => exact .objectDescr
    | objectField hf hx =>
      obtain ⟨f, hfm, rfl⟩ := List.mem_map.mp hf
      exact .objectField hfm (field_shows hx)
    | objectImplements h => exact .objectImplements h
  | input n fs de =>
    simp only [toType] at h
    cases h with
    | input => exact .input
    | inputDescr => exact .inputDescr
    | inputField hf =>
      obtain ⟨f, hfm, rfl⟩ := List.mem_map.mp hf
      rw [show (toInputField f).ty = toRef f.ty from rfl, printRef_toRef]
      exact .inputField hfm
    | inputFieldDefault hf hv =>
      obtain ⟨f, hfm, rfl⟩ := List.mem_map.mp hf
      exact .inputFieldDefault hfm hv
    | inputFieldDescr hf hv =>
      obtain ⟨f, hfm, rfl⟩ := List.mem_map.mp hf
      exact .inputFieldDescr hfm hv
  | scalar n de =>
    simp only [toType] at h
    cases h with
    | scalar => exact .scalar
    | scalarDescr => exact .scalarDescr
  | enum n vs de =>
    simp only [toType] at h
    cases h with
    | enum => exact .enum
    | enumDescr => exact .enumDescr
    | value hv =>
      obtain ⟨v, hvm, rfl⟩ := List.mem_map.mp hv
      exact Says.value (v := v) hvm
    | valueDescr hv =>
      obtain ⟨v, hv, he⟩ := List.mem_map.mp hv
      cases he
  | union n ts de =>
    cases h with
    | union => exact .union
    | member h => exact .member h

/-- **C129 (nothing false).** Whatever a client is told about a defined type is what its definition says. -/
theorem C129_true (defs : List Def) (hnd : (defs.map Def.name).Nodup) (d : Def) (hd : d ∈ defs) (x : Fact)
    (hx : x.about = d.name) (h : Shown (toSchema defs) x) : Says d x := by
  obtain ⟨n, t, hg, hs⟩ := h
  have hn : n = d.name := by rw [← shows_about hs, hx]
  subst hn
  rw [get_toSchema hnd hd] at hg
  injection hg with hg
  subst hg
  exact says_of_shows hs

/-- **C129 (everything, partial).** A client is told whatever the definition of a type says.

Missing from the full statement: descriptions of arguments, values, interfaces and unions, and of interfaces the
arguments and interfaces; `C129_violated_by_loss` proves that they are never told. -/
theorem C129_told_partial (defs : List Def) (hnd : (defs.map Def.name).Nodup) (d : Def) (hd : d ∈ defs) (x : Fact)
    (h : Says d x) (hl : ¬ Lost d x) : Shown (toSchema defs) x := by
  refine ⟨d.name, toType d, get_toSchema hnd hd, ?_⟩
  cases h with
  | interface => exact .interface
  | object => exact .object
  | input => exact .input
  | scalar => exact .scalar
  | enum => exact .enum
  | union => exact .union
  | objectDescr => exact .objectDescr
  | inputDescr => exact .inputDescr
  | scalarDescr => exact .scalarDescr
  | enumDescr => exact .enumDescr
  | interfaceDescr => exact absurd trivial hl
  | unionDescr => exact absurd trivial hl
  | interfaceField hf hx =>
    cases hx with
    | field => rw [← printRef_toRef]; exact .interfaceField (List.mem_map_of_mem hf) .field
    | descr _ => exact absurd trivial hl
    | arg _ => exact absurd trivial hl
    | argDefault _ _ => exact absurd trivial hl
    | argDescr _ _ => exact absurd trivial hl
  | objectField hf hx =>
    refine .objectField (List.mem_map_of_mem hf) ?_
    cases hx with
    | field => rw [← printRef_toRef]; exact .field
    | descr h => exact .descr h
    | @arg a h =>
      rw [← printRef_toRef]
      exact FieldShows.arg (f := toField _) (a := toArg a) (List.mem_map_of_mem h)
    | @argDefault a v h hv =>
      exact FieldShows.argDefault (f := toField _) (a := toArg a) (List.mem_map_of_mem h) hv
    | argDescr _ _ => exact absurd trivial hl
  | inputField hf => rw [← printRef_toRef]; exact .inputField (List.mem_map_of_mem hf)
  | inputFieldDefault hf hv => exact .inputFieldDefault (List.mem_map_of_mem hf) hv
  | inputFieldDescr hf hv => exact .inputFieldDescr (List.mem_map_of_mem hf) hv
  | interfaceImplements _ => exact absurd trivial hl
  | objectImplements h => exact .objectImplements h
  | @value n vs de v hv =>
    exact Shows.value (v := (v.1, none)) (List.mem_map.mpr ⟨v, hv, rfl⟩)
  | valueDescr _ => exact absurd trivial hl
  | member h => exact .member h

/-- **C129 (violated by loss).** Descriptions of arguments, values, interfaces and unions, and of interfaces the
arguments, the descriptions of fields and the interfaces, are never told, whatever is configured. -/
theorem C129_violated_by_loss (defs : List Def) (hnd : (defs.map Def.name).Nodup) (d : Def) (hd : d ∈ defs) (x : Fact)
    (hx : x.about = d.name) (hl : Lost d x) : ¬ Shown (toSchema defs) x := by
  rintro ⟨n, t, hg, hs⟩
  have hn : n = d.name := by rw [← shows_about hs, hx]
  subst hn
  rw [get_toSchema hnd hd] at hg
  injection hg with hg
  subst hg
  cases d with
  | interface n fs de is =>
    cases hs with
    | interface => exact hl
    | interfaceField hf hx =>
      obtain ⟨f, hfm, rfl⟩ := List.mem_map.mp hf
      cases hx with
      | field => exact hl
      | descr h => cases h
      | arg h => cases h
      | argDefault h _ => cases h
      | argDescr h _ => cases h
    | interfaceImplements h => cases h
  | object n fs de is =>
    simp only [toType] at hs
    cases hs with
    | object => exact hl
    | objectDescr => exact hl
    | objectField hf hx =>
      obtain ⟨f, hfm, rfl⟩ := List.mem_map.mp hf
      cases hx with
      | field => exact hl
      | descr h => exact hl
      | arg h => exact hl
      | argDefault h _ => exact hl
      | argDescr h hv =>
        obtain ⟨a, ha, rfl⟩ := List.mem_map.mp h
        cases hv
    | objectImplements h => exact hl
  | input n fs de =>
    simp only [toType] at hs
    cases hs <;> exact hl
  | scalar n de =>
    simp only [toType] at hs
    cases hs <;> exact hl
  | enum n vs de =>
    simp only [toType] at hs
    cases hs with
    | enum => exact hl
    | enumDescr => exact hl
    | value hv => exact hl
    | valueDescr hv =>
      obtain ⟨v, hv, he⟩ := List.mem_map.mp hv
      cases he
  | union n ts de =>
    cases hs with
    | union => exact hl
    | member h => exact hl

theorem fieldNames_eq (d : Def) : fieldNames d = fieldTypes d := by
  cases d <;> rfl

/-- **C129 (nothing else).** The only other types are the scalars of tailcall that are the types of fields, and
all that is told about them is that they are scalars. -/
theorem C129_others (defs : List Def) (x : Fact) (hx : ∀ d ∈ defs, d.name ≠ x.about) :
    Shown (toSchema defs) x ↔ x.about ∈ customScalars ∧ x = .kind x.about .scalar ∧
      ∃ d ∈ defs, x.about ∈ fieldNames d := by
  constructor
  · rintro ⟨n, t, hg, hs⟩
    have hn := shows_about hs
    subst hn
    rw [get_other hx] at hg
    split at hg
    · rename_i h
      injection hg with hg
      subst hg
      refine ⟨h.2, ?_, by simpa only [fieldNames_eq] using List.mem_flatMap.mp h.1⟩
      generalize hx' : x.about = n at hs
      cases hs
      rfl
    · cases hg
  · rintro ⟨h1, h2, h3⟩
    simp only [fieldNames_eq] at h3
    refine ⟨x.about, .scalar none, ?_, ?_⟩
    · rw [get_other hx, if_pos ⟨List.mem_flatMap.mpr h3, h1⟩]
    · generalize hx' : x.about = n at h2
      rw [h2]
      exact .scalar

/-! ## C130: a configuration is refused only if it names a type that does not exist -/

theorem mentions_eq {d : Def} (hi : ∀ n fs de is, d ≠ .interface n fs de is) : mentions (toType d) = d.names := by
  cases d with
  | interface n fs de is => exact absurd rfl (hi n fs de is)
  | object n fs de is =>
    simp only [toType, mentions, Def.names, List.flatMap_map]
    congr 1
    congr 1
    funext f
    simp only [toField, name_toRef, List.map_map, List.cons.injEq, true_and]
    apply List.map_congr_left
    intro a _
    simp [toArg, name_toRef]
  | input n fs de =>
    simp only [toType, mentions, Def.names, List.map_map]
    apply List.map_congr_left
    intro a _
    simp [toInputField, name_toRef]
  | scalar n de => rfl
  | enum n vs de => rfl
  | union n ts de => rfl

theorem mentions_sub {d : Def} {n : Text} (h : n ∈ mentions (toType d)) : n ∈ d.names := by
  by_cases hi : ∀ n fs de is, d ≠ .interface n fs de is
  · rwa [mentions_eq hi] at h
  · cases d with
    | interface m fs de is =>
      simp only [toType, mentions, List.append_nil, List.mem_flatMap, List.mem_map] at h
      obtain ⟨f, ⟨g, hg, rfl⟩, hf⟩ := h
      simp only [toInterfaceField, List.map_nil, List.mem_singleton, name_toRef] at hf
      subst hf
      exact List.mem_append_left _ (List.mem_flatMap.mpr ⟨g, hg, List.mem_cons_self⟩)
    | _ => exact absurd (by intros; simp) hi

theorem fieldTypes_mentions {d : Def} {n : Text} (h : n ∈ fieldTypes d) : n ∈ mentions (toType d) := by
  cases d with
  | interface m fs de is =>
    obtain ⟨f, hf, rfl⟩ := List.mem_map.mp h
    exact List.mem_append_left _ (List.mem_flatMap.mpr ⟨_, List.mem_map_of_mem hf, by simp [toInterfaceField, name_toRef]⟩)
  | object m fs de is =>
    obtain ⟨f, hf, rfl⟩ := List.mem_map.mp h
    exact List.mem_append_left _ (List.mem_flatMap.mpr ⟨_, List.mem_map_of_mem hf, by simp [toField, name_toRef]⟩)
  | input m fs de =>
    obtain ⟨f, hf, rfl⟩ := List.mem_map.mp h
    exact List.mem_map.mpr ⟨_, List.mem_map_of_mem hf, by simp [toInputField, name_toRef]⟩
  | scalar _ _ => cases h
  | enum _ _ _ => cases h
  | union _ _ _ => cases h

theorem get_mem {α : Type} {l : List (Text × α)} {k : Text} {a : α} (h : get l k = some a) : (k, a) ∈ l := by
  induction l with
  | nil => cases h
  | cons p r ih =>
    obtain ⟨k', a'⟩ := p
    simp only [Verif.Transform.get] at h
    split at h
    · rename_i hk
      injection h with h
      subst hk h
      exact List.mem_cons_self
    · exact List.mem_cons_of_mem _ (ih h)

theorem mem_insert {α : Type} {l : List (Text × α)} {k : Text} {a : α} {p : Text × α} (h : p ∈ insert l k a) :
    p = (k, a) ∨ p ∈ l := by
  unfold Verif.Transform.insert Verif.Transform.remove at h
  rcases List.mem_cons.mp h with h | h
  · exact Or.inl h
  · exact Or.inr (List.mem_filter.mp h).1

theorem mem_toSchema {defs : List Def} {p : Text × DType} (h : p ∈ toSchema defs) :
    (∃ d ∈ defs, p = (d.name, toType d)) ∨ p.2 = .scalar none := by
  have h2 : ∀ (l : List Text) (s : Schema), (∀ q ∈ s, q.2 = .scalar none) → ∀ q ∈ l.foldl injectScalar s, q.2 = .scalar none := by
    intro l
    induction l with
    | nil => intro s hs; exact hs
    | cons n r ih =>
      intro s hs
      refine ih _ ?_
      intro q hq
      unfold injectScalar at hq
      split at hq
      · rcases mem_insert hq with rfl | hq
        · rfl
        · exact hs q hq
      · exact hs q hq
  have h1 : ∀ (ds : List Def) (s : Schema), (∀ d ∈ ds, d ∈ defs) →
      (∀ q ∈ s, (∃ d ∈ defs, q = (d.name, toType d)) ∨ q.2 = .scalar none) →
      ∀ q ∈ ds.foldl (fun s d => insert s d.name (toType d)) s, (∃ d ∈ defs, q = (d.name, toType d)) ∨ q.2 = .scalar none := by
    intro ds
    induction ds with
    | nil => intro s _ hs; exact hs
    | cons d r ih =>
      intro s hm hs
      refine ih _ (fun e he => hm e (List.mem_cons_of_mem _ he)) ?_
      intro q hq
      rcases mem_insert hq with rfl | hq
      · exact Or.inl ⟨d, hm d List.mem_cons_self, rfl⟩
      · exact hs q hq
  exact h1 defs _ (fun _ h => h) (fun q hq => Or.inr (h2 _ [] (by simp) q hq)) p h

/-- **C130 (acceptance, partial).** A configuration that only names types that exist is not refused for a missing
type.

Missing from the full statement: a scalar of tailcall that is the type of an argument has to be the type of a
field, too (`C130_violated_by_arguments`). -/
theorem C130_accepted_partial (defs : List Def) (hnd : (defs.map Def.name).Nodup)
    (h : ∀ d ∈ defs, ∀ n ∈ d.names, Exists defs n)
    (hs : ∀ d ∈ defs, ∀ n ∈ d.names, n ∈ customScalars → ∃ e ∈ defs, n = e.name ∨ n ∈ fieldNames e) :
    finishes (toSchema defs) = true := by
  unfold finishes
  rw [List.all_eq_true]
  intro p hp
  rw [List.all_eq_true]
  intro n hn
  rcases mem_toSchema hp with ⟨d, hd, rfl⟩ | h0
  · have hnn := mentions_sub hn
    simp only [Bool.or_eq_true, decide_eq_true_eq]
    have hdef : ∀ e ∈ defs, n = e.name → (get (toSchema defs) n).isSome = true := by
      rintro e he rfl
      rw [get_toSchema hnd he]
      rfl
    rcases h d hd n hnn with h1 | h1 | ⟨e, he, hen⟩
    · exact Or.inl h1
    · right
      by_cases hall : ∀ e ∈ defs, e.name ≠ n
      · rw [get_other hall]
        obtain ⟨e, he, hx | hx⟩ := hs d hd n hnn h1
        · exact absurd hx.symm (hall e he)
        · rw [if_pos ⟨List.mem_flatMap.mpr ⟨e, he, by rw [fieldNames_eq] at hx; exact hx⟩, h1⟩]
          rfl
      · simp only [ne_eq, Classical.not_forall] at hall
        obtain ⟨e, he, hx⟩ := hall
        exact hdef e he (Classical.not_not.mp hx).symm
    · exact Or.inr (hdef e he hen.symm)
  · rw [h0] at hn
    cases hn

/-- **C130 (refusal, partial).** A configuration that names a type that does not exist is refused.

Missing from the full statement: names in arguments of the fields of interfaces, and of interfaces that an
interface implements, are not looked at (`C130_violated_by_interfaces`). -/
theorem C130_refused_partial (defs : List Def) (hnd : (defs.map Def.name).Nodup) (d : Def) (hd : d ∈ defs)
    (hi : ∀ n fs de is, d ≠ .interface n fs de is) (n : Text) (hn : n ∈ d.names) (hx : ¬ Exists defs n) :
    finishes (toSchema defs) = false := by
  rw [Bool.eq_false_iff]
  intro hf
  unfold finishes at hf
  rw [List.all_eq_true] at hf
  have h1 := hf _ (get_mem (get_toSchema hnd hd))
  rw [List.all_eq_true] at h1
  have h2 := h1 n (by rw [mentions_eq hi]; exact hn)
  simp only [Bool.or_eq_true, decide_eq_true_eq] at h2
  rcases h2 with h2 | h2
  · exact hx (Or.inl h2)
  · rw [get_other (fun e he hen => hx (Or.inr (Or.inr ⟨e, he, hen⟩)))] at h2
    split at h2
    · rename_i h3
      exact hx (Or.inr (Or.inl h3.2))
    · cases h2

/-- A query with a field that has an argument. -/
def emailArg : List Def :=
  [.object "Query".toList [⟨"find".toList, [⟨"by".toList, .named "Email".toList true, none, none⟩],
    .named "String".toList false, none⟩] none []]

/-- **C130 (violated by arguments).** A scalar of tailcall that only arguments have is not found. -/
theorem C130_violated_by_arguments : (∀ d ∈ emailArg, ∀ n ∈ d.names, Exists emailArg n) ∧
    finishes (toSchema emailArg) = false := by
  refine ⟨?_, by decide +kernel⟩
  intro d hd n hn
  simp only [emailArg, List.mem_singleton] at hd
  subst hd
  simp only [Def.names, List.flatMap_cons, List.flatMap_nil, List.map_cons, List.map_nil, List.append_nil,
    List.mem_cons, List.not_mem_nil, or_false, Ty.name] at hn
  rcases hn with rfl | rfl
  · exact Or.inl (by decide +kernel)
  · exact Or.inr (Or.inl (by decide +kernel))

/-- An interface whose field has an argument of a type that does not exist. -/
def badInterface : List Def :=
  [.interface "Node".toList [⟨"id".toList, [⟨"by".toList, .named "Nothing".toList false, none, none⟩],
    .named "ID".toList false, none⟩] none ["Nobody".toList]]

/-- **C130 (violated by interfaces).** Arguments and interfaces of an interface are not looked at. -/
theorem C130_violated_by_interfaces : (∃ d ∈ badInterface, ∃ n ∈ d.names, ¬ Exists badInterface n) ∧
    finishes (toSchema badInterface) = true := by
  refine ⟨⟨_, List.mem_cons_self, "Nothing".toList, by simp [Def.names, Ty.name], ?_⟩, by decide +kernel⟩
  rintro (h | h | ⟨d, hd, h⟩)
  · exact absurd h (by decide +kernel)
  · exact absurd h (by decide +kernel)
  · simp only [badInterface, List.mem_singleton] at hd
    subst hd
    exact absurd h (by decide +kernel)

/-! ## C131: questions about the schema are answered beside the others, if that is enabled -/

/-- **C131 (disabled).** If introspection is disabled the answer does not depend on the schema. -/
theorem C131_disabled (sels : List Sel) (own i1 i2 : Resp) : answer false sels own i1 = answer false sels own i2 := by
  simp [answer]

theorem contains_self (p : Text) : contains p p = true := by
  cases p with
  | nil => rfl
  | cons c r =>
    unfold contains
    have : List.isPrefixOf (c :: r) (c :: r) = true := by
      rw [List.isPrefixOf_iff_prefix]
      exact List.prefix_rfl
    rw [this]
    rfl

theorem get_append {α : Type} (l r : List (Text × α)) (k : Text) : get (l ++ r) k = (get l k).or (get r k) := by
  induction l with
  | nil => simp [Verif.Transform.get]
  | cons p l ih =>
    obtain ⟨k', a⟩ := p
    simp only [List.cons_append, Verif.Transform.get]
    split
    · rfl
    · exact ih

theorem get_mergeObj : ∀ (o s : List (Text × GVal)) (k : Text), get (mergeObj s o) k = (get s k).or (get o k) := by
  intro o
  induction o with
  | nil => intro s k; simp [mergeObj, Verif.Transform.get]
  | cons p r ih =>
    obtain ⟨j, v⟩ := p
    intro s k
    simp only [mergeObj]
    split
    · rename_i hj
      rw [ih, get_append]
      simp only [Verif.Transform.get]
      by_cases hk : j = k
      · subst hk
        cases hs : get s j with
        | none => simp
        | some x => rw [hs] at hj; cases hj
      · simp [if_neg hk]
    · rename_i hj
      rw [ih]
      simp only [Verif.Transform.get]
      by_cases hk : j = k
      · subst hk
        cases hs : get s j with
        | none => rw [hs] at hj; exact absurd rfl hj
        | some x => rfl
      · simp [if_neg hk]

/-- **C131 (merged, partial).** If one of the fields asked for is about the schema, the answer has for every key
the value that the fields have, and else the one about the schema; and all errors of both.

Missing from the full statement: questions in fragments (`C131_violated_by_fragments`), the order of keys
(`C131_violated_by_order`), and an answer that is null (`C131_violated_by_null`). -/
theorem C131_merged_partial (sels : List Sel) (n : Text) (hn : Sel.field n ∈ sels)
    (hs : n = "__schema".toList ∨ n = "__type".toList) (own intro : Resp) (s o : List (Text × GVal))
    (h1 : own.data = .obj s) (h2 : intro.data = .obj o) :
    (∃ l, (answer true sels own intro).data = .obj l ∧ (∀ k v, get s k = some v → get l k = some v) ∧
      (∀ k, get s k = none → get l k = get o k)) ∧
    (answer true sels own intro).errors = own.errors ++ intro.errors := by
  have hi : isIntrospection sels = true := by
    unfold isIntrospection
    rw [List.any_eq_true]
    refine ⟨_, hn, ?_⟩
    rcases hs with rfl | rfl
    · simp only [contains_self, Bool.true_or]
    · simp only [contains_self, Bool.or_true]
  simp only [answer, hi, Bool.and_self, if_true, mergeWith, h1, h2]
  refine ⟨⟨_, rfl, ?_, ?_⟩, trivial⟩
  · intro k v hk
    rw [get_mergeObj, hk]
    rfl
  · intro k hk
    rw [get_mergeObj, hk]
    rfl

/-- **C131 (others).** An operation whose fields are not about the schema, and have no such names, is answered as
if there were no introspection. -/
theorem C131_others (enabled : Bool) (sels : List Sel)
    (h : ∀ n, Sel.field n ∈ sels → contains "__schema".toList n = false ∧ contains "__type".toList n = false)
    (own intro : Resp) : answer enabled sels own intro = own := by
  have hi : isIntrospection sels = false := by
    rw [Bool.eq_false_iff]
    intro ht
    unfold isIntrospection at ht
    rw [List.any_eq_true] at ht
    obtain ⟨x, hx, hc⟩ := ht
    cases x with
    | field n =>
      obtain ⟨h1, h2⟩ := h n hx
      simp only [h1, h2, Bool.or_self] at hc
      cases hc
    | spread _ => cases hc
    | inline _ => cases hc
  simp [answer, hi]

/-- **C131 (violated by fragments).** A question about the schema in a fragment is not answered, and there is no
error. -/
theorem C131_violated_by_fragments (f : Text) (l : List Text) (own intro : Resp) :
    answer true [.spread f] own intro = own ∧ answer true [.inline l] own intro = own := by
  exact ⟨rfl, rfl⟩

/-- **C131 (violated by null).** If a field that must not be null is, the answer is null; with a question about the
schema beside it the client gets an answer in which that field is null. -/
theorem C131_violated_by_null : ∃ intro : Resp, intro.data = .obj [("user".toList, .null), ("__schema".toList, .obj [])] ∧
    (answer true [.field "user".toList, .field "__schema".toList] ⟨.null, ["user is null".toList], []⟩ intro).data =
      .obj [("user".toList, .null), ("__schema".toList, .obj [])] := by
  refine ⟨⟨.obj [("user".toList, .null), ("__schema".toList, .obj [])], [], []⟩, rfl, ?_⟩
  have : isIntrospection [.field "user".toList, .field "__schema".toList] = true := by decide +kernel
  simp only [answer, this]
  rfl

/-- **C131 (violated by order).** The answers about the schema come last, wherever they have been asked for. -/
theorem C131_violated_by_order (v w : GVal) :
    (answer true [.field "__schema".toList, .field "user".toList] ⟨.obj [("user".toList, v)], [], []⟩
      ⟨.obj [("__schema".toList, w), ("user".toList, .null)], [], []⟩).data =
      .obj [("user".toList, v), ("__schema".toList, w)] := by
  have : isIntrospection [.field "__schema".toList, .field "user".toList] = true := by decide +kernel
  simp only [answer, this]
  rfl

end Verif.Introspect
