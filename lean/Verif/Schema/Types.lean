import Verif.Schema.Lemmas

set_option linter.unusedSimpArgs false

/-!
# The values of GraphQL types and protobuf messages, and their schemas
-/

namespace Verif.Schema

open Verif.Mustache (Text)
open Verif.HttpUrl (GVal intText)
open Verif.Exec (Ty)

/-! ## Specification -/

/-- The names of the scalars with a meaning fixed by GraphQL, and of `Empty`. -/
inductive Std : Text → Prop
  | string : Std ['S','t','r','i','n','g']
  | int : Std ['I','n','t']
  | float : Std ['F','l','o','a','t']
  | boolean : Std ['B','o','o','l','e','a','n']
  | id : Std ['I','D']
  | empty : Std ['E','m','p','t','y']

/-- The values of a scalar that is not declared in the configuration. -/
inductive ScalarOf : Text → GVal → Prop
  | string (s) : ScalarOf ['S','t','r','i','n','g'] (.str s)
  | int (i) : -2147483648 ≤ i → i ≤ 2147483647 → ScalarOf ['I','n','t'] (.int i)
  | floatInt (i) : ScalarOf ['F','l','o','a','t'] (.int i)
  | float (t) : ScalarOf ['F','l','o','a','t'] (.float t)
  | boolean (b) : ScalarOf ['B','o','o','l','e','a','n'] (.bool b)
  | idStr (s) : ScalarOf ['I','D'] (.str s)
  | idInt (i) : ScalarOf ['I','D'] (.int i)
  | emptyNull : ScalarOf ['E','m','p','t','y'] .null
  | emptyObj : ScalarOf ['E','m','p','t','y'] (.obj [])
  | other (n v) : ¬ Std n → v ≠ .null → ScalarOf n v

/-- The type admits `null`. -/
def Nullable : Ty → Prop
  | .named _ nn => nn = false
  | .list _ nn => nn = false

/-- The values of a GraphQL type, as far as they are not produced by further resolvers. -/
inductive ValueOf (c : Cfg) : Ty → GVal → Prop
  | null (t) : Nullable t → ValueOf c t .null
  | list (t nn l) : (∀ x ∈ l, ValueOf c t x) → ValueOf c (.list t nn) (.list l)
  | obj (name nn fs kvs) : At c.types name fs → fs ≠ [] →
      (∀ p ∈ fs, p.2.resolved = false → ∀ x, At kvs p.1 x → ValueOf c p.2.ty x) →
      (∀ p ∈ fs, p.2.resolved = false → Lacks kvs p.1 → Nullable p.2.ty) →
      ValueOf c (.named name nn) (.obj kvs)
  | declared (name nn v) : At c.types name [] → v ≠ .null → ValueOf c (.named name nn) v
  | enumStr (name nn vs s) : Lacks c.types name → At c.enums name vs → s ∈ vs →
      ValueOf c (.named name nn) (.str s)
  | enum (name nn vs s) : Lacks c.types name → At c.enums name vs → s ∈ vs →
      ValueOf c (.named name nn) (.enum s)
  | union (name nn ms m v) : Lacks c.types name → Lacks c.enums name → At c.unions name ms → m ∈ ms →
      ValueOf c (.named m true) v → ValueOf c (.named name nn) v
  | scalar (name nn v) : Lacks c.types name → Lacks c.enums name → Lacks c.unions name →
      ScalarOf name v → ValueOf c (.named name nn) v

/-- The types met on the way through a type, not going through resolvers. -/
inductive Uses (c : Cfg) : Ty → Ty → Prop
  | refl (t) : Uses c t t
  | item (t nn u) : Uses c t u → Uses c (.list t nn) u
  | field (name nn fs k f u) : At c.types name fs → (k, f) ∈ fs → f.resolved = false →
      Uses c f.ty u → Uses c (.named name nn) u

/-- A type whose schema says everything about its values: an object type, `String`, `Boolean`, `Empty`
or a nullable scalar without a fixed meaning. -/
inductive Precise (c : Cfg) : Ty → Prop
  | list (t nn) : Precise c (.list t nn)
  | obj (name nn fs) : At c.types name fs → fs ≠ [] → Precise c (.named name nn)
  | string (nn) : Lacks c.types ['S','t','r','i','n','g'] → Lacks c.enums ['S','t','r','i','n','g'] →
      Lacks c.unions ['S','t','r','i','n','g'] → Precise c (.named ['S','t','r','i','n','g'] nn)
  | boolean (nn) : Lacks c.types ['B','o','o','l','e','a','n'] → Lacks c.enums ['B','o','o','l','e','a','n'] →
      Lacks c.unions ['B','o','o','l','e','a','n'] → Precise c (.named ['B','o','o','l','e','a','n'] nn)
  | empty (nn) : Lacks c.types ['E','m','p','t','y'] → Lacks c.enums ['E','m','p','t','y'] →
      Lacks c.unions ['E','m','p','t','y'] → Precise c (.named ['E','m','p','t','y'] nn)
  | other (name) : Lacks c.types name → Lacks c.enums name → Lacks c.unions name → ¬ Std name →
      Precise c (.named name false)

/-- One reference from a type to another, not through a resolver. -/
inductive Step (c : Cfg) : Ty → Ty → Prop
  | item (t nn) : Step c t (.list t nn)
  | field (name nn fs k f) : At c.types name fs → (k, f) ∈ fs → f.resolved = false →
      Step c f.ty (.named name nn)

/-! ## Schemas of GraphQL types -/

theorem look_some {α : Type} {l : List (Text × α)} {k : Text} {x : α} :
    look l k = some x ↔ At l k x := by
  induction l with
  | nil => simp [look, At]
  | cons p r ih =>
    obtain ⟨k', v⟩ := p
    by_cases h : k' = k
    · simp [look, At, h]
    · simp only [look, h, if_false, At, List.find?_cons, decide_false]
      simpa [At] using ih

theorem look_none {α : Type} {l : List (Text × α)} {k : Text} :
    look l k = none ↔ Lacks l k := by
  induction l with
  | nil => simp [look, Lacks]
  | cons p r ih =>
    obtain ⟨k', v⟩ := p
    by_cases h : k' = k
    · simp [look, Lacks, h]
    · simp only [look, h, if_false, ih, Lacks, List.map_cons, List.mem_cons, not_or]
      exact ⟨fun hh => ⟨fun e => h e.symm, hh⟩, fun hh => hh.2⟩

theorem at_unique {α : Type} {l : List (Text × α)} {k : Text} {x y : α} (hx : At l k x) (hy : At l k y) :
    x = y := by
  unfold At at hx hy
  rw [hx] at hy
  exact Option.some.inj hy

theorem at_not_lacks {α : Type} {l : List (Text × α)} {k : Text} {x : α} (hx : At l k x) : ¬ Lacks l k := by
  intro h
  rw [← look_some] at hx
  rw [← look_none] at h
  rw [h] at hx
  cases hx

theorem nullable_iff (t : Ty) : Nullable t ↔ t.isNullable = true := by
  cases t <;> simp [Nullable, Ty.isNullable]

theorem fieldsWith_mem {rec : Ty → Option JS} {fs : List (Text × FieldDef)} {l : List (Text × JS)}
    (h : fieldsWith rec fs = some l) :
    (∀ p ∈ l, ∃ f, (p.1, f) ∈ fs ∧ f.resolved = false ∧ rec f.ty = some p.2) ∧
    (∀ p ∈ fs, p.2.resolved = false → ∃ s, (p.1, s) ∈ l ∧ rec p.2.ty = some s) := by
  induction fs generalizing l with
  | nil => simp [fieldsWith] at h; subst h; simp
  | cons p r ih =>
    obtain ⟨k, f⟩ := p
    simp only [fieldsWith] at h
    cases hr : f.resolved with
    | true =>
      simp only [hr, if_true] at h
      obtain ⟨h1, h2⟩ := ih h
      refine ⟨fun q hq => ?_, fun q hq hq' => ?_⟩
      · obtain ⟨g, hg, hg'⟩ := h1 q hq
        exact ⟨g, List.mem_cons_of_mem _ hg, hg'⟩
      · rcases List.mem_cons.1 hq with rfl | hq
        · simp [hr] at hq'
        · exact h2 q hq hq'
    | false =>
      simp only [hr, Bool.false_eq_true, if_false] at h
      cases hrec : rec f.ty with
      | none => simp [hrec] at h
      | some s =>
        cases hrest : fieldsWith rec r with
        | none => simp [hrec, hrest] at h
        | some l' =>
          simp only [hrec, hrest, Option.some.injEq] at h
          subst h
          obtain ⟨h1, h2⟩ := ih hrest
          refine ⟨fun q hq => ?_, fun q hq hq' => ?_⟩
          · rcases List.mem_cons.1 hq with rfl | hq
            · exact ⟨f, by simp, hr, hrec⟩
            · obtain ⟨g, hg, hg'⟩ := h1 q hq
              exact ⟨g, List.mem_cons_of_mem _ hg, hg'⟩
          · rcases List.mem_cons.1 hq with rfl | hq
            · exact ⟨s, by simp, hrec⟩
            · obtain ⟨t, ht, ht'⟩ := h2 q hq hq'
              exact ⟨t, List.mem_cons_of_mem _ ht, ht'⟩

theorem fieldsWith_some {rec : Ty → Option JS} {fs : List (Text × FieldDef)}
    (h : ∀ p ∈ fs, p.2.resolved = false → ∃ s, rec p.2.ty = some s) : ∃ l, fieldsWith rec fs = some l := by
  induction fs with
  | nil => exact ⟨[], rfl⟩
  | cons p r ih =>
    obtain ⟨k, f⟩ := p
    obtain ⟨l, hl⟩ := ih (fun q hq => h q (List.mem_cons_of_mem _ hq))
    cases hr : f.resolved with
    | true => exact ⟨l, by simp [fieldsWith, hr, hl]⟩
    | false =>
      obtain ⟨s, hs⟩ := h (k, f) (by simp) hr
      exact ⟨(k, s) :: l, by simp only at hs; simp [fieldsWith, hr, hl, hs]⟩

/-- How the schema of a type is built. -/
inductive SchemaOf (c : Cfg) (rec : Ty → Option JS) : Ty → JS → Prop
  | list (t nn s) : rec t = some s → SchemaOf c rec (.list t nn) (.arr s)
  | obj (name nn fs l) : At c.types name fs → fieldsWith rec fs = some l →
      SchemaOf c rec (.named name nn) (.obj l)
  | enum (name nn vs) : Lacks c.types name → At c.enums name vs →
      SchemaOf c rec (.named name nn) (.enum vs)
  | scalar (name nn) : Lacks c.types name → Lacks c.enums name →
      SchemaOf c rec (.named name nn) (fromScalar name)

theorem toSchema_inv {c : Cfg} {n : Nat} {t : Ty} {s : JS} (h : toSchema c n t = some s) :
    ∃ m s', n = m + 1 ∧ SchemaOf c (toSchema c m) t s' ∧ s = optional t s' := by
  cases n with
  | zero => simp [toSchema] at h
  | succ m =>
    cases t with
    | list t nn =>
      simp only [toSchema, Option.map_map, Option.map_eq_some_iff] at h
      obtain ⟨s', hs', rfl⟩ := h
      exact ⟨m, _, rfl, .list _ _ _ hs', rfl⟩
    | named name nn =>
      simp only [toSchema, Option.map_eq_some_iff] at h
      obtain ⟨s', hs', rfl⟩ := h
      refine ⟨m, s', rfl, ?_, rfl⟩
      cases hl : look c.types name with
      | some fs =>
        simp only [hl, Option.map_eq_some_iff] at hs'
        obtain ⟨l, h1, rfl⟩ := hs'
        exact .obj _ _ _ _ (look_some.1 hl) h1
      | none =>
        simp only [hl] at hs'
        cases he : look c.enums name with
        | some vs =>
          simp only [he, Option.some.injEq] at hs'
          subst hs'
          exact .enum _ _ _ (look_none.1 hl) (look_some.1 he)
        | none =>
          simp only [he, Option.some.injEq] at hs'
          subst hs'
          exact .scalar _ _ (look_none.1 hl) (look_none.1 he)

theorem toSchema_of {c : Cfg} {n : Nat} {t : Ty} {s : JS} (h : SchemaOf c (toSchema c n) t s) :
    toSchema c (n + 1) t = some (optional t s) := by
  cases h with
  | list t nn s hs => simp [toSchema, hs]
  | obj name nn fs l h1 h2 => simp [toSchema, look_some.2 h1, h2]
  | enum name nn vs h1 h2 => simp [toSchema, look_none.2 h1, look_some.2 h2]
  | scalar name nn h1 h2 => simp [toSchema, look_none.2 h1, look_none.2 h2]

theorem has_optional {t : Ty} {s : JS} {v : GVal} (h : Has s v) : Has (optional t s) v := by
  unfold optional
  split
  · exact .opt _ _ h
  · exact h

theorem has_optional_null {t : Ty} {s : JS} (h : Nullable t) : Has (optional t s) .null := by
  simp only [optional, (nullable_iff t).1 h, if_true]
  exact .optNull _

theorem has_optional_inv {t : Ty} {s : JS} {v : GVal} (h : Has (optional t s) v) :
    (Nullable t ∧ v = .null) ∨ Has s v := by
  unfold optional at h
  split at h
  · rename_i hn
    cases h with
    | optNull => exact .inl ⟨(nullable_iff t).2 hn, rfl⟩
    | opt _ _ h => exact .inr h
  · exact .inr h

theorem fromScalar_has {name : Text} {v : GVal} (h : ScalarOf name v) : Has (fromScalar name) v := by
  cases h with
  | string s => exact .str s
  | int i _ _ => exact .int i
  | floatInt i => exact .any _
  | float t => exact .any _
  | boolean b => exact .bool b
  | idStr s => exact .any _
  | idInt s => exact .any _
  | emptyNull => exact .emptyNull
  | emptyObj => exact .emptyObj
  | other n v hn _ =>
    have h1 : name ≠ ['S','t','r','i','n','g'] := fun e => hn (e ▸ .string)
    have h2 : name ≠ ['I','n','t'] := fun e => hn (e ▸ .int)
    have h3 : name ≠ ['B','o','o','l','e','a','n'] := fun e => hn (e ▸ .boolean)
    have h4 : name ≠ ['E','m','p','t','y'] := fun e => hn (e ▸ .empty)
    simp only [fromScalar, h1, h2, h3, h4, if_false]
    exact .any _

/-- Declared types all have fields, and scalars with a schema of their own are not unions. -/
def NoScalarTypes (c : Cfg) : Prop :=
  (∀ name, ¬ At c.types name []) ∧
  ∀ name ms, At c.unions name ms → ¬ Std name

theorem value_has {c : Cfg} (hc : NoScalarTypes c) {t : Ty} {v : GVal} (h : ValueOf c t v) :
    ∀ {n : Nat} {s : JS}, toSchema c n t = some s → Has s v := by
  induction h with
  | null t hn =>
    intro n s hs
    obtain ⟨m, s', rfl, _, rfl⟩ := toSchema_inv hs
    exact has_optional_null hn
  | list t nn l _ ih =>
    intro n s hs
    obtain ⟨m, s', rfl, ho, rfl⟩ := toSchema_inv hs
    apply has_optional
    cases ho with
    | list _ _ s hs' => exact .arr _ _ (fun x hx => ih x hx hs')
  | obj name nn fs kvs hat hne _ hreq ih =>
    intro n s hs
    obtain ⟨m, s', rfl, ho, rfl⟩ := toSchema_inv hs
    apply has_optional
    cases ho with
    | obj _ _ fs' l hat' hl =>
      cases at_unique hat hat'
      obtain ⟨h1, _⟩ := fieldsWith_mem hl
      refine .obj _ _ (fun p hp x hx => ?_) (fun p hp hlk => ?_)
      · obtain ⟨f, hf, hr, hrec⟩ := h1 p hp
        exact ih (p.1, f) hf hr x hx hrec
      · obtain ⟨f, hf, hr, hrec⟩ := h1 p hp
        have := hreq (p.1, f) hf hr hlk
        obtain ⟨m', s'', _, _, he⟩ := toSchema_inv hrec
        rw [he, optional, (nullable_iff _).1 this, if_pos rfl]
        exact ⟨_, rfl⟩
    | enum _ _ _ hlk _ => exact absurd hlk (at_not_lacks hat)
    | scalar _ _ hlk _ => exact absurd hlk (at_not_lacks hat)
  | declared name nn v hat _ => exact absurd hat (hc.1 name)
  | enumStr name nn vs s hlk hat _ =>
    intro n s hs
    obtain ⟨m, s', rfl, ho, rfl⟩ := toSchema_inv hs
    apply has_optional
    cases ho with
    | obj _ _ _ _ hat' _ => exact absurd hlk (at_not_lacks hat')
    | enum _ _ vs' _ _ => exact .enum _ _
    | scalar _ _ _ hlk' => exact absurd hlk' (at_not_lacks hat)
  | enum name nn vs s hlk hat _ =>
    intro n s hs
    obtain ⟨m, s', rfl, ho, rfl⟩ := toSchema_inv hs
    apply has_optional
    cases ho with
    | obj _ _ _ _ hat' _ => exact absurd hlk (at_not_lacks hat')
    | enum _ _ vs' _ _ => exact .enum _ _
    | scalar _ _ _ hlk' => exact absurd hlk' (at_not_lacks hat)
  | union name nn ms k v hlk hlk' hat _ _ _ =>
    intro n s hs
    obtain ⟨m, s', rfl, ho, rfl⟩ := toSchema_inv hs
    apply has_optional
    cases ho with
    | obj _ _ _ _ hat' _ => exact absurd hlk (at_not_lacks hat')
    | enum _ _ vs' _ hat' => exact absurd hlk' (at_not_lacks hat')
    | scalar _ _ _ _ =>
      have hn := hc.2 name ms hat
      have h1 : name ≠ ['S','t','r','i','n','g'] := fun e => hn (e ▸ .string)
      have h2 : name ≠ ['I','n','t'] := fun e => hn (e ▸ .int)
      have h3 : name ≠ ['B','o','o','l','e','a','n'] := fun e => hn (e ▸ .boolean)
      have h4 : name ≠ ['E','m','p','t','y'] := fun e => hn (e ▸ .empty)
      simp only [fromScalar, h1, h2, h3, h4, if_false]
      exact .any _
  | scalar name nn v hlk hlk' _ hsc =>
    intro n s hs
    obtain ⟨m, s', rfl, ho, rfl⟩ := toSchema_inv hs
    apply has_optional
    cases ho with
    | obj _ _ _ _ hat' _ => exact absurd hlk (at_not_lacks hat')
    | enum _ _ vs' _ hat' => exact absurd hlk' (at_not_lacks hat')
    | scalar _ _ _ _ => exact fromScalar_has hsc

theorem has_value {c : Cfg} : ∀ (n : Nat) {t : Ty} {s : JS} {v : GVal}, (∀ u, Uses c t u → Precise c u) →
    toSchema c n t = some s → Has s v → ValueOf c t v
  | 0, t, s, v, _, hs, _ => by simp [toSchema] at hs
  | n + 1, t, s, v, hp, hs, hv => by
    obtain ⟨m, s', hm, ho, rfl⟩ := toSchema_inv hs
    cases hm
    have hv0 := has_optional_inv hv
    clear hv hs
    rcases hv0 with ⟨hn, rfl⟩ | hv
    · exact .null _ hn
    cases ho with
    | list t nn s hs =>
      cases hv with
      | arr _ l hl =>
        exact .list _ _ _ (fun x hx => has_value n (fun u hu => hp u (.item _ _ _ hu)) hs (hl x hx))
    | obj name nn fs l hat hl =>
      obtain ⟨_, h2⟩ := fieldsWith_mem hl
      have hne : fs ≠ [] := by
        have := hp _ (.refl _)
        cases this with
        | obj _ _ fs' hat' hne => exact at_unique hat hat' ▸ hne
        | string _ hlk _ _ => exact absurd hlk (at_not_lacks hat)
        | boolean _ hlk _ _ => exact absurd hlk (at_not_lacks hat)
        | empty _ hlk _ _ => exact absurd hlk (at_not_lacks hat)
        | other _ hlk _ _ _ => exact absurd hlk (at_not_lacks hat)
      cases hv with
      | obj _ kvs hx hreq =>
        refine .obj _ _ _ _ hat hne (fun p hpm hr x hat' => ?_) (fun p hpm hr hlk => ?_)
        · obtain ⟨s, hs, hrec⟩ := h2 p hpm hr
          exact has_value n (fun u hu => hp u (.field _ _ _ _ _ _ hat hpm hr hu)) hrec (hx _ hs x hat')
        · obtain ⟨s, hs, hrec⟩ := h2 p hpm hr
          obtain ⟨s', hs'⟩ := hreq _ hs hlk
          simp only at hs'
          subst hs'
          obtain ⟨_, s'', _, ho', he⟩ := toSchema_inv hrec
          apply Classical.byContradiction
          intro hnn
          have hnn' : p.2.ty.isNullable = false := by
            cases h : p.2.ty.isNullable with
            | false => rfl
            | true => exact absurd ((nullable_iff _).2 h) hnn
          rw [optional, hnn'] at he
          simp only [Bool.false_eq_true, if_false] at he
          generalize p.2.ty = u at ho'
          cases ho' <;> try cases he
          simp only [fromScalar] at he
          repeat' split at he
          all_goals cases he
    | enum name nn vs hlk hat =>
      have := hp _ (.refl _)
      cases this with
      | obj _ _ fs' hat' hne => exact absurd hlk (at_not_lacks hat')
      | string _ _ hlk' _ => exact absurd hlk' (at_not_lacks hat)
      | boolean _ _ hlk' _ => exact absurd hlk' (at_not_lacks hat)
      | empty _ _ hlk' _ => exact absurd hlk' (at_not_lacks hat)
      | other _ _ hlk' _ _ => exact absurd hlk' (at_not_lacks hat)
    | scalar name nn hlk hlk' =>
      have := hp _ (.refl _)
      cases this with
      | obj _ _ fs' hat' hne => exact absurd hlk (at_not_lacks hat')
      | string _ _ _ hu =>
        have hv' : Has .str v := hv
        cases hv' with
        | str s => exact .scalar _ _ _ hlk hlk' hu (.string s)
      | boolean _ _ _ hu =>
        have hv' : Has .bool v := hv
        cases hv' with
        | bool s => exact .scalar _ _ _ hlk hlk' hu (.boolean s)
      | empty _ _ _ hu =>
        have hv' : Has .empty v := hv
        cases hv' with
        | emptyNull => exact .scalar _ _ _ hlk hlk' hu .emptyNull
        | emptyObj => exact .scalar _ _ _ hlk hlk' hu .emptyObj
      | other _ _ _ hu hn =>
        by_cases hnull : v = .null
        · subst hnull; exact .null _ rfl
        · exact .scalar _ _ _ hlk hlk' hu (.other _ _ hn hnull)

/-- The schemas of such types have no member declared `Any`. -/
theorem precise_noAny {c : Cfg} : ∀ (n : Nat) {t : Ty} {s : JS}, (∀ u, Uses c t u → Precise c u) →
    toSchema c n t = some s → NoAnyField s ∧ s ≠ .any
  | 0, t, s, _, hs => by simp [toSchema] at hs
  | n + 1, t, s, hp, hs => by
    obtain ⟨m, s', hm, ho, rfl⟩ := toSchema_inv hs
    cases hm
    have hopt : ∀ s' : JS, NoAnyField s' → (Nullable t ∨ s' ≠ .any) →
        NoAnyField (optional t s') ∧ optional t s' ≠ .any := by
      intro s' h1 h2
      unfold optional
      split
      · exact ⟨.opt _ h1, by simp⟩
      · rename_i hn
        rcases h2 with h2 | h2
        · exact absurd ((nullable_iff t).1 h2) hn
        · exact ⟨h1, h2⟩
    apply hopt
    · cases ho with
      | list t nn s hs' => exact .arr _ (precise_noAny n (fun u hu => hp u (.item _ _ _ hu)) hs').1
      | obj name nn fs l hat hl =>
        obtain ⟨h1, _⟩ := fieldsWith_mem hl
        refine .obj _ (fun p hpm => ?_) (fun p hpm => ?_)
        · obtain ⟨f, hf, hr, hrec⟩ := h1 p hpm
          exact (precise_noAny n (fun u hu => hp u (.field _ _ _ _ _ _ hat hf hr hu)) hrec).1
        · obtain ⟨f, hf, hr, hrec⟩ := h1 p hpm
          exact (precise_noAny n (fun u hu => hp u (.field _ _ _ _ _ _ hat hf hr hu)) hrec).2
      | enum => exact .enum _
      | scalar name nn _ _ =>
        unfold fromScalar
        repeat' split
        all_goals constructor
    · cases ho with
      | list t nn s hs => right; simp
      | obj name nn fs l hat hl => right; simp
      | enum => right; simp
      | scalar name nn hlk _ =>
        have := hp _ (.refl _)
        cases this with
        | obj _ _ fs' hat' hne => exact absurd hlk (at_not_lacks hat')
        | string _ _ _ hu => right; simp [fromScalar]
        | boolean _ _ _ hu => right; simp [fromScalar]
        | empty _ _ _ hu => right; simp [fromScalar]
        | other _ _ _ hu hn => exact .inl rfl

/-! ## Termination -/

theorem fieldsWith_congr {rec rec' : Ty → Option JS} {fs : List (Text × FieldDef)} {l : List (Text × JS)}
    (h : ∀ t s, rec t = some s → rec' t = some s) (hl : fieldsWith rec fs = some l) :
    fieldsWith rec' fs = some l := by
  induction fs generalizing l with
  | nil => simpa [fieldsWith] using hl
  | cons p r ih =>
    obtain ⟨k, f⟩ := p
    simp only [fieldsWith] at hl ⊢
    cases hr : f.resolved with
    | true => simp only [hr, if_true] at hl ⊢; exact ih hl
    | false =>
      simp only [hr, Bool.false_eq_true, if_false] at hl ⊢
      cases hrec : rec f.ty with
      | none => simp [hrec] at hl
      | some s =>
        cases hrest : fieldsWith rec r with
        | none => simp [hrec, hrest] at hl
        | some l' =>
          simp only [hrec, hrest] at hl
          simp only [h _ _ hrec, ih hrest, hl]

theorem toSchema_mono {c : Cfg} : ∀ (n : Nat) {t : Ty} {s : JS}, toSchema c n t = some s →
    toSchema c (n + 1) t = some s
  | 0, t, s, h => by simp [toSchema] at h
  | n + 1, t, s, h => by
    obtain ⟨m, s', hm, ho, rfl⟩ := toSchema_inv h
    cases hm
    apply toSchema_of
    cases ho with
    | list t nn s hs => exact .list _ _ _ (toSchema_mono n hs)
    | obj name nn fs l h1 h2 =>
      exact .obj _ _ _ _ h1 (fieldsWith_congr (fun t s hs => toSchema_mono n hs) h2)
    | enum name nn vs h1 h2 => exact .enum _ _ _ h1 h2
    | scalar name nn h1 h2 => exact .scalar _ _ h1 h2

theorem toSchema_mono_le {c : Cfg} {n m : Nat} {t : Ty} {s : JS} (h : toSchema c n t = some s)
    (hle : n ≤ m) : toSchema c m t = some s := by
  induction hle with
  | refl => exact h
  | step _ ih => exact toSchema_mono _ ih

theorem acc_of_toSchema {c : Cfg} : ∀ (n : Nat) {t : Ty} {s : JS}, toSchema c n t = some s →
    Acc (Step c) t
  | 0, t, s, h => by simp [toSchema] at h
  | n + 1, t, s, h => by
    obtain ⟨m, s', hm, ho, rfl⟩ := toSchema_inv h
    cases hm
    refine ⟨t, fun u hu => ?_⟩
    cases hu with
    | item _ nn =>
      cases ho with
      | list _ _ s hs => exact acc_of_toSchema n hs
    | field name nn fs k f hat hmem hr =>
      cases ho with
      | obj _ _ fs' l hat' hl =>
        cases at_unique hat hat'
        obtain ⟨s, _, hs⟩ := (fieldsWith_mem hl).2 (k, f) hmem hr
        exact acc_of_toSchema n hs
      | enum _ _ _ hlk _ => exact absurd hlk (at_not_lacks hat)
      | scalar _ _ hlk _ => exact absurd hlk (at_not_lacks hat)

theorem fields_bound {c : Cfg} {fs : List (Text × FieldDef)}
    (h : ∀ p ∈ fs, p.2.resolved = false → ∃ n s, toSchema c n p.2.ty = some s) :
    ∃ n, ∀ p ∈ fs, p.2.resolved = false → ∃ s, toSchema c n p.2.ty = some s := by
  induction fs with
  | nil => exact ⟨0, by simp⟩
  | cons p r ih =>
    obtain ⟨n, hn⟩ := ih (fun q hq => h q (List.mem_cons_of_mem _ hq))
    cases hr : p.2.resolved with
    | true =>
      refine ⟨n, fun q hq hq' => ?_⟩
      rcases List.mem_cons.1 hq with rfl | hq
      · rw [hr] at hq'; cases hq'
      · exact hn q hq hq'
    | false =>
      obtain ⟨m, s, hs⟩ := h p (by simp) hr
      refine ⟨max n m, fun q hq hq' => ?_⟩
      rcases List.mem_cons.1 hq with rfl | hq
      · exact ⟨s, toSchema_mono_le hs (Nat.le_max_right _ _)⟩
      · obtain ⟨s', hs'⟩ := hn q hq hq'
        exact ⟨s', toSchema_mono_le hs' (Nat.le_max_left _ _)⟩

theorem toSchema_of_acc {c : Cfg} {t : Ty} (h : Acc (Step c) t) : ∃ n s, toSchema c n t = some s := by
  induction h with
  | intro t _ ih =>
    cases t with
    | list t nn =>
      obtain ⟨n, s, hs⟩ := ih t (.item t nn)
      exact ⟨n + 1, _, toSchema_of (.list _ _ _ hs)⟩
    | named name nn =>
      cases hl : look c.types name with
      | some fs =>
        have hat := look_some.1 hl
        obtain ⟨n, hn⟩ := fields_bound (c := c) (fs := fs)
          (fun p hp hr => ih _ (.field name nn fs p.1 p.2 hat hp hr))
        obtain ⟨l, hl⟩ := fieldsWith_some hn
        exact ⟨n + 1, _, toSchema_of (.obj _ _ _ _ hat hl)⟩
      | none =>
        cases he : look c.enums name with
        | some vs => exact ⟨1, _, toSchema_of (.enum _ _ _ (look_none.1 hl) (look_some.1 he))⟩
        | none => exact ⟨1, _, toSchema_of (.scalar _ _ (look_none.1 hl) (look_none.1 he))⟩

/-! ## Protobuf messages -/

/-- The field is a map: its kind is a map entry message. -/
def IsMap (p : Pool) (f : PField) : Prop :=
  ∃ m d, f.kind = .message m ∧ At p.msgs m d ∧ d.mapEntry = true

/-- The JSON form of protobuf values: 64 bit numbers are strings, enum values are names (numbers when
they are unknown), and members may be absent when they are optional or lists. -/
inductive PVal (p : Pool) : Kind → GVal → Prop
  | int (i) : PVal p .number (.int i)
  | float (t) : PVal p .number (.float t)
  | int64 (i) : PVal p .number64 (.str (intText i))
  | bool (b) : PVal p .bool (.bool b)
  | string (s) : PVal p .string (.str s)
  | bytes (s) : PVal p .bytes (.str s)
  | enum (e vs s) : At p.enums e vs → s ∈ vs → PVal p (.enum e) (.str s)
  | enumNum (e i) : PVal p (.enum e) (.int i)
  | msg (m d kvs) : At p.msgs m d → d.mapEntry = false →
      (∀ f ∈ d.fields, f.isList = true → ∀ x, At kvs f.name x → ∃ l, x = .list l) →
      (∀ f ∈ d.fields, f.isList = true → ∀ l, At kvs f.name (.list l) → ∀ x ∈ l, PVal p f.kind x) →
      (∀ f ∈ d.fields, f.isList = false → ¬ IsMap p f → ∀ x, At kvs f.name x → PVal p f.kind x) →
      (∀ f ∈ d.fields, Lacks kvs f.name → f.card = .optional ∨ f.isList = true) →
      (∀ kv ∈ kvs, ∃ f ∈ d.fields, f.name = kv.1) →
      PVal p (.message m) (.obj kvs)

/-- No field of a message holds 64 bit numbers. -/
def No64 (p : Pool) : Prop := ∀ m d, At p.msgs m d → ∀ f ∈ d.fields, f.kind ≠ .number64

theorem msgFields_mem {p : Pool} {rec : Text → Option JS} {fs : List PField} {l : List (Text × JS)}
    (h : msgFields p rec fs = some l) :
    ∀ q ∈ l, ∃ f ∈ fs, ∃ s, q = (f.name, wrapField f s) ∧ kindSchema p rec f.kind = some s := by
  induction fs generalizing l with
  | nil => simp [msgFields] at h; subst h; simp
  | cons f r ih =>
    simp only [msgFields] at h
    cases hk : kindSchema p rec f.kind with
    | none => simp [hk] at h
    | some s =>
      cases hr : msgFields p rec r with
      | none => simp [hk, hr] at h
      | some l' =>
        simp only [hk, hr, Option.some.injEq] at h
        subst h
        intro q hq
        rcases List.mem_cons.1 hq with rfl | hq
        · exact ⟨f, by simp, s, rfl, hk⟩
        · obtain ⟨g, hg, s', hs'⟩ := ih hr q hq
          exact ⟨g, List.mem_cons_of_mem _ hg, s', hs'⟩

theorem msgFields_nil {p : Pool} {rec : Text → Option JS} {fs : List PField}
    (h : msgFields p rec fs = some []) : fs = [] := by
  cases fs with
  | nil => rfl
  | cons f r =>
    simp only [msgFields] at h
    cases hk : kindSchema p rec f.kind with
    | none => simp [hk] at h
    | some s =>
      cases hr : msgFields p rec r with
      | none => simp [hk, hr] at h
      | some l' => simp [hk, hr] at h

theorem has_wrap {f : PField} {s : JS} {x : GVal} (hl : f.isList = false) (h : Has s x) :
    Has (wrapField f s) x := by
  simp only [wrapField, hl, Bool.false_eq_true, if_false]
  split
  · exact .opt _ _ h
  · exact h

theorem has_wrap_list {f : PField} {s : JS} {l : List GVal} (hl : f.isList = true)
    (h : ∀ x ∈ l, Has s x) : Has (wrapField f s) (.list l) := by
  simp only [wrapField, hl, if_true]
  refine .opt _ _ (.arr _ _ (fun x hx => ?_))
  split
  · exact .opt _ _ (h x hx)
  · exact h x hx

theorem wrap_optional {f : PField} {s : JS} (h : f.card = .optional ∨ f.isList = true) :
    ∃ t, wrapField f s = .opt t := by
  simp only [wrapField]
  rcases h with h | h
  · cases f.isList <;> simp [h]
  · simp [h]

theorem map_schema {p : Pool} {n : Nat} {f : PField} {s : JS} (hm : IsMap p f)
    (h : kindSchema p (msgSchema p n) f.kind = some s) : s = .any := by
  obtain ⟨m, d, hk, hat, he⟩ := hm
  rw [hk] at h
  simp only [kindSchema] at h
  cases n with
  | zero => simp [msgSchema] at h
  | succ n =>
    simp only [msgSchema, look_some.2 hat, he, if_true, Option.some.injEq] at h
    exact h.symm

theorem pval_has {p : Pool} (h64 : No64 p) {k : Kind} {v : GVal} (hv : PVal p k v) :
    ∀ {n : Nat} {s : JS}, k ≠ .number64 → kindSchema p (msgSchema p n) k = some s → Has s v := by
  induction hv with
  | int i => intro n s _ h; simp only [kindSchema, Option.some.injEq] at h; subst h; exact .int i
  | float t => intro n s _ h; simp only [kindSchema, Option.some.injEq] at h; subst h; exact .float t
  | int64 i => intro n s hk _; exact absurd rfl hk
  | bool b => intro n s _ h; simp only [kindSchema, Option.some.injEq] at h; subst h; exact .bool b
  | string t => intro n s _ h; simp only [kindSchema, Option.some.injEq] at h; subst h; exact .str t
  | bytes t => intro n s _ h; simp only [kindSchema, Option.some.injEq] at h; subst h; exact .str t
  | enum e vs t _ _ => intro n s _ h; simp only [kindSchema, Option.some.injEq] at h; subst h; exact .enum _ _
  | enumNum e i => intro n s _ h; simp only [kindSchema, Option.some.injEq] at h; subst h; exact .enum _ _
  | msg m d kvs hat hme hlist _ _ hreq hkeys ih1 ih2 =>
    intro n s _ h
    simp only [kindSchema] at h
    cases n with
    | zero => simp [msgSchema] at h
    | succ n =>
      simp only [msgSchema, look_some.2 hat, hme, Bool.false_eq_true, if_false,
        Option.map_eq_some_iff] at h
      obtain ⟨l, hl, rfl⟩ := h
      have hmem := msgFields_mem hl
      unfold objOrEmpty
      split
      · rename_i he
        have : l = [] := by simpa using he
        subst this
        have hf := msgFields_nil hl
        cases kvs with
        | nil => exact .emptyObj
        | cons kv r =>
          obtain ⟨f, hf', _⟩ := hkeys kv (by simp)
          rw [hf] at hf'
          cases hf'
      · refine .obj _ _ (fun q hq x hx => ?_) (fun q hq hlk => ?_)
        · obtain ⟨f, hf, s, rfl, hk⟩ := hmem q hq
          have hn64 := h64 m d hat f hf
          simp only at hx ⊢
          cases hil : f.isList with
          | true =>
            obtain ⟨l, rfl⟩ := hlist f hf hil x hx
            exact has_wrap_list hil (fun y hy => ih1 f hf hil l hx y hy hn64 hk)
          | false =>
            apply has_wrap hil
            by_cases hm : IsMap p f
            · rw [map_schema hm hk]; exact .any _
            · exact ih2 f hf hil hm x hx hn64 hk
        · obtain ⟨f, hf, s, rfl, hk⟩ := hmem q hq
          exact wrap_optional (hreq f hf hlk)

end Verif.Schema
