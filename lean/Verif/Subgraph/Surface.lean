import Verif.Subgraph.Props

/-!
# C99: what a subgraph offers

With federation switched on, the query type gets `_service` and, if there are types with resolvers, `_entities`,
which can answer exactly these types; every such type gets its key, once; all else stays as it was.  Types are
found by name in a sorted map, as in the code.
-/

namespace Verif.Subgraph

open Verif.Mustache (Text)
open Verif.Exec (Ty)
open Verif.Merge (get insert Sorted get_insert sorted_insert sorted_ext tlt)

set_option linter.unusedSimpArgs false

/-! ## Lookups -/

theorem insert_same {V : Type} {k : Text} {v : V} {m : List (Text × V)} (hs : Sorted m) (h : get k m = some v) :
    insert k v m = m := by
  refine sorted_ext (sorted_insert hs) hs (fun j => ?_)
  rw [get_insert]
  by_cases e : k = j
  · rw [if_pos e, ← e, h]
  · rw [if_neg e]

theorem get_map_mem {V : Type} {k : Text} {v : V} : ∀ {l : List (Text × V)}, get k l = some v → (k, v) ∈ l
  | [], h => by cases h
  | (k', v') :: r, h => by
    rw [Verif.Merge.get] at h
    split at h
    · next e => cases h; subst e; exact List.mem_cons_self
    · exact List.mem_cons_of_mem _ (get_map_mem h)

theorem get_of_mem_sorted {V : Type} {k : Text} {v : V} : ∀ {l : List (Text × V)}, Sorted l → (k, v) ∈ l →
    get k l = some v
  | (k', v') :: r, hs, h => by
    rw [Verif.Merge.Sorted, List.pairwise_cons] at hs
    rw [Verif.Merge.get]
    rcases List.mem_cons.1 h with h | h
    · cases h; rw [if_pos rfl]
    · split
      · next e =>
        have := hs.1 _ h
        rw [e, Verif.Merge.tlt_irrefl] at this
        cases this
      · exact get_of_mem_sorted hs.2 h

/-! ## The loop over the types -/

theorem stepTypes_spec (ts : List (Text × TypeDef)) : ∀ {l l' : List (Text × TypeDef)}, stepTypes ts l = some l' →
    l'.map (·.1) = l.map (·.1) ∧
    ∀ n, (get n l = none → get n l' = none) ∧
      ∀ t, get n l = some t → ∃ t', stepType ts n t = some t' ∧ get n l' = some t'
  | [], l', h => by
    rw [stepTypes] at h; cases h
    exact ⟨rfl, fun n => ⟨id, fun t ht => by cases ht⟩⟩
  | (n, t) :: r, l', h => by
    rw [stepTypes] at h
    cases h1 : stepType ts n t with
    | none => rw [h1] at h; cases h
    | some t' =>
      cases h2 : stepTypes ts r with
      | none => rw [h1, h2] at h; cases h
      | some r' =>
        rw [h1, h2] at h
        cases h
        obtain ⟨e, ih⟩ := stepTypes_spec ts h2
        refine ⟨by rw [List.map_cons, List.map_cons, e], fun m => ?_⟩
        rw [Verif.Merge.get, Verif.Merge.get]
        by_cases hm : n = m
        · subst hm
          rw [if_pos rfl, if_pos rfl]
          refine ⟨fun h => (by cases h), fun t0 ht => ?_⟩
          cases ht; exact ⟨t', h1, rfl⟩
        · rw [if_neg hm, if_neg hm]
          exact ih m

theorem stepTypes_isSome (ts : List (Text × TypeDef)) : ∀ {l : List (Text × TypeDef)},
    (∀ nt ∈ l, ∃ t', stepType ts nt.1 nt.2 = some t') → ∃ l', stepTypes ts l = some l'
  | [], _ => ⟨[], rfl⟩
  | (n, t) :: r, h => by
    obtain ⟨t', h1⟩ := h (n, t) List.mem_cons_self
    obtain ⟨r', h2⟩ := stepTypes_isSome ts (fun nt hnt => h nt (List.mem_cons_of_mem _ hnt))
    exact ⟨(n, t') :: r', by rw [stepTypes, h1, h2]⟩

theorem stepTypes_same (ts : List (Text × TypeDef)) : ∀ {l : List (Text × TypeDef)},
    (∀ nt ∈ l, stepType ts nt.1 nt.2 = some nt.2) → stepTypes ts l = some l
  | [], _ => rfl
  | (n, t) :: r, h => by
    rw [stepTypes, h (n, t) List.mem_cons_self, stepTypes_same ts (fun nt hnt => h nt (List.mem_cons_of_mem _ hnt))]

theorem sorted_of_keys {V W : Type} : ∀ {a : List (Text × V)} {b : List (Text × W)}, a.map (·.1) = b.map (·.1) →
    Sorted b → Sorted a := by
  intro a b h hb
  have hb' : (b.map (·.1)).Pairwise (fun x y => tlt x y = true) := List.pairwise_map.2 hb
  rw [← h] at hb'
  exact List.pairwise_map.1 hb'

theorem stepType_keeps {ts : List (Text × TypeDef)} {n : Text} {t t' : TypeDef} (h : stepType ts n t = some t') :
    t'.fields = t.fields ∧ t'.resolvers = t.resolvers ∧ t'.rest = t.rest ∧
    ((t.resolvers = [] ∧ t' = t) ∨ ∃ r, t.resolvers = [r] ∧ validate ts r n = [] ∧
      ((extractKeys r = some none ∧ t' = t) ∨ ∃ f, extractKeys r = some (some f) ∧
        t'.directives = pushDirective (keyDirective f) t.directives)) := by
  rw [stepType] at h
  split at h
  · next hr => cases h; exact ⟨rfl, rfl, rfl, .inl ⟨hr, rfl⟩⟩
  · next r hr =>
    split at h
    · next hv =>
      have hv' : validate ts r n = [] := List.isEmpty_iff.1 hv
      split at h
      · cases h
      · next he => cases h; exact ⟨rfl, rfl, rfl, .inr ⟨r, hr, hv', .inl ⟨he, rfl⟩⟩⟩
      · next f he => cases h; exact ⟨rfl, rfl, rfl, .inr ⟨r, hr, hv', .inr ⟨f, he, rfl⟩⟩⟩
    · cases h
  · cases h

theorem get_byType {types : List (Text × TypeDef)} (hs : Sorted types) (n : Text) (r : Resolver) :
    get n (byType types) = some r ↔ ∃ t, get n types = some t ∧ t.resolvers = [r] := by
  induction types with
  | nil => exact ⟨fun h => (by cases h), fun ⟨_, h, _⟩ => (by cases h)⟩
  | cons nt l ih =>
    obtain ⟨m, t⟩ := nt
    rw [Verif.Merge.Sorted, List.pairwise_cons] at hs
    have ih := ih hs.2
    have hnone : ∀ k v, (k, v) ∈ byType l → tlt m k = true := by
      intro k v h
      obtain ⟨x, hx, h⟩ := List.mem_filterMap.1 h
      have : k = x.1 := by
        split at h
        · cases h; rfl
        · cases h
      rw [this]
      exact hs.1 x hx
    have hno : get m (byType l) = none := by
      cases hg : get m (byType l) with
      | none => rfl
      | some v =>
        have := hnone m v (get_map_mem hg)
        rw [Verif.Merge.tlt_irrefl] at this
        cases this
    have hb : byType ((m, t) :: l) = (match t.resolvers with
        | [r] => (m, r) :: byType l
        | _ => byType l) := by
      rw [byType, List.filterMap_cons]
      simp only []
      match t.resolvers with
      | [] => rfl
      | [r] => rfl
      | _ :: _ :: _ => rfl
    rw [hb, Verif.Merge.get]
    by_cases hmn : m = n
    · subst hmn
      rw [if_pos rfl]
      match hr : t.resolvers with
      | [] =>
        simp only []
        rw [hno]
        exact ⟨fun h => (by cases h), fun ⟨t', h, h'⟩ => by cases h; rw [hr] at h'; cases h'⟩
      | [r'] =>
        simp only []
        rw [Verif.Merge.get, if_pos rfl]
        exact ⟨fun h => by cases h; exact ⟨t, rfl, hr⟩, fun ⟨t', h, h'⟩ => by cases h; rw [hr] at h'; cases h'; rfl⟩
      | _ :: _ :: _ =>
        simp only []
        rw [hno]
        exact ⟨fun h => (by cases h), fun ⟨t', h, h'⟩ => by cases h; rw [hr] at h'; cases h'⟩
    · rw [if_neg hmn]
      match t.resolvers with
      | [] => exact ih
      | [r'] => simp only []; rw [Verif.Merge.get, if_neg hmn]; exact ih
      | _ :: _ :: _ => exact ih

theorem sorted_byType {types : List (Text × TypeDef)} (hs : Sorted types) : Sorted (byType types) := by
  rw [byType, Verif.Merge.Sorted, List.pairwise_filterMap]
  refine List.Pairwise.imp ?_ hs
  intro a b hab x hx y hy
  have hx' : x.1 = a.1 := by
    split at hx
    · cases hx; rfl
    · cases hx
  have hy' : y.1 = b.1 := by
    split at hy
    · cases hy; rfl
    · cases hy
  rw [hx', hy']
  exact hab

theorem byType_nonempty {types : List (Text × TypeDef)} (hs : Sorted types) :
    (byType types).isEmpty = false ↔ ∃ n t r, get n types = some t ∧ t.resolvers = [r] := by
  constructor
  · intro h
    cases hb : byType types with
    | nil => rw [hb] at h; cases h
    | cons x l =>
      have := (get_byType hs x.1 x.2).1 (by rw [hb, Verif.Merge.get, if_pos rfl])
      exact ⟨x.1, this.choose, x.2, this.choose_spec⟩
  · rintro ⟨n, t, r, h, hr⟩
    have := (get_byType hs n r).2 ⟨t, h, hr⟩
    cases hb : byType types with
    | nil => rw [hb] at this; cases this
    | cons x l => rfl

theorem get_putField (q name : Text) (f : Field) (types : List (Text × TypeDef)) (n : Text) :
    get n (putField q name f types) = if q = n then
      some { (get q types).getD TypeDef.empty with fields := insert name f ((get q types).getD TypeDef.empty).fields }
    else get n types := by
  rw [putField, get_insert]

/-- What `transform` does, when it does something. -/
theorem transform_spec {c c' : Config} (he : c.enabled = true) (h : transform c = some c') :
    ∃ types, stepTypes c.types c.types = some types ∧ c'.enabled = c.enabled ∧
      c'.query = some (c.query.getD "Query".toList) ∧
      c'.types = (if (byType c.types).isEmpty then
          putField (c.query.getD "Query".toList) serviceField serviceF (insert serviceType serviceDef types)
        else putField (c.query.getD "Query".toList) entitiesField (entitiesF (byType c.types)) (insert anyType TypeDef.empty
          (putField (c.query.getD "Query".toList) serviceField serviceF (insert serviceType serviceDef types)))) ∧
      c'.unions = (if (byType c.types).isEmpty then c.unions
        else insert entityUnion ((byType c.types).map (·.1)) c.unions) := by
  rw [transform, if_pos he] at h
  cases hs : stepTypes c.types c.types with
  | none => rw [hs] at h; cases h
  | some types =>
    rw [hs] at h
    simp only [] at h
    refine ⟨types, rfl, ?_⟩
    by_cases hb : (byType c.types).isEmpty = true
    · rw [if_pos hb] at h; cases h
      simp only [if_pos hb]
      exact ⟨trivial, trivial, trivial, trivial⟩
    · rw [if_neg hb] at h; cases h
      simp only [if_neg hb]
      exact ⟨trivial, trivial, trivial, trivial⟩

/-! ## C99 -/

/-- C99: with federation switched off, nothing changes. -/
theorem C99_disabled (c : Config) (h : c.enabled = false) : transform c = some c := by
  rw [transform, if_neg (by rw [h]; simp)]

/-- What is asked of the resolver of an entity: the paths of the representation in the URL and the parameters of
`@http` go through fields, no text has an argument, and a call has a step. -/
def Admitted (types : List (Text × TypeDef)) (n : Text) (r : Resolver) : Prop :=
  (∀ url body headers query, r = .http url body headers query →
    ∀ s p, (s = url ∨ ∃ k, (k, s) ∈ query) → Mentions s "value".toList p → Chain types n p) ∧
  r ≠ .call [] ∧ ∀ s p, Parsed r s → ¬ Mentions s "args".toList p

theorem admitted_iff (types : List (Text × TypeDef)) (n : Text) (r : Resolver) :
    Admitted types n r ↔ validate types r n = [] ∧ extractKeys r ≠ none := by
  have h1 : extractKeys r ≠ none ↔ r ≠ .call [] ∧ ∀ s p, Parsed r s → ¬ Mentions s "args".toList p := by
    rw [Ne, (extract_spec r).1]
    constructor
    · intro h
      exact ⟨fun e => h (.inl e), fun s p hs hm => h (.inr ⟨s, p, hs, hm⟩)⟩
    · rintro ⟨ha, hb⟩ (h | ⟨s, p, hs, hm⟩)
      · exact ha h
      · exact hb s p hs hm
  rw [Admitted, h1]
  refine and_congr ?_ Iff.rfl
  cases r with
  | http url body headers query =>
    rw [C97_fields_exist]
    exact ⟨fun h => h url body headers query rfl, fun h u b hh q e => by cases e; exact h⟩
  | grpc => exact ⟨fun _ => rfl, fun _ u b hh q e => by cases e⟩
  | graphql => exact ⟨fun _ => rfl, fun _ u b hh q e => by cases e⟩
  | call => exact ⟨fun _ => rfl, fun _ u b hh q e => by cases e⟩
  | expr => exact ⟨fun _ => rfl, fun _ u b hh q e => by cases e⟩
  | other => exact ⟨fun _ => rfl, fun _ u b hh q e => by cases e⟩

theorem stepType_isSome_iff (ts : List (Text × TypeDef)) (n : Text) (t : TypeDef) :
    (∃ t', stepType ts n t = some t') ↔ t.resolvers = [] ∨ ∃ r, t.resolvers = [r] ∧ Admitted ts n r := by
  constructor
  · rintro ⟨t', h⟩
    obtain ⟨_, _, _, h | ⟨r, hr, hv, h⟩⟩ := stepType_keeps h
    · exact .inl h.1
    · refine .inr ⟨r, hr, (admitted_iff ts n r).2 ⟨hv, ?_⟩⟩
      rcases h with ⟨h, _⟩ | ⟨f, h, _⟩ <;> rw [h] <;> simp
  · rintro (h | ⟨r, hr, ha⟩)
    · exact ⟨t, by rw [stepType, h]⟩
    · obtain ⟨hv, he⟩ := (admitted_iff ts n r).1 ha
      rw [stepType, hr]
      simp only [hv, List.isEmpty_nil, if_true]
      cases hx : extractKeys r with
      | none => exact absurd hx he
      | some o => cases o with
        | none => exact ⟨_, rfl⟩
        | some f => exact ⟨_, rfl⟩

/-- C99: a configuration is taken if, and only if, every type has at most one resolver and that resolver can work on a
representation. -/
theorem C99_accepted_iff (c : Config) (he : c.enabled = true) (hs : Sorted c.types) :
    (∃ c', transform c = some c') ↔ ∀ n t, get n c.types = some t →
      t.resolvers = [] ∨ ∃ r, t.resolvers = [r] ∧ Admitted c.types n r := by
  constructor
  · rintro ⟨c', h⟩ n t ht
    obtain ⟨types, hst, _⟩ := transform_spec he h
    obtain ⟨t', ht', _⟩ := ((stepTypes_spec _ hst).2 n).2 t ht
    exact (stepType_isSome_iff _ n t).1 ⟨t', ht'⟩
  · intro h
    obtain ⟨l', hl⟩ := stepTypes_isSome c.types (l := c.types) (fun nt hnt =>
      (stepType_isSome_iff _ nt.1 nt.2).2 (h nt.1 nt.2 (get_of_mem_sorted hs hnt)))
    rw [transform, if_pos he, hl]
    simp only []
    split
    · exact ⟨_, rfl⟩
    · exact ⟨_, rfl⟩

theorem transform_get {c c' : Config} (he : c.enabled = true) (h : transform c = some c') {n : Text}
    (h1 : n ≠ serviceType) (h2 : n ≠ anyType) (h3 : n ≠ c.query.getD "Query".toList) :
    ∃ types, stepTypes c.types c.types = some types ∧ get n c'.types = get n types := by
  obtain ⟨types, hst, _, _, ht, _⟩ := transform_spec he h
  refine ⟨types, hst, ?_⟩
  rw [ht]
  split
  · rw [get_putField, if_neg (Ne.symm h3), get_insert, if_neg (Ne.symm h1)]
  · rw [get_putField, if_neg (Ne.symm h3), get_insert, if_neg (Ne.symm h2), get_putField, if_neg (Ne.symm h3), get_insert,
      if_neg (Ne.symm h1)]

/-- C99: a type that is neither the query type nor named like an added type keeps all it has; if its resolver reads
the representation, its key is among its directives, as the only new one. -/
theorem C99_type_kept {c c' : Config} (he : c.enabled = true) (h : transform c = some c') {n : Text} {t : TypeDef}
    (ht : get n c.types = some t) (h1 : n ≠ "_Service".toList) (h2 : n ≠ "_Any".toList)
    (h3 : n ≠ c.query.getD "Query".toList) :
    ∃ t', get n c'.types = some t' ∧ t'.fields = t.fields ∧ t'.resolvers = t.resolvers ∧ t'.rest = t.rest ∧
      (t'.directives = t.directives ∨ ∃ r f, t.resolvers = [r] ∧ extractKeys r = some (some f) ∧
        t'.directives = t.directives ++ [("key".toList, [("fields".toList, f)])]) ∧
      ∀ r f, t.resolvers = [r] → extractKeys r = some (some f) →
        ("key".toList, [("fields".toList, f)]) ∈ t'.directives := by
  obtain ⟨types, hst, hg⟩ := transform_get he h h1 h2 h3
  obtain ⟨t', ht', hg'⟩ := ((stepTypes_spec _ hst).2 n).2 t ht
  obtain ⟨k1, k2, k3, hk⟩ := stepType_keeps ht'
  refine ⟨t', hg.trans hg', k1, k2, k3, ?_⟩
  rcases hk with ⟨hr, e⟩ | ⟨r, hr, _, ⟨hx, e⟩ | ⟨f, hx, e⟩⟩
  · exact ⟨.inl (by rw [e]), fun r f hr' => by rw [hr] at hr'; cases hr'⟩
  · refine ⟨.inl (by rw [e]), fun r' f hr' hx' => ?_⟩
    rw [hr] at hr'; cases hr'; rw [hx] at hx'; cases hx'
  · rw [e, pushDirective]
    by_cases hc : t.directives.contains (keyDirective f) = true
    · rw [if_pos hc]
      refine ⟨.inl rfl, fun r' f' hr' hx' => ?_⟩
      rw [hr] at hr'; cases hr'; rw [hx] at hx'; cases hx'
      exact List.contains_iff_mem.1 hc
    · rw [if_neg hc]
      refine ⟨.inr ⟨r, f, hr, hx, rfl⟩, fun r' f' hr' hx' => ?_⟩
      rw [hr] at hr'; cases hr'; rw [hx] at hx'; cases hx'
      exact List.mem_append_right _ (List.mem_singleton.2 rfl)

/-- C99: no other type is added. -/
theorem C99_no_other_types {c c' : Config} (he : c.enabled = true) (h : transform c = some c') {n : Text}
    (ht : get n c.types = none) (h1 : n ≠ "_Service".toList) (h2 : n ≠ "_Any".toList)
    (h3 : n ≠ c.query.getD "Query".toList) : get n c'.types = none := by
  obtain ⟨types, hst, hg⟩ := transform_get he h h1 h2 h3
  rw [hg]
  exact ((stepTypes_spec _ hst).2 n).1 ht

theorem stepped_fields {c : Config} {types : List (Text × TypeDef)} (hst : stepTypes c.types c.types = some types)
    (q : Text) : ((get q types).getD TypeDef.empty).fields = ((get q c.types).getD TypeDef.empty).fields := by
  cases hq : get q c.types with
  | none => rw [((stepTypes_spec _ hst).2 q).1 hq]
  | some t =>
    obtain ⟨t', ht', hg'⟩ := ((stepTypes_spec _ hst).2 q).2 t hq
    rw [hg']
    exact (stepType_keeps ht').1

theorem query_fields_aux {c c' : Config} (he : c.enabled = true) (hs : Sorted c.types) (h : transform c = some c')
    (q : Text) (hq : q = c.query.getD "Query".toList) (h1 : q ≠ serviceType) (h2 : q ≠ anyType) :
    c'.query = some q ∧ ∃ tq, get q c'.types = some tq ∧
      get serviceField tq.fields = some serviceF ∧
      ((∃ n t r, get n c.types = some t ∧ t.resolvers = [r]) →
        ∃ by_, get entitiesField tq.fields = some ⟨.list (.named entityUnion false) true,
            [("representations".toList, .list (.named anyType true) true)], .entities by_⟩ ∧
          ∀ n r, get n by_ = some r ↔ ∃ t, get n c.types = some t ∧ t.resolvers = [r]) ∧
      (¬ (∃ n t r, get n c.types = some t ∧ t.resolvers = [r]) →
        get entitiesField tq.fields = get entitiesField ((get q c.types).getD TypeDef.empty).fields) ∧
      ∀ f, f ≠ serviceField → f ≠ entitiesField →
        get f tq.fields = get f ((get q c.types).getD TypeDef.empty).fields := by
  obtain ⟨types, hst, _, hcq, hct, _⟩ := transform_spec he h
  subst hq
  refine ⟨hcq, ?_⟩
  have hf := stepped_fields hst (c.query.getD "Query".toList)
  generalize c.query.getD "Query".toList = q at *
  have hg1 : get q (insert serviceType serviceDef types) = get q types := by
    rw [get_insert, if_neg (Ne.symm h1)]
  by_cases hb : (byType c.types).isEmpty = true
  · rw [if_pos hb] at hct
    rw [hct, get_putField, if_pos rfl, hg1]
    refine ⟨_, rfl, ?_, ?_, ?_, ?_⟩
    · simp only []; rw [get_insert, if_pos rfl]
    · intro hr
      have := (byType_nonempty hs).2 hr
      rw [hb] at this; cases this
    · intro _
      simp only []
      rw [get_insert, if_neg (by decide), hf]
    · intro f hf1 hf2
      simp only []
      rw [get_insert, if_neg (Ne.symm hf1), hf]
  · have hb' : (byType c.types).isEmpty = false := by simpa using hb
    rw [if_neg hb] at hct
    rw [hct, get_putField, if_pos rfl, get_insert, if_neg (Ne.symm h2), get_putField, if_pos rfl, hg1]
    refine ⟨_, rfl, ?_, ?_, ?_, ?_⟩
    · simp only [Option.getD_some]
      rw [get_insert, if_neg (by decide), get_insert, if_pos rfl]
    · intro _
      refine ⟨byType c.types, ?_, get_byType hs⟩
      simp only [Option.getD_some]
      rw [get_insert, if_pos rfl]; rfl
    · intro hr
      exact absurd ((byType_nonempty hs).1 hb') hr
    · intro f hf1 hf2
      simp only [Option.getD_some]
      rw [get_insert, if_neg (Ne.symm hf2), get_insert, if_neg (Ne.symm hf1), hf]

/-- C99: the query type, which is made if there is none, has `_service: _Service!` and, if some type has a resolver,
`_entities(representations: [_Any!]!): [_Entity]!`, which knows the resolver of each such type; its other fields
are as before. -/
theorem C99_query_fields {c c' : Config} (he : c.enabled = true) (hs : Sorted c.types) (h : transform c = some c')
    (q : Text) (hq : q = c.query.getD "Query".toList) (h1 : q ≠ "_Service".toList) (h2 : q ≠ "_Any".toList) :
    c'.query = some q ∧ ∃ tq, get q c'.types = some tq ∧
      get "_service".toList tq.fields = some ⟨.named "_Service".toList true, [], .service⟩ ∧
      ((∃ n t r, get n c.types = some t ∧ t.resolvers = [r]) →
        ∃ by_, get "_entities".toList tq.fields = some ⟨.list (.named "_Entity".toList false) true,
            [("representations".toList, .list (.named "_Any".toList true) true)], .entities by_⟩ ∧
          ∀ n r, get n by_ = some r ↔ ∃ t, get n c.types = some t ∧ t.resolvers = [r]) ∧
      (¬ (∃ n t r, get n c.types = some t ∧ t.resolvers = [r]) →
        get "_entities".toList tq.fields = get "_entities".toList ((get q c.types).getD TypeDef.empty).fields) ∧
      ∀ f, f ≠ "_service".toList → f ≠ "_entities".toList →
        get f tq.fields = get f ((get q c.types).getD TypeDef.empty).fields :=
  query_fields_aux he hs h q hq h1 h2

theorem entity_union_aux {c c' : Config} (he : c.enabled = true) (hs : Sorted c.types) (h : transform c = some c') :
    ((∃ n t r, get n c.types = some t ∧ t.resolvers = [r]) →
      ∃ ms, get entityUnion c'.unions = some ms ∧ ∀ n, n ∈ ms ↔ ∃ t r, get n c.types = some t ∧ t.resolvers = [r]) ∧
    (¬ (∃ n t r, get n c.types = some t ∧ t.resolvers = [r]) → c'.unions = c.unions) ∧
    ∀ u, u ≠ entityUnion → get u c'.unions = get u c.unions := by
  obtain ⟨types, _, _, _, _, hu⟩ := transform_spec he h
  by_cases hb : (byType c.types).isEmpty = true
  · rw [if_pos hb] at hu
    refine ⟨fun hr => ?_, fun _ => hu, fun u _ => by rw [hu]⟩
    have := (byType_nonempty hs).2 hr
    rw [hb] at this; cases this
  · have hb' : (byType c.types).isEmpty = false := by simpa using hb
    rw [if_neg hb] at hu
    refine ⟨fun _ => ⟨_, by rw [hu, get_insert, if_pos rfl], fun n => ?_⟩, fun hr => absurd ((byType_nonempty hs).1 hb') hr,
      fun u hne => by rw [hu, get_insert, if_neg (Ne.symm hne)]⟩
    constructor
    · intro hn
      obtain ⟨x, hx, e⟩ := List.mem_map.1 hn
      obtain ⟨t, ht, hr⟩ := (get_byType hs x.1 x.2).1 (get_of_mem_sorted (sorted_byType hs) hx)
      exact ⟨t, x.2, by rw [← e]; exact ht, hr⟩
    · rintro ⟨t, r, ht, hr⟩
      exact List.mem_map.2 ⟨(n, r), get_map_mem ((get_byType hs n r).2 ⟨t, ht, hr⟩), rfl⟩

/-- C99: the union `_Entity` has as members exactly the types with a resolver; other unions stay, and without such
types `_Entity` is not touched. -/
theorem C99_entity_union {c c' : Config} (he : c.enabled = true) (hs : Sorted c.types) (h : transform c = some c') :
    ((∃ n t r, get n c.types = some t ∧ t.resolvers = [r]) →
      ∃ ms, get "_Entity".toList c'.unions = some ms ∧ ∀ n, n ∈ ms ↔ ∃ t r, get n c.types = some t ∧ t.resolvers = [r]) ∧
    (¬ (∃ n t r, get n c.types = some t ∧ t.resolvers = [r]) → c'.unions = c.unions) ∧
    ∀ u, u ≠ "_Entity".toList → get u c'.unions = get u c.unions :=
  entity_union_aux he hs h

theorem added_types_aux {c c' : Config} (he : c.enabled = true) (hs : Sorted c.types) (h : transform c = some c')
    (h1 : c.query.getD "Query".toList ≠ serviceType) (h2 : c.query.getD "Query".toList ≠ anyType) :
    (∃ t, get serviceType c'.types = some t ∧
      t.fields = [("sdl".toList, ⟨.named "String".toList false, [], .other 0⟩)] ∧ t.resolvers = []) ∧
    ((∃ n t r, get n c.types = some t ∧ t.resolvers = [r]) →
      ∃ t, get anyType c'.types = some t ∧ t.fields = [] ∧ t.resolvers = []) := by
  obtain ⟨types, hst, _, _, hct, _⟩ := transform_spec he h
  generalize c.query.getD "Query".toList = q at *
  by_cases hb : (byType c.types).isEmpty = true
  · rw [if_pos hb] at hct
    refine ⟨⟨serviceDef, ?_, rfl, rfl⟩, fun hr => ?_⟩
    · rw [hct, get_putField, if_neg h1, get_insert, if_pos rfl]
    · have := (byType_nonempty hs).2 hr
      rw [hb] at this; cases this
  · rw [if_neg hb] at hct
    refine ⟨⟨serviceDef, ?_, rfl, rfl⟩, fun _ => ⟨TypeDef.empty, ?_, rfl, rfl⟩⟩
    · rw [hct, get_putField, if_neg h1, get_insert, if_neg (by decide), get_putField, if_neg h1, get_insert, if_pos rfl]
    · rw [hct, get_putField, if_neg h2, get_insert, if_pos rfl]

/-- C99: `_Service` has the field `sdl: String`, and `_Any` has no field. -/
theorem C99_added_types {c c' : Config} (he : c.enabled = true) (hs : Sorted c.types) (h : transform c = some c')
    (h1 : c.query.getD "Query".toList ≠ "_Service".toList) (h2 : c.query.getD "Query".toList ≠ "_Any".toList) :
    (∃ t, get "_Service".toList c'.types = some t ∧
      t.fields = [("sdl".toList, ⟨.named "String".toList false, [], .other 0⟩)] ∧ t.resolvers = []) ∧
    ((∃ n t r, get n c.types = some t ∧ t.resolvers = [r]) →
      ∃ t, get "_Any".toList c'.types = some t ∧ t.fields = [] ∧ t.resolvers = []) :=
  added_types_aux he hs h h1 h2

/-! ## Twice is once -/

theorem chain_mono {a b : List (Text × TypeDef)}
    (h : ∀ n t, get n a = some t → ∃ t', get n b = some t' ∧ ∀ k f, get k t.fields = some f →
      ∃ f', get k t'.fields = some f' ∧ f'.ty = f.ty) {t : Text} {p : List Text} (hc : Chain a t p) : Chain b t p := by
  induction hc with
  | nil t => exact .nil t
  | cons h1 h2 _ ih =>
    obtain ⟨t', ht', hf⟩ := h _ _ h1
    obtain ⟨f', hf', e⟩ := hf _ _ h2
    rw [← e] at ih
    exact .cons ht' hf' ih

theorem push_push (d : Directive) (l : List Directive) : pushDirective d (pushDirective d l) = pushDirective d l := by
  rw [pushDirective]
  split
  · rfl
  · next h =>
    rw [pushDirective] at h ⊢
    split at h
    · next h' => exact absurd h' h
    · exact absurd (List.contains_iff_mem.2 (List.mem_append_right _ (List.mem_singleton.2 rfl))) h

theorem idempotent_aux {c c' : Config} (hs : Sorted c.types) (hu : Sorted c.unions)
    (hf : ∀ n t, get n c.types = some t → Sorted t.fields)
    (h : transform c = some c') (h1 : get serviceType c.types = none) (h2 : get anyType c.types = none)
    (h3 : c.query.getD "Query".toList ≠ serviceType) (h4 : c.query.getD "Query".toList ≠ anyType)
    (h5 : ∀ t, get (c.query.getD "Query".toList) c.types = some t →
      get serviceField t.fields = none ∧ get entitiesField t.fields = none) :
    transform c' = some c' := by
  cases he : c.enabled with
  | false => rw [C99_disabled c he] at h; cases h; exact C99_disabled c he
  | true =>
    obtain ⟨types, hst, hce, hcq, hct, hcu⟩ := transform_spec he h
    have hq' : c'.query.getD "Query".toList = c.query.getD "Query".toList := by rw [hcq]; rfl
    have hsst := stepTypes_spec _ hst
    have hst_sorted : Sorted types := sorted_of_keys hsst.1 hs
    -- the types after the run
    have hs' : Sorted c'.types := by
      rw [hct]
      split
      · exact sorted_insert (sorted_insert hst_sorted)
      · exact sorted_insert (sorted_insert (sorted_insert (sorted_insert hst_sorted)))
    have hkept : ∀ n t, get n c.types = some t → ∃ t', get n c'.types = some t' ∧ t'.resolvers = t.resolvers ∧
        (∀ k f, get k t.fields = some f → ∃ f', get k t'.fields = some f' ∧ f'.ty = f.ty) ∧
        (∃ t1, stepType c.types n t = some t1 ∧ t'.directives = t1.directives) := by
      intro n t ht
      have hnS : n ≠ serviceType := by rintro rfl; rw [h1] at ht; cases ht
      have hnA : n ≠ anyType := by rintro rfl; rw [h2] at ht; cases ht
      obtain ⟨t1, ht1, hg1⟩ := (hsst.2 n).2 t ht
      obtain ⟨k1, k2, _, _⟩ := stepType_keeps ht1
      by_cases hnq : n = c.query.getD "Query".toList
      · have h5' := h5 t (hnq ▸ ht)
        have hgq : get (c.query.getD "Query".toList) (insert serviceType serviceDef types) = some t1 := by
          rw [get_insert, if_neg (Ne.symm h3), ← hnq, hg1]
        have hfk : ∀ k f, get k t.fields = some f → k ≠ serviceField ∧ k ≠ entitiesField := by
          intro k f hk
          refine ⟨?_, ?_⟩
          · rintro rfl; rw [h5'.1] at hk; cases hk
          · rintro rfl; rw [h5'.2] at hk; cases hk
        rw [hct]
        split
        · refine ⟨{ t1 with fields := insert serviceField serviceF t1.fields }, by rw [get_putField, if_pos hnq.symm, hgq]; rfl,
            k2, ?_, t1, ht1, rfl⟩
          intro k f hk
          refine ⟨f, ?_, rfl⟩
          simp only []
          rw [get_insert, if_neg (Ne.symm (hfk k f hk).1), k1, hk]
        · refine ⟨{ t1 with fields := insert entitiesField (entitiesF (byType c.types)) (insert serviceField serviceF t1.fields) },
            by rw [get_putField, if_pos hnq.symm, get_insert, if_neg (Ne.symm h4), get_putField, if_pos rfl, hgq]; rfl,
            k2, ?_, t1, ht1, rfl⟩
          intro k f hk
          refine ⟨f, ?_, rfl⟩
          simp only []
          rw [get_insert, if_neg (Ne.symm (hfk k f hk).2), get_insert, if_neg (Ne.symm (hfk k f hk).1), k1, hk]
      · obtain ⟨types', hst', hg⟩ := transform_get he h hnS hnA hnq
        rw [hst] at hst'; cases hst'
        exact ⟨t1, hg.trans hg1, k2, fun k f hk => ⟨f, by rw [k1, hk], rfl⟩, t1, ht1, rfl⟩
    have hnew : ∀ n t', get n c'.types = some t' → get n c.types = none → t'.resolvers = [] := by
      intro n t' ht' hn
      have hg0 := (hsst.2 n).1 hn
      rw [hct] at ht'
      have hS : ∀ t0, get n (insert serviceType serviceDef types) = some t0 → t0.resolvers = [] := by
        intro t0 ht0
        rw [get_insert] at ht0
        split at ht0
        · cases ht0; rfl
        · rw [hg0] at ht0; cases ht0
      have hP : ∀ t0, get n (putField (c.query.getD "Query".toList) serviceField serviceF
          (insert serviceType serviceDef types)) = some t0 → t0.resolvers = [] := by
        intro t0 ht0
        rw [get_putField] at ht0
        split at ht0
        · next e =>
          cases ht0
          simp only []
          rw [e]
          cases hx : get n (insert serviceType serviceDef types) with
          | none => rfl
          | some t1 => exact hS t1 hx
        · exact hS t0 ht0
      have hA : ∀ t0, get n (insert anyType TypeDef.empty (putField (c.query.getD "Query".toList) serviceField serviceF
          (insert serviceType serviceDef types))) = some t0 → t0.resolvers = [] := by
        intro t0 ht0
        rw [get_insert] at ht0
        split at ht0
        · cases ht0; rfl
        · exact hP t0 ht0
      split at ht'
      · exact hP t' ht'
      · rw [get_putField] at ht'
        split at ht'
        · next e =>
          cases ht'
          simp only []
          rw [e]
          cases hx : get n (insert anyType TypeDef.empty (putField n serviceField serviceF
              (insert serviceType serviceDef types))) with
          | none => rfl
          | some t1 => rw [e] at hA; exact hA t1 hx
        · exact hA t' ht'
    -- the loop changes nothing
    have hstep : stepTypes c'.types c'.types = some c'.types := by
      refine stepTypes_same _ (fun nt hnt => ?_)
      have hg := get_of_mem_sorted hs' hnt
      cases ho : get nt.1 c.types with
      | none => rw [stepType, hnew _ _ hg ho]
      | some t =>
        obtain ⟨t', ht', hr, _, t1, ht1, hd⟩ := hkept _ _ ho
        rw [hg] at ht'; cases ht'
        obtain ⟨_, _, _, hk⟩ := stepType_keeps ht1
        rcases hk with ⟨hr0, _⟩ | ⟨r, hr0, hv, hk⟩
        · rw [stepType, hr, hr0]
        · have hv' : validate c'.types r nt.1 = [] := by
            have hx : extractKeys r ≠ none := by rcases hk with ⟨hk, _⟩ | ⟨f, hk, _⟩ <;> rw [hk] <;> simp
            have hadm := (admitted_iff c.types nt.1 r).2 ⟨hv, hx⟩
            refine ((admitted_iff c'.types nt.1 r).1 ⟨?_, hadm.2⟩).1
            intro url body headers query e s p hsp hm
            refine chain_mono ?_ (hadm.1 url body headers query e s p hsp hm)
            intro n0 t0 ht0
            obtain ⟨t0', ht0', _, hf0, _⟩ := hkept n0 t0 ht0
            exact ⟨t0', ht0', hf0⟩
          rw [stepType, hr, hr0]
          simp only [hv', List.isEmpty_nil, if_true]
          rcases hk with ⟨hk, _⟩ | ⟨f, hk, e⟩
          · rw [hk]
          · rw [hk]
            simp only []
            have : pushDirective (keyDirective f) nt.2.directives = nt.2.directives := by
              rw [hd, e, push_push]
            rw [this, ← hr0, ← hr]
    have hby : byType c'.types = byType c.types := by
      refine sorted_ext (sorted_byType hs') (sorted_byType hs) (fun n => ?_)
      refine Option.ext (fun r => ?_)
      rw [get_byType hs', get_byType hs]
      constructor
      · rintro ⟨t', ht', hr⟩
        cases ho : get n c.types with
        | none => rw [hnew n t' ht' ho] at hr; cases hr
        | some t =>
          obtain ⟨t'', ht'', hr', _⟩ := hkept n t ho
          rw [ht'] at ht''; cases ht''
          exact ⟨t, rfl, hr' ▸ hr⟩
      · rintro ⟨t, ht, hr⟩
        obtain ⟨t', ht', hr', _⟩ := hkept n t ht
        exact ⟨t', ht', hr'.trans hr⟩
    have hqf := query_fields_aux he hs h (c.query.getD "Query".toList) rfl h3 h4
    obtain ⟨_, tq, htq, hsf, hef, _, _⟩ := hqf
    have hadd := added_types_aux he hs h h3 h4
    -- sortedness of the fields of the query type
    have htqs : Sorted tq.fields := by
      have hbase : Sorted ((get (c.query.getD "Query".toList) types).getD TypeDef.empty).fields := by
        rw [stepped_fields hst]
        cases ho : get (c.query.getD "Query".toList) c.types with
        | none => exact List.Pairwise.nil
        | some t => exact hf _ t ho
      have hgq : get (c.query.getD "Query".toList) (insert serviceType serviceDef types) =
          get (c.query.getD "Query".toList) types := by rw [get_insert, if_neg (Ne.symm h3)]
      rw [hct] at htq
      split at htq
      · rw [get_putField, if_pos rfl, hgq] at htq
        cases htq
        exact sorted_insert hbase
      · rw [get_putField, if_pos rfl, get_insert, if_neg (Ne.symm h4), get_putField, if_pos rfl, hgq] at htq
        cases htq
        exact sorted_insert (sorted_insert hbase)
    have hputs : putField (c.query.getD "Query".toList) serviceField serviceF c'.types = c'.types := by
      rw [putField, htq]
      simp only [Option.getD_some]
      rw [insert_same htqs hsf]
      exact insert_same hs' htq
    have hins : insert serviceType serviceDef c'.types = c'.types := by
      refine insert_same hs' ?_
      rw [hct]
      split
      · rw [get_putField, if_neg h3, get_insert, if_pos rfl]
      · rw [get_putField, if_neg h3, get_insert, if_neg (by decide), get_putField, if_neg h3, get_insert, if_pos rfl]
    rw [transform, if_pos (hce.trans he), hstep]
    simp only []
    rw [hq', hby, hins, hputs]
    by_cases hb : (byType c.types).isEmpty = true
    · rw [if_pos hb, ← hcq]
    · rw [if_neg hb]
      have hb' : (byType c.types).isEmpty = false := by simpa using hb
      have hany : insert anyType TypeDef.empty c'.types = c'.types := by
        refine insert_same hs' ?_
        rw [hct, if_neg hb, get_putField, if_neg h4, get_insert, if_pos rfl]
      have hent : get entitiesField tq.fields = some (entitiesF (byType c.types)) := by
        rw [hct, if_neg hb, get_putField, if_pos rfl] at htq
        cases htq
        simp only []
        rw [get_insert, if_pos rfl]
      have hpute : putField (c.query.getD "Query".toList) entitiesField (entitiesF (byType c.types)) c'.types = c'.types := by
        rw [putField, htq]
        simp only [Option.getD_some]
        rw [insert_same htqs hent]
        exact insert_same hs' htq
      have hun : insert entityUnion ((byType c.types).map (·.1)) c'.unions = c'.unions := by
        refine insert_same ?_ ?_
        · rw [hcu, if_neg hb]; exact sorted_insert hu
        · rw [hcu, if_neg hb, get_insert, if_pos rfl]
      rw [hany, hpute, hun, ← hcq]

/-- C99: a second run changes nothing.  (Partial: the names `_Service` and `_Any` are free, the query type is not named
so, and its own fields `_service` and `_entities` are not those through which a key goes.) -/
theorem C99_idempotent_partial {c c' : Config} (hs : Sorted c.types) (hu : Sorted c.unions)
    (hf : ∀ n t, get n c.types = some t → Sorted t.fields)
    (h : transform c = some c') (h1 : get "_Service".toList c.types = none) (h2 : get "_Any".toList c.types = none)
    (h3 : c.query.getD "Query".toList ≠ "_Service".toList) (h4 : c.query.getD "Query".toList ≠ "_Any".toList)
    (h5 : ∀ t, get (c.query.getD "Query".toList) c.types = some t →
      get "_service".toList t.fields = none ∧ get "_entities".toList t.fields = none) :
    transform c' = some c' :=
  idempotent_aux hs hu hf h h1 h2 h3 h4 h5

/-! ## Cases and negations -/

/-- The configuration of the cases. -/
def exConf : Config where
  enabled := true
  query := none
  types := [("Owner".toList, { TypeDef.empty with fields := [("name".toList, ⟨.named "String".toList false, [], .other 0⟩)] }),
    ("Query".toList, { TypeDef.empty with fields := [("repo".toList, ⟨.named "Repo".toList false, [], .other 1⟩)] }),
    ("Repo".toList, { TypeDef.empty with
      fields := [("id".toList, ⟨.named "ID".toList true, [], .other 0⟩), ("owner".toList, ⟨.named "Owner".toList false, [], .other 0⟩)]
      resolvers := [.http "http://x/{{.value.id}}".toList none [] [("o".toList, "{{.value.owner.name}}".toList)]] })]
  unions := []

theorem exConf_some : (transform exConf).isSome = true := by decide +kernel

theorem exConf_sorted : Sorted exConf.types := by
  unfold Verif.Merge.Sorted; decide +kernel

/-- Cases of the theorems: `Repo` gets its key, `_entities` knows `Repo`, and twice is once. -/
example : ∃ c', transform exConf = some c' ∧ transform c' = some c' ∧
    (∃ ms, get "_Entity".toList c'.unions = some ms ∧ "Repo".toList ∈ ms ∧ "Owner".toList ∉ ms) ∧
    ∃ t', get "Repo".toList c'.types = some t' ∧ t'.fields.length = 2 ∧
      ("key".toList, [("fields".toList, "id owner { name }".toList)]) ∈ t'.directives := by
  obtain ⟨c', h⟩ := Option.isSome_iff_exists.1 exConf_some
  refine ⟨c', h, ?_, ?_, ?_⟩
  · refine C99_idempotent_partial exConf_sorted List.Pairwise.nil ?_ h rfl rfl (by decide) (by decide) ?_
    · intro n t ht
      have := get_map_mem ht
      rcases List.mem_cons.1 this with e | this
      · cases e; unfold Verif.Merge.Sorted; decide +kernel
      rcases List.mem_cons.1 this with e | this
      · cases e; unfold Verif.Merge.Sorted; decide +kernel
      rcases List.mem_cons.1 this with e | this
      · cases e; unfold Verif.Merge.Sorted; decide +kernel
      · cases this
    · intro t ht
      cases ht
      exact ⟨rfl, rfl⟩
  · obtain ⟨ms, hm, hx⟩ := (C99_entity_union rfl exConf_sorted h).1 ⟨"Repo".toList, _, _, rfl, rfl⟩
    refine ⟨ms, hm, (hx _).2 ⟨_, _, rfl, rfl⟩, fun ho => ?_⟩
    obtain ⟨t, r, ht, hr⟩ := (hx _).1 ho
    cases ht
    cases hr
  · obtain ⟨t', ht', hf, _, _, _, hk⟩ := C99_type_kept (n := "Repo".toList) rfl h rfl (by decide) (by decide) (by decide)
    exact ⟨t', ht', by rw [hf]; rfl, hk _ _ rfl (by decide +kernel)⟩

/-- Cases of `C99_query_fields`, `C99_no_other_types`, `C99_added_types` and `C99_accepted_iff`. -/
example : ∃ c', transform exConf = some c' ∧ get "Nope".toList c'.types = none ∧
    (∃ t, get "_Any".toList c'.types = some t ∧ t.fields = [] ∧ t.resolvers = []) ∧
    ∃ tq, get "Query".toList c'.types = some tq ∧ (get "repo".toList tq.fields).isSome ∧
      (get "_entities".toList tq.fields).isSome := by
  obtain ⟨c', h⟩ := Option.isSome_iff_exists.1 exConf_some
  obtain ⟨_, tq, h1, _, h3, _, h5⟩ := C99_query_fields rfl exConf_sorted h "Query".toList rfl (by decide) (by decide)
  obtain ⟨by_, h6, _⟩ := h3 ⟨"Repo".toList, _, _, rfl, rfl⟩
  refine ⟨c', h, C99_no_other_types rfl h rfl (by decide) (by decide) (by decide),
    (C99_added_types rfl exConf_sorted h (by decide) (by decide)).2 ⟨"Repo".toList, _, _, rfl, rfl⟩, tq, h1, ?_, ?_⟩
  · rw [h5 _ (by decide) (by decide)]; rfl
  · rw [h6]; rfl

example : ∀ n t, get n exConf.types = some t →
    t.resolvers = [] ∨ ∃ r, t.resolvers = [r] ∧ Admitted exConf.types n r :=
  (C99_accepted_iff exConf rfl exConf_sorted).1 (Option.isSome_iff_exists.1 exConf_some)

/-- C99 does not hold for a type named `_Any`: its fields are lost. -/
theorem C99_kept_violated_by_any : ∃ (c c' : Config) (n : Text) (t t' : TypeDef), c.enabled = true ∧
    transform c = some c' ∧ get n c.types = some t ∧ get n c'.types = some t' ∧ t.fields ≠ [] ∧ t'.fields = [] := by
  refine ⟨{ exConf with types := ("_Any".toList, { TypeDef.empty with
    fields := [("a".toList, ⟨.named "String".toList false, [], .other 0⟩)] }) :: exConf.types }, _, "_Any".toList, _, _, rfl,
    rfl, rfl, rfl, ?_, rfl⟩
  simp

/-- C99 does not hold for a union named `_Entity`: its members are lost. -/
theorem C99_kept_violated_by_union : ∃ (c c' : Config), c.enabled = true ∧ transform c = some c' ∧
    get "_Entity".toList c.unions = some ["Owner".toList] ∧ get "_Entity".toList c'.unions = some ["Repo".toList] :=
  ⟨{ exConf with unions := [("_Entity".toList, ["Owner".toList])] }, _, rfl, rfl, rfl, rfl⟩

/-- C99 does not hold for a query type named `_Any`: it has no field `_service`. -/
theorem C99_service_violated_by_query_name : ∃ (c c' : Config) (q : Text) (tq : TypeDef), c.enabled = true ∧
    transform c = some c' ∧ c'.query = some q ∧ get q c'.types = some tq ∧ (get "_service".toList tq.fields).isNone :=
  ⟨{ exConf with query := some "_Any".toList }, _, "_Any".toList, _, rfl, rfl, rfl, rfl, rfl⟩

end Verif.Subgraph
