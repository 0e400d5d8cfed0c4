import Verif.Prune.Model

/-!
# Properties of dropping unused definitions
-/

namespace Verif.Prune

open Verif.Mustache (Text)
open Verif.Exec (Ty)
open Verif.Merge (get)

set_option linter.unusedSimpArgs false

/-! ## Specification -/

/-- The definition names the type. -/
inductive Refers : Def → Text → Prop
  | field {n fs impl f} : f ∈ fs → Refers (.object n fs impl) f.ty.name
  | arg {n fs impl f a} : f ∈ fs → a ∈ f.args → Refers (.object n fs impl) a.2.name
  | implements {n fs impl i} : i ∈ impl → Refers (.object n fs impl) i
  | ifield {n fs impl f} : f ∈ fs → Refers (.interface n fs impl) f.ty.name
  | iarg {n fs impl f a} : f ∈ fs → a ∈ f.args → Refers (.interface n fs impl) a.2.name
  | iimplements {n fs impl i} : i ∈ impl → Refers (.interface n fs impl) i
  | input {n fs f} : f ∈ fs → Refers (.input n fs) f.2.name
  | member {n ts t} : t ∈ ts → Refers (.union n ts) t

/-- The definition is an object that implements the interface. -/
def Implements (d : Def) (i : Text) : Prop := ∃ n fs impl, d = .object n fs impl ∧ i ∈ impl

/-- A type that is needed to answer operations: that of an operation, one that a needed type
names, or an object that implements a needed interface. -/
inductive Needed (bp : Blueprint) (start : Text → Prop) : Text → Prop
  | start {n} : start n → Needed bp start n
  | refers {d n} : d ∈ bp.defs → Needed bp start d.name → Refers d n → Needed bp start n
  | implementor {d o n fs impl} : d ∈ bp.defs → d = .interface n fs impl → Needed bp start n →
      o ∈ bp.defs → Implements o n → Needed bp start o.name

/-- The types of the operations. -/
def Operation (bp : Blueprint) (n : Text) : Prop := n = bp.query ∨ bp.mutation = some n

/-- The types of the operations and the names that are taken for such types. -/
def Rooted (bp : Blueprint) (n : Text) : Prop :=
  Operation bp n ∨ n = "Query".toList ∨ n = "Mutation".toList ∨ n = "Subscription".toList

/-- The names of GraphQL's own types. -/
def Own (n : Text) : Prop :=
  n ∈ ["__Schema", "__Type", "__Field", "__InputValue", "__EnumValue", "__Directive",
    "__DirectiveLocation"].map String.toList

/-- What an interface names, besides the types of its fields, is named by an object that
implements it.  So it is in a valid GraphQL schema in which each interface is implemented. -/
def Implemented (bp : Blueprint) : Prop :=
  ∀ n fs impl, Def.interface n fs impl ∈ bp.defs → ∀ x,
    (x ∈ impl ∨ ∃ f ∈ fs, ∃ a ∈ f.args, a.2.name = x) →
    ∃ o ∈ bp.defs, Implements o n ∧ Refers o x

/-- Each name is defined once. -/
def Distinct (bp : Blueprint) : Prop := ∀ d ∈ bp.defs, ∀ e ∈ bp.defs, d.name = e.name → d = e

/-! ## The search -/

/-- One step in the graph. -/
def Edge (g : List (Text × List Text)) (a b : Text) : Prop := ∃ ds, get a g = some ds ∧ b ∈ ds

/-- What can be reached. -/
inductive Reach (g : List (Text × List Text)) (roots : List Text) : Text → Prop
  | root {n} : n ∈ roots → Reach g roots n
  | step {a b} : Reach g roots a → Edge g a b → Reach g roots b

/-- The number of dependencies of entries that are not seen. -/
def weight (seen : List Text) : List (Text × List Text) → Nat
  | [] => 0
  | (k, ds) :: rest => (if seen.contains k then 0 else ds.length) + weight seen rest

theorem weight_le (n : Text) (seen : List Text) (g) : weight (n :: seen) g ≤ weight seen g := by
  induction g with
  | nil => simp [weight]
  | cons x rest ih =>
    obtain ⟨k, ds⟩ := x
    simp only [weight, List.contains_cons]
    by_cases h : seen.contains k = true
    · simp only [h, Bool.or_true, if_true]; omega
    · simp only [h, Bool.or_false]
      split <;> simp <;> omega

theorem weight_get {n : Text} {seen : List Text} {ds} : ∀ g : List (Text × List Text),
    get n g = some ds → seen.contains n = false → weight (n :: seen) g + ds.length ≤ weight seen g
  | [], h, _ => by cases h
  | (k, es) :: rest, h, hs => by
    simp only [Verif.Merge.get] at h
    simp only [weight]
    split at h
    · rename_i he
      subst he; cases h
      have := weight_le k seen rest
      simp only [List.contains_cons, beq_self_eq_true, Bool.true_or, if_true, hs]
      simp; omega
    · rename_i hne
      have := weight_get rest h hs
      have hb : (k == n) = false := by simpa using hne
      have : (n :: seen).contains k = seen.contains k := by
        rw [List.contains_cons, hb, Bool.false_or]
      rw [this]; omega

theorem weight_nil : ∀ g : List (Text × List Text), weight [] g = (g.map (fun e => e.2.length)).sum
  | [] => rfl
  | (k, ds) :: rest => by simp [weight, weight_nil rest]

/-- The loop ends, and gives the least set with the stack that is closed. -/
theorem explore_spec (g : List (Text × List Text)) : ∀ (fuel : Nat) (stack seen : List Text),
    stack.length + weight seen g ≤ fuel →
    (∀ x ∈ seen, ∀ y, Edge g x y → y ∈ seen ∨ y ∈ stack) →
    ∃ out, explore g fuel stack seen = some out ∧ (∀ x ∈ seen, x ∈ out) ∧ (∀ x ∈ stack, x ∈ out) ∧
      (∀ x ∈ out, ∀ y, Edge g x y → y ∈ out) ∧
      (∀ P : Text → Prop, (∀ x ∈ seen, P x) → (∀ x ∈ stack, P x) → (∀ x y, P x → Edge g x y → P y) →
        ∀ x ∈ out, P x)
  | fuel, [], seen, _, hc => by
    refine ⟨seen, by cases fuel <;> rfl, fun _ h => h, by simp, ?_, fun P h _ _ => h⟩
    intro x hx y hy
    exact (hc x hx y hy).elim id (by simp)
  | 0, n :: stack, seen, h, _ => by simp at h
  | fuel + 1, n :: stack, seen, h, hc => by
    simp only [explore]
    simp only [List.length_cons] at h
    split
    · rename_i hs
      have hs' : n ∈ seen := by simpa using hs
      obtain ⟨out, h1, h2, h3, h4, h5⟩ := explore_spec g fuel stack seen (by omega)
        (fun x hx y hy => (hc x hx y hy).elim .inl fun hm => (List.mem_cons.mp hm).elim
          (fun he => .inl (he ▸ hs')) .inr)
      refine ⟨out, h1, h2, ?_, h4, ?_⟩
      · intro x hx
        rcases List.mem_cons.mp hx with he | hx
        · exact h2 x (he ▸ hs')
        · exact h3 x hx
      · exact fun P p1 p2 p3 => h5 P p1 (fun x hx => p2 x (List.mem_cons_of_mem _ hx)) p3
    · rename_i hs
      have hs' : seen.contains n = false := by simpa using hs
      cases hg : get n g with
      | none =>
        have hw := weight_le n seen g
        obtain ⟨out, h1, h2, h3, h4, h5⟩ := explore_spec g fuel stack (n :: seen) (by omega) (by
          intro x hx y hy
          rcases List.mem_cons.mp hx with he | hx
          · obtain ⟨ds, h1, _⟩ := hy; rw [he, hg] at h1; cases h1
          · rcases hc x hx y hy with h | h
            · exact .inl (List.mem_cons_of_mem _ h)
            · rcases List.mem_cons.mp h with h | h
              · exact .inl (h ▸ List.mem_cons_self)
              · exact .inr h)
        refine ⟨out, h1, fun x hx => h2 x (List.mem_cons_of_mem _ hx), ?_, h4, ?_⟩
        · intro x hx
          rcases List.mem_cons.mp hx with he | hx
          · exact h2 x (he ▸ List.mem_cons_self)
          · exact h3 x hx
        · intro P p1 p2 p3
          refine h5 P ?_ (fun x hx => p2 x (List.mem_cons_of_mem _ hx)) p3
          intro x hx
          rcases List.mem_cons.mp hx with he | hx
          · exact p2 x (he ▸ List.mem_cons_self)
          · exact p1 x hx
      | some ds =>
        have hw := weight_get g hg hs'
        obtain ⟨out, h1, h2, h3, h4, h5⟩ := explore_spec g fuel (ds.reverse ++ stack) (n :: seen)
          (by simp only [List.length_append, List.length_reverse]; omega) (by
          intro x hx y hy
          rcases List.mem_cons.mp hx with he | hx
          · obtain ⟨es, h1, hm⟩ := hy
            rw [he, hg] at h1; cases h1
            exact .inr (List.mem_append.mpr (.inl (List.mem_reverse.mpr hm)))
          · rcases hc x hx y hy with h | h
            · exact .inl (List.mem_cons_of_mem _ h)
            · rcases List.mem_cons.mp h with h | h
              · exact .inl (h ▸ List.mem_cons_self)
              · exact .inr (List.mem_append.mpr (.inr h)))
        refine ⟨out, h1, fun x hx => h2 x (List.mem_cons_of_mem _ hx), ?_, h4, ?_⟩
        · intro x hx
          rcases List.mem_cons.mp hx with he | hx
          · exact h2 x (he ▸ List.mem_cons_self)
          · exact h3 x (List.mem_append.mpr (.inr hx))
        · intro P p1 p2 p3
          refine h5 P ?_ ?_ p3
          · intro x hx
            rcases List.mem_cons.mp hx with he | hx
            · exact p2 x (he ▸ List.mem_cons_self)
            · exact p1 x hx
          · intro x hx
            rcases List.mem_append.mp hx with hx | hx
            · exact p3 n x (p2 n List.mem_cons_self) ⟨ds, hg, List.mem_reverse.mp hx⟩
            · exact p2 x (List.mem_cons_of_mem _ hx)

theorem compress_eq (bp : Blueprint) : ∃ out, compress bp =
    some { bp with defs := bp.defs.filter fun d => (builtins ++ out).contains d.name } ∧
    ∀ x, x ∈ out ↔ Reach (graph bp.defs) (roots bp) x := by
  obtain ⟨out, h1, _, h3, h4, h5⟩ := explore_spec (graph bp.defs) (rounds (graph bp.defs) (roots bp)) (roots bp) []
    (by rw [weight_nil]; exact Nat.le_refl _) (by simp)
  refine ⟨out, by simp only [compress, h1]; rfl, fun x => ⟨?_, ?_⟩⟩
  · exact h5 _ (by simp) (fun x hx => .root hx) (fun x y hx hy => .step hx hy) x
  · intro h
    induction h with
    | root h => exact h3 _ h
    | step _ he ih => exact h4 _ ih _ he

theorem compress_mem {bp bp' : Blueprint} (h : compress bp = some bp') (d : Def) :
    d ∈ bp'.defs ↔ d ∈ bp.defs ∧ (d.name ∈ builtins ∨ Reach (graph bp.defs) (roots bp) d.name) := by
  obtain ⟨out, h1, h2⟩ := compress_eq bp
  rw [h] at h1; cases h1
  simp only [List.mem_filter, List.contains_iff_mem, List.mem_append, h2]

/-! ## The graph -/

theorem get_of_mem {l : List (Text × List Text)} {k v} (h : (k, v) ∈ l) : ∃ v', get k l = some v' := by
  induction l with
  | nil => cases h
  | cons x rest ih =>
    obtain ⟨k', v'⟩ := x
    simp only [Verif.Merge.get]
    split
    · exact ⟨_, rfl⟩
    · rename_i hne
      rcases List.mem_cons.mp h with he | h
      · cases he; exact absurd rfl hne
      · exact ih h

theorem mem_of_get {l : List (Text × List Text)} {k v} (h : get k l = some v) : (k, v) ∈ l := by
  induction l with
  | nil => cases h
  | cons x rest ih =>
    obtain ⟨k', v'⟩ := x
    simp only [Verif.Merge.get] at h
    split at h
    · rename_i he; subst he; cases h; exact List.mem_cons_self
    · exact List.mem_cons_of_mem _ (ih h)

theorem graph_get {defs : List Def} {a ds} (h : get a (graph defs) = some ds) :
    ∃ d ∈ defs, d.name = a ∧ deps defs d = ds := by
  have := mem_of_get h
  unfold graph at this
  rw [List.mem_reverse, List.mem_map] at this
  obtain ⟨d, hd, he⟩ := this
  cases he
  exact ⟨d, hd, rfl, rfl⟩

theorem edge_of {bp : Blueprint} (hd : Distinct bp) {d : Def} (hm : d ∈ bp.defs) {x} (hx : x ∈ deps bp.defs d) :
    Edge (graph bp.defs) d.name x := by
  obtain ⟨ds, h⟩ := get_of_mem (l := graph bp.defs) (k := d.name) (v := deps bp.defs d) (by
    unfold graph
    rw [List.mem_reverse, List.mem_map]
    exact ⟨d, hm, rfl⟩)
  obtain ⟨e, he, hn, hds⟩ := graph_get h
  cases hd d hm e he hn.symm
  exact ⟨ds, h, hds ▸ hx⟩

theorem mem_implementors {defs : List Def} {n o} : o ∈ implementors defs n ↔ ∃ d ∈ defs, Implements d n ∧ d.name = o := by
  unfold implementors
  rw [List.mem_filterMap]
  constructor
  · rintro ⟨d, hd, h⟩
    cases d with
    | object m fs impl =>
      simp only at h
      split at h
      · rename_i hc
        injection h with h
        exact ⟨_, hd, ⟨m, fs, impl, rfl, by simpa using hc⟩, h⟩
      · cases h
    | interface _ _ _ => cases h
    | input _ _ => cases h
    | scalar _ => cases h
    | enum _ _ => cases h
    | union _ _ => cases h
  · rintro ⟨d, hd, ⟨m, fs, impl, rfl, hi⟩, rfl⟩
    exact ⟨_, hd, by simp [hi, Def.name]⟩

/-- What is named is a dependency, except what interfaces name besides the types of fields. -/
theorem refers_deps {defs : List Def} {d : Def} {x} (h : Refers d x) :
    x ∈ deps defs d ∨ ∃ n fs impl, d = .interface n fs impl ∧
      (x ∈ impl ∨ ∃ f ∈ fs, ∃ a ∈ f.args, a.2.name = x) := by
  cases h with
  | field h => exact .inl (List.mem_append.mpr (.inl (List.mem_append.mpr (.inl (List.mem_map.mpr ⟨_, h, rfl⟩)))))
  | arg h1 h2 => exact .inl (List.mem_append.mpr (.inl (List.mem_append.mpr (.inr
      (List.mem_flatMap.mpr ⟨_, h1, List.mem_map.mpr ⟨_, h2, rfl⟩⟩)))))
  | implements h => exact .inl (List.mem_append.mpr (.inr h))
  | ifield h => exact .inl (List.mem_append.mpr (.inl (List.mem_map.mpr ⟨_, h, rfl⟩)))
  | iarg h1 h2 => exact .inr ⟨_, _, _, rfl, .inr ⟨_, h1, _, h2, rfl⟩⟩
  | iimplements h => exact .inr ⟨_, _, _, rfl, .inl h⟩
  | input h => exact .inl (List.mem_map.mpr ⟨_, h, rfl⟩)
  | member h => exact .inl h

/-- A dependency is named, an implementor, a value of an enum or the scalar itself. -/
theorem deps_refers {defs : List Def} {d : Def} {x} (h : x ∈ deps defs d) :
    Refers d x ∨ (∃ n fs impl, d = .interface n fs impl ∧ ∃ o ∈ defs, Implements o n ∧ o.name = x) ∨
    (∃ n vs, d = .enum n vs ∧ x ∈ vs) ∨ d = .scalar x := by
  cases d with
  | object n fs impl =>
    rcases List.mem_append.mp h with h | h
    · rcases List.mem_append.mp h with h | h
      · obtain ⟨f, hf, rfl⟩ := List.mem_map.mp h
        exact .inl (.field hf)
      · obtain ⟨f, hf, h⟩ := List.mem_flatMap.mp h
        obtain ⟨a, ha, rfl⟩ := List.mem_map.mp h
        exact .inl (.arg hf ha)
    · exact .inl (.implements h)
  | interface n fs impl =>
    rcases List.mem_append.mp h with h | h
    · obtain ⟨f, hf, rfl⟩ := List.mem_map.mp h
      exact .inl (.ifield hf)
    · exact .inr (.inl ⟨n, fs, impl, rfl, mem_implementors.mp h⟩)
  | input n fs =>
    obtain ⟨f, hf, rfl⟩ := List.mem_map.mp h
    exact .inl (.input hf)
  | scalar n => simp only [deps, List.mem_singleton] at h; subst h; exact .inr (.inr (.inr rfl))
  | enum n vs => exact .inr (.inr (.inl ⟨n, vs, rfl, h⟩))
  | union n ts => exact .inl (.member h)

theorem needed_reach {bp : Blueprint} (hd : Distinct bp) (hi : Implemented bp) {n}
    (h : Needed bp (Rooted bp) n) : Reach (graph bp.defs) (roots bp) n := by
  have impl : ∀ {n fs impl o}, Def.interface n fs impl ∈ bp.defs → o ∈ bp.defs → Implements o n →
      Reach (graph bp.defs) (roots bp) n → Reach (graph bp.defs) (roots bp) o.name := by
    intro n fs impl o hm ho him hr
    refine .step hr (edge_of hd hm ?_)
    exact List.mem_append.mpr (.inr (mem_implementors.mpr ⟨o, ho, him, rfl⟩))
  induction h with
  | start h =>
    refine .root ?_
    rcases h with (h | h) | h | h | h
    · simp [roots, h]
    · simp [roots, h]
    · rw [h]; simp [roots]
    · rw [h]; simp [roots]
    · rw [h]; simp [roots]
  | refers hm _ href ih =>
    rcases refers_deps (defs := bp.defs) href with h | ⟨n, fs, im, he, hx⟩
    · exact .step ih (edge_of hd hm h)
    · subst he
      obtain ⟨o, ho, him, hro⟩ := hi n fs im hm _ hx
      have hor := impl hm ho him ih
      rcases refers_deps (defs := bp.defs) hro with h | ⟨n', fs', im', he', _⟩
      · exact .step hor (edge_of hd ho h)
      · obtain ⟨_, _, _, he'', _⟩ := him
        rw [he''] at he'; cases he'
  | implementor hm he _ ho him ih =>
    subst he
    exact impl hm ho him ih

/-! ## C94 -/

/-- C94: dropping definitions always ends, keeps the order and the content of what it keeps and
the types of the operations. -/
theorem C94_ends_and_keeps_order (bp : Blueprint) : ∃ bp', compress bp = some bp' ∧
    bp'.defs.Sublist bp.defs ∧ bp'.query = bp.query ∧ bp'.mutation = bp.mutation := by
  obtain ⟨out, h, _⟩ := compress_eq bp
  exact ⟨_, h, List.filter_sublist, rfl, rfl⟩

/-- C94 (partial): what is needed to answer operations is kept, if what interfaces name is named by
an object that implements them.  Missing: interfaces without such objects, for which it does not
hold. -/
theorem C94_needed_is_kept_partial (bp bp' : Blueprint) (h : compress bp = some bp') (hd : Distinct bp)
    (hi : Implemented bp) (d : Def) (hm : d ∈ bp.defs) (hn : Needed bp (Rooted bp) d.name) : d ∈ bp'.defs :=
  (compress_mem h d).mpr ⟨hm, .inr (needed_reach hd hi hn)⟩

/-- C94 (partial): no definition that is kept names one that is dropped, under the same condition,
and when the names of GraphQL's own types are not defined. -/
theorem C94_nothing_dangles_partial (bp bp' : Blueprint) (h : compress bp = some bp') (hd : Distinct bp)
    (hi : Implemented bp) (ho : ∀ d ∈ bp.defs, ¬ Own d.name) (d : Def) (hm : d ∈ bp'.defs) (x : Text)
    (hr : Refers d x) (e : Def) (he : e ∈ bp.defs) (hx : e.name = x) : e ∈ bp'.defs := by
  obtain ⟨hdm, hreach⟩ := (compress_mem h d).mp hm
  have hreach : Reach (graph bp.defs) (roots bp) d.name := by
    rcases hreach with hb | hr
    · have hnot := ho d hdm
      have : d.name ∈ ["Query".toList, "Mutation".toList, "Subscription".toList] := by
        have hb : d.name ∈ ["Query".toList, "Mutation".toList, "Subscription".toList] ++
            ["__Schema", "__Type", "__Field", "__InputValue", "__EnumValue", "__Directive",
              "__DirectiveLocation"].map String.toList := hb
        rcases List.mem_append.mp hb with h | h
        · exact h
        · exact absurd h hnot
      refine .root ?_
      simp only [List.mem_cons, List.not_mem_nil, or_false] at this
      rcases this with h | h | h <;> rw [h] <;> simp [roots]
    · exact hr
  have impl : ∀ {n fs impl o}, Def.interface n fs impl ∈ bp.defs → o ∈ bp.defs → Implements o n →
      Reach (graph bp.defs) (roots bp) n → Reach (graph bp.defs) (roots bp) o.name := by
    intro n fs impl o hm ho him hr
    refine .step hr (edge_of hd hm ?_)
    exact List.mem_append.mpr (.inr (mem_implementors.mpr ⟨o, ho, him, rfl⟩))
  refine (compress_mem h e).mpr ⟨he, .inr ?_⟩
  rw [hx]
  rcases refers_deps (defs := bp.defs) hr with h | ⟨n, fs, im, hde, hxx⟩
  · exact .step hreach (edge_of hd hdm h)
  · subst hde
    obtain ⟨o, ho', him, hro⟩ := hi n fs im hdm _ hxx
    rcases refers_deps (defs := bp.defs) hro with h | ⟨n', fs', im', he', _⟩
    · exact .step (impl hdm ho' him hreach) (edge_of hd ho' h)
    · obtain ⟨_, _, _, he'', _⟩ := him
      rw [he''] at he'; cases he'

/-- C94 (partial): what is kept is needed, if no definition has the name of a value of an enum.
Missing: such values, for which it does not hold. -/
theorem C94_kept_is_needed_partial (bp bp' : Blueprint) (h : compress bp = some bp')
    (hv : ∀ n vs, Def.enum n vs ∈ bp.defs → ∀ v ∈ vs, ∀ d ∈ bp.defs, d.name ≠ v) (d : Def)
    (hm : d ∈ bp'.defs) : d ∈ bp.defs ∧ (Needed bp (Rooted bp) d.name ∨ Own d.name) := by
  obtain ⟨hdm, hreach⟩ := (compress_mem h d).mp hm
  refine ⟨hdm, ?_⟩
  rcases hreach with hb | hr
  · have hb : d.name ∈ ["Query".toList, "Mutation".toList, "Subscription".toList] ++
        ["__Schema", "__Type", "__Field", "__InputValue", "__EnumValue", "__Directive",
          "__DirectiveLocation"].map String.toList := hb
    rcases List.mem_append.mp hb with h | h
    · left
      simp only [List.mem_cons, List.not_mem_nil, or_false] at h
      exact .start (.inr h)
    · exact .inr h
  · left
    have key : ∀ n, Reach (graph bp.defs) (roots bp) n → Needed bp (Rooted bp) n ∨ ∀ d ∈ bp.defs, d.name ≠ n := by
      intro n hr
      induction hr with
      | root h =>
        left
        simp only [roots, List.mem_cons, List.not_mem_nil, or_false] at h
        rcases h with h | h | h | h | h
        · cases hmu : bp.mutation with
          | none => rw [hmu] at h; exact .start (.inr (.inr (.inl h)))
          | some m => rw [hmu] at h; exact .start (.inl (.inr (by rw [hmu, h]; rfl)))
        · exact .start (.inl (.inl h))
        · exact .start (.inr (.inr (.inr h)))
        · exact .start (.inr (.inr (.inl h)))
        · exact .start (.inr (.inl h))
      | step _ he ih =>
        obtain ⟨ds, hg, hx⟩ := he
        obtain ⟨e, hem, hen, hds⟩ := graph_get hg
        rcases ih with ih | ih
        · rw [← hen] at ih
          rw [← hds] at hx
          rcases deps_refers hx with h | ⟨n, fs, impl, rfl, o, ho, him, rfl⟩ | ⟨n, vs, rfl, hv'⟩ | rfl
          · exact .inl (.refers hem ih h)
          · exact .inl (.implementor hem rfl ih ho him)
          · exact .inr (fun d hd => hv n vs hem _ hv' d hd)
          · exact .inl ih
        · exact absurd hen (ih e hem)
    exact (key _ hr).elim id fun h => absurd rfl (h d hdm)

theorem get_reverse_filter (p : Text → Bool) (f f' : Def → List Text) (k : Text) (hk : p k = true) :
    ∀ defs : List Def, (∀ d ∈ defs, p d.name = true → f d = f' d) →
    get k (((defs.filter fun d => p d.name).map fun d => (d.name, f' d)).reverse) =
      get k ((defs.map fun d => (d.name, f d)).reverse) := by
  have snoc : ∀ (l : List (Text × List Text)) (n : Text) (v : List Text),
      get k (l ++ [(n, v)]) = (get k l).orElse fun _ => if n = k then some v else none := by
    intro l n v
    induction l with
    | nil => simp [Verif.Merge.get]
    | cons x rest ih =>
      obtain ⟨a, b⟩ := x
      simp only [List.cons_append, Verif.Merge.get]
      split
      · rfl
      · exact ih
  intro defs
  induction defs with
  | nil => intro _; rfl
  | cons d rest ih =>
    intro hff
    have ih := ih fun e he => hff e (List.mem_cons_of_mem _ he)
    simp only [List.map_cons, List.reverse_cons, snoc]
    by_cases hp : p d.name = true
    · rw [List.filter_cons, if_pos hp]
      simp only [List.map_cons, List.reverse_cons, snoc, ih, hff d List.mem_cons_self hp]
    · rw [List.filter_cons, if_neg hp, ih]
      have hne : d.name ≠ k := by intro he; rw [he] at hp; exact hp hk
      rw [if_neg hne]
      cases get k ((rest.map fun d => (d.name, f d)).reverse) <;> rfl

/-- C94: dropping definitions twice is the same as once. -/
theorem C94_idempotent (bp bp' : Blueprint) (h : compress bp = some bp') : compress bp' = some bp' := by
  obtain ⟨out, h1, h2⟩ := compress_eq bp
  rw [h] at h1; cases h1
  obtain ⟨out', h1', h2'⟩ := compress_eq { bp with defs := bp.defs.filter fun d => (builtins ++ out).contains d.name }
  rw [h1']
  congr 2
  rw [List.filter_filter]
  refine List.filter_congr ?_
  intro d hd
  -- all that was reached is reached again
  have key : ∀ x, Reach (graph bp.defs) (roots bp) x →
      Reach (graph (bp.defs.filter fun d => (builtins ++ out).contains d.name)) (roots bp) x := by
    intro x hr
    induction hr with
    | root h => exact .root h
    | @step a b hra he ih =>
      refine .step ih ?_
      obtain ⟨ds, hg, hx⟩ := he
      obtain ⟨e, hem, hen, hds⟩ := graph_get hg
      have ha : (builtins ++ out).contains a = true := by
        rw [List.contains_iff_mem]
        exact List.mem_append.mpr (.inr ((h2 a).mpr hra))
      -- lookup in the graph of what remains, with the old dependencies
      have hold := get_reverse_filter (fun n => (builtins ++ out).contains n) (deps bp.defs) (deps bp.defs) a ha
        bp.defs (fun _ _ _ => rfl)
      have hg' : get a ((bp.defs.map fun d => (d.name, deps bp.defs d)).reverse) = some ds := hg
      rw [hg'] at hold
      -- and with the new ones
      have hnew : ∀ (l : List Def) ds, get a ((l.map fun d => (d.name, deps bp.defs d)).reverse) = some ds →
          ∃ e ∈ l, deps bp.defs e = ds ∧ e.name = a ∧
            get a ((l.map fun d => (d.name, deps (bp.defs.filter fun d => (builtins ++ out).contains d.name) d)).reverse)
              = some (deps (bp.defs.filter fun d => (builtins ++ out).contains d.name) e) := by
        intro l ds hl
        rw [← List.map_reverse] at hl
        rw [← List.map_reverse]
        suffices hs : ∀ r : List Def, get a (r.map fun d => (d.name, deps bp.defs d)) = some ds →
            ∃ e ∈ r, deps bp.defs e = ds ∧ e.name = a ∧
              get a (r.map fun d => (d.name, deps (bp.defs.filter fun d => (builtins ++ out).contains d.name) d))
                = some (deps (bp.defs.filter fun d => (builtins ++ out).contains d.name) e) by
          obtain ⟨e, he, h1, h2, h3⟩ := hs l.reverse hl
          exact ⟨e, List.mem_reverse.mp he, h1, h2, h3⟩
        intro r
        induction r with
        | nil => intro h; cases h
        | cons y r ihr =>
          intro h
          simp only [List.map_cons, Verif.Merge.get] at h ⊢
          split at h
          · rename_i hy
            cases h
            exact ⟨y, List.mem_cons_self, rfl, hy, by simp [hy]⟩
          · rename_i hy
            obtain ⟨e, he, h1, h2, h3⟩ := ihr h
            exact ⟨e, List.mem_cons_of_mem _ he, h1, h2, by simp only [if_neg hy]; exact h3⟩
      obtain ⟨e', he', hd', hn', hget⟩ := hnew _ _ hold
      refine ⟨_, hget, ?_⟩
      rw [← hd'] at hx
      have hem' := (List.mem_filter.mp he').1
      cases e' with
      | interface n fs impl =>
        rcases List.mem_append.mp hx with hx | hx
        · exact List.mem_append.mpr (.inl hx)
        · refine List.mem_append.mpr (.inr ?_)
          obtain ⟨o, ho, him, hon⟩ := mem_implementors.mp hx
          refine mem_implementors.mpr ⟨o, List.mem_filter.mpr ⟨ho, ?_⟩, him, hon⟩
          rw [List.contains_iff_mem]
          refine List.mem_append.mpr (.inr ((h2 _).mpr ?_))
          rw [hon]
          refine .step hra ⟨ds, hg, ?_⟩
          rw [← hd']
          exact List.mem_append.mpr (.inr hx)
      | object _ _ _ => exact hx
      | input _ _ => exact hx
      | scalar _ => exact hx
      | enum _ _ => exact hx
      | union _ _ => exact hx
  by_cases hk : d.name ∈ builtins ++ out
  · have hk' : d.name ∈ builtins ++ out' := by
      rcases List.mem_append.mp hk with h | h
      · exact List.mem_append.mpr (.inl h)
      · exact List.mem_append.mpr (.inr ((h2' _).mpr (key _ ((h2 _).mp h))))
    simp only [List.contains_iff_mem.mpr hk, List.contains_iff_mem.mpr hk', Bool.and_self]
  · have : (builtins ++ out).contains d.name = false := by
      rw [← Bool.not_eq_true, List.contains_iff_mem]; exact hk
    simp only [this, Bool.and_false]

/-! ### What goes wrong -/

/-- A nullable type. -/
def ty (s : String) : Ty := .named s.toList false

/-- An interface whose field has an argument of an input type that nothing else names. -/
def search : Blueprint where
  defs := [.interface "Catalog".toList [⟨"items".toList, ty "String", [("filter".toList, ty "Filter")]⟩] [],
    .input "Filter".toList [("name".toList, ty "String")],
    .object "Query".toList [⟨"catalog".toList, ty "Catalog", []⟩] []]
  query := "Query".toList
  mutation := none

/-- C94 does not hold in full: the type of an argument of an interface is dropped, and the
interface names a type that is not there. -/
theorem C94_violated_by_interface_arguments :
    (compress search).map (fun b => b.defs.map Def.name) = some ["Catalog".toList, "Query".toList] ∧
    Needed search (Operation search) "Filter".toList := by
  refine ⟨by decide +kernel, ?_⟩
  refine .refers (d := search.defs[0]) List.mem_cons_self ?_
    (.iarg (f := ⟨"items".toList, ty "String", [("filter".toList, ty "Filter")]⟩)
      (a := ("filter".toList, ty "Filter")) List.mem_cons_self List.mem_cons_self)
  exact .refers (d := search.defs[2]) (List.mem_cons_of_mem _ (List.mem_cons_of_mem _ List.mem_cons_self))
    (.start (.inl rfl)) (.field (f := ⟨"catalog".toList, ty "Catalog", []⟩) List.mem_cons_self)

/-- An enum with a value that has the name of a type. -/
def coloured : Blueprint where
  defs := [.enum "Colour".toList ["Red".toList, "Green".toList],
    .object "Query".toList [⟨"colour".toList, ty "Colour", []⟩] [],
    .object "Red".toList [⟨"id".toList, ty "ID", []⟩] []]
  query := "Query".toList
  mutation := none

/-- C94 does not hold in full: a type that nothing needs is kept because a value of an enum has its
name. -/
theorem C94_violated_by_enum_values :
    (compress coloured).map (fun b => b.defs.map Def.name) =
      some ["Colour".toList, "Query".toList, "Red".toList] ∧
    ¬ Needed coloured (Rooted coloured) "Red".toList := by
  refine ⟨by decide +kernel, ?_⟩
  have key : ∀ n, Needed coloured (Rooted coloured) n → n ≠ "Red".toList := by
    intro n h
    induction h with
    | start h =>
      rcases h with (h | h) | h | h | h
      · rw [h]; decide
      · cases h
      · rw [h]; decide
      · rw [h]; decide
      · rw [h]; decide
    | refers hm hn hr ih =>
      simp only [coloured, List.mem_cons, List.not_mem_nil, or_false] at hm
      rcases hm with rfl | rfl | rfl
      · cases hr
      · cases hr with
        | field h => rw [List.mem_singleton] at h; subst h; decide
        | arg h1 h2 => rw [List.mem_singleton] at h1; subst h1; cases h2
        | implements h => cases h
      · exact absurd rfl ih
    | implementor hm he =>
      subst he
      simp only [coloured, List.mem_cons, List.not_mem_nil, or_false] at hm
      rcases hm with h | h | h <;> cases h
  exact fun h => key _ h rfl

/-! ### Examples -/

/-- An interface with an object that implements it, an argument, a union, and unused types. -/
def shop : Blueprint where
  defs := [.interface "Node".toList [⟨"at".toList, ty "String", [("zone".toList, ty "Zone")]⟩] [],
    .object "Item".toList [⟨"at".toList, ty "String", [("zone".toList, ty "Zone")]⟩] ["Node".toList],
    .object "Old".toList [⟨"item".toList, ty "Item", []⟩] [],
    .object "Root".toList [⟨"node".toList, ty "Node", [("by".toList, ty "By")]⟩] [],
    .input "By".toList [("id".toList, ty "ID")],
    .scalar "ID".toList,
    .union "Any".toList ["Item".toList, "Old".toList],
    .enum "Zone".toList ["UTC".toList]]
  query := "Root".toList
  mutation := none

example : (compress shop).map (fun b => b.defs.map Def.name) =
    some ["Node".toList, "Item".toList, "Root".toList, "By".toList, "ID".toList, "Zone".toList] := by decide +kernel

/-- The conditions of the theorems hold for `shop`. -/
example : Distinct shop ∧ Implemented shop ∧ (∀ d ∈ shop.defs, ¬ Own d.name) ∧
    (∀ n vs, Def.enum n vs ∈ shop.defs → ∀ v ∈ vs, ∀ d ∈ shop.defs, d.name ≠ v) := by
  refine ⟨?_, ?_, ?_, ?_⟩
  · unfold Distinct; decide +kernel
  · intro n fs impl hm x hx
    have : Def.interface n fs impl = shop.defs[0] := by
      simp only [shop, List.mem_cons, List.not_mem_nil, or_false, reduceCtorEq, false_or] at hm
      exact hm
    cases this
    refine ⟨shop.defs[1], List.mem_cons_of_mem _ List.mem_cons_self,
      ⟨_, _, _, rfl, List.mem_cons_self⟩, ?_⟩
    rcases hx with hx | ⟨f, hf, a, ha, rfl⟩
    · cases hx
    · rw [List.mem_singleton] at hf; subst hf
      rw [List.mem_singleton] at ha; subst ha
      exact .arg (f := ⟨"at".toList, ty "String", [("zone".toList, ty "Zone")]⟩) List.mem_cons_self List.mem_cons_self
  · unfold Own; decide +kernel
  · intro n vs hm
    have : Def.enum n vs = shop.defs[7] := by
      simp only [shop, List.mem_cons, List.not_mem_nil, or_false, reduceCtorEq, false_or] at hm
      exact hm
    cases this
    decide +kernel

end Verif.Prune
