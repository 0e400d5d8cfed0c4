import Verif.Npo.Props

/-!
# What the N + 1 report leaves out
-/

namespace Verif.Npo

open Verif.Mustache (Text)
open Verif.Exec (Ty)
open Verif.Merge (get)

set_option linter.unusedSimpArgs false

/-! ## Specification -/

/-- An object of the second type can be where the first type is asked for. -/
inductive Poss (c : Config) : Text → Text → Prop
  | self {a} : Poss c a a
  | implements {a b t} : (b, t) ∈ c.types → a ∈ t.implements → Poss c a b
  | member {a b ms} : get a c.unions = some ms → b ∈ ms → Poss c a b

/-- A chain of fields that an operation can select. -/
inductive Selects (c : Config) : Text → List (Text × Field) → Text → Prop
  | nil {a b} : Poss c a b → Selects c a [] b
  | cons {a a' t n f p b} : Poss c a a' → get a' c.types = some t → (n, f) ∈ t.fields →
      Selects c f.ty.name p b → Selects c a ((n, f) :: p) b

/-- The resolver calls an upstream. -/
inductive Remote : Resolver → Prop
  | http {k} : Remote (.http k)
  | grpc {k} : Remote (.grpc k)
  | graphql {b} : Remote (.graphql b)
  | call : Remote .call
  | service : Remote .service
  | entity {m} : Remote (.entity m)

/-- An operation that makes a call for each object of a list. -/
structure Issues (c : Config) (root : Text) (p : List (Text × Field)) (b n : Text) (f : Field) : Prop where
  start : c.query = some root ∨ c.mutation = some root
  path : Selects c root p b
  last : ∃ t, get b c.types = some t ∧ (n, f) ∈ t.fields
  calls : ∃ r ∈ f.resolvers, Remote r ∧ ¬ Gathers r
  lists : ∃ x ∈ p, x.2.ty.isList = true

/-- No type leads back to itself. -/
def Acyclic (c : Config) : Prop := ∃ rank : Text → Nat, ∀ a t n f, get a c.types = some t →
  (n, f) ∈ t.fields → rank f.ty.name < rank a

/-! ## C93: silence -/

theorem selects_path {c : Config} (hi : ∀ b t, (b, t) ∈ c.types → t.implements = []) (hu : c.unions = [])
    {a p b} (h : Selects c a p b) : Path c a p b := by
  have poss : ∀ {a b}, Poss c a b → a = b := by
    intro a b h
    cases h with
    | self => rfl
    | implements h1 h2 => rw [hi _ _ h1] at h2; cases h2
    | member h1 h2 => rw [hu] at h1; cases h1
  induction h with
  | nil h => cases poss h; exact .nil
  | cons h h1 h2 _ ih => cases poss h; exact .cons h1 h2 ih

/-- C93 (partial): where no type implements an interface and there are no unions and no mutations,
an empty report means that no operation makes a call for each object of a list.  Missing: unions,
interfaces and mutations, for which it does not hold. -/
theorem C93_silent_means_none_partial (c : Config) (h : find c = some [])
    (hi : ∀ b t, (b, t) ∈ c.types → t.implements = []) (hu : c.unions = []) (hm : c.mutation = none)
    (root p b n f) : ¬ Issues c root p b n f := by
  intro ⟨hr, hp, hl, ⟨r, hr', _, hg⟩, hls⟩
  rcases hr with hr | hr
  · exact (C92_silent_iff c).mp h (names p n) (.query hr ⟨selects_path hi hu hp, hl, ⟨r, hr', hg⟩, .inr hls⟩)
  · rw [hm] at hr; cases hr

/-! ## C93: all chains -/

/-- All first offending chains from the key are among the paths. -/
def Complete (c : Config) (k : Text × Bool) (v : Paths) : Prop :=
  ∀ p b n f, Offends c k.2 k.1 p b n f → First c k.2 k.1 p → names p n ∈ v

theorem Offends.tail {c : Config} {many : Bool} {a m g p b n f} (ho : Offends c many a ((m, g) :: p) b n f) :
    Offends c (many || g.ty.isList) g.ty.name p b n f := by
  have hp := ho.path
  cases hp with
  | cons ht hm hp =>
    refine ⟨hp, ho.last, ho.alone, ?_⟩
    rcases ho.lists with h | ⟨x, hx, hl⟩
    · exact .inl (by rw [h]; rfl)
    · rcases List.mem_cons.mp hx with h | h
      · subst h; exact .inl (by rw [hl]; simp)
      · exact .inr ⟨x, h, hl⟩

theorem First.tail {c : Config} {many : Bool} {a m g p t} (ht : get a c.types = some t)
    (hm : (m, g) ∈ t.fields) (hf : First c many a ((m, g) :: p)) :
    First c (many || g.ty.isList) g.ty.name p := by
  intro p₁ n' f' p₂ b' he ho'
  refine hf ((m, g) :: p₁) n' f' p₂ b' (by rw [he]; rfl) ⟨.cons ht hm ho'.path, ho'.last, ho'.alone, ?_⟩
  rcases ho'.lists with h | ⟨x, hx, hl⟩
  · rcases Bool.or_eq_true _ _ |>.mp h with h1 | h1
    · exact .inl h1
    · exact .inr ⟨_, List.mem_cons_self, h1⟩
  · exact .inr ⟨x, List.mem_cons_of_mem _ hx, hl⟩

/-- The chains that go through the given fields of the type are among the paths. -/
def Part (c : Config) (k : Text × Bool) (done : List (Text × Field)) (found : Paths) : Prop :=
  ∀ p b n f, Offends c k.2 k.1 p b n f → First c k.2 k.1 p →
    (match p with | [] => (n, f) ∈ done | x :: _ => x ∈ done) → names p n ∈ found

/-- Entries of low rank are complete. -/
def Low (c : Config) (rank : Text → Nat) (r : Nat) (s : Cache) : Prop :=
  ∀ k v, look k s = some v → rank k.1 ≤ r → Complete c k v

/-- New entries are complete. -/
def Grown (c : Config) (s s' : Cache) : Prop :=
  ∀ k v, look k s' = some v → look k s = some v ∨ Complete c k v

/-- What a recursive call gives when there are no cycles. -/
def Whole (c : Config) (rank : Text → Nat)
    (visit : Cache → Seg → Text → Bool → Option (Paths × Cache)) : Prop :=
  ∀ s p a l out s', visit s p a l = some (out, s') → Low c rank (rank a) s →
    ∃ found, out = found.map (p :: ·) ∧ Complete c (a, l) found ∧ Grown c s s'

theorem walk_whole {c : Config} {rank visit} (hv : Whole c rank visit)
    (hr : ∀ a t n f, get a c.types = some t → (n, f) ∈ t.fields → rank f.ty.name < rank a)
    {a : Text} {l : Bool} {t : Typ} (ht : get a c.types = some t) :
    ∀ (fs done : List (Text × Field)) (s₀ s : Cache) (found : Paths) (out : Paths) (s' : Cache),
    done ++ fs = t.fields → (∀ r, r < rank a → Low c rank r s) → Grown c s₀ s → Part c (a, l) done found →
    walk visit l fs found s = some (out, s') → Part c (a, l) t.fields out ∧ Grown c s₀ s'
  | [], done, s₀, s, found, out, s', he, _, hg, hp, h => by
    rw [List.append_nil] at he; subst he
    cases h
    exact ⟨hp, hg⟩
  | (m, g) :: rest, done, s₀, s, found, out, s', he, hlow, hg, hp, h => by
    have hm : (m, g) ∈ t.fields := by rw [← he]; simp
    have he' : (done ++ [(m, g)]) ++ rest = t.fields := by rw [← he]; simp
    simp only [walk] at h
    split at h
    · rename_i hc
      rw [Bool.and_assoc, Bool.and_eq_true, alone_iff] at hc
      refine walk_whole hv hr ht rest _ s₀ s _ out s' he' hlow hg ?_ h
      intro p b n f ho hf hd
      cases p with
      | nil =>
        rcases List.mem_append.mp hd with hd | hd
        · exact List.mem_append.mpr (.inl (hp [] b n f ho hf hd))
        · rw [List.mem_singleton] at hd; cases hd
          exact List.mem_append.mpr (.inr (by simp [names]))
      | cons x p =>
        rcases List.mem_append.mp hd with hd | hd
        · exact List.mem_append.mpr (.inl (hp (x :: p) b n f ho hf hd))
        · rw [List.mem_singleton] at hd; subst hd
          exact absurd ⟨.nil, ⟨t, ht, hm⟩, hc.2, .inl hc.1⟩ (hf [] m g p a rfl)
    · rename_i hc
      rw [Bool.and_assoc, Bool.and_eq_true, alone_iff] at hc
      cases hvis : visit s (.field m) g.ty.name (l || g.ty.isList) with
      | none => rw [hvis] at h; cases h
      | some r =>
        obtain ⟨o, s₁⟩ := r
        rw [hvis] at h
        have hrk := hr a t m g ht hm
        obtain ⟨fd, rfl, hcomp, hgr⟩ := hv _ _ _ _ _ _ hvis (hlow _ hrk)
        refine walk_whole hv hr ht rest _ s₀ s₁ _ out s' he' ?_ ?_ ?_ h
        · intro r hlt k v hk hle
          rcases hgr k v hk with h1 | h1
          · exact hlow r hlt k v h1 hle
          · exact h1
        · intro k v hk
          rcases hgr k v hk with h1 | h1
          · exact hg k v h1
          · exact .inr h1
        · intro p b n f ho hf hd
          cases p with
          | nil =>
            rcases List.mem_append.mp hd with hd | hd
            · exact List.mem_append.mpr (.inl (hp [] b n f ho hf hd))
            · rw [List.mem_singleton] at hd; cases hd
              rcases ho.lists with h1 | ⟨x, hx, _⟩
              · exact absurd ⟨h1, ho.alone⟩ hc
              · cases hx
          | cons x p =>
            rcases List.mem_append.mp hd with hd | hd
            · exact List.mem_append.mpr (.inl (hp (x :: p) b n f ho hf hd))
            · rw [List.mem_singleton] at hd; subst hd
              exact List.mem_append.mpr (.inr (List.mem_map.mpr
                ⟨names p n, hcomp p b n f ho.tail (hf.tail ht hm), rfl⟩))

theorem part_complete {c : Config} {a : Text} {l : Bool} {t : Typ} {found : Paths}
    (ht : get a c.types = some t) (h : Part c (a, l) t.fields found) : Complete c (a, l) found := by
  intro p b n f ho hf
  refine h p b n f ho hf ?_
  have hp := ho.path
  cases hp with
  | nil =>
    obtain ⟨t', h1, h2⟩ := ho.last
    have h1 : get a c.types = some t' := h1
    rw [ht] at h1; cases h1; exact h2
  | cons ht' hm _ =>
    have ht' : get a c.types = some _ := ht'
    rw [ht] at ht'; cases ht'; exact hm

theorem iter_whole {c : Config} {rank : Text → Nat}
    (hr : ∀ a t n f, get a c.types = some t → (n, f) ∈ t.fields → rank f.ty.name < rank a) :
    ∀ fuel s parent a l out s', iter c fuel s parent a l = some (out, s') → Low c rank (rank a) s →
    ∃ found, out = under parent found ∧ Complete c (a, l) found ∧ Grown c s s'
  | 0, s, parent, a, l, out, s', h, _ => by cases h
  | fuel + 1, s, parent, a, l, out, s', h, hlow => by
    simp only [iter] at h
    cases hk : look (a, l) s with
    | some chunks =>
      rw [hk] at h
      cases h
      exact ⟨chunks, rfl, hlow _ _ hk (Nat.le_refl _), fun k v h => .inl h⟩
    | none =>
      rw [hk] at h
      cases ht : get a c.types with
      | none =>
        rw [ht] at h
        cases h
        have hcomp : Complete c (a, l) [] := by
          intro p b n f ho _
          have hp := ho.path
          cases hp with
          | nil =>
            obtain ⟨t', h1, _⟩ := ho.last
            have h1 : get a c.types = some t' := h1
            rw [ht] at h1; cases h1
          | cons h1 _ _ =>
            have h1 : get a c.types = some _ := h1
            rw [ht] at h1; cases h1
        refine ⟨[], rfl, hcomp, ?_⟩
        intro k v hv
        simp only [look] at hv
        split at hv
        · rename_i he; subst he; cases hv; exact .inr hcomp
        · exact .inl hv
      | some t =>
        rw [ht] at h
        simp only at h
        cases hw : walk (fun cache p n l => iter c fuel cache (some p) n l) l t.fields [] (((a, l), []) :: s) with
        | none => rw [hw] at h; cases h
        | some r =>
          obtain ⟨found, s₁⟩ := r
          rw [hw] at h
          cases h
          have hv : Whole c rank (fun cache p n l => iter c fuel cache (some p) n l) :=
            fun s p a l out s' h1 h2 => iter_whole hr fuel s (some p) a l out s' h1 h2
          obtain ⟨hpart, hg⟩ := walk_whole hv hr ht t.fields [] (((a, l), []) :: s) _ [] found s₁ rfl
            (by
              intro r hlt k v hk' hle
              simp only [look] at hk'
              split at hk'
              · rename_i he; subst he; exact absurd hle (by simp only; omega)
              · exact hlow k v hk' (by omega))
            (fun k v h => .inl h)
            (by intro p b n f _ _ hd; cases p <;> cases hd) hw
          have hcomp := part_complete ht hpart
          refine ⟨found, rfl, hcomp, ?_⟩
          intro k v hv'
          simp only [look] at hv'
          split at hv'
          · rename_i he; subst he; cases hv'; exact .inr hcomp
          · rename_i hne
            rcases hg k v hv' with h1 | h1
            · simp only [look] at h1
              rw [if_neg hne] at h1
              exact .inl h1
            · exact .inr h1

theorem entities_whole {c : Config} {rank : Text → Nat}
    (hr : ∀ a t n f, get a c.types = some t → (n, f) ∈ t.fields → rank f.ty.name < rank a) (fuel : Nat) :
    ∀ (ts : List (Text × Typ)) (ps : Paths) (s : Cache) (out : Paths), entities c fuel ts ps s = some out →
    (∀ k v, look k s = some v → Complete c k v) →
    (∀ x ∈ ps, x ∈ out) ∧ ∀ e t, (e, t) ∈ ts → t.resolvers ≠ [] → ¬ Alone t.resolvers →
      ∀ p b n f, Offends c true e p b n f → First c true e p → Seg.entity e :: names p n ∈ out
  | [], ps, s, out, h, _ => by
    cases h
    exact ⟨fun _ h => h, by simp⟩
  | (e, t) :: rest, ps, s, out, h, hs => by
    simp only [entities] at h
    split at h
    · rename_i hres
      split at h
      · rename_i hb
        cases hit : iter c fuel s (some (.entity e)) e true with
        | none => rw [hit] at h; cases h
        | some r =>
          obtain ⟨o, s'⟩ := r
          rw [hit] at h
          obtain ⟨found, rfl, hcomp, hg⟩ := iter_whole hr fuel s _ e true o s' hit (fun k v h _ => hs k v h)
          obtain ⟨h1, h2⟩ := entities_whole hr fuel rest _ s' out h
            (fun k v hk => (hg k v hk).elim (hs k v) id)
          refine ⟨fun x hx => h1 x (List.mem_append.mpr (.inl hx)), ?_⟩
          intro e' t' hm hne hna p b n f ho hf
          rcases List.mem_cons.mp hm with he | hm
          · cases he
            exact h1 _ (List.mem_append.mpr (.inr (List.mem_map.mpr ⟨_, hcomp p b n f ho hf, rfl⟩)))
          · exact h2 e' t' hm hne hna p b n f ho hf
      · rename_i hb
        obtain ⟨h1, h2⟩ := entities_whole hr fuel rest _ s out h hs
        refine ⟨fun x hx => h1 x (List.mem_append.mpr (.inl hx)), ?_⟩
        intro e' t' hm hne hna p b n f ho hf
        rcases List.mem_cons.mp hm with he | hm
        · cases he
          exact absurd ((batched_iff _ hres).mpr hna) hb
        · exact h2 e' t' hm hne hna p b n f ho hf
    · rename_i hres
      obtain ⟨h1, h2⟩ := entities_whole hr fuel rest _ s out h hs
      refine ⟨h1, ?_⟩
      intro e' t' hm hne hna p b n f ho hf
      rcases List.mem_cons.mp hm with he | hm
      · cases he; exact absurd (has_ne.mpr hne) hres
      · exact h2 e' t' hm hne hna p b n f ho hf

/-- C93 (partial): where no type leads back to itself, every chain up to its first offending field
is reported.  Missing: cycles, and the fields behind the first offending field. -/
theorem C93_all_chains_listed_partial (c : Config) (hac : Acyclic c) (ps : Paths) (h : find c = some ps) :
    (∀ q p b n f, c.query = some q → Offends c false q p b n f → First c false q p → names p n ∈ ps) ∧
    (∀ e t p b n f, (e, t) ∈ c.types → t.resolvers ≠ [] → ¬ Alone t.resolvers → Offends c true e p b n f →
      First c true e p → Seg.entity e :: names p n ∈ ps) := by
  obtain ⟨rank, hr⟩ := hac
  unfold find findWith at h
  cases hq : c.query with
  | none =>
    rw [hq] at h
    obtain ⟨_, h2⟩ := entities_whole hr _ _ _ _ _ h (by intro k v h; cases h)
    exact ⟨fun q _ _ _ _ h => (by cases h), fun e t p b n f hm hne hna => h2 e t hm hne hna p b n f⟩
  | some q =>
    rw [hq] at h
    simp only at h
    cases hit : iter c (depth c) [] none q false with
    | none => rw [hit] at h; cases h
    | some r =>
      obtain ⟨o, s⟩ := r
      rw [hit] at h
      obtain ⟨found, rfl, hcomp, hg⟩ := iter_whole hr _ _ _ _ _ _ _ hit (by intro k v h; cases h)
      obtain ⟨h1, h2⟩ := entities_whole hr _ _ _ _ _ h
        (fun k v hk => (hg k v hk).elim (fun h => by cases h) id)
      refine ⟨?_, fun e t p b n f hm hne hna => h2 e t hm hne hna p b n f⟩
      intro q' p b n f he ho hf
      cases he
      exact h1 _ (hcomp p b n f ho hf)

/-! ## C93: what is left out -/

/-- A feed whose entries are of a union. -/
def feed : Config where
  query := some "Query".toList
  mutation := none
  types := [obj "Ad" [fld "owner" (nm "User") [.http []]],
    obj "Query" [fld "feed" (nm "Entry" true) [.http []]],
    obj "User" [fld "name" (nm "String")]]
  unions := [("Entry".toList, ["Ad".toList])]

/-- C93 does not hold in full: the members of a union are not looked at. -/
theorem C93_violated_by_unions : find feed = some [] ∧
    ∃ p f, Issues feed "Query".toList p "Ad".toList "owner".toList f := by
  refine ⟨by decide +kernel, [fld "feed" (nm "Entry" true) [.http []]], (fld "owner" (nm "User") [.http []]).2,
    .inl rfl, ?_, ?_, ?_, ?_⟩
  · exact .cons .self (t := (feed.types[1]).2) rfl List.mem_cons_self (.nil (.member (ms := ["Ad".toList]) rfl List.mem_cons_self))
  · exact ⟨(feed.types[0]).2, rfl, List.mem_cons_self⟩
  · exact ⟨_, List.mem_cons_self, .http, fun h => by cases h with | http h => exact h rfl⟩
  · exact ⟨_, List.mem_cons_self, rfl⟩

/-- A list of an interface. -/
def nodes : Config where
  query := some "Query".toList
  mutation := none
  types := [obj "Node" [fld "id" (nm "ID")],
    obj "Query" [fld "nodes" (nm "Node" true) [.http []]],
    obj "User" [fld "id" (nm "ID"), fld "photo" (nm "String") [.http []]] ["Node".toList]]
  unions := []

/-- C93 does not hold in full: the types that implement an interface are not looked at. -/
theorem C93_violated_by_interfaces : find nodes = some [] ∧
    ∃ p f, Issues nodes "Query".toList p "User".toList "photo".toList f := by
  refine ⟨by decide +kernel, [fld "nodes" (nm "Node" true) [.http []]], (fld "photo" (nm "String") [.http []]).2,
    .inl rfl, ?_, ?_, ?_, ?_⟩
  · exact .cons .self (t := (nodes.types[1]).2) rfl List.mem_cons_self
      (.nil (.implements (t := (nodes.types[2]).2) (List.mem_cons_of_mem _ (List.mem_cons_of_mem _ List.mem_cons_self))
        List.mem_cons_self))
  · exact ⟨(nodes.types[2]).2, rfl, List.mem_cons_of_mem _ List.mem_cons_self⟩
  · exact ⟨_, List.mem_cons_self, .http, fun h => by cases h with | http h => exact h rfl⟩
  · exact ⟨_, List.mem_cons_self, rfl⟩

/-- A mutation that gives a list. -/
def adding : Config where
  query := some "Query".toList
  mutation := some "Mutation".toList
  types := [obj "Mutation" [fld "addUsers" (nm "User" true) [.http []]],
    obj "Query" [fld "user" (nm "User") [.http []]],
    obj "User" [fld "photo" (nm "String") [.http []]]]
  unions := []

/-- C93 does not hold in full: mutations are not looked at. -/
theorem C93_violated_by_mutations : find adding = some [] ∧
    ∃ p f, Issues adding "Mutation".toList p "User".toList "photo".toList f := by
  refine ⟨by decide +kernel, [fld "addUsers" (nm "User" true) [.http []]], (fld "photo" (nm "String") [.http []]).2,
    .inr rfl, ?_, ?_, ?_, ?_⟩
  · exact .cons .self (t := (adding.types[0]).2) rfl List.mem_cons_self (.nil .self)
  · exact ⟨(adding.types[2]).2, rfl, List.mem_cons_self⟩
  · exact ⟨_, List.mem_cons_self, .http, fun h => by cases h with | http h => exact h rfl⟩
  · exact ⟨_, List.mem_cons_self, rfl⟩

/-- A field with a constant. -/
def constant : Config where
  query := some "Query".toList
  mutation := none
  types := [obj "Query" [fld "users" (nm "User" true) [.http []]],
    obj "User" [fld "kind" (nm "String") [.expr]]]
  unions := []

/-- C93 does not hold in full: a field that only computes a value is reported. -/
theorem C93_violated_by_expressions : find constant = some [[.field "users".toList, .field "kind".toList]] ∧
    ∀ root p b n f, ¬ Issues constant root p b n f := by
  refine ⟨by decide +kernel, ?_⟩
  intro root p b n f ⟨hr, hp, ⟨t, ht, hm⟩, ⟨r, hr', hrem, _⟩, hl⟩
  have hroot : root = "Query".toList := by
    rcases hr with h | h
    · cases h; rfl
    · cases h
  subst hroot
  have poss : ∀ {a b}, Poss constant a b → a = b := by
    intro a b h
    cases h with
    | self => rfl
    | implements h1 h2 =>
      simp only [constant, List.mem_cons, List.not_mem_nil, or_false] at h1
      rcases h1 with h1 | h1 <;> cases h1 <;> cases h2
    | member h1 h2 => cases h1
  have only : ∀ {b t}, get b constant.types = some t → ∀ {n f}, (n, f) ∈ t.fields →
      f.resolvers ≠ [.expr] → b = "Query".toList ∧ (n, f) = fld "users" (nm "User" true) [.http []] := by
    intro b t ht n f hm hne
    simp only [constant, obj, Verif.Merge.get] at ht
    split at ht
    · rename_i hb
      cases ht
      rw [List.mem_singleton] at hm
      exact ⟨hb.symm, hm⟩
    · split at ht
      · cases ht
        rw [List.mem_singleton] at hm
        cases hm
        exact absurd rfl hne
      · cases ht
  have hne : f.resolvers ≠ [.expr] := by
    intro he
    rw [he, List.mem_singleton] at hr'
    subst hr'
    cases hrem
  obtain ⟨hb, _⟩ := only ht hm hne
  -- a chain to the query type is empty
  have back : ∀ {a p b}, Selects constant a p b → b = "Query".toList → a = "Query".toList ∧ p = [] := by
    intro a p b h
    induction h with
    | nil h => intro hb; exact ⟨by rw [poss h, hb], rfl⟩
    | @cons a a' t n f p b h ht hm _ ih =>
      intro hb
      obtain ⟨h1, _⟩ := ih hb
      simp only [constant, obj, Verif.Merge.get] at ht
      split at ht
      · cases ht
        rw [List.mem_singleton] at hm
        cases hm
        exact absurd h1 (by decide)
      · split at ht
        · cases ht
          rw [List.mem_singleton] at hm
          cases hm
          exact absurd h1 (by decide)
        · cases ht
  obtain ⟨_, hp0⟩ := back hp hb
  obtain ⟨x, hx, _⟩ := hl
  rw [hp0] at hx
  cases hx

/-- Two types that lead to each other. -/
def circle : Config where
  query := some "Query".toList
  mutation := none
  types := [obj "A" [fld "b" (nm "B"), fld "x" (nm "String") [.http []]],
    obj "B" [fld "a" (nm "A")],
    obj "Query" [fld "as" (nm "A" true) [.http []], fld "bs" (nm "B" true) [.http []]]]
  unions := []

/-- C93 does not hold in full: of two chains to a field of types that lead to each other only one
is listed, since what is cached for a type while a type above it is being searched is not all. -/
theorem C93_violated_by_cycles :
    find circle = some [[.field "as".toList, .field "x".toList]] ∧
    ∃ p f, Offends circle false "Query".toList p "A".toList "x".toList f ∧
      First circle false "Query".toList p ∧
      names p "x".toList = [.field "bs".toList, .field "a".toList, .field "x".toList] := by
  refine ⟨by decide +kernel, [fld "bs" (nm "B" true) [.http []], fld "a" (nm "A")],
    (fld "x" (nm "String") [.http []]).2, ⟨?_, ?_, ?_, ?_⟩, ?_, rfl⟩
  · exact .cons (t := (circle.types[2]).2) rfl (List.mem_cons_of_mem _ List.mem_cons_self)
      (.cons (t := (circle.types[1]).2) rfl List.mem_cons_self .nil)
  · exact ⟨(circle.types[0]).2, rfl, List.mem_cons_of_mem _ List.mem_cons_self⟩
  · exact ⟨_, List.mem_cons_self, fun h => by cases h with | http h => exact h rfl⟩
  · exact .inr ⟨_, List.mem_cons_self, rfl⟩
  · intro p₁ n f p₂ b he ho
    cases p₁ with
    | nil =>
      rcases ho.lists with h | ⟨x, hx, _⟩
      · cases h
      · cases hx
    | cons x p₁ =>
      cases p₁ with
      | nil =>
        simp only [List.cons_append, List.nil_append, List.cons.injEq] at he
        obtain ⟨_, he, _⟩ := he
        obtain ⟨r, hr, _⟩ := ho.alone
        have : f = (fld "a" (nm "A")).2 := by rw [he]
        rw [this] at hr
        cases hr
      | cons y p₁ =>
        have := congrArg List.length he
        simp at this

/-- A field behind an offending one. -/
def deep : Config where
  query := some "Query".toList
  mutation := none
  types := [obj "City" [fld "weather" (nm "String") [.http []]],
    obj "Query" [fld "users" (nm "User" true) [.http []]],
    obj "User" [fld "city" (nm "City") [.http []]]]
  unions := []

/-- C93 does not hold in full: fields behind an offending field are not listed. -/
theorem C93_violated_behind_the_first :
    find deep = some [[.field "users".toList, .field "city".toList]] ∧
    ∃ p f, Issues deep "Query".toList p "City".toList "weather".toList f := by
  refine ⟨by decide +kernel, [fld "users" (nm "User" true) [.http []], fld "city" (nm "City") [.http []]],
    (fld "weather" (nm "String") [.http []]).2, .inl rfl, ?_, ?_, ?_, ?_⟩
  · exact .cons .self (t := (deep.types[1]).2) rfl List.mem_cons_self
      (.cons .self (t := (deep.types[2]).2) rfl List.mem_cons_self (.nil .self))
  · exact ⟨(deep.types[0]).2, rfl, List.mem_cons_self⟩
  · exact ⟨_, List.mem_cons_self, .http, fun h => by cases h with | http h => exact h rfl⟩
  · exact ⟨_, List.mem_cons_self, rfl⟩

/-! ## Examples -/

/-- `deep` has no cycle, so the hypotheses of `C93_all_chains_listed_partial` hold. -/
example : Acyclic deep := by
  refine ⟨fun a => if a = "Query".toList then 3 else if a = "User".toList then 2 else
    if a = "City".toList then 1 else 0, ?_⟩
  intro a t n f ht hm
  simp only [deep, obj, Verif.Merge.get] at ht
  split at ht
  · rename_i h; subst h; cases ht; rw [List.mem_singleton] at hm; cases hm; decide
  · split at ht
    · rename_i h; subst h; cases ht; rw [List.mem_singleton] at hm; cases hm; decide
    · split at ht
      · rename_i h; subst h; cases ht; rw [List.mem_singleton] at hm; cases hm; decide
      · cases ht

/-- A configuration without unions, interfaces and mutations for which nothing is reported, though
there is a list with a batched field. -/
example : find { deep with types := [
    obj "Query" [fld "users" (nm "User" true) [.http []]],
    obj "User" [fld "city" (nm "City") [.http ["id".toList]]]] } = some [] := by decide +kernel

end Verif.Npo
