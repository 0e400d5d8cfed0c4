import Verif.Sdl.Props

/-!
# Documents read as configurations

C91: everything that a document says is in the configuration that is read from it, and nothing else.
-/

set_option linter.unusedSimpArgs false

namespace Verif.Sdl

open Verif.Mustache (Text)
open Verif.Merge (get)
open Verif.Exec (Ty)

/-! ## What a document says -/

/-- The type that a type of a document stands for. -/
inductive TyOf : GTy → Ty → Prop
  | named (n : Text) : TyOf (.named n true) (.named n false)
  | nonNull (n : Text) : TyOf (.named n false) (.named n true)
  | list {g t} : TyOf g t → TyOf (.list g true) (.list t false)
  | listNonNull {g t} : TyOf g t → TyOf (.list g false) (.list t true)

/-- The resolver that a directive stands for. -/
inductive Means : Dir → Resolver → Prop
  | http {d h} : d.name = t! "http" → fromDir Http.dec d = some h → Means d (.http h)
  | grpc {d h} : d.name = t! "grpc" → fromDir Grpc.dec d = some h → Means d (.grpc h)
  | graphql {d h} : d.name = t! "graphQL" → fromDir GraphQL.dec d = some h → Means d (.graphql h)
  | call {d h} : d.name = t! "call" → fromDir Call.dec d = some h → Means d (.call h)
  | js {d h} : d.name = t! "js" → fromDir Js.dec d = some h → Means d (.js h)
  | expr {d h} : d.name = t! "expr" → fromDir Expr.dec d = some h → Means d (.expr h)

/-- The resolvers that directives stand for, in their order. -/
inductive Resolves : List Dir → List Resolver → Prop
  | nil : Resolves [] []
  | cons {d r ds rs} : Means d r → Resolves ds rs → Resolves (d :: ds) (r :: rs)
  | other {d ds rs} : d.name ∉ [t! "http", t! "grpc", t! "graphQL", t! "call", t! "js", t! "expr"] → Resolves ds rs → Resolves (d :: ds) rs

/-- The value of a directive that counts once: there is none, or the first is read. -/
def Single {α : Type} (n : Text) (dec : List (Text × J) → Option α) (ds : List Dir) (o : Option α) : Prop :=
  (o = none ∧ ∀ d ∈ ds, d.name ≠ n) ∨
  ∃ pre d post a, ds = pre ++ d :: post ∧ (∀ x ∈ pre, x.name ≠ n) ∧ d.name = n ∧ fromDir dec d = some a ∧ o = some a

/-- The directives of Apollo Federation, with their arguments as JSON. -/
inductive Federated : List Dir → List Directive → Prop
  | nil : Federated [] []
  | cons {d e ds es} : d.name ∈ apollo → e.name = d.name → e.args = build (toFields d.args) → Federated ds es → Federated (d :: ds) (e :: es)
  | other {d ds es} : d.name ∉ apollo → Federated ds es → Federated (d :: ds) es

/-- The fields that `@addField` adds, in their order. -/
inductive Added : List Dir → List AddField → Prop
  | nil : Added [] []
  | cons {d a ds as} : d.name = t! "addField" → fromDir AddField.dec d = some a → Added ds as → Added (d :: ds) (a :: as)
  | other {d ds as} : d.name ≠ t! "addField" → Added ds as → Added (d :: ds) as

/-- What a field says besides its arguments. -/
structure FieldSaid (ty : GTy) (doc : Option Text) (dirs : List Dir) (dflt : Option V) (g : Field) : Prop where
  ty : TyOf ty g.ty
  doc : g.doc = doc
  dflt : g.dflt = dflt.map toJson
  resolvers : Resolves dirs g.resolvers
  cache : Single (t! "cache") Cache.dec dirs g.cache
  omitted : Single (t! "omit") Omit.dec dirs g.omitted
  modify : Single (t! "modify") Modify.dec dirs g.modify
  prot : Single (t! "protected") Protected.dec dirs g.prot
  disc : Single (t! "discriminate") Discriminate.dec dirs g.disc
  dirs : Federated dirs g.dirs

/-- What the arguments of a field say: exactly those are there, with their types, documentation and defaults. -/
def ArgsSaid (l : List InDef) (m : List (Text × Arg)) : Prop :=
  (∀ p ∈ m, p.1 ∈ l.map (·.name)) ∧
  ((l.map (·.name)).Nodup → ∀ a ∈ l, ∃ b, get a.name m = some b ∧ TyOf a.ty b.ty ∧ b.doc = a.doc ∧ b.dflt = a.dflt.map toJson ∧
    ((∀ d ∈ a.dirs, d.name ≠ t! "modify") → b.modify = none))

/-- What a definition of a type says. -/
def TypeSaid (c : Config) (t : TypeDef) : Prop :=
  match t.kind with
  | .object impl fs | .iface impl fs => ∃ ct, get t.name c.types = some ct ∧ ct.doc = t.doc ∧ (∀ x, x ∈ ct.impl ↔ x ∈ impl) ∧
      Resolves t.dirs ct.resolvers ∧ Single (t! "cache") Cache.dec t.dirs ct.cache ∧ Single (t! "protected") Protected.dec t.dirs ct.prot ∧
      Federated t.dirs ct.dirs ∧ Added t.dirs ct.added ∧ (∀ p ∈ ct.fields, p.1 ∈ fs.map (·.name)) ∧
      ((fs.map (·.name)).Nodup → ∀ f ∈ fs, ∃ g, get f.name ct.fields = some g ∧ FieldSaid f.ty f.doc f.dirs none g ∧ ArgsSaid f.args g.args)
  | .input fs => ∃ ct, get t.name c.types = some ct ∧ ct.doc = t.doc ∧ Single (t! "protected") Protected.dec t.dirs ct.prot ∧
      (∀ p ∈ ct.fields, p.1 ∈ fs.map (·.name)) ∧
      ((fs.map (·.name)).Nodup → ∀ f ∈ fs, ∃ g, get f.name ct.fields = some g ∧ FieldSaid f.ty f.doc f.dirs f.dflt g ∧ g.args = [])
  | .scalar => ∃ ct, get t.name c.types = some ct ∧ ct.fields = []
  | .union ms => ∃ u, get t.name c.unions = some u ∧ u.doc = t.doc ∧ ∀ x, x ∈ u.types ↔ x ∈ ms
  | .enum vs => ∃ e, get t.name c.enums = some e ∧ e.doc = t.doc ∧ (∀ v ∈ vs, ∃ w ∈ e.variants, w.name = v.name ∧ Single (t! "alias") Alias.dec v.dirs w.alias) ∧
      ∀ w ∈ e.variants, w.name ∈ vs.map (·.name)

/-! ## Lemmas -/

theorem tyOf : ∀ g : GTy, TyOf g (ofG g)
  | .named n true => .named n
  | .named n false => .nonNull n
  | .list g true => .list (tyOf g)
  | .list g false => .listNonNull (tyOf g)

theorem collect_cons {α β : Type} {f : α → Option (Option β)} {x : α} {l : List α} {r : List β} (h : collect f (x :: l) = some r) :
    (∃ y r', f x = some (some y) ∧ collect f l = some r' ∧ r = y :: r') ∨ (f x = some none ∧ collect f l = some r) := by
  simp only [collect] at h
  split at h
  · rename_i h1 h2
    cases h
    exact .inl ⟨_, _, h1, h2, rfl⟩
  · rename_i h1 h2
    cases h
    exact .inr ⟨h1, h2⟩
  · cases h

theorem all_cons {α β : Type} {f : α → Option β} {x : α} {l : List α} {r : List β} (h : all f (x :: l) = some r) :
    ∃ y r', f x = some y ∧ all f l = some r' ∧ r = y :: r' := by
  simp only [all] at h
  split at h
  · rename_i h1 h2
    cases h
    exact ⟨_, _, h1, h2, rfl⟩
  · cases h

theorem collect_mem {α β : Type} {f : α → Option (Option β)} : ∀ {l : List α} {r : List β}, collect f l = some r →
    (∀ x ∈ l, f x = some none ∨ ∃ y ∈ r, f x = some (some y)) ∧ ∀ y ∈ r, ∃ x ∈ l, f x = some (some y)
  | [], r, h => by
    simp only [collect, Option.some.injEq] at h
    subst h
    simp
  | x :: l, r, h => by
    rcases collect_cons h with ⟨y, r', h1, h2, rfl⟩ | ⟨h1, h2⟩
    · obtain ⟨i1, i2⟩ := collect_mem h2
      refine ⟨fun z hz => ?_, fun z hz => ?_⟩
      · rcases List.mem_cons.1 hz with rfl | hz
        · exact .inr ⟨y, List.mem_cons_self, h1⟩
        · rcases i1 z hz with h | ⟨w, hw, h⟩
          · exact .inl h
          · exact .inr ⟨w, List.mem_cons_of_mem _ hw, h⟩
      · rcases List.mem_cons.1 hz with rfl | hz
        · exact ⟨x, List.mem_cons_self, h1⟩
        · obtain ⟨w, hw, h⟩ := i2 z hz
          exact ⟨w, List.mem_cons_of_mem _ hw, h⟩
    · obtain ⟨i1, i2⟩ := collect_mem h2
      refine ⟨fun z hz => ?_, fun z hz => ?_⟩
      · rcases List.mem_cons.1 hz with rfl | hz
        · exact .inl h1
        · exact i1 z hz
      · obtain ⟨w, hw, h⟩ := i2 z hz
        exact ⟨w, List.mem_cons_of_mem _ hw, h⟩

theorem all_mem {α β : Type} {f : α → Option β} : ∀ {l : List α} {r : List β}, all f l = some r →
    (∀ x ∈ l, ∃ y ∈ r, f x = some y) ∧ ∀ y ∈ r, ∃ x ∈ l, f x = some y
  | [], r, h => by
    simp only [all, Option.some.injEq] at h
    subst h
    simp
  | x :: l, r, h => by
    obtain ⟨y, r', h1, h2, rfl⟩ := all_cons h
    obtain ⟨i1, i2⟩ := all_mem h2
    refine ⟨fun z hz => ?_, fun z hz => ?_⟩
    · rcases List.mem_cons.1 hz with rfl | hz
      · exact ⟨y, List.mem_cons_self, h1⟩
      · obtain ⟨w, hw, h⟩ := i1 z hz
        exact ⟨w, List.mem_cons_of_mem _ hw, h⟩
    · rcases List.mem_cons.1 hz with rfl | hz
      · exact ⟨x, List.mem_cons_self, h1⟩
      · obtain ⟨w, hw, h⟩ := i2 z hz
        exact ⟨w, List.mem_cons_of_mem _ hw, h⟩

theorem put_mem {V : Type} {k : Text} {v : V} {p : Text × V} : ∀ {m : List (Text × V)}, p ∈ put k v m → p = (k, v) ∨ p ∈ m
  | [], h => by simpa [put] using h
  | (k2, v2) :: r, h => by
    unfold put at h
    split at h
    · rcases List.mem_cons.1 h with h | h
      · exact .inl h
      · exact .inr (List.mem_cons_of_mem _ h)
    · rcases List.mem_cons.1 h with h | h
      · exact .inr (h ▸ List.mem_cons_self)
      · rcases put_mem h with h | h
        · exact .inl h
        · exact .inr (List.mem_cons_of_mem _ h)

theorem build_mem_from {V : Type} {p : Text × V} : ∀ {l m : List (Text × V)}, p ∈ l.foldl (fun m p => put p.1 p.2 m) m → p ∈ m ∨ p ∈ l
  | [], m, h => .inl h
  | q :: r, m, h => by
    simp only [List.foldl_cons] at h
    rcases build_mem_from h with h | h
    · rcases put_mem h with h | h
      · exact .inr (h ▸ List.mem_cons_self)
      · exact .inl h
    · exact .inr (List.mem_cons_of_mem _ h)

theorem build_mem {V : Type} {p : Text × V} {l : List (Text × V)} (h : p ∈ build l) : p ∈ l := by
  rcases build_mem_from h with h | h
  · cases h
  · exact h

theorem get_nodup {V : Type} {k : Text} {v : V} : ∀ {l : List (Text × V)}, (l.map (·.1)).Nodup → (k, v) ∈ l → get k l = some v
  | [], _, h => by cases h
  | (k', v') :: r, hn, h => by
    simp only [List.map_cons, List.nodup_cons] at hn
    simp only [Verif.Merge.get]
    rcases List.mem_cons.1 h with h | h
    · cases h
      rw [if_pos rfl]
    · rw [if_neg, get_nodup hn.2 h]
      rintro rfl
      exact hn.1 (List.mem_map_of_mem h)

theorem put1_mem {α : Type} [DecidableEq α] {x y : α} {l : List α} : y ∈ put1 x l ↔ y = x ∨ y ∈ l := by
  unfold put1
  split
  · exact ⟨.inr, fun h => h.elim (fun e => e ▸ ‹_›) id⟩
  · simp [or_comm]

theorem setOf_mem {α : Type} [DecidableEq α] {y : α} (l : List α) : y ∈ setOf l ↔ y ∈ l := by
  have : ∀ (l m : List α), y ∈ l.foldl (fun m x => put1 x m) m ↔ y ∈ m ∨ y ∈ l := by
    intro l
    induction l with
    | nil => simp
    | cons x r ih =>
      intro m
      simp only [List.foldl_cons, ih, put1_mem, List.mem_cons]
      exact ⟨fun h => by rcases h with (h | h) | h <;> simp [h], fun h => by rcases h with h | h | h <;> simp [h]⟩
  simpa [setOf] using this l []

theorem single_first {α : Type} {n : Text} {dec : List (Text × J) → Option α} : ∀ {ds : List Dir} {o : Option α},
    first n dec ds = some o → Single n dec ds o
  | [], o, h => by
    simp only [first, Option.some.injEq] at h
    exact .inl ⟨h.symm, by simp⟩
  | d :: ds, o, h => by
    simp only [first] at h
    split at h
    · rename_i hd
      obtain ⟨a, ha, rfl⟩ := Option.map_eq_some_iff.1 h
      exact .inr ⟨[], d, ds, a, rfl, by simp, hd, ha, rfl⟩
    · rename_i hd
      rcases single_first h with ⟨h1, h2⟩ | ⟨pre, e, post, a, h1, h2, h3, h4, h5⟩
      · exact .inl ⟨h1, fun x hx => (List.mem_cons.1 hx).elim (fun e => e ▸ hd) (h2 x)⟩
      · exact .inr ⟨d :: pre, e, post, a, by rw [h1]; rfl, fun x hx => (List.mem_cons.1 hx).elim (fun e => e ▸ hd) (h2 x), h3, h4, h5⟩

theorem means_ofDir {d : Dir} {r : Resolver} (h : Resolver.ofDir d = some (some r)) : Means d r := by
  unfold Resolver.ofDir at h
  split at h
  · obtain ⟨a, ha, he⟩ := Option.map_eq_some_iff.1 h; cases he; exact .http ‹_› ha
  · split at h
    · obtain ⟨a, ha, he⟩ := Option.map_eq_some_iff.1 h; cases he; exact .grpc ‹_› ha
    · split at h
      · obtain ⟨a, ha, he⟩ := Option.map_eq_some_iff.1 h; cases he; exact .graphql ‹_› ha
      · split at h
        · obtain ⟨a, ha, he⟩ := Option.map_eq_some_iff.1 h; cases he; exact .call ‹_› ha
        · split at h
          · obtain ⟨a, ha, he⟩ := Option.map_eq_some_iff.1 h; cases he; exact .js ‹_› ha
          · split at h
            · obtain ⟨a, ha, he⟩ := Option.map_eq_some_iff.1 h; cases he; exact .expr ‹_› ha
            · cases h

theorem other_ofDir {d : Dir} (h : Resolver.ofDir d = some none) : d.name ∉ [t! "http", t! "grpc", t! "graphQL", t! "call", t! "js", t! "expr"] := by
  unfold Resolver.ofDir at h
  split at h
  · obtain ⟨a, ha, he⟩ := Option.map_eq_some_iff.1 h; cases he
  · split at h
    · obtain ⟨a, ha, he⟩ := Option.map_eq_some_iff.1 h; cases he
    · split at h
      · obtain ⟨a, ha, he⟩ := Option.map_eq_some_iff.1 h; cases he
      · split at h
        · obtain ⟨a, ha, he⟩ := Option.map_eq_some_iff.1 h; cases he
        · split at h
          · obtain ⟨a, ha, he⟩ := Option.map_eq_some_iff.1 h; cases he
          · split at h
            · obtain ⟨a, ha, he⟩ := Option.map_eq_some_iff.1 h; cases he
            · simp only [List.mem_cons, List.not_mem_nil, or_false, not_or]
              exact ⟨‹_›, ‹_›, ‹_›, ‹_›, ‹_›, ‹_›⟩

theorem resolves_collect : ∀ {ds : List Dir} {rs : List Resolver}, collect Resolver.ofDir ds = some rs → Resolves ds rs
  | [], rs, h => by
    simp only [collect, Option.some.injEq] at h
    subst h
    exact .nil
  | d :: ds, rs, h => by
    rcases collect_cons h with ⟨y, r', h1, h2, rfl⟩ | ⟨h1, h2⟩
    · exact .cons (means_ofDir h1) (resolves_collect h2)
    · exact .other (other_ofDir h1) (resolves_collect h2)

theorem federated_collect : ∀ {ds : List Dir} {es : List Directive}, fedDirs ds = some es → Federated ds es
  | [], es, h => by
    simp only [fedDirs, collect, Option.some.injEq] at h
    subst h
    exact .nil
  | d :: ds, es, h => by
    have hb : ∀ n, n ∈ federation → n ∈ apollo := by decide
    rcases collect_cons h with ⟨y, r', h1, h2, rfl⟩ | ⟨h1, h2⟩
    · split at h1
      · rename_i hc
        cases h1
        exact .cons (hb _ (by simpa using hc)) rfl rfl (federated_collect h2)
      · cases h1
    · split at h1
      · cases h1
      · rename_i hc
        exact .other (fun ha => hc (by simpa using apollo_known ha)) (federated_collect h2)

theorem added_all : ∀ {ds : List Dir} {as : List AddField}, addFields ds = some as → Added ds as
  | [], as, h => by
    simp only [addFields, List.filter_nil, all, Option.some.injEq] at h
    subst h
    exact .nil
  | d :: ds, as, h => by
    unfold addFields at h
    by_cases hd : d.name = "addField".toList
    · rw [List.filter_cons, if_pos (decide_eq_true hd)] at h
      obtain ⟨y, r', h1, h2, rfl⟩ := all_cons h
      exact .cons hd h1 (added_all h2)
    · rw [List.filter_cons, if_neg (fun h => hd (of_decide_eq_true h))] at h
      exact .other hd (added_all h)

theorem said_common {ty : GTy} {doc : Option Text} {dirs : List Dir} {args : List (Text × Arg)} {dflt : Option V} {g : Field}
    (h : commonField ty doc dirs args dflt = some g) : FieldSaid ty doc dirs dflt g ∧ g.args = args := by
  simp only [commonField, Option.bind_eq_bind, Option.bind_eq_some_iff] at h
  obtain ⟨r, hr, ca, hca, om, hom, mo, hmo, pr, hpr, di, hdi, fe, hfe, h⟩ := h
  cases h
  exact ⟨⟨tyOf ty, rfl, rfl, resolves_collect hr, single_first hca, single_first hom, single_first hmo, single_first hpr, single_first hdi,
    federated_collect hfe⟩, rfl⟩

theorem said_args (l : List InDef) : ArgsSaid l (ofArgs l) := by
  have hk : (l.map (fun a => (a.name, ofArg a))).map (·.1) = l.map (·.name) := by
    rw [List.map_map]; rfl
  refine ⟨fun p hp => ?_, fun hn a ha => ?_⟩
  · obtain ⟨a, ha, rfl⟩ := List.mem_map.1 (build_mem hp)
    exact List.mem_map_of_mem ha
  · refine ⟨ofArg a, ?_, tyOf _, rfl, rfl, fun hm => ?_⟩
    · rw [ofArgs, build_id (by rw [hk]; exact hn)]
      exact get_nodup (by rw [hk]; exact hn) (List.mem_map.2 ⟨a, ha, rfl⟩)
    · simp only [ofArg, first_none hm, Option.join]
      rfl

theorem all_names {α : Type} {f : α → Option (Text × Field)} {nm : α → Text} (hf : ∀ x p, f x = some p → p.1 = nm x) :
    ∀ {l : List α} {r : List (Text × Field)}, all f l = some r → r.map (·.1) = l.map nm
  | [], r, h => by
    simp only [all, Option.some.injEq] at h
    subst h
    rfl
  | x :: l, r, h => by
    obtain ⟨y, r', h1, h2, rfl⟩ := all_cons h
    simp only [List.map_cons, hf x y h1, all_names hf h2]

theorem said_fields {α : Type} {f : α → Option (Text × Field)} {nm : α → Text} (hf : ∀ x p, f x = some p → p.1 = nm x) {l : List α}
    {r : List (Text × Field)} (h : all f l = some r) : (∀ p ∈ build r, p.1 ∈ l.map nm) ∧
    ((l.map nm).Nodup → ∀ x ∈ l, ∃ g, get (nm x) (build r) = some g ∧ f x = some (nm x, g)) := by
  have hk := all_names hf h
  refine ⟨fun p hp => ?_, fun hn x hx => ?_⟩
  · rw [← hk]
    exact List.mem_map_of_mem (build_mem hp)
  · obtain ⟨⟨k, g⟩, hy, he⟩ := (all_mem h).1 x hx
    have : k = nm x := hf x _ he
    subst this
    exact ⟨g, by rw [build_id (by rw [hk]; exact hn)]; exact get_nodup (by rw [hk]; exact hn) hy, he⟩

theorem ofField_name (x : FieldDef) (p : Text × Field) (h : ofField? x = some p) : p.1 = x.name := by
  obtain ⟨g, _, rfl⟩ := Option.map_eq_some_iff.1 h
  rfl

theorem ofInput_name (x : InDef) (p : Text × Field) (h : ofInput? x = some p) : p.1 = x.name := by
  obtain ⟨g, _, rfl⟩ := Option.map_eq_some_iff.1 h
  rfl

/-- The parts of `collect` keep distinct names distinct. -/
theorem collect_names {β : Type} {f : TypeDef → Option (Option (Text × β))} (hf : ∀ t p, f t = some (some p) → p.1 = t.name) :
    ∀ {l : List TypeDef} {r : List (Text × β)}, collect f l = some r → (r.map (·.1)).Sublist (l.map (·.name))
  | [], r, h => by
    simp only [collect, Option.some.injEq] at h
    subst h
    exact .slnil
  | x :: l, r, h => by
    rcases collect_cons h with ⟨y, r', h1, h2, rfl⟩ | ⟨h1, h2⟩
    · simp only [List.map_cons, hf x y h1]
      exact (collect_names hf h2).cons_cons _
    · simp only [List.map_cons]
      exact (collect_names hf h2).cons _

theorem collect_get {β : Type} {f : TypeDef → Option (Option (Text × β))} (hf : ∀ t p, f t = some (some p) → p.1 = t.name)
    {l : List TypeDef} {r : List (Text × β)} (h : collect f l = some r) (hn : (l.map (·.name)).Nodup) {t : TypeDef} (ht : t ∈ l)
    (hs : f t ≠ some none) : ∃ x, get t.name (build r) = some x ∧ f t = some (some (t.name, x)) := by
  rcases (collect_mem h).1 t ht with h1 | ⟨⟨k, y⟩, hy, h1⟩
  · exact absurd h1 hs
  · have : k = t.name := hf t _ h1
    subst this
    have hr : (r.map (·.1)).Nodup := (collect_names hf h).nodup hn
    exact ⟨y, by rw [build_id hr]; exact get_nodup hr hy, h1⟩

theorem ofType_name (t : TypeDef) (p : Text × CType) (h : ofType t = some (some p)) : p.1 = t.name := by
  unfold ofType at h
  split at h
  · obtain ⟨x, _, he⟩ := Option.map_eq_some_iff.1 h; cases he; rfl
  · obtain ⟨x, _, he⟩ := Option.map_eq_some_iff.1 h; cases he; rfl
  · obtain ⟨x, _, he⟩ := Option.map_eq_some_iff.1 h; cases he; rfl
  · cases h; rfl
  · cases h
  · cases h

theorem ofUnion_name (t : TypeDef) (p : Text × Union) (h : ofUnion t = some (some p)) : p.1 = t.name := by
  unfold ofUnion at h
  split at h
  · cases h; rfl
  · cases h

theorem ofEnum_name (t : TypeDef) (p : Text × Enum) (h : ofEnum t = some (some p)) : p.1 = t.name := by
  unfold ofEnum at h
  split at h
  · obtain ⟨x, _, he⟩ := Option.map_eq_some_iff.1 h; cases he; rfl
  · cases h

theorem mem_typeDefs {doc : List Def} {t : TypeDef} : t ∈ typeDefs doc ↔ Def.type t ∈ doc := by
  simp only [typeDefs, List.mem_filterMap]
  constructor
  · rintro ⟨d, hd, h⟩
    cases d with
    | type t' => cases h; exact hd
    | schema _ => cases h
    | directive => cases h
  · exact fun h => ⟨_, h, rfl⟩

theorem fromDoc_parts {doc : List Def} {c : Config} (h : fromDoc doc = some c) : ∃ ts us es, collect ofType (typeDefs doc) = some ts ∧
    collect ofUnion (typeDefs doc) = some us ∧ collect ofEnum (typeDefs doc) = some es ∧ c.types = build ts ∧ c.unions = build us ∧
    c.enums = build es ∧ lastDir "server".toList Server.dec Server.dflt (findSchema doc).dirs = some c.server ∧
    lastDir "upstream".toList Upstream.dec Upstream.dflt (findSchema doc).dirs = some c.upstream ∧
    lastDir "telemetry".toList Telemetry.dec Telemetry.dflt (findSchema doc).dirs = some c.telemetry ∧
    manyDirs "link".toList Link.dec (findSchema doc).dirs = some c.links ∧
    c.schema = ⟨(findSchema doc).query, (findSchema doc).mutation, (findSchema doc).subscription⟩ := by
  simp only [fromDoc, Option.bind_eq_bind, Option.bind_eq_some_iff] at h
  obtain ⟨s, hs, u, hu, ts, hts, us, hus, es, hes, ls, hls, t, ht, h⟩ := h
  cases h
  exact ⟨ts, us, es, hts, hus, hes, rfl, rfl, rfl, hs, hu, ht, hls, rfl⟩

theorem said_object {impl : List Text} {fs : List FieldDef} {doc : Option Text} {dirs : List Dir} {ct : CType}
    (h : objectType impl fs doc dirs = some ct) : ct.doc = doc ∧ (∀ x, x ∈ ct.impl ↔ x ∈ impl) ∧
      Resolves dirs ct.resolvers ∧ Single (t! "cache") Cache.dec dirs ct.cache ∧ Single (t! "protected") Protected.dec dirs ct.prot ∧
      Federated dirs ct.dirs ∧ Added dirs ct.added ∧ (∀ p ∈ ct.fields, p.1 ∈ fs.map (·.name)) ∧
      ((fs.map (·.name)).Nodup → ∀ f ∈ fs, ∃ g, get f.name ct.fields = some g ∧ FieldSaid f.ty f.doc f.dirs none g ∧ ArgsSaid f.args g.args) := by
  simp only [objectType, Option.bind_eq_bind, Option.bind_eq_some_iff] at h
  obtain ⟨r, hr, ca, hca, l, hl, pr, hpr, ad, had, fe, hfe, h⟩ := h
  cases h
  obtain ⟨h1, h2⟩ := said_fields ofField_name hl
  refine ⟨rfl, fun x => setOf_mem impl, resolves_collect hr, single_first hca, single_first hpr, federated_collect hfe, added_all had, h1, fun hn f hf => ?_⟩
  obtain ⟨g, hg, he⟩ := h2 hn f hf
  obtain ⟨g', hg', he'⟩ := Option.map_eq_some_iff.1 he
  cases he'
  obtain ⟨s1, s2⟩ := said_common hg'
  exact ⟨g, hg, s1, by rw [s2]; exact said_args f.args⟩

/-! ## C91 -/

/-- C91, for documents that define every name once: every definition is in the configuration with all that it says.
Missing: names that are defined or extended several times, several schema definitions, and what the directives that
Tailcall does not know say; see the theorems below. -/
theorem C91_types_read_partial {doc : List Def} {c : Config} (h : fromDoc doc = some c) (hn : ((typeDefs doc).map (·.name)).Nodup)
    {t : TypeDef} (ht : Def.type t ∈ doc) : TypeSaid c t := by
  obtain ⟨ts, us, es, h1, h2, h3, e1, e2, e3, _⟩ := fromDoc_parts h
  have hm := mem_typeDefs.2 ht
  obtain ⟨ext, doc', name, dirs, kind⟩ := t
  cases kind with
  | object impl fs =>
    have hs : ofType ⟨ext, doc', name, dirs, .object impl fs⟩ ≠ some none := by
      simp only [ofType]
      cases objectType impl fs doc' dirs <;> simp
    obtain ⟨ct, hg, he⟩ := collect_get ofType_name h1 hn hm hs
    obtain ⟨x, hx, hxe⟩ := Option.map_eq_some_iff.1 he
    cases hxe
    rw [← e1] at hg
    exact ⟨ct, hg, said_object hx⟩
  | iface impl fs =>
    have hs : ofType ⟨ext, doc', name, dirs, .iface impl fs⟩ ≠ some none := by
      simp only [ofType]
      cases objectType impl fs doc' dirs <;> simp
    obtain ⟨ct, hg, he⟩ := collect_get ofType_name h1 hn hm hs
    obtain ⟨x, hx, hxe⟩ := Option.map_eq_some_iff.1 he
    cases hxe
    rw [← e1] at hg
    exact ⟨ct, hg, said_object hx⟩
  | input fs =>
    have hs : ofType ⟨ext, doc', name, dirs, .input fs⟩ ≠ some none := by
      simp only [ofType]
      cases inputType fs doc' dirs <;> simp
    obtain ⟨ct, hg, he⟩ := collect_get ofType_name h1 hn hm hs
    obtain ⟨x, hx, hxe⟩ := Option.map_eq_some_iff.1 he
    cases hxe
    rw [← e1] at hg
    simp only [inputType, Option.bind_eq_bind, Option.bind_eq_some_iff] at hx
    obtain ⟨l, hl, pr, hpr, hx⟩ := hx
    cases hx
    obtain ⟨g1, g2⟩ := said_fields ofInput_name hl
    refine ⟨_, hg, rfl, single_first hpr, g1, fun hnf f hf => ?_⟩
    obtain ⟨g, hg, he⟩ := g2 hnf f hf
    obtain ⟨g', hg', he'⟩ := Option.map_eq_some_iff.1 he
    cases he'
    obtain ⟨s1, s2⟩ := said_common hg'
    exact ⟨g, hg, s1, s2⟩
  | scalar =>
    obtain ⟨ct, hg, he⟩ := collect_get ofType_name h1 hn hm (by simp [ofType])
    cases he
    rw [← e1] at hg
    exact ⟨_, hg, rfl⟩
  | union ms =>
    obtain ⟨u, hg, he⟩ := collect_get ofUnion_name h2 hn hm (by simp [ofUnion])
    cases he
    rw [← e2] at hg
    exact ⟨_, hg, rfl, fun x => setOf_mem ms⟩
  | enum vs =>
    have hs : ofEnum ⟨ext, doc', name, dirs, .enum vs⟩ ≠ some none := by
      simp only [ofEnum]
      cases all ofVal vs <;> simp
    obtain ⟨e, hg, he⟩ := collect_get ofEnum_name h3 hn hm hs
    obtain ⟨l, hl, hle⟩ := Option.map_eq_some_iff.1 he
    cases hle
    rw [← e3] at hg
    obtain ⟨m1, m2⟩ := all_mem hl
    refine ⟨_, hg, rfl, fun v hv => ?_, fun w hw => ?_⟩
    · obtain ⟨w, hw, hvw⟩ := m1 v hv
      obtain ⟨a, ha, rfl⟩ := Option.map_eq_some_iff.1 hvw
      exact ⟨_, (setOf_mem l).2 hw, rfl, single_first ha⟩
    · obtain ⟨v, hv, hvw⟩ := m2 w ((setOf_mem l).1 hw)
      obtain ⟨a, _, rfl⟩ := Option.map_eq_some_iff.1 hvw
      exact List.mem_map_of_mem hv

/-- C91: nothing is in the configuration that the document does not define. -/
theorem C91_nothing_else {doc : List Def} {c : Config} (h : fromDoc doc = some c) :
    (∀ p ∈ c.types, ∃ t, Def.type t ∈ doc ∧ t.name = p.1) ∧ (∀ p ∈ c.unions, ∃ t ms, Def.type t ∈ doc ∧ t.name = p.1 ∧ t.kind = .union ms) ∧
    ∀ p ∈ c.enums, ∃ t vs, Def.type t ∈ doc ∧ t.name = p.1 ∧ t.kind = .enum vs := by
  obtain ⟨ts, us, es, h1, h2, h3, e1, e2, e3, _⟩ := fromDoc_parts h
  refine ⟨fun p hp => ?_, fun p hp => ?_, fun p hp => ?_⟩
  · obtain ⟨t, ht, he⟩ := (collect_mem h1).2 p (build_mem (e1 ▸ hp))
    exact ⟨t, mem_typeDefs.1 ht, (ofType_name t p he).symm⟩
  · obtain ⟨t, ht, he⟩ := (collect_mem h2).2 p (build_mem (e2 ▸ hp))
    refine ⟨t, ?_⟩
    have hn := (ofUnion_name t p he).symm
    unfold ofUnion at he
    split at he
    · exact ⟨_, mem_typeDefs.1 ht, hn, ‹_›⟩
    · cases he
  · obtain ⟨t, ht, he⟩ := (collect_mem h3).2 p (build_mem (e3 ▸ hp))
    refine ⟨t, ?_⟩
    have hn := (ofEnum_name t p he).symm
    unfold ofEnum at he
    split at he
    · exact ⟨_, mem_typeDefs.1 ht, hn, ‹_›⟩
    · cases he

/-- The links that directives stand for, in their order. -/
inductive Linked : List Dir → List Link → Prop
  | nil : Linked [] []
  | cons {d l ds ls} : d.name = t! "link" → fromDir Link.dec d = some l → Linked ds ls → Linked (d :: ds) (l :: ls)
  | other {d ds ls} : d.name ≠ t! "link" → Linked ds ls → Linked (d :: ds) ls

theorem linked_many : ∀ {ds : List Dir} {ls : List Link}, manyDirs "link".toList Link.dec ds = some ls → Linked ds ls
  | [], ls, h => by
    simp only [manyDirs, collect, Option.some.injEq] at h
    subst h
    exact .nil
  | d :: ds, ls, h => by
    rcases collect_cons h with ⟨y, r', h1, h2, rfl⟩ | ⟨h1, h2⟩
    · split at h1
      · obtain ⟨a, ha, he⟩ := Option.map_eq_some_iff.1 h1
        cases he
        exact .cons ‹_› ha (linked_many h2)
      · cases h1
    · split at h1
      · obtain ⟨a, ha, he⟩ := Option.map_eq_some_iff.1 h1
        cases he
      · exact .other ‹_› (linked_many h2)

theorem lastDir_one {α : Type} {n : Text} {dec : List (Text × J) → Option α} {dflt a : α} {pre post : List Dir} {d : Dir}
    (h : lastDir n dec dflt (pre ++ d :: post) = some a) (hd : d.name = n) (hp : ∀ x ∈ post, x.name ≠ n) : fromDir dec d = some a := by
  have := lastDir_skip (dec := dec) (dflt := dflt) (l := pre ++ [d]) hp
  rw [List.append_assoc, List.singleton_append] at this
  rw [this] at h
  simpa [lastDir, hd] using h

theorem lastDir_none {α : Type} {n : Text} {dec : List (Text × J) → Option α} {dflt a : α} {ds : List Dir}
    (h : lastDir n dec dflt ds = some a) (hp : ∀ x ∈ ds, x.name ≠ n) : a = dflt := by
  have := lastDir_skip (dec := dec) (dflt := dflt) (l := []) hp
  rw [List.nil_append] at this
  rw [this] at h
  simpa [lastDir] using h.symm

/-- C91, for documents with one schema definition and at most one `@server`, `@upstream` and `@telemetry`: the settings,
links and root types are those that the definition says, and the defaults where it says nothing. -/
theorem C91_schema_read_partial {pre post : List Def} {s : SchemaDef} {c : Config} (h : fromDoc (pre ++ .schema s :: post) = some c)
    (h1 : ∀ s', Def.schema s' ∉ pre) :
    c.schema = ⟨s.query, s.mutation, s.subscription⟩ ∧ Linked s.dirs c.links ∧
    ((∀ d ∈ s.dirs, d.name ≠ t! "server") → c.server = Server.dflt) ∧
    ((∀ d ∈ s.dirs, d.name ≠ t! "upstream") → c.upstream = Upstream.dflt) ∧
    ((∀ d ∈ s.dirs, d.name ≠ t! "telemetry") → c.telemetry = Telemetry.dflt) ∧
    (∀ a d b, s.dirs = a ++ d :: b → d.name = t! "server" → (∀ x ∈ b, x.name ≠ t! "server") → fromDir Server.dec d = some c.server) ∧
    (∀ a d b, s.dirs = a ++ d :: b → d.name = t! "upstream" → (∀ x ∈ b, x.name ≠ t! "upstream") → fromDir Upstream.dec d = some c.upstream) ∧
    ∀ a d b, s.dirs = a ++ d :: b → d.name = t! "telemetry" → (∀ x ∈ b, x.name ≠ t! "telemetry") → fromDir Telemetry.dec d = some c.telemetry := by
  have hs : findSchema (pre ++ .schema s :: post) = s := by
    have : pre.findSome? (fun d => match d with | Def.schema s => some s | _ => none) = none := by
      rw [List.findSome?_eq_none_iff]
      intro d hd
      cases d with
      | schema s' => exact absurd hd (h1 s')
      | type _ => rfl
      | directive => rfl
    simp only [findSchema, List.findSome?_append]
    erw [this]
    rfl
  obtain ⟨_, _, _, _, _, _, _, _, _, e1, e2, e3, e4, e5⟩ := fromDoc_parts h
  rw [hs] at e1 e2 e3 e4 e5
  refine ⟨e5, linked_many e4, lastDir_none e1, lastDir_none e2, lastDir_none e3, ?_, ?_, ?_⟩
  · intro a d b he hd hb
    rw [he] at e1
    exact lastDir_one e1 hd hb
  · intro a d b he hd hb
    rw [he] at e2
    exact lastDir_one e2 hd hb
  · intro a d b he hd hb
    rw [he] at e3
    exact lastDir_one e3 hd hb

/-! Concrete documents. -/

/-- A definition of an object. -/
def objDef (n : Text) (ext : Bool) (fs : List FieldDef) : Def := .type ⟨ext, none, n, [], .object [] fs⟩

/-- A definition of a field of type `Int`. -/
def intField (n : Text) (dirs : List Dir) : FieldDef := ⟨n, none, [], .named (t! "Int") true, dirs⟩

/-- The names of the fields of a type. -/
def fieldNames (n : Text) (c : Config) : Option (List Text) := (get n c.types).map (fun t => t.fields.map (·.1))

/-- `type Query { a: Int @expr(body: 1) @cache(maxAge: 5) }` -/
def small : List Def :=
  [.schema ⟨false, [⟨t! "server", [(t! "port", .int 80)]⟩, ⟨t! "link", [(t! "src", .str (t! "x")), (t! "type", .enum (t! "Config"))]⟩], some (t! "Query"), none, none⟩,
   objDef (t! "Query") false [intField (t! "a") [⟨t! "expr", [(t! "body", .int 1)]⟩, ⟨t! "cache", [(t! "maxAge", .int 5)]⟩]]]

example : ∃ c, fromDoc small = some c ∧ (∃ ct, get (t! "Query") c.types = some ct ∧ ∃ g, get (t! "a") ct.fields = some g ∧ g.resolvers = [.expr ⟨.int 1⟩]) := by
  refine ⟨_, rfl, ?_⟩
  obtain ⟨ct, h1, _, _, _, _, _, _, _, _, h2⟩ := C91_types_read_partial (doc := small) rfl (by decide) (t := ⟨false, none, t! "Query", [], _⟩)
    (List.mem_cons_of_mem _ List.mem_cons_self)
  obtain ⟨g, hg, hs, _⟩ := h2 (by decide) _ List.mem_cons_self
  refine ⟨ct, h1, g, hg, ?_⟩
  have := hs.resolvers
  generalize he : g.resolvers = rs at this
  cases this with
  | cons hm hr =>
    cases hr with
    | cons hm' _ => cases hm' <;> rename_i hh _ <;> exact absurd hh (by decide)
    | other _ hr =>
      cases hr
      cases hm with
      | expr _ h => cases h; rfl
      | http hh _ | grpc hh _ | graphql hh _ | call hh _ | js hh _ => exact absurd hh (by decide)
  | other hh _ => exact absurd (by decide) hh

example : ∃ c, fromDoc small = some c ∧ c.schema.query = some (t! "Query") ∧ c.upstream = Upstream.dflt ∧
    fromDir Server.dec ⟨t! "server", [(t! "port", .int 80)]⟩ = some c.server := by
  obtain ⟨h1, _, _, h3, _, h4, _⟩ := C91_schema_read_partial (pre := []) (post := small.tail) (s := ⟨false, [⟨t! "server", [(t! "port", .int 80)]⟩,
    ⟨t! "link", [(t! "src", .str (t! "x")), (t! "type", .enum (t! "Config"))]⟩], some (t! "Query"), none, none⟩) (c := (fromDoc small).getD demo) (by rfl) (by simp)
  exact ⟨_, rfl, by rfl, h3 (by decide), h4 [] _ [_] rfl (by decide) (by decide)⟩

example : ∃ c, fromDoc small = some c ∧ ∀ p ∈ c.types, ∃ t, Def.type t ∈ small ∧ t.name = p.1 := ⟨_, rfl, (C91_nothing_else rfl).1⟩

/-- C91 fails: `type A { x: Int } extend type A { y: Int }` is read as if `A` had the field `y` only, without an error. -/
theorem C91_violated_by_extend :
    (fromDoc [objDef (t! "A") false [intField (t! "x") []], objDef (t! "A") true [intField (t! "y") []]]).bind (fieldNames (t! "A")) = some [t! "y"] := by
  rfl

/-- C91 fails: of two definitions of a type the first is dropped without an error. -/
theorem C91_violated_by_duplicate :
    (fromDoc [objDef (t! "A") false [intField (t! "x") []], objDef (t! "A") false [intField (t! "y") []]]).bind (fieldNames (t! "A")) = some [t! "y"] := by
  rfl

/-- C91 fails: a directive that is misspelt is dropped without an error; the field then has no resolver. -/
theorem C91_violated_by_unknown_directive :
    (fromDoc [objDef (t! "Query") false [intField (t! "x") [⟨t! "htp", [(t! "url", .str (t! "http://a"))]⟩]]]).bind
      (fun c => (get (t! "Query") c.types).map (fun t => t.fields.map (fun f => (f.2.resolvers.length, f.2.dirs.length)))) = some [(0, 0)] := by rfl

/-- C91 fails: a second schema definition, here one that names the query type, is ignored. -/
theorem C91_violated_by_second_schema :
    (fromDoc [.schema ⟨false, [⟨t! "server", []⟩], none, none, none⟩, .schema ⟨true, [], some (t! "Query"), none, none⟩]).map (fun c => c.schema.query) =
      some none := by rfl

/-- C91 fails: of several `@server` the last counts, and what the earlier ones say is lost, even when it cannot be
read. -/
theorem C91_violated_by_second_server :
    (fromDoc [.schema ⟨false, [⟨t! "server", [(t! "prt", .int 80)]⟩, ⟨t! "server", []⟩], none, none, none⟩]).map (fun c => c.server.port) = some none ∧
    (fromDoc [.schema ⟨false, [⟨t! "server", [(t! "prt", .int 80)]⟩], none, none, none⟩]).isNone = true := ⟨by rfl, by rfl⟩

/-- C91 fails: a `@modify` on an argument that cannot be read is ignored, whereas on a field it is an error. -/
theorem C91_violated_by_argument_directive :
    let bad : Dir := ⟨t! "modify", [(t! "nme", .str (t! "b"))]⟩
    (fromDoc [objDef (t! "A") false [⟨t! "x", none, [⟨t! "a", none, .named (t! "Int") true, none, [bad]⟩], .named (t! "Int") true, []⟩]]).isSome = true ∧
    (fromDoc [objDef (t! "A") false [intField (t! "x") [bad]]]).isSome = false := ⟨by rfl, by rfl⟩

/-- C91 fails: `input` and `type` are not told apart, so that an input that no field uses is a type afterwards. -/
theorem C91_violated_by_kind :
    (fromDoc [.type ⟨false, none, t! "A", [], .input [⟨t! "x", none, .named (t! "Int") true, none, []⟩]⟩]) =
      fromDoc [objDef (t! "A") false [intField (t! "x") []]] := by rfl

/-- C91 fails: the documentation and the directives of a scalar are dropped. -/
theorem C91_violated_by_scalar :
    (fromDoc [.type ⟨false, some (t! "d"), t! "Date", [⟨t! "tag", [(t! "name", .str (t! "n"))]⟩], .scalar⟩]).bind
      (fun c => (get (t! "Date") c.types).map (fun t => (t.doc, t.dirs.length))) = some (none, 0) := by rfl

end Verif.Sdl
