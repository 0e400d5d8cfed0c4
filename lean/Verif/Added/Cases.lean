import Verif.Added.Props

/-!
# Examples for C104–C107, and what does not hold
-/

namespace Verif.Added

open Verif.Mustache (Text)
open Verif.Exec (Ty)
open Verif.HttpUrl (GVal)
open Verif.Ir (IR World Ctx St parseUsize getPath eval)
open Verif.Transform (At Lacks get get_some get_none at_mem at_unique at_not_lacks)

set_option linter.unusedSimpArgs false

/-! ## Ways, computed -/

/-- The way a path goes, computed, for the examples; nothing in the code. -/
def follow (c : Config) : Ty → List Text → Option (List Fld × Ty)
  | t, [] => some ([], t)
  | .list e _, i :: p => if (parseUsize i).isSome then follow c e p else none
  | .named n _, f :: p =>
    if (parseUsize f).isSome then none
    else
      match get c.types n with
      | none => none
      | some td =>
        match get td.fields f with
        | none => none
        | some fd => (follow c fd.ty p).map (fun r => (fd :: r.1, r.2))

theorem way_follow {c : Config} {t t' : Ty} {p : List Text} {fs : List Fld} (h : Way c t p fs t') : follow c t p = some (fs, t') := by
  induction h with
  | here => rw [follow]
  | item h1 _ ih => rw [follow, if_pos h1, ih]
  | field h1 h2 h3 _ ih =>
    rw [follow, if_neg (by rw [h1]; exact Bool.false_ne_true)]
    simp only [get_some.2 h2, get_some.2 h3, ih, Option.map_some]

theorem follow_way {c : Config} : ∀ (p : List Text) (t t' : Ty) (fs : List Fld), follow c t p = some (fs, t') → Way c t p fs t'
  | [], t, t', fs, h => by
    rw [follow] at h
    cases h
    exact .here
  | i :: p, .list e nn, t', fs, h => by
    rw [follow] at h
    split at h
    · next hi => exact .item hi (follow_way p e t' fs h)
    · cases h
  | f :: p, .named n nn, t', fs, h => by
    rw [follow] at h
    split at h
    · cases h
    · next hf =>
      split at h
      · cases h
      · next td htd =>
        split at h
        · cases h
        · next fd hfd =>
          rw [Option.map_eq_some_iff] at h
          obtain ⟨⟨fs', t''⟩, h1, h2⟩ := h
          cases h2
          refine .field ?_ (get_some.1 htd) (get_some.1 hfd) (follow_way p fd.ty _ fs' h1)
          cases hx : parseUsize f with
          | none => rfl
          | some k => rw [hx] at hf; exact absurd rfl hf

/-! ## A configuration -/

/-- A field of the examples, without anything. -/
def fld (t : Ty) : Fld := ⟨t, [], none, false, none, none, none⟩

/-- A field of the examples with a resolver that gives a value. -/
def res (t : Ty) (v : GVal) : Fld := { fld t with resolvers := [("expr".toList, some (.dynamic (.value v)))] }

/-- A type of the examples. -/
def obj (l : List (Text × Fld)) : Typ := ⟨l, [], [], none, none⟩

/-- A nullable type of the examples. -/
def ty (s : String) : Ty := .named s.toList false

/-- A user of the examples. -/
def ann : GVal := .obj [("name".toList, .str "Ann".toList), ("born".toList, .str "2001".toList), ("tags".toList, .list [.str "a".toList]),
  ("address".toList, .obj [("street".toList, .str "Elm".toList)]), ("account".toList, .obj [("iban".toList, .str "DE1".toList)]),
  ("vault".toList, .obj [("code".toList, .int 7)])]

/-- The type of users. -/
def userT : Typ := obj [("name".toList, fld (.named "String".toList true)), ("born".toList, fld (ty "Date")),
  ("tags".toList, fld (.list (ty "String") false)), ("address".toList, fld (ty "Address")), ("friends".toList, fld (.list (ty "User") false)),
  ("account".toList, fld (ty "Account")), ("vault".toList, { fld (ty "Vault") with prot := some none }), ("kind".toList, fld (ty "Kind")),
  ("home".toList, { fld (ty "Address") with modify := some "house".toList }), ("raw".toList, fld (ty "JSON")), ("posts".toList, fld (.list (ty "Posts") false))]

/-- The type of queries. -/
def queryT : Typ := obj [("user".toList, res (ty "User") ann), ("users".toList, res (.list (ty "User") false) (.list [ann]))]

/-- The configuration of the examples. -/
def cfg : Config where
  types := [("Query".toList, queryT), ("User".toList, userT),
    ("Address".toList, obj [("street".toList, fld (ty "String"))]),
    ("Account".toList, { obj [("iban".toList, fld (ty "String"))] with prot := some none }),
    ("Vault".toList, obj [("code".toList, fld (ty "Int"))]),
    ("Root".toList, obj [("user".toList, res (ty "User") ann), ("name".toList, fld (ty "Int"))]),
    ("Date".toList, obj []),
    ("Posts".toList, obj [("count".toList, res (ty "Int") (.int 3))])]
  enums := [("Kind".toList, none)]
  ext := ⟨[(none, "pw".toList)], []⟩
  isInput _ := false
  pre n := n == "String".toList || n == "Int".toList || n == "JSON".toList
  query := some "Query".toList
  mutation := none

theorem cfg_sane : Sane cfg := by
  intro n h
  simp only [cfg, Bool.or_eq_true, beq_iff_eq] at h
  apply get_none.1
  rcases h with (h | h) | h <;> subst h <;> rfl

/-- Where the path of an added field of a type whose first field has no resolver starts. -/
theorem starts_plain {c : Config} {object : Text} {outer : Typ} {a : Add} {f : Fld} {s r} (h1 : get c.types object = some outer)
    (h2 : a.path = s :: r) (h3 : get outer.fields s = some f) (h4 : parseUsize s = none) (h5 : f.resolvers = []) :
    Starts c object outer a f (.named object false) a.path :=
  ⟨get_some.1 h1, s, r, h2, get_some.1 h3, h4, .inl ⟨h5, rfl, rfl⟩⟩

/-- Where the path of an added field of a type whose first field has a resolver starts. -/
theorem starts_res {c : Config} {object : Text} {outer : Typ} {a : Add} {f : Fld} {s r g} (h1 : get c.types object = some outer)
    (h2 : a.path = s :: r) (h3 : get outer.fields s = some f) (h4 : parseUsize s = none) (h5 : f.resolvers ≠ [])
    (h6 : r.find? (fun x => (parseUsize x).isNone) = some g) (h7 : get outer.fields g = none) :
    Starts c object outer a f f.ty r :=
  ⟨get_some.1 h1, s, r, h2, get_some.1 h3, h4, .inr ⟨h5, rfl, rfl, fun g' hg => by
    rw [h6] at hg
    cases hg
    exact get_none.1 h7⟩⟩

/-- `@addField(name: "street", path: ["address", "street"])` on `User`. -/
def street : Add := ⟨"street".toList, ["address".toList, "street".toList]⟩

/-- `@addField(name: "first", path: ["users", "0", "name"])` on `Query`. -/
def first : Add := ⟨"first".toList, ["users".toList, "0".toList, "name".toList]⟩

theorem street_starts : Starts cfg "User".toList userT street (fld (ty "Address")) (.named "User".toList false) street.path :=
  starts_plain rfl rfl rfl (by decide) rfl

theorem street_way : Way cfg (.named "User".toList false) street.path [fld (ty "Address"), fld (ty "String")] (ty "String") :=
  follow_way _ _ _ _ rfl

theorem first_starts : Starts cfg "Query".toList queryT first (res (.list (ty "User") false) (.list [ann])) (.list (ty "User") false)
    ["0".toList, "name".toList] :=
  starts_res rfl rfl rfl (by decide) (fun h => nomatch h) rfl rfl

theorem first_way : Way cfg (.list (ty "User") false) ["0".toList, "name".toList] [fld (.named "String".toList true)] (.named "String".toList true) :=
  follow_way _ _ _ _ rfl

/-! ## C104 -/

example : ∃ d, toAdded cfg "User".toList userT street = .ok d :=
  (C104_accepted_partial cfg_sane street_starts rfl street_way).2 (by
    intro fd h
    simp only [List.mem_cons, List.not_mem_nil, or_false] at h
    rcases h with rfl | rfl
    · exact ⟨rfl, .inr ⟨_, get_some.1 rfl⟩⟩
    · exact ⟨rfl, .inl rfl⟩)

example : ∃ d, toAdded cfg "Query".toList queryT first = .ok d :=
  (C104_accepted_partial cfg_sane first_starts rfl first_way).2 (by
    intro fd h
    simp only [List.mem_cons, List.not_mem_nil, or_false] at h
    subst h
    exact ⟨rfl, .inl rfl⟩)

/-- The path may not go on from a field with a resolver. -/
example : ¬ ∃ d, toAdded cfg "User".toList userT ⟨"n".toList, ["posts".toList, "0".toList, "count".toList]⟩ = .ok d := by
  have hs : Starts cfg "User".toList userT ⟨"n".toList, ["posts".toList, "0".toList, "count".toList]⟩ (fld (.list (ty "Posts") false))
      (.named "User".toList false) ["posts".toList, "0".toList, "count".toList] := starts_plain rfl rfl rfl (by decide) rfl
  have hw : Way cfg (.named "User".toList false) ["posts".toList, "0".toList, "count".toList]
      [fld (.list (ty "Posts") false), res (ty "Int") (.int 3)] (ty "Int") := follow_way _ _ _ _ rfl
  intro h
  have := (C104_accepted_partial cfg_sane hs rfl hw).1 h (res (ty "Int") (.int 3)) (by simp)
  cases this.1

example (d : FieldDef) (h : toAdded cfg "Query".toList queryT first = .ok d) : d.ofType = .named "String".toList false :=
  C104_type_partial cfg_sane first_starts first_way (by decide) d h (.inl (fun _ _ h => nomatch h))

example (d : FieldDef) (h : toAdded cfg "User".toList userT street = .ok d) : d.ofType = .named "String".toList false :=
  C104_type_partial cfg_sane street_starts street_way (by decide) d h (.inl (fun _ _ h => nomatch h))

example (d : FieldDef) (h : toAdded cfg "Query".toList queryT first = .ok d) : d.ofType.isNullable = true := C104_nullable _ _ _ _ d h

example : ∃ es, toAdded cfg "User".toList userT ⟨"zip".toList, ["address".toList, "zip".toList]⟩ = .error es :=
  C104_refused_partial (p := ["address".toList]) (g := "zip".toList) cfg_sane
    (starts_plain (a := ⟨"zip".toList, ["address".toList, "zip".toList]⟩) rfl rfl rfl (by decide) rfl)
    (follow_way _ _ _ _ rfl) (get_some.1 rfl) (by decide) (get_none.1 rfl)

/-- A name in the middle of a path need not exist. -/
theorem C104_violated_by_skipped_name : ∃ c object outer a f t p d, Sane c ∧ Starts c object outer a f t p ∧
    toAdded c object outer a = .ok d ∧ ¬ ∃ fs t', Way c t p fs t' := by
  refine ⟨cfg, "Query".toList, queryT, ⟨"x".toList, ["user".toList, "bogus".toList, "name".toList]⟩, _, _, ["bogus".toList, "name".toList], _,
    cfg_sane, starts_res rfl rfl rfl (by decide) (fun h => nomatch h) rfl rfl, rfl, ?_⟩
  rintro ⟨fs, t', h⟩
  cases way_follow h

/-- A path goes on after a scalar: with the fields of the type that has the scalar. -/
theorem C104_violated_by_scalar : ∃ c object outer a f t p d, Sane c ∧ Starts c object outer a f t p ∧
    toAdded c object outer a = .ok d ∧ ¬ ∃ fs t', Way c t p fs t' := by
  refine ⟨cfg, "User".toList, userT, ⟨"x".toList, ["raw".toList, "name".toList]⟩, _, _, _, _,
    cfg_sane, starts_plain rfl rfl rfl (by decide) rfl, rfl, ?_⟩
  rintro ⟨fs, t', h⟩
  cases way_follow h

/-- An index is accepted where there is no list. -/
theorem C104_violated_by_index : ∃ c object outer a f t p d, Sane c ∧ Starts c object outer a f t p ∧
    toAdded c object outer a = .ok d ∧ ¬ ∃ fs t', Way c t p fs t' := by
  refine ⟨cfg, "Query".toList, queryT, ⟨"x".toList, ["user".toList, "0".toList, "name".toList]⟩, _, _, ["0".toList, "name".toList], _,
    cfg_sane, starts_res rfl rfl rfl (by decide) (fun h => nomatch h) rfl rfl, rfl, ?_⟩
  rintro ⟨fs, t', h⟩
  cases way_follow h

/-- After a field with a resolver, the next name is looked for in the type that has the field first. -/
theorem C104_violated_by_name_outside : ∃ c object outer a d, Sane c ∧ At c.types object outer ∧ toAdded c object outer a = .ok d ∧
    ∃ s r f fs t', a.path = s :: r ∧ At outer.fields s f ∧ Way c f.ty r fs t' ∧ d.ofType.name ≠ t'.name :=
  ⟨cfg, "Root".toList, _, ⟨"x".toList, ["user".toList, "name".toList]⟩, _, cfg_sane, get_some.1 rfl, rfl,
    _, _, _, _, .named "String".toList true, rfl, get_some.1 rfl, follow_way _ _ _ _ rfl, by decide⟩

/-- A list of objects at the end of a path becomes a list of lists of objects. -/
theorem C104_violated_by_list_of_objects : ∃ c object outer a f t p d, Sane c ∧ Starts c object outer a f t p ∧
    toAdded c object outer a = .ok d ∧ ∃ fs t', Way c t p fs t' ∧ t' = .list (ty "User") false ∧ d.ofType = .list (.list (ty "User") false) false :=
  ⟨cfg, "User".toList, userT, ⟨"x".toList, ["friends".toList]⟩, _, _, _, _, cfg_sane, starts_plain rfl rfl rfl (by decide) rfl, rfl,
    _, _, follow_way _ _ _ _ rfl, rfl, rfl⟩

/-- With an index anywhere in the path, a list at its end is no longer one. -/
theorem C104_violated_by_list_after_index : ∃ c object outer a f t p d, Sane c ∧ Starts c object outer a f t p ∧
    toAdded c object outer a = .ok d ∧ ∃ fs t', Way c t p fs t' ∧ t' = .list (ty "String") false ∧ d.ofType = ty "String" :=
  ⟨cfg, "Query".toList, queryT, ⟨"x".toList, ["users".toList, "0".toList, "tags".toList]⟩, _, _, ["0".toList, "tags".toList], _, cfg_sane,
    starts_res rfl rfl rfl (by decide) (fun h => nomatch h) rfl rfl, rfl, _, _, follow_way _ _ _ _ rfl, rfl, rfl⟩

/-- A path that ends at an enum is refused. -/
theorem C104_violated_by_enum : ∃ c object outer a f t p, Sane c ∧ Starts c object outer a f t p ∧
    (∃ b, toFieldDef c object outer a.name f = .ok b) ∧ (∃ fs t', Way c t p fs t' ∧ (∀ fd ∈ fs, fd.resolvers = []) ∧ ∃ e, At c.enums t'.name e) ∧
    toAdded c object outer a = .error [.noPath "kind".toList] := by
  refine ⟨cfg, "User".toList, userT, ⟨"x".toList, ["kind".toList]⟩, _, _, _, cfg_sane, starts_plain rfl rfl rfl (by decide) rfl, ⟨_, rfl⟩,
    ⟨_, _, follow_way _ _ _ _ rfl, ?_, _, get_some.1 rfl⟩, rfl⟩
  intro fd h
  simp only [List.mem_cons, List.not_mem_nil, or_false] at h
  subst h
  rfl

/-- Two fields of the same name. -/
theorem C104_violated_by_same_name : ∃ c known object t d d', toFields c known object t = .ok [d, d'] ∧ d.name = d'.name ∧ d.ofType ≠ d'.ofType :=
  ⟨cfg, fun _ => true, "Foo".toList, { obj [("a".toList, fld (.named "String".toList true))] with added := [⟨"a".toList, ["a".toList]⟩] }, _, _, rfl, rfl,
    fun h => nomatch h⟩

/-- The empty path is a panic. -/
theorem C104_violated_by_empty_path (c : Config) (object : Text) (outer : Typ) (name : Text) :
    toAdded c object outer ⟨name, []⟩ = .error [.panic] := rfl

/-! ## C105 -/

/-- A world for the examples. -/
def demoWorld : World where
  json _ := []
  parse _ := none
  key _ _ := none
  run _ _ _ := (0, .ok .null)
  join _ _ := none
  cap := 1

/-- A request of the examples, with a value and what the header says. -/
def demoCtx (v : GVal) (h : Verif.Auth.Header) : Ctx where
  value := some v
  args := none
  valueO := none
  argsO := none
  isQuery := true
  header _ := none
  vars := []
  env _ := none
  auth := ⟨h, fun f _ p => f == p, fun _ => none, fun _ _ => none⟩

/-- The state before the examples. -/
def demoSt : St := ⟨0, [], [], []⟩

/-- A user with an address only. -/
def bob : GVal := .obj [("address".toList, .obj [("street".toList, .str "Elm".toList)])]

theorem single_get {k f : Text} {v w : GVal} (h : Verif.Merge.get f [(k, v)] = some w) : f = k ∧ w = v := by
  simp only [Verif.Merge.get] at h
  split at h
  · next e => cases h; exact ⟨e.symm, rfl⟩
  · cases h

theorem bob_conf (strict : Bool) : Conf cfg strict (.named "User".toList false) bob := by
  refine .obj (td := userT) (get_some.1 rfl) ?_ ?_
  · intro f fd w h1 _ h2
    obtain ⟨rfl, rfl⟩ := single_get h2
    have : fd = fld (ty "Address") := at_unique h1 (get_some.1 rfl)
    subst this
    refine .obj (td := obj [("street".toList, fld (ty "String"))]) (get_some.1 rfl) ?_ ?_
    · intro f fd w h1 _ h2
      obtain ⟨rfl, rfl⟩ := single_get h2
      have : fd = fld (ty "String") := at_unique h1 (get_some.1 rfl)
      subst this
      exact .scalar (.inl (get_none.1 rfl)) (fun _ => ⟨fun _ h => (nomatch h), fun _ h => (nomatch h)⟩)
    · intro _ f w h2
      obtain ⟨rfl, rfl⟩ := single_get h2
      exact ⟨_, get_some.1 rfl⟩
  · intro _ f w h2
    obtain ⟨rfl, rfl⟩ := single_get h2
    exact ⟨_, get_some.1 rfl⟩

theorem address_unresolved : ¬ ((∃ t, At cfg.types (fld (ty "Address")).ty.name t) ∧ Resolved cfg (fld (ty "Address")).ty.name) := by
  rintro ⟨_, h⟩
  have := h "Address".toList (obj [("street".toList, fld (ty "String"))]) "street".toList (fld (ty "String")) .here (get_some.1 rfl) (by simp [obj])
  rcases this with h | ⟨t, h⟩
  · exact h rfl
  · exact at_not_lacks h (get_none.1 rfl)

/-- The street of Bob. -/
example (d : FieldDef) (h : toAdded cfg "User".toList userT street = .ok d) : ∃ r, d.resolver = some r ∧
    ∃ x, eval demoWorld r (demoCtx bob .absent) demoSt = (demoSt, .ok x) ∧ Found bob street.path x ∧ Conf cfg true (ty "String") x := by
  obtain ⟨_, r, h1, h2⟩ := C105_within_partial cfg_sane street_starts street_way d h rfl rfl rfl rfl address_unresolved
  exact ⟨r, h1, h2 demoWorld (demoCtx bob .absent) demoSt true bob rfl rfl (bob_conf true)⟩

/-- The first of the users a resolver gives. -/
example (d b : FieldDef) (r0 : IR) (h : toAdded cfg "Query".toList queryT first = .ok d)
    (hb : toFieldDef cfg "Query".toList queryT first.name (res (.list (ty "User") false) (.list [ann])) = .ok b) (hr : b.resolver = some r0) :
    ∃ r, d.resolver = some r ∧ ∀ st', eval demoWorld r0 (demoCtx .null .absent) demoSt = (st', .ok (.list [bob])) →
      ∃ x, eval demoWorld r (demoCtx .null .absent) demoSt = (st', .ok x) ∧ Found (.list [bob]) ["0".toList, "name".toList] x ∧
        Conf cfg false (.named "String".toList false) x := by
  obtain ⟨r, h1, h2⟩ := C105_resolved_partial cfg_sane first_starts first_way d b h (fun h => nomatch h) hb r0 hr
  refine ⟨r, h1, fun st' he => ?_⟩
  refine (h2 demoWorld (demoCtx .null .absent) demoSt st').2 false _ he (.list ?_)
  intro v hv
  rw [List.mem_singleton.1 hv]
  exact bob_conf false

example : toFieldDef cfg "Query".toList queryT "u".toList (res (ty "User") ann) = .ok ⟨"u".toList, ty "User", some (.dynamic (.value ann))⟩ :=
  (C105_source cfg _ _ _ _ rfl rfl rfl rfl rfl (get_none.1 rfl)).1 _ _ rfl

example : toFieldDef cfg "Query".toList queryT "u".toList { fld (ty "User") with resolvers := [("a".toList, some (.dynamic (.value ann))), ("b".toList, some (.dynamic (.value bob)))] } =
    .ok ⟨"u".toList, ty "User", some (.merge [.dynamic (.value ann), .dynamic (.value bob)])⟩ :=
  (C105_source cfg _ _ _ _ rfl rfl rfl rfl rfl (get_none.1 rfl)).2 [("a".toList, .dynamic (.value ann)), ("b".toList, .dynamic (.value bob))] (by decide) rfl

theorem cfg_names : ∀ n td f fd, At cfg.types n td → At td.fields f fd → parseUsize f = none := by
  intro n td f fd h1 h2
  have k1 := at_mem h1
  have k2 := at_mem h2
  have : ∀ p ∈ cfg.types, ∀ q ∈ p.2.fields, parseUsize q.1 = none := by
    have : (cfg.types.all (fun p => p.2.fields.all (fun q => (parseUsize q.1).isNone))) = true := by decide
    intro p hp q hq
    rw [List.all_eq_true] at this
    have := List.all_eq_true.1 (this p hp) q hq
    cases hx : parseUsize q.1 with
    | none => rfl
    | some _ => rw [hx] at this; cases this
  exact this (n, td) k1 (f, fd) k2

example (d : FieldDef) (h : toAdded cfg "User".toList userT street = .ok d) : (getPath bob street.path).getD .null = .null ∨
    ∃ fs t', Way cfg (.named "User".toList false) street.path fs t' ∧ Conf cfg true t' ((getPath bob street.path).getD .null) :=
  C105_safe_partial cfg_sane cfg_names street_starts d h bob (bob_conf true)

/-- A list that is entered by a name: null, instead of the names of all users. -/
theorem C105_violated_by_list : ∃ c object outer a f t p d r, Sane c ∧ Starts c object outer a f t p ∧ toAdded c object outer a = .ok d ∧
    d.resolver = some r ∧ d.ofType = ty "String" ∧ ∃ w ctx st v, v = .list [ann] ∧ f.resolvers = [("expr".toList, some (.dynamic (.value v)))] ∧
      eval w r ctx st = (st, .ok .null) ∧ ¬ Found v p .null := by
  refine ⟨cfg, "Query".toList, queryT, ⟨"names".toList, ["users".toList, "name".toList]⟩, _, _, ["name".toList], _, _,
    cfg_sane, starts_res rfl rfl rfl (by decide) (fun h => nomatch h) rfl rfl, rfl, rfl, rfl, demoWorld, demoCtx .null .absent, demoSt, _, rfl, rfl, rfl, ?_⟩
  intro h
  have : parseUsize "name".toList = none := by decide
  generalize "name".toList = f at h this
  cases h with
  | item h1 _ _ => rw [this] at h1; cases h1
  | noItem h1 _ => rw [this] at h1; cases h1

/-- An added field that begins with a renamed field gets the name of that field. -/
theorem C105_violated_by_modify : ∃ c object outer a f t p d, Sane c ∧ Starts c object outer a f t p ∧ toAdded c object outer a = .ok d ∧
    a.name = "x".toList ∧ d.name = "house".toList :=
  ⟨cfg, "User".toList, userT, ⟨"x".toList, ["home".toList, "street".toList]⟩, _, _, _, _, cfg_sane, starts_plain rfl rfl rfl (by decide) rfl, rfl, rfl, rfl⟩

/-- An added field that begins with a protected field of the data is null, also for requests with permission. -/
theorem C105_violated_by_protected : ∃ c object outer a f t p d r g, Sane c ∧ Starts c object outer a f t p ∧ toAdded c object outer a = .ok d ∧
    d.resolver = some r ∧ guardOf c object outer f = .ok (some g) ∧ ∃ w ctx st, ctx.value = some ann ∧ Verif.Auth.verify ctx.auth g = .succeed ∧
      getPath ann a.path = some (.int 7) ∧ eval w r ctx st = (st, .ok .null) :=
  ⟨cfg, "User".toList, userT, ⟨"x".toList, ["vault".toList, "code".toList]⟩, _, _, _, _, _, _, cfg_sane, starts_plain rfl rfl rfl (by decide) rfl, rfl, rfl, rfl,
    demoWorld, demoCtx ann (.basic "u".toList "pw".toList), demoSt, rfl, by decide, rfl, rfl⟩

/-! ## C106 -/

example : queryOk cfg = true := (C106_query cfg).2 ⟨"Query".toList, queryT, rfl, get_some.1 rfl, by
  intro n t f fd h1 h2 h3
  have : n = "Query".toList := by
    clear h2 h3
    induction h1 with
    | here => rfl
    | field _ k1 k2 k3 _ ih =>
      subst ih
      have : _ = queryT := at_unique k1 (get_some.1 rfl)
      subst this
      simp only [queryT, obj, List.mem_cons, List.not_mem_nil, or_false, Prod.mk.injEq] at k2
      rcases k2 with ⟨_, rfl⟩ | ⟨_, rfl⟩ <;> cases k3
  subst this
  have : t = queryT := at_unique h2 (get_some.1 rfl)
  subst this
  simp only [queryT, obj, List.mem_cons, List.not_mem_nil, or_false, Prod.mk.injEq] at h3
  rcases h3 with ⟨_, rfl⟩ | ⟨_, rfl⟩ <;> exact .inl (fun h => nomatch h)⟩

/-- Users are not resolved: their names have no resolver. -/
example : ¬ Resolved { cfg with query := some "User".toList } "User".toList := by
  intro h
  have := (C106_query { cfg with query := some "User".toList }).2 ⟨"User".toList, userT, rfl, get_some.1 rfl, h⟩
  revert this
  decide +kernel

example : mutationOk cfg = true := (C106_mutation cfg).2 (fun _ h => nomatch h)

example : ∃ t, At ({ cfg with mutation := some "Query".toList } : Config).types "Query".toList t :=
  ((C106_mutation { cfg with mutation := some "Query".toList }).1 (by decide +kernel) "Query".toList rfl).1

/-- Posts have resolvers only: a field of that type is there for them. -/
example : Resolved cfg "Posts".toList :=
  ((C106_empty_object cfg (fld (ty "Posts")) ⟨"p".toList, ty "Posts", none⟩ (fun h => nomatch h)).1 rfl).2.2

/-- A field of a scalar of the configuration needs no resolver, neither in the query nor elsewhere, and is an empty object
whatever the data have for it. -/
theorem C106_violated_by_scalar : ∃ c object outer name f d r, At c.types object outer ∧ At outer.fields name f ∧ f.resolvers = [] ∧
    toFieldDef c object outer name f = .ok d ∧ d.resolver = some r ∧ ∃ w ctx st v, ctx.value = some ann ∧
      getPath ann [name] = some (.str v) ∧ eval w r ctx st = (st, .ok (.obj [])) :=
  ⟨cfg, "User".toList, userT, "born".toList, _, _, _, get_some.1 rfl, get_some.1 rfl, rfl, rfl, rfl, demoWorld, demoCtx ann .absent, demoSt,
    "2001".toList, rfl, rfl, rfl⟩

/-- A query may consist of such a field. -/
theorem C106_violated_by_scalar_query : ∃ c q t, c.query = some q ∧ At c.types q t ∧ (∃ f, f ∈ t.fields) ∧ (∀ f ∈ t.fields, f.2.resolvers = []) ∧
    (∀ n t, At c.types n t → ∀ f ∈ t.fields, f.2.resolvers = []) ∧ queryOk c = true := by
  refine ⟨{ cfg with types := [("Q".toList, obj [("d".toList, fld (ty "Date"))]), ("Date".toList, obj [])], query := some "Q".toList }, _, _, rfl,
    get_some.1 rfl, ⟨_, List.mem_cons_self⟩, ?_, ?_, by decide +kernel⟩
  · intro f hf
    rw [List.mem_singleton.1 hf]
    rfl
  · intro n t h f hf
    have := at_mem h
    simp only [List.mem_cons, List.not_mem_nil, or_false, Prod.mk.injEq] at this
    rcases this with ⟨_, rfl⟩ | ⟨_, rfl⟩
    · rw [List.mem_singleton.1 hf]
      rfl
    · cases hf

/-- A list of objects with resolvers only is an empty object. -/
theorem C106_violated_by_list : ∃ c object outer name f d r, At c.types object outer ∧ At outer.fields name f ∧ isList f.ty = true ∧
    toFieldDef c object outer name f = .ok d ∧ d.resolver = some r ∧ ∀ w ctx st, eval w r ctx st = (st, .ok (.obj [])) :=
  ⟨cfg, "User".toList, userT, "posts".toList, _, _, _, get_some.1 rfl, get_some.1 rfl, rfl, rfl, rfl, fun _ _ _ => rfl⟩

/-! ## C107 -/

example (d : FieldDef) (h : toAdded cfg "User".toList userT ⟨"x".toList, ["account".toList, "iban".toList]⟩ = .ok d) : ∃ x, d.resolver = some x ∧
    eval demoWorld x (demoCtx ann .absent) demoSt = (demoSt, .error (.auth .missing)) := by
  obtain ⟨x, h1, h2⟩ := C107_first_partial cfg "User".toList userT _ d h "account".toList ["iban".toList] (fld (ty "Account")) rfl (get_some.1 rfl)
    (.provider (.basic "pw".toList)) rfl
  exact ⟨x, h1, h2 _ _ _ _ (by decide)⟩

/-- The type of accounts is protected. -/
example (d : FieldDef) (h : toAdded cfg "User".toList userT ⟨"x".toList, ["account".toList, "iban".toList]⟩ = .ok d) : ∃ x, d.resolver = some x ∧
    eval demoWorld x (demoCtx ann .absent) demoSt = (demoSt, .error (.auth .missing)) := by
  obtain ⟨x, h1, h2⟩ := C107_anonymous_partial cfg "User".toList userT _ d h "account".toList ["iban".toList] (fld (ty "Account")) rfl (get_some.1 rfl)
    (.inr (.inr ⟨_, get_some.1 rfl, fun h => nomatch h⟩))
  exact ⟨x, h1, h2 _ _ _ rfl⟩

/-- An added field that goes through a protected field, or into a protected type, gives what is there to everyone. -/
theorem C107_violated_by_field_below : ∃ c object outer a d r, Sane c ∧ At c.types object outer ∧ toAdded c object outer a = .ok d ∧
    d.resolver = some r ∧ ∃ s s2 p f t2 f2 g, a.path = s :: s2 :: p ∧ At outer.fields s f ∧ At c.types f.ty.name t2 ∧ At t2.fields s2 f2 ∧
      guardOf c f.ty.name t2 f2 = .ok (some g) ∧ ∃ w ctx st, Verif.Auth.verify ctx.auth g = .fail .missing ∧
        eval w r ctx st = (st, .ok (.str "DE1".toList)) :=
  ⟨cfg, "Query".toList, queryT, ⟨"x".toList, ["user".toList, "account".toList, "iban".toList]⟩, _, _, cfg_sane, get_some.1 rfl, rfl, rfl,
    _, _, _, _, userT, fld (ty "Account"), _, rfl, get_some.1 rfl, get_some.1 rfl, get_some.1 rfl, rfl, demoWorld, demoCtx .null .absent, demoSt, by decide, rfl⟩

end Verif.Added
