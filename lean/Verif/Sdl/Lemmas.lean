import Verif.Sdl.Model
import Verif.Sdl.CodecLaws

/-! # Lemmas on reading what was written -/

set_option linter.unusedSimpArgs false

namespace Verif.Sdl

open Verif.Mustache (Text)
open Verif.Merge (get)
open Verif.Exec (Ty)

theorem ofG_toG : ∀ t : Ty, ofG (toG t) = t
  | .named n nn => by simp [toG, ofG]
  | .list t nn => by simp [toG, ofG, ofG_toG t]

theorem ofFields_keys : ∀ l : List (Text × J), (ofFields l).map (·.1) = l.map (·.1)
  | [] => rfl
  | (k, x) :: r => by simp [ofFields, ofField, ofFields_keys r]

theorem fromDir_toDir {α : Type} {dec : List (Text × J) → Option α} {n : Text} {l : List (Text × J)} {a : α}
    (hn : (l.map (·.1)).Nodup) (h : dec l = some a) : fromDir dec (toDir n l) = some a := by
  simp [fromDir, toDir, toFields_ofFields, build_id hn, h]

theorem collect_append {α β : Type} {f : α → Option (Option β)} : ∀ {l r : List α} {x y : List β}, collect f l = some x →
    collect f r = some y → collect f (l ++ r) = some (x ++ y)
  | [], r, x, y, h, h' => by
    simp only [collect, Option.some.injEq] at h
    subst h
    simpa using h'
  | a :: l, r, x, y, h, h' => by
    simp only [List.cons_append, collect] at h ⊢
    cases h1 : f a with
    | none => simp [h1] at h
    | some o =>
      cases h2 : collect f l with
      | none => cases o <;> simp [h1, h2] at h
      | some z =>
        rw [h1, h2] at h
        rw [collect_append h2 h']
        cases o with
        | none => simp only [Option.some.injEq] at h ⊢; rw [← h]
        | some b => simp only [Option.some.injEq] at h ⊢; rw [← h]; rfl

theorem collect_skip {α β : Type} {f : α → Option (Option β)} : ∀ {l : List α}, (∀ x ∈ l, f x = some none) → collect f l = some []
  | [], _ => rfl
  | x :: r, h => by
    simp only [collect, h x List.mem_cons_self, collect_skip (fun y hy => h y (List.mem_cons_of_mem _ hy))]

theorem collect_map {α β γ : Type} {f : α → Option (Option β)} {g : γ → α} {e : γ → β} : ∀ {l : List γ},
    (∀ x ∈ l, f (g x) = some (some (e x))) → collect f (l.map g) = some (l.map e)
  | [], _ => rfl
  | x :: r, h => by
    simp only [List.map_cons, collect, h x List.mem_cons_self, collect_map (fun y hy => h y (List.mem_cons_of_mem _ hy))]

theorem all_map {α β γ : Type} {f : α → Option β} {g : γ → α} {e : γ → β} : ∀ {l : List γ},
    (∀ x ∈ l, f (g x) = some (e x)) → all f (l.map g) = some (l.map e)
  | [], _ => rfl
  | x :: r, h => by
    simp only [List.map_cons, all, h x List.mem_cons_self, all_map (fun y hy => h y (List.mem_cons_of_mem _ hy))]

theorem first_append {α : Type} {n : Text} {dec : List (Text × J) → Option α} : ∀ {l r : List Dir}, (∀ d ∈ l, d.name ≠ n) →
    first n dec (l ++ r) = first n dec r
  | [], _, _ => rfl
  | d :: l, r, h => by
    simp only [List.cons_append, first, if_neg (h d List.mem_cons_self)]
    exact first_append (fun x hx => h x (List.mem_cons_of_mem _ hx))

theorem first_none {α : Type} {n : Text} {dec : List (Text × J) → Option α} {l : List Dir} (h : ∀ d ∈ l, d.name ≠ n) :
    first n dec l = some none := by
  have := first_append (r := []) (dec := dec) h
  simpa [first] using this

theorem first_opt {α : Type} {n : Text} {dec : List (Text × J) → Option α} {o : Option α} {enc : α → List (Text × J)} {r : List Dir}
    (hn : ∀ a, ((enc a).map (·.1)).Nodup) (hd : ∀ a, o = some a → dec (enc a) = some a) (hr : ∀ d ∈ r, d.name ≠ n) :
    first n dec ((o.map (fun a => toDir n (enc a))).toList ++ r) = some o := by
  cases o with
  | none => simpa using first_none hr
  | some a =>
    simp only [Option.map_some, Option.toList_some, List.cons_append, List.nil_append, first]
    rw [if_pos (by rfl), fromDir_toDir (hn a) (hd a rfl)]
    rfl

/-! ## Names -/

/-- The names of the directives of resolvers. -/
def resolverNames : List Text := ["http".toList, "grpc".toList, "graphQL".toList, "call".toList, "js".toList, "expr".toList]

theorem resolver_name {r : Resolver} {d : Dir} (h : r.toDir? = some d) : d.name ∈ resolverNames := by
  cases r <;> simp only [Resolver.toDir?, Option.some.injEq, reduceCtorEq] at h <;> subst h <;> simp [toDir, resolverNames]

theorem resolvers_names {l : List Resolver} {d : Dir} (h : d ∈ l.filterMap Resolver.toDir?) : d.name ∈ resolverNames := by
  obtain ⟨r, _, hr⟩ := List.mem_filterMap.1 h
  exact resolver_name hr

theorem ofDir_other {d : Dir} (h : d.name ∉ resolverNames) : Resolver.ofDir d = some none := by
  simp only [resolverNames, List.mem_cons, List.not_mem_nil, or_false, not_or] at h
  obtain ⟨h1, h2, h3, h4, h5, h6⟩ := h
  unfold Resolver.ofDir
  rw [if_neg h1, if_neg h2, if_neg h3, if_neg h4, if_neg h5, if_neg h6]

/-- A resolver that can be written: it is not one of federation, no optional value is null and maps are maps. -/
def Resolver.Ok : Resolver → Prop
  | .http h => h.body ≠ some .null ∧ h.select ≠ some .null ∧ (∀ x, h.input = some x → x.ok) ∧ ∀ x, h.output = some x → x.ok
  | .grpc g => g.body ≠ some .null ∧ g.select ≠ some .null
  | .graphql _ => True
  | .call c => ∀ s ∈ c.steps, (s.args.map (·.1)).Nodup
  | .js _ => True
  | .expr _ => True
  | .federation => False

theorem ofDir_toDir {r : Resolver} (h : r.Ok) : ∃ d, r.toDir? = some d ∧ Resolver.ofDir d = some (some r) := by
  cases r with
  | http a =>
    refine ⟨_, rfl, ?_⟩
    have := fromDir_toDir (n := "http".toList) (keep_nodup a.keys) (a.law h.1 h.2.1 h.2.2.1 h.2.2.2)
    unfold Resolver.ofDir
    rw [if_pos (by rfl)]
    erw [this]; rfl
  | grpc a =>
    refine ⟨_, rfl, ?_⟩
    have := fromDir_toDir (n := "grpc".toList) (keep_nodup a.keys) (a.law h.1 h.2)
    unfold Resolver.ofDir
    rw [if_neg (by simp [toDir]), if_pos (by rfl)]
    erw [this]; rfl
  | graphql a =>
    refine ⟨_, rfl, ?_⟩
    have := fromDir_toDir (n := "graphQL".toList) (keep_nodup a.keys) a.law
    unfold Resolver.ofDir
    rw [if_neg (by simp [toDir]), if_neg (by simp [toDir]), if_pos (by rfl)]
    erw [this]; rfl
  | call a =>
    refine ⟨_, rfl, ?_⟩
    have := fromDir_toDir (n := "call".toList) (keep_nodup a.keys) (a.law h)
    unfold Resolver.ofDir
    rw [if_neg (by simp [toDir]), if_neg (by simp [toDir]), if_neg (by simp [toDir]), if_pos (by rfl)]
    erw [this]; rfl
  | js a =>
    refine ⟨_, rfl, ?_⟩
    have := fromDir_toDir (n := "js".toList) (keep_nodup a.keys) a.law
    unfold Resolver.ofDir
    rw [if_neg (by simp [toDir]), if_neg (by simp [toDir]), if_neg (by simp [toDir]), if_neg (by simp [toDir]), if_pos (by rfl)]
    erw [this]; rfl
  | expr a =>
    refine ⟨_, rfl, ?_⟩
    have := fromDir_toDir (n := "expr".toList) (keep_nodup a.keys) a.law
    unfold Resolver.ofDir
    rw [if_neg (by simp [toDir]), if_neg (by simp [toDir]), if_neg (by simp [toDir]), if_neg (by simp [toDir]), if_neg (by simp [toDir]),
      if_pos (by rfl)]
    erw [this]; rfl
  | federation => exact h.elim

theorem collect_resolvers : ∀ {l : List Resolver}, (∀ r ∈ l, r.Ok) → collect Resolver.ofDir (l.filterMap Resolver.toDir?) = some l
  | [], _ => rfl
  | r :: l, h => by
    obtain ⟨d, h1, h2⟩ := ofDir_toDir (h r List.mem_cons_self)
    simp only [List.filterMap_cons, h1, collect, h2, collect_resolvers (fun x hx => h x (List.mem_cons_of_mem _ hx))]

/-- The names of the directives of Apollo Federation. -/
def apollo : List Text := ["key".toList, "shareable".toList, "external".toList, "requires".toList, "provides".toList,
  "override".toList, "inaccessible".toList, "tag".toList, "extends".toList, "link".toList, "interfaceObject".toList,
  "composeDirective".toList, "authenticated".toList, "requiresScope".toList, "policy".toList, "context".toList,
  "fromContext".toList, "cost".toList, "listSize".toList]

theorem apollo_known {n : Text} (h : n ∈ apollo) : n ∈ federation := (by decide : ∀ n ∈ apollo, n ∈ federation) n h

/-- A further directive that can be written: one of Apollo Federation with distinct arguments. -/
def Directive.Ok (d : Directive) : Prop := d.name ∈ apollo ∧ (d.args.map (·.1)).Nodup

theorem fed_name {l : List Directive} (h : ∀ d ∈ l, d.Ok) {d : Dir} (hd : d ∈ l.map toConst) : d.name ∈ federation := by
  obtain ⟨x, hx, rfl⟩ := List.mem_map.1 hd
  exact apollo_known (h x hx).1

theorem fed_other {n : Text} (h : n ∈ federation) : n ∉ resolverNames ∧ n ≠ "modify".toList ∧ n ≠ "omit".toList ∧ n ≠ "cache".toList ∧
    n ≠ "protected".toList ∧ n ≠ "discriminate".toList ∧ n ≠ "addField".toList :=
  (by decide : ∀ n ∈ federation, n ∉ resolverNames ∧ n ≠ "modify".toList ∧ n ≠ "omit".toList ∧ n ≠ "cache".toList ∧
    n ≠ "protected".toList ∧ n ≠ "discriminate".toList ∧ n ≠ "addField".toList) n h

theorem resolver_other {n : Text} (h : n ∈ resolverNames) : n ∉ federation ∧ n ≠ "modify".toList ∧ n ≠ "omit".toList ∧ n ≠ "cache".toList ∧
    n ≠ "protected".toList ∧ n ≠ "discriminate".toList ∧ n ≠ "addField".toList :=
  (by decide : ∀ n ∈ resolverNames, n ∉ federation ∧ n ≠ "modify".toList ∧ n ≠ "omit".toList ∧ n ≠ "cache".toList ∧
    n ≠ "protected".toList ∧ n ≠ "discriminate".toList ∧ n ≠ "addField".toList) n h

theorem fedDirs_skip {l : List Dir} (h : ∀ d ∈ l, d.name ∉ federation) : fedDirs l = some [] := by
  refine collect_skip (fun d hd => ?_)
  rw [if_neg (by simpa using h d hd)]

theorem fedDirs_map {l : List Directive} (h : ∀ d ∈ l, d.Ok) : fedDirs (l.map toConst) = some l := by
  have := collect_map (f := fun d : Dir => if federation.contains d.name then some (some (ofConst d)) else some none)
    (g := toConst) (e := id) (l := l) (by
      intro d hd
      have h1 := h d hd
      rw [if_pos (by simpa [toConst] using apollo_known h1.1)]
      simp [ofConst, toConst, toFields_ofFields, build_id h1.2])
  simpa [fedDirs] using this

theorem opt_name {α : Type} {o : Option α} {n : Text} {enc : α → List (Text × J)} {d : Dir}
    (h : d ∈ (o.map (fun a => toDir n (enc a))).toList) : d.name = n := by
  cases o with
  | none => simp at h
  | some a =>
    simp only [Option.map_some, Option.toList_some, List.mem_cons, List.not_mem_nil, or_false] at h
    rw [h]; rfl

/-! ## Fields -/

theorem fieldDirs_name {f : Field} (hf : ∀ d ∈ f.dirs, d.Ok) {d : Dir} (h : d ∈ fieldDirs f) : d.name ∈ resolverNames ∨
    d.name = "modify".toList ∨ d.name = "omit".toList ∨ d.name = "cache".toList ∨ d.name = "protected".toList ∨ d.name ∈ federation := by
  simp only [fieldDirs, List.mem_append] at h
  rcases h with ((((h | h) | h) | h) | h) | h
  · exact .inl (resolvers_names h)
  · exact .inr (.inl (opt_name h))
  · exact .inr (.inr (.inl (opt_name h)))
  · exact .inr (.inr (.inr (.inl (opt_name h))))
  · exact .inr (.inr (.inr (.inr (.inl (opt_name h)))))
  · exact .inr (.inr (.inr (.inr (.inr (fed_name hf h)))))

theorem read_field {f : Field} (hr : ∀ r ∈ f.resolvers, r.Ok) (hd : ∀ d ∈ f.dirs, d.Ok) (hc : f.disc = none) (ty : GTy)
    (doc : Option Text) (args : List (Text × Arg)) (dflt : Option V) :
    commonField ty doc (fieldDirs f) args dflt =
      some ⟨ofG ty, args, doc, f.modify, f.omitted, f.cache, dflt.map toJson, f.prot, f.disc, f.resolvers, f.dirs⟩ := by
  have hfed := fun d h => fed_other (fed_name hd (d := d) h)
  have hres := fun d h => resolver_other (resolvers_names (l := f.resolvers) (d := d) h)
  have e1 : collect Resolver.ofDir (fieldDirs f) = some f.resolvers := by
    have h1 := collect_resolvers hr
    have h2 : collect Resolver.ofDir (f.modify.map (fun d => toDir "modify".toList d.enc)).toList = some [] :=
      collect_skip (fun d h => ofDir_other (by rw [opt_name h]; decide))
    have h3 : collect Resolver.ofDir (f.omitted.map (fun d => toDir "omit".toList d.enc)).toList = some [] :=
      collect_skip (fun d h => ofDir_other (by rw [opt_name h]; decide))
    have h4 : collect Resolver.ofDir (f.cache.map (fun d => toDir "cache".toList d.enc)).toList = some [] :=
      collect_skip (fun d h => ofDir_other (by rw [opt_name h]; decide))
    have h5 : collect Resolver.ofDir (f.prot.map (fun d => toDir "protected".toList d.enc)).toList = some [] :=
      collect_skip (fun d h => ofDir_other (by rw [opt_name h]; decide))
    have h6 : collect Resolver.ofDir (f.dirs.map toConst) = some [] := collect_skip (fun d h => ofDir_other (hfed d h).1)
    simpa [fieldDirs] using collect_append (collect_append (collect_append (collect_append (collect_append h1 h2) h3) h4) h5) h6
  have e2 : first "modify".toList Modify.dec (fieldDirs f) = some f.modify := by
    simp only [fieldDirs, List.append_assoc]
    rw [first_append (fun d h => (hres d h).2.1)]
    refine first_opt (fun a => keep_nodup a.keys) (fun a _ => a.law) ?_
    intro d h
    simp only [List.mem_append] at h
    rcases h with h | h | h | h
    · rw [opt_name h]; decide
    · rw [opt_name h]; decide
    · rw [opt_name h]; decide
    · exact (hfed d h).2.1
  have e3 : first "omit".toList Omit.dec (fieldDirs f) = some f.omitted := by
    simp only [fieldDirs, List.append_assoc]
    rw [first_append (fun d h => (hres d h).2.2.1), first_append (fun d h => by rw [opt_name h]; decide)]
    refine first_opt (fun a => keep_nodup a.keys) (fun a _ => a.law) ?_
    intro d h
    simp only [List.mem_append] at h
    rcases h with h | h | h
    · rw [opt_name h]; decide
    · rw [opt_name h]; decide
    · exact (hfed d h).2.2.1
  have e4 : first "cache".toList Cache.dec (fieldDirs f) = some f.cache := by
    simp only [fieldDirs, List.append_assoc]
    rw [first_append (fun d h => (hres d h).2.2.2.1), first_append (fun d h => by rw [opt_name h]; decide),
      first_append (fun d h => by rw [opt_name h]; decide)]
    refine first_opt (fun a => keep_nodup a.keys) (fun a _ => a.law) ?_
    intro d h
    simp only [List.mem_append] at h
    rcases h with h | h
    · rw [opt_name h]; decide
    · exact (hfed d h).2.2.2.1
  have e5 : first "protected".toList Protected.dec (fieldDirs f) = some f.prot := by
    simp only [fieldDirs, List.append_assoc]
    rw [first_append (fun d h => (hres d h).2.2.2.2.1), first_append (fun d h => by rw [opt_name h]; decide),
      first_append (fun d h => by rw [opt_name h]; decide), first_append (fun d h => by rw [opt_name h]; decide)]
    exact first_opt (fun a => keep_nodup a.keys) (fun a _ => a.law) (fun d h => (hfed d h).2.2.2.2.1)
  have e6 : first "discriminate".toList Discriminate.dec (fieldDirs f) = some none := by
    refine first_none (fun d h => ?_)
    rcases fieldDirs_name hd h with h | h | h | h | h | h
    · exact (resolver_other h).2.2.2.2.2.1
    · rw [h]; decide
    · rw [h]; decide
    · rw [h]; decide
    · rw [h]; decide
    · exact (fed_other h).2.2.2.2.2.1
  have e7 : fedDirs (fieldDirs f) = some f.dirs := by
    have h1 : fedDirs (f.resolvers.filterMap Resolver.toDir?) = some [] := fedDirs_skip (fun d h => (hres d h).1)
    have h2 : fedDirs (f.modify.map (fun d => toDir "modify".toList d.enc)).toList = some [] :=
      fedDirs_skip (fun d h => by rw [opt_name h]; decide)
    have h3 : fedDirs (f.omitted.map (fun d => toDir "omit".toList d.enc)).toList = some [] :=
      fedDirs_skip (fun d h => by rw [opt_name h]; decide)
    have h4 : fedDirs (f.cache.map (fun d => toDir "cache".toList d.enc)).toList = some [] :=
      fedDirs_skip (fun d h => by rw [opt_name h]; decide)
    have h5 : fedDirs (f.prot.map (fun d => toDir "protected".toList d.enc)).toList = some [] :=
      fedDirs_skip (fun d h => by rw [opt_name h]; decide)
    exact collect_append (collect_append (collect_append (collect_append (collect_append h1 h2) h3) h4) h5) (fedDirs_map hd)
  simp only [commonField, e1, e2, e3, e4, e5, e6, e7, Option.bind_eq_bind, Option.bind_some, hc]
  rfl

/-- A field that can be written: resolvers and directives can, and it has no `@discriminate`. -/
structure Field.Ok (f : Field) : Prop where
  resolvers : ∀ r ∈ f.resolvers, r.Ok
  dirs : ∀ d ∈ f.dirs, d.Ok
  disc : f.disc = none

/-- Arguments that can be written: distinct names and no `@modify`. -/
def ArgsOk (l : List (Text × Arg)) : Prop := (l.map (·.1)).Nodup ∧ ∀ a ∈ l, a.2.modify = none

theorem read_args {l : List (Text × Arg)} (h : ArgsOk l) : ofArgs (l.map argDef) = l := by
  have e : (l.map argDef).map (fun a => (a.name, ofArg a)) = l := by
    rw [List.map_map]
    conv => rhs; rw [← List.map_id l]
    refine List.map_congr_left (fun p hp => ?_)
    have hm := h.2 p hp
    obtain ⟨n, ty, doc, mo, df⟩ := p
    simp only at hm
    subst hm
    simp only [Function.comp, argDef, ofArg, ofG_toG, first, Option.join, id, Option.map_map]
    cases df <;> simp [toJson_ofJson, Option.join]
  simp only [ofArgs, e]
  exact build_id h.1

theorem read_obj {p : Text × Field} (h : p.2.Ok) (ha : ArgsOk p.2.args) (hd : p.2.dflt = none) : ofField? (objField p) = some p := by
  obtain ⟨n, f⟩ := p
  simp only [ofField?, objField, read_args ha, read_field h.resolvers h.dirs h.disc, ofG_toG]
  cases f
  simp_all

theorem read_iface {p : Text × Field} (h : p.2.Ok) (ha : p.2.args = []) (hd : p.2.dflt = none) : ofField? (ifaceField p) = some p := by
  obtain ⟨n, f⟩ := p
  simp only [ofField?, ifaceField, read_field h.resolvers h.dirs h.disc, ofG_toG]
  cases f
  simp_all [ofArgs, build]

theorem read_input {p : Text × Field} (h : p.2.Ok) (ha : p.2.args = []) : ofInput? (inputField p) = some p := by
  obtain ⟨n, f⟩ := p
  simp only [ofInput?, inputField, read_field h.resolvers h.dirs h.disc, ofG_toG]
  cases f with
  | mk ty args doc mo om ca df pr di re ds =>
    simp only at ha
    subst ha
    cases df <;> simp [toJson_ofJson]

/-! ## Types -/

/-- A type that can be written: as an interface, as an input type, as a scalar or as an object. -/
def CType.Ok (iface input : Prop) (t : CType) : Prop :=
  (t.fields.map (·.1)).Nodup ∧ (∀ p ∈ t.fields, p.2.Ok) ∧
  ((iface ∨ (¬ input ∧ t.fields ≠ [])) → t.impl.Nodup ∧ (∀ r ∈ t.resolvers, r.Ok) ∧ (∀ d ∈ t.dirs, d.Ok) ∧ ∀ p ∈ t.fields, p.2.dflt = none) ∧
  (iface → ∀ p ∈ t.fields, p.2.args = []) ∧
  (¬ iface → ¬ input → ∀ p ∈ t.fields, ArgsOk p.2.args) ∧
  (¬ iface → input → t.added = [] ∧ t.impl = [] ∧ t.cache = none ∧ t.resolvers = [] ∧ t.dirs = [] ∧ ∀ p ∈ t.fields, p.2.args = []) ∧
  (¬ iface → ¬ input → t.fields = [] → t.added = [] ∧ t.impl = [] ∧ t.cache = none ∧ t.resolvers = [] ∧ t.dirs = [] ∧ t.doc = none ∧ t.prot = none)

theorem added_name {l : List AddField} {d : Dir} (h : d ∈ l.map (fun d => toDir "addField".toList d.enc)) : d.name = "addField".toList := by
  obtain ⟨x, _, rfl⟩ := List.mem_map.1 h
  rfl

theorem filter_none {n : Text} {l : List Dir} (h : ∀ d ∈ l, d.name ≠ n) : l.filter (fun d => d.name = n) = [] := by
  rw [List.filter_eq_nil_iff]
  intro d hd
  simpa using h d hd

theorem filter_all {n : Text} {l : List Dir} (h : ∀ d ∈ l, d.name = n) : l.filter (fun d => d.name = n) = l := by
  rw [List.filter_eq_self]
  intro d hd
  simpa using h d hd

theorem read_added {t : CType} (hd : ∀ d ∈ t.dirs, d.Ok) : addFields (typeDirs t) = some t.added := by
  have hfed := fun d h => fed_other (fed_name hd (d := d) h)
  have hres := fun d h => resolver_other (resolvers_names (l := t.resolvers) (d := d) h)
  have hf : (typeDirs t).filter (fun d => d.name = "addField".toList) = t.added.map (fun d => toDir "addField".toList d.enc) := by
    simp only [typeDirs, List.filter_append]
    rw [filter_none (l := Option.toList (t.cache.map _)) (fun d h => by rw [opt_name h]; decide),
      filter_none (l := Option.toList (t.prot.map _)) (fun d h => by rw [opt_name h]; decide),
      filter_none (l := t.resolvers.filterMap _) (fun d h => (hres d h).2.2.2.2.2.2),
      filter_none (l := t.dirs.map _) (fun d h => (hfed d h).2.2.2.2.2.2), filter_all (fun d h => added_name h)]
    simp only [List.append_nil]
  have := all_map (f := fromDir AddField.dec) (g := fun d => toDir "addField".toList (AddField.enc d)) (e := id) (l := t.added)
    (fun x _ => fromDir_toDir (keep_nodup x.keys) x.law)
  rw [addFields, hf, this, List.map_id]

theorem read_dirs {t : CType} (hr : ∀ r ∈ t.resolvers, r.Ok) (hd : ∀ d ∈ t.dirs, d.Ok) :
    collect Resolver.ofDir (typeDirs t) = some t.resolvers ∧ first "cache".toList Cache.dec (typeDirs t) = some t.cache ∧
    first "protected".toList Protected.dec (typeDirs t) = some t.prot ∧ addFields (typeDirs t) = some t.added ∧
    fedDirs (typeDirs t) = some t.dirs := by
  have hfed := fun d h => fed_other (fed_name hd (d := d) h)
  have hres := fun d h => resolver_other (resolvers_names (l := t.resolvers) (d := d) h)
  refine ⟨?_, ?_, ?_, ?_, ?_⟩
  · have h1 : collect Resolver.ofDir (t.added.map (fun d => toDir "addField".toList d.enc)) = some [] :=
      collect_skip (fun d h => ofDir_other (by rw [added_name h]; decide))
    have h2 : collect Resolver.ofDir (t.cache.map (fun d => toDir "cache".toList d.enc)).toList = some [] :=
      collect_skip (fun d h => ofDir_other (by rw [opt_name h]; decide))
    have h3 : collect Resolver.ofDir (t.prot.map (fun d => toDir "protected".toList d.enc)).toList = some [] :=
      collect_skip (fun d h => ofDir_other (by rw [opt_name h]; decide))
    have h4 := collect_resolvers hr
    have h5 : collect Resolver.ofDir (t.dirs.map toConst) = some [] := collect_skip (fun d h => ofDir_other (hfed d h).1)
    have := collect_append (collect_append (collect_append (collect_append h1 h2) h3) h4) h5
    simp only [List.append_nil, List.nil_append] at this
    exact this
  · simp only [typeDirs, List.append_assoc]
    rw [first_append (fun d h => by rw [added_name h]; decide)]
    refine first_opt (fun a => keep_nodup a.keys) (fun a _ => a.law) ?_
    intro d h
    simp only [List.mem_append] at h
    rcases h with h | h | h
    · rw [opt_name h]; decide
    · exact (hres d h).2.2.2.1
    · exact (hfed d h).2.2.2.1
  · simp only [typeDirs, List.append_assoc]
    rw [first_append (fun d h => by rw [added_name h]; decide), first_append (fun d h => by rw [opt_name h]; decide)]
    refine first_opt (fun a => keep_nodup a.keys) (fun a _ => a.law) ?_
    intro d h
    simp only [List.mem_append] at h
    rcases h with h | h
    · exact (hres d h).2.2.2.2.1
    · exact (hfed d h).2.2.2.2.1
  · exact read_added hd
  · have h1 : fedDirs (t.added.map (fun d => toDir "addField".toList d.enc)) = some [] :=
      fedDirs_skip (fun d h => by rw [added_name h]; decide)
    have h2 : fedDirs (t.cache.map (fun d => toDir "cache".toList d.enc)).toList = some [] :=
      fedDirs_skip (fun d h => by rw [opt_name h]; decide)
    have h3 : fedDirs (t.prot.map (fun d => toDir "protected".toList d.enc)).toList = some [] :=
      fedDirs_skip (fun d h => by rw [opt_name h]; decide)
    have h4 : fedDirs (t.resolvers.filterMap Resolver.toDir?) = some [] := fedDirs_skip (fun d h => (hres d h).1)
    exact collect_append (collect_append (collect_append (collect_append h1 h2) h3) h4) (fedDirs_map hd)

theorem read_object {t : CType} {fs : List FieldDef} (hk : (t.fields.map (·.1)).Nodup) (hi : t.impl.Nodup)
    (hr : ∀ r ∈ t.resolvers, r.Ok) (hd : ∀ d ∈ t.dirs, d.Ok) (hf : all ofField? fs = some t.fields) :
    objectType t.impl fs t.doc (typeDirs t) = some t := by
  obtain ⟨h1, h2, h3, h4, h5⟩ := read_dirs hr hd
  simp only [objectType, h1, h2, h3, h4, h5, hf, build_id hk, setOf_id hi, Option.bind_eq_bind, Option.bind_some]
  rfl

theorem read_type {iface input : Bool} {p : Text × CType} (h : p.2.Ok (iface = true) (input = true)) :
    ofType ⟨false, p.2.doc, p.1, typeDirs p.2, kindOf iface input p.2⟩ = some (some p) := by
  obtain ⟨n, t⟩ := p
  obtain ⟨hk, hf, ho, hi, ha, hin, hs⟩ := h
  simp only at hk hf ho hi ha hin hs
  cases iface with
  | true =>
    obtain ⟨h1, h2, h3, h4⟩ := ho (.inl rfl)
    have := all_map (f := ofField?) (g := ifaceField) (e := id) (l := t.fields) (fun x hx => read_iface (hf x hx) (hi rfl x hx) (h4 x hx))
    rw [List.map_id] at this
    simp only [kindOf, ofType, if_pos, read_object hk h1 h2 h3 this, Option.map_some]
  | false =>
    cases input with
    | true =>
      obtain ⟨h1, h2, h3, h4, h5, h6⟩ := hin (by simp) rfl
      have := all_map (f := ofInput?) (g := inputField) (e := id) (l := t.fields) (fun x hx => read_input (hf x hx) (h6 x hx))
      rw [List.map_id] at this
      obtain ⟨_, _, h8, _, _⟩ := read_dirs (t := t) (by rw [h4]; simp) (by rw [h5]; simp)
      simp only [kindOf, ofType, if_pos, Bool.false_eq_true, if_false, inputType, this, h8, build_id hk, Option.bind_eq_bind,
        Option.bind_some, Option.map_some]
      cases t
      simp only at h1 h2 h3 h4 h5
      subst h1 h2 h3 h4 h5
      rfl
    | false =>
      cases he : t.fields with
      | nil =>
        obtain ⟨h1, h2, h3, h4, h5, h6, h7⟩ := hs (by simp) (by simp) he
        cases t
        simp only at h1 h2 h3 h4 h5 h6 h7 he
        subst h1 h2 h3 h4 h5 h6 h7 he
        rfl
      | cons x r =>
        have hne : t.fields ≠ [] := by rw [he]; simp
        obtain ⟨h1, h2, h3, h4⟩ := ho (.inr ⟨by simp, hne⟩)
        have := all_map (f := ofField?) (g := objField) (e := id) (l := t.fields)
          (fun x hx => read_obj (hf x hx) (ha (by simp) (by simp) x hx) (h4 x hx))
        rw [List.map_id] at this
        have hem : t.fields.isEmpty = false := by rw [he]; rfl
        simp only [kindOf, ofType, Bool.false_eq_true, if_false, hem, read_object hk h1 h2 h3 this, Option.map_some]

/-! ## Links -/

/-- The fields of a link in the order in which they are written. -/
def linkFields (a : Link) : List (Text × Option J) :=
  a.fields.filter (fun x => x.1 ≠ "type".toList) ++ [("type".toList, some (.str a.typeOf.text))]

theorem toFields_append : ∀ l r : List (Text × V), toFields (l ++ r) = toFields l ++ toFields r
  | [], _ => rfl
  | p :: l, r => by simp only [List.cons_append, toFields, toFields_append l r]

theorem toFields_filter (f : Text → Bool) : ∀ l : List (Text × J),
    toFields ((ofFields l).filter (fun a => f a.1)) = l.filter (fun a => f a.1)
  | [] => rfl
  | (k, j) :: r => by
    simp only [ofFields, ofField, List.filter_cons]
    cases h : f k with
    | true => simp only [if_pos, toFields, toField, toJson_ofJson, toFields_filter f r]
    | false => simp only [Bool.false_eq_true, if_false, toFields_filter f r]

theorem keep_filter (f : Text → Bool) : ∀ l : List (Text × Option J), (keep l).filter (fun a => f a.1) = keep (l.filter (fun a => f a.1))
  | [] => rfl
  | (k, o) :: r => by
    have ih := keep_filter f r
    unfold keep at ih ⊢
    cases o with
    | none =>
      simp only [List.filterMap_cons, Option.map_none, ih, List.filter_cons]
      cases f k <;> simp
    | some j =>
      simp only [List.filterMap_cons, Option.map_some, List.filter_cons, ih]
      cases f k <;> simp

theorem link_written (a : Link) : toFields (linkDir a).args = keep (linkFields a) := by
  have h1 := toFields_filter (fun k => decide (k ≠ "type".toList)) a.enc
  have h2 := keep_filter (fun k => decide (k ≠ "type".toList)) a.fields
  simp only [linkDir, linkFields, toFields_append]
  rw [h1, Link.enc, h2]
  simp only [keep, List.filterMap_append]
  rfl

theorem read_link {a : Link} (hb : a.info ≠ some .null) : fromDir Link.dec (linkDir a) = some a := by
  have hn : ((linkFields a).map (·.1)).Nodup := by simp [linkFields, Link.fields, List.filter_cons]
  rw [fromDir, link_written, build_id (keep_nodup hn)]
  have e0 : known (keep (linkFields a)) ["id".toList, "src".toList, "type".toList, "headers".toList, "meta".toList, "proto_paths".toList] = some () :=
    known_keep (by simp [linkFields, Link.fields, List.filter_cons])
  have e1 : maybe (keep (linkFields a)) "id".toList (dOpt dText) none = some a.ident := maybe_skip hn (by rfl) (fun h => by simp_all) (fun _ => opt_law (fun x h => ⟨by simp, rfl⟩))
  have e2 : maybe (keep (linkFields a)) "src".toList dText [] = some a.src := maybe_skip hn (by rfl) (fun h => by simp_all) (fun _ => rfl)
  have e3 : maybe (keep (linkFields a)) "type".toList LinkType.ofJ .config = some a.typeOf := maybe_some hn (by rfl) (linkType_law _)
  have e4 : maybe (keep (linkFields a)) "headers".toList (dOpt (dList (fun j => (fieldsOf j).bind KeyValue.dec))) none = some a.headers := maybe_skip hn (by rfl) (fun h => by simp_all) (fun _ => opt_law (fun x h => ⟨by simp [eList], list_law (fun y _ => KeyValue.law' y)⟩))
  have e5 : maybe (keep (linkFields a)) "meta".toList (dOpt some) none = some a.info := maybe_skip hn (by rfl) (fun h => by simp_all) (fun _ => opt_law (fun x h => ⟨fun he => hb (by simpa [he] using h), rfl⟩))
  have e6 : maybe (keep (linkFields a)) "proto_paths".toList (dOpt (dList dText)) none = some a.protoPaths := maybe_skip hn (by rfl) (fun h => by simp_all) (fun _ => opt_law (fun x h => ⟨by simp [eTexts, eList], texts_law x⟩))
  simp only [Link.dec, e0, e1, e2, e3, e4, e5, e6, Option.bind_eq_bind, Option.bind_some]
  rfl

/-! ## Enums -/

theorem read_val {v : Variant} (h : ∀ a, v.alias = some a → a.options.Nodup) : ofVal (valDef v) = some v := by
  have := first_opt (n := "alias".toList) (dec := Alias.dec) (o := v.alias) (enc := Alias.enc) (r := []) (fun a => keep_nodup a.keys)
    (fun a ha => a.law (h a ha)) (by simp)
  simp only [List.append_nil] at this
  simp only [ofVal, valDef, this, Option.map_some]

/-- An enum that can be written: distinct values, distinct alternatives. -/
def Enum.Ok (e : Enum) : Prop := e.variants.Nodup ∧ ∀ v ∈ e.variants, ∀ a, v.alias = some a → a.options.Nodup

/-- A union that can be written: distinct members and no documentation. -/
def Union.Ok (u : Union) : Prop := u.types.Nodup ∧ u.doc = none

/-! ## Configurations -/

/-- A configuration that can be written.  `inputs` tells the types that are used as inputs. -/
structure Config.Ok (inputs : Text → Bool) (c : Config) : Prop where
  jit : c.server.enableJit = none
  headers : ∀ x, c.server.headers = some x → x.Ok
  allowed : ∀ x, c.upstream.allowedHeaders = some x → x.Nodup
  batch : ∀ x, c.upstream.batch = some x → x.headers.Nodup
  typeKeys : (c.types.map (·.1)).Nodup
  unionKeys : (c.unions.map (·.1)).Nodup
  enumKeys : (c.enums.map (·.1)).Nodup
  types : ∀ p ∈ c.types, p.2.Ok (∃ t ∈ c.types, p.1 ∈ t.2.impl) (inputs p.1 = true)
  unions : ∀ p ∈ c.unions, p.2.Ok
  enums : ∀ p ∈ c.enums, p.2.Ok
  links : ∀ l ∈ c.links, l.info ≠ some .null
  telemetry : c.telemetry = Telemetry.dflt

theorem isIface_iff (c : Config) (n : Text) : isIface c n = true ↔ ∃ t ∈ c.types, n ∈ t.2.impl := by
  simp [isIface]

/-- The definition of a type. -/
def typeDef' (c : Config) (inputs : Text → Bool) (p : Text × CType) : TypeDef :=
  ⟨false, p.2.doc, p.1, typeDirs p.2, kindOf (isIface c p.1) (inputs p.1) p.2⟩

/-- The definition of a union. -/
def unionDef' (p : Text × Union) : TypeDef := ⟨false, none, p.1, [], .union p.2.types⟩

/-- The definition of an enum. -/
def enumDef' (p : Text × Enum) : TypeDef := ⟨false, p.2.doc, p.1, [], .enum (p.2.variants.map valDef)⟩

theorem typeDefs_map {α : Type} {f : α → TypeDef} : ∀ l : List α, typeDefs (l.map (fun x => Def.type (f x))) = l.map f
  | [] => rfl
  | x :: r => by
    have := typeDefs_map (f := f) r
    simp only [typeDefs, List.map_cons, List.filterMap_cons] at this ⊢
    rw [this]

theorem typeDefs_toDoc (inputs : Text → Bool) (c : Config) : typeDefs (toDoc inputs c) =
    c.types.map (typeDef' c inputs) ++ c.unions.map unionDef' ++ c.enums.map enumDef' := by
  have h1 := typeDefs_map (f := typeDef' c inputs) c.types
  have h2 := typeDefs_map (f := unionDef') c.unions
  have h3 := typeDefs_map (f := enumDef') c.enums
  simp only [typeDefs, toDoc, schemaDef, List.filterMap_cons, List.filterMap_append] at h1 h2 h3 ⊢
  rw [← h1, ← h2, ← h3]
  rfl

theorem lastDir_skip {α : Type} {n : Text} {dec : List (Text × J) → Option α} {dflt : α} : ∀ {l r : List Dir}, (∀ d ∈ r, d.name ≠ n) →
    lastDir n dec dflt (l ++ r) = lastDir n dec dflt l := by
  intro l r h
  simp only [lastDir, List.foldl_append]
  induction r with
  | nil => rfl
  | cons d r ih =>
    simp only [List.foldl_cons, if_neg (h d List.mem_cons_self)]
    exact ih (fun x hx => h x (List.mem_cons_of_mem _ hx))

theorem kind_type {iface input : Bool} {t : CType} : (∃ i fs, kindOf iface input t = .object i fs) ∨ (∃ i fs, kindOf iface input t = .iface i fs) ∨
    (∃ fs, kindOf iface input t = .input fs) ∨ kindOf iface input t = .scalar := by
  unfold kindOf
  split
  · exact .inr (.inl ⟨_, _, rfl⟩)
  · split
    · exact .inr (.inr (.inl ⟨_, rfl⟩))
    · split
      · exact .inr (.inr (.inr rfl))
      · exact .inl ⟨_, _, rfl⟩

theorem read_all {inputs : Text → Bool} {c : Config} (h : c.Ok inputs) :
    collect ofType (typeDefs (toDoc inputs c)) = some c.types ∧ collect ofUnion (typeDefs (toDoc inputs c)) = some c.unions ∧
    collect ofEnum (typeDefs (toDoc inputs c)) = some c.enums := by
  rw [typeDefs_toDoc]
  refine ⟨?_, ?_, ?_⟩
  · have h1 := collect_map (f := ofType) (g := typeDef' c inputs) (e := id) (l := c.types) (fun p hp => by
      have := h.types p hp
      rw [← isIface_iff] at this
      exact read_type this)
    have h2 : collect ofType (c.unions.map unionDef') = some [] := collect_skip (fun d hd => by
      obtain ⟨p, _, rfl⟩ := List.mem_map.1 hd
      rfl)
    have h3 : collect ofType (c.enums.map enumDef') = some [] := collect_skip (fun d hd => by
      obtain ⟨p, _, rfl⟩ := List.mem_map.1 hd
      rfl)
    simpa using collect_append (collect_append h1 h2) h3
  · have h1 : collect ofUnion (c.types.map (typeDef' c inputs)) = some [] := collect_skip (fun d hd => by
      obtain ⟨p, _, rfl⟩ := List.mem_map.1 hd
      rcases kind_type (iface := isIface c p.1) (input := inputs p.1) (t := p.2) with ⟨_, _, hk⟩ | ⟨_, _, hk⟩ | ⟨_, hk⟩ | hk <;>
        simp only [ofUnion, typeDef', hk])
    have h2 := collect_map (f := ofUnion) (g := unionDef') (e := id) (l := c.unions) (fun p hp => by
      obtain ⟨n, ts, doc⟩ := p
      have := h.unions _ hp
      simp only [Union.Ok] at this
      obtain ⟨ha, hb⟩ := this
      subst hb
      simp only [ofUnion, unionDef', setOf_id ha, id])
    have h3 : collect ofUnion (c.enums.map enumDef') = some [] := collect_skip (fun d hd => by
      obtain ⟨p, _, rfl⟩ := List.mem_map.1 hd
      rfl)
    simpa using collect_append (collect_append h1 h2) h3
  · have h1 : collect ofEnum (c.types.map (typeDef' c inputs)) = some [] := collect_skip (fun d hd => by
      obtain ⟨p, _, rfl⟩ := List.mem_map.1 hd
      rcases kind_type (iface := isIface c p.1) (input := inputs p.1) (t := p.2) with ⟨_, _, hk⟩ | ⟨_, _, hk⟩ | ⟨_, hk⟩ | hk <;>
        simp only [ofEnum, typeDef', hk])
    have h2 : collect ofEnum (c.unions.map unionDef') = some [] := collect_skip (fun d hd => by
      obtain ⟨p, _, rfl⟩ := List.mem_map.1 hd
      rfl)
    have h3 := collect_map (f := ofEnum) (g := enumDef') (e := id) (l := c.enums) (fun p hp => by
      obtain ⟨n, vs, doc⟩ := p
      obtain ⟨ha, hb⟩ := h.enums _ hp
      have hv := all_map (f := ofVal) (g := valDef) (e := id) (l := vs) (fun v hv => read_val (hb v hv))
      rw [List.map_id] at hv
      simp only [ofEnum, enumDef', hv, Option.map_some, setOf_id ha, id])
    simpa using collect_append (collect_append h1 h2) h3

theorem links_name {l : List Link} {d : Dir} (h : d ∈ l.map linkDir) : d.name = "link".toList := by
  obtain ⟨x, _, rfl⟩ := List.mem_map.1 h
  rfl

theorem read_doc {inputs : Text → Bool} {c : Config} (h : c.Ok inputs) :
    fromDoc (toDoc inputs c) = some { c with upstream := { c.upstream with verifySsl := some (c.upstream.verifySsl.getD true) } } := by
  obtain ⟨t1, t2, t3⟩ := read_all h
  have hs : (findSchema (toDoc inputs c)) = ⟨false, toDir "server".toList c.server.enc :: toDir "upstream".toList c.upstream.enc ::
      c.links.map linkDir, c.schema.query, c.schema.mutation, c.schema.subscription⟩ := rfl
  have e1 : lastDir "server".toList Server.dec Server.dflt (toDir "server".toList c.server.enc :: toDir "upstream".toList c.upstream.enc ::
      c.links.map linkDir) = some c.server := by
    have := lastDir_skip (n := "server".toList) (dec := Server.dec) (dflt := Server.dflt) (l := [toDir "server".toList c.server.enc,
      toDir "upstream".toList c.upstream.enc]) (r := c.links.map linkDir) (fun d hd => by rw [links_name hd]; decide)
    simp only [List.cons_append, List.nil_append] at this
    rw [this]
    simp only [lastDir, List.foldl_cons, List.foldl_nil]
    rw [if_neg (by simp [toDir]), if_pos (by rfl)]
    exact fromDir_toDir (keep_nodup c.server.keys) (c.server.law h.jit h.headers)
  have e2 : lastDir "upstream".toList Upstream.dec Upstream.dflt (toDir "server".toList c.server.enc :: toDir "upstream".toList c.upstream.enc ::
      c.links.map linkDir) = some { c.upstream with verifySsl := some (c.upstream.verifySsl.getD true) } := by
    have := lastDir_skip (n := "upstream".toList) (dec := Upstream.dec) (dflt := Upstream.dflt) (l := [toDir "server".toList c.server.enc,
      toDir "upstream".toList c.upstream.enc]) (r := c.links.map linkDir) (fun d hd => by rw [links_name hd]; decide)
    simp only [List.cons_append, List.nil_append] at this
    rw [this]
    simp only [lastDir, List.foldl_cons, List.foldl_nil]
    rw [if_pos (by rfl)]
    exact fromDir_toDir (keep_nodup c.upstream.keys) (c.upstream.law h.allowed h.batch)
  have e3 : lastDir "telemetry".toList Telemetry.dec Telemetry.dflt (toDir "server".toList c.server.enc :: toDir "upstream".toList c.upstream.enc ::
      c.links.map linkDir) = some c.telemetry := by
    have := lastDir_skip (n := "telemetry".toList) (dec := Telemetry.dec) (dflt := Telemetry.dflt) (l := [])
      (r := toDir "server".toList c.server.enc :: toDir "upstream".toList c.upstream.enc :: c.links.map linkDir) (fun d hd => by
        simp only [List.mem_cons] at hd
        rcases hd with rfl | rfl | hd
        · simp [toDir]
        · simp [toDir]
        · rw [links_name hd]; decide)
    rw [List.nil_append] at this
    rw [this, h.telemetry]
    rfl
  have e4 : manyDirs "link".toList Link.dec (toDir "server".toList c.server.enc :: toDir "upstream".toList c.upstream.enc ::
      c.links.map linkDir) = some c.links := by
    have h1 := collect_map (f := fun d : Dir => if d.name = "link".toList then (fromDir Link.dec d).map some else some none)
      (g := linkDir) (e := id) (l := c.links) (fun l hl => by
        rw [if_pos (by rfl), read_link (h.links l hl)]
        rfl)
    rw [List.map_id] at h1
    unfold manyDirs collect collect
    rw [if_neg (by simp [toDir]), if_neg (by simp [toDir]), h1]
  simp only [fromDoc, hs, e1, e2, e3, e4, t1, t2, t3, build_id h.typeKeys, build_id h.unionKeys, build_id h.enumKeys,
    Option.bind_eq_bind, Option.bind_some]
  rfl

end Verif.Sdl
