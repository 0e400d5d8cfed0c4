import Verif.Added.Paths
import Verif.Added.Check
import Verif.Auth.Props

/-!
# Properties of added fields (C104, C105, C107)
-/

namespace Verif.Added

open Verif.Mustache (Text)
open Verif.Exec (Ty)
open Verif.HttpUrl (GVal)
open Verif.Ir (IR World Ctx St parseUsize getPath eval)
open Verif.Transform (At Lacks get get_some get_none at_mem at_unique at_not_lacks)

set_option linter.unusedSimpArgs false

/-! ## From an added field to its path -/

theorem Starts.clear {c : Config} {object : Text} {outer : Typ} {a : Add} {f : Fld} {t : Ty} {p : List Text}
    (h : Starts c object outer a f t p) : Clear c outer t.name p := by
  obtain ⟨s, r, _, _, _, h | h⟩ := h.source
  · rw [h.2.1]
    exact clear_self (get_some.2 (Starts.type ‹_›))
  · intro g hg hs
    have := h.2.2.2 g hg
    rw [get_none.2 this] at hs
    cases hs

theorem Starts.process {c : Config} {object : Text} {outer : Typ} {a : Add} {f : Fld} {t : Ty} {p : List Text}
    (h : Starts c object outer a f t p) (T : Ty) :
    processPath c (pathOf f a.path) f.ty outer false = .ok T ↔ processPath c p t outer false = .ok T := by
  obtain ⟨s, r, h1, h2, h3, h | h⟩ := h.source
  · obtain ⟨e1, e2, e3⟩ := h
    have hg : (get outer.fields s).isSome = true := by rw [get_some.2 h2]; rfl
    rw [pathOf, if_pos (by rw [e1]; rfl), e3, h1]
    exact ⟨process_first h3 hg _ _, process_first h3 hg _ _⟩
  · obtain ⟨e1, e2, e3, _⟩ := h
    rw [pathOf, if_neg (fun e => e1 (List.isEmpty_iff.1 e)), h1, e2, e3]
    rfl

theorem Starts.path {c : Config} {object : Text} {outer : Typ} {a : Add} {f : Fld} {t : Ty} {p : List Text}
    (h : Starts c object outer a f t p) : pathOf f a.path = p := by
  obtain ⟨s, r, h1, _, _, h | h⟩ := h.source
  · rw [pathOf, if_pos (by rw [h.1]; rfl), h.2.2]
  · rw [pathOf, if_neg (fun e => h.1 (List.isEmpty_iff.1 e)), h1, h.2.2.1]
    rfl

/-- What an accepted added field is made of. -/
theorem toAdded_ok {c : Config} {object : Text} {outer : Typ} {a : Add} {d : FieldDef} (h : toAdded c object outer a = .ok d) :
    ∃ s r f b T, a.path = s :: r ∧ At outer.fields s f ∧ toFieldDef c object outer a.name f = .ok b ∧
      processPath c (pathOf f a.path) f.ty outer false = .ok T ∧
      d.name = b.name ∧ d.ofType = (if hasIndex (pathOf f a.path) then .named T.name false else T) ∧
      d.resolver = some (match b.resolver with | none => .ctxPath (pathOf f a.path) | some r => .path r (pathOf f a.path)) := by
  rw [toAdded] at h
  split at h
  · cases h
  · next s r hp =>
    cases hf : get outer.fields s with
    | none => rw [hf] at h; cases h
    | some f =>
      rw [hf] at h
      simp only [] at h
      cases hb : toFieldDef c object outer a.name f with
      | error es => rw [hb] at h; cases h
      | ok b =>
        rw [hb] at h
        simp only [updateFromPath] at h
        cases hT : processPath c (pathOf f a.path) f.ty outer false with
        | error es => rw [hT] at h; cases h
        | ok T =>
          rw [hT] at h
          cases h
          exact ⟨s, r, f, b, T, hp, get_some.1 hf, hb, hT, rfl, rfl, rfl⟩

theorem Starts.same {c : Config} {object : Text} {outer : Typ} {a : Add} {f f' : Fld} {t : Ty} {p : List Text} {s r}
    (h : Starts c object outer a f t p) (h1 : a.path = s :: r) (h2 : At outer.fields s f') : f' = f := by
  obtain ⟨s', r', h1', h2', _⟩ := h.source
  rw [h1'] at h1
  cases h1
  exact at_unique h2 h2'

/-! ## C104: what is accepted, and the type -/

/-- The type of an added field can be null, whatever the types on the way. -/
theorem C104_nullable (c : Config) (object : Text) (outer : Typ) (a : Add) (d : FieldDef) (h : toAdded c object outer a = .ok d) :
    d.ofType.isNullable = true := by
  obtain ⟨s, r, f, b, T, _, _, _, hT, _, hty, _⟩ := toAdded_ok h
  rw [hty]
  split
  · rfl
  · exact process_nullable _ _ (Nat.le_refl _) _ _ _ hT

/-- An added field whose path exists, and enters lists by indices, is accepted exactly if no field on the path has a
resolver and all of them have types that are known; if the field it begins with is accepted itself. -/
theorem C104_accepted_partial {c : Config} (hs : Sane c) {object : Text} {outer : Typ} {a : Add} {f : Fld} {b : FieldDef} {t t' : Ty}
    {p : List Text} {fs : List Fld} (hst : Starts c object outer a f t p) (hb : toFieldDef c object outer a.name f = .ok b)
    (hw : Way c t p fs t') : (∃ d, toAdded c object outer a = .ok d) ↔ ∀ fd ∈ fs, fd.resolvers = [] ∧ Known c fd := by
  constructor
  · rintro ⟨d, h⟩
    obtain ⟨s, r, f', b', T, h1, h2, _, hT, _⟩ := toAdded_ok h
    rw [hst.same h1 h2, hst.process] at hT
    exact way_accepted hs hw t outer T rfl hst.clear hT
  · intro hfs
    obtain ⟨T, hT, _⟩ := process_way hs hw t outer rfl hst.clear hfs
    rw [← hst.process] at hT
    obtain ⟨s, r, h1, h2, _⟩ := hst.source
    rw [toAdded, h1]
    simp only [get_some.2 h2, hb, updateFromPath, ← h1, hT]
    exact ⟨_, rfl⟩

/-- It then has the type at the end of the path, which can be null, unless this is a list and either the path has an
index or the elements are of a type of the configuration. -/
theorem C104_type_partial {c : Config} (hs : Sane c) {object : Text} {outer : Typ} {a : Add} {f : Fld} {t t' : Ty}
    {p : List Text} {fs : List Fld} (hst : Starts c object outer a f t p) (hw : Way c t p fs t')
    (hn : ∀ s ∈ p, isNumeric s = (parseUsize s).isSome) (d : FieldDef) (h : toAdded c object outer a = .ok d)
    (hl : (∀ e nn, t' ≠ .list e nn) ∨ p = [] ∨ ((∀ s ∈ p, parseUsize s = none) ∧ c.pre t'.name = true)) :
    d.ofType = nullable t' := by
  obtain ⟨s, r, f', b', T, h1, h2, _, hT, _, hty, _⟩ := toAdded_ok h
  rw [hst.same h1 h2] at hT hty
  rw [hst.process] at hT
  rw [hst.path] at hty
  have hnl : (∀ e nn, t' ≠ .list e nn) → isList t' = false := by
    intro h
    cases t' with
    | named _ _ => rfl
    | list e nn => exact absurd rfl (h e nn)
  by_cases hx : hasIndex p = true
  · rw [hty, if_pos hx]
    have hname : T.name = t'.name := by
      have hfs := way_accepted hs hw t outer T rfl hst.clear hT
      obtain ⟨T', hT', e⟩ := process_way hs hw t outer rfl hst.clear hfs
      rw [hT] at hT'
      cases hT'
      exact e
    rw [hname]
    rw [hasIndex, List.any_eq_true] at hx
    obtain ⟨i, hi, hi'⟩ := hx
    rcases hl with hl | hl | hl
    · cases t' with
      | named _ _ => rfl
      | list e nn => exact absurd rfl (hl e nn)
    · rw [hl] at hi; cases hi
    · rw [hn i hi, hl.1 i hi] at hi'
      cases hi'
  · have hno : ∀ s ∈ p, parseUsize s = none := by
      intro s hs
      cases hp : parseUsize s with
      | none => rfl
      | some n =>
        refine absurd (List.any_eq_true.2 ⟨s, hs, ?_⟩) hx
        rw [hn s hs, hp]; rfl
    rw [hty, if_neg hx, process_names hs hw outer hst.clear hno T hT, endType, if_neg]
    rintro ⟨k1, k2, k3⟩
    rcases hl with hl | hl | hl
    · rw [hnl hl] at k2; cases k2
    · exact k1 hl
    · exact k3 hl.2

/-- A path whose last name is no field of the type it is asked from is refused. -/
theorem C104_refused_partial {c : Config} (hs : Sane c) {object : Text} {outer : Typ} {a : Add} {f : Fld} {t : Ty}
    {p : List Text} {g n : Text} {nn : Bool} {td : Typ} {fs : List Fld} (hst : Starts c object outer a f t (p ++ [g]))
    (hw : Way c t p fs (.named n nn)) (htd : At c.types n td) (hg : parseUsize g = none) (hl : Lacks td.fields g) :
    ∃ es, toAdded c object outer a = .error es := by
  cases h : toAdded c object outer a with
  | error es => exact ⟨es, rfl⟩
  | ok d =>
    exfalso
    obtain ⟨s, r, f', b', T, h1, h2, _, hT, _⟩ := toAdded_ok h
    rw [hst.same h1 h2, hst.process] at hT
    obtain ⟨es, e⟩ := process_missing hs hw t outer td n g nn rfl htd hl hg rfl hst.clear
    rw [e] at hT
    cases hT

/-! ## C105: the value -/

theorem conf_nullable {c : Config} {st : Bool} {t : Ty} {v : GVal} (h : Conf c st t v) : Conf c st (nullable t) v := by
  cases h with
  | null _ => exact .null (nullable_nullable t)
  | list h => exact .list h
  | obj h1 h2 h3 => exact .obj h1 h2 h3
  | scalar h1 h2 => exact .scalar h1 h2

theorem value_way {c : Config} {st : Bool} {t t' : Ty} {p : List Text} {fs : List Fld} (h : Way c t p fs t') :
    ∀ v, (∀ fd ∈ fs, fd.resolvers = []) → Conf c st t v →
    Found v p ((getPath v p).getD .null) ∧ Conf c st (nullable t') ((getPath v p).getD .null) := by
  induction h with
  | here =>
    intro v _ hv
    rw [getPath]
    exact ⟨.here, conf_nullable hv⟩
  | @item e nn i p fs t h1 _ ih =>
    intro v hfs hv
    cases hv with
    | null _ => exact ⟨.null, .null (nullable_nullable _)⟩
    | @list _ _ l hl =>
      obtain ⟨n, hn⟩ := Option.isSome_iff_exists.1 h1
      rw [getPath]
      simp only [hn]
      cases hw : l[n]? with
      | none => exact ⟨.noItem hn hw, .null (nullable_nullable _)⟩
      | some w =>
        have := ih w hfs (hl w (List.mem_of_getElem? hw))
        exact ⟨.item hn hw this.1, this.2⟩
  | @field n nn f td fd p fs t h1 h2 h3 _ ih =>
    intro v hfs hv
    cases hv with
    | null _ => exact ⟨.null, .null (nullable_nullable _)⟩
    | @obj _ _ td' kvs k1 k2 _ =>
      have := at_unique h2 k1
      subst this
      rw [getPath]
      cases hw : Verif.Merge.get f kvs with
      | none => exact ⟨.noKey hw, .null (nullable_nullable _)⟩
      | some w =>
        have := ih w (fun x hx => hfs x (List.mem_cons_of_mem _ hx)) (k2 f fd w h3 (hfs fd List.mem_cons_self) hw)
        exact ⟨.key hw this.1, this.2⟩
    | scalar k _ =>
      exfalso
      rcases k with k | ⟨td', k, e⟩
      · exact at_not_lacks h2 k
      · rw [at_unique h2 k] at h3
        have := at_mem h3
        rw [e] at this
        cases this

/-- A field without resolver, new name, guard and discriminator that does not lead to resolvers only has no resolver. -/
theorem plain_base {c : Config} {object : Text} {outer : Typ} {name : Text} {f : Fld} (h1 : f.resolvers = []) (h2 : f.modify = none)
    (h3 : guardOf c object outer f = .ok none) (h4 : f.discr = none)
    (h5 : ¬ ((∃ t, At c.types f.ty.name t) ∧ Resolved c f.ty.name)) : toFieldDef c object outer name f = .ok ⟨name, f.ty, none⟩ := by
  have hd : ∀ b, fixDangling c f b = b := by
    intro b
    rw [fixDangling, if_neg]
    rw [Bool.and_eq_true, passes_field]
    exact fun h => h.2.elim (fun e => e h1) h5
  have hc : compiled f = none := by rw [compiled, h1]
  rw [toFieldDef, updateModify, h2]
  simp only [hd, hc, updateCache, updateProtected, h3, updateDiscr, h4]
  have he : ∀ x y : Option Nat, Verif.Ir.updateCache x y none = none := by
    intro x y
    rw [Verif.Ir.updateCache]
    split <;> rfl
  rw [he, updateEnum]
  split <;> rfl

/-- For a path within the data of a type, which enters lists by indices, the added field has what is found at the path,
and this is a value of the type at its end. -/
theorem C105_within_partial {c : Config} (hs : Sane c) {object : Text} {outer : Typ} {a : Add} {f : Fld} {t t' : Ty}
    {p : List Text} {fs : List Fld} (hst : Starts c object outer a f t p) (hw : Way c t p fs t') (d : FieldDef)
    (h : toAdded c object outer a = .ok d) (h1 : f.resolvers = []) (h2 : f.modify = none)
    (h3 : guardOf c object outer f = .ok none) (h4 : f.discr = none)
    (h5 : ¬ ((∃ t, At c.types f.ty.name t) ∧ Resolved c f.ty.name)) :
    d.name = a.name ∧ ∃ r, d.resolver = some r ∧ ∀ (w : World) (ctx : Ctx) (st : St) (strict : Bool) (v : GVal),
      ctx.valueO = none → ctx.value = some v → Conf c strict (.named object false) v →
      ∃ x, eval w r ctx st = (st, .ok x) ∧ Found v a.path x ∧ Conf c strict (nullable t') x := by
  obtain ⟨s, r, f', b', T, k1, k2, k3, hT, hname, _, hres⟩ := toAdded_ok h
  have hf := hst.same k1 k2
  rw [hf] at k3 hT hres
  rw [plain_base h1 h2 h3 h4 h5] at k3
  cases k3
  rw [hst.process] at hT
  have hfs := way_accepted hs hw t outer T rfl hst.clear hT
  refine ⟨hname, _, hres, ?_⟩
  intro w ctx st strict v e1 e2 hv
  have hpt : t = .named object false ∧ p = a.path := by
    obtain ⟨_, _, _, _, _, k | k⟩ := hst.source
    · exact k.2
    · exact absurd h1 k.1
  obtain ⟨rfl, rfl⟩ := hpt
  have := value_way hw v (fun fd hfd => (hfs fd hfd).1) hv
  refine ⟨_, ?_, this⟩
  rw [hst.path]
  show eval w (.ctxPath a.path) ctx st = _
  rw [eval, Verif.Ir.Ctx.pathValue, e1, e2]

/-- For a path into what a resolver gives, which enters lists by indices, the added field has what is found at the rest
of the path, and this is a value of the type at its end; if the resolver fails, so does the added field. -/
theorem C105_resolved_partial {c : Config} (hs : Sane c) {object : Text} {outer : Typ} {a : Add} {f : Fld} {t t' : Ty}
    {p : List Text} {fs : List Fld} (hst : Starts c object outer a f t p) (hw : Way c t p fs t') (d b : FieldDef)
    (h : toAdded c object outer a = .ok d) (h1 : f.resolvers ≠ []) (hb : toFieldDef c object outer a.name f = .ok b) (r0 : IR)
    (hr0 : b.resolver = some r0) :
    ∃ r, d.resolver = some r ∧ ∀ (w : World) (ctx : Ctx) (st st' : St),
      (∀ e, eval w r0 ctx st = (st', .error e) → eval w r ctx st = (st', .error e)) ∧
      ∀ (strict : Bool) (v : GVal), eval w r0 ctx st = (st', .ok v) → Conf c strict f.ty v →
        ∃ x, eval w r ctx st = (st', .ok x) ∧ Found v (a.path.drop 1) x ∧ Conf c strict (nullable t') x := by
  obtain ⟨s, r, f', b', T, k1, k2, k3, hT, hname, _, hres⟩ := toAdded_ok h
  have hf := hst.same k1 k2
  rw [hf] at k3 hT hres
  rw [hb] at k3
  cases k3
  rw [hst.process] at hT
  have hfs := way_accepted hs hw t outer T rfl hst.clear hT
  rw [hr0] at hres
  refine ⟨_, hres, ?_⟩
  have hpt : t = f.ty ∧ p = a.path.drop 1 := by
    obtain ⟨_, _, e, _, _, k | k⟩ := hst.source
    · exact absurd k.1 h1
    · rw [e]; exact ⟨k.2.1, k.2.2.1⟩
  obtain ⟨rfl, rfl⟩ := hpt
  intro w ctx st st'
  refine ⟨fun e he => ?_, fun strict v he hv => ?_⟩
  · simp only [eval, he]
  · have := value_way hw v (fun fd hfd => (hfs fd hfd).1) hv
    refine ⟨_, ?_, this⟩
    rw [hst.path]
    simp only [eval, he]

/-- A field with resolvers and nothing else gives what its resolver gives, or what its resolvers give together. -/
theorem C105_source (c : Config) (object : Text) (outer : Typ) (name : Text) (f : Fld) (h2 : f.modify = none)
    (h3 : guardOf c object outer f = .ok none) (h4 : f.discr = none) (h5 : f.cache = none) (h6 : outer.cache = none)
    (h7 : Lacks c.enums f.ty.name) :
    (∀ dir r, f.resolvers = [(dir, some r)] → toFieldDef c object outer name f = .ok ⟨name, f.ty, some r⟩) ∧
    (∀ l : List (Text × IR), 2 ≤ l.length → f.resolvers = l.map (fun p => (p.1, some p.2)) →
      toFieldDef c object outer name f = .ok ⟨name, f.ty, some (.merge (l.map (·.2)))⟩) := by
  have key : ∀ x, f.resolvers ≠ [] → compiled f = some x → toFieldDef c object outer name f = .ok ⟨name, f.ty, some x⟩ := by
    intro x h1 hc
    have hd : ∀ b, fixDangling c f b = b := by
      intro b
      rw [fixDangling, if_neg]
      rw [Bool.and_eq_true, List.isEmpty_iff]
      exact fun h => h1 h.1
    rw [toFieldDef, updateModify, h2]
    simp only [hd, hc, updateCache, updateProtected, h3, updateDiscr, h4, h5, h6, updateEnum, get_none.2 h7]
    rfl
  refine ⟨fun dir r h => key r (by rw [h]; exact fun h => nomatch h) (by rw [compiled, h]), fun l hl h => ?_⟩
  match l, hl with
  | p :: q :: l, _ =>
    refine key _ (by rw [h]; exact fun h => nomatch h) ?_
    rw [compiled, h]
    have : ∀ l : List (Text × IR), (l.map (fun p => (p.1, some p.2))).filterMap (·.2) = l.map (·.2) := by
      intro l
      induction l with
      | nil => rfl
      | cons x r ih => simp only [List.map_cons, List.filterMap_cons, ih]
    show some (IR.merge _) = _
    rw [← this]
    rfl

/-- Values that are there at a path are at the end of a way in the types, or the path meets a resolver. -/
inductive Meets (c : Config) : Ty → List Text → Prop
  | item {e nn i p} : (parseUsize i).isSome = true → Meets c e p → Meets c (.list e nn) (i :: p)
  | here {n nn f td fd p} : parseUsize f = none → At c.types n td → At td.fields f fd → fd.resolvers ≠ [] → Meets c (.named n nn) (f :: p)
  | field {n nn f td fd p} : parseUsize f = none → At c.types n td → At td.fields f fd → Meets c fd.ty p → Meets c (.named n nn) (f :: p)

theorem value_there {c : Config} (hnum : ∀ n td f fd, At c.types n td → At td.fields f fd → parseUsize f = none) :
    ∀ (p : List Text) (t : Ty) (v x : GVal), Conf c true t v → getPath v p = some x →
    (∃ fs t', Way c t p fs t' ∧ Conf c true t' x) ∨ Meets c t p
  | [], t, v, x, hv, h => by
    rw [getPath] at h
    cases h
    exact .inl ⟨[], t, .here, hv⟩
  | f :: p, t, v, x, hv, h => by
    cases hv with
    | null _ => cases h
    | @list e nn l hl =>
      rw [getPath] at h
      cases hf : parseUsize f with
      | none => rw [hf] at h; cases h
      | some i =>
        rw [hf] at h
        simp only [] at h
        cases hi : l[i]? with
        | none => rw [hi] at h; cases h
        | some w =>
          rw [hi] at h
          rcases value_there hnum p e w x (hl w (List.mem_of_getElem? hi)) h with ⟨fs, t', k1, k2⟩ | k
          · exact .inl ⟨fs, t', .item (by rw [hf]; rfl) k1, k2⟩
          · exact .inr (.item (by rw [hf]; rfl) k)
    | @obj n nn td kvs k1 k2 k3 =>
      rw [getPath] at h
      cases hw : Verif.Merge.get f kvs with
      | none => rw [hw] at h; cases h
      | some w =>
        rw [hw] at h
        obtain ⟨fd, hfd⟩ := k3 rfl f w hw
        have hf := hnum n td f fd k1 hfd
        by_cases hr : fd.resolvers = []
        · rcases value_there hnum p fd.ty w x (k2 f fd w hfd hr hw) h with ⟨fs, t', j1, j2⟩ | k
          · exact .inl ⟨_, t', .field hf k1 hfd j1, j2⟩
          · exact .inr (.field hf k1 hfd k)
        · exact .inr (.here hf k1 hfd hr)
    | scalar _ k =>
      obtain ⟨j1, j2⟩ := k rfl
      cases v with
      | list l => exact absurd rfl (j1 l)
      | obj kvs => exact absurd rfl (j2 kvs)
      | _ => cases h

theorem meets_refused {c : Config} (hs : Sane c) {t : Ty} {p : List Text} (h : Meets c t p) : ∀ (t0 : Ty) (info : Typ), t0.name = t.name →
    Clear c info t.name p → ∀ T, processPath c p t0 info false ≠ .ok T := by
  induction h with
  | item h1 _ ih =>
    intro t0 info hn hc T
    rw [process_index h1]
    exact ih (single t0) info (by rw [single_name]; exact hn) (clear_index h1 hc) T
  | here h1 h2 h3 h4 =>
    intro t0 info hn hc T
    rw [process_field h1 hn h2 h3 hc, if_neg (fun e => h4 (List.isEmpty_iff.1 e))]
    exact failed_not _ _ _
  | @field n nn f td fd p h1 h2 h3 h4 ih =>
    intro t0 info hn hc T
    rw [process_field h1 hn h2 h3 hc]
    split
    · split
      · next hk =>
        exfalso
        have : ∀ {t : Ty} {p}, Meets c t p → ¬ Lacks c.types t.name := by
          intro t p hm
          induction hm with
          | item _ _ ih => exact ih
          | here _ h2 _ _ => exact at_not_lacks h2
          | field _ h2 _ _ _ => exact at_not_lacks h2
        exact this h4 (hs _ hk)
      · split
        · next nti hk =>
          rw [Bool.false_and]
          intro h
          cases hq : processPath c p fd.ty nti false with
          | error es => rw [hq] at h; cases h
          | ok T' => exact ih fd.ty nti rfl (clear_self hk) T' hq
        · intro h; cases h
    · exact failed_not _ _ _

/-- Whatever path is accepted: if objects have no other keys than their types have fields, and scalars are neither
objects nor lists, then the value at the path is null, or the path exists in the types and the value is one of the
type at its end. -/
theorem C105_safe_partial {c : Config} (hs : Sane c) (hnum : ∀ n td f fd, At c.types n td → At td.fields f fd → parseUsize f = none)
    {object : Text} {outer : Typ} {a : Add} {f : Fld} {t : Ty} {p : List Text} (hst : Starts c object outer a f t p) (d : FieldDef)
    (h : toAdded c object outer a = .ok d) (v : GVal) (hv : Conf c true t v) :
    (getPath v p).getD .null = .null ∨ ∃ fs t', Way c t p fs t' ∧ Conf c true t' ((getPath v p).getD .null) := by
  obtain ⟨s, r, f', b', T, k1, k2, k3, hT, hname, _, hres⟩ := toAdded_ok h
  rw [hst.same k1 k2, hst.process] at hT
  cases hx : getPath v p with
  | none => exact .inl rfl
  | some x =>
    rcases value_there hnum p t v x hv hx with k | k
    · exact .inr k
    · exact absurd hT (meets_refused hs k t outer rfl hst.clear T)

/-! ## C107: protection -/

theorem guarded_base {c : Config} {object : Text} {outer : Typ} {name : Text} {f : Fld} {b : FieldDef} {a : Verif.Auth.Auth}
    (h : toFieldDef c object outer name f = .ok b) (hg : guardOf c object outer f = .ok (some a)) :
    ∃ r, b.resolver = some r ∧ ∀ (w : World) (ctx : Ctx) (st : St) (e : Verif.Auth.Err), Verif.Auth.verify ctx.auth a = .fail e →
      eval w r ctx st = (st, .error (.auth e)) := by
  rw [toFieldDef] at h
  split at h
  · cases h
  · next b0 _ =>
    simp only [updateProtected, hg, Except.ok.injEq] at h
    have h1 : ∀ n (x : Option IR) w (ctx : Ctx) st e, Verif.Auth.verify ctx.auth a = .fail e →
        eval w (Verif.Ir.wrapProtected a n x) ctx st = (st, .error (.auth e)) := by
      intro n x w ctx st e he
      cases x <;> simp only [Verif.Ir.wrapProtected, eval, he]
    have h2 : ∃ r, (updateEnum c f { (updateCache outer f (fixDangling c f b0)) with
          resolver := some (Verif.Ir.wrapProtected a (updateCache outer f (fixDangling c f b0)).name (updateCache outer f (fixDangling c f b0)).resolver) }).resolver = some r ∧
        ∀ (w : World) (ctx : Ctx) (st : St) (e : Verif.Auth.Err), Verif.Auth.verify ctx.auth a = .fail e →
          eval w r ctx st = (st, .error (.auth e)) := by
      rw [updateEnum]
      split
      · refine ⟨_, rfl, fun w ctx st e he => ?_⟩
        simp only [eval, h1 _ _ w ctx st e he]
      · exact ⟨_, rfl, fun w ctx st e he => h1 _ _ w ctx st e he⟩
    obtain ⟨r, e1, e2⟩ := h2
    rw [← h, updateDiscr]
    split
    · refine ⟨_, rfl, fun w ctx st e he => ?_⟩
      rw [e1]
      simp only [Option.getD_some, eval, e2 w ctx st e he]
    · exact ⟨r, e1, e2⟩

/-- An added field that begins with a protected field, or in a protected type, gives nothing to a request without
permission.  Protected fields further down the path are not looked at, see the counterexample. -/
theorem C107_first_partial (c : Config) (object : Text) (outer : Typ) (a : Add) (d : FieldDef) (h : toAdded c object outer a = .ok d)
    (s : Text) (r : List Text) (f : Fld) (hp : a.path = s :: r) (hf : At outer.fields s f) (g : Verif.Auth.Auth)
    (hg : guardOf c object outer f = .ok (some g)) :
    ∃ x, d.resolver = some x ∧ ∀ (w : World) (ctx : Ctx) (st : St) (e : Verif.Auth.Err), Verif.Auth.verify ctx.auth g = .fail e →
      eval w x ctx st = (st, .error (.auth e)) := by
  obtain ⟨s', r', f', b', T, k1, k2, k3, hT, hname, _, hres⟩ := toAdded_ok h
  rw [hp] at k1
  cases k1
  have := at_unique hf k2
  subst this
  obtain ⟨r0, e1, e2⟩ := guarded_base k3 hg
  rw [e1] at hres
  refine ⟨_, hres, fun w ctx st e he => ?_⟩
  simp only [eval, e2 w ctx st e he]

/-- If the field an added field begins with, its type, or the type that has it is protected, then a request without
credentials gets nothing. -/
theorem C107_anonymous_partial (c : Config) (object : Text) (outer : Typ) (a : Add) (d : FieldDef) (h : toAdded c object outer a = .ok d)
    (s : Text) (r : List Text) (f : Fld) (hp : a.path = s :: r) (hf : At outer.fields s f)
    (hg : f.prot ≠ none ∨ outer.prot ≠ none ∨ ∃ t, At c.types f.ty.name t ∧ t.prot ≠ none) :
    ∃ x, d.resolver = some x ∧ ∀ (w : World) (ctx : Ctx) (st : St), ctx.auth.header = .absent →
      eval w x ctx st = (st, .error (.auth .missing)) := by
  have hgo : ∃ g, guardOf c object outer f = .ok (some g) := by
    obtain ⟨s', r', f', b', T, k1, k2, k3, _⟩ := toAdded_ok h
    rw [hp] at k1
    cases k1
    have := at_unique hf k2
    subst this
    cases hx : guardOf c object outer f with
    | error es =>
      rw [toFieldDef] at k3
      split at k3
      · cases k3
      · rw [updateProtected, hx] at k3
        cases k3
    | ok o =>
      cases o with
      | some g => exact ⟨g, rfl⟩
      | none =>
        exfalso
        rw [guardOf] at hx
        obtain ⟨e1, e2, e3⟩ := (Verif.Auth.C67_guarded_iff_protected _ _ _ _ _).2 hx
        rcases hg with hg | hg | ⟨t, ht, hg⟩
        · exact hg e2
        · exact hg e1
        · rw [get_some.2 ht] at e3
          exact hg e3
  obtain ⟨g, hgo⟩ := hgo
  obtain ⟨x, h1, h2⟩ := C107_first_partial c object outer a d h s r f hp hf g hgo
  exact ⟨x, h1, fun w ctx st hc => h2 w ctx st _ (Verif.Auth.C42_no_header _ _ hc)⟩

end Verif.Added
