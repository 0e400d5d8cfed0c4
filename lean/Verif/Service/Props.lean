import Verif.Service.Lemmas

/-!
# What a subgraph publishes, and which resolvers it has
-/

namespace Verif.Service

open Verif.Mustache (Text)
open Verif.Exec (Ty)
open Verif.Merge (get)
open Verif.Doc (Whole)
open Verif.Sdl (J V Dir FieldDef ValDef Kind TypeDef Def Directive)

set_option linter.unusedSimpArgs false

/-! ## Outcomes -/

theorem andAlso_ok {α : Type} {a : Except (List Err) α} {l : Except (List Err) (List α)} {r : List α} :
    andAlso a l = .ok r ↔ ∃ x xs, a = .ok x ∧ l = .ok xs ∧ r = x :: xs := by
  cases a <;> cases l <;> simp [andAlso, eq_comm]

theorem andAlso_left {α : Type} {e : Err} {es : List Err} (h : e ∈ es) (l : Except (List Err) (List α)) :
    ∃ es', andAlso (.error es) l = .error es' ∧ e ∈ es' := by
  cases l with
  | ok l => exact ⟨es, rfl, h⟩
  | error e' => exact ⟨es ++ e', rfl, List.mem_append_left _ h⟩

theorem andAlso_right {α : Type} {e : Err} {es : List Err} (h : e ∈ es) (a : Except (List Err) α) :
    ∃ es', andAlso a (.error es : Except (List Err) (List α)) = .error es' ∧ e ∈ es' := by
  cases a with
  | ok l => exact ⟨es, rfl, h⟩
  | error e' => exact ⟨e' ++ es, rfl, List.mem_append_right _ h⟩

theorem map_ok {α β : Type} {f : α → β} {a : Except (List Err) α} {r : β} :
    a.map f = .ok r ↔ ∃ x, a = .ok x ∧ r = f x := by
  cases a <;> simp [Except.map, eq_comm]

/-! ## Entity resolvers -/

mutual
theorem compile_sound (comp : Text → Nat → Except (List Err) (Option Nat)) : ∀ (n : Text) (r : Res) (i : IR),
    compileRes comp n r = .ok i → Compiled comp n r i
  | n, .entity l, i, h => by
    unfold compileRes at h
    obtain ⟨l', h1, rfl⟩ := map_ok.mp h
    exact .entity (all_sound comp l l' h1)
  | n, .service, i, h => by simp [compileRes] at h
  | n, .plain k, i, h => by
    unfold compileRes at h
    split at h
    · cases h
    · cases h
    · rename_i j e
      cases h
      exact .plain e
theorem all_sound (comp : Text → Nat → Except (List Err) (Option Nat)) : ∀ (l : List (Text × Res)) (l' : List (Text × IR)),
    compileAll comp l = .ok l' → CompiledAll comp l l'
  | [], l', h => by
    unfold compileAll at h
    cases h
    exact .nil
  | (n, r) :: l, l', h => by
    unfold compileAll at h
    obtain ⟨x, xs, h1, h2, rfl⟩ := andAlso_ok.mp h
    unfold compileOne at h1
    obtain ⟨i, h3, rfl⟩ := map_ok.mp h1
    exact .cons (compile_sound comp n r i h3) (all_sound comp l xs h2)
end

mutual
theorem compile_complete (comp : Text → Nat → Except (List Err) (Option Nat)) : ∀ (n : Text) (r : Res) (i : IR),
    Compiled comp n r i → compileRes comp n r = .ok i
  | n, .entity l, i, h => by
    cases h with
    | entity h => unfold compileRes; rw [all_complete comp l _ h]; rfl
  | n, .service, i, h => by cases h
  | n, .plain k, i, h => by
    cases h with
    | plain h => unfold compileRes; rw [h]
theorem all_complete (comp : Text → Nat → Except (List Err) (Option Nat)) : ∀ (l : List (Text × Res)) (l' : List (Text × IR)),
    CompiledAll comp l l' → compileAll comp l = .ok l'
  | [], l', h => by cases h; simp [compileAll]
  | (n, r) :: l, l', h => by
    cases h with
    | cons h t =>
      unfold compileAll compileOne
      rw [compile_complete comp n r _ h, all_complete comp l _ t]
      rfl
end

/-- **C140.**  The resolver of `_entities` has, for every type with a resolver, what that resolver is compiled to, and for no
other type one; it exists exactly if all of them can be compiled. -/
theorem C140_entities (comp : Text → Nat → Except (List Err) (Option Nat)) (l : List (Text × Res)) (l' : List (Text × IR)) :
    compileAll comp l = .ok l' ↔ CompiledAll comp l l' :=
  ⟨all_sound comp l l', all_complete comp l l'⟩

/-! ## What is changed -/

theorem find_none_of {rs : List Res} (h : ∀ r ∈ rs, r.isFed = false) : rs.find? Res.isFed = none := by
  rw [List.find?_eq_none]
  intro r hr
  simp [h r hr]

theorem updField_keeps (comp : Text → Nat → Except (List Err) (Option Nat)) (cfg : List (Text × List Res)) (sdl : Text)
    (f f' : BField) (h : (updField comp cfg sdl f).1 = .ok f') : Keeps cfg f f' := by
  unfold updField at h
  split at h
  · cases h
  · rename_i rs hr
    have hf : (∀ rs, get f.name cfg = some rs → ∀ r ∈ rs, r.isFed = false) → rs.find? Res.isFed = none :=
      fun hk => find_none_of (hk rs hr)
    split at h
    · rename_i l e
      obtain ⟨i, _, rfl⟩ := map_ok.mp h
      exact ⟨⟨_, rfl⟩, fun hk => by rw [hf hk] at e; cases e⟩
    · rename_i e
      cases h
      exact ⟨⟨_, rfl⟩, fun hk => by rw [hf hk] at e; cases e⟩
    · cases h
      exact ⟨⟨f.res, rfl⟩, fun _ => rfl⟩

theorem updFields_keeps (comp : Text → Nat → Except (List Err) (Option Nat)) (cfg : List (Text × List Res)) :
    ∀ (fs : List BField) (sdl : Text) (fs' : List BField), (updFields comp cfg sdl fs).1 = .ok fs' → Each (Keeps cfg) fs fs'
  | [], sdl, fs', h => by
    unfold updFields at h
    cases h
    exact .nil
  | f :: fs, sdl, fs', h => by
    unfold updFields at h
    obtain ⟨x, xs, h1, h2, rfl⟩ := andAlso_ok.mp h
    exact .cons (updField_keeps comp cfg sdl f x h1) (updFields_keeps comp cfg fs _ xs h2)

/-- A definition is kept: one that is not the query type as it is, the query type but for the resolvers of its fields for
federation. -/
def KeepsDef (c : Config) (query : Text) (d d' : BDef) : Prop :=
  (d.name ≠ query → d' = d) ∧
  (d.name = query → ∃ n fs de is ds fs' cfg, d = .object n fs de is ds ∧ d' = .object n fs' de is ds ∧
    get query c.types = some cfg ∧ Each (Keeps cfg) fs fs')

theorem updDef_keeps (comp : Text → Nat → Except (List Err) (Option Nat)) (c : Config) (query sdl : Text) (d d' : BDef)
    (h : (updDef comp c query sdl d).1 = .ok d') : KeepsDef c query d d' := by
  unfold updDef at h
  split at h
  · rename_i hn
    cases h
    exact ⟨fun _ => rfl, fun e => absurd e hn⟩
  · rename_i hn
    refine ⟨fun e => absurd e hn, fun _ => ?_⟩
    split at h
    · rename_i n fs de is ds _
      split at h
      · cases h
      · rename_i cfg hc
        obtain ⟨fs', h1, rfl⟩ := map_ok.mp h
        exact ⟨n, fs, de, is, ds, fs', cfg, rfl, rfl, hc, updFields_keeps comp cfg fs sdl fs' h1⟩
    · cases h

theorem updDefs_keeps (comp : Text → Nat → Except (List Err) (Option Nat)) (c : Config) (query : Text) :
    ∀ (ds : List BDef) (sdl : Text) (ds' : List BDef), (updDefs comp c query sdl ds).1 = .ok ds' → Each (KeepsDef c query) ds ds'
  | [], sdl, ds', h => by
    unfold updDefs at h
    cases h
    exact .nil
  | d :: ds, sdl, ds', h => by
    unfold updDefs at h
    obtain ⟨x, xs, h1, h2, rfl⟩ := andAlso_ok.mp h
    exact .cons (updDef_keeps comp c query sdl d x h1) (updDefs_keeps comp c query ds _ xs h2)

/-- **C140.**  Federation adds resolvers and changes nothing else: types, fields, arguments and directives stay as they are, and
so do the resolvers of fields that have none for federation. -/
theorem C140_kept (seg : Text → List Text) (comp : Text → Nat → Except (List Err) (Option Nat)) (c : Config) (b b' : Blueprint)
    (hf : c.federation = true) (h : update seg comp c b = .ok b') :
    b'.query = b.query ∧ b'.mutation = b.mutation ∧ Each (KeepsDef c b.query) b.defs b'.defs := by
  unfold update at h
  rw [if_pos hf] at h
  obtain ⟨ds, h1, rfl⟩ := map_ok.mp h
  exact ⟨rfl, rfl, updDefs_keeps comp c b.query b.defs _ ds h1⟩

/-- **C140.**  Without federation nothing changes at all. -/
theorem C140_off (seg : Text → List Text) (comp : Text → Nat → Except (List Err) (Option Nat)) (c : Config) (b : Blueprint)
    (hf : c.federation = false) : update seg comp c b = .ok b := by
  unfold update
  simp [hf]

/-! ## What is accepted -/

/-- A field is accepted: it is in the configuration, and if it is for entities, all their resolvers can be compiled. -/
def FieldOk (comp : Text → Nat → Except (List Err) (Option Nat)) (cfg : List (Text × List Res)) (f : BField) : Prop :=
  ∃ rs, get f.name cfg = some rs ∧ ∀ l, rs.find? Res.isFed = some (.entity l) → ∃ l', CompiledAll comp l l'

theorem updField_ok (comp : Text → Nat → Except (List Err) (Option Nat)) (cfg : List (Text × List Res)) (sdl : Text) (f : BField) :
    (∃ f', (updField comp cfg sdl f).1 = .ok f') ↔ FieldOk comp cfg f := by
  unfold updField FieldOk
  split
  · rename_i hr
    simp [hr]
  · rename_i rs hr
    split
    · rename_i l e
      constructor
      · rintro ⟨f', h⟩
        obtain ⟨i, h1, _⟩ := map_ok.mp h
        exact ⟨rs, hr, fun l1 h2 => by rw [e] at h2; cases h2; exact ⟨i, all_sound comp l i h1⟩⟩
      · rintro ⟨rs', h1, h2⟩
        rw [hr] at h1
        cases h1
        obtain ⟨i, hi⟩ := h2 l e
        exact ⟨_, map_ok.mpr ⟨i, all_complete comp l i hi, rfl⟩⟩
    · rename_i e
      exact ⟨fun _ => ⟨rs, hr, fun l h => by rw [e] at h; cases h⟩, fun _ => ⟨_, rfl⟩⟩
    · rename_i e1 e2
      exact ⟨fun _ => ⟨rs, hr, fun l h => absurd h (e1 l)⟩, fun _ => ⟨_, rfl⟩⟩

theorem updFields_ok (comp : Text → Nat → Except (List Err) (Option Nat)) (cfg : List (Text × List Res)) :
    ∀ (fs : List BField) (sdl : Text), (∃ fs', (updFields comp cfg sdl fs).1 = .ok fs') ↔ ∀ f ∈ fs, FieldOk comp cfg f
  | [], sdl => by simp [updFields]
  | f :: fs, sdl => by
    have ih := updFields_ok comp cfg fs (updField comp cfg sdl f).2
    have h1 := updField_ok comp cfg sdl f
    unfold updFields
    simp only [List.mem_cons, forall_eq_or_imp, ← ih, ← h1]
    constructor
    · rintro ⟨fs', h⟩
      obtain ⟨x, xs, h1, h2, _⟩ := andAlso_ok.mp h
      exact ⟨⟨x, h1⟩, xs, h2⟩
    · rintro ⟨⟨x, h1⟩, xs, h2⟩
      exact ⟨x :: xs, andAlso_ok.mpr ⟨x, xs, h1, h2, rfl⟩⟩

/-- A definition is accepted: the query type must be an object of the configuration with accepted fields. -/
def DefOk (comp : Text → Nat → Except (List Err) (Option Nat)) (c : Config) (query : Text) (d : BDef) : Prop :=
  d.name = query → ∃ n fs de is ds cfg, d = .object n fs de is ds ∧ get query c.types = some cfg ∧ ∀ f ∈ fs, FieldOk comp cfg f

theorem updDef_ok (comp : Text → Nat → Except (List Err) (Option Nat)) (c : Config) (query sdl : Text) (d : BDef) :
    (∃ d', (updDef comp c query sdl d).1 = .ok d') ↔ DefOk comp c query d := by
  unfold updDef DefOk
  split
  · rename_i hn
    exact ⟨fun _ e => absurd e hn, fun _ => ⟨d, rfl⟩⟩
  · rename_i hn
    have hn : d.name = query := Classical.not_not.mp hn
    split
    · rename_i n fs de is ds _
      split
      · rename_i hc
        simp [hc, hn]
      · rename_i cfg hc
        constructor
        · rintro ⟨d', h⟩ _
          obtain ⟨fs', h1, _⟩ := map_ok.mp h
          exact ⟨n, fs, de, is, ds, cfg, rfl, hc, (updFields_ok comp cfg fs sdl).mp ⟨fs', h1⟩⟩
        · intro h
          obtain ⟨n', fs', de', is', ds', cfg', e, h1, h2⟩ := h hn
          cases e
          rw [hc] at h1
          cases h1
          obtain ⟨x, hx⟩ := (updFields_ok comp cfg fs sdl).mpr h2
          exact ⟨_, map_ok.mpr ⟨x, hx, rfl⟩⟩
    · rename_i ho
      constructor
      · rintro ⟨d', h⟩
        cases h
      · intro h
        obtain ⟨n', fs', de', is', ds', cfg', e, _⟩ := h hn
        exact absurd e (ho n' fs' de' is' ds')

theorem updDefs_ok (comp : Text → Nat → Except (List Err) (Option Nat)) (c : Config) (query : Text) :
    ∀ (ds : List BDef) (sdl : Text), (∃ ds', (updDefs comp c query sdl ds).1 = .ok ds') ↔ ∀ d ∈ ds, DefOk comp c query d
  | [], sdl => by simp [updDefs]
  | d :: ds, sdl => by
    have ih := updDefs_ok comp c query ds (updDef comp c query sdl d).2
    have h1 := updDef_ok comp c query sdl d
    unfold updDefs
    simp only [List.mem_cons, forall_eq_or_imp, ← ih, ← h1]
    constructor
    · rintro ⟨fs', h⟩
      obtain ⟨x, xs, h1, h2, _⟩ := andAlso_ok.mp h
      exact ⟨⟨x, h1⟩, xs, h2⟩
    · rintro ⟨⟨x, h1⟩, xs, h2⟩
      exact ⟨x :: xs, andAlso_ok.mpr ⟨x, xs, h1, h2, rfl⟩⟩

/-- **C140 (partial).**  With federation a blueprint is accepted exactly if the query type is an object of the configuration,
every field it has in the blueprint is also one in the configuration, and the resolvers of entities can be compiled.  Missing:
blueprints with fields of another name than in the configuration, see below. -/
theorem C140_accepts_partial (seg : Text → List Text) (comp : Text → Nat → Except (List Err) (Option Nat)) (c : Config)
    (b : Blueprint) (hf : c.federation = true) :
    (∃ b', update seg comp c b = .ok b') ↔ ∀ d ∈ b.defs, DefOk comp c b.query d := by
  rw [← updDefs_ok comp c b.query b.defs (Verif.Doc.print seg (docOf b))]
  unfold update
  rw [if_pos hf]
  constructor
  · rintro ⟨b', h⟩
    obtain ⟨ds, h1, _⟩ := map_ok.mp h
    exact ⟨ds, h1⟩
  · rintro ⟨ds, h⟩
    exact ⟨_, map_ok.mpr ⟨ds, h, rfl⟩⟩

theorem updFields_err (comp : Text → Nat → Except (List Err) (Option Nat)) (cfg : List (Text × List Res)) :
    ∀ (fs : List BField) (sdl : Text) (f : BField), f ∈ fs → get f.name cfg = none →
      ∃ es, (updFields comp cfg sdl fs).1 = .error es ∧ Err.fieldNotFound f.name ∈ es
  | [], _, _, h, _ => by cases h
  | g :: fs, sdl, f, h, hn => by
    unfold updFields
    rcases List.mem_cons.mp h with rfl | h
    · have : (updField comp cfg sdl f).1 = .error [.fieldNotFound f.name] := by unfold updField; rw [hn]
      simp only [this]
      exact andAlso_left (List.mem_singleton.mpr rfl) _
    · obtain ⟨es, h1, h2⟩ := updFields_err comp cfg fs (updField comp cfg sdl g).2 f h hn
      simp only [h1]
      exact andAlso_right h2 _

theorem updDefs_err (comp : Text → Nat → Except (List Err) (Option Nat)) (c : Config) (query : Text) (e : Err) (d : BDef)
    (hd : ∀ sdl, ∃ es, (updDef comp c query sdl d).1 = .error es ∧ e ∈ es) : ∀ (ds : List BDef) (sdl : Text), d ∈ ds →
      ∃ es, (updDefs comp c query sdl ds).1 = .error es ∧ e ∈ es
  | [], _, h => by cases h
  | g :: ds, sdl, h => by
    unfold updDefs
    rcases List.mem_cons.mp h with rfl | h
    · obtain ⟨es, h1, h2⟩ := hd sdl
      simp only [h1]
      exact andAlso_left h2 _
    · obtain ⟨es, h1, h2⟩ := updDefs_err comp c query e d hd ds (updDef comp c query sdl g).2 h
      simp only [h1]
      exact andAlso_right h2 _

/-- **C140.**  Every field of the query type that is not in the configuration is reported. -/
theorem C140_reported (seg : Text → List Text) (comp : Text → Nat → Except (List Err) (Option Nat)) (c : Config) (b : Blueprint)
    (hf : c.federation = true) {fs : List BField} {de : Option Text} {is : List Text} {ds : List Directive}
    (hd : .object b.query fs de is ds ∈ b.defs) {cfg : List (Text × List Res)} (hc : get b.query c.types = some cfg)
    {f : BField} (h : f ∈ fs) (hn : get f.name cfg = none) :
    ∃ es, update seg comp c b = .error es ∧ Err.fieldNotFound f.name ∈ es := by
  obtain ⟨es, h1, h2⟩ := updDefs_err comp c b.query (.fieldNotFound f.name) (.object b.query fs de is ds) (fun sdl => by
    obtain ⟨es, h1, h2⟩ := updFields_err comp cfg fs sdl f h hn
    refine ⟨es, ?_, h2⟩
    unfold updDef
    rw [if_neg (by simp [BDef.name])]
    simp only [hc, h1, Except.map]) b.defs (Verif.Doc.print seg (docOf b)) hd
  refine ⟨es, ?_, h2⟩
  unfold update
  rw [if_pos hf, h1]
  rfl

/-- What `update_federation` sees of a type (its fields, also the omitted ones, under their own names). -/
def seenFields (fs : List CField) : List (Text × List Res) := fs.map (fun f => (f.name, f.res))

theorem get_none_of {α : Type} (k : Text) : ∀ l : List (Text × α), k ∉ l.map (·.1) → get k l = none
  | [], _ => rfl
  | (a, x) :: l, h => by
    simp only [List.map_cons, List.mem_cons, not_or] at h
    have ih := get_none_of k l h.2
    unfold Verif.Merge.get
    rw [if_neg (fun e => h.1 e.symm)]
    exact ih

/-- **C140, negation.**  If a field of the query type is renamed with `@modify` or added with `@addField`, and there is no other
field of that name in the configuration, then the configuration is refused with federation, though it is accepted without. -/
theorem C140_refuses (seg : Text → List Text) (comp : Text → Nat → Except (List Err) (Option Nat)) (c : Config) (b : Blueprint)
    (fs : List CField) (added : List Text) (hc : get b.query c.types = some (seenFields fs)) {bfs : List BField}
    {de : Option Text} {is : List Text} {ds : List Directive} (hd : .object b.query bfs de is ds ∈ b.defs)
    (hb : bfs.map (·.name) = blueprintNames fs added) {n : Text} (hn : n ∈ added ∨ ∃ f ∈ fs, f.omitted = false ∧ f.rename = some n)
    (hx : n ∉ fs.map (·.name)) :
    (∃ es, update seg comp { c with federation := true } b = .error es ∧ Err.fieldNotFound n ∈ es) ∧
      update seg comp { c with federation := false } b = .ok b := by
  refine ⟨?_, C140_off _ _ _ _ rfl⟩
  have hm : n ∈ bfs.map (·.name) := by
    rw [hb]
    unfold blueprintNames
    rcases hn with h | ⟨f, h1, h2, h3⟩
    · exact List.mem_append_right _ h
    · exact List.mem_append_left _ (List.mem_map.mpr ⟨f, List.mem_filter.mpr ⟨h1, by simp [h2]⟩, by simp [h3]⟩)
  obtain ⟨f, hf, rfl⟩ := List.mem_map.mp hm
  refine C140_reported seg comp { c with federation := true } b rfl hd hc hf (get_none_of _ _ ?_)
  simpa [seenFields, Function.comp_def] using hx

/-! ## The published text -/

/-- The first resolver for federation is that for `_service`. -/
def IsService (cfg : List (Text × List Res)) (f : BField) : Prop :=
  ∃ rs, get f.name cfg = some rs ∧ rs.find? Res.isFed = some .service

theorem updField_state (comp : Text → Nat → Except (List Err) (Option Nat)) (cfg : List (Text × List Res)) (sdl : Text)
    (f : BField) (h : ¬ IsService cfg f) : (updField comp cfg sdl f).2 = sdl := by
  unfold updField
  split
  · rfl
  · rename_i rs hr
    split
    · rfl
    · rename_i e
      exact absurd ⟨rs, hr, e⟩ h
    · rfl

theorem updFields_service (comp : Text → Nat → Except (List Err) (Option Nat)) (cfg : List (Text × List Res)) (f : BField)
    (hf : IsService cfg f) (post : List BField) (sdl : Text) : ∀ (pre : List BField), (∀ g ∈ pre, ¬ IsService cfg g) →
      ∀ fs', (updFields comp cfg sdl (pre ++ f :: post)).1 = .ok fs' → { f with res := some (compileService sdl) } ∈ fs'
  | [], _, fs', h => by
    simp only [List.nil_append] at h
    unfold updFields at h
    obtain ⟨x, xs, h1, h2, rfl⟩ := andAlso_ok.mp h
    obtain ⟨rs, hr, e⟩ := hf
    unfold updField at h1
    rw [hr] at h1
    simp only [e] at h1
    cases h1
    exact List.mem_cons_self
  | g :: pre, hp, fs', h => by
    simp only [List.cons_append] at h
    unfold updFields at h
    obtain ⟨x, xs, h1, h2, rfl⟩ := andAlso_ok.mp h
    rw [updField_state comp cfg sdl g (hp g List.mem_cons_self)] at h2
    exact List.mem_cons_of_mem _ (updFields_service comp cfg f hf post sdl pre (fun y hy => hp y (List.mem_cons_of_mem _ hy)) xs h2)

theorem updDefs_at (comp : Text → Nat → Except (List Err) (Option Nat)) (c : Config) (query : Text) (d : BDef)
    (post : List BDef) (sdl : Text) : ∀ (pre : List BDef), (∀ g ∈ pre, g.name ≠ query) →
      ∀ ds', (updDefs comp c query sdl (pre ++ d :: post)).1 = .ok ds' → ∃ d' ∈ ds', (updDef comp c query sdl d).1 = .ok d'
  | [], _, ds', h => by
    simp only [List.nil_append] at h
    unfold updDefs at h
    obtain ⟨x, xs, h1, h2, rfl⟩ := andAlso_ok.mp h
    exact ⟨x, List.mem_cons_self, h1⟩
  | g :: pre, hp, ds', h => by
    simp only [List.cons_append] at h
    unfold updDefs at h
    obtain ⟨x, xs, h1, h2, rfl⟩ := andAlso_ok.mp h
    have hs : (updDef comp c query sdl g).2 = sdl := by
      unfold updDef
      rw [if_pos (hp g List.mem_cons_self)]
    rw [hs] at h2
    obtain ⟨d', h3, h4⟩ := updDefs_at comp c query d post sdl pre (fun y hy => hp y (List.mem_cons_of_mem _ hy)) xs h2
    exact ⟨d', List.mem_cons_of_mem _ h3, h4⟩

/-- **C139 (partial).**  What a subgraph answers for its schema is a text that can be read, and that says all about its types:
each of them with its fields, arguments, types, defaults and directives, the names of the operations, and that it is a subgraph of
Federation 2.  Missing: descriptions, the directives of interfaces, scalars, inputs and of null arguments, and the form of
defaults that are values of enums, see below; and blueprints with names that are not names, or with types without fields. -/
theorem C139_service_partial (seg : Text → List Text) (hs : Whole seg) (comp : Text → Nat → Except (List Err) (Option Nat))
    (c : Config) (b b' : Blueprint) (hf : c.federation = true) (hb : FineBlueprint b)
    {pre post : List BDef} {fpre fpost : List BField} {f : BField} {de : Option Text} {is : List Text} {ds : List Directive}
    (hd : b.defs = pre ++ .object b.query (fpre ++ f :: fpost) de is ds :: post) (hp : ∀ d ∈ pre, d.name ≠ b.query)
    {cfg : List (Text × List Res)} (hc : get b.query c.types = some cfg) (h1 : IsService cfg f) (h2 : ∀ g ∈ fpre, ¬ IsService cfg g)
    (h : update seg comp c b = .ok b') :
    ∃ fs' f' t, .object b.query fs' de is ds ∈ b'.defs ∧ f' ∈ fs' ∧ f'.name = f.name ∧ f'.res = some (.service t) ∧ Publishes t b := by
  unfold update at h
  rw [if_pos hf] at h
  obtain ⟨ds', h3, rfl⟩ := map_ok.mp h
  generalize hS : Verif.Doc.print seg (docOf b) = S at h3
  rw [hd] at h3
  obtain ⟨d', h4, h5⟩ := updDefs_at comp c b.query _ post S pre hp ds' h3
  unfold updDef at h5
  rw [if_neg (by simp [BDef.name])] at h5
  simp only [hc] at h5
  obtain ⟨fs', h6, rfl⟩ := map_ok.mp h5
  refine ⟨fs', _, S ++ extension, h4, updFields_service comp cfg f h1 fpost S fpre h2 fs' h6, rfl, rfl, ?_⟩
  rw [← hS]
  exact publishes seg hs b hb

end Verif.Service
