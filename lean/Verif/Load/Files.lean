import Verif.Load.Links
import Verif.Mustache.Props

/-!
# C123: configurations of several files, and the environment
-/

set_option linter.unusedSimpArgs false

namespace Verif.Load

open Verif.Mustache (Text Seg WellFormed)
open Verif.Transform (get insert At Lacks get_some get_none get_insert)

/-- **C123**: a configuration is read from the disk or the web, the environment is filled in, and its links
are followed from its own directory. -/
theorem C123_one {β : Type} {io : Io β} {n : Nat} {path : Text} {m : Cfg β × Ext} :
    readOne io n path = .ok m ↔
      ∃ c t o, (if isUrl path then At io.web path c else At io.disk path c) ∧ renderFile io c = .ok t ∧
        io.config path t = some o ∧ resolve io n (parent path) o = .ok m := by
  simp only [readOne, readFile, bind_ok, orErr_ok]
  constructor
  · rintro ⟨c, hc, t, ht, o, ho, h⟩
    refine ⟨c, t, o, ?_, ht, ho, h⟩
    split at hc
    · rename_i hu; rw [if_pos hu]; exact get_some.1 hc
    · rename_i hu; rw [if_neg hu]; exact get_some.1 hc
  · rintro ⟨c, t, o, hc, ht, ho, h⟩
    refine ⟨c, ?_, t, ht, o, ho, h⟩
    split at hc
    · rename_i hu; rw [if_pos hu]; exact get_some.2 hc
    · rename_i hu; rw [if_neg hu]; exact get_some.2 hc

theorem envCtx_eq {β : Type} {io : Io β} {ps : List Text} (h : ∀ k r, ps = "env".toList :: k :: r → r = []) {v : Text} :
    envCtx io ps = some v ↔ ∃ k, ps = ["env".toList, k] ∧ io.env k = some v := by
  match ps with
  | [] => simp [envCtx]
  | [a] => simp [envCtx]
  | a :: k :: r =>
    rw [envCtx]
    split
    · rename_i e
      subst e
      have hr := h k r rfl
      subst hr
      constructor
      · intro hv; exact ⟨k, rfl, hv⟩
      · rintro ⟨k', e, hv⟩
        rw [List.cons.injEq, List.cons.injEq] at e
        rw [e.2.1]; exact hv
    · rename_i ne
      constructor
      · intro hv; simp at hv
      · rintro ⟨k', e, hv⟩
        rw [List.cons.injEq] at e
        exact absurd e.1 ne

theorem filled_of_renders {β : Type} {io : Io β} {t : List Seg} {out : Text}
    (hp : ∀ ps, Seg.expr ps ∈ t → ∀ k r, ps = "env".toList :: k :: r → r = [])
    (h : Verif.Mustache.Renders (envCtx io) (fun ps => ['{', '{', '.'] ++ ['.'].intercalate ps ++ ['}', '}']) t out) :
    Filled io.env t out := by
  induction h with
  | done => exact .nil
  | literal _ ih => exact .text (ih (fun ps hm => hp ps (List.mem_cons_of_mem _ hm)))
  | value hv _ ih =>
    obtain ⟨k, e, hk⟩ := (envCtx_eq (hp _ (List.mem_cons_self ..))).1 hv
    subst e
    exact .value hk (ih (fun ps hm => hp ps (List.mem_cons_of_mem _ hm)))
  | missing hv _ ih =>
    refine .kept (fun k e => ?_) (ih (fun ps hm => hp ps (List.mem_cons_of_mem _ hm)))
    cases hk : io.env k with
    | none => rfl
    | some v =>
      have := (envCtx_eq (io := io) (hp _ (List.mem_cons_self ..))).2 ⟨k, e, hk⟩
      rw [hv] at this
      exact absurd this (by simp)

/-- **C123** for texts whose expressions are written as `{{.a.b}}`: variables of the environment that are set
are replaced by their values, and all else is kept as it is.  Missing: other spellings, paths that go on
after a variable, and paths that end before (`C123_violated_by_spaces`, `C123_violated_by_paths`,
`C123_violated_by_env`). -/
theorem C123_environment_partial {β : Type} {io : Io β} {t : List Seg} (hw : WellFormed t)
    (hp : ∀ ps, Seg.expr ps ∈ t → (∀ k r, ps = "env".toList :: k :: r → r = []) ∧ ps ≠ ["env".toList]) :
    ∃ out, renderFile io (Verif.Mustache.print t) = .ok out ∧ Filled io.env t out := by
  have e := Verif.Mustache.C11_parse_print hw
  have hne : ¬ Seg.expr ["env".toList] ∈ t := fun hm => (hp _ hm).2 rfl
  refine ⟨Verif.Mustache.renderPartial t (envCtx io), ?_, ?_⟩
  · unfold renderFile
    rw [e, if_neg hne]
  · exact filled_of_renders (fun ps hm => (hp ps hm).1) ((Verif.Mustache.C13_render_partial_mode _ _ _).2 rfl)

theorem get_insertAll {k : Text} : ∀ {l : List (Text × PFile)} {m : List (Text × PFile)},
    (∀ g, get (l.foldl (fun m p => insert m p.1 p.2) m) k = some g → (k, g) ∈ l ∨ get m k = some g) ∧
    ((get m k).isSome ∨ (∃ g, (k, g) ∈ l) → (get (l.foldl (fun m p => insert m p.1 p.2) m) k).isSome)
  | [], m => ⟨fun g h => .inr h, fun h => by
      rcases h with h | ⟨g, h⟩
      · exact h
      · exact absurd h List.not_mem_nil⟩
  | p :: l, m => by
    obtain ⟨h1, h2⟩ := @get_insertAll k l (insert m p.1 p.2)
    rw [List.foldl_cons]
    refine ⟨fun g hg => ?_, fun h => h2 ?_⟩
    · rcases h1 g hg with h | h
      · exact .inl (List.mem_cons_of_mem _ h)
      · rw [get_insert] at h
        split at h
        · rename_i e
          refine .inl ?_
          have : p = (k, g) := by
            cases p
            simp_all
          rw [this]; exact List.mem_cons_self ..
        · exact .inr h
    · rw [get_insert]
      by_cases e : k = p.1
      · exact .inl (by rw [if_pos e]; rfl)
      · rw [if_neg e]
        rcases h with h | ⟨g, h⟩
        · exact .inl h
        · rcases List.mem_cons.1 h with h | h
          · exact absurd (by rw [← h]) e
          · exact .inr ⟨g, h⟩

theorem mem_insertAll {x : Text × PFile} : ∀ {l m : List (Text × PFile)},
    x ∈ l.foldl (fun m p => insert m p.1 p.2) m → x ∈ l ∨ x ∈ m
  | [], m, h => .inr h
  | p :: l, m, h => by
    rw [List.foldl_cons] at h
    rcases mem_insertAll h with h | h
    · exact .inl (List.mem_cons_of_mem _ h)
    · simp only [Verif.Transform.insert, Verif.Transform.remove, List.mem_cons] at h
      rcases h with h | h
      · exact .inl (by rw [h]; exact List.mem_cons_self ..)
      · exact .inr (List.mem_filter.1 h).1

/-- What several modules become together. -/
structure Together {β : Type} (io : Io β) (first : Cfg β × Ext) (rest : List (Cfg β × Ext)) (m : Cfg β × Ext) : Prop where
  types : Unified io.unify first.1.types (rest.map (·.1.types)) m.1.types
  certs : m.2.certs = ((first :: rest).map (·.2.certs)).flatten
  keys : m.2.keys = ((first :: rest).map (·.2.keys)).flatten
  endpoints : m.2.endpoints = ((first :: rest).map (·.2.endpoints)).flatten
  htpasswd : m.2.htpasswd = ((first :: rest).map (·.2.htpasswd)).flatten
  jwks : m.2.jwks = ((first :: rest).map (·.2.jwks)).flatten
  script : m.2.script = ((first :: rest).filterMap (·.2.script)).getLast?
  protosFrom : ∀ k g, At m.2.protos k g → ∃ o ∈ first :: rest, (k, g) ∈ o.2.protos
  protosAll : ∀ o ∈ first :: rest, ∀ k g, At o.2.protos k g → ∃ g', At m.2.protos k g'
  settings : m.1.settings = first.1.settings
  links : m.1.links = first.1.links

theorem mem_of_at {α : Type} {l : List (Text × α)} {k : Text} {x : α} (h : At l k x) : (k, x) ∈ l := mem_of_get (get_some.2 h)

theorem readRest_together {β : Type} {io : Io β} {n : Nat} : ∀ {ps : List Text} {a m : Cfg β × Ext},
    readRest io n ps a = .ok m → ∃ ms, Each (fun p o => readOne io n p = .ok o) ps ms ∧ Together io a ms m
  | [], a, m, h => by
    rw [readRest] at h
    cases Res.ok.inj h
    refine ⟨[], .nil, ?_⟩
    constructor
    case types => exact .nil
    case script => cases hs : a.2.script <;> simp [hs]
    case protosFrom => exact fun k g h => ⟨a, by simp, mem_of_at h⟩
    case protosAll => intro o ho k g h; rw [List.mem_singleton.1 ho] at h; exact ⟨g, h⟩
    all_goals simp
  | p :: r, a, m, h => by
    rw [readRest, bind_ok] at h
    obtain ⟨o, ho, h⟩ := h
    rw [bind_ok] at h
    obtain ⟨b, hb, h⟩ := h
    obtain ⟨ms, hms, tg⟩ := readRest_together h
    rw [unifyModule, bind_ok] at hb
    obtain ⟨c, hc, hb⟩ := hb
    rw [unifyCfg, bind_ok] at hc
    obtain ⟨t, ht, hc⟩ := hc
    rw [orErr_ok] at ht
    cases Res.ok.inj hb
    cases Res.ok.inj hc
    refine ⟨o :: ms, .cons ho hms, ?_⟩
    constructor
    case types => exact .cons ht tg.types
    case certs => rw [tg.certs]; simp [Ext.merge]
    case keys => rw [tg.keys]; simp [Ext.merge]
    case endpoints => rw [tg.endpoints]; simp [Ext.merge]
    case htpasswd => rw [tg.htpasswd]; simp [Ext.merge]
    case jwks => rw [tg.jwks]; simp [Ext.merge]
    case script =>
      rw [tg.script]
      simp only [List.filterMap_cons, Ext.merge]
      cases ho' : o.2.script with
      | none =>
        cases ha : a.2.script <;> simp
      | some x =>
        cases ha : a.2.script <;> simp [List.getLast?_cons_cons]
    case protosFrom =>
      intro k g hg
      obtain ⟨x, hx, hm⟩ := tg.protosFrom k g hg
      rcases List.mem_cons.1 hx with e | hx
      · subst e
        rcases mem_insertAll hm with h | h
        · exact ⟨o, by simp, h⟩
        · exact ⟨a, by simp, h⟩
      · exact ⟨x, by simp [hx], hm⟩
    case protosAll =>
      intro x hx k g hg
      have hb : x = a ∨ x = o ∨ x ∈ ms := by simpa using hx
      have merged : (get (a.2.merge o.2).protos k).isSome → ∃ g', At m.2.protos k g' := by
        intro hs
        obtain ⟨g1, hg1⟩ := Option.isSome_iff_exists.1 hs
        exact tg.protosAll _ (List.mem_cons_self ..) k g1 (get_some.1 hg1)
      rcases hb with e | e | hx
      · subst e
        exact merged (get_insertAll.2 (.inl (by rw [get_some.2 hg]; rfl)))
      · subst e
        exact merged (get_insertAll.2 (.inr ⟨g, mem_of_at hg⟩))
      · exact tg.protosAll x (List.mem_cons_of_mem _ hx) k g hg
    case settings => exact tg.settings
    case links => exact tg.links

/-- **C123**: what is read from several files is what is read from each: their types are merged in order, their
certificates, keys, endpoints and passwords are put one after the other, and the script is that of the last
file that has one; settings and links are those of the first.  Missing: settings of the other files, and all
scripts but one (`C123_violated_by_settings`, `C123_violated_by_scripts`). -/
theorem C123_files_partial {β : Type} {io : Io β} {n : Nat} {ps : List Text} {m : Cfg β × Ext} (h : readAll io n ps = .ok m) :
    ∃ first rest, Each (fun p o => readOne io n p = .ok o) ps (first :: rest) ∧ Together io first rest m := by
  match ps, h with
  | [], h => simp [readAll] at h
  | p :: r, h =>
    rw [readAll, bind_ok] at h
    obtain ⟨o, ho, h⟩ := h
    obtain ⟨ms, hms, tg⟩ := readRest_together h
    exact ⟨o, ms, .cons ho hms, tg⟩

/-- **C123**: a single file gives just what it says. -/
theorem C123_single {β : Type} {io : Io β} {n : Nat} {p : Text} : readAll io n [p] = readOne io n p := by
  rw [readAll]
  cases readOne io n p <;> rfl

end Verif.Load
