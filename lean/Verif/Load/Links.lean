import Verif.Load.Props

/-!
# C122: what links give
-/

set_option linter.unusedSimpArgs false

namespace Verif.Load

open Verif.Mustache (Text)
open Verif.Transform (get insert At Lacks get_some get_none get_insert)

theorem textOf_iff {β : Type} {io : Io β} {dir : Text} {l : Link} {c : Text} :
    readFile io (linkPath dir l.src) = .ok c ↔ TextOf io dir l c := by
  rw [readFile, orErr_ok, TextOf]
  constructor
  · intro h
    refine ⟨linkPath dir l.src, rfl, ?_⟩
    split at h
    · rename_i hu; rw [if_pos hu]; exact get_some.1 h
    · rename_i hu; rw [if_neg hu]; exact get_some.1 h
  · rintro ⟨p, hp, h⟩
    have e : linkPath dir l.src = p := by rw [hp, linkPath]
    rw [e]
    split at h
    · rename_i hu; rw [if_pos hu]; exact get_some.2 h
    · rename_i hu; rw [if_neg hu]; exact get_some.2 h

/-- What one link does. -/
inductive Step {β : Type} (io : Io β) (n : Nat) (dir : Text) (l : Link) (s : Cfg β × Ext) : Cfg β × Ext → Prop
  | config {o : Cfg β} {t : β} : l.kind = .config → ConfigOf io dir l o → io.unify s.1.types o.types = some t →
      Step io n dir l s ({ s.1 with types := t }, s.2)
  | protobuf {fs : List PFile} : l.kind = .protobuf →
      read io n (linkPath dir l.src) (l.protoPaths.map (fun ps => ps.map (linkPath dir))) = .ok fs →
      Step io n dir l s (s.1, { s.2 with protos := addProto fs s.2.protos })
  | script {c : Text} : l.kind = .script → TextOf io dir l c → Step io n dir l s (s.1, { s.2 with script := some c })
  | cert {c : Text} {k : List Nat} : l.kind = .cert → TextOf io dir l c → io.certs c = some k →
      Step io n dir l s (s.1, { s.2 with certs := s.2.certs ++ k })
  | key {c : Text} {k : List Nat} : l.kind = .key → TextOf io dir l c → io.keys c = some k →
      Step io n dir l s (s.1, { s.2 with keys := k })
  | operation {c : Text} {k : List Nat} : l.kind = .operation → TextOf io dir l c → io.ops c = some k →
      Step io n dir l s (s.1, { s.2 with endpoints := k })
  | htpasswd {c : Text} : l.kind = .htpasswd → TextOf io dir l c →
      Step io n dir l s (s.1, { s.2 with htpasswd := s.2.htpasswd ++ [(l.id, c)] })
  | jwks {c : Text} {k : Nat} : l.kind = .jwks → TextOf io dir l c → io.jwks c = some k →
      Step io n dir l s (s.1, { s.2 with jwks := s.2.jwks ++ [(l.id, k)] })
  | grpc {ls : List (List PFile)} : l.kind = .grpc → fetch io n l.src = .ok ls →
      Step io n dir l s (s.1, { s.2 with protos := ls.foldl (fun m fs => addProto fs m) s.2.protos })

theorem step_of_addLink {β : Type} {io : Io β} {n : Nat} {dir : Text} {l : Link} {s s' : Cfg β × Ext}
    (h : addLink io n dir l s = .ok s') : Step io n dir l s s' := by
  unfold addLink at h
  cases hk : l.kind with
  | config =>
    rw [hk] at h
    simp only [bind_ok, orErr_ok] at h
    obtain ⟨c, hc, t, ht, o, ho, m, hm, h⟩ := h
    rw [unifyCfg, bind_ok] at hm
    obtain ⟨u, hu, hm⟩ := hm
    cases Res.ok.inj h
    cases Res.ok.inj hm
    exact .config hk ⟨c, t, textOf_iff.1 hc, ht, ho⟩ (orErr_ok.1 hu)
  | protobuf =>
    rw [hk] at h
    simp only [bind_ok, orErr_ok] at h
    obtain ⟨fs, hf, h⟩ := h
    cases Res.ok.inj h
    exact .protobuf hk hf
  | script =>
    rw [hk] at h
    simp only [bind_ok, orErr_ok] at h
    obtain ⟨c, hc, h⟩ := h
    cases Res.ok.inj h
    exact .script hk (textOf_iff.1 hc)
  | cert =>
    rw [hk] at h
    simp only [bind_ok, orErr_ok] at h
    obtain ⟨c, hc, k, hk', h⟩ := h
    cases Res.ok.inj h
    exact .cert hk (textOf_iff.1 hc) hk'
  | key =>
    rw [hk] at h
    simp only [bind_ok, orErr_ok] at h
    obtain ⟨c, hc, k, hk', h⟩ := h
    cases Res.ok.inj h
    exact .key hk (textOf_iff.1 hc) hk'
  | operation =>
    rw [hk] at h
    simp only [bind_ok, orErr_ok] at h
    obtain ⟨c, hc, k, hk', h⟩ := h
    cases Res.ok.inj h
    exact .operation hk (textOf_iff.1 hc) hk'
  | htpasswd =>
    rw [hk] at h
    simp only [bind_ok, orErr_ok] at h
    obtain ⟨c, hc, h⟩ := h
    cases Res.ok.inj h
    exact .htpasswd hk (textOf_iff.1 hc)
  | jwks =>
    rw [hk] at h
    simp only [bind_ok, orErr_ok] at h
    obtain ⟨c, hc, k, hk', h⟩ := h
    cases Res.ok.inj h
    exact .jwks hk (textOf_iff.1 hc) hk'
  | grpc =>
    rw [hk] at h
    simp only [bind_ok, orErr_ok] at h
    obtain ⟨ls, hf, h⟩ := h
    cases Res.ok.inj h
    exact .grpc hk hf

theorem ofKind_same {k : Kind} {l : Link} {ls : List Link} (h : l.kind = k) : ofKind k (l :: ls) = l :: ofKind k ls := by
  simp [ofKind, h]

theorem ofKind_other {k : Kind} {l : Link} {ls : List Link} (h : l.kind ≠ k) : ofKind k (l :: ls) = ofKind k ls := by
  simp [ofKind, h]

/-- A part of the state to which the links of a kind add something each, in order. -/
theorem collect {β γ : Type} {io : Io β} {n : Nat} {dir : Text} {k : Kind} {R : Link → γ → Prop} (get' : Cfg β × Ext → List γ)
    (hs : ∀ {l s s'}, Step io n dir l s s' → (l.kind = k → ∃ x, R l x ∧ get' s' = get' s ++ [x]) ∧ (l.kind ≠ k → get' s' = get' s)) :
    ∀ {ls : List Link} {s s' : Cfg β × Ext}, addLinks io n dir ls s = .ok s' →
      ∃ xs, Each R (ofKind k ls) xs ∧ get' s' = get' s ++ xs
  | [], s, s', h => by
    rw [addLinks] at h
    cases Res.ok.inj h
    exact ⟨[], .nil, by simp⟩
  | l :: r, s, s', h => by
    rw [addLinks, bind_ok] at h
    obtain ⟨s1, h1, h2⟩ := h
    obtain ⟨xs, hx, e⟩ := collect get' hs h2
    have st := hs (step_of_addLink h1)
    by_cases hk : l.kind = k
    · obtain ⟨x, hR, ex⟩ := st.1 hk
      exact ⟨x :: xs, by rw [ofKind_same hk]; exact .cons hR hx, by rw [e, ex]; simp⟩
    · exact ⟨xs, by rw [ofKind_other hk]; exact hx, by rw [e, st.2 hk]⟩

/-- A part of the state that the links of a kind set, so that the last remains. -/
theorem latest {β γ : Type} {io : Io β} {n : Nat} {dir : Text} {k : Kind} {R : Link → γ → Prop} (get' : Cfg β × Ext → γ)
    (hs : ∀ {l s s'}, Step io n dir l s s' → (l.kind = k → R l (get' s')) ∧ (l.kind ≠ k → get' s' = get' s)) :
    ∀ {ls : List Link} {s s' : Cfg β × Ext}, addLinks io n dir ls s = .ok s' →
      (ofKind k ls = [] → get' s' = get' s) ∧ ∀ l, (ofKind k ls).getLast? = some l → R l (get' s')
  | [], s, s', h => by
    rw [addLinks] at h
    cases Res.ok.inj h
    exact ⟨fun _ => rfl, by simp [ofKind]⟩
  | l :: r, s, s', h => by
    rw [addLinks, bind_ok] at h
    obtain ⟨s1, h1, h2⟩ := h
    obtain ⟨ha, hb⟩ := latest get' hs h2
    have st := hs (step_of_addLink h1)
    by_cases hk : l.kind = k
    · rw [ofKind_same hk]
      refine ⟨by simp, fun l' hl' => ?_⟩
      cases hr : ofKind k r with
      | nil =>
        rw [hr] at hl'
        simp only [List.getLast?_singleton, Option.some.injEq] at hl'
        subst hl'
        rw [ha hr]; exact st.1 hk
      | cons a t =>
        rw [hr, List.getLast?_cons_cons, ← hr] at hl'
        exact hb l' hl'
    · rw [ofKind_other hk]
      exact ⟨fun e => by rw [ha e, st.2 hk], hb⟩

/-- The links that are followed. -/
def followed {β : Type} (c : Cfg β) : List Link := c.links.filter (fun l => l.src ≠ [])

theorem resolve_eq {β : Type} {io : Io β} {n : Nat} {dir : Text} {c : Cfg β} :
    resolve io n dir c = addLinks io n dir (followed c) (c, Ext.empty) := by
  rw [resolve, followed]
  congr 1
  apply List.filter_congr
  intro l _
  cases l.src <;> simp

/-- **C122**: every linked file with passwords, keys for tokens or certificates is there, under the id of its
link, in the order of the links, and nothing else. -/
theorem C122_collected {β : Type} {io : Io β} {n : Nat} {dir : Text} {c c' : Cfg β} {x : Ext}
    (h : resolve io n dir c = .ok (c', x)) :
    Each (fun l p => p.1 = l.id ∧ TextOf io dir l p.2) (ofKind .htpasswd (followed c)) x.htpasswd ∧
    Each (fun l p => p.1 = l.id ∧ ∃ t, TextOf io dir l t ∧ io.jwks t = some p.2) (ofKind .jwks (followed c)) x.jwks ∧
    ∃ ks, Each (fun l k => ∃ t, TextOf io dir l t ∧ io.certs t = some k) (ofKind .cert (followed c)) ks ∧ x.certs = ks.flatten := by
  rw [resolve_eq] at h
  refine ⟨?_, ?_, ?_⟩
  · obtain ⟨xs, hx, e⟩ := collect (k := .htpasswd) (R := fun l p => p.1 = l.id ∧ TextOf io dir l p.2) (fun s => s.2.htpasswd)
      (fun st => by cases st <;> simp_all) h
    have e' : x.htpasswd = xs := by simpa [Ext.empty] using e
    rw [e']; exact hx
  · obtain ⟨xs, hx, e⟩ := collect (k := .jwks) (R := fun l p => p.1 = l.id ∧ ∃ t, TextOf io dir l t ∧ io.jwks t = some p.2)
      (fun s => s.2.jwks) (fun st => by
        cases st
        case jwks c k hk ht hj =>
          simp only [hk, ne_eq, not_true_eq_false, false_implies, and_true, true_implies]
          exact ⟨_, ⟨rfl, c, ht, hj⟩, rfl⟩
        all_goals simp_all) h
    have e' : x.jwks = xs := by simpa [Ext.empty] using e
    rw [e']; exact hx
  · suffices H : ∀ {ls : List Link} {s s' : Cfg β × Ext}, addLinks io n dir ls s = .ok s' →
        ∃ ks, Each (fun l k => ∃ t, TextOf io dir l t ∧ io.certs t = some k) (ofKind .cert ls) ks ∧
          s'.2.certs = s.2.certs ++ ks.flatten by
      obtain ⟨ks, hk, e⟩ := H h
      exact ⟨ks, hk, by simpa [Ext.empty] using e⟩
    intro ls
    induction ls with
    | nil =>
      intro s s' h
      rw [addLinks] at h
      cases Res.ok.inj h
      exact ⟨[], .nil, by simp⟩
    | cons l r ih =>
      intro s s' h
      rw [addLinks, bind_ok] at h
      obtain ⟨s1, h1, h2⟩ := h
      obtain ⟨ks, hk, e⟩ := ih h2
      have st := step_of_addLink h1
      by_cases hc : l.kind = .cert
      · cases st
        case cert t k hk' ht hj =>
          exact ⟨k :: ks, by rw [ofKind_same hc]; exact .cons ⟨t, ht, hj⟩ hk, by rw [e]; simp⟩
        all_goals simp_all
      · refine ⟨ks, by rw [ofKind_other hc]; exact hk, ?_⟩
        rw [e]
        cases st <;> simp_all

/-- **C122**: the script, the keys and the endpoints are those of the last link of their kind, and there are
none without a link. -/
theorem C122_latest {β : Type} {io : Io β} {n : Nat} {dir : Text} {c c' : Cfg β} {x : Ext}
    (h : resolve io n dir c = .ok (c', x)) :
    ((ofKind .script (followed c) = [] → x.script = none) ∧
      ∀ l, (ofKind .script (followed c)).getLast? = some l → ∃ t, TextOf io dir l t ∧ x.script = some t) ∧
    ((ofKind .key (followed c) = [] → x.keys = []) ∧
      ∀ l, (ofKind .key (followed c)).getLast? = some l → ∃ t, TextOf io dir l t ∧ io.keys t = some x.keys) ∧
    ((ofKind .operation (followed c) = [] → x.endpoints = []) ∧
      ∀ l, (ofKind .operation (followed c)).getLast? = some l → ∃ t, TextOf io dir l t ∧ io.ops t = some x.endpoints) := by
  rw [resolve_eq] at h
  refine ⟨?_, ?_, ?_⟩
  · obtain ⟨ha, hb⟩ := latest (k := .script) (R := fun l p => ∃ t, TextOf io dir l t ∧ p = some t) (fun s => s.2.script)
      (fun st => by cases st <;> simp_all) h
    exact ⟨ha, hb⟩
  · obtain ⟨ha, hb⟩ := latest (k := .key) (R := fun l p => ∃ t, TextOf io dir l t ∧ io.keys t = some p) (fun s => s.2.keys)
      (fun st => by
        cases st
        case key t k hk ht hj => exact ⟨fun _ => ⟨t, ht, hj⟩, fun hne => absurd hk hne⟩
        all_goals simp_all) h
    exact ⟨ha, hb⟩
  · obtain ⟨ha, hb⟩ := latest (k := .operation) (R := fun l p => ∃ t, TextOf io dir l t ∧ io.ops t = some p) (fun s => s.2.endpoints)
      (fun st => by
        cases st
        case operation t k hk ht hj => exact ⟨fun _ => ⟨t, ht, hj⟩, fun hne => absurd hk hne⟩
        all_goals simp_all) h
    exact ⟨ha, hb⟩

theorem single_last {α : Type} {l : List α} {a : α} (h : l.length ≤ 1) (ha : a ∈ l) : l.getLast? = some a := by
  match l, h with
  | [], _ => exact absurd ha List.not_mem_nil
  | [b], _ => rw [List.mem_singleton.1 ha]; rfl

theorem countIds : ∀ {ls : List Link} {x : Text}, (ls.filterMap (·.id)).count x = (ls.filter (fun k => k.id = some x)).length
  | [], x => by simp
  | l :: r, x => by
    have ih := @countIds r x
    cases hid : l.id with
    | none => simp [List.filterMap_cons, hid, ih]
    | some y =>
      simp only [List.filterMap_cons, hid, List.count_cons, ih, List.filter_cons, Option.some.injEq]
      by_cases e : y = x
      · simp [e]
      · simp [e]

/-- **C122**: a blueprint is made exactly of proper links. -/
theorem C122_valid_iff (ls : List Link) : linksValid ls = true ↔ ProperLinks ls := by
  simp only [linksValid, ProperLinks, Bool.and_eq_true, List.all_eq_true, decide_eq_true_eq, Bool.or_eq_true, ofKind]
  rw [List.nodup_iff_count]
  constructor
  · rintro ⟨⟨h1, h2⟩, h3⟩
    refine ⟨fun l hl => ?_, fun x => ?_, h2, h3⟩
    · have := (h1 l hl).1
      intro e
      rw [e] at this
      simp at this
    · rw [countIds]
      by_cases hx : ∃ l ∈ ls, l.id = some x
      · obtain ⟨l, hl, e⟩ := hx
        rcases (h1 l hl).2 with h | h
        · rw [e] at h; simp at h
        · rw [e] at h; exact h
      · have : ls.filter (fun k => k.id = some x) = [] := by
          rw [List.filter_eq_nil_iff]
          intro l hl e
          exact hx ⟨l, hl, by simpa using e⟩
        rw [this]; simp
  · rintro ⟨h1, h2, h3, h4⟩
    refine ⟨⟨fun l hl => ⟨?_, ?_⟩, h3⟩, h4⟩
    · have := h1 l hl
      cases h : l.src with
      | nil => exact absurd h this
      | cons a r => rfl
    · cases hid : l.id with
      | none => exact .inl rfl
      | some x =>
        refine .inr ?_
        rw [← countIds]
        exact h2 x

/-- **C122**: if a blueprint can be made of the links, the script and the keys are those of the link to them. -/
theorem C122_script_and_key {β : Type} {io : Io β} {n : Nat} {dir : Text} {c c' : Cfg β} {x : Ext}
    (h : resolve io n dir c = .ok (c', x)) (hv : linksValid c.links = true) {l : Link} (hl : l ∈ c.links) :
    (l.kind = .script → ∃ t, TextOf io dir l t ∧ x.script = some t) ∧
    (l.kind = .key → ∃ t, TextOf io dir l t ∧ io.keys t = some x.keys) := by
  obtain ⟨h1, _, h3, h4⟩ := (C122_valid_iff _).1 hv
  have hf : followed c = c.links := by
    rw [followed, List.filter_eq_self]
    intro l hl
    simpa using h1 l hl
  obtain ⟨⟨_, hs⟩, ⟨_, hk⟩, _⟩ := C122_latest h
  rw [hf] at hs hk
  constructor
  · intro e
    exact hs l (single_last h3 (by simp [ofKind, hl, e]))
  · intro e
    exact hk l (single_last h4 (by simp [ofKind, hl, e]))

/-- **C122**: configurations that are linked are merged in order; links and settings stay those of the
configuration itself. -/
theorem C122_configs {β : Type} {io : Io β} {n : Nat} {dir : Text} {c c' : Cfg β} {x : Ext}
    (h : resolve io n dir c = .ok (c', x)) :
    c'.links = c.links ∧ c'.settings = c.settings ∧
      ∃ os, Each (ConfigOf io dir) (ofKind .config (followed c)) os ∧ Unified io.unify c.types (os.map (·.types)) c'.types := by
  rw [resolve_eq] at h
  suffices H : ∀ {ls : List Link} {s s' : Cfg β × Ext}, addLinks io n dir ls s = .ok s' →
      s'.1.links = s.1.links ∧ s'.1.settings = s.1.settings ∧
      ∃ os, Each (ConfigOf io dir) (ofKind .config ls) os ∧ Unified io.unify s.1.types (os.map (·.types)) s'.1.types from H h
  intro ls
  induction ls with
  | nil =>
    intro s s' h
    rw [addLinks] at h
    cases Res.ok.inj h
    exact ⟨rfl, rfl, [], .nil, .nil⟩
  | cons l r ih =>
    intro s s' h
    rw [addLinks, bind_ok] at h
    obtain ⟨s1, h1, h2⟩ := h
    obtain ⟨e1, e2, os, ho, hu⟩ := ih h2
    have st := step_of_addLink h1
    cases st
    case config o t hk hc ht =>
      exact ⟨e1, e2, o :: os, by rw [ofKind_same hk]; exact .cons hc ho, .cons ht hu⟩
    all_goals exact ⟨e1, e2, os, by rw [ofKind_other (by simp_all)]; exact ho, hu⟩

theorem get_addProto {k : Text} : ∀ {fs : List PFile} {m : List (Text × PFile)},
    (∀ g, get (addProto fs m) k = some g → (g ∈ fs ∧ k = g.name) ∨ get m k = some g) ∧
    ((get m k).isSome → (get (addProto fs m) k).isSome) ∧ (∀ f ∈ fs, f.name = k → (get (addProto fs m) k).isSome)
  | [], m => ⟨fun g h => .inr h, fun h => h, fun f hf => absurd hf List.not_mem_nil⟩
  | f :: fs, m => by
    obtain ⟨h1, h2, h3⟩ := @get_addProto k fs (insert m f.name f)
    have e : addProto (f :: fs) m = addProto fs (insert m f.name f) := rfl
    rw [e]
    rw [get_insert] at h1 h2
    refine ⟨fun g hg => ?_, fun hm => h2 ?_, fun g hg hk => ?_⟩
    · rcases h1 g hg with ⟨ha, hb⟩ | h
      · exact .inl ⟨List.mem_cons_of_mem _ ha, hb⟩
      · split at h
        · rename_i e
          cases h
          exact .inl ⟨List.mem_cons_self .., e⟩
        · exact .inr h
    · split
      · rfl
      · exact hm
    · rcases List.mem_cons.1 hg with e | hg
      · subst e
        exact h2 (by rw [if_pos hk.symm]; rfl)
      · exact h3 g hg hk

theorem get_addProtos {k : Text} : ∀ {ls : List (List PFile)} {m : List (Text × PFile)},
    (∀ g, get (ls.foldl (fun m fs => addProto fs m) m) k = some g → (∃ fs ∈ ls, g ∈ fs ∧ k = g.name) ∨ get m k = some g) ∧
    ((get m k).isSome → (get (ls.foldl (fun m fs => addProto fs m) m) k).isSome) ∧
    (∀ fs ∈ ls, ∀ f ∈ fs, f.name = k → (get (ls.foldl (fun m fs => addProto fs m) m) k).isSome)
  | [], m => ⟨fun g h => .inr h, fun h => h, fun f hf => absurd hf List.not_mem_nil⟩
  | l :: ls, m => by
    obtain ⟨h1, h2, h3⟩ := @get_addProtos k ls (addProto l m)
    obtain ⟨a1, a2, a3⟩ := @get_addProto k l m
    rw [List.foldl_cons]
    refine ⟨fun g hg => ?_, fun hm => h2 (a2 hm), fun fs hfs f hf hk => ?_⟩
    · rcases h1 g hg with ⟨fs, hfs, ha⟩ | h
      · exact .inl ⟨fs, List.mem_cons_of_mem _ hfs, ha⟩
      · rcases a1 g h with h | h
        · exact .inl ⟨l, List.mem_cons_self .., h⟩
        · exact .inr h
    · rcases List.mem_cons.1 hfs with e | hfs
      · subst e; exact h2 (a3 f hf hk)
      · exact h3 fs hfs f hf hk

/-- **C122**: the proto files are those of the links, by their names: each is from a link, and for each of a
link there is one of its name. -/
theorem C122_protos {β : Type} {io : Io β} {n : Nat} {dir : Text} {c c' : Cfg β} {x : Ext}
    (h : resolve io n dir c = .ok (c', x)) :
    (∀ k g, At x.protos k g → k = g.name ∧ ∃ l ∈ followed c, FromLink io n dir l g) ∧
    ∀ l ∈ followed c, ∀ f, FromLink io n dir l f → ∃ g, At x.protos f.name g := by
  rw [resolve_eq] at h
  suffices H : ∀ {ls : List Link} {s s' : Cfg β × Ext}, addLinks io n dir ls s = .ok s' → ∀ k,
      (∀ g, get s'.2.protos k = some g → (k = g.name ∧ ∃ l ∈ ls, FromLink io n dir l g) ∨ get s.2.protos k = some g) ∧
      ((get s.2.protos k).isSome → (get s'.2.protos k).isSome) ∧
      ∀ l ∈ ls, ∀ f, FromLink io n dir l f → f.name = k → (get s'.2.protos k).isSome by
    refine ⟨fun k g hg => ?_, fun l hl f hf => ?_⟩
    · rcases (H h k).1 g (get_some.2 hg) with h | h
      · exact h
      · simp [Ext.empty, Verif.Transform.get] at h
    · obtain ⟨g, hg⟩ := Option.isSome_iff_exists.1 ((H h f.name).2.2 l hl f hf rfl)
      exact ⟨g, get_some.1 hg⟩
  intro ls
  induction ls with
  | nil =>
    intro s s' h k
    rw [addLinks] at h
    cases Res.ok.inj h
    exact ⟨fun g hg => .inr hg, fun h => h, fun l hl => absurd hl List.not_mem_nil⟩
  | cons l r ih =>
    intro s s' h k
    rw [addLinks, bind_ok] at h
    obtain ⟨s1, h1, h2⟩ := h
    obtain ⟨i1, i2, i3⟩ := ih h2 k
    have st := step_of_addLink h1
    have key : (∀ g, get s1.2.protos k = some g → (k = g.name ∧ FromLink io n dir l g) ∨ get s.2.protos k = some g) ∧
        ((get s.2.protos k).isSome → (get s1.2.protos k).isSome) ∧
        ∀ f, FromLink io n dir l f → f.name = k → (get s1.2.protos k).isSome := by
      cases st
      case protobuf fs hk hf =>
        obtain ⟨a1, a2, a3⟩ := @get_addProto k fs s.2.protos
        refine ⟨fun g hg => ?_, a2, fun f hf' e => ?_⟩
        · rcases a1 g hg with ⟨hm, e⟩ | h
          · exact .inl ⟨e, .inl ⟨hk, fs, hf, hm⟩⟩
          · exact .inr h
        · rcases hf' with ⟨_, fs', hf', hm⟩ | ⟨hk', _⟩
          · rw [hf] at hf'
            exact a3 f ((Res.ok.inj hf') ▸ hm) e
          · rw [hk] at hk'; exact absurd hk' (by decide)
      case grpc ls hk hf =>
        obtain ⟨a1, a2, a3⟩ := @get_addProtos k ls s.2.protos
        refine ⟨fun g hg => ?_, a2, fun f hf' e => ?_⟩
        · rcases a1 g hg with ⟨fs, hfs, hm, e⟩ | h
          · exact .inl ⟨e, .inr ⟨hk, ls, fs, hf, hfs, hm⟩⟩
          · exact .inr h
        · rcases hf' with ⟨hk', _⟩ | ⟨_, ls', fs, hf', hfs, hm⟩
          · rw [hk] at hk'; exact absurd hk' (by decide)
          · rw [hf] at hf'
            exact a3 fs ((Res.ok.inj hf') ▸ hfs) f hm e
      all_goals
        refine ⟨fun g hg => .inr hg, fun h => h, fun f hf' e => ?_⟩
        rcases hf' with ⟨hk', _⟩ | ⟨hk', _⟩
        · simp_all
        · simp_all
    obtain ⟨b1, b2, b3⟩ := key
    refine ⟨fun g hg => ?_, fun h => i2 (b2 h), fun l' hl' f hf e => ?_⟩
    · rcases i1 g hg with ⟨e, l', hl', hf⟩ | h
      · exact .inl ⟨e, l', List.mem_cons_of_mem _ hl', hf⟩
      · rcases b1 g h with ⟨e, hf⟩ | h
        · exact .inl ⟨e, l, List.mem_cons_self .., hf⟩
        · exact .inr h
    · rcases List.mem_cons.1 hl' with e' | hl'
      · subst e'; exact i2 (b3 f hf e)
      · exact i3 l' hl' f hf e

/-- **C122**: if the file of one link cannot be found, nothing is read. -/
theorem C122_missing {β : Type} {io : Io β} {n : Nat} {dir : Text} {c : Cfg β} {l : Link} (hl : l ∈ followed c)
    (hp : l.kind ≠ .protobuf) (hg : l.kind ≠ .grpc) (hm : ∀ t, ¬ TextOf io dir l t) (m : Cfg β × Ext) :
    resolve io n dir c ≠ .ok m := by
  rw [resolve_eq]
  suffices H : ∀ {ls : List Link} {s s' : Cfg β × Ext}, addLinks io n dir ls s = .ok s' → l ∉ ls from fun h => H h hl
  intro ls
  induction ls with
  | nil => intro s s' _; exact List.not_mem_nil
  | cons k r ih =>
    intro s s' h hmem
    rw [addLinks, bind_ok] at h
    obtain ⟨s1, h1, h2⟩ := h
    rcases List.mem_cons.1 hmem with e | hmem
    · subst e
      have st := step_of_addLink h1
      cases st
      case config o t hk hc ht =>
        obtain ⟨c, _, hc, _⟩ := hc
        exact hm c hc
      all_goals first | (rename_i hc; exact hm _ hc) | (rename_i hc _; exact hm _ hc) | simp_all
    · exact ih h2 hmem

end Verif.Load
