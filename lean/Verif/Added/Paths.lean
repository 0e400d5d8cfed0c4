import Verif.Added.Spec

/-!
# Paths in types
-/

namespace Verif.Added

open Verif.Mustache (Text)
open Verif.Exec (Ty)
open Verif.Ir (parseUsize)
open Verif.Transform (At Lacks get get_some get_none at_mem at_unique at_not_lacks)

set_option linter.unusedSimpArgs false

/-- The first name of a path. -/
def firstName (p : List Text) : Option Text := p.find? (fun x => (parseUsize x).isNone)

/-- The first name is looked up in the type that is meant. -/
def Clear (c : Config) (info : Typ) (n : Text) (p : List Text) : Prop :=
  ∀ f, firstName p = some f → (get info.fields f).isSome = true → get c.types n = some info

theorem firstName_index {i : Text} {p : List Text} (h : (parseUsize i).isSome = true) : firstName (i :: p) = firstName p := by
  rw [firstName, List.find?_cons]
  cases hi : parseUsize i with
  | none => rw [hi] at h; cases h
  | some n => rfl

theorem firstName_name {f : Text} {p : List Text} (h : parseUsize f = none) : firstName (f :: p) = some f := by
  rw [firstName, List.find?_cons, h]
  rfl

theorem single_name : ∀ t : Ty, (single t).name = t.name
  | .named _ _ => rfl
  | .list t _ => single_name t

theorem nullable_name : ∀ t : Ty, (nullable t).name = t.name
  | .named _ _ => rfl
  | .list _ _ => rfl

theorem nullable_nullable : ∀ t : Ty, (nullable t).isNullable = true
  | .named _ _ => rfl
  | .list _ _ => rfl

/-- The step by a name: the field and what follows. -/
theorem process_field {c : Config} {f : Text} {p : List Text} {t0 : Ty} {info td : Typ} {fd : Fld} {n : Text} {req : Bool}
    (hf : parseUsize f = none) (hn : t0.name = n) (htd : At c.types n td) (hfd : At td.fields f fd) (hc : Clear c info n (f :: p)) :
    processPath c (f :: p) t0 info req =
      if fd.resolvers.isEmpty then
        if c.pre fd.ty.name then processPath c p fd.ty td (req && !fd.ty.isNullable)
        else match get c.types fd.ty.name with
          | some nti => wrap (isList fd.ty) req (processPath c p fd.ty nti (req && !fd.ty.isNullable))
          | none => .error [.noPath f]
      else failed (fd.resolvers.map (fun x => .hasResolver x.1 t0.name f)) (processPath c p fd.ty td req) := by
  have hti : target c t0 info f = some td := by
    rw [target]
    cases hg : get info.fields f with
    | some _ =>
      have := hc f (firstName_name hf) (by rw [hg]; rfl)
      rw [get_some.2 htd] at this
      exact this.symm
    | none => rw [hn]; exact get_some.2 htd
  rw [processPath, if_neg (by rw [hf]; simp), hti]
  simp only [get_some.2 hfd]
  rfl

theorem process_index {c : Config} {i : Text} {p : List Text} {t0 : Ty} {info : Typ} {req : Bool} (h : (parseUsize i).isSome = true) :
    processPath c (i :: p) t0 info req = processPath c p (single t0) info false := by
  rw [processPath, if_pos h]

theorem way_scalar {c : Config} {t t' : Ty} {p : List Text} {fs : List Fld} (h : Way c t p fs t') (hl : Lacks c.types t.name) :
    firstName p = none ∧ fs = [] := by
  induction h with
  | here => exact ⟨rfl, rfl⟩
  | item h1 _ ih => rw [firstName_index h1]; exact ih hl
  | field _ h2 _ _ _ => exact absurd hl (at_not_lacks h2)

theorem clear_scalar {c : Config} {info : Typ} {n : Text} {p : List Text} (h : firstName p = none) : Clear c info n p :=
  fun f hf => by rw [h] at hf; cases hf

theorem clear_self {c : Config} {info : Typ} {n : Text} {p : List Text} (h : get c.types n = some info) : Clear c info n p :=
  fun _ _ _ => h

theorem clear_index {c : Config} {info : Typ} {n i : Text} {p : List Text} (h : (parseUsize i).isSome = true) (hc : Clear c info n (i :: p)) :
    Clear c info n p := by
  intro f hf
  exact hc f (by rw [firstName_index h]; exact hf)

theorem known_pre {c : Config} (hs : Sane c) {fd : Fld} {nti : Typ} (h : get c.types fd.ty.name = some nti) : ¬ c.pre fd.ty.name = true :=
  fun h' => at_not_lacks (get_some.1 h) (hs _ h')

/-- A way whose fields have no resolvers and known types is accepted. -/
theorem process_way {c : Config} (hs : Sane c) {t t' : Ty} {p : List Text} {fs : List Fld} (h : Way c t p fs t') :
    ∀ (t0 : Ty) (info : Typ), t0.name = t.name → Clear c info t.name p → (∀ fd ∈ fs, fd.resolvers = [] ∧ Known c fd) →
    ∃ T, processPath c p t0 info false = .ok T ∧ T.name = t'.name := by
  induction h with
  | @here t =>
    intro t0 info hn _ _
    refine ⟨nullable t0, ?_, by rw [nullable_name, hn]⟩
    rw [processPath]
    rfl
  | @item e nn i p fs t h1 _ ih =>
    intro t0 info hn hc hfs
    rw [process_index h1]
    exact ih (single t0) info (by rw [single_name]; exact hn) (clear_index h1 hc) hfs
  | @field n nn f td fd p fs t h1 h2 h3 h4 ih =>
    intro t0 info hn hc hfs
    rw [process_field h1 hn h2 h3 hc, if_pos (by rw [(hfs fd List.mem_cons_self).1]; rfl)]
    have hfs' := fun x hx => hfs x (List.mem_cons_of_mem fd hx)
    rcases (hfs fd List.mem_cons_self).2 with hk | ⟨nti, hk⟩
    · rw [if_pos hk, Bool.false_and]
      exact ih fd.ty td rfl (clear_scalar (way_scalar h4 (hs _ hk)).1) hfs'
    · rw [if_neg (known_pre hs (get_some.2 hk)), get_some.2 hk]
      obtain ⟨T, e, hT⟩ := ih fd.ty nti rfl (clear_self (get_some.2 hk)) hfs'
      simp only [Bool.false_and, e, wrap]
      refine ⟨_, rfl, ?_⟩
      split
      · exact hT
      · exact hT

theorem failed_error {α : Type} (es : List AErr) (v : V α) : ∃ es', failed es v = .error es' := by
  cases v with
  | ok _ => exact ⟨_, rfl⟩
  | error _ => exact ⟨_, rfl⟩

theorem failed_not {α : Type} (es : List AErr) (v : V α) (x : α) : failed es v ≠ .ok x := by
  obtain ⟨es', e⟩ := failed_error es v
  rw [e]
  intro h
  cases h

/-- If a way is accepted, its fields have no resolvers and known types. -/
theorem way_accepted {c : Config} (hs : Sane c) {t t' : Ty} {p : List Text} {fs : List Fld} (h : Way c t p fs t') :
    ∀ (t0 : Ty) (info : Typ) (T : Ty), t0.name = t.name → Clear c info t.name p → processPath c p t0 info false = .ok T →
    ∀ fd ∈ fs, fd.resolvers = [] ∧ Known c fd := by
  induction h with
  | here => intro _ _ _ _ _ _ fd hfd; cases hfd
  | @item e nn i p fs t h1 _ ih =>
    intro t0 info T hn hc hp
    rw [process_index h1] at hp
    exact ih (single t0) info T (by rw [single_name]; exact hn) (clear_index h1 hc) hp
  | @field n nn f td fd p fs t h1 h2 h3 h4 ih =>
    intro t0 info T hn hc hp
    rw [process_field h1 hn h2 h3 hc] at hp
    by_cases hr : fd.resolvers.isEmpty = true
    · rw [if_pos hr] at hp
      by_cases hk : c.pre fd.ty.name = true
      · rw [if_pos hk, Bool.false_and] at hp
        intro x hx
        rcases List.mem_cons.1 hx with rfl | hx
        · exact ⟨List.isEmpty_iff.1 hr, .inl hk⟩
        · exact ih fd.ty td T rfl (clear_scalar (way_scalar h4 (hs _ hk)).1) hp x hx
      · rw [if_neg hk] at hp
        cases hg : get c.types fd.ty.name with
        | none => rw [hg] at hp; cases hp
        | some nti =>
          rw [hg] at hp
          simp only [Bool.false_and] at hp
          cases hq : processPath c p fd.ty nti false with
          | error es => rw [hq] at hp; cases hp
          | ok T' =>
            intro x hx
            rcases List.mem_cons.1 hx with rfl | hx
            · exact ⟨List.isEmpty_iff.1 hr, .inr ⟨nti, get_some.1 hg⟩⟩
            · exact ih fd.ty nti T' rfl (clear_self hg) hq x hx
    · rw [if_neg hr] at hp
      obtain ⟨es, e⟩ := failed_error (fd.resolvers.map (fun x => .hasResolver x.1 t0.name f)) (processPath c p fd.ty td false)
      rw [e] at hp
      cases hp

/-- The type at the end of a way without indices. -/
def endType (c : Config) (p : List Text) (t : Ty) : Ty :=
  if p ≠ [] ∧ isList t = true ∧ ¬ c.pre t.name = true then .list (nullable t) false else nullable t

theorem way_names {c : Config} {t t' : Ty} {s : Text} {p : List Text} {fs : List Fld} (h : Way c t (s :: p) fs t') (hs : parseUsize s = none) :
    isList t = false := by
  cases h with
  | item h1 _ => rw [hs] at h1; cases h1
  | field _ _ _ _ => rfl

theorem way_nil {c : Config} {t t' : Ty} {p : List Text} {fs : List Fld} (h : Way c t p fs t') (hp : p = []) : t' = t := by
  cases h with
  | here => rfl
  | item _ _ => cases hp
  | field _ _ _ _ => cases hp

theorem process_names {c : Config} (hs : Sane c) {t t' : Ty} {p : List Text} {fs : List Fld} (h : Way c t p fs t') :
    ∀ (info : Typ), Clear c info t.name p → (∀ s ∈ p, parseUsize s = none) → ∀ T, processPath c p t info false = .ok T →
    T = endType c p t' := by
  induction h with
  | @here t =>
    intro info _ _ T hp
    rw [processPath] at hp
    cases hp
    rfl
  | item h1 _ _ =>
    intro _ _ hno _ _
    rw [hno _ List.mem_cons_self] at h1
    cases h1
  | @field n nn f td fd p fs t h1 h2 h3 h4 ih =>
    intro info hc hno T hp
    have hall := way_accepted hs (.field h1 h2 h3 h4) (.named n nn) info T rfl hc hp fd List.mem_cons_self
    rw [process_field h1 rfl h2 h3 hc, if_pos (by rw [hall.1]; rfl)] at hp
    have hno' := fun s hx => hno s (List.mem_cons_of_mem f hx)
    rcases hall.2 with hk | ⟨nti, hk⟩
    · rw [if_pos hk, Bool.false_and] at hp
      have hp0 : p = [] := by
        cases p with
        | nil => rfl
        | cons s r =>
          have := (way_scalar h4 (hs _ hk)).1
          rw [firstName_name (hno' s List.mem_cons_self)] at this
          cases this
      subst hp0
      rw [way_nil h4 rfl]
      rw [processPath] at hp
      cases hp
      show nullable fd.ty = endType c [f] fd.ty
      rw [endType, if_neg (fun h => h.2.2 hk)]
    · rw [if_neg (known_pre hs (get_some.2 hk)), get_some.2 hk] at hp
      simp only [Bool.false_and] at hp
      cases hq : processPath c p fd.ty nti false with
      | error es => rw [hq] at hp; cases hp
      | ok T' =>
        rw [hq] at hp
        simp only [wrap, Except.ok.injEq] at hp
        have hT := ih nti (clear_self (get_some.2 hk)) hno' T' hq
        cases p with
        | nil =>
          rw [way_nil h4 rfl] at hT ⊢
          rw [endType, if_neg (fun h => h.1 rfl)] at hT
          subst hT
          rw [endType]
          by_cases hl : isList fd.ty = true
          · rw [if_pos hl] at hp
            rw [if_pos ⟨by simp, hl, known_pre hs (get_some.2 hk)⟩, hp]
          · rw [if_neg hl] at hp
            rw [if_neg (fun h => hl h.2.1), hp]
        | cons s r =>
          have hl := way_names h4 (hno' s List.mem_cons_self)
          rw [hl] at hp
          simp only [Bool.false_eq_true, if_false] at hp
          rw [← hp, hT, endType, endType]
          simp

/-- A name that a type does not have at the end of a way is refused. -/
theorem process_missing {c : Config} (hs : Sane c) {t t' : Ty} {p : List Text} {fs : List Fld} (h : Way c t p fs t') :
    ∀ (t0 : Ty) (info td : Typ) (n g : Text) (nn : Bool), t' = .named n nn → At c.types n td → Lacks td.fields g → parseUsize g = none →
    t0.name = t.name → Clear c info t.name (p ++ [g]) → ∃ es, processPath c (p ++ [g]) t0 info false = .error es := by
  induction h with
  | @here t =>
    intro t0 info td n g nn e htd hl hg hn hc
    subst e
    have hti : target c t0 info g = some td := by
      rw [target]
      cases hx : get info.fields g with
      | some y =>
        have := hc g (firstName_name hg) (by rw [hx]; rfl)
        rw [show (Ty.named n nn).name = n from rfl, get_some.2 htd] at this
        exact this.symm
      | none => rw [hn]; exact get_some.2 htd
    rw [List.nil_append, processPath, if_neg (by rw [hg]; simp), hti]
    simp only [get_none.2 hl]
    exact ⟨_, rfl⟩
  | @item e nn i p fs t h1 _ ih =>
    intro t0 info td n g nn' e' htd hl hg hn hc
    rw [List.cons_append, process_index h1]
    exact ih (single t0) info td n g nn' e' htd hl hg (by rw [single_name]; exact hn) (clear_index h1 hc)
  | @field n nn f td fd p fs t h1 h2 h3 h4 ih =>
    intro t0 info td' n' g nn' e' htd hl hg hn hc
    rw [List.cons_append, process_field h1 hn h2 h3 (by rw [← List.cons_append]; exact hc)]
    by_cases hr : fd.resolvers.isEmpty = true
    · rw [if_pos hr]
      by_cases hk : c.pre fd.ty.name = true
      · exfalso
        obtain ⟨hf, _⟩ := way_scalar h4 (hs _ hk)
        have : ∀ {t t' : Ty} {p fs}, Way c t p fs t' → Lacks c.types t.name → t'.name = t.name := by
          intro t t' p fs hw
          induction hw with
          | here => intro _; rfl
          | item _ _ ih => intro hl; exact ih hl
          | field _ h2 _ _ _ => intro hl; exact absurd hl (at_not_lacks h2)
        have hx := this h4 (hs _ hk)
        subst e'
        rw [show (Ty.named n' nn').name = n' from rfl] at hx
        exact at_not_lacks htd (by rw [hx]; exact hs _ hk)
      · rw [if_neg hk]
        cases hgt : get c.types fd.ty.name with
        | none => exact ⟨_, rfl⟩
        | some nti =>
          obtain ⟨es, e⟩ := ih fd.ty nti td' n' g nn' e' htd hl hg rfl (clear_self hgt)
          simp only [Bool.false_and, e, wrap]
          exact ⟨_, rfl⟩
    · rw [if_neg hr]
      exact failed_error _ _

theorem process_nullable {c : Config} : ∀ (k : Nat) (p : List Text), p.length ≤ k → ∀ (t : Ty) (info : Typ) (T : Ty),
    processPath c p t info false = .ok T → T.isNullable = true
  | _, [], _, t, info, T, h => by
    rw [processPath] at h
    cases h
    exact nullable_nullable t
  | 0, _ :: _, hk, _, _, _, _ => by cases hk
  | k + 1, f :: r, hk, t, info, T, h => by
    have hk' : r.length ≤ k := Nat.le_of_succ_le_succ hk
    rw [processPath] at h
    split at h
    · exact process_nullable k r hk' _ _ _ h
    · split at h
      · cases h
      · split at h
        · split at h
          · split at h
            · rw [Bool.false_and] at h
              exact process_nullable k r hk' _ _ _ h
            · split at h
              · rw [Bool.false_and] at h
                cases hq : processPath c r _ _ false with
                | error es => rw [hq] at h; cases h
                | ok T' =>
                  rw [hq] at h
                  simp only [wrap, Except.ok.injEq] at h
                  subst h
                  split
                  · rfl
                  · exact process_nullable k r hk' _ _ _ hq
              · cases h
          · exact absurd h (failed_not _ _ _)
        · split at h
          · next hd tl =>
            split at h
            · exact process_nullable k tl (by simp at hk'; omega) _ _ _ h
            · cases h
          · cases h

/-- For a field of the type itself it does not matter with which type one begins. -/
theorem process_first {c : Config} {s : Text} {r : List Text} {info : Typ} {T : Ty} (hs : parseUsize s = none)
    (hg : (get info.fields s).isSome = true) (t t2 : Ty) (h : processPath c (s :: r) t info false = .ok T) :
    processPath c (s :: r) t2 info false = .ok T := by
  obtain ⟨f, hf⟩ := Option.isSome_iff_exists.1 hg
  rw [processPath, if_neg (by rw [hs]; simp)] at h ⊢
  have ht : ∀ t, target c t info s = some info := fun t => by rw [target, hf]
  rw [ht] at h ⊢
  simp only [hf] at h ⊢
  by_cases hr : f.resolvers.isEmpty = true
  · rw [if_pos hr] at h ⊢
    exact h
  · rw [if_neg hr] at h
    exact absurd h (failed_not _ _ _)

end Verif.Added
