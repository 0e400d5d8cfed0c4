import Verif.Refine.Spec
import Verif.Merge.Lemmas

/-!
# Lookups, names and merged types
-/

namespace Verif.Refine

open Verif.Mustache (Text)
open Verif.Exec (Ty)
open Verif.Transform

set_option linter.unusedSimpArgs false

/-! ## Lookups -/

theorem get_merge {V : Type} (m : List (Text × V)) (k : Text) : Verif.Merge.get k m = get m k := by
  induction m with
  | nil => rfl
  | cons p r ih => obtain ⟨k', v⟩ := p; rw [Verif.Merge.get, Verif.Transform.get, ih]

theorem get_mInsert {V : Type} (m : List (Text × V)) (k j : Text) (v : V) :
    get (Verif.Merge.insert k v m) j = if k = j then some v else get m j := by
  rw [← get_merge, Verif.Merge.get_insert, get_merge]

theorem toDigits_inj {a b : Nat} (h : Nat.toDigits 10 a = Nat.toDigits 10 b) : a = b := by
  have := congrArg (Nat.ofDigitChars 10 · 0) h
  simpa using this

theorem mergedName_inj {a b : Nat} (h : mergedName a = mergedName b) : a = b :=
  toDigits_inj (List.append_cancel_left h)

/-! ## Names -/

theorem withName_eq (σ : Text → Text) : ∀ t : Ty, withName (σ t.name) t = mapTy σ t
  | .named a nn => rfl
  | .list t nn => by
    show Ty.list (withName (σ t.name) t) nn = _
    rw [withName_eq σ t]; rfl

theorem mapTy_id : ∀ t : Ty, ∀ σ : Text → Text, σ t.name = t.name → mapTy σ t = t
  | .named a nn, σ, h => by rw [mapTy]; exact congrArg (Ty.named · nn) h
  | .list t nn, σ, h => by rw [mapTy, mapTy_id t σ h]

theorem renameTy_eq (l : List (Text × Text)) (t : Ty) : renameTy l t = mapTy (newName l) t := by
  rw [renameTy, ← withName_eq]
  cases h : get l t.name with
  | some n => simp only [newName, h, Option.getD_some]
  | none =>
    simp only []
    rw [withName_eq, mapTy_id]
    simp only [newName, h, Option.getD_none]

theorem renameType_eq (l : List (Text × Text)) (t : TypeD) : renameType l t = mapType (newName l) t := by
  rw [renameType, mapType]
  simp only [renameTy_eq, mapField]

theorem mapTy_comp (σ τ : Text → Text) : ∀ t : Ty, mapTy τ (mapTy σ t) = mapTy (τ ∘ σ) t
  | .named _ _ => rfl
  | .list t nn => by simp only [mapTy, mapTy_comp σ τ t]

theorem mapTy_name (σ : Text → Text) : ∀ t : Ty, (mapTy σ t).name = σ t.name
  | .named _ _ => rfl
  | .list t nn => by
    show (mapTy σ t).name = σ t.name
    exact mapTy_name σ t

theorem mapTy_isList (σ : Text → Text) : ∀ t : Ty, isList (mapTy σ t) = isList t
  | .named _ _ => rfl
  | .list _ _ => rfl

theorem mapArgs_comp (σ τ : Text → Text) (l : List (Text × ArgD)) :
    (l.map (fun a => (a.1, { a.2 with ty := mapTy σ a.2.ty }))).map (fun a => (a.1, { a.2 with ty := mapTy τ a.2.ty })) =
    l.map (fun a => (a.1, { a.2 with ty := mapTy (τ ∘ σ) a.2.ty })) := by
  rw [List.map_map]
  refine List.map_congr_left (fun a _ => ?_)
  simp only [Function.comp, mapTy_comp]

theorem mapField_comp (σ τ : Text → Text) (f : FieldD) : mapField τ (mapField σ f) = mapField (τ ∘ σ) f := by
  simp only [mapField, mapTy_comp, mapArgs_comp]

theorem mapType_comp (σ τ : Text → Text) (t : TypeD) : mapType τ (mapType σ t) = mapType (τ ∘ σ) t := by
  simp only [mapType, List.map_map]
  congr 1
  refine List.map_congr_left (fun a _ => ?_)
  simp only [Function.comp, mapField_comp]

theorem at_mapFields (σ : Text → Text) (t : TypeD) (f : Text) (fd' : FieldD) :
    At (mapType σ t).fields f fd' ↔ ∃ fd, At t.fields f fd ∧ fd' = mapField σ fd := by
  rw [← get_some, mapType]
  simp only []
  rw [get_map, Option.map_eq_some_iff]
  constructor
  · rintro ⟨fd, h, rfl⟩; exact ⟨fd, get_some.1 h, rfl⟩
  · rintro ⟨fd, h, rfl⟩; exact ⟨fd, get_some.2 h, rfl⟩

theorem sorted_mapFields {σ : Text → Text} {t : TypeD} (h : Verif.Merge.Sorted t.fields) :
    Verif.Merge.Sorted (mapType σ t).fields := by
  rw [mapType, Verif.Merge.Sorted]
  exact List.pairwise_map.2 h

theorem nodup_of_sorted {V : Type} {l : List (Text × V)} (h : Verif.Merge.Sorted l) : (l.map (·.1)).Nodup := by
  rw [List.Nodup, List.pairwise_map]
  refine List.Pairwise.imp ?_ h
  intro a b hab e
  rw [e, Verif.Merge.tlt_irrefl] at hab
  cases hab

theorem at_of_mem_sorted {V : Type} : ∀ {l : List (Text × V)}, Verif.Merge.Sorted l → ∀ {k : Text} {v : V}, (k, v) ∈ l →
    At l k v
  | (k', v') :: r, hs, k, v, h => by
    rw [Verif.Merge.Sorted, List.pairwise_cons] at hs
    rw [← get_some, Verif.Transform.get]
    rcases List.mem_cons.1 h with e | h
    · cases e; rw [if_pos rfl]
    · split
      · next e =>
        have := hs.1 _ h
        rw [e, Verif.Merge.tlt_irrefl] at this
        cases this
      · exact get_some.2 (at_of_mem_sorted hs.2 h)

/-! ## Merged fields -/

/-- The type of a merged field. -/
def mergeOpt (old : Option FieldD) (f : FieldD) : FieldD :=
  match old with
  | some o => mergeField o f
  | none => f

theorem mergeFields_eq (n : Text) (f : FieldD) (r into : List (Text × FieldD)) :
    mergeFields ((n, f) :: r) into = mergeFields r (Verif.Merge.insert n (mergeOpt (get into n) f) into) := by
  rw [mergeFields]
  cases get into n <;> rfl

theorem mergeFields_get : ∀ {fs into : List (Text × FieldD)}, (fs.map (·.1)).Nodup → ∀ f,
    get (mergeFields fs into) f = match get fs f with
      | some fd => some (mergeOpt (get into f) fd)
      | none => get into f
  | [], into, _, f => rfl
  | (n, fd) :: r, into, h, f => by
    rw [List.map_cons, List.nodup_cons] at h
    rw [mergeFields_eq, mergeFields_get h.2, Verif.Transform.get]
    by_cases e : n = f
    · subst e
      have hn : get r n = none := get_none.2 h.1
      rw [if_pos rfl, hn]
      simp only []
      rw [get_mInsert, if_pos rfl]
    · rw [if_neg e]
      simp only [get_mInsert, if_neg e]

theorem mergeFields_sorted : ∀ {fs into : List (Text × FieldD)}, Verif.Merge.Sorted into → Verif.Merge.Sorted (mergeFields fs into)
  | [], _, h => h
  | (n, fd) :: r, into, h => by
    rw [mergeFields_eq]
    exact mergeFields_sorted (Verif.Merge.sorted_insert h)

/-- The merged type of a list of types. -/
def mergeAll (join : Text → Text → Text) (fs : List (Text × TypeD)) (into : TypeD) : TypeD :=
  fs.foldl (fun acc p => mergeType join p.2 acc) into

/-- A field that is another one, but perhaps with the type `JSON`. -/
def Like (fd fd0 : FieldD) : Prop :=
  fd.args = fd0.args ∧ fd.info = fd0.info ∧ (fd.ty = fd0.ty ∨ fd.ty = .named json false)

theorem mergeOpt_like (old : Option FieldD) (f : FieldD) : Like (mergeOpt old f) f := by
  cases old with
  | none => exact ⟨rfl, rfl, .inl rfl⟩
  | some o =>
    rw [mergeOpt, mergeField]
    split
    · exact ⟨rfl, rfl, .inr rfl⟩
    · exact ⟨rfl, rfl, .inl rfl⟩

theorem mergeAll_sorted {join : Text → Text → Text} : ∀ {fs : List (Text × TypeD)} {into : TypeD},
    Verif.Merge.Sorted into.fields → Verif.Merge.Sorted (mergeAll join fs into).fields
  | [], _, h => h
  | p :: r, into, h => by
    rw [mergeAll, List.foldl_cons]
    exact mergeAll_sorted (fs := r) (mergeFields_sorted h)

theorem mergeAll_kept {join : Text → Text → Text} : ∀ {fs : List (Text × TypeD)} {into : TypeD},
    (∀ p ∈ fs, Verif.Merge.Sorted p.2.fields) → ∀ f,
    ((get into.fields f).isSome ∨ ∃ p ∈ fs, (get p.2.fields f).isSome) →
    (get (mergeAll join fs into).fields f).isSome
  | [], into, _, f, h => by
    rcases h with h | ⟨p, hp, _⟩
    · exact h
    · cases hp
  | q :: r, into, hs, f, h => by
    rw [mergeAll, List.foldl_cons]
    refine mergeAll_kept (fs := r) (fun p hp => hs p (List.mem_cons_of_mem _ hp)) f ?_
    rw [show (mergeType join q.2 into).fields = mergeFields q.2.fields into.fields from rfl,
      mergeFields_get (nodup_of_sorted (hs q List.mem_cons_self))]
    rcases h with h | ⟨p, hp, h⟩
    · left
      cases get q.2.fields f with
      | none => exact h
      | some fd => rfl
    · rcases List.mem_cons.1 hp with rfl | hp
      · left
        cases hg : get p.2.fields f with
        | none => rw [hg] at h; cases h
        | some fd => rfl
      · exact .inr ⟨p, hp, h⟩

theorem mergeAll_from {join : Text → Text → Text} : ∀ {fs : List (Text × TypeD)} {into : TypeD},
    (∀ p ∈ fs, Verif.Merge.Sorted p.2.fields) → ∀ {f fd}, get (mergeAll join fs into).fields f = some fd →
    get into.fields f = some fd ∨ ∃ p ∈ fs, ∃ fd0, get p.2.fields f = some fd0 ∧ Like fd fd0
  | [], into, _, f, fd, h => .inl h
  | q :: r, into, hs, f, fd, h => by
    rw [mergeAll, List.foldl_cons] at h
    rcases mergeAll_from (fs := r) (fun p hp => hs p (List.mem_cons_of_mem _ hp)) h with h | ⟨p, hp, h⟩
    · rw [show (mergeType join q.2 into).fields = mergeFields q.2.fields into.fields from rfl,
        mergeFields_get (nodup_of_sorted (hs q List.mem_cons_self))] at h
      cases hg : get q.2.fields f with
      | none => rw [hg] at h; exact .inl h
      | some fd0 =>
        rw [hg] at h
        cases h
        exact .inr ⟨q, List.mem_cons_self, fd0, hg, mergeOpt_like _ _⟩
    · exact .inr ⟨p, List.mem_cons_of_mem _ hp, h⟩

theorem mergeAll_impls {join : Text → Text → Text} : ∀ {fs : List (Text × TypeD)} {into : TypeD} {i : Text},
    i ∈ (mergeAll join fs into).implements ↔ i ∈ into.implements ∨ ∃ p ∈ fs, i ∈ p.2.implements
  | [], into, i => ⟨.inl, fun h => h.elim id (fun ⟨_, hp, _⟩ => by cases hp)⟩
  | q :: r, into, i => by
    have ih := mergeAll_impls (join := join) (fs := r) (into := mergeType join q.2 into) (i := i)
    rw [mergeAll] at ih
    rw [mergeAll, List.foldl_cons, ih, show (mergeType join q.2 into).implements = into.implements ++ q.2.implements from rfl,
      List.mem_append]
    constructor
    · rintro ((h | h) | ⟨p, hp, h⟩)
      · exact .inl h
      · exact .inr ⟨q, List.mem_cons_self, h⟩
      · exact .inr ⟨p, List.mem_cons_of_mem _ hp, h⟩
    · rintro (h | ⟨p, hp, h⟩)
      · exact .inl (.inl h)
      · rcases List.mem_cons.1 hp with rfl | hp
        · exact .inl (.inr h)
        · exact .inr ⟨p, hp, h⟩

end Verif.Refine
