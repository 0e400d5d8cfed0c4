import Verif.Ir.Props

/-!
# C54: `__typename` discrimination
-/

namespace Verif.Ir

open Verif.Mustache (Text Template)
open Verif.HttpUrl (GVal)

set_option linter.unusedSimpArgs false

/-- Specification: the object has the string `t` under `__typename`. -/
def TypeName (kvs : List (Text × GVal)) (t : Text) : Prop :=
  Verif.Merge.get "__typename".toList kvs = some (.str t)

/-- Specification: `out` is `kvs` with `__typename` set to `t` and nothing else changed. -/
def Labelled (t : Text) (kvs out : List (Text × GVal)) : Prop :=
  TypeName out t ∧ ∀ k, k ≠ "__typename".toList → Verif.Merge.get k out = Verif.Merge.get k kvs

/-- Specification: the member types. -/
def Discr.types : Discr → List Text
  | .keyed ts => ts
  | .typeField ts _ => ts

/-- Specification of discrimination. -/
inductive Typed (d : Discr) : GVal → GVal → Prop where
  | null : Typed d .null .null
  | nil : Typed d (.list []) (.list [])
  | cons {v v' : GVal} {l l' : List GVal} (h : Typed d v v') (hr : Typed d (.list l) (.list l')) :
      Typed d (.list (v :: l)) (.list (v' :: l'))
  | kept {kvs : List (Text × GVal)} {t : Text} (h : TypeName kvs t) : Typed d (.obj kvs) (.obj kvs)
  | keyedNull {ts : List Text} {t : Text} (hd : d = .keyed ts) (ht : t ∈ ts) :
      Typed d (.obj [(t, .null)]) .null
  | keyed {ts : List Text} {t : Text} {kvs out : List (Text × GVal)} (hd : d = .keyed ts)
      (ht : t ∈ ts) (ho : Labelled t kvs out) : Typed d (.obj [(t, .obj kvs)]) (.obj out)
  | field {ts : List Text} {f t : Text} {kvs out : List (Text × GVal)}
      (hd : d = .typeField ts f) (hn : ∀ s, ¬ TypeName kvs s)
      (hf : Verif.Merge.get f kvs = some (.str t)) (ht : t ∈ ts) (ho : Labelled t kvs out) :
      Typed d (.obj kvs) (.obj out)

theorem get_append (k : Text) (a b : List (Text × GVal)) :
    Verif.Merge.get k (a ++ b) = (Verif.Merge.get k a).or (Verif.Merge.get k b) := by
  induction a with
  | nil => simp [Verif.Merge.get]
  | cons p r ih =>
    obtain ⟨k', v⟩ := p
    simp only [List.cons_append, Verif.Merge.get]
    by_cases h : k' = k
    · simp [h]
    · simp [h, ih]

theorem get_setKey (k k' : Text) (v : GVal) (l : List (Text × GVal))
    (h : Verif.Merge.get k l ≠ none) :
    Verif.Merge.get k' (Verif.Merge.setKey k v l) =
      if k = k' then some v else Verif.Merge.get k' l := by
  induction l with
  | nil => simp [Verif.Merge.get] at h
  | cons p r ih =>
    obtain ⟨k2, v2⟩ := p
    simp only [Verif.Merge.setKey]
    by_cases h2 : k2 = k
    · subst h2
      simp only [if_pos, Verif.Merge.get]
      by_cases h3 : k2 = k' <;> simp [h3]
    · simp only [if_neg h2, Verif.Merge.get]
      simp only [Verif.Merge.get, if_neg h2] at h
      rw [ih h]
      by_cases h3 : k2 = k'
      · subst h3; simp [Ne.symm h2]
      · simp [h3]

theorem insertKey_labelled (t : Text) (kvs : List (Text × GVal)) :
    Labelled t kvs (insertKey typenameField (.str t) kvs) := by
  unfold insertKey Labelled TypeName typenameField
  generalize "__typename".toList = k
  cases h : Verif.Merge.get k kvs with
  | some v =>
    simp only []
    have hn : Verif.Merge.get k kvs ≠ none := by rw [h]; simp
    refine ⟨by rw [get_setKey k k _ _ hn]; simp, fun k' hk => ?_⟩
    rw [get_setKey k k' _ _ hn, if_neg (Ne.symm hk)]
  | none =>
    simp only []
    refine ⟨by rw [get_append, h]; simp [Verif.Merge.get], fun k' hk => ?_⟩
    rw [get_append]
    simp [Verif.Merge.get, Ne.symm hk]

theorem getTypeName_obj (kvs : List (Text × GVal)) (t : Text) :
    getTypeName (.obj kvs) = some t ↔ TypeName kvs t := by
  unfold getTypeName TypeName typenameField
  generalize "__typename".toList = k
  cases h : Verif.Merge.get k kvs with
  | none => simp [h]
  | some v => cases v <;> simp [h]

theorem getTypeName_none (kvs : List (Text × GVal)) (h : getTypeName (.obj kvs) = none) (t : Text) :
    ¬ TypeName kvs t := by
  rw [← getTypeName_obj, h]; simp

theorem setTypeName_ok {t : Text} {v v' : GVal} (h : setTypeName t v = .ok v') :
    (v = .null ∧ v' = .null) ∨
    ∃ kvs, v = .obj kvs ∧ v' = .obj (insertKey typenameField (.str t) kvs) := by
  cases v with
  | null => simp only [setTypeName, Except.ok.injEq] at h; exact .inl ⟨rfl, h.symm⟩
  | obj kvs => simp only [setTypeName, Except.ok.injEq] at h; exact .inr ⟨kvs, rfl, h.symm⟩
  | _ => simp [setTypeName] at h

mutual
theorem resolveType_sound (d : Discr) (v v' : GVal) (h : resolveType d v = .ok v') :
    Typed d v v' := by
  match v with
  | .null => simp only [resolveType, Except.ok.injEq] at h; subst h; exact .null
  | .bool b => simp [resolveType] at h
  | .int i => simp [resolveType] at h
  | .float f => simp [resolveType] at h
  | .str s => simp [resolveType] at h
  | .enum s => simp [resolveType] at h
  | .list l =>
    simp only [resolveType] at h
    cases hl : resolveTypes d l with
    | error e => rw [hl] at h; simp at h
    | ok l' =>
      rw [hl] at h
      simp only [Except.ok.injEq] at h
      subst h
      exact resolveTypes_sound d l l' hl
  | .obj kvs =>
    simp only [resolveType] at h
    cases hg : getTypeName (.obj kvs) with
    | some t =>
      rw [hg] at h
      simp only [Except.ok.injEq] at h
      subst h
      exact .kept ((getTypeName_obj kvs t).1 hg)
    | none =>
      rw [hg] at h
      simp only [] at h
      cases d with
      | keyed ts =>
        simp only [keyedSet] at h
        match kvs, h with
        | [], h => simp at h
        | _ :: _ :: _, h => simp at h
        | [(n, w)], h =>
          simp only [] at h
          cases hc : ts.contains n with
          | false => rw [hc] at h; simp at h
          | true =>
            rw [hc] at h
            simp only [if_true] at h
            have hm : n ∈ ts := by simpa using hc
            rcases setTypeName_ok h with ⟨rfl, rfl⟩ | ⟨kvs, rfl, rfl⟩
            · exact .keyedNull rfl hm
            · exact .keyed rfl hm (insertKey_labelled n kvs)
      | typeField ts f =>
        simp only [typeFieldSet] at h
        cases hf : Verif.Merge.get f kvs with
        | none => rw [hf] at h; simp at h
        | some w =>
          rw [hf] at h
          cases w with
          | str t =>
            simp only [] at h
            cases hc : ts.contains t with
            | false => rw [hc] at h; simp at h
            | true =>
              rw [hc] at h
              simp only [if_true, setTypeName, Except.ok.injEq] at h
              subst h
              exact .field rfl (getTypeName_none kvs hg) hf (by simpa using hc)
                (insertKey_labelled t kvs)
          | _ => simp at h
theorem resolveTypes_sound (d : Discr) (l l' : List GVal) (h : resolveTypes d l = .ok l') :
    Typed d (.list l) (.list l') := by
  match l with
  | [] => simp only [resolveTypes, Except.ok.injEq] at h; subst h; exact .nil
  | v :: r =>
    simp only [resolveTypes] at h
    cases hv : resolveType d v with
    | error e => rw [hv] at h; simp at h
    | ok v' =>
      rw [hv] at h
      simp only [] at h
      cases hr : resolveTypes d r with
      | error e => rw [hr] at h; simp at h
      | ok r' =>
        rw [hr] at h
        simp only [Except.ok.injEq] at h
        subst h
        exact .cons (resolveType_sound d v v' hv) (resolveTypes_sound d r r' hr)
end

/-- C54: what discrimination returns is specified by `Typed`: null stays null, lists are handled
element by element, an object that has a type name is kept, and any other object is given the
member type named by its only key (whose value it becomes) or by its discriminating field. -/
theorem C54_resolved (d : Discr) (v v' : GVal) (h : resolveType d v = .ok v') : Typed d v v' :=
  resolveType_sound d v v' h

/-- C54: every value that can be typed is. -/
theorem C54_total (d : Discr) (v v' : GVal) (h : Typed d v v') :
    ∃ v'', resolveType d v = .ok v'' := by
  induction h with
  | null => exact ⟨_, rfl⟩
  | nil => exact ⟨_, rfl⟩
  | @cons v v' l l' _ _ ih1 ih2 =>
    obtain ⟨w, hw⟩ := ih1
    obtain ⟨w', hw'⟩ := ih2
    simp only [resolveType] at hw'
    cases hr : resolveTypes d l with
    | error e => rw [hr] at hw'; simp at hw'
    | ok l'' => exact ⟨.list (w :: l''), by simp only [resolveType, resolveTypes, hw, hr]⟩
  | @kept kvs t h => exact ⟨.obj kvs, by simp only [resolveType, (getTypeName_obj kvs t).2 h]⟩
  | @keyedNull ts t hd ht =>
    subst hd
    have hg : getTypeName (.obj [(t, .null)]) = none := by
      cases hh : getTypeName (.obj [(t, .null)]) with
      | none => rfl
      | some s =>
        rw [getTypeName_obj] at hh
        unfold TypeName at hh
        simp only [Verif.Merge.get] at hh
        split at hh <;> simp at hh
    exact ⟨.null, by simp only [resolveType, hg, keyedSet, List.contains_iff_mem.2 ht, if_true,
      setTypeName]⟩
  | @keyed ts t kvs out hd ht _ =>
    subst hd
    have hg : getTypeName (.obj [(t, .obj kvs)]) = none := by
      cases hh : getTypeName (.obj [(t, .obj kvs)]) with
      | none => rfl
      | some s =>
        rw [getTypeName_obj] at hh
        unfold TypeName at hh
        simp only [Verif.Merge.get] at hh
        split at hh <;> simp at hh
    exact ⟨_, by simp only [resolveType, hg, keyedSet, List.contains_iff_mem.2 ht, if_true,
      setTypeName]; rfl⟩
  | @field ts f t kvs out hd hn hf ht _ =>
    subst hd
    have hg : getTypeName (.obj kvs) = none := by
      cases hh : getTypeName (.obj kvs) with
      | none => rfl
      | some s => exact absurd ((getTypeName_obj kvs s).1 hh) (hn s)
    exact ⟨_, by simp only [resolveType, hg, typeFieldSet, hf, List.contains_iff_mem.2 ht, if_true,
      setTypeName]; rfl⟩

/-- Specification: the objects at the top of a value or of its (nested) lists. -/
inductive TopObj : GVal → List (Text × GVal) → Prop where
  | here (kvs) : TopObj (.obj kvs) kvs
  | head {v l kvs} : TopObj v kvs → TopObj (.list (v :: l)) kvs
  | tail {v l kvs} : TopObj (.list l) kvs → TopObj (.list (v :: l)) kvs

/-- C54: after discrimination every object has a type name, which is one of the member types or
was its type name before.  (Partial: a type name that comes from upstream is kept even if it is not
one of the member types, see `C54_violated_by_upstream_typename`.) -/
theorem C54_member_partial (d : Discr) (v v' : GVal) (h : resolveType d v = .ok v')
    (kvs : List (Text × GVal)) (ht : TopObj v' kvs) :
    ∃ t, TypeName kvs t ∧ (t ∈ d.types ∨ TopObj v kvs) := by
  have hs := C54_resolved d v v' h
  clear h
  induction hs with
  | null => cases ht
  | nil => cases ht
  | cons _ _ ih1 ih2 =>
    cases ht with
    | head ht =>
      obtain ⟨t, h1, h2⟩ := ih1 ht
      exact ⟨t, h1, h2.imp id .head⟩
    | tail ht =>
      obtain ⟨t, h1, h2⟩ := ih2 ht
      exact ⟨t, h1, h2.imp id .tail⟩
  | @kept kvs' t h => cases ht; exact ⟨t, h, .inr (.here _)⟩
  | keyedNull _ _ => cases ht
  | @keyed ts t kvs' out hd hm ho => cases ht; subst hd; exact ⟨t, ho.1, .inl hm⟩
  | @field ts f t kvs' out hd _ _ hm ho => cases ht; subst hd; exact ⟨t, ho.1, .inl hm⟩

/-- C54: lists keep their length. -/
theorem C54_list_length (d : Discr) (l : List GVal) (v' : GVal)
    (h : resolveType d (.list l) = .ok v') : ∃ l', v' = .list l' ∧ l'.length = l.length := by
  have hs := C54_resolved d _ _ h
  clear h
  generalize he : GVal.list l = v at hs
  induction hs generalizing l with
  | nil => cases he; exact ⟨[], rfl, rfl⟩
  | @cons v v' l1 l1' _ _ _ ih2 =>
    cases he
    obtain ⟨l', h1, h2⟩ := ih2 l1 rfl
    cases h1
    exact ⟨v' :: l1', rfl, by simp [h2]⟩
  | _ => simp at he

/-- A type name that the upstream sends is kept although it is not a member type. -/
theorem C54_violated_by_upstream_typename : ∃ d v v' kvs t, resolveType d v = .ok v' ∧
    TopObj v' kvs ∧ TypeName kvs t ∧ t ∉ d.types :=
  ⟨.keyed ["A".toList], .obj [("__typename".toList, .str "Z".toList)],
    .obj [("__typename".toList, .str "Z".toList)], [("__typename".toList, .str "Z".toList)],
    "Z".toList, rfl, .here _, rfl, by decide⟩

example : resolveType (.keyed ["A".toList, "B".toList])
    (.list [.obj [("A".toList, .obj [("x".toList, .int 1)])], .null]) =
    .ok (.list [.obj [("x".toList, .int 1), ("__typename".toList, .str "A".toList)], .null]) := by rfl
example : resolveType (.typeField ["A".toList, "B".toList] "kind".toList)
    (.obj [("kind".toList, .str "B".toList)]) =
    .ok (.obj [("kind".toList, .str "B".toList), ("__typename".toList, .str "B".toList)]) := by rfl
example : resolveType (.typeField ["A".toList] "kind".toList)
    (.obj [("kind".toList, .str "B".toList)]) = .error .discriminate := by rfl

/-! ## Entities -/

theorem evalMap_mem (w : World) (m : List (Text × IR)) (t : Text) (f : Run)
    (hm : (t, f) ∈ evalMap w m) : ∃ x, (t, x) ∈ m := by
  induction m with
  | nil => simp [evalMap] at hm
  | cons p ps ih =>
    obtain ⟨k, y⟩ := p
    simp only [evalMap, evalEntry, List.mem_cons, Prod.mk.injEq] at hm
    rcases hm with ⟨rfl, _⟩ | hm
    · exact ⟨y, by simp⟩
    · obtain ⟨x, hx⟩ := ih hm
      exact ⟨x, by simp [hx]⟩

/-- C54: in the answer of `_entities`, every item that is an object has the type name of its
representation. -/
theorem C54_entity_items (w : World) (m : List (Text × IR)) (c : Ctx) (st : St) (v : GVal)
    (h : (eval w (.entity m) c st).2 = .ok v) :
    ∃ reprs items, c.pathArg ["representations".toList] = some (.list reprs) ∧ v = .list items ∧
      items.length = reprs.length ∧
      ∀ (n : Nat) (kvs : List (Text × GVal)), items[n]? = some (.obj kvs) →
        ∃ r t, reprs[n]? = some (.obj r) ∧ TypeName r t ∧ TypeName kvs t ∧
          ∃ x, (t, x) ∈ m := by
  simp only [eval, evalEntity] at h
  split at h
  · rename_i reprs hr
    refine ⟨reprs, ?_⟩
    cases ht : entityTasks (evalMap w m) reprs with
    | error e => rw [ht] at h; simp at h
    | ok ts =>
      rw [ht] at h
      simp only [] at h
      rcases hrun : runTasks c ts st with ⟨st', rs⟩
      rw [hrun] at h
      simp only [] at h
      cases hc : collect rs with
      | error e => rw [hc] at h; simp at h
      | ok vs =>
        rw [hc] at h
        simp only [Except.ok.injEq] at h
        refine ⟨vs, hr, h.symm, ?_⟩
        clear h hr
        induction reprs generalizing ts rs vs st st' with
        | nil =>
          simp only [entityTasks, Except.ok.injEq] at ht
          subst ht
          simp only [runTasks, Prod.mk.injEq] at hrun
          obtain ⟨_, rfl⟩ := hrun
          simp only [collect, Except.ok.injEq] at hc
          subst hc
          simp
        | cons r rest ih =>
          unfold entityTasks at ht
          cases hn : getTypeName r with
          | none => rw [hn] at ht; simp at ht
          | some t =>
            rw [hn] at ht
            simp only [] at ht
            cases hg : Verif.Merge.get t (evalMap w m) with
            | none => rw [hg] at ht; simp at ht
            | some f =>
              rw [hg] at ht
              simp only [] at ht
              cases he : entityTasks (evalMap w m) rest with
              | error e => rw [he] at ht; simp at ht
              | ok ts' =>
                rw [he] at ht
                simp only [Except.ok.injEq] at ht
                subst ht
                simp only [runTasks] at hrun
                rcases hf : f (c.withValue r) st with ⟨st1, q⟩
                rw [hf] at hrun
                simp only [] at hrun
                rcases hrest : runTasks c ts' st1 with ⟨st2, qs⟩
                rw [hrest] at hrun
                simp only [Prod.mk.injEq] at hrun
                obtain ⟨_, rfl⟩ := hrun
                cases q with
                | error e => simp [collect] at hc
                | ok x =>
                  simp only [] at hc
                  cases hs : setTypeName t x with
                  | error e => rw [hs] at hc; simp [collect] at hc
                  | ok y =>
                    rw [hs] at hc
                    simp only [collect] at hc
                    cases hcr : collect qs with
                    | error e => rw [hcr] at hc; simp at hc
                    | ok ys =>
                      rw [hcr] at hc
                      simp only [Except.ok.injEq] at hc
                      subst hc
                      obtain ⟨hlen, hitems⟩ := ih st1 ts' he st2 qs hrest ys hcr
                      refine ⟨by simp [hlen], fun n kvs hn2 => ?_⟩
                      cases n with
                      | succ n =>
                        simp only [List.getElem?_cons_succ] at hn2 ⊢
                        exact hitems n kvs hn2
                      | zero =>
                        simp only [List.getElem?_cons_zero, Option.some.injEq] at hn2 ⊢
                        subst hn2
                        rcases setTypeName_ok hs with ⟨_, h2⟩ | ⟨kvs', _, h2⟩
                        · simp at h2
                        · simp only [GVal.obj.injEq] at h2
                          subst h2
                          have hr2 : ∃ rk, r = .obj rk := by
                            cases r <;> simp [getTypeName] at hn
                            exact ⟨_, rfl⟩
                          obtain ⟨rk, rfl⟩ := hr2
                          refine ⟨rk, t, rfl, (getTypeName_obj rk t).1 hn,
                            (insertKey_labelled t kvs').1, ?_⟩
                          have hm := get_mem' hg
                          exact evalMap_mem w m t f hm
  · simp at h

example : (eval demoWorld (.entity [("A".toList, .dynamic (.value (.obj [])))])
    { demoCtx true .absent with
      args := some [("representations".toList,
        .list [.obj [("__typename".toList, .str "A".toList)]])] } emptySt).2 =
    .ok (.list [.obj [("__typename".toList, .str "A".toList)]]) := by rfl

end Verif.Ir
