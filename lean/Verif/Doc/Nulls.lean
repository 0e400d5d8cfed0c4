import Verif.Doc.Cases
import Verif.Sdl.Lemmas
import Verif.Sdl.Reading

/-!
# Arguments of directives that are null

They are not printed.  For most directives that makes no difference.
-/

namespace Verif.Doc

open Verif.Mustache (Text)
open Verif.Merge (get)
open Verif.Sdl

set_option linter.unusedSimpArgs false

/-! ## Decoders -/

/-- Whether a value is null. -/
def nullJ : J → Bool
  | .null => true
  | _ => false

/-- The entries that are not null. -/
def dropJ (m : List (Text × J)) : List (Text × J) := m.filter (fun p => !nullJ p.2)

/-- A null says the same as a missing entry. -/
def Safe {α : Type} (f : List (Text × J) → Option α) : Prop :=
  ∀ m x, (m.map (·.1)).Nodup → f m = some x → f (dropJ m) = some x

theorem get_dropJ {k : Text} : ∀ {m : List (Text × J)}, (m.map (·.1)).Nodup →
    get k (dropJ m) = (get k m).bind (fun j => if nullJ j then none else some j)
  | [], _ => rfl
  | (k', j) :: m, h => by
    have h' : (m.map (·.1)).Nodup := (List.nodup_cons.mp h).2
    have ih := get_dropJ (k := k) h'
    have hn : k' ∉ m.map (·.1) := (List.nodup_cons.mp h).1
    unfold dropJ at ih ⊢
    rw [List.filter_cons]
    by_cases hk : k' = k
    · subst hk
      have hg : get k' (List.filter (fun p => !nullJ p.2) m) = none := by
        cases hx : get k' (List.filter (fun p => !nullJ p.2) m) with
        | none => rfl
        | some v =>
          exfalso
          have : ∀ (l : List (Text × J)) v, get k' l = some v → k' ∈ l.map (·.1) := by
            intro l
            induction l with
            | nil => intro v h; cases h
            | cons p l ihl =>
              intro v h
              obtain ⟨a, b⟩ := p
              simp only [Merge.get] at h
              split at h
              · rename_i e; simp [e]
              · exact List.mem_cons_of_mem _ (ihl v h)
          have := this _ v hx
          obtain ⟨q, hq, e⟩ := List.mem_map.mp this
          exact hn (List.mem_map.mpr ⟨q, (List.mem_filter.mp hq).1, e⟩)
      cases hj : nullJ j with
      | true => simp only [hj, Bool.not_true, Bool.false_eq_true, if_false, hg, Merge.get, if_true, Option.bind_some]
      | false => simp only [hj, Bool.not_false, if_true, Merge.get, Option.bind_some, Bool.false_eq_true, if_false]
    · cases hj : nullJ j with
      | true => simp only [hj, Bool.not_true, Bool.false_eq_true, if_false, Merge.get, hk, ih]
      | false => simp only [hj, Bool.not_false, if_true, Merge.get, hk, if_false, ih]

theorem Safe.pure {α : Type} (a : α) : Safe (fun _ => (Pure.pure a : Option α)) := fun _ _ _ h => h

theorem Safe.bind {α β : Type} {f : List (Text × J) → Option α} {g : α → List (Text × J) → Option β} (hf : Safe f)
    (hg : ∀ a, Safe (g a)) : Safe (fun m => f m >>= fun a => g a m) := by
  intro m x hn h
  obtain ⟨a, h1, h2⟩ := Option.bind_eq_some_iff.mp h
  exact Option.bind_eq_some_iff.mpr ⟨a, hf m a hn h1, hg a m x hn h2⟩

theorem Safe.known (ks : List Text) : Safe (fun m => known m ks) := by
  intro m x _ h
  unfold Verif.Sdl.known at h ⊢
  dsimp only at h ⊢
  split at h
  · rename_i ha
    rw [if_pos]
    rw [List.all_eq_true] at ha ⊢
    exact fun p hp => ha p (List.mem_filter.mp hp).1
  · cases h

theorem nullJ_null {j : J} (h : nullJ j = true) : j = .null := by
  cases j <;> first | rfl | cases h

theorem Safe.need {α : Type} (k : Text) (d : J → Option α) (hd : d .null = none) : Safe (fun m => need m k d) := by
  intro m x hn h
  unfold Verif.Sdl.need at h ⊢
  dsimp only at h ⊢
  rw [get_dropJ hn]
  obtain ⟨j, h1, h2⟩ := Option.bind_eq_some_iff.mp h
  rw [h1, Option.bind_some]
  cases hj : nullJ j with
  | true => rw [nullJ_null hj, hd] at h2; cases h2
  | false => simpa using h2

theorem Safe.maybe {α : Type} (k : Text) (d : J → Option α) (dflt : α) (hd : d .null = none ∨ d .null = some dflt) :
    Safe (fun m => maybe m k d dflt) := by
  intro m x hn h
  unfold Verif.Sdl.maybe at h ⊢
  dsimp only at h ⊢
  rw [get_dropJ hn]
  cases hg : get k m with
  | none => rw [hg] at h; simpa using h
  | some j =>
    rw [hg] at h
    cases hj : nullJ j with
    | true =>
      simp only [nullJ_null hj] at h
      rcases hd with hd | hd
      · rw [hd] at h; cases h
      · rw [hd] at h; simpa [hj] using h
    | false => simpa [hj] using h

/-- Proves `Safe` of a decoder. -/
macro "safe" : tactic => `(tactic| repeat (first
  | exact Safe.pure _
  | exact Safe.known _
  | exact Safe.need _ _ rfl
  | exact Safe.maybe _ _ _ (Or.inl rfl)
  | exact Safe.maybe _ _ _ (Or.inr rfl)
  | refine Safe.bind ?_ (fun _ => ?_)))

theorem Http.safe : Safe Http.dec := by unfold Http.dec; safe
theorem Grpc.safe : Safe Grpc.dec := by unfold Grpc.dec; safe
theorem GraphQL.safe : Safe GraphQL.dec := by unfold GraphQL.dec; safe
theorem Call.safe : Safe Call.dec := by unfold Call.dec; safe
theorem Js.safe : Safe Js.dec := by unfold Js.dec; safe
theorem Cache.safe : Safe Cache.dec := by unfold Cache.dec; safe
theorem Omit.safe : Safe Omit.dec := by unfold Omit.dec; safe
theorem Modify.safe : Safe Modify.dec := by unfold Modify.dec; safe
theorem Protected.safe : Safe Protected.dec := by unfold Protected.dec; safe
theorem Discriminate.safe : Safe Discriminate.dec := by unfold Discriminate.dec; safe
theorem AddField.safe : Safe AddField.dec := by unfold AddField.dec; safe
theorem Alias.safe : Safe Alias.dec := by unfold Alias.dec; safe
theorem Link.safe : Safe Link.dec := by unfold Link.dec; safe
theorem Server.safe : Safe Server.dec := by unfold Server.dec; safe
theorem Telemetry.safe : Safe Telemetry.dec := by unfold Telemetry.dec; safe

/-! ## Documents -/

/-- A directive without the arguments that are null. -/
def unNull (d : Dir) : Dir := ⟨d.name, d.args.filter (fun p => !nullV p.2)⟩

/-- A field without them. -/
def unNullField (f : FieldDef) : FieldDef := { f with dirs := f.dirs.map unNull }

/-- A field of an input without them. -/
def unNullIn (f : InDef) : InDef := { f with dirs := f.dirs.map unNull }

/-- A value of an enum without them. -/
def unNullVal (v : ValDef) : ValDef := { v with dirs := v.dirs.map unNull }

/-- The kind of a definition without them. -/
def unNullKind : Kind → Kind
  | .scalar => .scalar
  | .union ms => .union ms
  | .input fs => .input (fs.map unNullIn)
  | .iface is fs => .iface is (fs.map unNullField)
  | .object is fs => .object is (fs.map unNullField)
  | .enum vs => .enum (vs.map unNullVal)

/-- The definition of a type without them. -/
def unNullType (t : TypeDef) : TypeDef := { t with dirs := t.dirs.map unNull, kind := unNullKind t.kind }

/-- A definition without them. -/
def unNullDef : Def → Def
  | .schema s => .schema { s with dirs := s.dirs.map unNull }
  | .type t => .type (unNullType t)
  | .directive => .directive

theorem dirArgs_unNull (as : List (Text × V)) : dirArgs (as.filter (fun p => !nullV p.2)) = dirArgs as := by
  unfold dirArgs
  simp only [isNull_eq]
  induction as with
  | nil => rfl
  | cons a l ih =>
    rw [List.filter_cons]
    cases h : nullV a.2 with
    | true => simpa [List.filterMap_cons, h] using ih
    | false => simp only [Bool.not_false, if_true, List.filterMap_cons, h, Bool.false_eq_true, if_false, ih]

theorem dirText_unNull (d : Dir) : dirText (unNull d) = dirText d := by
  unfold dirText unNull
  simp only [dirArgs_unNull]

theorem posDirs_unNull (ds : List Dir) : posDirs (ds.map unNull) = posDirs ds := by
  unfold posDirs
  rw [List.map_map, show (dirText ∘ unNull) = dirText from funext dirText_unNull]

theorem defText_unNull (seg : Text → List Text) (d : Def) : defText seg (unNullDef d) = defText seg d := by
  have h1 : ∀ fs : List FieldDef, (fs.map unNullField).map fieldText = fs.map fieldText := by
    intro fs
    rw [List.map_map]
    exact List.map_congr_left (fun f _ => by simp only [Function.comp, fieldText, unNullField, posDirs_unNull])
  have h2 : ∀ fs : List InDef, (fs.map unNullIn).map (inText seg) = fs.map (inText seg) := by
    intro fs
    rw [List.map_map]
    exact List.map_congr_left (fun f _ => by simp only [Function.comp, inText, unNullIn, posDirs_unNull])
  have h3 : ∀ vs : List ValDef, (vs.map unNullVal).map valText = vs.map valText := by
    intro vs
    rw [List.map_map]
    exact List.map_congr_left (fun f _ => by simp only [Function.comp, valText, unNullVal, posDirs_unNull])
  cases d with
  | schema s => simp only [unNullDef, defText, schemaText, posDirs_unNull]
  | directive => rfl
  | type t =>
    obtain ⟨e, doc, n, ds, k⟩ := t
    cases k <;> simp only [unNullDef, unNullType, unNullKind, defText, typeText, posDirs_unNull, h1, h2, h3]

theorem rank_unNull (d : Def) : rank (unNullDef d) = rank d := by
  cases d with
  | schema s => rfl
  | directive => rfl
  | type t =>
    obtain ⟨e, doc, n, ds, k⟩ := t
    cases k <;> rfl

theorem inOrder_unNull (ds : List Def) : inOrder (ds.map unNullDef) = (inOrder ds).map unNullDef := by
  unfold inOrder
  rw [List.map_flatMap]
  congr 1
  funext k
  rw [List.filter_map]
  congr 1
  exact List.filter_congr (fun d _ => by simp only [Function.comp, rank_unNull])

/-- Without the arguments that are null the same is printed. -/
theorem print_unNull (seg : Text → List Text) (ds : List Def) : print seg (ds.map unNullDef) = print seg ds := by
  unfold print
  rw [inOrder_unNull, List.map_map, show (defText seg ∘ unNullDef) = defText seg from funext (defText_unNull seg)]

/-! ## Reading -/

/-- A directive that means the same without the arguments that are null: no two arguments have the same name, and a
constant (`@expr`), the settings of `@upstream` and directives of federation have none. -/
def Sparse (d : Dir) : Prop :=
  (d.args.map (·.1)).Nodup ∧
    (d.name ∈ "expr".toList :: "upstream".toList :: federation → ∀ p ∈ d.args, nullV p.2 = false)

instance (d : Dir) : Decidable (Sparse d) := inferInstanceAs (Decidable (_ ∧ _))

/-- Such directives in a definition. -/
def SparseDef : Def → Prop
  | .schema s => ∀ d ∈ s.dirs, Sparse d
  | .directive => True
  | .type t => (∀ d ∈ t.dirs, Sparse d) ∧
    match t.kind with
    | .scalar => True
    | .union _ => True
    | .input fs => ∀ f ∈ fs, ∀ d ∈ f.dirs, Sparse d
    | .iface _ fs => ∀ f ∈ fs, ∀ d ∈ f.dirs, Sparse d
    | .object _ fs => ∀ f ∈ fs, ∀ d ∈ f.dirs, Sparse d
    | .enum vs => ∀ v ∈ vs, ∀ d ∈ v.dirs, Sparse d

instance (x : Def) : Decidable (SparseDef x) := by
  unfold SparseDef
  cases x with
  | schema s => dsimp only; infer_instance
  | directive => dsimp only; infer_instance
  | type t =>
    obtain ⟨e, doc, n, ds, k⟩ := t
    cases k <;> dsimp only <;> infer_instance

theorem nullJ_toJson (v : V) : nullJ (toJson v) = nullV v := by
  cases v <;> simp [toJson, nullJ, nullV]

theorem toFields_unNull (as : List (Text × V)) : toFields (as.filter (fun p => !nullV p.2)) = dropJ (toFields as) := by
  induction as with
  | nil => rfl
  | cons a l ih =>
    obtain ⟨k, v⟩ := a
    unfold dropJ at ih ⊢
    rw [List.filter_cons, toFields, List.filter_cons, toField]
    simp only [nullJ_toJson]
    cases h : nullV v with
    | true => simpa using ih
    | false => simp [toFields, toField, ih]

theorem toFields_keys (as : List (Text × V)) : (toFields as).map (·.1) = as.map (·.1) := by
  induction as with
  | nil => rfl
  | cons a l ih =>
    obtain ⟨k, v⟩ := a
    simp [toFields, toField, ih]

theorem fromDir_unNull {α : Type} {dec : List (Text × J) → Option α} (hd : Safe dec) {d : Dir} (h : (d.args.map (·.1)).Nodup) {x : α}
    (hx : fromDir dec d = some x) : fromDir dec (unNull d) = some x := by
  unfold fromDir unNull at *
  have h1 : ((toFields d.args).map (·.1)).Nodup := by rw [toFields_keys]; exact h
  have h2 : ((dropJ (toFields d.args)).map (·.1)).Nodup := h1.sublist ((List.filter_sublist).map _)
  rw [build_id h1] at hx
  simp only [toFields_unNull]
  rw [build_id h2]
  exact hd _ _ h1 hx

theorem unNull_full {d : Dir} (h : ∀ p ∈ d.args, nullV p.2 = false) : unNull d = d := by
  unfold unNull
  rw [List.filter_eq_self.mpr (fun p hp => by rw [h p hp]; rfl)]

theorem first_unNull {α : Type} {n : Text} {dec : List (Text × J) → Option α} (hd : Safe dec) : ∀ {ds : List Dir}, (∀ d ∈ ds, Sparse d) →
    ∀ {o : Option α}, first n dec ds = some o → first n dec (ds.map unNull) = some o
  | [], _, _, h => h
  | d :: r, hs, o, h => by
    rw [List.map_cons]
    unfold first at h ⊢
    have hn : (unNull d).name = d.name := rfl
    rw [hn]
    split at h
    · rename_i e
      rw [if_pos e]
      obtain ⟨x, h1, rfl⟩ := Option.map_eq_some_iff.mp h
      rw [fromDir_unNull hd (hs d List.mem_cons_self).1 h1]
      rfl
    · rename_i e
      rw [if_neg e]
      exact first_unNull hd (fun d hd => hs d (List.mem_cons_of_mem _ hd)) h

theorem collect_via {α β : Type} {f : α → Option (Option β)} {g : α → α} : ∀ {l : List α},
    (∀ x ∈ l, ∀ r, f x = some r → f (g x) = some r) → ∀ {r : List β}, collect f l = some r → collect f (l.map g) = some r
  | [], _, _, h => h
  | x :: l, hs, r, h => by
    have ih := fun {r} => collect_via (f := f) (g := g) (l := l) (fun y hy => hs y (List.mem_cons_of_mem _ hy)) (r := r)
    rw [List.map_cons]
    rcases collect_cons h with ⟨y, r', h1, h2, rfl⟩ | ⟨h1, h2⟩
    · simp only [collect, hs x List.mem_cons_self _ h1, ih h2]
    · simp only [collect, hs x List.mem_cons_self _ h1, ih h2]

theorem all_via {α β : Type} {f : α → Option β} {g : α → α} : ∀ {l : List α},
    (∀ x ∈ l, ∀ r, f x = some r → f (g x) = some r) → ∀ {r : List β}, all f l = some r → all f (l.map g) = some r
  | [], _, _, h => h
  | x :: l, hs, r, h => by
    have ih := fun {r} => all_via (f := f) (g := g) (l := l) (fun y hy => hs y (List.mem_cons_of_mem _ hy)) (r := r)
    rw [List.map_cons]
    obtain ⟨y, r', h1, h2, rfl⟩ := all_cons h
    simp only [all, hs x List.mem_cons_self _ h1, ih h2]

theorem ofDir_unNull {d : Dir} (h : Sparse d) {r : Option Resolver} (hr : Resolver.ofDir d = some r) : Resolver.ofDir (unNull d) = some r := by
  have hn : (unNull d).name = d.name := rfl
  by_cases he : d.name = "expr".toList
  · rw [unNull_full (h.2 (by rw [he]; exact List.mem_cons_self))]
    exact hr
  · unfold Resolver.ofDir at hr ⊢
    rw [hn]
    simp only [he, if_false] at hr ⊢
    have key : ∀ {α : Type} {dec : List (Text × J) → Option α} {f : α → Option Resolver} {r}, Safe dec →
        (fromDir dec d).map f = some r → (fromDir dec (unNull d)).map f = some r := by
      intro α dec f r hd hx
      obtain ⟨x, h1, rfl⟩ := Option.map_eq_some_iff.mp hx
      rw [fromDir_unNull hd h.1 h1]
      rfl
    split at hr
    · rename_i e; rw [if_pos e]; exact key Http.safe hr
    · rename_i e; rw [if_neg e]
      split at hr
      · rename_i e; rw [if_pos e]; exact key Grpc.safe hr
      · rename_i e; rw [if_neg e]
        split at hr
        · rename_i e; rw [if_pos e]; exact key GraphQL.safe hr
        · rename_i e; rw [if_neg e]
          split at hr
          · rename_i e; rw [if_pos e]; exact key Call.safe hr
          · rename_i e; rw [if_neg e]
            split at hr
            · rename_i e; rw [if_pos e]; exact key Js.safe hr
            · rename_i e; rw [if_neg e]; exact hr

theorem fedDirs_unNull {ds : List Dir} (h : ∀ d ∈ ds, Sparse d) {r : List Directive} (hr : fedDirs ds = some r) :
    fedDirs (ds.map unNull) = some r := by
  unfold fedDirs at hr ⊢
  refine collect_via (fun d hd o ho => ?_) hr
  have hn : (unNull d).name = d.name := rfl
  by_cases hc : federation.contains d.name = true
  · rw [unNull_full ((h d hd).2 (List.mem_cons_of_mem _ (List.mem_cons_of_mem _ (List.contains_iff_mem.mp hc))))]
    exact ho
  · rw [hn]
    rw [if_neg hc] at ho ⊢
    exact ho

theorem addFields_unNull {ds : List Dir} (h : ∀ d ∈ ds, Sparse d) {r : List AddField} (hr : addFields ds = some r) :
    addFields (ds.map unNull) = some r := by
  unfold addFields at hr ⊢
  rw [List.filter_map, show ((fun d : Dir => decide (d.name = "addField".toList)) ∘ unNull) = (fun d : Dir => decide (d.name = "addField".toList)) from rfl]
  exact all_via (fun d hd x hx => fromDir_unNull AddField.safe (h d (List.mem_filter.mp hd).1).1 hx) hr

theorem common_unNull {ty : GTy} {doc : Option Text} {ds : List Dir} {args : List (Text × Arg)} {dflt : Option V} (h : ∀ d ∈ ds, Sparse d)
    {f : Field} (hf : commonField ty doc ds args dflt = some f) : commonField ty doc (ds.map unNull) args dflt = some f := by
  unfold commonField at hf ⊢
  simp only [Option.bind_eq_bind, Option.bind_eq_some_iff, Option.pure_def, Option.some.injEq] at hf ⊢
  obtain ⟨a1, e1, a2, e2, a3, e3, a4, e4, a5, e5, a6, e6, a7, e7, e⟩ := hf
  exact ⟨a1, collect_via (fun d hd r hr => ofDir_unNull (h d hd) hr) e1, a2, first_unNull Cache.safe h e2, a3, first_unNull Omit.safe h e3,
    a4, first_unNull Modify.safe h e4, a5, first_unNull Protected.safe h e5, a6, first_unNull Discriminate.safe h e6,
    a7, fedDirs_unNull h e7, e⟩

theorem object_unNull {impl : List Text} {fs : List FieldDef} {doc : Option Text} {ds : List Dir} (h : ∀ d ∈ ds, Sparse d)
    (hf : ∀ f ∈ fs, ∀ d ∈ f.dirs, Sparse d) {t : CType} (ht : objectType impl fs doc ds = some t) :
    objectType impl (fs.map unNullField) doc (ds.map unNull) = some t := by
  unfold objectType at ht ⊢
  simp only [Option.bind_eq_bind, Option.bind_eq_some_iff, Option.pure_def, Option.some.injEq] at ht ⊢
  obtain ⟨a1, e1, a2, e2, a3, e3, a4, e4, a5, e5, a6, e6, e⟩ := ht
  refine ⟨a1, collect_via (fun d hd r hr => ofDir_unNull (h d hd) hr) e1, a2, first_unNull Cache.safe h e2, a3, ?_,
    a4, first_unNull Protected.safe h e4, a5, addFields_unNull h e5, a6, fedDirs_unNull h e6, e⟩
  refine all_via (fun f hf' r hr => ?_) e3
  unfold ofField? at hr ⊢
  obtain ⟨x, h1, rfl⟩ := Option.map_eq_some_iff.mp hr
  exact Option.map_eq_some_iff.mpr ⟨x, common_unNull (hf f hf') h1, rfl⟩

theorem input_unNull {fs : List InDef} {doc : Option Text} {ds : List Dir} (h : ∀ d ∈ ds, Sparse d)
    (hf : ∀ f ∈ fs, ∀ d ∈ f.dirs, Sparse d) {t : CType} (ht : inputType fs doc ds = some t) :
    inputType (fs.map unNullIn) doc (ds.map unNull) = some t := by
  unfold inputType at ht ⊢
  simp only [Option.bind_eq_bind, Option.bind_eq_some_iff, Option.pure_def, Option.some.injEq] at ht ⊢
  obtain ⟨a1, e1, a2, e2, e⟩ := ht
  refine ⟨a1, ?_, a2, first_unNull Protected.safe h e2, e⟩
  refine all_via (fun f hf' r hr => ?_) e1
  unfold ofInput? at hr ⊢
  obtain ⟨x, h1, rfl⟩ := Option.map_eq_some_iff.mp hr
  exact Option.map_eq_some_iff.mpr ⟨x, common_unNull (hf f hf') h1, rfl⟩

theorem type_unNull {t : TypeDef} (h : SparseDef (.type t)) {r : Option (Text × CType)} (hr : ofType t = some r) :
    ofType (unNullType t) = some r := by
  obtain ⟨e, doc, n, ds, k⟩ := t
  obtain ⟨h1, h2⟩ := h
  cases k with
  | scalar => exact hr
  | union ms => exact hr
  | enum vs => exact hr
  | input fs =>
    simp only [ofType, unNullType, unNullKind] at hr ⊢
    obtain ⟨x, h3, rfl⟩ := Option.map_eq_some_iff.mp hr
    exact Option.map_eq_some_iff.mpr ⟨x, input_unNull h1 h2 h3, rfl⟩
  | iface is fs =>
    simp only [ofType, unNullType, unNullKind] at hr ⊢
    obtain ⟨x, h3, rfl⟩ := Option.map_eq_some_iff.mp hr
    exact Option.map_eq_some_iff.mpr ⟨x, object_unNull h1 h2 h3, rfl⟩
  | object is fs =>
    simp only [ofType, unNullType, unNullKind] at hr ⊢
    obtain ⟨x, h3, rfl⟩ := Option.map_eq_some_iff.mp hr
    exact Option.map_eq_some_iff.mpr ⟨x, object_unNull h1 h2 h3, rfl⟩

theorem union_unNull (t : TypeDef) : ofUnion (unNullType t) = ofUnion t := by
  obtain ⟨e, doc, n, ds, k⟩ := t
  cases k <;> rfl

theorem enum_unNull {t : TypeDef} (h : SparseDef (.type t)) {r : Option (Text × Enum)} (hr : ofEnum t = some r) :
    ofEnum (unNullType t) = some r := by
  obtain ⟨e, doc, n, ds, k⟩ := t
  obtain ⟨h1, h2⟩ := h
  cases k with
  | enum vs =>
    simp only [ofEnum, unNullType, unNullKind] at hr ⊢
    obtain ⟨x, h3, rfl⟩ := Option.map_eq_some_iff.mp hr
    refine Option.map_eq_some_iff.mpr ⟨x, all_via (fun v hv r hr => ?_) h3, rfl⟩
    unfold ofVal at hr ⊢
    obtain ⟨y, h4, rfl⟩ := Option.map_eq_some_iff.mp hr
    exact Option.map_eq_some_iff.mpr ⟨y, first_unNull Alias.safe (h2 v hv) h4, rfl⟩
  | _ => exact hr

theorem typeDefs_unNull (ds : List Def) : typeDefs (ds.map unNullDef) = (typeDefs ds).map unNullType := by
  unfold typeDefs
  rw [List.filterMap_map, List.map_filterMap]
  congr 1
  funext d
  cases d <;> rfl

theorem findSchema_unNull (ds : List Def) : findSchema (ds.map unNullDef) = { findSchema ds with dirs := (findSchema ds).dirs.map unNull } := by
  unfold findSchema
  induction ds with
  | nil => rfl
  | cons d ds ih =>
    cases d with
    | schema s => rfl
    | directive => exact ih
    | type t => exact ih

theorem findSchema_sparse {ds : List Def} (h : ∀ x ∈ ds, SparseDef x) : ∀ d ∈ (findSchema ds).dirs, Sparse d := by
  unfold findSchema
  cases hf : ds.findSome? (fun d => match d with | .schema s => some s | _ => none) with
  | none => intro d hd; cases hd
  | some s =>
    obtain ⟨x, hx, e⟩ := List.exists_of_findSome?_eq_some hf
    cases x with
    | schema s' => cases e; exact h _ hx
    | directive => cases e
    | type t => cases e

theorem lastDir_unNull {α : Type} {n : Text} {dec : List (Text × J) → Option α} (hd : ∀ d, Sparse d → d.name = n → ∀ x, fromDir dec d = some x →
    fromDir dec (unNull d) = some x) {dflt x : α} {ds : List Dir} (h : ∀ d ∈ ds, Sparse d) (hx : lastDir n dec dflt ds = some x) :
    lastDir n dec dflt (ds.map unNull) = some x := by
  unfold lastDir at hx ⊢
  have key : ∀ (ds : List Dir) (a b : Option α), (∀ d ∈ ds, Sparse d) → (∀ x, a = some x → b = some x) →
      ∀ x, ds.foldl (fun r d => if d.name = n then fromDir dec d else r) a = some x →
        (ds.map unNull).foldl (fun r d => if d.name = n then fromDir dec d else r) b = some x := by
    intro ds
    induction ds with
    | nil => intro a b _ hab x hx; exact hab x hx
    | cons d ds ih =>
      intro a b hs hab x hx
      rw [List.map_cons, List.foldl_cons]
      rw [List.foldl_cons] at hx
      refine ih _ _ (fun d hd => hs d (List.mem_cons_of_mem _ hd)) ?_ x hx
      intro y hy
      have hn : (unNull d).name = d.name := rfl
      rw [hn]
      split at hy
      · rename_i e
        rw [if_pos e]
        exact hd d (hs d List.mem_cons_self) e y hy
      · rename_i e
        rw [if_neg e]
        exact hab y hy
  exact key ds _ _ h (fun _ h => h) x hx

theorem manyDirs_unNull {α : Type} {n : Text} {dec : List (Text × J) → Option α} (hd : Safe dec) {ds : List Dir} (h : ∀ d ∈ ds, Sparse d)
    {l : List α} (hl : manyDirs n dec ds = some l) : manyDirs n dec (ds.map unNull) = some l := by
  unfold manyDirs at hl ⊢
  refine collect_via (fun d hd' r hr => ?_) hl
  have hn : (unNull d).name = d.name := rfl
  rw [hn]
  split at hr
  · rename_i e
    rw [if_pos e]
    obtain ⟨x, h1, rfl⟩ := Option.map_eq_some_iff.mp hr
    rw [fromDir_unNull hd (h d hd').1 h1]
    rfl
  · rename_i e
    rw [if_neg e]
    exact hr

/-- Without the arguments that are null the same configuration is read. -/
theorem fromDoc_unNull {ds : List Def} (h : ∀ x ∈ ds, SparseDef x) {c : Config} (hc : fromDoc ds = some c) :
    fromDoc (ds.map unNullDef) = some c := by
  have hs := findSchema_sparse h
  have ht : ∀ t ∈ typeDefs ds, SparseDef (.type t) := fun t ht => h _ (mem_typeDefs.mp ht)
  unfold fromDoc at hc ⊢
  rw [typeDefs_unNull, findSchema_unNull]
  simp only [Option.bind_eq_bind, Option.bind_eq_some_iff, Option.pure_def, Option.some.injEq] at hc ⊢
  obtain ⟨a1, e1, a2, e2, a3, e3, a4, e4, a5, e5, a6, e6, a7, e7, e⟩ := hc
  refine ⟨a1, lastDir_unNull (fun d hd _ x hx => fromDir_unNull Server.safe hd.1 hx) hs e1,
    a2, lastDir_unNull (fun d hd hn x hx => ?_) hs e2,
    a3, collect_via (fun t ht' r hr => type_unNull (ht t ht') hr) e3,
    a4, collect_via (fun t _ r hr => by rw [union_unNull]; exact hr) e4,
    a5, collect_via (fun t ht' r hr => enum_unNull (ht t ht') hr) e5,
    a6, manyDirs_unNull Link.safe hs e6,
    a7, lastDir_unNull (fun d hd _ x hx => fromDir_unNull Telemetry.safe hd.1 hx) hs e7, e⟩
  rw [unNull_full (hd.2 (by rw [hn]; exact List.mem_cons_of_mem _ List.mem_cons_self))]
  exact hx

end Verif.Doc
