import Verif.Sdl.Codec

/-! # Laws of the conversions of values -/

namespace Verif.Sdl

open Verif.Mustache (Text)
open Verif.Merge (get)

mutual
theorem toJson_ofJson : ∀ j : J, toJson (ofJson j) = j
  | .null => rfl
  | .bool _ => rfl
  | .int _ => rfl
  | .float _ => rfl
  | .str _ => rfl
  | .arr l => by simp only [ofJson, toJson, toJsons_ofJsons l]
  | .obj m => by simp only [ofJson, toJson, toFields_ofFields m]
theorem toJsons_ofJsons : ∀ l : List J, toJsons (ofJsons l) = l
  | [] => rfl
  | x :: r => by simp only [ofJsons, toJsons, toJson_ofJson x, toJsons_ofJsons r]
theorem toFields_ofFields : ∀ l : List (Text × J), toFields (ofFields l) = l
  | [] => rfl
  | p :: r => by simp only [ofFields, toFields, toField_ofField p, toFields_ofFields r]
theorem toField_ofField : ∀ p : Text × J, toField (ofField p) = p
  | (k, x) => by simp only [ofField, toField, toJson_ofJson x]
end

theorem put_new {V : Type} {k : Text} {v : V} : ∀ {l : List (Text × V)}, k ∉ l.map (·.1) → put k v l = l ++ [(k, v)]
  | [], _ => rfl
  | (k', v') :: r, h => by
    simp only [List.map_cons, List.mem_cons, not_or] at h
    simp only [put, if_neg (Ne.symm h.1), put_new h.2, List.cons_append]

theorem build_from {V : Type} : ∀ (l m : List (Text × V)), ((m ++ l).map (·.1)).Nodup →
    l.foldl (fun m p => put p.1 p.2 m) m = m ++ l
  | [], m, _ => by simp
  | p :: r, m, h => by
    have h1 : p.1 ∉ m.map (·.1) := by
      intro hm
      simp only [List.map_append, List.map_cons] at h
      exact (List.nodup_append.1 h).2.2 _ hm _ List.mem_cons_self rfl
    simp only [List.foldl_cons, put_new h1]
    rw [build_from r (m ++ [(p.1, p.2)]) (by simpa using h)]
    simp

theorem build_id {V : Type} {l : List (Text × V)} (h : (l.map (·.1)).Nodup) : build l = l := by
  have := build_from l [] (by simpa using h)
  simpa [build] using this

theorem setOf_from {α : Type} [DecidableEq α] : ∀ (l m : List α), (m ++ l).Nodup → l.foldl (fun m x => put1 x m) m = m ++ l
  | [], m, _ => by simp
  | x :: r, m, h => by
    have h1 : x ∉ m := by
      intro hm
      exact (List.nodup_append.1 h).2.2 _ hm _ List.mem_cons_self rfl
    have h2 : put1 x m = m ++ [x] := by simp [put1, h1]
    simp only [List.foldl_cons, h2]
    rw [setOf_from r (m ++ [x]) (by simpa using h)]
    simp

theorem setOf_id {α : Type} [DecidableEq α] {l : List α} (h : l.Nodup) : setOf l = l := by
  have := setOf_from l [] (by simpa using h)
  simpa [setOf] using this

/-! ## Fields of structs -/

theorem keep_keys {l : List (Text × Option J)} {p : Text × J} (h : p ∈ keep l) : p.1 ∈ l.map (·.1) := by
  simp only [keep, List.mem_filterMap, Option.map_eq_some_iff] at h
  obtain ⟨q, hq, j, _, rfl⟩ := h
  exact List.mem_map_of_mem hq

theorem keep_nodup {l : List (Text × Option J)} (h : (l.map (·.1)).Nodup) : ((keep l).map (·.1)).Nodup := by
  induction l with
  | nil => simp [keep]
  | cons p r ih =>
    simp only [List.map_cons, List.nodup_cons] at h
    obtain ⟨k, o⟩ := p
    cases o with
    | none => simpa [keep] using ih h.2
    | some j =>
      have : keep ((k, some j) :: r) = (k, j) :: keep r := by simp [keep]
      rw [this]
      simp only [List.map_cons, List.nodup_cons]
      refine ⟨?_, ih h.2⟩
      intro hm
      obtain ⟨q, hq, he⟩ := List.mem_map.1 hm
      exact h.1 (he ▸ keep_keys hq)

theorem get_none {V : Type} {k : Text} {l : List (Text × V)} (h : k ∉ l.map (·.1)) : get k l = none := by
  induction l with
  | nil => rfl
  | cons p r ih =>
    simp only [List.map_cons, List.mem_cons, not_or] at h
    simp only [Verif.Merge.get, if_neg (Ne.symm h.1), ih h.2]

theorem get_keep {l : List (Text × Option J)} (h : (l.map (·.1)).Nodup) (k : Text) : get k (keep l) = (get k l).bind id := by
  induction l with
  | nil => rfl
  | cons p r ih =>
    simp only [List.map_cons, List.nodup_cons] at h
    obtain ⟨k', o⟩ := p
    cases o with
    | none =>
      have : keep ((k', none) :: r) = keep r := by simp [keep]
      rw [this, ih h.2]
      by_cases hk : k' = k
      · subst hk
        simp [Verif.Merge.get, get_none h.1]
      · simp [Verif.Merge.get, hk]
    | some j =>
      have : keep ((k', some j) :: r) = (k', j) :: keep r := by simp [keep]
      rw [this]
      by_cases hk : k' = k
      · simp [Verif.Merge.get, hk]
      · simp [Verif.Merge.get, hk, ih h.2]

theorem need_some {α : Type} {l : List (Text × Option J)} (h : (l.map (·.1)).Nodup) {k : Text} {d : J → Option α} {j : J} {a : α}
    (hg : get k l = some (some j)) (hd : d j = some a) : need (keep l) k d = some a := by
  simp [need, get_keep h, hg, hd]

theorem maybe_some {α : Type} {l : List (Text × Option J)} (h : (l.map (·.1)).Nodup) {k : Text} {d : J → Option α} {j : J} {a x : α}
    (hg : get k l = some (some j)) (hd : d j = some a) : maybe (keep l) k d x = some a := by
  simp [maybe, get_keep h, hg, hd]

theorem maybe_never {α : Type} {l : List (Text × Option J)} (h : (l.map (·.1)).Nodup) {k : Text} {d : J → Option α} {a x : α}
    (hg : get k l = none) (hd : a = x) : maybe (keep l) k d x = some a := by
  simp [maybe, get_keep h, hg, hd]

theorem maybe_skip {α : Type} {l : List (Text × Option J)} (h : (l.map (·.1)).Nodup) {k : Text} {d : J → Option α} {j : J} {a x : α}
    {b : Bool} (hg : get k l = some (skip b j)) (hb : b = true → a = x) (hd : b = false → d j = some a) :
    maybe (keep l) k d x = some a := by
  cases b with
  | true => simp [maybe, get_keep h, hg, skip, hb rfl]
  | false => simp [maybe, get_keep h, hg, skip, hd rfl]

theorem known_keep {l : List (Text × Option J)} {ks : List Text} (h : ∀ k ∈ l.map (·.1), k ∈ ks) : known (keep l) ks = some () := by
  have : (keep l).all (fun p => ks.contains p.1) = true := by
    simp only [List.all_eq_true, List.contains_iff_mem]
    exact fun p hp => h _ (keep_keys hp)
  rw [known, if_pos this]

/-! ## Values of fields -/

theorem opt_law {α : Type} {e : α → J} {d : J → Option α} {o : Option α} (h : ∀ x, o = some x → e x ≠ .null ∧ d (e x) = some x) :
    dOpt d (eOpt e o) = some o := by
  cases o with
  | none => rfl
  | some x =>
    obtain ⟨h1, h2⟩ := h x rfl
    simp only [eOpt]
    unfold dOpt
    split
    · rename_i he; exact absurd he h1
    · rw [h2]; rfl

theorem allOf_law {α : Type} {e : α → J} {d : J → Option α} : ∀ {l : List α}, (∀ x ∈ l, d (e x) = some x) → allOf d (l.map e) = some l
  | [], _ => rfl
  | x :: r, h => by
    simp only [List.map_cons, allOf, h x List.mem_cons_self, allOf_law (fun y hy => h y (List.mem_cons_of_mem _ hy))]

theorem list_law {α : Type} {e : α → J} {d : J → Option α} {l : List α} (h : ∀ x ∈ l, d (e x) = some x) :
    dList d (eList e l) = some l := by
  simp only [eList, dList]
  exact allOf_law h

theorem texts_law (l : List Text) : dList dText (eTexts l) = some l := list_law (fun _ _ => rfl)

theorem set_law {l : List Text} (h : l.Nodup) : dSet (eTexts l) = some l := by
  simp [dSet, texts_law, setOf_id h]

theorem map_law {l : List (Text × J)} (h : (l.map (·.1)).Nodup) : dMap (.obj l) = some l := by
  simp [dMap, build_id h]

theorem fin_law {n : Nat} (x : Fin n) : dFin n (eFin x) = some x := by
  simp [dFin, eFin, x.isLt]

theorem i64_law (x : I64) : dI64 (.int x.val) = some x := by
  simp only [dI64]
  rw [dif_pos x.2]

theorem pos_law (x : Pos64) : dPos (eFin x.val) = some x := by
  simp only [dPos, fin_law, Option.bind_some]
  rw [dif_pos x.2]

theorem encoding_law (x : Encoding) : Encoding.ofJ x.toJ = some x := by cases x <;> rfl

theorem method_law (x : Method) : Method.ofJ x.toJ = some x := by cases x <;> rfl

theorem linkType_law (x : LinkType) : LinkType.ofJ x.toJ = some x := by cases x <;> rfl

theorem version_law (x : HttpVersion) : HttpVersion.ofJ x.toJ = some x := by cases x <;> rfl

/-! ## Schemas -/

mutual
/-- The keys and the members of the schema are distinct, as those of a `BTreeMap` and a `BTreeSet` are
(json/json_schema.rs:11-21). -/
def Schema.ok : Schema → Prop
  | .obj fs => (fs.map (·.1)).Nodup ∧ Schema.oks fs
  | .arr s => s.ok
  | .opt s => s.ok
  | .enum l => l.Nodup
  | _ => True
/-- All fields are (json/json_schema.rs:11-21). -/
def Schema.oks : List (Text × Schema) → Prop
  | [] => True
  | p :: r => Schema.okf p ∧ Schema.oks r
/-- A field is (json/json_schema.rs:11-21). -/
def Schema.okf : Text × Schema → Prop
  | (_, s) => s.ok
end

theorem schema_not_null (s : Schema) : s.toJ ≠ .null := by cases s <;> simp [Schema.toJ]

theorem tag_arr {s : Schema} (h : Schema.ofJ s.toJ = some s) : Schema.ofTag ("Arr".toList, s.toJ) = some (.arr s) := by
  generalize hj : s.toJ = j at h
  cases j with
  | obj m => simp only [Schema.ofTag]; rw [if_neg (by decide), if_pos trivial, h]; rfl
  | str t => simp only [Schema.ofTag]; rw [if_pos trivial, h]; rfl
  | _ => cases s <;> simp [Schema.toJ] at hj

theorem tag_opt {s : Schema} (h : Schema.ofJ s.toJ = some s) : Schema.ofTag ("Opt".toList, s.toJ) = some (.opt s) := by
  generalize hj : s.toJ = j at h
  cases j with
  | obj m => simp only [Schema.ofTag]; rw [if_neg (by decide), if_neg (by decide), if_pos trivial, h]; rfl
  | str t => simp only [Schema.ofTag]; rw [if_neg (by decide), if_pos trivial, h]; rfl
  | _ => cases s <;> simp [Schema.toJ] at hj

mutual
theorem schema_law : ∀ s : Schema, s.ok → Schema.ofJ s.toJ = some s
  | .obj fs, h => by
    simp only [Schema.ok] at h
    simp only [Schema.toJ, Schema.ofJ, Schema.ofTag]
    rw [if_pos trivial, schemas_law fs h.2]
    simp [build_id h.1]
  | .arr s, h => by
    simp only [Schema.ok] at h
    simp only [Schema.toJ, Schema.ofJ]
    exact tag_arr (schema_law s h)
  | .opt s, h => by
    simp only [Schema.ok] at h
    simp only [Schema.toJ, Schema.ofJ]
    exact tag_opt (schema_law s h)
  | .enum l, h => by
    simp only [Schema.ok] at h
    simp only [Schema.toJ, Schema.ofJ]
    have := set_law h
    simp only [eTexts, eList] at this ⊢
    simp only [Schema.ofTag]
    rw [if_pos trivial, this]
    rfl
  | .str, _ => by rfl
  | .num, _ => by rfl
  | .bool, _ => by rfl
  | .empty, _ => by rfl
  | .any, _ => by rfl
theorem schemas_law : ∀ fs : List (Text × Schema), Schema.oks fs → Schema.ofJs (Schema.toJs fs) = some fs
  | [], _ => by simp [Schema.toJs, Schema.ofJs]
  | p :: r, h => by
    simp only [Schema.oks] at h
    simp only [Schema.toJs, Schema.ofJs, schemaf_law p h.1, schemas_law r h.2]
theorem schemaf_law : ∀ p : Text × Schema, Schema.okf p → Schema.ofJf (Schema.toJf p) = some p
  | (k, s), h => by
    simp only [Schema.okf] at h
    simp [Schema.toJf, Schema.ofJf, schema_law s h]
end

end Verif.Sdl
