import Verif.Gen.Model

/-!
# Properties of generated configurations
-/

namespace Verif.Gen

open Verif.Mustache (Text)
open Verif.Exec (Ty)
open Verif.Merge (get)

set_option linter.unusedSimpArgs false

/-! ## Specification -/

/-- The names of scalars that are generated. -/
def scalarNames : List Text := ["JSON".toList, "Boolean".toList, "Int".toList, "String".toList]

/-- A number that GraphQL's `Int` can hold. -/
def small (i : Int) : Prop := -2147483648 ≤ i ∧ i ≤ 2147483647

/-- The value can be given for the type, and every key of an object is a field of its type. -/
inductive Fits (types : List (Text × Fields)) : Ty → J → Prop
  | null {t} : Fits types t .null
  | json {v nn} : Fits types (.named "JSON".toList nn) v
  | bool {b nn} : Fits types (.named "Boolean".toList nn) (.bool b)
  | int {i nn} : small i → Fits types (.named "Int".toList nn) (.int i)
  | str {s nn} : Fits types (.named "String".toList nn) (.str s)
  | list {t l nn} : (∀ v ∈ l, Fits types t v) → Fits types (.list t nn) (.arr l)
  | obj {t fs kvs nn} : t ∉ scalarNames → get t types = some fs → (∀ kv ∈ kvs, (get kv.1 fs).isSome = true) →
      (∀ kv ∈ kvs, ∀ ty, get kv.1 fs = some ty → Fits types ty kv.2) → Fits types (.named t nn) (.obj kvs)

/-- What the values of a sample have in common. -/
inductive Shape where
  | bool
  | int
  | str
  | list (s : Shape)
  | obj (fs : List (Text × Shape))

/-- How strictly objects must agree: outside arrays any keys of the shape may be missing, and so for the items of
an array; deeper in an array objects must have all keys. -/
inductive Mode where
  | loose
  | item
  | strict

/-- The mode of the fields of an object. -/
def Mode.field : Mode → Mode
  | .loose => .loose
  | _ => .strict

/-- The mode of the items of an array. -/
def Mode.items : Mode → Mode
  | .loose => .item
  | _ => .strict

/-- Not a list. -/
def Shape.plain : Shape → Bool
  | .list _ => false
  | _ => true

/-- The value has the shape. -/
inductive Has : Mode → Shape → J → Prop
  | null {m s} : Has m s .null
  | bool {m b} : Has m .bool (.bool b)
  | int {m i} : small i → Has m .int (.int i)
  | str {m s} : Has m .str (.str s)
  | list {m s l} : s.plain = true → (∀ v ∈ l, Has m.items s v) → Has m (.list s) (.arr l)
  | obj {m fs kvs} : (kvs.map (·.1)).Nodup → (m = .strict → ∀ ks ∈ fs, ks.1 ∈ kvs.map (·.1)) →
      (∀ kv ∈ kvs, (get kv.1 fs).isSome = true) → (∀ kv ∈ kvs, ∀ s, get kv.1 fs = some s → Has m.field s kv.2) →
      Has m (.obj fs) (.obj kvs)

/-! ## Helpers -/

theorem get_put_same {V : Type} (k : Text) (v : V) (l : List (Text × V)) : get k (put k v l) = some v := by
  induction l with
  | nil => simp [put, Verif.Merge.get]
  | cons p l ih =>
    obtain ⟨a, b⟩ := p
    unfold put
    split
    · simp [Verif.Merge.get]
    · rename_i h
      simp [Verif.Merge.get, h, ih]

theorem get_put_other {V : Type} {k k' : Text} (v : V) (h : k' ≠ k) (l : List (Text × V)) : get k' (put k v l) = get k' l := by
  induction l with
  | nil => simp [put, Verif.Merge.get, Ne.symm h]
  | cons p l ih =>
    obtain ⟨a, b⟩ := p
    unfold put
    split
    · rename_i he
      subst he
      simp [Verif.Merge.get, Ne.symm h]
    · simp only [Verif.Merge.get]
      split
      · rfl
      · exact ih

theorem toDigits_inj {a b : Nat} (h : Nat.toDigits 10 a = Nat.toDigits 10 b) : a = b := by
  rw [← Nat.ofDigitChars_ten_toDigits (n := a), h, Nat.ofDigitChars_ten_toDigits]

theorem nameOf_inj {pre : Text} {a b : Nat} (h : nameOf pre a = nameOf pre b) : a = b :=
  toDigits_inj (List.append_cancel_left h)

theorem nameOf_last (pre : Text) (n : Nat) : ∃ r c, nameOf pre n = r ++ [c] ∧ c.isDigit = true := by
  have hne : Nat.toDigits 10 n ≠ [] := by
    intro h
    have := Nat.length_toDigits_pos (b := 10) (n := n)
    simp [h] at this
  refine ⟨pre ++ (Nat.toDigits 10 n).dropLast, (Nat.toDigits 10 n).getLast hne, ?_, ?_⟩
  · unfold nameOf
    rw [List.append_assoc, List.dropLast_concat_getLast hne]
  · exact Nat.isDigit_of_mem_toDigits (by decide) (by decide) (List.getLast_mem hne)

theorem nameOf_not_scalar (pre : Text) (n : Nat) : nameOf pre n ∉ scalarNames := by
  obtain ⟨r, c, h1, h2⟩ := nameOf_last pre n
  intro h
  rw [h1] at h
  have hl : (r ++ [c]).getLast? = some c := by simp
  simp only [scalarNames, List.mem_cons, List.not_mem_nil, or_false] at h
  rcases h with h | h | h | h <;>
  · rw [h] at hl
    simp at hl
    subst hl
    revert h2
    decide

/-- No type has a name that is still to be given. -/
def Fresh (pre : Text) (st : St) : Prop := ∀ n, st.counter ≤ n → get (nameOf pre n) st.types = none

/-- The types are still there. -/
def Ext (st st' : St) : Prop := ∀ t fs, get t st.types = some fs → get t st'.types = some fs

theorem Ext.rfl' {st : St} : Ext st st := fun _ _ h => h

theorem Ext.trans {a b c : St} (h : Ext a b) (h' : Ext b c) : Ext a c := fun t fs x => h' t fs (h t fs x)

theorem addType_fresh {pre : Text} {fs : Fields} {st : St} (h : Fresh pre st) : Fresh pre (addType pre fs st).2 := by
  intro n hn
  simp only [addType] at hn ⊢
  rw [get_put_other _ (by intro he; have := nameOf_inj he; omega)]
  exact h n (by omega)

theorem addType_ext {pre : Text} {fs : Fields} {st : St} (h : Fresh pre st) : Ext st (addType pre fs st).2 := by
  intro t fs' ht
  simp only [addType]
  rw [get_put_other _ (by rintro rfl; rw [h st.counter (Nat.le_refl _)] at ht; simp at ht)]
  exact ht

mutual
theorem frame_type (pre : Text) : ∀ (v : J) (st : St), Fresh pre st → Fresh pre (genType pre v st).2 ∧ Ext st (genType pre v st).2
  | .arr l, st, h => by
    unfold genType
    exact frame_items pre l [] st h
  | .obj kvs, st, h => by
    unfold genType
    split
    · exact ⟨h, Ext.rfl'⟩
    · have := frame_fields pre kvs [] st h
      exact ⟨addType_fresh this.1, this.2.trans (addType_ext this.1)⟩
  | .null, st, h => by simp only [genType]; exact ⟨h, Ext.rfl'⟩
  | .bool b, st, h => by simp only [genType]; exact ⟨h, Ext.rfl'⟩
  | .int i, st, h => by simp only [genType]; exact ⟨h, Ext.rfl'⟩
  | .float, st, h => by simp only [genType]; exact ⟨h, Ext.rfl'⟩
  | .str s, st, h => by simp only [genType]; exact ⟨h, Ext.rfl'⟩
theorem frame_items (pre : Text) : ∀ (l : List J) (acc : List Fields) (st : St), Fresh pre st →
    Fresh pre (genItems pre l acc st).2 ∧ Ext st (genItems pre l acc st).2
  | [], acc, st, h => by
    unfold genItems
    split
    · exact ⟨h, Ext.rfl'⟩
    · exact ⟨addType_fresh h, addType_ext h⟩
  | .obj kvs :: l, acc, st, h => by
    unfold genItems
    split
    · exact ⟨h, Ext.rfl'⟩
    · have h1 := frame_fields pre kvs [] st h
      have h2 := frame_items pre l (acc ++ [(genFields pre kvs [] st).1]) _ h1.1
      exact ⟨h2.1, h1.2.trans h2.2⟩
  | .arr l' :: l, acc, st, h => by simp only [genItems]; exact frame_type pre (.arr l') st h
  | .null :: l, acc, st, h => by simp only [genItems]; exact frame_type pre .null st h
  | .bool b :: l, acc, st, h => by simp only [genItems]; exact frame_type pre (.bool b) st h
  | .int i :: l, acc, st, h => by simp only [genItems]; exact frame_type pre (.int i) st h
  | .float :: l, acc, st, h => by simp only [genItems]; exact frame_type pre .float st h
  | .str s :: l, acc, st, h => by simp only [genItems]; exact frame_type pre (.str s) st h
theorem frame_fields (pre : Text) : ∀ (kvs : List (Text × J)) (acc : Fields) (st : St), Fresh pre st →
    Fresh pre (genFields pre kvs acc st).2 ∧ Ext st (genFields pre kvs acc st).2
  | [], acc, st, h => by simp only [genFields]; exact ⟨h, Ext.rfl'⟩
  | p :: r, acc, st, h => by
    simp only [genFields]
    have h1 := frame_field pre p st h
    have h2 := frame_fields pre r (put p.1 (genField pre p st).1 acc) _ h1.1
    exact ⟨h2.1, h1.2.trans h2.2⟩
theorem frame_field (pre : Text) : ∀ (p : Text × J) (st : St), Fresh pre st →
    Fresh pre (genField pre p st).2 ∧ Ext st (genField pre p st).2
  | (_, v), st, h => by
    unfold genField
    split
    · exact ⟨h, Ext.rfl'⟩
    · split
      · exact ⟨h, Ext.rfl'⟩
      · exact frame_type pre v st h
end

theorem Fits.mono {types types' : List (Text × Fields)} (h : ∀ t fs, get t types = some fs → get t types' = some fs)
    {ty : Ty} {v : J} (hf : Fits types ty v) : Fits types' ty v := by
  induction hf with
  | null => exact .null
  | json => exact .json
  | bool => exact .bool
  | int h => exact .int h
  | str => exact .str
  | list _ ih => exact .list ih
  | obj h1 h2 h3 _ ih => exact .obj h1 (h _ _ h2) h3 ih

/-- Every value of the shape fits the type. -/
def Univ (st : St) (s : Shape) (ty : Ty) : Prop := ∀ w, Has .strict s w → Fits st.types ty w

theorem Univ.mono {st st' : St} (h : Ext st st') {s : Shape} {ty : Ty} (hu : Univ st s ty) : Univ st' s ty :=
  fun w hw => (hu w hw).mono h

theorem univ_json (st : St) (s : Shape) (nn : Bool) : Univ st s (.named jsonName nn) := fun _ _ => .json

theorem get_of_key {V : Type} {k : Text} {l : List (Text × V)} (h : k ∈ l.map (·.1)) : (get k l).isSome = true := by
  induction l with
  | nil => simp at h
  | cons p l ih =>
    obtain ⟨a, b⟩ := p
    simp only [List.map_cons, List.mem_cons] at h
    unfold Verif.Merge.get
    split
    · rfl
    · rename_i hne
      rcases h with rfl | h
      · exact absurd rfl hne
      · exact ih h

theorem key_of_get {V : Type} {k : Text} {v : V} {l : List (Text × V)} (h : get k l = some v) : (k, v) ∈ l := by
  induction l with
  | nil => simp [Verif.Merge.get] at h
  | cons p l ih =>
    obtain ⟨a, b⟩ := p
    unfold Verif.Merge.get at h
    split at h
    · rename_i he
      subst he
      obtain rfl := Option.some.inj h
      exact List.mem_cons_self
    · exact List.mem_cons_of_mem _ (ih h)

/-- The fields hold a type for each of the keys that every value of the key's shape fits. -/
def GoodFields (st : St) (fs : List (Text × Shape)) (keys : List Text) (F : Fields) : Prop :=
  (∀ k ∈ keys, (get k F).isSome = true) ∧ ∀ k ty s, get k F = some ty → get k fs = some s → Univ st s ty

theorem GoodFields.mono {st st' : St} (h : Ext st st') {fs : List (Text × Shape)} {keys : List Text} {F : Fields}
    (hg : GoodFields st fs keys F) : GoodFields st' fs keys F :=
  ⟨hg.1, fun k ty s h1 h2 => (hg.2 k ty s h1 h2).mono h⟩

theorem good_put {st : St} {fs : List (Text × Shape)} {keys : List Text} {F : Fields} (hg : GoodFields st fs keys F)
    {k : Text} {ty : Ty} (h : ∀ s, get k fs = some s → Univ st s ty) : GoodFields st fs (k :: keys) (put k ty F) := by
  constructor
  · intro k' hk'
    by_cases he : k' = k
    · subst he; rw [get_put_same]; rfl
    · rw [get_put_other _ he]
      simp only [List.mem_cons] at hk'
      exact hg.1 k' (hk'.resolve_left he)
  · intro k' ty' s h1 h2
    by_cases he : k' = k
    · subst he
      rw [get_put_same] at h1
      obtain rfl := Option.some.inj h1
      exact h s h2
    · rw [get_put_other _ he] at h1
      exact hg.2 k' ty' s h1 h2

theorem GoodFields.sub {st : St} {fs : List (Text × Shape)} {keys keys' : List Text} {F : Fields}
    (hg : GoodFields st fs keys F) (h : ∀ k ∈ keys', k ∈ keys) : GoodFields st fs keys' F :=
  ⟨fun k hk => hg.1 k (h k hk), hg.2⟩

/-- One field merged. -/
theorem good_mergeField {st : St} {fs : List (Text × Shape)} {keys : List Text} {acc : Fields} (hg : GoodFields st fs keys acc)
    {kt : Text × Ty} (h : ∀ s, get kt.1 fs = some s → Univ st s kt.2) : GoodFields st fs (kt.1 :: keys) (mergeField acc kt) := by
  unfold mergeField
  split
  · exact good_put hg h
  · rename_i old ho
    split
    · exact good_put hg h
    · refine ⟨?_, hg.2⟩
      intro k hk
      simp only [List.mem_cons] at hk
      rcases hk with rfl | hk
      · rw [ho]; rfl
      · exact hg.1 k hk

theorem good_mergeOne {st : St} {fs : List (Text × Shape)} : ∀ (F acc : Fields) (keys : List Text), GoodFields st fs keys acc →
    (∀ kt ∈ F, ∀ s, get kt.1 fs = some s → Univ st s kt.2) →
    GoodFields st fs (F.map (·.1) ++ keys) (F.foldl mergeField acc)
  | [], acc, keys, hg, _ => hg
  | kt :: F, acc, keys, hg, h => by
    have := good_mergeOne F _ _ (good_mergeField hg (h kt List.mem_cons_self)) (fun x hx => h x (List.mem_cons_of_mem _ hx))
    refine this.sub ?_
    intro k hk
    simp only [List.map_cons, List.cons_append, List.mem_cons, List.mem_append] at hk ⊢
    rcases hk with h | h | h
    · exact .inr (.inl h)
    · exact .inl h
    · exact .inr (.inr h)

theorem good_merge {st : St} {fs : List (Text × Shape)} : ∀ (ts : List Fields) (acc : Fields) (keys : List Text), GoodFields st fs keys acc →
    (∀ F ∈ ts, ∀ kt ∈ F, ∀ s, get kt.1 fs = some s → Univ st s kt.2) →
    GoodFields st fs ((ts.map (fun F => F.map (·.1))).flatten ++ keys) (ts.foldl (fun acc t => t.foldl mergeField acc) acc)
  | [], acc, keys, hg, _ => hg
  | F :: ts, acc, keys, hg, h => by
    have := good_merge ts _ _ (good_mergeOne F acc keys hg (h F List.mem_cons_self)) (fun x hx => h x (List.mem_cons_of_mem _ hx))
    refine this.sub ?_
    intro k hk
    simp only [List.map_cons, List.flatten_cons, List.mem_append] at hk ⊢
    rcases hk with (h | h) | h
    · exact .inr (.inl h)
    · exact .inl h
    · exact .inr (.inr h)

/-- The keys of fields are unique, so that every entry is found. -/
def Uniq (F : Fields) : Prop := ∀ kt ∈ F, get kt.1 F = some kt.2

theorem mem_put {V : Type} {k : Text} {v : V} {l : List (Text × V)} {p : Text × V} (h : p ∈ put k v l) :
    p = (k, v) ∨ p ∈ l := by
  induction l with
  | nil => simpa [put] using h
  | cons q l ih =>
    obtain ⟨a, b⟩ := q
    unfold put at h
    split at h
    · simp only [List.mem_cons] at h ⊢
      rcases h with h | h
      · exact .inl h
      · exact .inr (.inr h)
    · simp only [List.mem_cons] at h ⊢
      rcases h with h | h
      · exact .inr (.inl h)
      · rcases ih h with h | h
        · exact .inl h
        · exact .inr (.inr h)

/-- Keys without repetition. -/
theorem put_keys {V : Type} (k : Text) (v : V) : ∀ l : List (Text × V), (l.map (·.1)).Nodup → ((put k v l).map (·.1)).Nodup
  | [], _ => by simp [put]
  | (a, b) :: l, h => by
    simp only [List.map_cons, List.nodup_cons] at h
    unfold put
    split
    · rename_i he
      subst he
      simpa using h
    · rename_i hne
      simp only [List.map_cons, List.nodup_cons]
      refine ⟨?_, put_keys k v l h.2⟩
      intro hm
      obtain ⟨p, hp, hpa⟩ := List.mem_map.mp hm
      rcases mem_put hp with rfl | hp
      · exact hne hpa.symm
      · exact h.1 (List.mem_map.mpr ⟨p, hp, hpa⟩)

theorem uniq_of_nodup {F : Fields} (h : (F.map (·.1)).Nodup) : Uniq F := by
  induction F with
  | nil => intro kt hk; simp at hk
  | cons p F ih =>
    obtain ⟨a, b⟩ := p
    simp only [List.map_cons, List.nodup_cons] at h
    intro kt hk
    simp only [List.mem_cons] at hk
    rcases hk with rfl | hk
    · simp [Verif.Merge.get]
    · have hne : a ≠ kt.1 := by
        rintro rfl
        exact h.1 (List.mem_map.mpr ⟨kt, hk, rfl⟩)
      simp only [Verif.Merge.get, hne, if_false]
      exact ih h.2 kt hk

theorem fields_nodup (pre : Text) : ∀ (kvs : List (Text × J)) (acc : Fields) (st : St), (acc.map (·.1)).Nodup →
    ((genFields pre kvs acc st).1.map (·.1)).Nodup
  | [], acc, st, h => by simpa only [genFields] using h
  | p :: r, acc, st, h => by
    simp only [genFields]
    exact fields_nodup pre r _ _ (put_keys _ _ _ h)

/-- The type that `addType` gives for good fields. -/
theorem univ_addType {pre : Text} {st : St} (hfr : Fresh pre st) {fs : List (Text × Shape)} {keys : List Text} {F : Fields}
    (hg : GoodFields st fs keys F) (hall : ∀ ks ∈ fs, ks.1 ∈ keys) :
    Univ (addType pre F st).2 (.obj fs) (.named (addType pre F st).1 false) := by
  intro w hw
  cases hw with
  | null => exact .null
  | @obj _ _ kvs hn _ h2 h3 =>
    refine .obj (fs := F) (nameOf_not_scalar pre _) ?_ ?_ ?_
    · simp only [addType]; exact get_put_same _ _ _
    · intro kv hkv
      obtain ⟨s, hs⟩ := Option.isSome_iff_exists.mp (h2 kv hkv)
      exact hg.1 _ (hall _ (key_of_get hs))
    · intro kv hkv ty hty
      obtain ⟨s, hs⟩ := Option.isSome_iff_exists.mp (h2 kv hkv)
      exact ((hg.2 _ _ _ hty hs).mono (addType_ext hfr)) _ (h3 kv hkv s hs)

/-! ## Deep in arrays -/

mutual
theorem strict_type (pre : Text) : ∀ (v : J) (s : Shape) (st : St), Fresh pre st → s.plain = true → Has .strict s v →
    Univ (genType pre v st).2 s (.named (genType pre v st).1 false)
  | .null, s, st, _, _, _ => by simp only [genType]; exact univ_json _ _ _
  | .bool b, s, st, _, _, h => by
    simp only [genType, toGqlType]
    cases h
    intro w hw
    cases hw
    · exact .null
    · exact .bool
  | .int i, s, st, _, _, h => by
    simp only [genType, toGqlType]
    cases h
    intro w hw
    cases hw with
    | null => exact .null
    | int h => exact .int h
  | .float, s, st, _, _, h => by cases h
  | .str x, s, st, _, _, h => by
    simp only [genType, toGqlType]
    cases h
    intro w hw
    cases hw
    · exact .null
    · exact .str
  | .arr l, s, st, _, hp, h => by
    cases h
    simp [Shape.plain] at hp
  | .obj kvs, s, st, hf, _, h => by
    unfold genType
    split
    · exact univ_json _ _ _
    · cases h with
      | @obj _ fs _ hn h1 h2 h3 =>
        have hg := strict_fields pre kvs fs [] [] st hf ⟨by simp, by simp [Verif.Merge.get]⟩ h3
        exact univ_addType (frame_fields pre kvs [] st hf).1 hg
          (fun ks hks => by simpa using h1 rfl ks hks)
/-- The items of an array whose items agree in all keys. -/
theorem strict_items (pre : Text) : ∀ (l : List J) (s : Shape) (acc : List Fields) (st : St), Fresh pre st → s.plain = true →
    (∀ v ∈ l, Has .strict s v) →
    (∀ F ∈ acc, ∃ fs, s = .obj fs ∧ (∀ ks ∈ fs, ks.1 ∈ F.map (·.1)) ∧ ∀ kt ∈ F, ∀ s', get kt.1 fs = some s' → Univ st s' kt.2) →
    Univ (genItems pre l acc st).2 s (.named (genItems pre l acc st).1 false)
  | [], s, acc, st, hf, _, _, ha => by
    unfold genItems
    split
    · exact univ_json _ _ _
    · rename_i hne
      cases acc with
      | nil => simp at hne
      | cons F acc =>
        obtain ⟨fs, rfl, hk, _⟩ := ha F List.mem_cons_self
        have hg := good_merge (st := st) (fs := fs) (F :: acc) [] [] ⟨by simp, by simp [Verif.Merge.get]⟩ (by
          intro F' hF' kt hkt s' hs'
          obtain ⟨fs', he, _, hu⟩ := ha F' hF'
          cases he
          exact hu kt hkt s' hs')
        refine univ_addType hf hg ?_
        intro ks hks
        simp only [List.map_cons, List.flatten_cons, List.mem_append]
        exact .inl (.inl (hk ks hks))
  | .obj kvs :: l, s, acc, st, hf, hp, h, ha => by
    unfold genItems
    split
    · exact univ_json _ _ _
    · have hv := h _ List.mem_cons_self
      cases hv with
      | @obj _ fs _ hn h1 h2 h3 =>
        have hg := strict_fields pre kvs fs [] [] st hf ⟨by simp, by simp [Verif.Merge.get]⟩ h3
        have hfr := frame_fields pre kvs [] st hf
        refine strict_items pre l (.obj fs) _ _ hfr.1 hp (fun v hv => h v (List.mem_cons_of_mem _ hv)) ?_
        intro F hF
        simp only [List.mem_append, List.mem_cons, List.not_mem_nil, or_false] at hF
        rcases hF with hF | rfl
        · obtain ⟨fs', he, hk, hu⟩ := ha F hF
          cases he
          exact ⟨fs, rfl, hk, fun kt hkt s' hs' => (hu kt hkt s' hs').mono hfr.2⟩
        · refine ⟨fs, rfl, ?_, ?_⟩
          · intro ks hks
            have := hg.1 ks.1 (by simpa using h1 rfl ks hks)
            obtain ⟨ty, hty⟩ := Option.isSome_iff_exists.mp this
            exact List.mem_map.mpr ⟨_, key_of_get hty, rfl⟩
          · intro kt hkt s' hs'
            exact hg.2 kt.1 kt.2 s' (uniq_of_nodup (fields_nodup pre kvs [] st (by simp)) kt hkt) hs'
  | .arr l' :: l, s, acc, st, hf, hp, h, ha => by
    simp only [genItems]; exact strict_type pre (.arr l') s st hf hp (h _ List.mem_cons_self)
  | .null :: l, s, acc, st, hf, hp, h, ha => by
    simp only [genItems]; exact strict_type pre .null s st hf hp (h _ List.mem_cons_self)
  | .bool b :: l, s, acc, st, hf, hp, h, ha => by
    simp only [genItems]; exact strict_type pre (.bool b) s st hf hp (h _ List.mem_cons_self)
  | .int i :: l, s, acc, st, hf, hp, h, ha => by
    simp only [genItems]; exact strict_type pre (.int i) s st hf hp (h _ List.mem_cons_self)
  | .float :: l, s, acc, st, hf, hp, h, ha => by
    simp only [genItems]; exact strict_type pre .float s st hf hp (h _ List.mem_cons_self)
  | .str x :: l, s, acc, st, hf, hp, h, ha => by
    simp only [genItems]; exact strict_type pre (.str x) s st hf hp (h _ List.mem_cons_self)
theorem strict_fields (pre : Text) : ∀ (kvs : List (Text × J)) (fs : List (Text × Shape)) (keys : List Text) (acc : Fields) (st : St),
    Fresh pre st → GoodFields st fs keys acc →
    (∀ kv ∈ kvs, ∀ s, get kv.1 fs = some s → Has .strict s kv.2) →
    GoodFields (genFields pre kvs acc st).2 fs (kvs.map (·.1) ++ keys) (genFields pre kvs acc st).1
  | [], fs, keys, acc, st, _, hg, _ => by simpa only [genFields, List.map_nil, List.nil_append] using hg
  | p :: r, fs, keys, acc, st, hf, hg, h => by
    simp only [genFields]
    have hfr := frame_field pre p st hf
    have hp := fun s hs => strict_field pre p s st hf (h p List.mem_cons_self s hs)
    have := strict_fields pre r fs (p.1 :: keys) _ _ hfr.1 (good_put (hg.mono hfr.2) hp)
      (fun kv hkv => h kv (List.mem_cons_of_mem _ hkv))
    refine this.sub ?_
    intro k hk
    simp only [List.map_cons, List.cons_append, List.mem_cons, List.mem_append] at hk ⊢
    rcases hk with h | h | h
    · exact .inr (.inl h)
    · exact .inl h
    · exact .inr (.inr h)
theorem strict_field (pre : Text) : ∀ (p : Text × J) (s : Shape) (st : St), Fresh pre st → Has .strict s p.2 →
    Univ (genField pre p st).2 s (genField pre p st).1
  | (_, .null), s, st, _, _ => by
    simp only [genField, compat, isPrimitive, toGqlType, listed]
    exact univ_json _ _ _
  | (_, .bool b), s, st, hf, h => by
    have := strict_type pre (.bool b) s st hf (by cases h; rfl) h
    simpa [genField, compat, isPrimitive, toGqlType, listed, genType] using this
  | (_, .int i), s, st, hf, h => by
    have := strict_type pre (.int i) s st hf (by cases h; rfl) h
    simpa [genField, compat, isPrimitive, toGqlType, listed, genType] using this
  | (_, .float), s, st, hf, h => by cases h
  | (_, .str x), s, st, hf, h => by
    have := strict_type pre (.str x) s st hf (by cases h; rfl) h
    simpa [genField, compat, isPrimitive, toGqlType, listed, genType] using this
  | (k, .obj kvs), s, st, hf, h => by
    have := strict_type pre (.obj kvs) s st hf (by cases h; rfl) h
    have hpr : isPrimitive (.obj kvs) = false := rfl
    unfold genField
    split
    · exact univ_json _ _ _
    · simp only [hpr, Bool.false_eq_true, if_false, listed]
      exact this
  | (k, .arr l), s, st, hf, h => by
    cases h with
    | @list _ s' _ hp hl =>
      have hpr : isPrimitive (.arr l) = false := rfl
      have lift : ∀ (st' : St) (t : Text), Univ st' s' (.named t false) → Univ st' (.list s') (.list (.named t false) false) := by
        intro st' t hu w hw
        cases hw with
        | null => exact .null
        | list _ hl => exact .list (fun v hv => hu v (hl v hv))
      unfold genField
      split
      · exact lift _ _ (univ_json _ _ _)
      · simp only [hpr, Bool.false_eq_true, if_false, listed]
        apply lift
        simp only [genType]
        exact strict_items pre l s' [] st hf hp hl (by simp)
end

/-! ## Items of arrays -/

/-- The items of an array that are processed are objects whose keys are those of the fields made of them. -/
theorem item_items (pre : Text) : ∀ (l : List J) (s : Shape) (done : List J) (acc : List Fields) (st : St), Fresh pre st → s.plain = true →
    (∀ v ∈ done ++ l, Has .item s v) →
    (∀ v ∈ done, ∃ kvs F, v = .obj kvs ∧ F ∈ acc ∧ ∀ kv ∈ kvs, kv.1 ∈ F.map (·.1)) →
    (∀ F ∈ acc, ∃ fs, s = .obj fs ∧ ∀ kt ∈ F, ∀ s', get kt.1 fs = some s' → Univ st s' kt.2) →
    ∀ v ∈ done ++ l, Fits (genItems pre l acc st).2.types (.named (genItems pre l acc st).1 false) v
  | [], s, done, acc, st, hf, hp, h, hd, ha => by
    intro v hv
    rw [List.append_nil] at hv h
    unfold genItems
    split
    · exact .json
    · obtain ⟨kvs, F, rfl, hF, hk⟩ := hd v hv
      obtain ⟨fs, rfl, _⟩ := ha F hF
      have hg := good_merge (st := st) (fs := fs) acc [] [] ⟨by simp, by simp [Verif.Merge.get]⟩ (by
        intro F' hF' kt hkt s' hs'
        obtain ⟨fs', he, hu⟩ := ha F' hF'
        cases he
        exact hu kt hkt s' hs')
      have hhas := h _ hv
      cases hhas with
      | obj hn _ h2 h3 =>
        refine .obj (fs := mergeFields acc) (nameOf_not_scalar pre _) ?_ ?_ ?_
        · simp only [addType]; exact get_put_same _ _ _
        · intro kv hkv
          apply hg.1
          rw [List.append_nil, List.mem_flatten]
          exact ⟨_, List.mem_map.mpr ⟨F, hF, rfl⟩, hk kv hkv⟩
        · intro kv hkv ty hty
          obtain ⟨s', hs'⟩ := Option.isSome_iff_exists.mp (h2 kv hkv)
          exact ((hg.2 _ _ _ hty hs').mono (addType_ext hf)) _ (h3 kv hkv s' hs')
  | .obj kvs :: l, s, done, acc, st, hf, hp, h, hd, ha => by
    unfold genItems
    split
    · intro v _; exact .json
    · have hv := h (.obj kvs) (List.mem_append_right _ List.mem_cons_self)
      cases hv with
      | @obj _ fs _ hn h1 h2 h3 =>
        have hg := strict_fields pre kvs fs [] [] st hf ⟨by simp, by simp [Verif.Merge.get]⟩ h3
        have hfr := frame_fields pre kvs [] st hf
        have heq : done ++ .obj kvs :: l = (done ++ [.obj kvs]) ++ l := by simp
        rw [heq] at h ⊢
        refine item_items pre l (.obj fs) (done ++ [.obj kvs]) _ _ hfr.1 hp h ?_ ?_
        · intro v hv
          simp only [List.mem_append, List.mem_cons, List.not_mem_nil, or_false] at hv
          rcases hv with hv | rfl
          · obtain ⟨kvs', F, e1, e2, e3⟩ := hd v hv
            exact ⟨kvs', F, e1, List.mem_append_left _ e2, e3⟩
          · refine ⟨kvs, _, rfl, List.mem_append_right _ List.mem_cons_self, ?_⟩
            intro kv hkv
            have := hg.1 kv.1 (by simpa using ⟨kv.2, hkv⟩)
            obtain ⟨ty, hty⟩ := Option.isSome_iff_exists.mp this
            exact List.mem_map.mpr ⟨_, key_of_get hty, rfl⟩
        · intro F hF
          simp only [List.mem_append, List.mem_cons, List.not_mem_nil, or_false] at hF
          rcases hF with hF | rfl
          · obtain ⟨fs', he, hu⟩ := ha F hF
            cases he
            exact ⟨fs, rfl, fun kt hkt s' hs' => (hu kt hkt s' hs').mono hfr.2⟩
          · refine ⟨fs, rfl, ?_⟩
            intro kt hkt s' hs'
            exact hg.2 kt.1 kt.2 s' (uniq_of_nodup (fields_nodup pre kvs [] st (by simp)) kt hkt) hs'
  | .null :: l, s, done, acc, st, hf, hp, h, hd, ha => by
    simp only [genItems, genType, toGqlType]
    intro v _
    exact .json
  | .float :: l, s, done, acc, st, hf, hp, h, hd, ha => by
    have := h .float (List.mem_append_right _ List.mem_cons_self)
    cases this
  | .arr l' :: l, s, done, acc, st, hf, hp, h, hd, ha => by
    have := h (.arr l') (List.mem_append_right _ List.mem_cons_self)
    cases this
    simp [Shape.plain] at hp
  | .bool b :: l, s, done, acc, st, hf, hp, h, hd, ha => by
    have hb := h (.bool b) (List.mem_append_right _ List.mem_cons_self)
    cases hb
    simp only [genItems, genType, toGqlType]
    intro v hv
    have := h v hv
    cases this
    · exact .null
    · exact .bool
  | .int i :: l, s, done, acc, st, hf, hp, h, hd, ha => by
    have hb := h (.int i) (List.mem_append_right _ List.mem_cons_self)
    cases hb
    simp only [genItems, genType, toGqlType]
    intro v hv
    have := h v hv
    cases this with
    | null => exact .null
    | int h => exact .int h
  | .str x :: l, s, done, acc, st, hf, hp, h, hd, ha => by
    have hb := h (.str x) (List.mem_append_right _ List.mem_cons_self)
    cases hb
    simp only [genItems, genType, toGqlType]
    intro v hv
    have := h v hv
    cases this
    · exact .null
    · exact .str

/-! ## Outside arrays -/

/-- The fields hold types that the values fit. -/
def FitFields (st : St) (kvs : List (Text × J)) (F : Fields) : Prop :=
  ∀ kv ∈ kvs, ∃ ty, get kv.1 F = some ty ∧ Fits st.types ty kv.2

mutual
theorem loose_type (pre : Text) : ∀ (v : J) (s : Shape) (st : St), Fresh pre st → Has .loose s v →
    Fits (genType pre v st).2.types (listed v (genType pre v st).1) v
  | .null, s, st, _, _ => .null
  | .bool b, s, st, _, h => by cases h; simp only [genType, toGqlType, listed]; exact .bool
  | .int i, s, st, _, h => by cases h with | int h => simp only [genType, toGqlType, listed]; exact .int h
  | .float, s, st, _, h => by cases h
  | .str x, s, st, _, h => by cases h; simp only [genType, toGqlType, listed]; exact .str
  | .arr l, s, st, hf, h => by
    cases h with
    | @list _ s' _ hp hl =>
      simp only [genType, listed]
      exact .list (fun v hv => item_items pre l s' [] [] st hf hp (fun v hv => hl v (by simpa using hv)) (by simp) (by simp) v
        (by simpa using hv))
  | .obj kvs, s, st, hf, h => by
    cases h with
    | @obj _ fs _ hn h1 h2 h3 =>
      unfold genType
      split
      · exact .json
      · have hg := loose_fields pre kvs fs [] [] st hf (by simpa using hn) h2 h3 (by intro kv hkv; simp at hkv)
        have hfr := frame_fields pre kvs [] st hf
        simp only [listed]
        refine .obj (fs := (genFields pre kvs [] st).1) (nameOf_not_scalar pre _) ?_ ?_ ?_
        · simp only [addType]; exact get_put_same _ _ _
        · intro kv hkv
          obtain ⟨ty, e1, _⟩ := hg kv (by simpa using hkv)
          rw [e1]; rfl
        · intro kv hkv ty hty
          obtain ⟨ty', e1, e2⟩ := hg kv (by simpa using hkv)
          rw [hty] at e1
          obtain rfl := Option.some.inj e1
          exact e2.mono (addType_ext hfr.1)
theorem loose_fields (pre : Text) : ∀ (kvs : List (Text × J)) (fs : List (Text × Shape)) (done : List (Text × J)) (acc : Fields) (st : St),
    Fresh pre st → ((done ++ kvs).map (·.1)).Nodup → (∀ kv ∈ kvs, (get kv.1 fs).isSome = true) →
    (∀ kv ∈ kvs, ∀ s, get kv.1 fs = some s → Has .loose s kv.2) → FitFields st done acc →
    FitFields (genFields pre kvs acc st).2 (done ++ kvs) (genFields pre kvs acc st).1
  | [], fs, done, acc, st, _, _, _, _, hg => by simpa only [genFields, List.append_nil] using hg
  | p :: r, fs, done, acc, st, hf, hn, h2, h, hg => by
    simp only [genFields]
    have hfr := frame_field pre p st hf
    obtain ⟨s, hs⟩ := Option.isSome_iff_exists.mp (h2 p List.mem_cons_self)
    have hp := loose_field pre p s st hf (h p List.mem_cons_self s hs)
    have heq : done ++ p :: r = (done ++ [p]) ++ r := by simp
    rw [heq] at hn ⊢
    refine loose_fields pre r fs (done ++ [p]) _ _ hfr.1 hn (fun kv hkv => h2 kv (List.mem_cons_of_mem _ hkv))
      (fun kv hkv => h kv (List.mem_cons_of_mem _ hkv)) ?_
    intro kv hkv
    simp only [List.mem_append, List.mem_cons, List.not_mem_nil, or_false] at hkv
    rcases hkv with hkv | rfl
    · obtain ⟨ty, e1, e2⟩ := hg kv hkv
      have hne : kv.1 ≠ p.1 := by
        intro he
        rw [List.append_assoc, List.map_append, List.nodup_append] at hn
        exact hn.2.2 kv.1 (List.mem_map.mpr ⟨kv, hkv, rfl⟩) p.1 (by simp) he
      exact ⟨ty, by rw [get_put_other _ hne]; exact e1, e2.mono hfr.2⟩
    · exact ⟨_, get_put_same _ _ _, hp⟩
theorem loose_field (pre : Text) : ∀ (p : Text × J) (s : Shape) (st : St), Fresh pre st → Has .loose s p.2 →
    Fits (genField pre p st).2.types (genField pre p st).1 p.2
  | (_, v), s, st, hf, h => by
    have hv := loose_type pre v s st hf h
    unfold genField
    split
    · rename_i hc
      cases v with
      | arr l =>
        cases l with
        | nil => exact .list (by simp)
        | cons => simp [compat] at hc
      | obj kvs => exact .json
      | _ => simp [compat] at hc
    · split
      · rename_i hp
        cases v with
        | arr => simp [isPrimitive, toGqlType] at hp
        | obj => simp [isPrimitive, toGqlType] at hp
        | _ => simpa only [genType] using hv
      · exact hv
end

/-! ## C87: the sample fits its types -/

/-- C87, the part that holds: a sample response that has a shape fits the type that is generated for it.

Missing from the full statement: samples without a shape in the sense of `Has` (violations below). -/
theorem C87_sample_fits_partial (pre : Text) (res : J) (req : Option J) (st : St) (hf : Fresh pre st) (s : Shape)
    (h : Has .loose s res) :
    Fits (genOp pre res req st).2.types (genOp pre res req st).1.ty res := by
  have h1 := loose_type pre res s st hf h
  cases req with
  | none => exact h1
  | some b => exact h1.mono (frame_type pre b _ (frame_type pre res st hf).1).2

/-- C87: the types that were there stay. -/
theorem C87_types_kept (pre : Text) (res : J) (req : Option J) (st : St) (hf : Fresh pre st) (t : Text) (fs : Fields)
    (h : get t st.types = some fs) : get t (genOp pre res req st).2.types = some fs := by
  have h1 := frame_type pre res st hf
  cases req with
  | none => exact h1.2 t fs h
  | some b => exact (frame_type pre b _ h1.1).2 t fs (h1.2 t fs h)

/-- A name of the GraphQL grammar that is not reserved for introspection. -/
def GqlName (t : Text) : Prop :=
  ∃ c r, t = c :: r ∧ (c.isAlpha = true) ∧ ∀ x ∈ r, x.isAlphanum = true ∨ x = '_'

theorem letter_alpha {c : Char} (h : letter c = true) : c.isAlpha = true := by
  simp only [letter, Char.isAlpha, Char.isUpper, Char.isLower, Bool.or_eq_true, Bool.and_eq_true, decide_eq_true_eq,
    Char.le_def] at *
  rcases h with h | h
  · exact .inr h
  · exact .inl h

theorem valid_gql {t : Text} (h : validName t = true) : GqlName t := by
  cases t with
  | nil => simp [validName] at h
  | cons c r =>
    simp only [validName, Bool.and_eq_true, List.all_eq_true] at h
    refine ⟨c, r, rfl, letter_alpha h.1, ?_⟩
    intro x hx
    have := h.2 x hx
    simp only [wordChar, Bool.or_eq_true, beq_iff_eq] at this
    rcases this with (h1 | h1) | h1
    · exact .inl (by simp [Char.isAlphanum, letter_alpha h1])
    · refine .inl ?_
      simp only [Char.isAlphanum, Char.isDigit, Bool.or_eq_true, Bool.and_eq_true, decide_eq_true_eq, Char.le_def] at h1 ⊢
      exact .inr h1
    · exact .inr h1

theorem gql_valid {t : Text} (h : GqlName t) : validName t = true := by
  obtain ⟨c, r, rfl, hc, hr⟩ := h
  have key : ∀ c : Char, c.isAlpha = true → letter c = true := by
    intro c h
    simp only [letter, Char.isAlpha, Char.isUpper, Char.isLower, Bool.or_eq_true, Bool.and_eq_true, decide_eq_true_eq,
      Char.le_def] at *
    rcases h with h | h
    · exact .inr h
    · exact .inl h
  simp only [validName, Bool.and_eq_true, List.all_eq_true]
  refine ⟨key c hc, ?_⟩
  intro x hx
  simp only [wordChar, Bool.or_eq_true, beq_iff_eq]
  rcases hr x hx with h1 | h1
  · simp only [Char.isAlphanum, Bool.or_eq_true] at h1
    rcases h1 with h1 | h1
    · exact .inl (.inl (key x h1))
    · refine .inl (.inr ?_)
      simp only [Char.isDigit, Bool.and_eq_true, decide_eq_true_eq, Char.le_def] at h1 ⊢
      exact h1
  · exact .inr h1

/-- All fields of the type have names that GraphQL allows. -/
def NamesOk (fs : Fields) : Prop := ∀ kt ∈ fs, GqlName kt.1

/-- The types that are new have names that GraphQL allows. -/
def NewOk (st st' : St) : Prop := ∀ t fs, get t st'.types = some fs → get t st.types = some fs ∨ NamesOk fs

theorem NewOk.trans {a b c : St} (h : NewOk a b) (h' : NewOk b c) : NewOk a c := by
  intro t fs ht
  rcases h' t fs ht with h1 | h1
  · exact h t fs h1
  · exact .inr h1

theorem NewOk.rfl' {a : St} : NewOk a a := fun _ _ h => .inl h

theorem addType_ok {pre : Text} {fs : Fields} {st : St} (h : NamesOk fs) : NewOk st (addType pre fs st).2 := by
  intro t fs' ht
  simp only [addType] at ht
  by_cases he : t = nameOf pre st.counter
  · subst he
    rw [get_put_same] at ht
    obtain rfl := Option.some.inj ht
    exact .inr h
  · rw [get_put_other _ he] at ht
    exact .inl ht

theorem names_put {k : Text} {ty : Ty} {fs : Fields} (hk : GqlName k) (h : NamesOk fs) : NamesOk (put k ty fs) := by
  intro kt hkt
  rcases mem_put hkt with rfl | hkt
  · exact hk
  · exact h kt hkt

theorem names_merge {ts : List Fields} (h : ∀ F ∈ ts, NamesOk F) : NamesOk (mergeFields ts) := by
  have one : ∀ (F acc : Fields), NamesOk F → NamesOk acc → NamesOk (F.foldl mergeField acc) := by
    intro F
    induction F with
    | nil => intro acc _ h; exact h
    | cons kt F ih =>
      intro acc hF hacc
      refine ih _ (fun x hx => hF x (List.mem_cons_of_mem _ hx)) ?_
      have hk := hF kt List.mem_cons_self
      unfold mergeField
      split
      · exact names_put hk hacc
      · split
        · exact names_put hk hacc
        · exact hacc
  have all : ∀ (ts : List Fields) (acc : Fields), (∀ F ∈ ts, NamesOk F) → NamesOk acc →
      NamesOk (ts.foldl (fun acc t => t.foldl mergeField acc) acc) := by
    intro ts
    induction ts with
    | nil => intro acc _ h; exact h
    | cons F ts ih =>
      intro acc h hacc
      exact ih _ (fun x hx => h x (List.mem_cons_of_mem _ hx)) (one F acc (h F List.mem_cons_self) hacc)
  exact all ts [] h (by intro kt hkt; simp at hkt)

theorem compat_names {kvs : List (Text × J)} (h : ¬ (!compat (.obj kvs)) = true) : ∀ kv ∈ kvs, GqlName kv.1 := by
  intro kv hkv
  simp only [compat, Bool.not_eq_true', Bool.not_eq_false, Bool.and_eq_true, List.any_eq_false] at h
  have := h.2 kv hkv
  exact valid_gql (by simpa using this)

mutual
theorem ok_type (pre : Text) : ∀ (v : J) (st : St), NewOk st (genType pre v st).2
  | .arr l, st => by
    unfold genType
    exact ok_items pre l [] st (by simp)
  | .obj kvs, st => by
    unfold genType
    split
    · exact .rfl'
    · rename_i hc
      have := ok_fields pre kvs [] st (by intro kt hkt; simp at hkt) (compat_names hc)
      exact this.1.trans (addType_ok this.2)
  | .null, st => by simp only [genType]; exact .rfl'
  | .bool b, st => by simp only [genType]; exact .rfl'
  | .int i, st => by simp only [genType]; exact .rfl'
  | .float, st => by simp only [genType]; exact .rfl'
  | .str s, st => by simp only [genType]; exact .rfl'
theorem ok_items (pre : Text) : ∀ (l : List J) (acc : List Fields) (st : St), (∀ F ∈ acc, NamesOk F) →
    NewOk st (genItems pre l acc st).2
  | [], acc, st, h => by
    unfold genItems
    split
    · exact .rfl'
    · exact addType_ok (names_merge h)
  | .obj kvs :: l, acc, st, h => by
    unfold genItems
    split
    · exact .rfl'
    · rename_i hc
      have h1 := ok_fields pre kvs [] st (by intro kt hkt; simp at hkt) (compat_names hc)
      have h2 := ok_items pre l (acc ++ [(genFields pre kvs [] st).1]) (genFields pre kvs [] st).2 (by
        intro F hF
        simp only [List.mem_append, List.mem_cons, List.not_mem_nil, or_false] at hF
        rcases hF with hF | rfl
        · exact h F hF
        · exact h1.2)
      exact h1.1.trans h2
  | .arr l' :: l, acc, st, h => by simp only [genItems]; exact ok_type pre (.arr l') st
  | .null :: l, acc, st, h => by simp only [genItems]; exact ok_type pre .null st
  | .bool b :: l, acc, st, h => by simp only [genItems]; exact ok_type pre (.bool b) st
  | .int i :: l, acc, st, h => by simp only [genItems]; exact ok_type pre (.int i) st
  | .float :: l, acc, st, h => by simp only [genItems]; exact ok_type pre .float st
  | .str s :: l, acc, st, h => by simp only [genItems]; exact ok_type pre (.str s) st
theorem ok_fields (pre : Text) : ∀ (kvs : List (Text × J)) (acc : Fields) (st : St), NamesOk acc → (∀ kv ∈ kvs, GqlName kv.1) →
    NewOk st (genFields pre kvs acc st).2 ∧ NamesOk (genFields pre kvs acc st).1
  | [], acc, st, h, _ => by simp only [genFields]; exact ⟨.rfl', h⟩
  | p :: r, acc, st, h, hk => by
    simp only [genFields]
    have h1 := ok_field pre p st
    have h2 := ok_fields pre r (put p.1 (genField pre p st).1 acc) (genField pre p st).2
      (names_put (hk p List.mem_cons_self) h) (fun kv hkv => hk kv (List.mem_cons_of_mem _ hkv))
    exact ⟨h1.trans h2.1, h2.2⟩
theorem ok_field (pre : Text) : ∀ (p : Text × J) (st : St), NewOk st (genField pre p st).2
  | (_, v), st => by
    unfold genField
    split
    · exact .rfl'
    · split
      · exact .rfl'
      · exact ok_type pre v st
end

/-- C87: whatever the sample, the fields of the new types have names that GraphQL allows. -/
theorem C87_names_allowed (pre : Text) (res : J) (req : Option J) (st : St) (t : Text) (fs : Fields)
    (h : get t (genOp pre res req st).2.types = some fs) : get t st.types = some fs ∨ ∀ kt ∈ fs, GqlName kt.1 := by
  have h1 := ok_type pre res st
  cases req with
  | none => exact h1 t fs h
  | some b => exact (h1.trans (ok_type pre b _)) t fs h

theorem items_told (pre : Text) : ∀ (l : List J) (acc : List Fields) (st : St), Fresh pre st → (acc ≠ [] ∨ l ≠ []) →
    (∀ v ∈ l, ∃ kvs, v = .obj kvs ∧ kvs ≠ [] ∧ ∀ kv ∈ kvs, validName kv.1 = true) →
    (genItems pre l acc st).1 ∉ scalarNames ∧ (get (genItems pre l acc st).1 (genItems pre l acc st).2.types).isSome = true
  | [], acc, st, _, hne, _ => by
    unfold genItems
    have : acc.isEmpty = false := by
      rcases hne with h | h
      · simpa using h
      · exact absurd rfl h
    simp only [this, Bool.false_eq_true, if_false]
    refine ⟨nameOf_not_scalar pre _, ?_⟩
    simp only [addType, get_put_same]
    rfl
  | v :: l, acc, st, hf, hne, h => by
    obtain ⟨kvs, rfl, hk, hv⟩ := h v List.mem_cons_self
    have hc : compat (.obj kvs) = true := by
      have h0 : kvs.isEmpty = false := by simpa using hk
      simp only [compat, h0, Bool.not_false, Bool.true_and, Bool.not_eq_true', List.any_eq_false]
      intro kv hkv
      simp [hv kv hkv]
    unfold genItems
    simp only [hc, Bool.not_true, Bool.false_eq_true, if_false]
    exact items_told pre l _ _ (frame_fields pre kvs [] st hf).1 (.inl (by simp)) (fun v hv => h v (List.mem_cons_of_mem _ hv))

/-- C87: a sample that is an array of objects with usable names gets a type of its own and not `JSON`. -/
theorem C87_objects_told (pre : Text) (l : List J) (st : St) (hf : Fresh pre st) (hne : l ≠ [])
    (h : ∀ v ∈ l, ∃ kvs, v = .obj kvs ∧ kvs ≠ [] ∧ ∀ kv ∈ kvs, GqlName kv.1) :
    ∃ t, (genOp pre (.arr l) none st).1.ty = .list (.named t false) false ∧ t ∉ scalarNames ∧
      (get t (genOp pre (.arr l) none st).2.types).isSome = true := by
  have := items_told pre l [] st hf (.inr hne) (fun v hv => (h v hv).imp fun kvs x => ⟨x.1, x.2.1, fun kv hkv => gql_valid (x.2.2 kv hkv)⟩)
  refine ⟨(genItems pre l [] st).1, ?_, this.1, ?_⟩
  · simp only [genOp, genType, listed]
  · simp only [genOp, genType]
    exact this.2

/-! ## C88: the body of the sample request fits its argument -/

/-- C88, the part that holds: a body that is not an array and has a shape can be given for the argument.

Missing from the full statement: arrays (`C88_violated_by_array`) and bodies without a shape. -/
theorem C88_body_fits_partial (pre : Text) (res b : J) (st : St) (hf : Fresh pre st) (s : Shape) (h : Has .loose s b)
    (hs : s.plain = true) :
    ∃ ty, (genOp pre res (some b) st).1.body = some ty ∧ Fits (genOp pre res (some b) st).2.types ty b := by
  have h1 := loose_type pre b s _ (frame_type pre res st hf).1 h
  refine ⟨_, rfl, ?_⟩
  cases b with
  | arr l => cases h; simp [Shape.plain] at hs
  | _ => exact h1

/-! ## Cases that meet the hypotheses -/

/-- Nothing generated yet. -/
def start : St := ⟨1, []⟩

theorem start_fresh (pre : Text) : Fresh pre start := fun _ _ => rfl

/-- The prefix of the names. -/
def pre : Text := "T".toList

/-- An object. -/
def o (l : List (String × J)) : J := .obj (l.map (fun p => (p.1.toList, p.2)))

/-- The shape of the items below. -/
def userShape : Shape := .obj [("id".toList, .int), ("name".toList, .str), ("home".toList, .obj [("zip".toList, .str)]),
  ("tags".toList, .list .str)]

/-- `[{"id": 1, "home": {"zip": "8001"}}, {"id": null, "name": "x", "home": {"zip": null}, "tags": ["a"]}]`. -/
def users : J := .arr [o [("id", .int 1), ("home", o [("zip", .str "8001".toList)])],
  o [("id", .null), ("name", .str "x".toList), ("home", o [("zip", .null)]), ("tags", .arr [.str "a".toList])]]

theorem home_has (v : J) (h : Has .strict .str v) : Has .strict (.obj [("zip".toList, .str)]) (o [("zip", v)]) := by
  refine .obj (by simp [o]) (by intro _ ks hks; simp at hks; subst hks; simp [o]) ?_ ?_
  · intro kv hkv
    simp [o] at hkv
    subst hkv
    rfl
  · intro kv hkv s hs
    simp [o] at hkv
    subst hkv
    obtain rfl := Option.some.inj hs
    exact h

theorem users_has : Has .loose (.list userShape) users := by
  refine .list rfl ?_
  intro v hv
  simp only [List.mem_cons, List.not_mem_nil, or_false] at hv
  rcases hv with rfl | rfl
  · refine .obj (by decide) (by intro h; cases h) ?_ ?_
    · intro kv hkv
      simp only [List.map_cons, List.map_nil, List.mem_cons, List.not_mem_nil, or_false] at hkv
      rcases hkv with rfl | rfl <;> rfl
    · intro kv hkv s hs
      simp only [List.map_cons, List.map_nil, List.mem_cons, List.not_mem_nil, or_false] at hkv
      rcases hkv with rfl | rfl
      · obtain rfl := Option.some.inj hs; exact .int (by simp [small])
      · obtain rfl := Option.some.inj hs; exact home_has _ .str
  · refine .obj (by decide) (by intro h; cases h) ?_ ?_
    · intro kv hkv
      simp only [List.map_cons, List.map_nil, List.mem_cons, List.not_mem_nil, or_false] at hkv
      rcases hkv with rfl | rfl | rfl | rfl <;> rfl
    · intro kv hkv s hs
      simp only [List.map_cons, List.map_nil, List.mem_cons, List.not_mem_nil, or_false] at hkv
      rcases hkv with rfl | rfl | rfl | rfl
      · obtain rfl := Option.some.inj hs; exact .null
      · obtain rfl := Option.some.inj hs; exact .str
      · obtain rfl := Option.some.inj hs; exact home_has _ .null
      · obtain rfl := Option.some.inj hs
        refine .list rfl ?_
        intro v hv
        simp only [List.mem_cons, List.not_mem_nil, or_false] at hv
        subst hv
        exact .str

example : Fits (genOp pre users none start).2.types (genOp pre users none start).1.ty users :=
  C87_sample_fits_partial pre users none start (start_fresh pre) _ users_has

example (t : Text) (fs : Fields) (h : get t (genOp pre users none start).2.types = some fs) : ∀ kt ∈ fs, GqlName kt.1 := by
  rcases C87_names_allowed pre users none start t fs h with h | h
  · cases h
  · exact h

example : ∃ t, (genOp pre users none start).1.ty = .list (.named t false) false ∧ t ∉ scalarNames ∧
      (get t (genOp pre users none start).2.types).isSome = true :=
  C87_objects_told pre _ start (start_fresh pre) (by simp) (by
    intro v hv
    simp only [List.mem_cons, List.not_mem_nil, or_false] at hv
    rcases hv with rfl | rfl
    · exact ⟨_, rfl, by simp, fun kv hkv => valid_gql ((by decide : ∀ kv ∈ _, validName kv.1 = true) kv hkv)⟩
    · exact ⟨_, rfl, by simp, fun kv hkv => valid_gql ((by decide : ∀ kv ∈ _, validName kv.1 = true) kv hkv)⟩)

example : (genOp pre users none start).1.ty = .list (.named "T3".toList false) false := rfl

example : get "T3".toList (genOp pre users none start).2.types = some
    [("id".toList, .named "Int".toList false), ("home".toList, .named "T1".toList false),
     ("name".toList, .named "String".toList false), ("tags".toList, .list (.named "String".toList false) false)] := rfl

example : ∃ ty, (genOp pre .null (some (o [("a", .int 1)])) start).1.body = some ty ∧
    Fits (genOp pre .null (some (o [("a", .int 1)])) start).2.types ty (o [("a", .int 1)]) :=
  C88_body_fits_partial pre .null _ start (start_fresh pre) (.obj [("a".toList, .int)])
    (.obj (by decide) (by intro h; cases h)
      (by intro kv hkv; simp at hkv; subst hkv; rfl)
      (by
        intro kv hkv s hs
        simp at hkv; subst hkv
        obtain rfl := Option.some.inj hs
        exact .int (by simp [small]))) rfl

/-! ## Violations -/

/-- What fits a named type that is an object type. -/
theorem fits_obj {types : List (Text × Fields)} {t : Text} {fs : Fields} {kvs : List (Text × J)}
    (h : Fits types (.named t false) (.obj kvs)) (hg : get t types = some fs) (hj : t ≠ "JSON".toList) :
    ∀ kv ∈ kvs, ∃ ty, get kv.1 fs = some ty ∧ Fits types ty kv.2 := by
  generalize hty : Ty.named t false = ty at h
  cases h with
  | json => simp only [Ty.named.injEq] at hty; exact absurd hty.1 hj
  | @obj _ fs' _ _ _ h2 h3 h4 =>
    simp only [Ty.named.injEq] at hty
    obtain ⟨rfl, rfl⟩ := hty
    rw [hg] at h2
    obtain rfl := Option.some.inj h2
    intro kv hkv
    obtain ⟨ty, he⟩ := Option.isSome_iff_exists.mp (h3 kv hkv)
    exact ⟨ty, he, h4 kv hkv ty he⟩

theorem fits_list {types : List (Text × Fields)} {t : Ty} {l : List J} (h : Fits types (.list t false) (.arr l)) :
    ∀ v ∈ l, Fits types t v := by
  cases h with
  | list h => exact h

theorem fits_int {types : List (Text × Fields)} {v : J} (h : Fits types (.named "Int".toList false) v) :
    v = .null ∨ ∃ i, v = .int i ∧ small i ∨ ∃ fs, get "Int".toList types = some fs := by
  generalize hty : Ty.named "Int".toList false = ty at h
  cases h with
  | null => exact .inl rfl
  | int h => exact .inr ⟨_, .inl ⟨rfl, h⟩⟩
  | json => simp [Ty.named.injEq] at hty
  | bool => simp [Ty.named.injEq] at hty
  | str => simp [Ty.named.injEq] at hty
  | list => cases hty
  | obj h1 =>
    simp only [Ty.named.injEq] at hty
    obtain ⟨rfl, rfl⟩ := hty
    exact absurd (by simp [scalarNames]) h1

/-- A number with a fraction becomes an `Int`. -/
theorem C87_violated_by_fraction : ∃ res, ¬ Fits (genOp pre res none start).2.types (genOp pre res none start).1.ty res := by
  refine ⟨.float, fun h => ?_⟩
  rcases fits_int (show Fits [] (.named "Int".toList false) .float from h) with h | ⟨i, ⟨h, _⟩ | ⟨_, h⟩⟩
  · cases h
  · cases h
  · cases h

/-- A number beyond 32 bits becomes an `Int`. -/
theorem C87_violated_by_large_number : ∃ i, ¬ Fits (genOp pre (.int i) none start).2.types (genOp pre (.int i) none start).1.ty (.int i) := by
  refine ⟨4294967296, fun h => ?_⟩
  rcases fits_int (show Fits [] (.named "Int".toList false) (.int 4294967296) from h) with h | ⟨i, ⟨h, hs⟩ | ⟨_, h⟩⟩
  · cases h
  · cases h; simp [small] at hs
  · cases h

/-- Of objects in the items of an array only the fields of the first one are kept. -/
theorem C87_violated_by_missing_keys :
    ∃ res, (∃ s, Has .loose s (.arr [res, res])) ∧
      ¬ Fits (genOp pre (.arr [o [("a", o [("x", .int 1)])], o [("a", res)]]) none start).2.types
        (genOp pre (.arr [o [("a", o [("x", .int 1)])], o [("a", res)]]) none start).1.ty
        (.arr [o [("a", o [("x", .int 1)])], o [("a", res)]]) := by
  refine ⟨o [("y", .int 2)], ⟨.list (.obj [("y".toList, .int)]), .list rfl ?_⟩, fun h => ?_⟩
  · intro v hv
    simp only [List.mem_cons, List.not_mem_nil, or_false, or_self] at hv
    subst hv
    refine .obj (by decide) (by intro h; cases h) ?_ ?_
    · intro kv hkv; simp at hkv; subst hkv; rfl
    · intro kv hkv s hs
      simp at hkv; subst hkv
      obtain rfl := Option.some.inj hs
      exact .int (by simp [small])
  · have h1 := fits_list h (o [("a", o [("y", .int 2)])]) (by simp)
    obtain ⟨ty, e, h2⟩ := fits_obj (t := "T3".toList) h1 rfl (by decide) ("a".toList, o [("y", .int 2)]) (by simp)
    obtain rfl := Option.some.inj e
    obtain ⟨ty, e, _⟩ := fits_obj (t := "T1".toList) h2 rfl (by decide) ("y".toList, .int 2) (by simp)
    cases e

/-- Items that disagree get the type of the first. -/
theorem C87_violated_by_disagreement : ∃ res, ¬ Fits (genOp pre res none start).2.types (genOp pre res none start).1.ty res := by
  refine ⟨.arr [.int 1, .str "x".toList], fun h => ?_⟩
  have h1 := fits_list h (.str "x".toList) (by simp)
  rcases fits_int (show Fits [] (.named "Int".toList false) (.str "x".toList) from h1) with h | ⟨i, ⟨h, _⟩ | ⟨_, h⟩⟩
  · cases h
  · cases h
  · cases h

/-- An array of arrays becomes a plain list. -/
theorem C87_violated_by_nested_arrays : ∃ l, ¬ Fits (genOp pre (.arr [.arr l]) none start).2.types
    (genOp pre (.arr [.arr l]) none start).1.ty (.arr [.arr l]) := by
  refine ⟨[.int 1], fun h => ?_⟩
  have h1 := fits_list h (.arr [.int 1]) (by simp)
  rcases fits_int (show Fits [] (.named "Int".toList false) (.arr [.int 1]) from h1) with h | ⟨i, ⟨h, _⟩ | ⟨_, h⟩⟩
  · cases h
  · cases h
  · cases h

/-- An item whose type was left open takes the type of another item, which it may not fit. -/
theorem C87_violated_by_open_type : ∃ res, ¬ Fits (genOp pre res none start).2.types (genOp pre res none start).1.ty res := by
  refine ⟨.arr [o [("a", o [])], o [("a", .int 1)]], fun h => ?_⟩
  have h1 := fits_list h (o [("a", o [])]) (by simp)
  obtain ⟨ty, e, h2⟩ := fits_obj (t := "T1".toList) h1 rfl (by decide) ("a".toList, o []) (by simp)
  obtain rfl := Option.some.inj e
  rcases fits_int h2 with h | ⟨i, ⟨h, _⟩ | ⟨_, h⟩⟩
  · cases h
  · cases h
  · cases h

/-- An array cannot be given for the argument of the body, whatever the type of its items. -/
theorem C88_violated_by_array (res : J) (l : List J) (st : St) :
    ∃ t, (genOp pre res (some (.arr l)) st).1.body = some (.named t false) ∧
      (t ≠ "JSON".toList → ∀ types, ¬ Fits types (.named t false) (.arr l)) := by
  refine ⟨_, rfl, ?_⟩
  intro ht types h
  generalize hty : Ty.named _ false = ty at h
  cases h with
  | json => simp only [Ty.named.injEq] at hty; exact absurd hty.1 ht
  | list => cases hty

end Verif.Gen
