import Verif.Sample.Lemmas

/-!
# Lemmas: arguments, texts and parameters
-/

namespace Verif.Sample

open Verif.Mustache (Text Template Seg isWord)
open Verif.HttpUrl (QC GVal RCtx pairsOf splitAll Query)
open Verif.Transform (insert At Lacks get_some get_none get_insert)

set_option linter.unusedSimpArgs false

/-! ## Numbers of arguments -/

/-- The parts that have a number. -/
def tagged (l : List Marked) : List (Nat × Part) := l.filterMap (fun x => x.2.map (fun i => (i, x.1)))

/-- The parts that get a number in the second pass. -/
def newTags : Nat → List Marked → List (Nat × Part)
  | _, [] => []
  | i, (.id u, none) :: r => (i, .id u) :: newTags (i + 1) r
  | i, _ :: r => newTags i r

theorem nums1_eq : ∀ (l : List Part) (i : Nat), nums1 i l = (tagged (mark1 i l)).map (fun x => (x.1, x.2.ty))
  | [], i => rfl
  | .num n :: r, i => by
    have := nums1_eq r (i + 1)
    simp only [nums1, mark1, tagged, List.filterMap_cons, Option.map_some, List.map_cons] at this ⊢
    rw [this]
  | .id u :: r, i => by
    have := nums1_eq r i
    simp only [nums1, mark1, tagged, List.filterMap_cons, Option.map_none] at this ⊢
    exact this
  | .name u :: r, i => by
    have := nums1_eq r i
    simp only [nums1, mark1, tagged, List.filterMap_cons, Option.map_none] at this ⊢
    exact this

theorem ids2_eq : ∀ (l : List Marked) (i : Nat), ids2 i l = (newTags i l).map (fun x => (x.1, x.2.ty))
  | [], i => rfl
  | (p, o) :: r, i => by
    have h1 := ids2_eq r i
    have h2 := ids2_eq r (i + 1)
    cases p <;> cases o <;> simp only [ids2, newTags, List.map_cons] <;> first | exact h1 | rw [h2]

theorem tagged_cons (x : Marked) (l : List Marked) : tagged (x :: l) = (match x.2 with | some i => [(i, x.1)] | none => []) ++ tagged l := by
  obtain ⟨p, o⟩ := x
  cases o <;> rfl

theorem mark2_perm : ∀ (l : List Marked) (i : Nat), (tagged (mark2 i l)).Perm (tagged l ++ newTags i l)
  | [], i => .refl _
  | (p, o) :: r, i => by
    have h1 := mark2_perm r i
    have h2 := mark2_perm r (i + 1)
    have triv : ∀ x : Marked, mark2 i (x :: r) = x :: mark2 i r → newTags i (x :: r) = newTags i r →
        (tagged (mark2 i (x :: r))).Perm (tagged (x :: r) ++ newTags i (x :: r)) := by
      intro x e1 e2
      rw [e1, e2, tagged_cons, tagged_cons x r, List.append_assoc]
      exact h1.append_left _
    cases o with
    | some j => exact triv _ (by cases p <;> rfl) (by cases p <;> rfl)
    | none =>
      cases p with
      | num n => exact triv _ rfl rfl
      | name t => exact triv _ rfl rfl
      | id u =>
        have e1 : tagged (mark2 i ((Part.id u, none) :: r)) = (i, Part.id u) :: tagged (mark2 (i + 1) r) := rfl
        have e2 : tagged ((Part.id u, none) :: r) = tagged r := rfl
        have e3 : newTags i ((Part.id u, none) :: r) = (i, Part.id u) :: newTags (i + 1) r := rfl
        rw [e1, e2, e3]
        exact (h2.cons _).trans (List.perm_middle.symm)

theorem mark1_bounds : ∀ (l : List Part) (i : Nat), (∀ x ∈ tagged (mark1 i l), i ≤ x.1 ∧ x.1 < i + count1 l) ∧ ((tagged (mark1 i l)).map (·.1)).Nodup
  | [], i => ⟨fun x hx => absurd hx List.not_mem_nil, List.nodup_nil⟩
  | .num n :: r, i => by
    obtain ⟨h1, h2⟩ := mark1_bounds r (i + 1)
    have e : tagged (mark1 i (.num n :: r)) = (i, .num n) :: tagged (mark1 (i + 1) r) := rfl
    rw [e]
    refine ⟨fun x hx => ?_, ?_⟩
    · rw [count1]
      rcases List.mem_cons.1 hx with rfl | hx
      · simp only; omega
      · have := h1 x hx; omega
    · rw [List.map_cons, List.nodup_cons]
      refine ⟨fun hm => ?_, h2⟩
      obtain ⟨x, hx, e⟩ := List.mem_map.1 hm
      have := h1 x hx
      simp only at e
      omega
  | .id u :: r, i => mark1_bounds r i
  | .name u :: r, i => mark1_bounds r i

theorem newTags_bounds : ∀ (l : List Marked) (i : Nat), (∀ x ∈ newTags i l, i ≤ x.1) ∧ ((newTags i l).map (·.1)).Nodup
  | [], i => ⟨fun x hx => absurd hx List.not_mem_nil, List.nodup_nil⟩
  | (p, o) :: r, i => by
    have h1 := newTags_bounds r i
    obtain ⟨g1, g2⟩ := newTags_bounds r (i + 1)
    have new : ∀ u, (∀ x ∈ (i, Part.id u) :: newTags (i + 1) r, i ≤ x.1) ∧ (((i, Part.id u) :: newTags (i + 1) r).map (·.1)).Nodup := by
      intro u
      refine ⟨fun x hx => ?_, ?_⟩
      · rcases List.mem_cons.1 hx with rfl | hx
        · exact Nat.le_refl _
        · have := g1 x hx; omega
      · rw [List.map_cons, List.nodup_cons]
        refine ⟨fun hm => ?_, g2⟩
        obtain ⟨x, hx, e⟩ := List.mem_map.1 hm
        have := g1 x hx
        simp only at e
        omega
    cases p <;> cases o <;> first | exact h1 | exact new _

theorem marks_perm (l : List Part) : (tagged (marks l)).Perm (tagged (mark1 1 l) ++ newTags (1 + count1 l) (mark1 1 l)) := mark2_perm _ _

theorem marks_nodup (l : List Part) : ((tagged (marks l)).map (·.1)).Nodup := by
  rw [((marks_perm l).map _).nodup_iff, List.map_append, List.nodup_append]
  refine ⟨(mark1_bounds l 1).2, (newTags_bounds _ _).2, ?_⟩
  intro a ha b hb e
  obtain ⟨x, hx, rfl⟩ := List.mem_map.1 ha
  obtain ⟨y, hy, rfl⟩ := List.mem_map.1 hb
  have h1 := (mark1_bounds l 1).1 x hx
  have h2 := (newTags_bounds (mark1 1 l) (1 + count1 l)).1 y hy
  omega

theorem argName_inj {a b : Nat} (h : argName a = argName b) : a = b := digits_inj (List.append_cancel_left h)

theorem argsFrom_at : ∀ (l : List (Nat × ArgTy)) (as : Args) (n : Text) (t : ArgTy), At (argsFrom as l) n t →
    (∃ x ∈ l, n = argName x.1 ∧ t = x.2) ∨ At as n t
  | [], as, n, t, h => .inr h
  | x :: l, as, n, t, h => by
    have e : argsFrom as (x :: l) = argsFrom (insert as (argName x.1) x.2) l := rfl
    rw [e] at h
    rcases argsFrom_at l _ n t h with ⟨y, hy, h⟩ | h
    · exact .inl ⟨y, List.mem_cons_of_mem _ hy, h⟩
    · have h := get_some.2 h
      rw [get_insert] at h
      split at h
      · next e => cases h; exact .inl ⟨x, List.mem_cons_self, e, rfl⟩
      · exact .inr (get_some.1 h)

theorem argsFrom_has : ∀ (l : List (Nat × ArgTy)) (as : Args) (n : Text), ((∃ x ∈ l, n = argName x.1) ∨ ∃ t, At as n t) → ∃ t, At (argsFrom as l) n t
  | [], as, n, h => by
    rcases h with ⟨x, hx, _⟩ | h
    · exact absurd hx List.not_mem_nil
    · exact h
  | x :: l, as, n, h => by
    have e : argsFrom as (x :: l) = argsFrom (insert as (argName x.1) x.2) l := rfl
    rw [e]
    refine argsFrom_has l _ n ?_
    by_cases hn : n = argName x.1
    · exact .inr ⟨x.2, get_some.1 (by rw [get_insert, if_pos hn])⟩
    · rcases h with ⟨y, hy, h⟩ | ⟨t, h⟩
      · rcases List.mem_cons.1 hy with rfl | hy
        · exact absurd h hn
        · exact .inl ⟨y, hy, h⟩
      · exact .inr ⟨t, get_some.1 (by rw [get_insert, if_neg hn]; exact get_some.2 h)⟩

theorem at_nil {α : Type} {n : Text} {t : α} (h : At ([] : List (Text × α)) n t) : False := by
  have := get_some.2 h
  simp [Verif.Transform.get] at this

theorem pathArgs_at {l : List Part} {n : Text} {t : ArgTy} (h : At (pathArgs l) n t) : ∃ x ∈ tagged (marks l), n = argName x.1 ∧ t = x.2.ty := by
  rw [pathArgs, nums1_eq, ids2_eq] at h
  have hm : ∀ x, x ∈ tagged (mark1 1 l) ∨ x ∈ newTags (1 + count1 l) (mark1 1 l) → x ∈ tagged (marks l) := fun x hx =>
    (marks_perm l).mem_iff.2 (List.mem_append.2 hx)
  rcases argsFrom_at _ _ _ _ h with ⟨x, hx, h1, h2⟩ | h
  · obtain ⟨y, hy, rfl⟩ := List.mem_map.1 hx
    exact ⟨y, hm y (.inr hy), h1, h2⟩
  · rcases argsFrom_at _ _ _ _ h with ⟨x, hx, h1, h2⟩ | h
    · obtain ⟨y, hy, rfl⟩ := List.mem_map.1 hx
      exact ⟨y, hm y (.inl hy), h1, h2⟩
    · exact (at_nil h).elim

theorem pathArgs_has {l : List Part} {x : Nat × Part} (h : x ∈ tagged (marks l)) : ∃ t, At (pathArgs l) (argName x.1) t := by
  rw [pathArgs, nums1_eq, ids2_eq]
  rcases List.mem_append.1 ((marks_perm l).mem_iff.1 h) with h | h
  · exact argsFrom_has _ _ _ (.inr (argsFrom_has _ _ _ (.inl ⟨(x.1, x.2.ty), List.mem_map.2 ⟨x, h, rfl⟩, rfl⟩)))
  · exact argsFrom_has _ _ _ (.inl ⟨(x.1, x.2.ty), List.mem_map.2 ⟨x, h, rfl⟩, rfl⟩)

/-! ## Decoding -/

theorem bytesOf_plain : ∀ (t : Text), '%' ∉ t → bytesOf t = t.map Char.toNat
  | [], _ => by rw [bytesOf]; rfl
  | c :: r, h => by
    have ih := bytesOf_plain r (fun hr => h (List.mem_cons_of_mem _ hr))
    rw [bytesOf]
    · rw [ih]; rfl
    · rintro a b r' e
      exact absurd (by rw [e]; exact List.mem_cons_self) h

theorem charOf_zero (c : Char) : charOf 0 c.toNat = some c := by
  rw [charOf, dif_pos ⟨Nat.zero_le _, c.valid⟩]
  rfl

theorem utf8_ascii : ∀ (t : Text), (∀ c ∈ t, c.toNat < 128) → utf8 (t.map Char.toNat) = some t
  | [], _ => by rw [List.map_nil, utf8]
  | c :: r, h => by
    rw [List.map_cons]
    unfold utf8
    rw [if_pos (h c List.mem_cons_self), charOf_zero, utf8_ascii r (fun x hx => h x (List.mem_cons_of_mem _ hx))]
    rfl

theorem decode_plain {t : Text} (h : ∀ c ∈ t, c.toNat < 128 ∧ c ≠ '%') : decode t = some t := by
  rw [decode, bytesOf_plain t (fun hm => (h _ hm).2 rfl), utf8_ascii t (fun c hc => (h c hc).1)]

/-! ## Parameters -/

theorem values_append (a b : List (Text × Text)) (k : Text) : values (a ++ b) k = values a k ++ values b k := by
  simp [values, List.filter_append]

theorem values_nil {l : List (Text × Text)} {k : Text} (h : ∀ x ∈ l, x.1 ≠ k) : values l k = [] := by
  rw [values, List.filter_eq_nil_iff.2 (fun x hx => by simpa using h x hx)]
  rfl

theorem mem_values {l : List (Text × Text)} {k w : Text} : w ∈ values l k ↔ (k, w) ∈ l := by
  simp only [values, List.mem_map, List.mem_filter, decide_eq_true_eq]
  constructor
  · rintro ⟨⟨a, b⟩, ⟨h, e⟩, rfl⟩
    simp only at e
    subst e
    exact h
  · intro h
    exact ⟨(k, w), ⟨h, rfl⟩, rfl⟩

/-- What is known about the parameters after some pairs. -/
structure Known (pre : List (Text × Text)) (l : List Info) : Prop where
  nodup : (l.map (·.key)).Nodup
  all : ∀ x ∈ pre, ∃ q ∈ l, q.key = x.1
  each : ∀ q ∈ l, ∃ v r, values pre q.key = v :: r ∧ q.ty = detect v ∧ q.list = !r.isEmpty

theorem known_step {pre : List (Text × Text)} {l : List Info} (h : Known pre l) (kv : Text × Text) (hc : ',' ∉ kv.2) :
    Known (pre ++ [kv]) (addInfo l kv) := by
  rw [addInfo]
  split
  · next ha =>
    have hkey : ∀ q : Info, (if q.key = kv.1 then { q with list := true } else q).key = q.key := fun q => by split <;> rfl
    refine ⟨?_, ?_, ?_⟩
    · rw [List.map_map]
      have : ((fun q : Info => q.key) ∘ fun q => if q.key = kv.1 then { q with list := true } else q) = (·.key) := funext hkey
      rw [this]
      exact h.nodup
    · intro x hx
      have : ∃ q ∈ l, q.key = x.1 := by
        rcases List.mem_append.1 hx with hx | hx
        · exact h.all x hx
        · rw [List.mem_singleton.1 hx]
          simpa using ha
      obtain ⟨q, hq, e⟩ := this
      exact ⟨_, List.mem_map.2 ⟨q, hq, rfl⟩, by rw [hkey]; exact e⟩
    · intro q' hq'
      obtain ⟨q, hq, rfl⟩ := List.mem_map.1 hq'
      obtain ⟨v, r, e1, e2, e3⟩ := h.each q hq
      by_cases hk : q.key = kv.1
      · rw [if_pos hk]
        refine ⟨v, r ++ [kv.2], ?_, e2, by simp⟩
        simp only
        rw [values_append, e1]
        simp [values, hk]
      · rw [if_neg hk]
        refine ⟨v, r, ?_, e2, e3⟩
        rw [values_append, e1, values_nil (l := [kv]) (fun x hx => by rw [List.mem_singleton.1 hx]; exact fun e => hk e.symm)]
        simp
  · next ha =>
    have hno : ∀ q ∈ l, q.key ≠ kv.1 := fun q hq e => ha (List.any_eq_true.2 ⟨q, hq, by simpa using e⟩)
    refine ⟨?_, ?_, ?_⟩
    · rw [List.map_append, List.nodup_append]
      refine ⟨h.nodup, by simp, fun a ha' b hb e => ?_⟩
      obtain ⟨q, hq, rfl⟩ := List.mem_map.1 ha'
      have : b = kv.1 := by simpa using hb
      exact hno q hq (e.trans this)
    · intro x hx
      rcases List.mem_append.1 hx with hx | hx
      · obtain ⟨q, hq, e⟩ := h.all x hx
        exact ⟨q, List.mem_append_left _ hq, e⟩
      · rw [List.mem_singleton.1 hx]
        exact ⟨_, List.mem_append_right _ List.mem_cons_self, rfl⟩
    · intro q hq
      rcases List.mem_append.1 hq with hq | hq
      · obtain ⟨v, r, e1, e2, e3⟩ := h.each q hq
        refine ⟨v, r, ?_, e2, e3⟩
        rw [values_append, e1, values_nil (l := [kv]) (fun x hx => by rw [List.mem_singleton.1 hx]; exact fun e => hno q hq e.symm)]
        simp
      · rw [List.mem_singleton.1 hq]
        refine ⟨kv.2, [], ?_, rfl, ?_⟩
        · simp only
          have hpre : values pre kv.1 = [] := values_nil (fun x hx e => by
            obtain ⟨q, hq, e'⟩ := h.all x hx
            exact hno q hq (e'.trans e))
          rw [values_append, hpre]
          simp [values]
        · simpa using hc

theorem known_fold : ∀ (rest pre : List (Text × Text)) (l : List Info), Known pre l → (∀ x ∈ rest, ',' ∉ x.2) → Known (pre ++ rest) (rest.foldl addInfo l)
  | [], pre, l, h, _ => by simpa using h
  | kv :: r, pre, l, h, hc => by
    have := known_fold r (pre ++ [kv]) (addInfo l kv) (known_step h kv (hc kv List.mem_cons_self)) (fun x hx => hc x (List.mem_cons_of_mem _ hx))
    simpa using this

theorem known_infos (pairs : List (Text × Text)) (hc : ∀ x ∈ pairs, ',' ∉ x.2) : Known pairs (infos pairs) := by
  have := known_fold pairs [] [] ⟨List.nodup_nil, fun x hx => absurd hx List.not_mem_nil, fun q hq => absurd hq List.not_mem_nil⟩ hc
  simpa [infos] using this

/-- The parameters again, one after the other. -/
theorem values_back {pairs : List (Text × Text)} {l : List Info} (h : Known pairs l) (k : Text) :
    values (l.flatMap (fun q => (values pairs q.key).map (fun w => (q.key, w)))) k = values pairs k := by
  have same : ∀ a, values ((values pairs a).map (fun w => (a, w))) k = if a = k then values pairs a else [] := by
    intro a
    split
    · next e =>
      subst e
      rw [values, List.filter_eq_self.2 (fun x hx => by obtain ⟨w, _, rfl⟩ := List.mem_map.1 hx; simp), List.map_map]
      exact List.map_id _
    · next e =>
      exact values_nil (fun x hx => by obtain ⟨w, _, rfl⟩ := List.mem_map.1 hx; exact e)
  have key : ∀ (l : List Info), (l.map (·.key)).Nodup →
      values (l.flatMap (fun q => (values pairs q.key).map (fun w => (q.key, w)))) k = if (∃ q ∈ l, q.key = k) then values pairs k else [] := by
    intro l
    induction l with
    | nil => intro _; rw [if_neg (by rintro ⟨q, hq, _⟩; exact absurd hq List.not_mem_nil)]; rfl
    | cons q l ih =>
      intro hn
      rw [List.map_cons, List.nodup_cons] at hn
      rw [List.flatMap_cons, values_append, same, ih hn.2]
      by_cases e : q.key = k
      · have hno : ¬ ∃ q' ∈ l, q'.key = k := by
          rintro ⟨q', hq', e'⟩
          exact hn.1 (List.mem_map.2 ⟨q', hq', e'.trans e.symm⟩)
        have hy : ∃ q' ∈ q :: l, q'.key = k := ⟨q, List.mem_cons_self, e⟩
        rw [if_pos e, if_neg hno, if_pos hy, List.append_nil, e]
      · rw [if_neg e, List.nil_append]
        by_cases h : ∃ q ∈ l, q.key = k
        · obtain ⟨q', hq', e'⟩ := h
          rw [if_pos ⟨q', hq', e'⟩, if_pos ⟨q', List.mem_cons_of_mem _ hq', e'⟩]
        · rw [if_neg h, if_neg]
          rintro ⟨q', hq', e'⟩
          rcases List.mem_cons.1 hq' with rfl | hq'
          · exact e e'
          · exact h ⟨q', hq', e'⟩
  rw [key l h.nodup]
  split
  · rfl
  · next hno =>
    refine (values_nil (fun x hx e => ?_)).symm
    obtain ⟨q, hq, e'⟩ := h.all x hx
    exact hno ⟨q, hq, e'.trans e⟩

/-! ## Query templates -/

theorem addQuery_fst (camel : Text → Text) : ∀ (l : List Info) (as : Args), (addQuery camel l as).1 = l.map (fun q => (q.key, placeholder (camel q.key)))
  | [], as => rfl
  | q :: r, as => by rw [addQuery, addQuery_fst camel r]; rfl

theorem addQuery_at (camel : Text → Text) : ∀ (l : List Info) (as : Args) (n : Text) (t : ArgTy), At (addQuery camel l as).2 n t →
    (∃ q ∈ l, n = camel q.key ∧ t = ⟨q.ty, q.list, false⟩) ∨ At as n t
  | [], as, n, t, h => .inr h
  | q :: r, as, n, t, h => by
    rw [addQuery] at h
    rcases addQuery_at camel r _ n t h with ⟨y, hy, h⟩ | h
    · exact .inl ⟨y, List.mem_cons_of_mem _ hy, h⟩
    · have h := get_some.2 h
      rw [get_insert] at h
      split at h
      · next e => cases h; exact .inl ⟨q, List.mem_cons_self, e, rfl⟩
      · exact .inr (get_some.1 h)

theorem addQuery_has (camel : Text → Text) : ∀ (l : List Info) (as : Args) (n : Text), ((∃ q ∈ l, n = camel q.key) ∨ ∃ t, At as n t) →
    ∃ t, At (addQuery camel l as).2 n t
  | [], as, n, h => by
    rcases h with ⟨x, hx, _⟩ | h
    · exact absurd hx List.not_mem_nil
    · exact h
  | x :: l, as, n, h => by
    rw [addQuery]
    refine addQuery_has camel l _ n ?_
    by_cases hn : n = camel x.key
    · exact .inr ⟨⟨x.ty, x.list, false⟩, get_some.1 (by rw [get_insert, if_pos hn])⟩
    · rcases h with ⟨y, hy, h⟩ | ⟨t, h⟩
      · rcases List.mem_cons.1 hy with rfl | hy
        · exact absurd h hn
        · exact .inl ⟨y, hy, h⟩
      · exact .inr ⟨t, get_some.1 (by rw [get_insert, if_neg hn]; exact get_some.2 h)⟩

end Verif.Sample
