import Verif.Proto.Oneof
import Verif.Mustache.Props

/-!
# Properties of the configurations generated from protobuf files
-/

namespace Verif.Proto

open Verif.Mustache (Text)
open Verif.Exec (Ty)
open Verif.Transform (At Lacks get insert get_some get_none get_insert)

set_option linter.unusedSimpArgs false

/-! ## C108: names -/

/-- **C108.** A reference to a message or an enum is given the name that its definition has. -/
theorem C108_reference {P N : List Text} {n : Text} (h : ∀ t ∈ P ++ N, Word t) (hn : Word n) :
    ∃ u, fromRef ('.' :: dotted (P ++ N ++ [n])) = .ok u ∧ (parse u).object = typeName (P ++ N) n ∧
      (parse ⟨n, dotted P :: N⟩).object = typeName (P ++ N) n := by
  obtain ⟨u, h1, h2⟩ := fromRef_dotted h hn
  refine ⟨u, h1, by rw [h2, object_eq], ?_⟩
  rw [parse_words (fun t ht => h t (List.mem_append_left _ ht)) (fun t ht => h t (List.mem_append_right _ ht)) hn, object_eq]

/-- **C108.** Different messages have different names. -/
theorem C108_distinct {ns ns' : List Text} {n n' : Text} (h : ∀ t ∈ ns, Proper t) (hn : Proper n) (h' : ∀ t ∈ ns', Proper t) (hn' : Proper n')
    (e : typeName ns n = typeName ns' n') : ns ++ [n] = ns' ++ [n'] := typeName_inj h hn h' hn' e

mutual
theorem enums_inside (p : List Nat) (tag : Nat) (ns : List Text) (l : List MsgD) (i : Nat) : (m : MsgD) → l[i]? = some m →
    ∀ x ∈ msgEnums ns m, ∃ p' ns' m', Inside p tag ns l p' ns' m' ∧ m'.mapEntry = false ∧ x.2 ∈ m'.enums ∧ x.1 = ns' ++ [m'.name]
  | .mk a b c d e f, h => by
    intro x hx
    rw [msgEnums] at hx
    split at hx
    · cases hx
    · next hf =>
      have hf : f = false := by simpa using hf
      rcases List.mem_append.1 hx with hx | hx
      · obtain ⟨y, hy, rfl⟩ := List.mem_map.1 hx
        exact ⟨_, ns, _, .here h, hf, hy, rfl⟩
      · obtain ⟨p', ns', m', k1, k2, k3, k4⟩ := all_enums_inside (p ++ [tag, i]) 3 (ns ++ [a]) d [] d rfl x hx
        exact ⟨p', ns', m', .inside h hf k1, k2, k3, k4⟩

theorem all_enums_inside (p : List Nat) (tag : Nat) (ns : List Text) (l : List MsgD) : (pre r : List MsgD) → pre ++ r = l →
    ∀ x ∈ msgsEnums ns r, ∃ p' ns' m', Inside p tag ns l p' ns' m' ∧ m'.mapEntry = false ∧ x.2 ∈ m'.enums ∧ x.1 = ns' ++ [m'.name]
  | pre, [], _ => by intro x hx; rw [msgsEnums] at hx; cases hx
  | pre, m :: r, e => by
    intro x hx
    rw [msgsEnums] at hx
    rcases List.mem_append.1 hx with hx | hx
    · exact enums_inside p tag ns l pre.length m (by rw [← e]; simp) x hx
    · exact all_enums_inside p tag ns l (pre ++ [m]) r (by rw [← e]; simp) x hx
end

theorem enums_at {files : List (List Text × FileD)} {ns : List Text} {e : EnumD} (h : (ns, e) ∈ enums files) :
    ∃ x ∈ files, ∃ p, EnumAt x p ns e := by
  rw [enums, List.mem_flatMap] at h
  obtain ⟨x, hx, h⟩ := h
  rcases List.mem_append.1 h with h | h
  · obtain ⟨y, hy, k⟩ := List.mem_map.1 h
    simp only [Prod.mk.injEq] at k
    obtain ⟨rfl, rfl⟩ := k
    obtain ⟨i, hi⟩ := List.mem_iff_getElem?.1 hy
    exact ⟨x, hx, _, .top hi⟩
  · obtain ⟨p, ns', m, k1, k2, k3, k4⟩ := all_enums_inside [] 4 x.1 x.2.messages [] x.2.messages rfl _ h
    simp only at k3 k4
    obtain ⟨i, hi⟩ := List.mem_iff_getElem?.1 k3
    subst k4
    exact ⟨x, hx, _, .inside k1 k2 hi⟩

/-- **C108**, for files with proper and distinct names: every message that is no entry of a map, and every enum, is defined
under its name. -/
theorem C108_defined_partial {camel : Text → Text} {q url : Text} {files : List (List Text × FileD)} (hf : Files files) (hq : Simple q)
    (hq' : Verif.Tmpl.predefined q = false) {cfg : Cfg} (h : fromProto camel q url (files.map (·.2)) = .ok cfg) :
    (∀ ns m, (ns, m) ∈ messages files → m.mapEntry = false → Defined cfg (typeName ns m.name)) ∧
    (∀ ns e, (ns, e) ∈ enums files → Defined cfg (typeName ns e.name)) := by
  constructor
  · intro ns m hm hme
    obtain ⟨x, hx, p, hat⟩ := messages_iff.1 hm
    obtain ⟨fs, gs, c, maps, _, _, _, k1, k2⟩ := stored hf hq hq' hx hat hme h
    by_cases ho : m.oneofs = 0
    · exact .inl ⟨_, get_some.1 (k1 ho)⟩
    · obtain ⟨k3, k4⟩ := k2 ho
      by_cases hl : (collect gs (typeName ns m.name) ⟨fs, [], c p⟩).length = 1
      · obtain ⟨y, e⟩ := List.length_eq_one_iff.1 hl
        refine .inl ⟨_, get_some.1 (k3 (typeName ns m.name, y.2) ?_)⟩
        rw [oneofTypes, if_pos hl, e]
        exact List.mem_singleton.2 rfl
      · exact .inr (.inl ⟨_, get_some.1 (k4 hl)⟩)
  · intro ns e he
    obtain ⟨x, hx, p, hat⟩ := enums_at he
    obtain ⟨c, _, k⟩ := stored_enum hf hx hat h
    exact .inr (.inr ⟨_, get_some.1 k⟩)

theorem variants_plain {c : Comments} {p : List Nat} {i : Nat} {l : List Text} (hw : ∀ v ∈ l, Word v) (hc : ∀ j, c (p ++ [2, j]) = none) :
    variants c p i l = l := by
  induction l generalizing i with
  | nil => rfl
  | cons v r ih =>
    rw [variants, ih (fun x hx => hw x (List.mem_cons_of_mem _ hx)), variantName, hc i, parse]
    simp only [head_word (hw v (by simp))]

/-- **C108**, for enums whose values have no comments: an enum has the values of its definition. -/
theorem C108_enum_partial {camel : Text → Text} {q url : Text} {files : List (List Text × FileD)} (hf : Files files) {x : List Text × FileD}
    (hx : x ∈ files) {p : List Nat} {ns : List Text} {e : EnumD} (he : EnumAt x p ns e) (hw : ∀ v ∈ e.values, Word v) {c : Comments}
    (hc : x.2.comments = some c) (hn : ∀ j, c (p ++ [2, j]) = none) {cfg : Cfg} (h : fromProto camel q url (files.map (·.2)) = .ok cfg) :
    ∃ E, At cfg.enums (typeName ns e.name) E ∧ E.variants = e.values ∧ E.doc = c p := by
  obtain ⟨c', k1, k2⟩ := stored_enum hf hx he h
  have := k1 c hc
  subst this
  exact ⟨_, get_some.1 k2, variants_plain hw hn, rfl⟩

/-! ## C109: fields -/

/-- **C109**, for messages without oneofs in files with proper and distinct names: the type of a message has a field for each
field of the message and no other, with the type that it should have. -/
theorem C109_fields_partial {camel : Text → Text} {q url : Text} {files : List (List Text × FileD)} (hf : Files files) (hq : Simple q)
    (hq' : Verif.Tmpl.predefined q = false) {ns : List Text} {m : MsgD} (hm : (ns, m) ∈ messages files) (hme : m.mapEntry = false)
    (ho : m.oneofs = 0) (hn : FieldNames camel m) {cfg : Cfg} (h : fromProto camel q url (files.map (·.2)) = .ok cfg) :
    ∃ T, At cfg.types (typeName ns m.name) T ∧ T.implements = [] ∧ (∀ k fd, At T.fields k fd → ∃ f ∈ m.fields, k = camel f.name) ∧
      ∀ f ∈ m.fields, ∃ fd, At T.fields (camel f.name) fd ∧ ∀ t, FieldTy files f t → fd.ty = t := by
  obtain ⟨x, hx, p, hat⟩ := messages_iff.1 hm
  obtain ⟨fs, gs, c, maps, hfs, _, hk, k1, _⟩ := stored hf hq hq' hx hat hme h
  obtain ⟨l, hl, hlen, _⟩ := made hf hn hk hfs
  refine ⟨_, get_some.1 (k1 ho), rfl, ?_, ?_⟩
  · intro k fd ha
    obtain ⟨y, hy, _, e, _⟩ := (hl.base _ _).1 ha
    exact ⟨y.1, by rw [← hl.fields]; exact List.mem_map.2 ⟨y, hy, rfl⟩, e⟩
  · intro f hf'
    obtain ⟨fd, hfd⟩ := made_field hl hf'
    have hon : f.oneof = none := by
      cases hoo : f.oneof with
      | none => rfl
      | some o =>
        have := hl.bound f hf' o hoo
        rw [hlen, ho] at this
        exact absurd this (Nat.not_lt_zero _)
    exact ⟨fd, (hl.base _ _).2 ⟨(f, fd), hfd, hon, rfl, rfl⟩, fun t ht => hl.types _ hfd t ht⟩

theorem wrapped_name (l : Label) (n : Text) : (wrapped l n).name = n := by cases l <;> rfl

/-- **C109**, for files with proper and distinct names: the type of a field is defined, or is a scalar that exists. -/
theorem C109_closed_partial {camel : Text → Text} {q url : Text} {files : List (List Text × FileD)} (hf : Files files) (hq : Simple q)
    (hq' : Verif.Tmpl.predefined q = false) {f : FieldD} {t : Ty} (ht : FieldTy files f t) {cfg : Cfg}
    (h : fromProto camel q url (files.map (·.2)) = .ok cfg) : Defined cfg t.name ∨ Verif.Tmpl.predefined t.name = true := by
  obtain ⟨k1, k2⟩ := C108_defined_partial hf hq hq' h
  cases ht with
  | scalar _ hs =>
    right
    rw [wrapped_name]
    revert hs
    cases f.prim <;> intro hs <;> cases hs <;> decide
  | message hm hme _ => left; rw [wrapped_name]; exact k1 _ _ hm hme
  | map _ _ _ => right; decide
  | enum he _ => left; rw [wrapped_name]; exact k2 _ _ he

/-- **C109**, but for `fixed32` and `fixed64`: the scalar of a field admits every integer that the field can have. -/
theorem C109_scalar_partial {p : Prim} {n : Int} (h : inRange p n) (h32 : p ≠ .fixed32) (h64 : p ≠ .fixed64) : admits (primitive p) n := by
  cases p <;> simp only [inRange] at h
  case int32 => exact .inl ⟨rfl, h⟩
  case sint32 => exact .inl ⟨rfl, h⟩
  case sfixed32 => exact .inl ⟨rfl, h⟩
  case fixed32 => exact absurd rfl h32
  case fixed64 => exact absurd rfl h64
  case int64 => exact .inr (.inr (.inl ⟨rfl, h⟩))
  case sint64 => exact .inr (.inr (.inl ⟨rfl, h⟩))
  case sfixed64 => exact .inr (.inr (.inl ⟨rfl, h⟩))
  case uint32 => exact .inr (.inl ⟨rfl, h⟩)
  case uint64 => exact .inr (.inr (.inr ⟨rfl, h⟩))

/-- **C109 is violated**: the largest `fixed32` is no `Int`. -/
theorem C109_violated_by_fixed32 : inRange .fixed32 4294967295 ∧ ¬ admits (primitive .fixed32) 4294967295 := by
  refine ⟨by simp [inRange], ?_⟩
  rintro (⟨_, _, h⟩ | ⟨h, _⟩ | ⟨h, _⟩ | ⟨h, _⟩)
  · revert h; decide
  · revert h; decide
  · revert h; decide
  · revert h; decide

/-- **C109 is violated**: the largest `fixed64` is no `Int64`. -/
theorem C109_violated_by_fixed64 : inRange .fixed64 18446744073709551615 ∧ ¬ admits (primitive .fixed64) 18446744073709551615 := by
  refine ⟨by simp [inRange], ?_⟩
  rintro (⟨h, _⟩ | ⟨h, _⟩ | ⟨_, _, h⟩ | ⟨h, _⟩)
  · revert h; decide
  · revert h; decide
  · revert h; decide
  · revert h; decide

theorem fieldType_ok {maps : List Text} {f : FieldD} (h : ∀ t, f.typeName = some t → ∃ r, t = '.' :: r) : ∃ t, fieldType maps f = .ok t := by
  rw [fieldType]
  cases ht : f.typeName with
  | none => exact ⟨_, rfl⟩
  | some t =>
    obtain ⟨r, rfl⟩ := h t ht
    simp only
    split
    · exact ⟨_, rfl⟩
    · rw [fromRef]
      cases rsplitOnce r with
      | none => exact ⟨_, rfl⟩
      | some x => exact ⟨_, rfl⟩

theorem putGroup_ok {o : Nat} {x : Text × Fld} {gs : List (List (Text × Fld))} (h : o < gs.length) : ∃ gs', putGroup o x gs = some gs' := by
  induction gs generalizing o with
  | nil => exact absurd h (Nat.not_lt_zero _)
  | cons g r ih =>
    cases o with
    | zero => exact ⟨_, rfl⟩
    | succ o =>
      obtain ⟨gs', e⟩ := ih (o := o) (by simpa using h)
      exact ⟨g :: gs', by rw [putGroup, e]; rfl⟩

theorem fieldsOf_ok {camel : Text → Text} {c : Comments} {maps : List Text} {p : List Nat} {i : Nat} {fields : List FieldD}
    {acc : List (Text × Fld) × List (List (Text × Fld))} (h1 : ∀ f ∈ fields, ∀ t, f.typeName = some t → ∃ r, t = '.' :: r)
    (h2 : ∀ f ∈ fields, ∀ o, f.oneof = some o → o < acc.2.length) : ∃ r, fieldsOf camel c maps p i fields acc = .ok r := by
  induction fields generalizing i acc with
  | nil => exact ⟨_, rfl⟩
  | cons f r ih =>
    obtain ⟨t, ht⟩ := fieldType_ok (maps := maps) (h1 f (by simp))
    obtain ⟨fs, gs⟩ := acc
    rw [fieldsOf, ht]
    simp only
    cases ho : f.oneof with
    | none =>
      exact ih (fun f hf => h1 f (List.mem_cons_of_mem _ hf)) (fun f hf => h2 f (List.mem_cons_of_mem _ hf))
    | some o =>
      obtain ⟨gs', hg⟩ := putGroup_ok (x := (camel (parse ⟨f.name, []⟩).name, ⟨t, [], none, c (p ++ [2, i])⟩)) (h2 f (by simp) o ho)
      simp only at hg ⊢
      rw [hg]
      simp only
      refine ih (fun f hf => h1 f (List.mem_cons_of_mem _ hf)) (fun f hf o ho => ?_)
      rw [(putGroup_at hg).1]
      exact h2 f (List.mem_cons_of_mem _ hf) o ho

/-- **C109.** Files with qualified references are converted. -/
theorem C109_total (camel : Text → Text) (q url : Text) {files : List (List Text × FileD)} (hp : ∀ x ∈ files, x.2.package = dotted x.1)
    (hq : Qualified files) : ∃ cfg, fromProto camel q url (files.map (·.2)) = .ok cfg := by
  have hstep : ∀ e ∈ files.flatMap fileEvs, ∀ s, ∃ s', apply camel q url e s = .ok s' := by
    intro e he s
    cases e with
    | comments c => exact ⟨_, rfl⟩
    | enum P N p e => exact ⟨_, rfl⟩
    | msg P N p m =>
      have hm : (P ++ N, m) ∈ messages files := by rw [← files_asMsg]; exact List.mem_filterMap.2 ⟨_, he, rfl⟩
      rw [apply]
      split
      · exact ⟨_, rfl⟩
      · rw [putMsg]
        obtain ⟨⟨fs, gs⟩, e⟩ := fieldsOf_ok (camel := camel) (c := s.comments) (maps := s.maps) (p := p) (i := 0) (fields := m.fields)
          (acc := ([], List.replicate m.oneofs [])) (fun f hf => (hq.fields _ hm f hf).1)
          (fun f hf o ho => by rw [List.length_replicate]; exact (hq.fields _ hm f hf).2 o ho)
        rw [e]
        exact ⟨_, rfl⟩
    | method P p v m =>
      have hm : (P, v, m) ∈ methods files := by rw [← files_asMethod]; exact List.mem_filterMap.2 ⟨_, he, rfl⟩
      obtain ⟨h1, r, h2⟩ := hq.methods _ hm
      simp only at h1 h2
      have hin : ∃ i, inputType m.input = .ok i := by
        rw [inputType]
        split
        · exact ⟨_, rfl⟩
        · next hne =>
          rcases h1 with h1 | ⟨r', h1⟩
          · exact absurd (.inr h1) hne
          · rw [h1, fromRef]
            cases rsplitOnce r' <;> exact ⟨_, rfl⟩
      have hout : ∃ o, outputType m.output = .ok o := by
        rw [outputType]
        split
        · exact ⟨_, rfl⟩
        · rw [h2, fromRef]
          cases rsplitOnce r <;> exact ⟨_, rfl⟩
      obtain ⟨i, hi⟩ := hin
      obtain ⟨o, ho⟩ := hout
      rw [apply, appendMethod, hi, ho]
      exact ⟨_, rfl⟩
  rw [fromProto, ← run_files camel q url files hp]
  have hall : ∀ l : List Ev, (∀ e ∈ l, ∀ s, ∃ s', apply camel q url e s = .ok s') → ∀ s, ∃ s', run camel q url l s = .ok s' := by
    intro l
    induction l with
    | nil => intro _ s; exact ⟨s, rfl⟩
    | cons e r ih =>
      intro hl s
      obtain ⟨s1, h1⟩ := hl e (by simp) s
      obtain ⟨s2, h2⟩ := ih (fun e he => hl e (List.mem_cons_of_mem _ he)) s1
      exact ⟨s2, by rw [run, h1]; exact h2⟩
  obtain ⟨s', hs⟩ := hall _ hstep init
  exact ⟨s'.cfg, by rw [hs]; rfl⟩

/-! ## C110: oneofs -/

/-- **C110**, for files with proper and distinct names: a message with a oneof of several fields is a union.  It has a member
for each choice of at most one field for each oneof, and each member is for such a choice. -/
theorem C110_union_partial {camel : Text → Text} {q url : Text} {files : List (List Text × FileD)} (hf : Files files) (hq : Simple q)
    (hq' : Verif.Tmpl.predefined q = false) {ns : List Text} {m : MsgD} (hm : (ns, m) ∈ messages files) (hme : m.mapEntry = false)
    (hn : FieldNames camel m) (ho : ∃ o, 2 ≤ (m.fields.filter (fun f => f.oneof = some o)).length) {cfg : Cfg}
    (h : fromProto camel q url (files.map (·.2)) = .ok cfg) :
    ∃ members, At cfg.unions (typeName ns m.name) members ∧ members.Nodup ∧
      (∀ n ∈ members, ∃ T pick, At cfg.types n T ∧ T.implements = [typeName ns m.name ++ "__Interface".toList] ∧ Choice camel m pick ∧
        Fits files camel m pick T) ∧
      (∀ pick, Choice camel m pick → ∃ n ∈ members, ∃ T, At cfg.types n T ∧ Fits files camel m pick T) ∧
      ∃ I, At cfg.types (typeName ns m.name ++ "__Interface".toList) I ∧ ∀ f ∈ m.fields, (∃ fd, At I.fields (camel f.name) fd) ↔ f.oneof = none := by
  obtain ⟨x, hx, p, hat⟩ := messages_iff.1 hm
  obtain ⟨fs, gs, c, maps, hfs, _, hk, _, k2⟩ := stored hf hq hq' hx hat hme h
  obtain ⟨l, hl, hlen, _⟩ := made hf hn hk hfs
  obtain ⟨o, ho⟩ := ho
  have hol : o < gs.length := by
    cases hff : m.fields.filter (fun f => f.oneof = some o) with
    | nil => rw [hff] at ho; simp at ho
    | cons f r =>
      have hmem : f ∈ m.fields.filter (fun f => f.oneof = some o) := by rw [hff]; simp
      obtain ⟨h1, h2⟩ := List.mem_filter.1 hmem
      exact hl.bound f h1 o (by simpa using h2)
  have hone : m.oneofs ≠ 0 := by rw [← hlen]; omega
  have hbig : ∃ g ∈ gs, 2 ≤ g.length := by
    refine ⟨gs[o], List.getElem_mem hol, ?_⟩
    rw [hl.group o _ (List.getElem?_eq_getElem hol), List.length_map]
    rw [← hl.fields, List.filter_map, List.length_map] at ho
    exact ho
  have hmany := collect_many hbig (typeName ns m.name) ⟨fs, [], c p⟩
  obtain ⟨k3, k4⟩ := k2 hone
  have hty : ∀ y ∈ collect gs (typeName ns m.name) ⟨fs, [], c p⟩,
      At cfg.types y.1 { y.2 with implements := [typeName ns m.name ++ "__Interface".toList] } := by
    intro y hy
    refine get_some.1 (k3 (y.1, { y.2 with implements := [typeName ns m.name ++ "__Interface".toList] }) ?_)
    rw [oneofTypes, if_neg hmany]
    exact List.mem_append_left _ (List.mem_map.2 ⟨y, hy, rfl⟩)
  refine ⟨_, get_some.1 (k4 hmany), ?_, ?_, ?_, ?_⟩
  · have := collect_nodup (hf.names _ hm).1 (hf.names _ hm).2 gs [] (fun _ h => absurd h List.not_mem_nil) ⟨fs, [], c p⟩
    rw [longName_nil] at this
    exact this
  · intro n hn'
    obtain ⟨y, hy, rfl⟩ := List.mem_map.1 hn'
    obtain ⟨pick, h1, h2⟩ := member_fits hl (t := ⟨fs, [], c p⟩) rfl y hy
    exact ⟨_, pick, hty y hy, rfl, h1, h2 _ rfl⟩
  · intro pick hpick
    obtain ⟨y, hy, h2⟩ := choice_member hl hpick (typeName ns m.name) (t := ⟨fs, [], c p⟩) rfl
    exact ⟨y.1, List.mem_map.2 ⟨y, hy, rfl⟩, _, hty y hy, h2 _ rfl⟩
  · refine ⟨_, get_some.1 (k3 (typeName ns m.name ++ "__Interface".toList, ⟨fs, [], c p⟩) ?_), ?_⟩
    · rw [oneofTypes, if_neg hmany]
      exact List.mem_append_right _ (List.mem_singleton.2 rfl)
    · intro f hf'
      obtain ⟨fd', hfd⟩ := made_field hl hf'
      constructor
      · rintro ⟨fd, ha⟩
        obtain ⟨y, hy, h1, h2, _⟩ := (hl.base _ _).1 ha
        have := made_unique hl hfd hy h2
        subst this
        exact h1
      · intro hon
        exact ⟨fd', (hl.base _ _).2 ⟨(f, fd'), hfd, hon, rfl, rfl⟩⟩

/-- **C110**, for files with proper and distinct names: a message whose oneofs have one field each, as those of optional
fields, is a type with all its fields. -/
theorem C110_plain_partial {camel : Text → Text} {q url : Text} {files : List (List Text × FileD)} (hf : Files files) (hq : Simple q)
    (hq' : Verif.Tmpl.predefined q = false) {ns : List Text} {m : MsgD} (hm : (ns, m) ∈ messages files) (hme : m.mapEntry = false)
    (hn : FieldNames camel m) (hone : m.oneofs ≠ 0) (ho : ∀ o, (m.fields.filter (fun f => f.oneof = some o)).length ≤ 1) {cfg : Cfg}
    (h : fromProto camel q url (files.map (·.2)) = .ok cfg) :
    ∃ T, At cfg.types (typeName ns m.name) T ∧ (∀ k fd, At T.fields k fd → ∃ f ∈ m.fields, k = camel f.name) ∧
      ∀ f ∈ m.fields, ∃ fd, At T.fields (camel f.name) fd ∧ ∀ t, FieldTy files f t → fd.ty = t := by
  obtain ⟨x, hx, p, hat⟩ := messages_iff.1 hm
  obtain ⟨fs, gs, c, maps, hfs, _, hk, _, k2⟩ := stored hf hq hq' hx hat hme h
  obtain ⟨l, hl, hlen, _⟩ := made hf hn hk hfs
  have hsmall : ∀ g ∈ gs, g.length ≤ 1 := by
    intro g hg
    obtain ⟨o, hog⟩ := List.mem_iff_getElem?.1 hg
    rw [hl.group o _ hog, List.length_map]
    have := ho o
    rw [← hl.fields, List.filter_map, List.length_map] at this
    exact this
  have hcol := collect_one hsmall (typeName ns m.name) ⟨fs, [], c p⟩
  obtain ⟨y, e⟩ := List.length_eq_one_iff.1 hcol
  have hat' : At cfg.types (typeName ns m.name) y.2 := by
    refine get_some.1 ((k2 hone).1 (typeName ns m.name, y.2) ?_)
    rw [oneofTypes, if_pos hcol, e]
    exact List.mem_singleton.2 rfl
  obtain ⟨pick, _, hfit⟩ := member_fits hl (t := ⟨fs, [], c p⟩) rfl y (by rw [e]; simp)
  have hfit := hfit y.2 rfl
  have halone : ∀ f ∈ m.fields, ∀ o, f.oneof = some o → Alone m o := by
    intro f hf' o hfo
    have h1 : f ∈ m.fields.filter (fun f => f.oneof = some o) := List.mem_filter.2 ⟨hf', by simp [hfo]⟩
    have h2 := ho o
    rw [Alone]
    have := List.length_pos_of_mem h1
    omega
  refine ⟨y.2, hat', fun k fd ha => ?_, fun f hf' => ?_⟩
  · obtain ⟨f, h1, h2⟩ := hfit.known k fd ha
    exact ⟨f, h1, h2.symm⟩
  · obtain ⟨fd, ha⟩ := (hfit.present f hf').2 (fun o hfo => .inl (halone f hf' o hfo))
    exact ⟨fd, ha, fun t ht => hfit.plain f hf' fd t (halone f hf') ha ht⟩

/-! ## C111: methods -/

/-- **C111**, for files with proper and distinct names: each method of a service is a field of the query, that calls the
method with the message of its argument and gives the message that the method gives. -/
theorem C111_method_partial {camel : Text → Text} {q url : Text} {files : List (List Text × FileD)} (hf : Files files) (hq : Simple q)
    (hq' : Verif.Tmpl.predefined q = false) {x : List Text × FileD} (hx : x ∈ files) {p : List Nat} {v : Text} {m : MethodD}
    (hm : MethodAt x p v m) {ins outs : List Text} {inn outn : Text} (hi : m.input = '.' :: dotted (ins ++ [inn]))
    (ho : m.output = '.' :: dotted (outs ++ [outn])) (wi : ∀ t ∈ ins ++ [inn], Word t) (wo : ∀ t ∈ outs ++ [outn], Word t)
    (hie : m.input ≠ empty) (hoe : m.output ≠ empty) {cfg : Cfg} (h : fromProto camel q url (files.map (·.2)) = .ok cfg) :
    ∃ T f, At cfg.types q T ∧ At T.fields (methodName x.1 v m.name) f ∧ f.ty = .named (typeName outs outn) false ∧
      f.args = [(camel inn, .named (typeName ins inn) true)] ∧
      f.grpc = some ⟨url, some ("{{.args.".toList ++ camel inn ++ "}}".toList), dotted (x.1 ++ [v, m.name])⟩ := by
  obtain ⟨c, i, o, T, _, k1, k2, k3, k4⟩ := stored_method hf hq hq' hx hm h
  obtain ⟨u, hu1, hu2⟩ := fromRef_dotted (fun t ht => wi t (List.mem_append_left _ ht)) (wi inn (by simp))
  obtain ⟨w, hw1, hw2⟩ := fromRef_dotted (fun t ht => wo t (List.mem_append_left _ ht)) (wo outn (by simp))
  rw [inputType, if_neg (fun e => e.elim hie (fun e => by rw [hi] at e; cases e)), hi, hu1] at k1
  rw [outputType, if_neg hoe, ho, hw1] at k2
  cases k1
  cases k2
  refine ⟨T, _, k3, k4, ?_, ?_, ?_⟩
  · rw [hw2, object_eq]
  · simp only [argument, hu2, object_eq]
  · simp only [argument, hu2]

/-- **C111**, for files with proper and distinct names: a method without argument has none. -/
theorem C111_empty_partial {camel : Text → Text} {q url : Text} {files : List (List Text × FileD)} (hf : Files files) (hq : Simple q)
    (hq' : Verif.Tmpl.predefined q = false) {x : List Text × FileD} (hx : x ∈ files) {p : List Nat} {v : Text} {m : MethodD}
    (hm : MethodAt x p v m) {cfg : Cfg} (h : fromProto camel q url (files.map (·.2)) = .ok cfg) :
    ∃ T f, At cfg.types q T ∧ At T.fields (methodName x.1 v m.name) f ∧
      (m.input = ".google.protobuf.Empty".toList → f.args = [] ∧ f.grpc = some ⟨url, none, dotted (x.1 ++ [v, m.name])⟩) ∧
      (m.output = ".google.protobuf.Empty".toList → f.ty = .named "Empty".toList false) := by
  obtain ⟨c, i, o, T, _, k1, k2, k3, k4⟩ := stored_method hf hq hq' hx hm h
  refine ⟨T, _, k3, k4, fun e => ?_, fun e => ?_⟩
  · rw [inputType, if_pos (.inl e)] at k1
    cases k1
    exact ⟨rfl, rfl⟩
  · rw [outputType, if_pos (show m.output = empty from e)] at k2
    cases k2
    show Ty.named (parse ⟨"Empty".toList, []⟩).object false = _
    exact congrArg (fun n => Ty.named n false) (by decide)

theorem dotted_snoc (ns : List Text) (n : Text) (h : ns ≠ []) : dotted (ns ++ [n]) = dotted ns ++ '.' :: n := by
  rw [dotted, inter_append _ n [] ns h, inter_one]
  simp [dotted, List.append_assoc]

/-- **C111**, for files with a package: the method that is called is read as its package, service and name. -/
theorem C111_called_partial {ns : List Text} {v n : Text} (hns : ns ≠ []) (hv : Word v) (hn : Word n) :
    grpcMethod (dotted (ns ++ [v, n])) = some ⟨dotted ns, v, n⟩ := by
  have e1 : ns ++ [v, n] = (ns ++ [v]) ++ [n] := by simp
  rw [e1, dotted_snoc _ _ (by simp), grpcMethod, rsplit_dot (fun c hc => (hn.plain c hc).1)]
  simp only
  rw [dotted_snoc ns v hns, rsplit_dot (fun c hc => (hv.plain c hc).1)]

/-- **C111 is violated** for files without a package: no method of them can be called. -/
theorem C111_violated_by_no_package {v n : Text} (hv : Word v) (hn : Word n) : grpcMethod (dotted ([] ++ [v, n])) = none := by
  have e1 : ([] ++ [v, n] : List Text) = [v] ++ [n] := rfl
  rw [e1, dotted_snoc _ _ (by simp), grpcMethod, rsplit_dot (fun c hc => (hn.plain c hc).1)]
  simp only
  have : dotted [v] = v := inter_one _ v
  rw [this, rsplit_none (fun c hc => (hv.plain c hc).1)]

/-- **C111.** The body of the request is the argument. -/
theorem C111_body {k : Text} (hk : Verif.Mustache.GoodName k) :
    Verif.Mustache.parse ("{{.args.".toList ++ k ++ "}}".toList) = [.expr ["args".toList, k]] := by
  have hargs : Verif.Mustache.GoodName "args".toList := ⟨'a', "rgs".toList, rfl, by decide, by decide⟩
  have hw : Verif.Mustache.WellFormed [.expr ["args".toList, k]] := by
    refine ⟨by simp, ?_, trivial⟩
    intro p hp
    rcases List.mem_cons.1 hp with rfl | hp
    · exact hargs
    · rw [List.mem_singleton.1 hp]; exact hk
  have := Verif.Mustache.C11_parse_print hw
  have e : Verif.Mustache.print [.expr ["args".toList, k]] = "{{.args.".toList ++ k ++ "}}".toList := by
    simp [Verif.Mustache.print, Verif.Mustache.printSeg, Verif.Mustache.joinDots]
  rw [e] at this
  exact this

/-- **C111.** With Connect RPC a method is called by a post to the address of the server with the service and the method. -/
theorem C111_connect (url : Text) (body : Option Text) {ns : List Text} {v n : Text} (hns : ∀ t ∈ ns, Word t) (hv : Word v) (hn : Word n)
    (hs : List (Text × Text)) :
    (connect ⟨url, body, dotted (ns ++ [v, n])⟩ hs).url = url ++ "/".toList ++ dotted (ns ++ [v]) ++ "/".toList ++ n ∧
    (connect ⟨url, body, dotted (ns ++ [v, n])⟩ hs).post = true ∧
    (connect ⟨url, body, dotted (ns ++ [v, n])⟩ hs).body = some (body.getD "{}".toList) ∧
    (∀ h ∈ hs, h ∈ (connect ⟨url, body, dotted (ns ++ [v, n])⟩ hs).headers) ∧
    ("Connect-Protocol-Version".toList, "1".toList) ∈ (connect ⟨url, body, dotted (ns ++ [v, n])⟩ hs).headers := by
  have hw : ∀ t ∈ ns ++ [v, n], ∀ c ∈ t, c ≠ '.' := by
    intro t ht c hc
    rcases List.mem_append.1 ht with ht | ht
    · exact ((hns t ht).plain c hc).1
    · rcases List.mem_cons.1 ht with rfl | ht
      · exact (hv.plain c hc).1
      · rw [List.mem_singleton.1 ht] at hc; exact (hn.plain c hc).1
  refine ⟨?_, rfl, rfl, ?_, ?_⟩
  · rw [connect]
    simp only [splitDot_dotted _ (by simp : ns ++ [v, n] ≠ []) hw]
    have e1 : ns ++ [v, n] = (ns ++ [v]) ++ [n] := by simp
    rw [e1, List.dropLast_concat, List.getLast?_concat, join_inter]
    simp [dotted, List.append_assoc]
  · intro h hh
    exact List.mem_append_left _ hh
  · exact List.mem_append_right _ (List.mem_singleton.2 rfl)

/-! ## C112: comments -/

/-- **C112**, for files that come with comments: the descriptions of a message without oneofs and of its fields are the
comments at their places. -/
theorem C112_message_partial {camel : Text → Text} {q url : Text} {files : List (List Text × FileD)} (hf : Files files) (hq : Simple q)
    (hq' : Verif.Tmpl.predefined q = false) {x : List Text × FileD} (hx : x ∈ files) {c : Comments} (hc : x.2.comments = some c)
    {p : List Nat} {ns : List Text} {m : MsgD} (hm : MsgAt x p ns m) (hme : m.mapEntry = false) (ho : m.oneofs = 0) (hn : FieldNames camel m)
    {cfg : Cfg} (h : fromProto camel q url (files.map (·.2)) = .ok cfg) :
    ∃ T, At cfg.types (typeName ns m.name) T ∧ T.doc = c p ∧
      ∀ j f, m.fields[j]? = some f → ∃ fd, At T.fields (camel f.name) fd ∧ fd.doc = c (p ++ [2, j]) := by
  obtain ⟨fs, gs, c', maps, hfs, hcc, hk, k1, _⟩ := stored hf hq hq' hx hm hme h
  have := hcc c hc
  subst this
  obtain ⟨l, hl, hlen, hdoc⟩ := made hf hn hk hfs
  refine ⟨_, get_some.1 (k1 ho), rfl, ?_⟩
  intro j f hj
  have hf' := List.mem_of_getElem? hj
  have hon : f.oneof = none := by
    cases hoo : f.oneof with
    | none => rfl
    | some o =>
      have := hl.bound f hf' o hoo
      rw [hlen, ho] at this
      exact absurd this (Nat.not_lt_zero _)
  rw [← hl.fields, List.getElem?_map] at hj
  cases hlj : l[j]? with
  | none => rw [hlj] at hj; cases hj
  | some y =>
    rw [hlj] at hj
    cases hj
    exact ⟨y.2, (hl.base _ _).2 ⟨y, List.mem_of_getElem? hlj, hon, rfl, rfl⟩, hdoc j y.1 y.2 hlj⟩

/-- **C112**, for files that come with comments: the descriptions of enums and of methods are the comments at their places. -/
theorem C112_others_partial {camel : Text → Text} {q url : Text} {files : List (List Text × FileD)} (hf : Files files) (hq : Simple q)
    (hq' : Verif.Tmpl.predefined q = false) {x : List Text × FileD} (hx : x ∈ files) {c : Comments} (hc : x.2.comments = some c)
    {cfg : Cfg} (h : fromProto camel q url (files.map (·.2)) = .ok cfg) :
    (∀ p ns e, EnumAt x p ns e → ∃ E, At cfg.enums (typeName ns e.name) E ∧ E.doc = c p) ∧
    (∀ p v m, MethodAt x p v m → ∃ T f, At cfg.types q T ∧ At T.fields (methodName x.1 v m.name) f ∧ f.doc = c p) := by
  constructor
  · intro p ns e he
    obtain ⟨c', k1, k2⟩ := stored_enum hf hx he h
    exact ⟨_, get_some.1 k2, by rw [← k1 c hc]⟩
  · intro p v m hm
    obtain ⟨c', i, o, T, k0, k1, k2, k3, k4⟩ := stored_method hf hq hq' hx hm h
    exact ⟨T, _, k3, k4, by rw [← k0 c hc]⟩

end Verif.Proto
