import Verif.Proto.Run

/-!
# What a step stores, and what later steps leave as it is
-/

namespace Verif.Proto

open Verif.Mustache (Text)
open Verif.Exec (Ty)
open Verif.Transform (At Lacks get insert get_some get_none get_insert)

set_option linter.unusedSimpArgs false

theorem toDigits_inj {a b : Nat} (h : Nat.toDigits 10 a = Nat.toDigits 10 b) : a = b := by
  rw [← Nat.ofDigitChars_toDigits (b := 10) (n := a) (by decide) (by decide), h, Nat.ofDigitChars_toDigits (by decide) (by decide)]

theorem digits_eq (n : Nat) : digits n = Nat.toDigits 10 n := by
  show (Nat.repr n).toList = _
  rw [Nat.repr]; simp

theorem digits_inj {a b : Nat} (h : digits a = digits b) : a = b := by
  rw [digits_eq, digits_eq] at h
  exact toDigits_inj h

/-! ## The names of the members of unions -/

theorem collect_other (g : List (Text × Fld)) (r : List (List (Text × Fld))) (name : Text) (t : Typ) (h : g.length ≠ 1) :
    collect (g :: r) name t = collect r (name ++ "__Var".toList) t ++
      (g.zipIdx.flatMap (fun x => collect r (name ++ "__Var".toList ++ digits x.2) (t.put x.1.1 { x.1.2 with ty := required x.1.2.ty }))) := by
  rw [collect]
  intro n f e
  rw [e] at h
  exact h rfl

theorem var_name (ns : List Text) (n : Text) (sfx : List Text) : longName ns n sfx ++ "__Var".toList = longName ns n (sfx ++ ["Var".toList]) := by
  rw [longName_snoc, List.append_assoc]; rfl

theorem index_name (ns : List Text) (n : Text) (sfx : List Text) (i : Nat) :
    longName ns n sfx ++ "__Var".toList ++ digits i = longName ns n (sfx ++ ["Var".toList ++ digits i]) := by
  rw [longName_snoc, List.append_assoc, List.append_assoc]; rfl

theorem collect_shape (ns : List Text) (n : Text) (gs : List (List (Text × Fld))) (sfx : List Text) (t : Typ) :
    ∀ x ∈ collect gs (longName ns n sfx) t, ∃ s, s.length = gs.length ∧ (∀ y ∈ s, Reserved y ∧ y ≠ "Interface".toList) ∧
      x.1 = longName ns n (sfx ++ s) := by
  have hv : Reserved "Var".toList ∧ "Var".toList ≠ "Interface".toList := ⟨.var, by decide⟩
  have hi : ∀ i, Reserved ("Var".toList ++ digits i) ∧ "Var".toList ++ digits i ≠ "Interface".toList := by
    intro i
    refine ⟨.index i, fun e => ?_⟩
    have := congrArg List.head? e
    revert this
    simp
  induction gs generalizing sfx t with
  | nil =>
    intro x hx
    rw [collect] at hx
    exact ⟨[], rfl, (fun _ h => nomatch h), by rw [List.mem_singleton.1 hx, List.append_nil]⟩
  | cons g r ih =>
    have step : ∀ v, (Reserved v ∧ v ≠ "Interface".toList) → ∀ t', ∀ x ∈ collect r (longName ns n (sfx ++ [v])) t',
        ∃ s, s.length = (g :: r).length ∧ (∀ y ∈ s, Reserved y ∧ y ≠ "Interface".toList) ∧ x.1 = longName ns n (sfx ++ s) := by
      intro v hv t' x hx
      obtain ⟨s, h1, h2, h3⟩ := ih (sfx ++ [v]) t' x hx
      refine ⟨v :: s, by simp [h1], ?_, by rw [h3, List.append_assoc]; rfl⟩
      intro y hy
      rcases List.mem_cons.1 hy with rfl | hy
      · exact hv
      · exact h2 y hy
    intro x hx
    by_cases hg : g.length = 1
    · obtain ⟨y, rfl⟩ := List.length_eq_one_iff.1 hg
      rw [collect, var_name] at hx
      exact step _ hv _ x hx
    · rw [collect_other g r _ t hg] at hx
      rcases List.mem_append.1 hx with hx | hx
      · rw [var_name] at hx
        exact step _ hv _ x hx
      · obtain ⟨y, _, hx⟩ := List.mem_flatMap.1 hx
        rw [index_name] at hx
        exact step _ (hi y.2) _ x hx

theorem collect_apart {ns : List Text} {n : Text} (hns : ∀ t ∈ ns, Proper t) (hn : Proper n) {sfx : List Text} (hs : ∀ y ∈ sfx, Reserved y)
    {v w : Text} {t1 t2 : Typ} {r : List (List (Text × Fld))} (hv : Reserved v) (hw : Reserved w) (hvw : v ≠ w) :
    ∀ x ∈ collect r (longName ns n (sfx ++ [v])) t1, ∀ y ∈ collect r (longName ns n (sfx ++ [w])) t2, x.1 ≠ y.1 := by
  intro x hx y hy e
  obtain ⟨s1, a1, b1, c1⟩ := collect_shape ns n r _ t1 x hx
  obtain ⟨s2, a2, b2, c2⟩ := collect_shape ns n r _ t2 y hy
  rw [c1, c2] at e
  have all : ∀ (u : Text) (s : List Text), Reserved u → (∀ y ∈ s, Reserved y ∧ y ≠ "Interface".toList) →
      ∀ z ∈ sfx ++ [u] ++ s, Reserved z := by
    intro u s hu hs1 z hz
    rcases List.mem_append.1 hz with hz | hz
    · rcases List.mem_append.1 hz with hz | hz
      · exact hs z hz
      · rw [List.mem_singleton.1 hz]; exact hu
    · exact (hs1 z hz).1
  have := (longName_inj hns hn hns hn (all v s1 hv b1) (all w s2 hw b2) e).2
  rw [List.append_assoc, List.append_assoc] at this
  have := List.append_cancel_left this
  simp only [List.singleton_append, List.cons.injEq] at this
  exact hvw this.1

/-- The members of a union have different names. -/
theorem collect_nodup {ns : List Text} {n : Text} (hns : ∀ t ∈ ns, Proper t) (hn : Proper n) (gs : List (List (Text × Fld))) (sfx : List Text)
    (hs : ∀ y ∈ sfx, Reserved y) (t : Typ) : ((collect gs (longName ns n sfx) t).map (·.1)).Nodup := by
  induction gs generalizing sfx t with
  | nil => rw [collect]; simp
  | cons g r ih =>
    have ih' : ∀ v, Reserved v → ∀ t, ((collect r (longName ns n (sfx ++ [v])) t).map (·.1)).Nodup := by
      intro v hv t
      refine ih _ (fun y hy => ?_) t
      rcases List.mem_append.1 hy with hy | hy
      · exact hs y hy
      · rw [List.mem_singleton.1 hy]; exact hv
    by_cases hg : g.length = 1
    · obtain ⟨y, rfl⟩ := List.length_eq_one_iff.1 hg
      rw [collect, var_name]
      exact ih' _ .var _
    · rw [collect_other g r _ t hg, var_name, List.map_append, List.nodup_append]
      have hidx : ∀ (i j : Nat), i ≠ j → "Var".toList ++ digits i ≠ "Var".toList ++ digits j :=
        fun i j h e => h (digits_inj (List.append_cancel_left e))
      have hvar : ∀ i, "Var".toList ≠ "Var".toList ++ digits i := by
        intro i e
        have hl := congrArg List.length e
        rw [List.length_append] at hl
        have h0 : (digits i).length = 0 := by omega
        rw [digits_eq] at h0
        exact Nat.toDigits_ne_nil (List.length_eq_zero_iff.1 h0)
      refine ⟨ih' _ .var t, ?_, ?_⟩
      · clear hg
        generalize 0 = k
        induction g generalizing k with
        | nil => simp
        | cons y g' ihg =>
          rw [List.zipIdx_cons, List.flatMap_cons, List.map_append, List.nodup_append]
          refine ⟨?_, ihg (k + 1), ?_⟩
          · simp only [← var_name, index_name]
            exact ih' _ (.index k) _
          · intro a ha b hb
            obtain ⟨x, hx, rfl⟩ := List.mem_map.1 ha
            obtain ⟨x', hx', rfl⟩ := List.mem_map.1 hb
            obtain ⟨z, hz, hx'⟩ := List.mem_flatMap.1 hx'
            simp only [← var_name, index_name] at hx hx'
            refine collect_apart hns hn hs (.index k) (.index z.2) (hidx _ _ ?_) x hx x' hx'
            have := List.le_snd_of_mem_zipIdx hz
            omega
      · intro a ha b hb
        obtain ⟨x, hx, rfl⟩ := List.mem_map.1 ha
        obtain ⟨x', hx', rfl⟩ := List.mem_map.1 hb
        obtain ⟨z, hz, hx'⟩ := List.mem_flatMap.1 hx'
        simp only [← var_name, index_name] at hx'
        exact collect_apart hns hn hs .var (.index z.2) (hvar _) x hx x' hx'

/-! ## Storing types -/

/-- `putType` for each member. -/
def putAll (l : List (Text × Typ)) (c : Cfg) : Cfg := l.foldl (fun c x => c.putType x.1 x.2) c

theorem putAll_same (l : List (Text × Typ)) (c : Cfg) :
    (putAll l c).unions = c.unions ∧ (putAll l c).enums = c.enums ∧ (putAll l c).query = c.query := by
  induction l generalizing c with
  | nil => exact ⟨rfl, rfl, rfl⟩
  | cons x r ih => exact ih (c.putType x.1 x.2)

theorem putAll_out (l : List (Text × Typ)) (c : Cfg) {k : Text} (h : k ∉ l.map (·.1)) : get (putAll l c).types k = get c.types k := by
  induction l generalizing c with
  | nil => rfl
  | cons x r ih =>
    simp only [List.map_cons, List.mem_cons, not_or] at h
    have := ih (c.putType x.1 x.2) h.2
    show get (putAll r (c.putType x.1 x.2)).types k = _
    rw [this, Cfg.putType, get_insert, if_neg h.1]

theorem putAll_in (l : List (Text × Typ)) (c : Cfg) (h : (l.map (·.1)).Nodup) : ∀ x ∈ l, get (putAll l c).types x.1 = some x.2 := by
  induction l generalizing c with
  | nil => intro x hx; cases hx
  | cons y r ih =>
    intro x hx
    rw [List.map_cons, List.nodup_cons] at h
    show get (putAll r (c.putType y.1 y.2)).types x.1 = _
    rcases List.mem_cons.1 hx with rfl | hx
    · rw [putAll_out r _ h.1, Cfg.putType, get_insert, if_pos rfl]
    · exact ih _ h.2 x hx

/-- The types of a message with oneofs: one type, or members and an interface. -/
def oneofTypes (name : Text) (base : Typ) (gs : List (List (Text × Fld))) : List (Text × Typ) :=
  if (collect gs name base).length = 1 then (collect gs name base).map (fun x => (name, x.2))
  else (collect gs name base).map (fun x => (x.1, { x.2 with implements := [name ++ "__Interface".toList] })) ++
    [(name ++ "__Interface".toList, base)]

theorem insertOneofs_eq (name : Text) (base : Typ) (gs : List (List (Text × Fld))) (c : Cfg) :
    insertOneofs name base gs c = { putAll (oneofTypes name base gs) c with
      unions := if (collect gs name base).length = 1 then c.unions else insert c.unions name ((collect gs name base).map (·.1)) } := by
  rw [insertOneofs, oneofTypes]
  have hf : ∀ (l : List (Text × Typ)) (c : Cfg), l.foldl (fun c x => c.putType x.1 { x.2 with implements := [name ++ "__Interface".toList] }) c =
      putAll (l.map (fun x => (x.1, { x.2 with implements := [name ++ "__Interface".toList] }))) c := by
    intro l c
    rw [putAll, List.foldl_map]
  have happ : ∀ (a b : List (Text × Typ)) (c : Cfg), putAll (a ++ b) c = putAll b (putAll a c) := by
    intro a b c
    rw [putAll, List.foldl_append]; rfl
  match h : collect gs name base with
  | [(n, t)] => rfl
  | [] =>
    simp only [hf, List.length_nil, if_neg (show ¬ (0 : Nat) = 1 by decide)]
    rfl
  | a :: b :: r =>
    have hl : ¬ (a :: b :: r).length = 1 := by simp
    simp only [hf, if_neg hl, happ, (putAll_same _ c).1]
    rfl

theorem interface_name (ns : List Text) (n : Text) : typeName ns n ++ "__Interface".toList = longName ns n ["Interface".toList] := by
  have := longName_snoc ns n [] "Interface".toList
  rw [longName_nil] at this
  rw [List.nil_append] at this
  rw [this, List.append_assoc]; rfl

theorem oneofTypes_names {ns : List Text} {n : Text} (base : Typ) (gs : List (List (Text × Fld))) :
    ∀ x ∈ oneofTypes (typeName ns n) base gs, ∃ s, (∀ y ∈ s, Reserved y) ∧ x.1 = longName ns n s := by
  intro x hx
  rw [oneofTypes] at hx
  split at hx
  · obtain ⟨y, _, rfl⟩ := List.mem_map.1 hx
    exact ⟨[], (fun _ h => nomatch h), (longName_nil ns n).symm⟩
  · rcases List.mem_append.1 hx with hx | hx
    · obtain ⟨y, hy, rfl⟩ := List.mem_map.1 hx
      rw [← longName_nil] at hy
      obtain ⟨s, _, h2, h3⟩ := collect_shape ns n gs [] base y hy
      exact ⟨s, fun y hy => (h2 y hy).1, h3⟩
    · rw [List.mem_singleton.1 hx]
      exact ⟨["Interface".toList], (fun y hy => by rw [List.mem_singleton.1 hy]; exact .interface), interface_name ns n⟩

theorem oneofTypes_nodup {ns : List Text} {n : Text} (hns : ∀ t ∈ ns, Proper t) (hn : Proper n) (base : Typ) (gs : List (List (Text × Fld))) :
    ((oneofTypes (typeName ns n) base gs).map (·.1)).Nodup := by
  rw [oneofTypes]
  split
  · next h =>
    obtain ⟨y, e⟩ := List.length_eq_one_iff.1 h
    rw [e]; simp
  · rw [List.map_append, List.map_map, List.nodup_append]
    have h := collect_nodup hns hn gs [] (fun _ h => nomatch h) base
    rw [longName_nil] at h
    refine ⟨h, by simp, ?_⟩
    intro a ha b hb e
    obtain ⟨x, hx, rfl⟩ := List.mem_map.1 ha
    simp only [List.map_cons, List.map_nil, List.mem_singleton] at hb
    subst hb
    rw [← longName_nil] at hx
    obtain ⟨s, _, h2, h3⟩ := collect_shape ns n gs [] base x hx
    simp only [Function.comp] at e
    rw [h3, interface_name, List.nil_append] at e
    have := (longName_inj hns hn hns hn (fun y hy => (h2 y hy).1)
      (fun y hy => by rw [List.mem_singleton.1 hy]; exact .interface) e).2
    exact (h2 "Interface".toList (by rw [this]; simp)).2 rfl

/-! ## Steps -/

/-- The names in a step are proper. -/
def Good : Ev → Prop
  | .comments _ => True
  | .enum P N _ e => (∀ t ∈ P ++ N, Proper t) ∧ Proper e.name
  | .msg P N _ m => (∀ t ∈ P ++ N, Proper t) ∧ Proper m.name
  | .method P _ v m => (∀ t ∈ P, Proper t) ∧ Proper v ∧ Proper m.name

theorem good_files {files : List (List Text × FileD)} (h : Files files) : ∀ e ∈ files.flatMap fileEvs, Good e := by
  intro e he
  cases e with
  | comments c => exact trivial
  | enum P N p e =>
    exact h.enumNames (P ++ N, e) (by rw [← files_asEnum]; exact List.mem_filterMap.2 ⟨_, he, rfl⟩)
  | msg P N p m =>
    exact h.names (P ++ N, m) (by rw [← files_asMsg]; exact List.mem_filterMap.2 ⟨_, he, rfl⟩)
  | method P p v m =>
    exact h.methodNames (P, v, m) (by rw [← files_asMethod]; exact List.mem_filterMap.2 ⟨_, he, rfl⟩)

theorem parse_code {P N : List Text} {n : Text} (h : ∀ t ∈ P ++ N, Proper t) (hn : Proper n) : parse ⟨n, dotted P :: N⟩ = ⟨P ++ N, n⟩ :=
  parse_words (fun t ht => (h t (List.mem_append_left _ ht)).word) (fun t ht => (h t (List.mem_append_right _ ht)).word) hn.word

theorem object_code {P N : List Text} {n : Text} (h : ∀ t ∈ P ++ N, Proper t) (hn : Proper n) :
    (parse ⟨n, dotted P :: N⟩).object = typeName (P ++ N) n := by rw [parse_code h hn, object_eq]

/-- What the step for a message does. -/
theorem apply_msg {camel : Text → Text} {q url : Text} {P N : List Text} {p : List Nat} {m : MsgD} {s s' : St}
    (hg : Good (.msg P N p m)) (hm : m.mapEntry = false) (h : apply camel q url (.msg P N p m) s = .ok s') :
    ∃ fs gs, fieldsOf camel s.comments s.maps p 0 m.fields ([], List.replicate m.oneofs []) = .ok (fs, gs) ∧
      s' = { s with cfg := if m.oneofs = 0 then s.cfg.putType (typeName (P ++ N) m.name) ⟨fs, [], s.comments p⟩ else
        insertOneofs (typeName (P ++ N) m.name) ⟨fs, [], s.comments p⟩ gs s.cfg } := by
  rw [apply, if_neg (by simp [hm]), putMsg, object_code hg.1 hg.2] at h
  split at h
  · cases h
  · next fs gs hf => exact ⟨fs, gs, hf, (Except.ok.inj h).symm⟩

theorem apply_map {camel : Text → Text} {q url : Text} {P N : List Text} {p : List Nat} {m : MsgD} {s s' : St}
    (hg : Good (.msg P N p m)) (hm : m.mapEntry = true) (h : apply camel q url (.msg P N p m) s = .ok s') :
    s' = { s with maps := dotted (P ++ N ++ [m.name]) :: s.maps } := by
  rw [apply, if_pos hm, parse_code hg.1 hg.2, id_eq] at h
  exact (Except.ok.inj h).symm

theorem apply_enum {camel : Text → Text} {q url : Text} {P N : List Text} {p : List Nat} {e : EnumD} {s s' : St}
    (hg : Good (.enum P N p e)) (h : apply camel q url (.enum P N p e) s = .ok s') :
    s' = { s with cfg := { s.cfg with
      enums := insert s.cfg.enums (typeName (P ++ N) e.name) ⟨variants s.comments p 0 e.values, s.comments p⟩ } } := by
  rw [apply, appendEnum, object_code hg.1 hg.2] at h
  exact (Except.ok.inj h).symm

theorem apply_method {camel : Text → Text} {q url : Text} {P : List Text} {p : List Nat} {v : Text} {m : MethodD} {s s' : St}
    (hg : Good (.method P p v m)) (h : apply camel q url (.method P p v m) s = .ok s') :
    ∃ i o, inputType m.input = .ok i ∧ outputType m.output = .ok o ∧
      s' = { s with cfg := s.cfg.putQuery q (methodName P v m.name) ⟨.named (parse o).object false, (argument camel i).1,
        some ⟨url, (argument camel i).2, dotted (P ++ [v, m.name])⟩, s.comments p⟩ } := by
  have hp : parse ⟨m.name, [dotted P] ++ [v]⟩ = ⟨P ++ [v], m.name⟩ :=
    parse_words (N := [v]) (fun t ht => (hg.1 t ht).word) (fun t ht => by rw [List.mem_singleton.1 ht]; exact hg.2.1.word) hg.2.2.word
  rw [apply, appendMethod] at h
  split at h
  · cases h
  · next i hi =>
    split at h
    · cases h
    · next o ho =>
      simp only [hp, id_eq, method_eq] at h
      refine ⟨i, o, hi, ho, ?_⟩
      have := (Except.ok.inj h).symm
      rw [this]
      simp [List.append_assoc]

/-! ## Frames -/

theorem msg_types {P N : List Text} {p : List Nat} {m : MsgD} {camel : Text → Text} {q url : Text} {s s' : St} (hg : Good (.msg P N p m))
    (h : apply camel q url (.msg P N p m) s = .ok s') {k : Text} (hk : ∀ sfx, (∀ y ∈ sfx, Reserved y) → k ≠ longName (P ++ N) m.name sfx) :
    get s'.cfg.types k = get s.cfg.types k := by
  by_cases hm : m.mapEntry = true
  · rw [apply_map hg hm h]
  · obtain ⟨fs, gs, _, rfl⟩ := apply_msg hg (by simpa using hm) h
    simp only
    split
    · rw [Cfg.putType, get_insert, if_neg]
      intro e
      exact hk [] (fun _ h => nomatch h) (by rw [e, longName_nil])
    · rw [insertOneofs_eq]
      refine putAll_out _ _ (fun hc => ?_)
      obtain ⟨x, hx, rfl⟩ := List.mem_map.1 hc
      obtain ⟨sfx, h1, h2⟩ := oneofTypes_names (ns := P ++ N) (n := m.name) _ _ x hx
      exact hk sfx h1 h2

theorem method_types {P : List Text} {p : List Nat} {v : Text} {m : MethodD} {camel : Text → Text} {q url : Text} {s s' : St}
    (hg : Good (.method P p v m)) (h : apply camel q url (.method P p v m) s = .ok s') {k : Text} (hk : k ≠ q) :
    get s'.cfg.types k = get s.cfg.types k := by
  obtain ⟨i, o, _, _, rfl⟩ := apply_method hg h
  simp only [Cfg.putQuery]
  split
  · rw [Cfg.putType, get_insert, if_neg hk]
  · simp only [Cfg.putType]
    rw [get_insert, if_neg hk]

/-- Types that no later message has are left as they are. -/
theorem run_types {camel : Text → Text} {q url : Text} {l : List Ev} (hg : ∀ e ∈ l, Good e) {k : Text} (hq : k ≠ q)
    (hk : ∀ P N p m, Ev.msg P N p m ∈ l → ∀ sfx, (∀ y ∈ sfx, Reserved y) → k ≠ longName (P ++ N) m.name sfx) {s s' : St}
    (h : run camel q url l s = .ok s') : get s'.cfg.types k = get s.cfg.types k := by
  induction l generalizing s with
  | nil => rw [run] at h; cases h; rfl
  | cons e r ih =>
    rw [run] at h
    split at h
    · cases h
    · next s1 h1 =>
      rw [ih (fun x hx => hg x (List.mem_cons_of_mem _ hx)) (fun P N p m hx => hk P N p m (List.mem_cons_of_mem _ hx)) h]
      have hge := hg e (by simp)
      cases e with
      | comments c => cases h1; rfl
      | enum P N p e => rw [apply_enum hge h1]
      | msg P N p m => exact msg_types hge h1 (hk P N p m (by simp))
      | method P p v m => exact method_types hge h1 hq

theorem run_unions {camel : Text → Text} {q url : Text} {l : List Ev} (hg : ∀ e ∈ l, Good e) {k : Text}
    (hk : ∀ P N p m, Ev.msg P N p m ∈ l → k ≠ typeName (P ++ N) m.name) {s s' : St}
    (h : run camel q url l s = .ok s') : get s'.cfg.unions k = get s.cfg.unions k := by
  induction l generalizing s with
  | nil => rw [run] at h; cases h; rfl
  | cons e r ih =>
    rw [run] at h
    split at h
    · cases h
    · next s1 h1 =>
      rw [ih (fun x hx => hg x (List.mem_cons_of_mem _ hx)) (fun P N p m hx => hk P N p m (List.mem_cons_of_mem _ hx)) h]
      have hge := hg e (by simp)
      cases e with
      | comments c => cases h1; rfl
      | enum P N p e => rw [apply_enum hge h1]
      | msg P N p m =>
        by_cases hm : m.mapEntry = true
        · rw [apply_map hge hm h1]
        · obtain ⟨fs, gs, _, rfl⟩ := apply_msg hge (by simpa using hm) h1
          simp only
          split
          · rfl
          · rw [insertOneofs_eq]
            simp only
            split
            · rfl
            · rw [get_insert, if_neg (hk P N p m (by simp))]
      | method P p v m =>
        obtain ⟨i, o, _, _, rfl⟩ := apply_method hge h1
        simp only [Cfg.putQuery]
        split <;> rfl

theorem run_enumsFrame {camel : Text → Text} {q url : Text} {l : List Ev} (hg : ∀ e ∈ l, Good e) {k : Text}
    (hk : ∀ P N p m, Ev.enum P N p m ∈ l → k ≠ typeName (P ++ N) m.name) {s s' : St}
    (h : run camel q url l s = .ok s') : get s'.cfg.enums k = get s.cfg.enums k := by
  induction l generalizing s with
  | nil => rw [run] at h; cases h; rfl
  | cons e r ih =>
    rw [run] at h
    split at h
    · cases h
    · next s1 h1 =>
      rw [ih (fun x hx => hg x (List.mem_cons_of_mem _ hx)) (fun P N p m hx => hk P N p m (List.mem_cons_of_mem _ hx)) h]
      have hge := hg e (by simp)
      cases e with
      | comments c => cases h1; rfl
      | enum P N p e => rw [apply_enum hge h1]; simp only; rw [get_insert, if_neg (hk P N p e (by simp))]
      | msg P N p m =>
        by_cases hm : m.mapEntry = true
        · rw [apply_map hge hm h1]
        · obtain ⟨fs, gs, _, rfl⟩ := apply_msg hge (by simpa using hm) h1
          simp only
          split
          · rfl
          · rw [insertOneofs_eq]
            simp only [(putAll_same _ _).2.1]
      | method P p v m =>
        obtain ⟨i, o, _, _, rfl⟩ := apply_method hge h1
        simp only [Cfg.putQuery]
        split <;> rfl

/-- The comments stay those of the file. -/
theorem run_comments {camel : Text → Text} {q url : Text} {l : List Ev} (hg : ∀ e ∈ l, Good e) (hc : ∀ e ∈ l, isComments e = false) {s s' : St}
    (h : run camel q url l s = .ok s') : s'.comments = s.comments := by
  induction l generalizing s with
  | nil => rw [run] at h; cases h; rfl
  | cons e r ih =>
    rw [run] at h
    split at h
    · cases h
    · next s1 h1 =>
      rw [ih (fun x hx => hg x (List.mem_cons_of_mem _ hx)) (fun x hx => hc x (List.mem_cons_of_mem _ hx)) h]
      have hge := hg e (by simp)
      have hce := hc e (by simp)
      cases e with
      | comments c => cases hce
      | enum P N p e => rw [apply_enum hge h1]
      | msg P N p m =>
        by_cases hm : m.mapEntry = true
        · rw [apply_map hge hm h1]
        · obtain ⟨fs, gs, _, rfl⟩ := apply_msg hge (by simpa using hm) h1
          rfl
      | method P p v m =>
        obtain ⟨i, o, _, _, rfl⟩ := apply_method hge h1
        rfl

/-- The entries of maps that are known are those of the steps done. -/
theorem run_maps {camel : Text → Text} {q url : Text} {l : List Ev} (hg : ∀ e ∈ l, Good e) {s s' : St}
    (h : run camel q url l s = .ok s') (t : Text) :
    t ∈ s'.maps ↔ t ∈ s.maps ∨ ∃ P N p m, Ev.msg P N p m ∈ l ∧ m.mapEntry = true ∧ t = dotted (P ++ N ++ [m.name]) := by
  induction l generalizing s with
  | nil => rw [run] at h; cases h; simp
  | cons e r ih =>
    rw [run] at h
    split at h
    · cases h
    · next s1 h1 =>
      rw [ih (fun x hx => hg x (List.mem_cons_of_mem _ hx)) h]
      have hge := hg e (by simp)
      have none : s1.maps = s.maps → (∀ P N p m, e = .msg P N p m → m.mapEntry = false) →
          ((t ∈ s1.maps ∨ ∃ P N p m, Ev.msg P N p m ∈ r ∧ m.mapEntry = true ∧ t = dotted (P ++ N ++ [m.name])) ↔
            t ∈ s.maps ∨ ∃ P N p m, Ev.msg P N p m ∈ e :: r ∧ m.mapEntry = true ∧ t = dotted (P ++ N ++ [m.name])) := by
        intro e1 e2
        rw [e1]
        constructor
        · rintro (k | ⟨P, N, p, m, k1, k2⟩)
          · exact .inl k
          · exact .inr ⟨P, N, p, m, List.mem_cons_of_mem _ k1, k2⟩
        · rintro (k | ⟨P, N, p, m, k1, k2, k3⟩)
          · exact .inl k
          · rcases List.mem_cons.1 k1 with rfl | k1
            · rw [e2 P N p m rfl] at k2; cases k2
            · exact .inr ⟨P, N, p, m, k1, k2, k3⟩
      cases e with
      | comments c => cases h1; exact none rfl (fun _ _ _ _ e => nomatch e)
      | enum P N p e => exact none (by rw [apply_enum hge h1]) (fun _ _ _ _ e => nomatch e)
      | method P p v m =>
        obtain ⟨i, o, _, _, rfl⟩ := apply_method hge h1
        exact none rfl (fun _ _ _ _ e => nomatch e)
      | msg P N p m =>
        by_cases hm : m.mapEntry = true
        · rw [apply_map hge hm h1]
          simp only [List.mem_cons]
          constructor
          · rintro ((k | k) | ⟨P', N', p', m', k1, k2⟩)
            · exact .inr ⟨P, N, p, m, .inl rfl, hm, k⟩
            · exact .inl k
            · exact .inr ⟨P', N', p', m', .inr k1, k2⟩
          · rintro (k | ⟨P', N', p', m', k1 | k1, k2, k3⟩)
            · exact .inl (.inr k)
            · cases k1; exact .inl (.inl k3)
            · exact .inr ⟨P', N', p', m', k1, k2, k3⟩
        · obtain ⟨fs, gs, _, rfl⟩ := apply_msg hge (by simpa using hm) h1
          refine none rfl (fun P' N' p' m' e => ?_)
          cases e
          simpa using hm

/-- A field of the query stays. -/
theorem run_query {camel : Text → Text} {q url : Text} {l : List Ev} (hg : ∀ e ∈ l, Good e) (hq : Simple q) (hq' : Verif.Tmpl.predefined q = false)
    {k : Text} (hk : ∀ P p v m, Ev.method P p v m ∈ l → k ≠ methodName P v m.name) {f : Fld} {s s' : St}
    (h : run camel q url l s = .ok s') (hf : ∃ T, At s.cfg.types q T ∧ At T.fields k f) : ∃ T, At s'.cfg.types q T ∧ At T.fields k f := by
  induction l generalizing s with
  | nil => rw [run] at h; cases h; exact hf
  | cons e r ih =>
    rw [run] at h
    split at h
    · cases h
    · next s1 h1 =>
      refine ih (fun x hx => hg x (List.mem_cons_of_mem _ hx)) (fun P p v m hx => hk P p v m (List.mem_cons_of_mem _ hx)) h ?_
      have hge := hg e (by simp)
      cases e with
      | comments c => cases h1; exact hf
      | enum P N p e => rw [apply_enum hge h1]; exact hf
      | msg P N p m =>
        obtain ⟨T, h2, h3⟩ := hf
        refine ⟨T, ?_, h3⟩
        rw [← get_some] at h2 ⊢
        rw [msg_types hge h1 (fun sfx hs e => longName_query hge.1 hge.2 hs hq hq' e.symm)]
        exact h2
      | method P p v m =>
        obtain ⟨i, o, _, _, rfl⟩ := apply_method hge h1
        obtain ⟨T, h2, h3⟩ := hf
        rw [← get_some] at h2
        simp only [Cfg.putQuery, h2]
        refine ⟨_, get_some.1 (by rw [Cfg.putType, get_insert, if_pos rfl]), ?_⟩
        rw [← get_some] at h3 ⊢
        rw [Typ.put, get_insert, if_neg (hk P p v m (by simp))]
        exact h3

end Verif.Proto
