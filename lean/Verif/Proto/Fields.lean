import Verif.Proto.Store

/-!
# What is stored in the end
-/

namespace Verif.Proto

open Verif.Mustache (Text)
open Verif.Exec (Ty)
open Verif.Transform (At Lacks get insert get_some get_none get_insert)

set_option linter.unusedSimpArgs false

theorem nodup_inj {α β : Type} {l : List α} {f : α → β} (h : (l.map f).Nodup) {x y : α} (hx : x ∈ l) (hy : y ∈ l) (e : f x = f y) : x = y := by
  induction l with
  | nil => cases hx
  | cons a r ih =>
    rw [List.map_cons, List.nodup_cons] at h
    rcases List.mem_cons.1 hx with rfl | hx
    · rcases List.mem_cons.1 hy with rfl | hy
      · rfl
      · exact absurd (List.mem_map.2 ⟨y, hy, e.symm⟩) h.1
    · rcases List.mem_cons.1 hy with rfl | hy
      · exact absurd (List.mem_map.2 ⟨x, ‹x ∈ r›, e⟩) h.1
      · exact ih h.2 hx hy

theorem dotted_inj {a b : List Text} (ha : a ≠ []) (hb : b ≠ []) (wa : ∀ t ∈ a, Word t) (wb : ∀ t ∈ b, Word t) (e : dotted a = dotted b) : a = b := by
  rw [← splitDot_dotted a ha (fun t ht c hc => ((wa t ht).plain c hc).1), e, splitDot_dotted b hb (fun t ht c hc => ((wb t ht).plain c hc).1)]

theorem words_snoc {ns : List Text} {n : Text} (h : ∀ t ∈ ns, Proper t) (hn : Proper n) : ∀ t ∈ ns ++ [n], Word t := by
  intro t ht
  rcases List.mem_append.1 ht with ht | ht
  · exact (h t ht).word
  · rw [List.mem_singleton.1 ht]; exact hn.word

/-! ## Where the step of something is in the whole run -/

theorem locate {camel : Text → Text} {q url : Text} {files : List (List Text × FileD)} (hf : Files files) {x : List Text × FileD} (hx : x ∈ files)
    {a b : List Ev} {e : Ev} (hb : bodyEvs x = a ++ e :: b) {s' : St} (h : run camel q url (files.flatMap fileEvs) init = .ok s') :
    ∃ s1 s2 A B, files.flatMap fileEvs = A ++ e :: B ∧ (∀ y ∈ a, y ∈ A) ∧ run camel q url A init = .ok s1 ∧ apply camel q url e s1 = .ok s2 ∧
      run camel q url B s2 = .ok s' ∧ ∀ c, x.2.comments = some c → s1.comments = c := by
  obtain ⟨F1, F2, e1⟩ := List.append_of_mem hx
  have e2 : files.flatMap fileEvs = (F1.flatMap fileEvs ++ (commentEvs x.2.comments ++ a)) ++ e :: (b ++ F2.flatMap fileEvs) := by
    rw [e1, List.flatMap_append, List.flatMap_cons, fileEvs, hb]; simp [List.append_assoc]
  have hg := good_files hf
  rw [e2] at h
  obtain ⟨s1, s2, h1, h2, h3⟩ := run_split h
  refine ⟨s1, s2, _, _, e2, fun y hy => List.mem_append_right _ (List.mem_append_right _ hy), h1, h2, h3, ?_⟩
  intro c hc
  rw [hc] at h1
  have e3 : F1.flatMap fileEvs ++ (commentEvs (some c) ++ a) = F1.flatMap fileEvs ++ Ev.comments c :: a := rfl
  rw [e3] at h1
  obtain ⟨s3, s4, _, h5, h6⟩ := run_split h1
  have hga : ∀ y ∈ a, Good y := by
    intro y hy
    refine hg y ?_
    rw [e2]
    exact List.mem_append_left _ (List.mem_append_right _ (List.mem_append_right _ hy))
  have hqa : ∀ y ∈ a, isComments y = false := by
    intro y hy
    refine body_quiet x y ?_
    rw [hb]
    exact List.mem_append_left _ hy
  rw [run_comments hga hqa h6]
  cases h5
  rfl

theorem other_msg {files : List (List Text × FileD)} (hf : Files files) {A B : List Ev} {P N : List Text} {p : List Nat} {m : MsgD}
    (h : files.flatMap fileEvs = A ++ Ev.msg P N p m :: B) {P' N' : List Text} {p' : List Nat} {m' : MsgD} (h' : Ev.msg P' N' p' m' ∈ B) :
    P ++ N ++ [m.name] ≠ P' ++ N' ++ [m'.name] := by
  have hd := hf.distinct
  rw [← files_asMsg, h, List.filterMap_append, List.filterMap_cons] at hd
  simp only [asMsg, List.map_append, List.map_cons] at hd
  have := (List.nodup_append.1 hd).2.1
  rw [List.nodup_cons] at this
  intro e
  refine this.1 ?_
  rw [List.mem_map]
  exact ⟨(P' ++ N', m'), List.mem_filterMap.2 ⟨_, h', rfl⟩, e.symm⟩

theorem other_enum {files : List (List Text × FileD)} (hf : Files files) {A B : List Ev} {P N : List Text} {p : List Nat} {m : EnumD}
    (h : files.flatMap fileEvs = A ++ Ev.enum P N p m :: B) {P' N' : List Text} {p' : List Nat} {m' : EnumD} (h' : Ev.enum P' N' p' m' ∈ B) :
    P ++ N ++ [m.name] ≠ P' ++ N' ++ [m'.name] := by
  have hd := hf.enumDistinct
  rw [← files_asEnum, h, List.filterMap_append, List.filterMap_cons] at hd
  simp only [asEnum, List.map_append, List.map_cons] at hd
  have := (List.nodup_append.1 hd).2.1
  rw [List.nodup_cons] at this
  intro e
  refine this.1 ?_
  rw [List.mem_map]
  exact ⟨(P' ++ N', m'), List.mem_filterMap.2 ⟨_, h', rfl⟩, e.symm⟩

theorem other_method {files : List (List Text × FileD)} (hf : Files files) {A B : List Ev} {P : List Text} {p : List Nat} {v : Text} {m : MethodD}
    (h : files.flatMap fileEvs = A ++ Ev.method P p v m :: B) {P' : List Text} {p' : List Nat} {v' : Text} {m' : MethodD}
    (h' : Ev.method P' p' v' m' ∈ B) : P ++ [v, m.name] ≠ P' ++ [v', m'.name] := by
  have hd := hf.methodDistinct
  rw [← files_asMethod, h, List.filterMap_append, List.filterMap_cons] at hd
  simp only [asMethod, List.map_append, List.map_cons] at hd
  have := (List.nodup_append.1 hd).2.1
  rw [List.nodup_cons] at this
  intro e
  refine this.1 ?_
  rw [List.mem_map]
  exact ⟨(P', v', m'), List.mem_filterMap.2 ⟨_, h', rfl⟩, e.symm⟩

theorem typeName_inj {ns ns' : List Text} {n n' : Text} (h : ∀ t ∈ ns, Proper t) (hn : Proper n) (h' : ∀ t ∈ ns', Proper t) (hn' : Proper n')
    (e : typeName ns n = typeName ns' n') : ns ++ [n] = ns' ++ [n'] := by
  rw [← longName_nil, ← longName_nil] at e
  exact (longName_inj h hn h' hn' (fun _ h => absurd h List.not_mem_nil) (fun _ h => absurd h List.not_mem_nil) e).1

theorem methodName_inj {ns ns' : List Text} {s s' n n' : Text} (h : ∀ t ∈ ns, Proper t) (hs : Proper s) (hn : Proper n)
    (h' : ∀ t ∈ ns', Proper t) (hs' : Proper s') (hn' : Proper n') (e : methodName ns s n = methodName ns' s' n') :
    ns ++ [s, n] = ns' ++ [s', n'] := by
  rw [methodName, methodName] at e
  have simple : ∀ (l : List Text) (a b : Text), (∀ t ∈ l, Proper t) → Proper a → Proper b → ∀ t ∈ l ++ [a, b], Simple t := by
    intro l a b hl ha hb t ht
    rcases List.mem_append.1 ht with ht | ht
    · exact (hl t ht).simple
    · rcases List.mem_cons.1 ht with rfl | ht
      · exact ha.simple
      · rw [List.mem_singleton.1 ht]; exact hb.simple
  exact inter_inj (by simp) (by simp) (simple _ _ _ h hs hn) (simple _ _ _ h' hs' hn') (List.append_cancel_left e)

/-- The entries of maps known when a message is made: all it refers to are known, and nothing else is. -/
structure Known (files : List (List Text × FileD)) (m : MsgD) (maps : List Text) : Prop where
  used : ∀ ns' m', (ns', m') ∈ messages files → m'.mapEntry = true → ∀ f ∈ m.fields, f.typeName = some ('.' :: dotted (ns' ++ [m'.name])) →
    dotted (ns' ++ [m'.name]) ∈ maps
  only : ∀ t ∈ maps, ∃ ns' m', (ns', m') ∈ messages files ∧ m'.mapEntry = true ∧ t = dotted (ns' ++ [m'.name])

/-- What is stored for a message in the end. -/
theorem stored {camel : Text → Text} {q url : Text} {files : List (List Text × FileD)} (hf : Files files) (hq : Simple q)
    (hq' : Verif.Tmpl.predefined q = false) {x : List Text × FileD} (hx : x ∈ files) {p : List Nat} {ns : List Text} {m : MsgD}
    (hm : MsgAt x p ns m) (hmap : m.mapEntry = false) {cfg : Cfg} (h : fromProto camel q url (files.map (·.2)) = .ok cfg) :
    ∃ fs gs c maps, fieldsOf camel c maps p 0 m.fields ([], List.replicate m.oneofs []) = .ok (fs, gs) ∧
      (∀ c', x.2.comments = some c' → c = c') ∧ Known files m maps ∧
      (m.oneofs = 0 → get cfg.types (typeName ns m.name) = some ⟨fs, [], c p⟩) ∧
      (m.oneofs ≠ 0 → (∀ y ∈ oneofTypes (typeName ns m.name) ⟨fs, [], c p⟩ gs, get cfg.types y.1 = some y.2) ∧
        ((collect gs (typeName ns m.name) ⟨fs, [], c p⟩).length ≠ 1 →
          get cfg.unions (typeName ns m.name) = some ((collect gs (typeName ns m.name) ⟨fs, [], c p⟩).map (·.1)))) := by
  rw [fromProto, ← run_files camel q url files (fun y hy => (hf.package y hy).1)] at h
  cases hr : run camel q url (files.flatMap fileEvs) init with
  | error e => rw [hr] at h; cases h
  | ok s' =>
    rw [hr] at h
    cases h
    have hg := good_files hf
    obtain ⟨N, a, b, e1, e2, e3⟩ := msg_step hm
    obtain ⟨s1, s2, A, B, e4, hsub, h1, h2, h3, h4⟩ := locate hf hx e2 hr
    have hge : Good (.msg x.1 N p m) := hg _ (by rw [e4]; simp)
    have hgB : ∀ e ∈ B, Good e := fun e he => hg e (by rw [e4]; simp [he])
    have hgA : ∀ e ∈ A, Good e := fun e he => hg e (by rw [e4]; simp [he])
    obtain ⟨fs, gs, hfs, hs2⟩ := apply_msg hge hmap h2
    rw [e1]
    have hin : (x.1 ++ N, m) ∈ messages files := messages_iff.2 ⟨x, hx, p, by rw [← e1]; exact hm⟩
    have far : ∀ sfx, (∀ y ∈ sfx, Reserved y) → ∀ P' N' p' m', Ev.msg P' N' p' m' ∈ B → ∀ sfx', (∀ y ∈ sfx', Reserved y) →
        longName (x.1 ++ N) m.name sfx ≠ longName (P' ++ N') m'.name sfx' := by
      intro sfx hs P' N' p' m' hB sfx' hs' e
      have hg' := hgB _ hB
      exact other_msg hf e4 hB (longName_inj hge.1 hge.2 hg'.1 hg'.2 hs hs' e).1
    refine ⟨fs, gs, s1.comments, s1.maps, hfs, h4, ⟨?_, ?_⟩, ?_, ?_⟩
    · intro ns' m' hm' hme f hf' hft
      obtain ⟨k1, k2⟩ := hf.maps (ns', m') hm' hme (x.1 ++ N, m) hin hmap f hf' hft
      obtain ⟨p', hp'⟩ := e3 hmap m' k1
      refine (run_maps hgA h1 _).2 (.inr ⟨x.1, N ++ [m.name], p', m', hsub _ hp', hme, ?_⟩)
      simp only at k2
      rw [k2]
      simp [List.append_assoc]
    · intro t ht
      rcases (run_maps hgA h1 t).1 ht with k | ⟨P', N', p', m', k1, k2, k3⟩
      · cases k
      · refine ⟨P' ++ N', m', ?_, k2, k3⟩
        rw [← files_asMsg, e4]
        exact List.mem_filterMap.2 ⟨_, List.mem_append_left _ k1, rfl⟩
    · intro ho
      rw [← longName_nil, run_types hgB (longName_query hge.1 hge.2 (fun _ h => absurd h List.not_mem_nil) hq hq') (far [] (fun _ h => absurd h List.not_mem_nil)) h3, hs2]
      simp only [if_pos ho, Cfg.putType, longName_nil]
      rw [get_insert, if_pos rfl]
    · intro ho
      have hcfg : s2.cfg = insertOneofs (typeName (x.1 ++ N) m.name) ⟨fs, [], s1.comments p⟩ gs s1.cfg := by rw [hs2]; simp only [if_neg ho]
      constructor
      · intro y hy
        obtain ⟨sfx, k1, k2⟩ := oneofTypes_names (ns := x.1 ++ N) (n := m.name) _ _ y hy
        have : get s'.cfg.types y.1 = get s2.cfg.types y.1 := by
          rw [k2]
          exact run_types hgB (longName_query hge.1 hge.2 k1 hq hq') (far sfx k1) h3
        rw [this, hcfg, insertOneofs_eq]
        exact putAll_in _ _ (oneofTypes_nodup hge.1 hge.2 _ _) y hy
      · intro hl
        have hu : get s'.cfg.unions (typeName (x.1 ++ N) m.name) = get s2.cfg.unions (typeName (x.1 ++ N) m.name) := by
          refine run_unions hgB (fun P' N' p' m' hB e => ?_) h3
          rw [← longName_nil, ← longName_nil] at e
          exact far [] (fun _ h => absurd h List.not_mem_nil) P' N' p' m' hB [] (fun _ h => absurd h List.not_mem_nil) e
        rw [hu, hcfg, insertOneofs_eq]
        simp only [if_neg hl]
        rw [get_insert, if_pos rfl]

theorem stored_enum {camel : Text → Text} {q url : Text} {files : List (List Text × FileD)} (hf : Files files) {x : List Text × FileD}
    (hx : x ∈ files) {p : List Nat} {ns : List Text} {m : EnumD} (hm : EnumAt x p ns m) {cfg : Cfg}
    (h : fromProto camel q url (files.map (·.2)) = .ok cfg) :
    ∃ c, (∀ c', x.2.comments = some c' → c = c') ∧ get cfg.enums (typeName ns m.name) = some ⟨variants c p 0 m.values, c p⟩ := by
  rw [fromProto, ← run_files camel q url files (fun y hy => (hf.package y hy).1)] at h
  cases hr : run camel q url (files.flatMap fileEvs) init with
  | error e => rw [hr] at h; cases h
  | ok s' =>
    rw [hr] at h
    cases h
    have hg := good_files hf
    obtain ⟨N, a, b, e1, e2⟩ := enum_step hm
    obtain ⟨s1, s2, A, B, e4, hsub, h1, h2, h3, h4⟩ := locate hf hx e2 hr
    have hge : Good (.enum x.1 N p m) := hg _ (by rw [e4]; simp)
    have hgB : ∀ e ∈ B, Good e := fun e he => hg e (by rw [e4]; simp [he])
    have hs2 := apply_enum hge h2
    refine ⟨s1.comments, h4, ?_⟩
    have : get s'.cfg.enums (typeName ns m.name) = get s2.cfg.enums (typeName ns m.name) := by
      refine run_enumsFrame hgB (fun P' N' p' m' hB e => ?_) h3
      have hg' := hgB _ hB
      rw [e1] at e
      exact other_enum hf e4 hB (typeName_inj hge.1 hge.2 hg'.1 hg'.2 e)
    rw [this, hs2, e1]
    simp only
    rw [get_insert, if_pos rfl]

theorem stored_method {camel : Text → Text} {q url : Text} {files : List (List Text × FileD)} (hf : Files files) (hq : Simple q)
    (hq' : Verif.Tmpl.predefined q = false) {x : List Text × FileD} (hx : x ∈ files) {p : List Nat} {v : Text} {m : MethodD}
    (hm : MethodAt x p v m) {cfg : Cfg} (h : fromProto camel q url (files.map (·.2)) = .ok cfg) :
    ∃ c i o T, (∀ c', x.2.comments = some c' → c = c') ∧ inputType m.input = .ok i ∧ outputType m.output = .ok o ∧ At cfg.types q T ∧
      At T.fields (methodName x.1 v m.name) ⟨.named (parse o).object false, (argument camel i).1,
        some ⟨url, (argument camel i).2, dotted (x.1 ++ [v, m.name])⟩, c p⟩ := by
  rw [fromProto, ← run_files camel q url files (fun y hy => (hf.package y hy).1)] at h
  cases hr : run camel q url (files.flatMap fileEvs) init with
  | error e => rw [hr] at h; cases h
  | ok s' =>
    rw [hr] at h
    cases h
    have hg := good_files hf
    obtain ⟨a, b, e2⟩ := method_step hm
    obtain ⟨s1, s2, A, B, e4, hsub, h1, h2, h3, h4⟩ := locate hf hx e2 hr
    have hge : Good (.method x.1 p v m) := hg _ (by rw [e4]; simp)
    have hgB : ∀ e ∈ B, Good e := fun e he => hg e (by rw [e4]; simp [he])
    obtain ⟨i, o, hi, ho, hs2⟩ := apply_method hge h2
    have hfin := run_query hgB hq hq' (k := methodName x.1 v m.name) (f := ⟨.named (parse o).object false, (argument camel i).1,
        some ⟨url, (argument camel i).2, dotted (x.1 ++ [v, m.name])⟩, s1.comments p⟩) (fun P' p' v' m' hB e => ?_) h3 ?_
    · obtain ⟨T, k1, k2⟩ := hfin
      exact ⟨s1.comments, i, o, T, h4, hi, ho, k1, k2⟩
    · have hg' := hgB _ hB
      exact other_method hf e4 hB (methodName_inj hge.1 hge.2.1 hge.2.2 hg'.1 hg'.2.1 hg'.2.2 e)
    · rw [hs2]
      simp only [Cfg.putQuery]
      split
      · exact ⟨_, get_some.1 (by rw [Cfg.putType, get_insert, if_pos rfl]), get_some.1 (by rw [Typ.put, get_insert, if_pos rfl])⟩
      · exact ⟨_, get_some.1 (by simp only [Cfg.putType]; rw [get_insert, if_pos rfl]), get_some.1 (by rw [Typ.put, get_insert, if_pos rfl])⟩

/-! ## Fields -/

theorem withName_labelled (l : Label) (n : Text) : Verif.Transform.withName n (labelled l) = wrapped l n := by cases l <;> rfl

/-- The type that is given to a field is the one it should have. -/
theorem fieldType_spec {files : List (List Text × FileD)} (hf : Files files) {m : MsgD} {maps : List Text} (hk : Known files m maps) {f : FieldD}
    (hfm : f ∈ m.fields) {t t' : Ty} (h : FieldTy files f t) (h' : fieldType maps f = .ok t') : t' = t := by
  have words : ∀ ns' m', (ns', m') ∈ messages files → ∀ t ∈ ns' ++ [m'.name], Word t :=
    fun ns' m' hm' => words_snoc (hf.names _ hm').1 (hf.names _ hm').2
  have notMap : ∀ (a : List Text), a ≠ [] → (∀ t ∈ a, Word t) → (∀ ns' m', (ns', m') ∈ messages files → m'.mapEntry = true → a ≠ ns' ++ [m'.name]) →
      maps.contains (dotted a) = false := by
    intro a h0 hw hne
    cases hc : maps.contains (dotted a) with
    | false => rfl
    | true =>
      rw [List.contains_iff_mem] at hc
      obtain ⟨ns', m', k1, k2, k3⟩ := hk.only _ hc
      exact absurd (dotted_inj h0 (by simp) hw (words ns' m' k1) k3) (hne ns' m' k1 k2)
  rw [fieldType] at h'
  cases h with
  | scalar h hs =>
    rw [h] at h'
    rw [← Except.ok.inj h', withName_labelled]
    congr 1
    revert hs
    cases f.prim <;> intro hs <;> cases hs <;> rfl
  | @map ns m' hm' hme h =>
    rw [h] at h'
    have := hk.used ns m' hm' hme f hfm h
    simp only at h'
    rw [if_pos (List.contains_iff_mem.2 this)] at h'
    exact (Except.ok.inj h').symm
  | @message ns m' hm' hme h =>
    rw [h] at h'
    simp only at h'
    rw [notMap (ns ++ [m'.name]) (by simp) (words ns m' hm')] at h'
    · obtain ⟨u, k1, k2⟩ := fromRef_dotted (fun t ht => ((hf.names _ hm').1 t ht).word) (hf.names _ hm').2.word
      rw [if_neg (by simp), k1] at h'
      simp only [k2] at h'
      rw [← Except.ok.inj h', withName_labelled, object_eq]
    · intro ns'' m'' k1 k2 e
      have := nodup_inj hf.distinct hm' k1 e
      cases this
      rw [hme] at k2
      cases k2
  | @enum ns e' he' h =>
    rw [h] at h'
    simp only at h'
    rw [notMap (ns ++ [e'.name]) (by simp) (words_snoc (hf.enumNames _ he').1 (hf.enumNames _ he').2)] at h'
    · obtain ⟨u, k1, k2⟩ := fromRef_dotted (fun t ht => ((hf.enumNames _ he').1 t ht).word) (hf.enumNames _ he').2.word
      rw [if_neg (by simp), k1] at h'
      simp only [k2] at h'
      rw [← Except.ok.inj h', withName_labelled, object_eq]
    · intro ns'' m'' k1 k2 e
      exact hf.kinds _ k1 _ he' e.symm

/-- The name of a field. -/
def fieldName (camel : Text → Text) (f : FieldD) : Text := camel (parse ⟨f.name, []⟩).name

theorem fieldName_word (camel : Text → Text) {f : FieldD} (h : Word f.name) : fieldName camel f = camel f.name := by
  rw [fieldName, parse]
  simp only [head_word h]

theorem putGroup_at {o : Nat} {x : Text × Fld} {gs gs' : List (List (Text × Fld))} (h : putGroup o x gs = some gs') :
    gs'.length = gs.length ∧ o < gs.length ∧ ∀ j g, gs[j]? = some g → gs'[j]? = some (if j = o then g ++ [x] else g) := by
  induction gs generalizing o gs' with
  | nil => cases o <;> cases h
  | cons g r ih =>
    cases o with
    | zero =>
      rw [putGroup] at h
      cases h
      refine ⟨rfl, by simp, ?_⟩
      intro j g' hj
      cases j with
      | zero => simp only [List.getElem?_cons_zero, Option.some.injEq] at hj ⊢; rw [hj]; simp
      | succ j => simp only [List.getElem?_cons_succ] at hj ⊢; rw [hj]; simp
    | succ o =>
      rw [putGroup] at h
      cases hp : putGroup o x r with
      | none => rw [hp] at h; cases h
      | some r' =>
        rw [hp] at h
        cases h
        obtain ⟨k1, k2, k3⟩ := ih hp
        refine ⟨by simp [k1], by simp; exact k2, ?_⟩
        intro j g' hj
        cases j with
        | zero => simp only [List.getElem?_cons_zero, Option.some.injEq] at hj ⊢; rw [hj]; simp
        | succ j =>
          simp only [List.getElem?_cons_succ] at hj ⊢
          rw [k3 j g' hj]
          simp

/-- What `fieldsOf` makes of fields. -/
theorem fieldsOf_made {camel : Text → Text} {c : Comments} {maps : List Text} {p : List Nat} {i : Nat} {fields : List FieldD}
    {fs0 fs : List (Text × Fld)} {gs0 gs : List (List (Text × Fld))} (h : fieldsOf camel c maps p i fields (fs0, gs0) = .ok (fs, gs)) :
    ∃ l : List (FieldD × Fld), l.map (·.1) = fields ∧
      (∀ j f fd, l[j]? = some (f, fd) → fieldType maps f = .ok fd.ty ∧ fd.doc = c (p ++ [2, i + j])) ∧
      fs = (l.filter (fun x => x.1.oneof.isNone)).foldl (fun a x => insert a (fieldName camel x.1) x.2) fs0 ∧ gs.length = gs0.length ∧
      (∀ f ∈ fields, ∀ o, f.oneof = some o → o < gs0.length) ∧
      ∀ o g0, gs0[o]? = some g0 → gs[o]? = some (g0 ++ (l.filter (fun x => x.1.oneof = some o)).map (fun x => (fieldName camel x.1, x.2))) := by
  induction fields generalizing i fs0 gs0 with
  | nil =>
    rw [fieldsOf] at h
    cases h
    exact ⟨[], rfl, (fun j f fd h => by cases h), rfl, rfl, (fun _ h => absurd h List.not_mem_nil), fun o g0 h => by rw [h]; simp⟩
  | cons f r ih =>
    rw [fieldsOf] at h
    split at h
    · cases h
    · next t ht =>
      split at h
      · next ho =>
        obtain ⟨l, e1, e2, e3, e4, e5, e6⟩ := ih h
        refine ⟨(f, ⟨t, [], none, c (p ++ [2, i])⟩) :: l, by simp [e1], ?_, ?_, e4, ?_, ?_⟩
        · intro j f' fd hj
          cases j with
          | zero =>
            simp only [List.getElem?_cons_zero, Option.some.injEq, Prod.mk.injEq] at hj
            obtain ⟨rfl, rfl⟩ := hj
            exact ⟨ht, rfl⟩
          | succ j =>
            simp only [List.getElem?_cons_succ] at hj
            have := e2 j f' fd hj
            have e : i + 1 + j = i + (j + 1) := by omega
            rw [e] at this
            exact this
        · rw [List.filter_cons_of_pos (by simp [ho]), List.foldl_cons]
          exact e3
        · intro f' hf' o ho'
          rcases List.mem_cons.1 hf' with rfl | hf'
          · rw [ho] at ho'; cases ho'
          · exact e5 f' hf' o ho'
        · intro o g0 hg
          rw [List.filter_cons_of_neg (by simp [ho])]
          exact e6 o g0 hg
      · next o ho =>
        split at h
        · cases h
        · next gs1 hp =>
          obtain ⟨k1, k2, k3⟩ := putGroup_at hp
          obtain ⟨l, e1, e2, e3, e4, e5, e6⟩ := ih h
          refine ⟨(f, ⟨t, [], none, c (p ++ [2, i])⟩) :: l, by simp [e1], ?_, ?_, by rw [e4, k1], ?_, ?_⟩
          · intro j f' fd hj
            cases j with
            | zero =>
              simp only [List.getElem?_cons_zero, Option.some.injEq, Prod.mk.injEq] at hj
              obtain ⟨rfl, rfl⟩ := hj
              exact ⟨ht, rfl⟩
            | succ j =>
              simp only [List.getElem?_cons_succ] at hj
              have := e2 j f' fd hj
              have e : i + 1 + j = i + (j + 1) := by omega
              rw [e] at this
              exact this
          · rw [List.filter_cons_of_neg (by simp [ho])]
            exact e3
          · intro f' hf' o' ho'
            rcases List.mem_cons.1 hf' with rfl | hf'
            · rw [ho] at ho'; cases ho'; exact k2
            · rw [← k1]; exact e5 f' hf' o' ho'
          · intro o' g0 hg
            have := e6 o' _ (k3 o' g0 hg)
            by_cases hoo : o' = o
            · subst hoo
              rw [if_pos rfl] at this
              rw [List.filter_cons_of_pos (by simp [ho]), this]
              simp [fieldName]
            · rw [if_neg hoo] at this
              rw [List.filter_cons_of_neg (by simp [ho]; exact fun e => hoo e.symm), this]

/-! ## Inserting fields -/

/-- Insert fields one by one. -/
def putFields (l : List (Text × Fld)) (fs : List (Text × Fld)) : List (Text × Fld) := l.foldl (fun a x => insert a x.1 x.2) fs

theorem putFields_get (l fs : List (Text × Fld)) (h : (l.map (·.1)).Nodup) (k : Text) (fd : Fld) :
    At (putFields l fs) k fd ↔ (k, fd) ∈ l ∨ k ∉ l.map (·.1) ∧ At fs k fd := by
  induction l generalizing fs with
  | nil => simp [putFields]
  | cons x r ih =>
    rw [List.map_cons, List.nodup_cons] at h
    show At (putFields r (insert fs x.1 x.2)) k fd ↔ _
    rw [ih _ h.2, ← get_some, get_insert]
    simp only [List.mem_cons, List.map_cons, not_or]
    by_cases hk : k = x.1
    · subst hk
      rw [if_pos rfl]
      constructor
      · rintro (k1 | ⟨k1, k2⟩)
        · exact absurd (List.mem_map.2 ⟨_, k1, rfl⟩) h.1
        · cases k2; exact .inl (.inl rfl)
      · rintro ((k1 | k1) | k1)
        · exact .inr ⟨h.1, by rw [← k1]⟩
        · exact absurd (List.mem_map.2 ⟨_, k1, rfl⟩) h.1
        · exact absurd rfl k1.1.1
    · rw [if_neg hk, get_some]
      constructor
      · rintro (k1 | ⟨k1, k2⟩)
        · exact .inl (.inr k1)
        · exact .inr ⟨⟨hk, k1⟩, k2⟩
      · rintro ((k1 | k1) | k1)
        · exact absurd (congrArg Prod.fst k1) hk
        · exact .inl k1
        · exact .inr ⟨k1.1.2, k1.2⟩

end Verif.Proto
