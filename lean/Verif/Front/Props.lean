import Verif.Front.Model

/-!
# Properties of the HTTP front end: C45 - C48, C73
-/

set_option linter.unusedSimpArgs false

namespace Verif.Front
open Verif.Mustache (Text Template)
open Verif.HttpKey (HMap valuesOf setHeaders insertAll rendered)
open Verif.HttpUrl (RCtx ReqTemplate)

/-! ## C45: allow-listed headers -/

/-- The same ASCII letter, up to case. -/
def SameLetter (a b : Char) : Prop :=
  a = b ∨ (65 ≤ a.toNat ∧ a.toNat ≤ 90 ∧ b.toNat = a.toNat + 32)
    ∨ (65 ≤ b.toNat ∧ b.toNat ≤ 90 ∧ a.toNat = b.toNat + 32)

/-- The same header name: names are not case sensitive. -/
inductive SameName : Text → Text → Prop where
  | nil : SameName [] []
  | cons {a b : Char} {s t : Text} (h : SameLetter a b) (hr : SameName s t) : SameName (a :: s) (b :: t)

theorem toNat_lower (c : Char) :
    (lower c).toNat = if 65 ≤ c.toNat ∧ c.toNat ≤ 90 then c.toNat + 32 else c.toNat := by
  have h1 : ('A' ≤ c) ↔ 65 ≤ c.toNat := by
    rw [Char.le_def, UInt32.le_iff_toNat_le]; rfl
  have h2 : (c ≤ 'Z') ↔ c.toNat ≤ 90 := by
    rw [Char.le_def, UInt32.le_iff_toNat_le]; rfl
  unfold lower
  by_cases h : 65 ≤ c.toNat ∧ c.toNat ≤ 90
  · rw [if_pos ⟨h1.mpr h.1, h2.mpr h.2⟩, if_pos h]
    have hv : (c.toNat + 32).isValidChar := Or.inl (by omega)
    unfold Char.ofNat
    rw [dif_pos hv]
    rfl
  · rw [if_neg (fun hc => h ⟨h1.mp hc.1, h2.mp hc.2⟩), if_neg h]

theorem char_ext {a b : Char} (h : a.toNat = b.toNat) : a = b := by
  apply Char.ext
  exact UInt32.toNat_inj.mp h

theorem lower_eq_iff (a b : Char) : lower a = lower b ↔ SameLetter a b := by
  have ha := toNat_lower a
  have hb := toNat_lower b
  constructor
  · intro h
    rw [h, hb] at ha
    unfold SameLetter
    by_cases h1 : 65 ≤ a.toNat ∧ a.toNat ≤ 90 <;> by_cases h2 : 65 ≤ b.toNat ∧ b.toNat ≤ 90
    · rw [if_pos h1, if_pos h2] at ha
      exact Or.inl (char_ext (by omega))
    · rw [if_pos h1, if_neg h2] at ha
      exact Or.inr (Or.inl ⟨h1.1, h1.2, ha⟩)
    · rw [if_neg h1, if_pos h2] at ha
      exact Or.inr (Or.inr ⟨h2.1, h2.2, by omega⟩)
    · rw [if_neg h1, if_neg h2] at ha
      exact Or.inl (char_ext ha.symm)
  · intro h
    apply char_ext
    rw [ha, hb]
    rcases h with rfl | ⟨h1, h2, h3⟩ | ⟨h1, h2, h3⟩
    · rfl
    · rw [if_pos ⟨h1, h2⟩, if_neg (by omega)]; omega
    · rw [if_neg (by omega), if_pos ⟨h1, h2⟩]; omega

theorem eqIgnoreCase_iff (a b : Text) : eqIgnoreCase a b = true ↔ SameName a b := by
  unfold eqIgnoreCase
  rw [beq_iff_eq]
  constructor
  · intro h
    induction a generalizing b with
    | nil => cases b with
      | nil => exact .nil
      | cons _ _ => simp at h
    | cons x xs ih => cases b with
      | nil => simp at h
      | cons y ys =>
        simp only [List.map_cons, List.cons.injEq] at h
        exact .cons ((lower_eq_iff x y).mp h.1) (ih ys h.2)
  · intro h
    induction h with
    | nil => rfl
    | cons h _ ih => simp only [List.map_cons, ih, (lower_eq_iff _ _).mpr h]

theorem any_iff (allowed : List Text) (n : Text) :
    allowed.any (fun a => eqIgnoreCase a n) = true ↔ ∃ a ∈ allowed, SameName a n := by
  rw [List.any_eq_true]
  exact exists_congr (fun a => and_congr_right (fun _ => eqIgnoreCase_iff a n))

theorem allowLoop_sound (allowed : List Text) (hs : List (Text × Text)) (h : HMap) (n v : Text)
    (hv : v ∈ allowLoop allowed hs h n) :
    v ∈ h n ∨ ((n, v) ∈ hs ∧ ∃ a ∈ allowed, SameName a n) := by
  induction hs generalizing h with
  | nil => exact Or.inl hv
  | cons kv r ih =>
    obtain ⟨k, w⟩ := kv
    rcases ih _ hv with h' | ⟨h1, h2⟩
    · split at h'
      · rename_i hc
        unfold HMap.insert at h'
        split at h'
        · rename_i hn
          rw [List.mem_singleton] at h'
          subst hn; subst h'
          exact Or.inr ⟨List.mem_cons_self, (any_iff allowed n).mp hc⟩
        · exact Or.inl h'
      · exact Or.inl h'
    · exact Or.inr ⟨List.mem_cons_of_mem _ h1, h2⟩

/-- **C45**, first half: a header that templates and upstream requests can see is in the allow list, in
any case, and the client sent it with that value. -/
theorem C45_only_allowed (hs : List (Text × Text)) (allowed : List Text) (n v : Text)
    (h : v ∈ createAllowed hs allowed n) : (n, v) ∈ hs ∧ ∃ a ∈ allowed, SameName a n := by
  rcases allowLoop_sound allowed hs _ n v h with h | h
  · cases h
  · exact h

theorem allowLoop_other (allowed : List Text) (hs : List (Text × Text)) (h : HMap) (n : Text)
    (hn : ∀ v, (n, v) ∉ hs) : allowLoop allowed hs h n = h n := by
  induction hs generalizing h with
  | nil => rfl
  | cons kv r ih =>
    obtain ⟨k, w⟩ := kv
    have hk : n ≠ k := fun he => hn w (he ▸ List.mem_cons_self)
    rw [allowLoop, ih _ (fun v hv => hn v (List.mem_cons_of_mem _ hv))]
    split
    · simp [HMap.insert, hk]
    · rfl

theorem allowLoop_append (allowed : List Text) (a b : List (Text × Text)) (h : HMap) :
    allowLoop allowed (a ++ b) h = allowLoop allowed b (allowLoop allowed a h) := by
  induction a generalizing h with
  | nil => rfl
  | cons kv r ih => obtain ⟨k, w⟩ := kv; exact ih _

/-- **C45**, second half, as far as it holds: an allow-listed header that was sent is visible, with the
value of its *last* occurrence; the full statement wants every value (see
`C45_violated_by_repeated_header`). -/
theorem C45_all_allowed_partial (pre post : List (Text × Text)) (allowed : List Text) (n v a : Text)
    (ha : a ∈ allowed) (hs : SameName a n) (hlast : ∀ w, (n, w) ∉ post) :
    createAllowed (pre ++ (n, v) :: post) allowed n = [v] := by
  unfold createAllowed
  rw [allowLoop_append]
  show allowLoop allowed post (if _ then _ else _) n = [v]
  rw [allowLoop_other _ _ _ _ hlast, if_pos ((any_iff allowed n).mpr ⟨a, ha, hs⟩)]
  simp [HMap.insert]

/-- Names with different letters are different header names; `X-Id` is `x-id`. -/
example : SameName "X-Id".toList "x-id".toList ∧ ¬ SameName "x-ie".toList "x-id".toList :=
  ⟨(eqIgnoreCase_iff _ _).mp (by decide), fun h => by
    have := (eqIgnoreCase_iff _ _).mpr h; revert this; decide⟩

/-- A client that sends an allow-listed header, in lower case on the wire, and one that is not listed. -/
example : createAllowed ([("cookie".toList, "s=1".toList)] ++ ("x-id".toList, "7".toList) :: [])
      ["X-Id".toList] "x-id".toList = ["7".toList]
    ∧ createAllowed [("cookie".toList, "s=1".toList), ("x-id".toList, "7".toList)]
      ["X-Id".toList] "cookie".toList = [] :=
  ⟨C45_all_allowed_partial _ _ _ _ _ "X-Id".toList (by simp) ((eqIgnoreCase_iff _ _).mp (by decide))
    (by simp), rfl⟩

/-- **C45 is violated** when a header is sent more than once: all values but the last are dropped. -/
theorem C45_violated_by_repeated_header :
    ∃ (hs : List (Text × Text)) (allowed : List Text) (n v : Text), (n, v) ∈ hs ∧ n ∈ allowed
      ∧ v ∉ createAllowed hs allowed n :=
  ⟨[("x-tag".toList, "a".toList), ("x-tag".toList, "b".toList)], ["x-tag".toList], "x-tag".toList,
    "a".toList, by simp, by simp, by decide⟩

/-- **C45 is violated** with authentication: `authorization` becomes visible to every upstream although
the configured list does not have it. -/
theorem C45_violated_by_forced_authorization :
    ∃ (configured : List Text) (hs : List (Text × Text)) (n v : Text),
      (¬ ∃ a ∈ configured, SameName a n)
      ∧ v ∈ createAllowed hs (blueprintAllowed configured true) n :=
  ⟨["x-id".toList], [("authorization".toList, "Basic c2VjcmV0".toList)], "authorization".toList,
    "Basic c2VjcmV0".toList, by
      rw [← any_iff]; decide, by decide⟩

/-- **C45** for configured lists: without authentication exactly the configured names, with it also
`authorization`. -/
theorem C45_blueprint_partial (configured : List Text) (auth : Bool) (hs : List (Text × Text)) (n v : Text)
    (h : v ∈ createAllowed hs (blueprintAllowed configured auth) n) :
    (n, v) ∈ hs ∧ ((∃ a ∈ configured, SameName a n) ∨ (auth = true ∧ SameName authorization n)) := by
  obtain ⟨h1, a, ha, hn⟩ := C45_only_allowed _ _ _ _ h
  refine ⟨h1, ?_⟩
  unfold blueprintAllowed at ha
  split at ha
  · rename_i hauth
    rcases List.mem_cons.mp ha with rfl | ha
    · exact Or.inr ⟨hauth, hn⟩
    · exact Or.inl ⟨a, ha, hn⟩
  · exact Or.inl ⟨a, ha, hn⟩

theorem insertAll_other (l : List (Text × Text)) (h : HMap) (n : Text) (hn : ∀ kv ∈ l, kv.1 ≠ n) :
    insertAll h l n = h n := by
  unfold insertAll
  induction l generalizing h with
  | nil => rfl
  | cons kv r ih =>
    rw [List.foldl_cons, ih _ (fun x hx => hn x (List.mem_cons_of_mem _ hx))]
    split
    · simp [HMap.insert, Ne.symm (hn kv List.mem_cons_self)]
    · rfl

/-- **C45** at the upstream: a header of an upstream HTTP request that the resolver does not configure
itself was sent by the client and is allow-listed. -/
theorem C45_upstream_request (hs : List (Text × Text)) (allowed : List Text) (t : ReqTemplate) (ctx : RCtx)
    (hctx : ∀ n, valuesOf ctx.headers n = createAllowed hs allowed n) (n v : Text)
    (hn : ∀ kv ∈ t.headers, kv.1 ≠ n) (hct : n ≠ "content-type".toList)
    (h : v ∈ setHeaders t ctx n) : (n, v) ∈ hs ∧ ∃ a ∈ allowed, SameName a n := by
  unfold setHeaders at h
  simp only [HMap.extend] at h
  split at h
  · exfalso
    have h0 : insertAll HMap.empty (rendered t.headers (fun m => Verif.Mustache.render m ctx.str)) n = [] := by
      rw [insertAll_other]
      · rfl
      · intro kv hkv
        unfold rendered at hkv
        obtain ⟨x, hx, rfl⟩ := List.mem_map.mp hkv
        exact hn x hx
    split at h
    · rw [h0] at h; cases h
    · have h1 : n ≠ Verif.HttpKey.contentType := hct
      simp only [HMap.insert, if_neg h1, h0] at h
      cases h
  · rw [hctx] at h
    exact C45_only_allowed _ _ _ _ h

/-! ## C46: CORS -/

theorem corsOf_spec {k : CorsConfig} {c : Cors} (h : corsOf k = some c) :
    c.allowCredentials = k.allowCredentials.getD false ∧ k.allowOrigins = c.allowOrigins
      ∧ c.allowMethods = some (if k.allowMethods.isEmpty then wildcard else joinComma k.allowMethods)
      ∧ c.allowHeaders = (if k.allowHeaders.isEmpty then none else some (joinComma k.allowHeaders))
      ∧ c.exposeHeaders = some (joinComma k.exposeHeaders)
      ∧ k.vary = c.vary ∧ usable c = true := by
  have hm : ∀ (l r : List Text), l.mapM parseHeader = some r → l = r := by
    intro l
    induction l with
    | nil => intro r h; simp at h; exact h.symm ▸ rfl
    | cons x xs ih =>
      intro r h
      rw [List.mapM_cons] at h
      cases hx : parseHeader x with
      | none => rw [hx] at h; cases h
      | some y =>
        rw [hx] at h
        cases hxs : xs.mapM parseHeader with
        | none => rw [hxs] at h; cases h
        | some ys =>
          rw [hxs] at h
          have hr : r = y :: ys := by injection h with h; exact h.symm
          have hy : y = x := by
            unfold parseHeader at hx
            split at hx
            · injection hx with hx; exact hx.symm
            · cases hx
          rw [hr, hy, ih ys hxs]
  have hp : ∀ {s t : Text}, parseHeader s = some t → t = s := by
    intro s t h
    unfold parseHeader at h
    split at h
    · injection h with h; exact h.symm
    · cases h
  unfold corsOf at h
  simp only [Option.bind_eq_bind, Option.bind_eq_some_iff] at h
  obtain ⟨hs, h1, ms, h2, os, h3, es, h4, vs, h5, h6⟩ := h
  revert h6
  generalize hah : (if k.allowHeaders.isEmpty = true then none else some hs : Option Text) = ah
  intro h6
  split at h6
  · rename_i hu
    injection h6 with h6
    subst h6
    refine ⟨rfl, hm _ _ h3, ?_, ?_, ?_, hm _ _ h5, hu⟩
    · show some ms = _
      unfold methodsOf at h2
      split at h2
      · rename_i he; rw [if_pos he, hp h2]
      · rename_i he; rw [if_neg he, hp h2]
    · show ah = _
      rw [← hah, hp h1]
    · show some es = _
      rw [hp h4]
  · cases h6

/-- An origin the configuration names. -/
def Listed (k : CorsConfig) (o : Text) : Prop := o ∈ k.allowOrigins

theorem originHeader_spec {c : Cors} {o : Option Text} {kv : Text × Text}
    (h : c.originHeader o = some kv) : kv.1 = acao ∧ o = some kv.2
      ∧ (kv.2 ∈ c.allowOrigins ∨ ['*'] ∈ c.allowOrigins) := by
  unfold Cors.originHeader at h
  split at h
  · rename_i hw
    cases o with
    | none => cases h
    | some x =>
      injection h with h
      subst h
      refine ⟨rfl, rfl, Or.inr ?_⟩
      obtain ⟨w, hw1, hw2⟩ := List.any_eq_true.mp hw
      have : w = ['*'] := by simpa [isWildcard, wildcard] using hw2
      exact this ▸ hw1
  · cases o with
    | none => cases h
    | some x =>
      by_cases hx : x ∈ c.allowOrigins
      · simp [Option.filter, hx] at h
        subst h
        exact ⟨rfl, rfl, Or.inl hx⟩
      · simp [Option.filter, hx] at h

theorem neTrans {a b c : Text} (h : a = b) (h' : b ≠ c) : a ≠ c := h ▸ h'

theorem acao_ne : acao ≠ acac ∧ acao ≠ acapn ∧ acao ≠ varyName ∧ acao ≠ acam ∧ acao ≠ acah ∧ acao ≠ acma
    ∧ acao ≠ aceh := by decide

theorem acac_ne : acac ≠ acao ∧ acac ≠ acapn ∧ acac ≠ varyName ∧ acac ≠ acam ∧ acac ≠ acah ∧ acac ≠ acma
    ∧ acac ≠ aceh := by decide

theorem put_other (h : HMap) (o : Option (Text × Text)) (n : Text) (hn : ∀ kv, o = some kv → kv.1 ≠ n) :
    put h o n = h n := by
  cases o with
  | none => rfl
  | some kv =>
    obtain ⟨k, v⟩ := kv
    simp [put, Ne.symm (hn _ rfl)]

theorem put_fresh (o : Option (Text × Text)) (n : Text) :
    put HMap.empty o n = (o.filter (fun kv => kv.1 = n)).toList.map Prod.snd := by
  cases o with
  | none => rfl
  | some kv =>
    obtain ⟨k, v⟩ := kv
    by_cases h : n = k
    · subst h; simp [put, HMap.empty, Option.filter]
    · simp [put, HMap.empty, Option.filter, h, Ne.symm h]

theorem credentialsHeader_name (c : Cors) : ∀ kv, c.credentialsHeader = some kv → kv.1 = acac := by
  intro kv h
  unfold Cors.credentialsHeader at h
  split at h <;> cases h
  rfl

theorem privateHeader_name (c : Cors) (r : Req) : ∀ kv, c.privateHeader r = some kv → kv.1 = acapn := by
  intro kv h
  unfold Cors.privateHeader at h
  split at h <;> cases h
  rfl

theorem varyHeader_name (c : Cors) : ∀ kv, c.varyHeader = some kv → kv.1 = varyName := by
  intro kv h
  unfold Cors.varyHeader at h
  split at h <;> cases h
  rfl

theorem map_name {o : Option Text} {n : Text} :
    ∀ kv, o.map (fun v => (n, v)) = some kv → kv.1 = n := by
  intro kv h
  cases o <;> cases h
  rfl

theorem common_acao (c : Cors) (r : Req) :
    c.common r acao = ((c.originHeader (first r.headers originName)).map Prod.snd).toList := by
  unfold Cors.common
  rw [put_other _ _ _ (fun kv h => neTrans (varyHeader_name c kv h) acao_ne.2.2.1.symm),
    put_other _ _ _ (fun kv h => neTrans (privateHeader_name c r kv h) acao_ne.2.1.symm),
    put_other _ _ _ (fun kv h => neTrans (credentialsHeader_name c kv h) acao_ne.1.symm), put_fresh]
  cases h : c.originHeader (first r.headers originName) with
  | none => rfl
  | some kv => simp [Option.filter, (originHeader_spec h).1]

theorem common_acac (c : Cors) (r : Req) :
    c.common r acac = if c.allowCredentials then [trueText] else [] := by
  unfold Cors.common
  rw [put_other _ _ _ (fun kv h => neTrans (varyHeader_name c kv h) acac_ne.2.2.1.symm),
    put_other _ _ _ (fun kv h => neTrans (privateHeader_name c r kv h) acac_ne.2.1.symm)]
  have h0 : put HMap.empty (c.originHeader (first r.headers originName)) acac = [] := by
    rw [put_other _ _ _ (fun kv h => neTrans (originHeader_spec h).1 acac_ne.1.symm)]; rfl
  unfold Cors.credentialsHeader
  split
  · generalize put HMap.empty (c.originHeader (first r.headers originName)) = g at h0
    simp [put, h0]
  · exact h0

theorem withCors_acao (c : Cors) (inner : Req → HMap) (r : Req) :
    (withCors c inner r).headers acao
      = match c.originHeader (first r.headers originName) with
        | some kv => [kv.2]
        | none => if r.method = "OPTIONS".toList then [] else inner r acao := by
  unfold withCors Cors.methodsHeader Cors.headersHeader Cors.maxAgeHeader Cors.exposeHeader
  have hne := acao_ne
  split
  · rename_i hm
    show put _ _ acao = _
    rw [put_other _ _ _ (fun kv h => neTrans (map_name kv h) hne.2.2.2.2.2.1.symm),
      put_other _ _ _ (fun kv h => neTrans (map_name kv h) hne.2.2.2.2.1.symm),
      put_other _ _ _ (fun kv h => neTrans (map_name kv h) hne.2.2.2.1.symm), common_acao]
    cases c.originHeader (first r.headers originName) with
    | none => exact (if_pos hm).symm
    | some kv => rfl
  · rename_i hm
    simp only [if_neg hne.2.2.1]
    rw [put_other _ _ _ (fun kv h => neTrans (map_name kv h) hne.2.2.2.2.2.2.symm), common_acao]
    cases c.originHeader (first r.headers originName) with
    | none => exact (if_neg hm).symm
    | some kv => simp

theorem withCors_acac (c : Cors) (inner : Req → HMap) (r : Req) (hi : inner r acac = []) :
    (withCors c inner r).headers acac = if c.allowCredentials then [trueText] else [] := by
  unfold withCors Cors.methodsHeader Cors.headersHeader Cors.maxAgeHeader Cors.exposeHeader
  have hne := acac_ne
  split
  · show put _ _ acac = _
    rw [put_other _ _ _ (fun kv h => neTrans (map_name kv h) hne.2.2.2.2.2.1.symm),
      put_other _ _ _ (fun kv h => neTrans (map_name kv h) hne.2.2.2.2.1.symm),
      put_other _ _ _ (fun kv h => neTrans (map_name kv h) hne.2.2.2.1.symm), common_acac]
  · simp only [if_neg hne.2.2.1]
    rw [put_other _ _ _ (fun kv h => neTrans (map_name kv h) hne.2.2.2.2.2.2.symm), common_acac]
    split
    · rfl
    · exact hi

/-- **C46**, credentials: with an accepted configuration that allows credentials, a response that carries
Access-Control-Allow-Origin names exactly the origin of the request, and the configuration lists it;
provided that the inner response (custom response headers) does not set this header itself. -/
theorem C46_credentials_only_listed (k : CorsConfig) (c : Cors) (hk : corsOf k = some c)
    (hc : k.allowCredentials = some true) (inner : Req → HMap) (r : Req) (hi : inner r acao = [])
    (o : Text) (ho : o ∈ (withCors c inner r).headers acao) :
    first r.headers originName = some o ∧ Listed k o := by
  obtain ⟨h1, h2, _, _, _, _, hu⟩ := corsOf_spec hk
  have hcred : c.allowCredentials = true := by rw [h1, hc]; rfl
  rw [withCors_acao] at ho
  split at ho
  · rename_i kv hkv
    obtain ⟨_, h3, h4⟩ := originHeader_spec hkv
    rw [List.mem_singleton] at ho
    subst ho
    refine ⟨h3, ?_⟩
    rcases h4 with h4 | h4
    · unfold Listed; exact h2 ▸ h4
    · exfalso
      unfold usable at hu
      rw [hcred] at hu
      have : c.allowOrigins.any isWildcard = true := List.any_eq_true.mpr ⟨_, h4, rfl⟩
      simp [this] at hu
  · rw [hi] at ho
    split at ho <;> cases ho

/-- **C46** without a wildcard: only listed origins are named. -/
theorem C46_no_wildcard_only_listed (k : CorsConfig) (c : Cors) (hk : corsOf k = some c)
    (hw : ['*'] ∉ k.allowOrigins) (inner : Req → HMap) (r : Req) (hi : inner r acao = [])
    (o : Text) (ho : o ∈ (withCors c inner r).headers acao) :
    first r.headers originName = some o ∧ Listed k o := by
  obtain ⟨_, h2, _, _, _, _, _⟩ := corsOf_spec hk
  rw [withCors_acao] at ho
  split at ho
  · rename_i kv hkv
    obtain ⟨_, h3, h4⟩ := originHeader_spec hkv
    rw [List.mem_singleton] at ho
    subst ho
    exact ⟨h3, h4.elim (fun h => by unfold Listed; exact h2 ▸ h) (fun h => absurd (h2 ▸ h) hw)⟩
  · rw [hi] at ho
    split at ho <;> cases ho

/-- **C46**, the other direction: a listed origin is always granted, on preflight and other requests. -/
theorem C46_listed_granted (k : CorsConfig) (c : Cors) (hk : corsOf k = some c) (inner : Req → HMap)
    (r : Req) (o : Text) (ho : first r.headers originName = some o) (hl : Listed k o) :
    (withCors c inner r).headers acao = [o] := by
  obtain ⟨_, h2, _, _, _, _, _⟩ := corsOf_spec hk
  have hm : o ∈ c.allowOrigins := h2 ▸ hl
  have : c.originHeader (first r.headers originName) = some (acao, o) := by
    rw [ho]
    unfold Cors.originHeader
    split
    · rfl
    · simp [Option.filter, hm]
  rw [withCors_acao, this]

/-- **C46**: credentials are announced exactly when configured, and a preflight request never runs the
handler. -/
theorem C46_credentials_and_preflight (k : CorsConfig) (c : Cors) (hk : corsOf k = some c)
    (inner : Req → HMap) (r : Req) (hi : inner r acac = []) :
    ((withCors c inner r).headers acac = ["true".toList] ↔ k.allowCredentials = some true)
      ∧ ((withCors c inner r).ran = true ↔ r.method ≠ "OPTIONS".toList) := by
  obtain ⟨h1, _⟩ := corsOf_spec hk
  refine ⟨?_, ?_⟩
  · rw [withCors_acac c inner r hi, h1]
    cases k.allowCredentials with
    | none => simp
    | some b => cases b <;> simp [trueText]
  · unfold withCors
    split
    · rename_i hm; simp [show r.method = "OPTIONS".toList from hm]
    · rename_i hm
      exact ⟨fun _ => hm, fun _ => rfl⟩

/-- **C46**: with credentials an accepted configuration names its methods, and neither methods nor
headers nor exposed headers nor origins are the wildcard. -/
theorem C46_accepted_with_credentials (k : CorsConfig) (c : Cors) (hk : corsOf k = some c)
    (hc : k.allowCredentials = some true) :
    k.allowMethods ≠ [] ∧ k.allowMethods ≠ [['*']] ∧ k.allowHeaders ≠ [['*']] ∧ k.exposeHeaders ≠ [['*']]
      ∧ ['*'] ∉ k.allowOrigins := by
  obtain ⟨h1, h2, h3, h4, h5, _, hu⟩ := corsOf_spec hk
  have hcred : c.allowCredentials = true := by rw [h1, hc]; rfl
  unfold usable at hu
  rw [hcred, h3, h4, h5] at hu
  refine ⟨?_, ?_, ?_, ?_, ?_⟩
  · intro h; rw [h] at hu; simp [Option.filter, isWildcard, wildcard] at hu
  · intro h; rw [h] at hu
    simp [Option.filter, isWildcard, wildcard, joinComma, List.intercalate] at hu
  · intro h; rw [h] at hu
    simp [Option.filter, isWildcard, wildcard, joinComma, List.intercalate] at hu
  · intro h; rw [h] at hu
    simp [Option.filter, isWildcard, wildcard, joinComma, List.intercalate] at hu
  · intro h
    have : c.allowOrigins.any isWildcard = true := List.any_eq_true.mpr ⟨_, h2 ▸ h, rfl⟩
    simp [this] at hu

/-- A configuration with credentials, as an operator would write it. -/
def bankConfig : CorsConfig :=
  { allowCredentials := some true
    allowHeaders := [['x', '-', 'i', 'd']]
    allowMethods := [['G', 'E', 'T'], ['P', 'O', 'S', 'T']]
    allowOrigins := [['h', ':', '/', '/', 'a']]
    allowPrivateNetwork := none
    exposeHeaders := []
    maxAge := some 60
    vary := [['o', 'r', 'i', 'g', 'i', 'n']] }

/-- A request with an origin. -/
def fromOrigin (m o : Text) : Req := ⟨m, fun n => if n = originName then [o] else []⟩

/-- The configuration is accepted; the listed origin is granted, another one is not. -/
example : ∃ c, corsOf bankConfig = some c
    ∧ (withCors c (fun _ => HMap.empty) (fromOrigin ['P', 'O', 'S', 'T'] ['h', ':', '/', '/', 'a'])).headers acao
        = [['h', ':', '/', '/', 'a']]
    ∧ (withCors c (fun _ => HMap.empty) (fromOrigin ['P', 'O', 'S', 'T'] ['h', ':', '/', '/', 'b'])).headers acao
        = [] := by
  refine ⟨_, rfl, ?_, ?_⟩ <;> rfl

/-- **C46 is violated** by custom response headers: the origin header of the inner response stays when the
CORS rules grant nothing. -/
theorem C46_violated_by_custom_header :
    ∃ (k : CorsConfig) (c : Cors) (inner : Req → HMap) (r : Req) (o : Text), corsOf k = some c
      ∧ ['*'] ∉ k.allowOrigins ∧ first r.headers originName = some o ∧ ¬ Listed k o
      ∧ (withCors c inner r).headers acao = [['*']] :=
  ⟨bankConfig, _, fun _ => HMap.empty.insert acao ['*'],
    fromOrigin ['P', 'O', 'S', 'T'] ['h', ':', '/', '/', 'b'], ['h', ':', '/', '/', 'b'], rfl, by decide, rfl,
    by unfold Listed; decide, rfl⟩

/-- The wildcard check is on the joined list: `*` next to another header is accepted with credentials. -/
theorem C46_violated_by_joined_wildcard :
    ∃ (k : CorsConfig) (c : Cors), corsOf k = some c ∧ k.allowCredentials = some true
      ∧ ['*'] ∈ k.allowHeaders ∧ ['*'] ∈ k.exposeHeaders :=
  ⟨{ bankConfig with allowHeaders := [['*'], ['x']], exposeHeaders := [['*'], ['x']] }, _, rfl, rfl,
    by decide, by decide⟩

/-- Without any CORS configuration one origin is granted all the same: `tailcall.run`; any other origin
gets what the inner handler says. -/
theorem C46_without_configuration (inner : Req → HMap) (r : Req) (hi : inner r acao = []) (o v : Text)
    (ho : first r.headers originName = some o) (hv : v ∈ (handle none inner r).headers acao) :
    v = "https://tailcall.run".toList ∧ (o = "https://tailcall.run".toList ∨ o = "http://tailcall.run".toList) := by
  unfold handle at hv
  simp only [ho] at hv
  split at hv
  · rename_i h
    refine ⟨?_, h⟩
    unfold originTailcall at hv
    split at hv
    · simp only [HMap.insert, acao_ne.2.2.2.1, acao_ne.2.2.2.2.1, if_false, if_true] at hv
      exact List.mem_singleton.mp hv
    · simp only [HMap.insert, if_true] at hv
      exact List.mem_singleton.mp hv
  · exact absurd (hi ▸ hv : v ∈ ([] : List Text)) List.not_mem_nil

/-- The hypotheses of `C46_without_configuration` are met by a request from the playground. -/
example : (handle none (fun _ => HMap.empty) (fromOrigin ['P'] tailcallHttp)).headers acao
    = ["https://tailcall.run".toList] := rfl

end Verif.Front
