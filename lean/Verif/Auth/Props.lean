import Verif.Auth.Model

/-!
# Properties of authentication
-/

namespace Verif.Auth

open Verif.Mustache (Text)

set_option linter.unusedSimpArgs false

/-! ## C42: combinators -/

/-- Specification: the boolean reading of a combination of providers. -/
def Holds (ok : Provider → Prop) : Auth → Prop
  | .provider p => ok p
  | .and a b => Holds ok a ∧ Holds ok b
  | .or a b => Holds ok a ∨ Holds ok b

theorem and_succeed (a b : Verification) :
    a.and b = .succeed ↔ a = .succeed ∧ b = .succeed := by
  cases a <;> simp [Verification.and]

theorem or_succeed (a b : Verification) :
    a.or b = .succeed ↔ a = .succeed ∨ b = .succeed := by
  cases a <;> cases b <;> simp [Verification.or, Verification.fold]

/-- C42: a request passes a combination iff the boolean formula holds of the providers it
passes. -/
theorem C42_boolean (r : Req) (a : Auth) :
    verify r a = .succeed ↔ Holds (fun p => verifyProvider r p = .succeed) a := by
  induction a with
  | provider p => rfl
  | and a b iha ihb => simp only [verify, Holds, and_succeed, iha, ihb]
  | or a b iha ihb => simp only [verify, Holds, or_succeed, iha, ihb]

/-- Specification: how far a failed attempt got. -/
def stage : Err → Nat
  | .missing => 0
  | .parse _ => 1
  | .invalid => 2

theorem leq_stage {a b : Err} (h : leq a b = true) : stage a ≤ stage b := by
  cases a <;> cases b <;> simp [leq, stage] at *

theorem leq_stage_rev {a b : Err} (h : leq a b = false) : stage b ≤ stage a := by
  cases a <;> cases b <;> simp [leq, stage] at *

/-- C42: a failing OR fails on both sides, and reports one of the two failures, the one that got
furthest. -/
theorem C42_or_failure (r : Req) (a b : Auth) (e : Err) (h : verify r (.or a b) = .fail e) :
    ∃ e1 e2, verify r a = .fail e1 ∧ verify r b = .fail e2 ∧ (e = e1 ∨ e = e2) ∧
      stage e1 ≤ stage e ∧ stage e2 ≤ stage e := by
  simp only [verify] at h
  cases ha : verify r a with
  | succeed => rw [ha] at h; simp [Verification.or] at h
  | fail e1 =>
    cases hb : verify r b with
    | succeed => rw [ha, hb] at h; simp [Verification.or, Verification.fold] at h
    | fail e2 =>
      rw [ha, hb] at h
      simp only [Verification.or, Verification.fold, Verification.fail.injEq] at h
      refine ⟨e1, e2, rfl, rfl, ?_⟩
      unfold maxErr at h
      cases hl : leq e1 e2 with
      | true => rw [hl] at h; simp at h; subst h; exact ⟨.inr rfl, leq_stage hl, Nat.le_refl _⟩
      | false => rw [hl] at h; simp at h; subst h; exact ⟨.inl rfl, Nat.le_refl _, leq_stage_rev hl⟩

/-- C42: a failing AND reports the failure of its left side, or of the right side when the left
side passes. -/
theorem C42_and_failure (r : Req) (a b : Auth) (e : Err) :
    verify r (.and a b) = .fail e ↔
      verify r a = .fail e ∨ (verify r a = .succeed ∧ verify r b = .fail e) := by
  simp only [verify]
  cases verify r a <;> simp [Verification.and]

/-- C42: without an `Authorization` header every combination fails, and reports that the header
is missing. -/
theorem C42_no_header (r : Req) (a : Auth) (h : r.header = .absent) :
    verify r a = .fail .missing := by
  induction a with
  | provider p => cases p <;> simp [verify, verifyProvider, verifyBasic, verifyJwt, h]
  | and a b iha ihb => simp only [verify, iha, ihb]; rfl
  | or a b iha ihb => simp only [verify, iha, ihb]; rfl

/-- Specification: the providers named in a combination. -/
def Mentions (p : Provider) : Auth → Prop
  | .provider q => q = p
  | .and a b => Mentions p a ∨ Mentions p b
  | .or a b => Mentions p a ∨ Mentions p b

/-- C42: the reported failure is always a failure of one of the providers. -/
theorem C42_failure_is_a_providers (r : Req) (a : Auth) (e : Err) (h : verify r a = .fail e) :
    ∃ p, Mentions p a ∧ verifyProvider r p = .fail e := by
  induction a with
  | provider p => exact ⟨p, rfl, h⟩
  | and a b iha ihb =>
    rcases (C42_and_failure r a b e).1 h with h1 | ⟨_, h1⟩
    · obtain ⟨p, hp, hv⟩ := iha h1; exact ⟨p, .inl hp, hv⟩
    · obtain ⟨p, hp, hv⟩ := ihb h1; exact ⟨p, .inr hp, hv⟩
  | or a b iha ihb =>
    obtain ⟨e1, e2, h1, h2, he, _⟩ := C42_or_failure r a b e h
    rcases he with rfl | rfl
    · obtain ⟨p, hp, hv⟩ := iha h1; exact ⟨p, .inl hp, hv⟩
    · obtain ⟨p, hp, hv⟩ := ihb h2; exact ⟨p, .inr hp, hv⟩

/-! ### A concrete request -/

/-- Two key sets; only key 7 verifies the token "t". -/
def demoReq (h : Header) : Req where
  header := h
  check f u p := f = "users".toList && u = "ann".toList && p = "pw".toList
  tokenHeader t := if t = "t".toList then some (some "k1".toList) else
    if t = "nokid".toList then some none else none
  decode t k := if (t = "t".toList ∨ t = "nokid".toList) ∧ k.material = 7 then
    some ⟨some (.many ["a".toList, "b".toList]), some "me".toList⟩ else none

/-- Example data for the concrete cases below. -/
def key (kid : String) (m : Nat) : Jwk := ⟨some kid.toList, none, some "RS256".toList, none, m⟩

/-- Example data for the concrete cases below. -/
def demoJwt (optional : Bool) : Jwt :=
  ⟨some "me".toList, ["b".toList], optional, [key "k0" 3, key "k1" 7]⟩

/-- Example data for the concrete cases below. -/
def users : Auth := .provider (.basic "users".toList)
/-- Example data for the concrete cases below. -/
def tokens : Auth := .provider (.jwt (demoJwt false))

example : verify (demoReq (.bearer "t".toList)) (.or users tokens) = .succeed := by decide
example : verify (demoReq (.bearer "t".toList)) (.and users tokens) = .fail .invalid := by decide
example : verify (demoReq .absent) (.or users (.and tokens users)) = .fail .missing :=
  C42_no_header _ _ rfl
/-- A bad token under OR: the password provider got no credentials of its kind (invalid), the
token provider failed to decode (parse): the further one is reported. -/
example : verify (demoReq (.bearer "x".toList)) (.or tokens users) = .fail .invalid := by decide
example : ∃ p, Mentions p (.or tokens users) ∧
    verifyProvider (demoReq (.bearer "x".toList)) p = .fail .invalid :=
  C42_failure_is_a_providers _ _ _ (by decide)

/-! ## C44: tokens -/

/-- Specification: key `k` can verify the token, giving claims `c`. -/
def Verifies (r : Req) (token : Text) (k : Jwk) (c : Claim) : Prop :=
  k.keyErr = none ∧ k.alg.isSome ∧ k.algErr = none ∧ r.decode token k = some c

/-- Specification: the issuer and audience the configuration asks for. -/
def ClaimsOk (o : Jwt) (c : Claim) : Prop :=
  (∀ i, o.issuer = some i → c.iss = some i) ∧
  (o.audiences ≠ [] → ∃ a, a ∈ o.audiences ∧
    (c.aud = some (.one a) ∨ ∃ l, c.aud = some (.many l) ∧ a ∈ l))

/-- Specification of key selection: with a `kid`, the first key of that id; without one, only if
allowed, the first key that verifies the token. -/
def Selected (r : Req) (o : Jwt) (token : Text) (k : Jwk) : Prop :=
  ∃ before after, o.jwks = before ++ k :: after ∧
    ((∃ kid, r.tokenHeader token = some (some kid) ∧ k.kid = some kid ∧
        ∀ k' ∈ before, k'.kid ≠ some kid) ∨
     (r.tokenHeader token = some none ∧ o.optionalKid = true ∧
        ∀ k' ∈ before, ∀ c, ¬ Verifies r token k' c))

theorem decodeWithJwk_ok (r : Req) (t : Text) (k : Jwk) (c : Claim) :
    decodeWithJwk r t k = .ok c ↔ Verifies r t k c := by
  unfold decodeWithJwk Verifies
  cases k.keyErr with
  | some m => simp
  | none =>
    cases k.alg with
    | none => simp
    | some a =>
      cases k.algErr with
      | some m => simp
      | none => cases r.decode t k <;> simp

theorem findKid_some (kid : Text) (ks : List Jwk) (k : Jwk) :
    findKid kid ks = some k ↔
      ∃ before after, ks = before ++ k :: after ∧ k.kid = some kid ∧
        ∀ k' ∈ before, k'.kid ≠ some kid := by
  induction ks with
  | nil => simp [findKid]
  | cons x r ih =>
    unfold findKid
    by_cases hx : x.kid = some kid
    · rw [if_pos hx]
      constructor
      · intro h; cases h; exact ⟨[], r, rfl, hx, by simp⟩
      · rintro ⟨before, after, he, hk, hb⟩
        cases before with
        | nil => simp at he; rw [he.1]
        | cons y ys => simp at he; exact absurd hx (he.1 ▸ hb y (by simp))
    · rw [if_neg hx, ih]
      constructor
      · rintro ⟨before, after, he, hk, hb⟩
        refine ⟨x :: before, after, by simp [he], hk, ?_⟩
        intro k' hk'
        rcases List.mem_cons.1 hk' with rfl | h'
        · exact hx
        · exact hb _ h'
      · rintro ⟨before, after, he, hk, hb⟩
        cases before with
        | nil => simp at he; exact absurd (he.1 ▸ hk) hx
        | cons y ys =>
          simp at he
          exact ⟨ys, after, he.2, hk, fun k' h' => hb k' (by simp [h'])⟩

theorem tryAll_ok (r : Req) (t : Text) (ks : List Jwk) (c : Claim) :
    tryAll r t ks = .ok c ↔
      ∃ before k after, ks = before ++ k :: after ∧ Verifies r t k c ∧
        ∀ k' ∈ before, ∀ c', ¬ Verifies r t k' c' := by
  induction ks with
  | nil => simp [tryAll]
  | cons x xs ih =>
    unfold tryAll
    cases hx : decodeWithJwk r t x with
    | ok c' =>
      have hv := (decodeWithJwk_ok r t x c').1 hx
      simp only [Except.ok.injEq]
      constructor
      · rintro rfl; exact ⟨[], x, xs, rfl, hv, by simp⟩
      · rintro ⟨before, k, after, he, hk, hb⟩
        cases before with
        | nil =>
          simp at he
          have := (decodeWithJwk_ok r t x c).2 (he.1 ▸ hk)
          rw [hx] at this; cases this; rfl
        | cons y ys => simp at he; exact absurd (he.1 ▸ hv) (hb y (by simp) c')
    | error e =>
      simp only []
      rw [ih]
      have hno : ∀ c', ¬ Verifies r t x c' := by
        intro c' h; rw [(decodeWithJwk_ok r t x c').2 h] at hx; simp at hx
      constructor
      · rintro ⟨before, k, after, he, hk, hb⟩
        refine ⟨x :: before, k, after, by simp [he], hk, ?_⟩
        intro k' hk'
        rcases List.mem_cons.1 hk' with rfl | h'
        · exact hno
        · exact hb _ h'
      · rintro ⟨before, k, after, he, hk, hb⟩
        cases before with
        | nil => simp at he; exact absurd (he.1 ▸ hk) (hno c)
        | cons y ys =>
          simp at he
          exact ⟨ys, k, after, he.2, hk, fun k' h' => hb k' (by simp [h'])⟩

theorem decode_ok (r : Req) (o : Jwt) (t : Text) (c : Claim) :
    decode r o t = .ok c ↔ ∃ k, Selected r o t k ∧ Verifies r t k c := by
  unfold decode
  cases hh : r.tokenHeader t with
  | none => simp [Selected, hh]
  | some kid? =>
    cases kid? with
    | none =>
      simp only []
      cases ho : o.optionalKid with
      | false => simp [Selected, hh, ho]
      | true =>
        rw [if_pos rfl, tryAll_ok]
        constructor
        · rintro ⟨before, k, after, he, hk, hb⟩
          exact ⟨k, ⟨before, after, he, .inr ⟨hh, ho, hb⟩⟩, hk⟩
        · rintro ⟨k, ⟨before, after, he, hsel⟩, hk⟩
          rcases hsel with ⟨kid, h1, _⟩ | ⟨_, _, hb⟩
          · rw [hh] at h1; simp at h1
          · exact ⟨before, k, after, he, hk, hb⟩
    | some kid =>
      simp only []
      cases hf : findKid kid o.jwks with
      | none =>
        simp only [reduceCtorEq, false_iff, not_exists, not_and]
        rintro k ⟨before, after, he, hsel⟩ _
        rcases hsel with ⟨kid', h1, h2, h3⟩ | ⟨h1, _⟩
        · rw [hh] at h1; simp at h1; subst h1
          have := (findKid_some kid o.jwks k).2 ⟨before, after, he, h2, h3⟩
          rw [hf] at this; simp at this
        · rw [hh] at h1; simp at h1
      | some k0 =>
        simp only []
        rw [decodeWithJwk_ok]
        constructor
        · intro hv
          obtain ⟨before, after, he, h2, h3⟩ := (findKid_some kid o.jwks k0).1 hf
          exact ⟨k0, ⟨before, after, he, .inl ⟨kid, hh, h2, h3⟩⟩, hv⟩
        · rintro ⟨k, ⟨before, after, he, hsel⟩, hv⟩
          rcases hsel with ⟨kid', h1, h2, h3⟩ | ⟨h1, _⟩
          · rw [hh] at h1; simp at h1; subst h1
            have := (findKid_some kid o.jwks k).2 ⟨before, after, he, h2, h3⟩
            rw [hf] at this; cases this; exact hv
          · rw [hh] at h1; simp at h1

theorem validateIss_iff (o : Jwt) (c : Claim) :
    validateIss o c = true ↔ ∀ i, o.issuer = some i → c.iss = some i := by
  unfold validateIss
  cases o.issuer with
  | none => simp
  | some i => cases c.iss <;> simp

theorem validateAud_iff (o : Jwt) (c : Claim) :
    validateAud o c = true ↔ (o.audiences ≠ [] → ∃ a, a ∈ o.audiences ∧
      (c.aud = some (.one a) ∨ ∃ l, c.aud = some (.many l) ∧ a ∈ l)) := by
  unfold validateAud
  cases ho : o.audiences with
  | nil => simp
  | cons x xs =>
    cases hc : c.aud with
    | none => simp
    | some v =>
      cases v with
      | one a =>
        simp only [List.isEmpty_cons, Bool.false_eq_true, if_false, List.contains_iff_mem]
        constructor
        · intro h _; exact ⟨a, h, .inl rfl⟩
        · intro h
          obtain ⟨b, hb, h1 | ⟨l, h1, _⟩⟩ := h (by simp)
          · cases h1; exact hb
          · simp at h1
      | many l =>
        simp only [List.isEmpty_cons, Bool.false_eq_true, if_false, List.any_eq_true,
          List.contains_iff_mem]
        constructor
        · rintro ⟨a, ha, hx⟩ _; exact ⟨a, hx, .inr ⟨l, rfl, ha⟩⟩
        · intro h
          obtain ⟨b, hb, h1 | ⟨l', h1, h2⟩⟩ := h (by simp)
          · simp at h1
          · cases h1; exact ⟨b, h2, hb⟩

/-- C44: a token is accepted exactly when it is sent as a bearer token, verifies under the key
selected by the `kid` rules, and its claims name the configured issuer and one of the configured
audiences. -/
theorem C44_accepted_iff (r : Req) (o : Jwt) :
    verifyJwt r o = .succeed ↔
      ∃ t k c, r.header = .bearer t ∧ Selected r o t k ∧ Verifies r t k c ∧ ClaimsOk o c := by
  have hv : ∀ c, validateClaims o c = .succeed ↔ ClaimsOk o c := by
    intro c
    unfold validateClaims ClaimsOk
    rw [← validateIss_iff, ← validateAud_iff]
    cases validateIss o c <;> cases validateAud o c <;> simp
  unfold verifyJwt
  cases hh : r.header with
  | absent => simp
  | basic u p => simp
  | other => simp
  | bearer t =>
    simp only [validateToken]
    constructor
    · intro h
      cases hd : decode r o t with
      | error e => rw [hd] at h; simp at h
      | ok c =>
        rw [hd] at h
        obtain ⟨k, hs, hk⟩ := (decode_ok r o t c).1 hd
        exact ⟨t, k, c, rfl, hs, hk, (hv c).1 h⟩
    · rintro ⟨t', k, c, ht, hs, hk, hc⟩
      cases ht
      rw [(decode_ok r o t c).2 ⟨k, hs, hk⟩]
      exact (hv c).2 hc

/-- C44: a token whose `kid` names no configured key is refused, whatever the keys can verify. -/
theorem C44_unknown_kid (r : Req) (o : Jwt) (t kid : Text) (hb : r.header = .bearer t)
    (hk : r.tokenHeader t = some (some kid)) (hn : ∀ k ∈ o.jwks, k.kid ≠ some kid) :
    verifyJwt r o ≠ .succeed := by
  intro h
  obtain ⟨t', k, c, ht, ⟨b, a, he, hs⟩, _⟩ := (C44_accepted_iff r o).1 h
  rw [hb] at ht; cases ht
  rcases hs with ⟨kid', h1, h2, _⟩ | ⟨h1, _⟩
  · rw [hk] at h1; cases h1
    exact hn k (by rw [he]; simp) h2
  · rw [hk] at h1; simp at h1

/-- C44: a token without a `kid` is refused unless the key set makes it optional. -/
theorem C44_kid_required (r : Req) (o : Jwt) (t : Text) (hb : r.header = .bearer t)
    (hk : r.tokenHeader t = some none) (ho : o.optionalKid = false) :
    verifyJwt r o = .fail (.parse "Invalid Authorization Header".toList) := by
  unfold verifyJwt validateToken decode
  rw [hb]
  simp only [hk, ho, Bool.false_eq_true, if_false]
  rfl

/-- C44, basic credentials: accepted exactly when they are sent and the password file accepts
them. -/
theorem C44_basic_iff (r : Req) (f : Text) :
    verifyBasic r f = .succeed ↔ ∃ u p, r.header = .basic u p ∧ r.check f u p = true := by
  unfold verifyBasic
  cases hh : r.header with
  | absent => simp
  | bearer t => simp
  | other => simp
  | basic u p =>
    cases hc : r.check f u p with
    | false =>
      simp only [hc]
      constructor
      · intro h; simp at h
      · rintro ⟨u', p', he, h⟩
        cases he
        rw [hc] at h; simp at h
    | true => exact ⟨fun _ => ⟨u, p, rfl, hc⟩, fun _ => by simp [hc]⟩

example : verifyJwt (demoReq (.bearer "t".toList)) (demoJwt false) = .succeed := by decide
example : ∃ t k c, (demoReq (.bearer "t".toList)).header = .bearer t ∧
    Selected (demoReq (.bearer "t".toList)) (demoJwt false) t k ∧
    Verifies (demoReq (.bearer "t".toList)) t k c ∧ ClaimsOk (demoJwt false) c :=
  (C44_accepted_iff _ _).1 (by decide)
example : verifyJwt (demoReq (.bearer "nokid".toList)) (demoJwt true) = .succeed := by decide
example : verifyJwt (demoReq (.bearer "nokid".toList)) (demoJwt false) =
    .fail (.parse "Invalid Authorization Header".toList) :=
  C44_kid_required _ _ "nokid".toList rfl (by decide) rfl
example : verifyJwt (demoReq (.bearer "t".toList)) { demoJwt false with jwks := [key "zz" 7] } ≠
    .succeed := C44_unknown_kid _ _ "t".toList "k1".toList rfl (by decide) (by decide)
example : verifyJwt (demoReq (.bearer "t".toList)) { demoJwt false with audiences := ["c".toList] } =
    .fail .invalid := by decide
example : verifyBasic (demoReq (.basic "ann".toList "pw".toList)) "users".toList = .succeed :=
  (C44_basic_iff _ _).2 ⟨_, _, rfl, by decide⟩

/-- The issuer and audience of a token are never checked in a running server: a provider that
comes from the configuration accepts any claims (blueprint/auth.rs:40-45). -/
theorem C44_claims_checked_violated_by_config (r : Req) (t kid : Text) (k : Jwk) (c : Claim)
    (hb : r.header = .bearer t) (hk : r.tokenHeader t = some (some kid))
    (h1 : k.kid = some kid) (hv : Verifies r t k c) (id : Option Text) :
    verifyProvider r (jwksContent id [k]).provider = .succeed := by
  refine (C44_accepted_iff r _).2 ⟨t, k, c, hb, ?_, hv, ?_, ?_⟩
  · exact ⟨[], [], rfl, .inl ⟨kid, hk, h1, by simp⟩⟩
  · intro i hi; simp at hi
  · intro h; simp at h

example : verifyProvider (demoReq (.bearer "t".toList)) (jwksContent none [key "k1" 7]).provider =
    .succeed :=
  C44_claims_checked_violated_by_config _ "t".toList "k1".toList (key "k1" 7)
    ⟨some (.many ["a".toList, "b".toList]), some "me".toList⟩ rfl (by decide) rfl
    ⟨rfl, rfl, rfl, by decide⟩ none

/-! ## C67: what `@protected` asks for -/

theorem holds_foldl (ok : Provider → Prop) (l : List Auth) (a : Auth) :
    Holds ok (l.foldl Auth.and a) ↔ Holds ok a ∧ ∀ x ∈ l, Holds ok x := by
  induction l generalizing a with
  | nil => simp
  | cons x r ih =>
    simp only [List.foldl_cons, ih, Holds, List.forall_mem_cons, and_assoc]

theorem andAll_holds (ok : Provider → Prop) (l : List Auth) (a : Auth) (h : andAll l = some a) :
    Holds ok a ↔ ∀ x ∈ l, Holds ok x := by
  cases l with
  | nil => simp [andAll] at h
  | cons x r =>
    simp only [andAll, Option.some.injEq] at h
    subst h
    rw [holds_foldl]; simp

/-- Specification: the provider an id stands for: the last linked file with that id. -/
def Named (e : Ext) (id : Text) (p : Provider) : Prop :=
  ∃ before after, fromConfig e = before ++ ⟨some id, p⟩ :: after ∧
    ∀ c ∈ after, c.id ≠ some id

theorem lookup_iff (id : Text) (cs : List Content) (p : Provider) :
    lookup id cs = some p ↔ ∃ before after, cs = before ++ ⟨some id, p⟩ :: after ∧
      ∀ c ∈ after, c.id ≠ some id := by
  have hnone : ∀ cs : List Content, lookup id cs = none ↔ ∀ c ∈ cs, c.id ≠ some id := by
    intro cs
    induction cs with
    | nil => simp [lookup]
    | cons c r ih =>
      unfold lookup
      cases hl : lookup id r with
      | some q =>
        simp only [reduceCtorEq, List.mem_cons, forall_eq_or_imp, false_iff, not_and]
        intro _ h
        rw [ih.2 h] at hl; simp at hl
      | none =>
        have := ih.1 hl
        by_cases hc : c.id = some id <;> simp [hc]
        exact this
  induction cs with
  | nil => simp [lookup]
  | cons c r ih =>
    unfold lookup
    cases hl : lookup id r with
    | some q =>
      simp only []
      rw [hl] at ih
      refine Iff.trans ih ?_
      constructor
      · rintro ⟨b, a, he, ha⟩; exact ⟨c :: b, a, by simp [he], ha⟩
      · rintro ⟨b, a, he, ha⟩
        cases b with
        | nil =>
          simp at he
          have := (hnone r).2 (he.2 ▸ ha)
          rw [hl] at this; simp at this
        | cons y ys => simp at he; exact ⟨ys, a, he.2, ha⟩
    | none =>
      simp only []
      have hn := (hnone r).1 hl
      by_cases hc : c.id = some id
      · rw [if_pos hc]
        constructor
        · intro h; cases h; exact ⟨[], r, by cases c; simp at hc; simp [hc], hn⟩
        · rintro ⟨b, a, he, ha⟩
          cases b with
          | nil => simp at he; rw [he.1]
          | cons y ys =>
            simp at he
            exact absurd rfl (hn ⟨some id, p⟩ (by rw [he.2]; simp))
      · rw [if_neg hc]
        simp only [reduceCtorEq, false_iff, not_exists, not_and]
        rintro b a he
        cases b with
        | nil => simp at he; rw [he.1] at hc; simp at hc
        | cons y ys =>
          simp at he
          exact absurd rfl (hn ⟨some id, p⟩ (by rw [he.2]; simp))

theorem resolveIds_ok (cs : List Content) (ids : List Text) (as : List Auth)
    (h : resolveIds cs ids = ([], as)) :
    as.length = ids.length ∧ (∀ x ∈ as, ∃ id ∈ ids, ∃ p, lookup id cs = some p ∧ x = .provider p) ∧
    (∀ id ∈ ids, ∃ p, lookup id cs = some p ∧ Auth.provider p ∈ as) := by
  induction ids generalizing as with
  | nil => simp [resolveIds] at h; subst h; simp
  | cons id r ih =>
    unfold resolveIds at h
    cases hr : resolveIds cs r with
    | mk es as' =>
      rw [hr] at h
      simp only [] at h
      cases hl : lookup id cs with
      | none => rw [hl] at h; simp at h
      | some p =>
        rw [hl] at h
        simp only [Prod.mk.injEq] at h
        obtain ⟨rfl, rfl⟩ := h
        obtain ⟨h1, h2, h3⟩ := ih as' hr
        refine ⟨by simp [h1], ?_, ?_⟩
        · intro x hx
          rcases List.mem_cons.1 hx with rfl | hx
          · exact ⟨id, by simp, p, hl, rfl⟩
          · obtain ⟨i, hi, q, hq, he⟩ := h2 x hx; exact ⟨i, by simp [hi], q, hq, he⟩
        · intro i hi
          rcases List.mem_cons.1 hi with rfl | hi
          · exact ⟨p, hl, by simp⟩
          · obtain ⟨q, hq, hm⟩ := h3 i hi; exact ⟨q, hq, by simp [hm]⟩

/-- Specification: the ids a directive names. -/
def Ids (d : Directive) (id : Text) : Prop := ∃ l, d = some (some l) ∧ id ∈ l

theorem ids_iff (d : Directive) (id : Text) : id ∈ idsOf d ↔ Ids d id := by
  unfold idsOf Ids
  rcases d with _ | (_ | l) <;> simp

/-- C67: in an accepted configuration a request passes the guard of a protected field iff it
passes every provider named by the enclosing type or the field, and every provider of the
configuration when neither names any.  (Partial: the ids named by the field's output type are not
part of this, and an id on one of the two replaces "all providers" asked for by the other.) -/
theorem C67_guard_partial (e : Ext) (input : Bool) (t f o : Directive) (g : Option Auth)
    (h : guard e input t f o = .ok g) (hp : t ≠ none ∨ f ≠ none ∨ o ≠ none) :
    ∃ a, g = some a ∧ ∀ r : Req,
      ((∃ id, Ids t id ∨ Ids f id) → (verify r a = .succeed ↔
        ∀ id, Ids t id ∨ Ids f id → ∃ p, Named e id p ∧ verifyProvider r p = .succeed)) ∧
      ((¬ ∃ id, Ids t id ∨ Ids f id) → (verify r a = .succeed ↔
        ∀ c ∈ fromConfig e, verifyProvider r c.provider = .succeed)) := by
  unfold guard at h
  have hs : (f.isSome || t.isSome || o.isSome) = true := by
    rcases hp with hp | hp | hp
    · cases t <;> simp_all
    · cases f <;> simp_all
    · cases o <;> simp_all
  rw [if_pos hs] at h
  cases input with
  | true => simp at h
  | false =>
    simp only [Bool.false_eq_true, if_false] at h
    cases hc : (fromConfig e).isEmpty with
    | true => rw [hc] at h; simp at h
    | false =>
      rw [hc] at h
      simp only [Bool.false_eq_true, if_false] at h
      have hid : ∀ id, id ∈ idsOf t ++ idsOf f ↔ (Ids t id ∨ Ids f id) := by
        intro id; rw [List.mem_append, ids_iff, ids_iff]
      cases hr : resolveIds (fromConfig e) (idsOf t ++ idsOf f) with
      | mk es as =>
        rw [hr] at h
        cases es with
        | cons x xs => simp at h
        | nil =>
          simp only [] at h
          obtain ⟨hlen, h2, h3⟩ := resolveIds_ok _ _ _ hr
          cases ha : andAll as with
          | some a =>
            rw [ha] at h
            simp only [Except.ok.injEq] at h
            refine ⟨a, h.symm, fun r => ?_⟩
            have hex : ∃ id, Ids t id ∨ Ids f id := by
              cases hids : idsOf t ++ idsOf f with
              | nil =>
                rw [hids] at hlen
                have : as = [] := List.length_eq_zero_iff.1 hlen
                subst this; simp [andAll] at ha
              | cons i is => exact ⟨i, (hid i).1 (by rw [hids]; simp)⟩
            refine ⟨fun _ => ?_, fun hne => absurd hex hne⟩
            rw [C42_boolean, andAll_holds _ _ _ ha]
            constructor
            · intro hall id hi
              obtain ⟨p, hl, hm⟩ := h3 id ((hid id).2 hi)
              exact ⟨p, (lookup_iff id _ p).1 hl, hall _ hm⟩
            · intro hall x hx
              obtain ⟨id, hi, p, hl, rfl⟩ := h2 x hx
              obtain ⟨p', hn, hv⟩ := hall id ((hid id).1 hi)
              have := (lookup_iff id _ p').2 hn
              rw [hl] at this; cases this
              exact hv
          | none =>
            rw [ha] at h
            simp only [Except.ok.injEq] at h
            have hnil : as = [] := by cases as with
              | nil => rfl
              | cons _ _ => simp [andAll] at ha
            subst hnil
            have hids : idsOf t ++ idsOf f = [] := List.length_eq_zero_iff.1 hlen.symm
            have hno : ¬ ∃ id, Ids t id ∨ Ids f id := by
              rintro ⟨id, hi⟩
              have := (hid id).2 hi
              rw [hids] at this; simp at this
            cases hall : allProviders e with
            | none =>
              unfold allProviders at hall
              cases hf : fromConfig e with
              | nil => rw [hf] at hc; simp at hc
              | cons c cs => rw [hf] at hall; simp [andAll] at hall
            | some a =>
              refine ⟨a, by rw [← h, hall], fun r => ?_⟩
              refine ⟨fun hex => absurd hex hno, fun _ => ?_⟩
              rw [C42_boolean, andAll_holds _ _ _ hall]
              constructor
              · intro hv c hcm
                exact hv (.provider c.provider) (List.mem_map.2 ⟨c, hcm, rfl⟩)
              · intro hv x hx
                obtain ⟨c, hcm, rfl⟩ := List.mem_map.1 hx
                exact hv c hcm

/-- C67: an unprotected field is never guarded, a protected one is guarded or rejected, and a
configuration without providers cannot protect anything. -/
theorem C67_guarded_iff_protected (e : Ext) (input : Bool) (t f o : Directive) :
    (t = none ∧ f = none ∧ o = none ↔ guard e input t f o = .ok none) := by
  constructor
  · rintro ⟨rfl, rfl, rfl⟩; simp [guard]
  · intro h
    by_cases hp : t ≠ none ∨ f ≠ none ∨ o ≠ none
    · obtain ⟨a, ha, _⟩ := C67_guard_partial e input t f o none h hp
      simp at ha
    · refine ⟨?_, ?_, ?_⟩
      · cases t <;> simp_all
      · cases f <;> simp_all
      · cases o <;> simp_all

/-- C67: an id that no linked file has is an error, never a weaker guard. -/
theorem C67_unknown_id_rejected (e : Ext) (t f o : Directive) (id : Text)
    (hid : Ids t id ∨ Ids f id) (hn : ∀ c ∈ fromConfig e, c.id ≠ some id) (g : Option Auth) :
    guard e false t f o ≠ .ok g := by
  intro h
  have hp : t ≠ none ∨ f ≠ none ∨ o ≠ none := by
    rcases hid with ⟨l, hl, _⟩ | ⟨l, hl, _⟩
    · left; rw [hl]; simp
    · right; left; rw [hl]; simp
  unfold guard at h
  have hs : (f.isSome || t.isSome || o.isSome) = true := by
    rcases hp with hp | hp | hp
    · cases t <;> simp_all
    · cases f <;> simp_all
    · cases o <;> simp_all
  rw [if_pos hs] at h
  simp only [Bool.false_eq_true, if_false] at h
  cases hc : (fromConfig e).isEmpty with
  | true => rw [hc] at h; simp at h
  | false =>
    rw [hc] at h
    simp only [Bool.false_eq_true, if_false] at h
    have hmem : id ∈ idsOf t ++ idsOf f := by rw [List.mem_append, ids_iff, ids_iff]; exact hid
    cases hr : resolveIds (fromConfig e) (idsOf t ++ idsOf f) with
    | mk es as =>
      rw [hr] at h
      cases es with
      | cons x xs => simp at h
      | nil =>
        obtain ⟨_, _, h3⟩ := resolveIds_ok _ _ _ hr
        obtain ⟨p, hl, _⟩ := h3 id hmem
        obtain ⟨b, a, he, _⟩ := (lookup_iff id _ p).1 hl
        exact hn ⟨some id, p⟩ (by rw [he]; simp) rfl

/-- Example data for the concrete cases below. -/
def demoExt : Ext :=
  ⟨[(some "u".toList, "users".toList), (some "adm".toList, "admins".toList)],
   [(none, [key "k1" 7])]⟩

example : guard demoExt false none (some (some ["u".toList])) none =
    .ok (some (.provider (.basic "users".toList))) := by rfl
example : ∃ a, some (Auth.provider (.basic "users".toList)) = some a :=
  let ⟨a, h, _⟩ :=
    C67_guard_partial demoExt false none (some (some ["u".toList])) none _ (by rfl) (by simp)
  ⟨a, h⟩
example (g : Option Auth) : guard demoExt false none (some (some ["nope".toList])) none ≠ .ok g :=
  C67_unknown_id_rejected _ _ _ _ "nope".toList (.inr ⟨_, rfl, by decide⟩) (by decide) g

/-- C67/C44: a field protected without ids is open exactly to the requests whose password is in
every linked password file, and whose bearer token names, in every linked key set, a key (the
first one of that `kid`) that verifies it. -/
theorem C67_every_linked_file (e : Ext) (t f o : Directive) (g : Option Auth)
    (h : guard e false t f o = .ok g) (hp : t ≠ none ∨ f ≠ none ∨ o ≠ none)
    (hno : ∀ id, ¬ Ids t id ∧ ¬ Ids f id) :
    ∃ a, g = some a ∧ ∀ r : Req, verify r a = .succeed ↔
      (∀ x ∈ e.htpasswd, ∃ u p, r.header = .basic u p ∧ r.check x.2 u p = true) ∧
      (∀ x ∈ e.jwks, ∃ tok kid before k after c, r.header = .bearer tok ∧
        r.tokenHeader tok = some (some kid) ∧ x.2 = before ++ k :: after ∧ k.kid = some kid ∧
        (∀ k' ∈ before, k'.kid ≠ some kid) ∧ Verifies r tok k c) := by
  obtain ⟨a, ha, hr⟩ := C67_guard_partial e false t f o g h hp
  refine ⟨a, ha, fun r => ?_⟩
  have hne : ¬ ∃ id, Ids t id ∨ Ids f id := by
    rintro ⟨id, hi | hi⟩
    · exact (hno id).1 hi
    · exact (hno id).2 hi
  rw [(hr r).2 hne]
  constructor
  · intro hall
    refine ⟨fun x hx => ?_, fun x hx => ?_⟩
    · have := hall (htpasswdContent x.1 x.2)
        (List.mem_append.2 (.inl (List.mem_map.2 ⟨x, hx, rfl⟩)))
      exact (C44_basic_iff r x.2).1 this
    · have := hall (jwksContent x.1 x.2)
        (List.mem_append.2 (.inr (List.mem_map.2 ⟨x, hx, rfl⟩)))
      obtain ⟨tok, k, c, hb, ⟨before, after, he, hs⟩, hv, _⟩ := (C44_accepted_iff r _).1 this
      rcases hs with ⟨kid, h1, h2, h3⟩ | ⟨_, h2, _⟩
      · exact ⟨tok, kid, before, k, after, c, hb, h1, he, h2, h3, hv⟩
      · exact absurd h2 (by simp)
  · rintro ⟨h1, h2⟩ c hc
    rcases List.mem_append.1 hc with hc | hc
    · obtain ⟨x, hx, rfl⟩ := List.mem_map.1 hc
      exact (C44_basic_iff r x.2).2 (h1 x hx)
    · obtain ⟨x, hx, rfl⟩ := List.mem_map.1 hc
      obtain ⟨tok, kid, before, k, after, cl, hb, hk, he, hkid, hbef, hv⟩ := h2 x hx
      refine (C44_accepted_iff r _).2 ⟨tok, k, cl, hb, ⟨before, after, he, .inl ⟨kid, hk, hkid, hbef⟩⟩,
        hv, ?_, ?_⟩
      · intro i hi; simp at hi
      · intro hn; simp at hn

example : ∃ a, guard ⟨[(none, "users".toList)], []⟩ false none (some none) none = .ok (some a) ∧
    verify (demoReq (.basic "ann".toList "pw".toList)) a = .succeed := by
  refine ⟨_, rfl, ?_⟩
  obtain ⟨a, ha, hr⟩ := C67_every_linked_file ⟨[(none, "users".toList)], []⟩ none (some none) none
    _ rfl (by simp) (by rintro id; constructor <;> rintro ⟨l, hl, _⟩ <;> simp at hl)
  cases ha
  exact (hr _).2 ⟨by
    intro x hx
    simp only [List.mem_singleton] at hx
    subst hx
    exact ⟨_, _, rfl, by decide⟩, by intro x hx; simp at hx⟩

/-- The provider ids of a protected output type are ignored: a field protected by `u` whose
output type asks for `adm` is guarded by `u` alone. -/
theorem C67_output_type_ids_violated_by_field_ids :
    guard demoExt false none (some (some ["u".toList])) (some (some ["adm".toList])) =
      guard demoExt false none (some (some ["u".toList])) none := by rfl

/-- A type protected by every provider is weakened by a field that names one: the field of such
a type is guarded by that one provider alone. -/
theorem C67_all_providers_violated_by_field_ids :
    guard demoExt false (some none) (some (some ["u".toList])) none =
      .ok (some (.provider (.basic "users".toList))) := by rfl

/-- With a password file and a key set every provider cannot be passed at once: the default
guard of such a configuration rejects every request. -/
theorem C67_mixed_providers_reject_all (r : Req) (f : Text) (o : Jwt) :
    verify r (.and (.provider (.basic f)) (.provider (.jwt o))) ≠ .succeed := by
  intro h
  obtain ⟨h1, h2⟩ := (C42_boolean r _).1 h
  obtain ⟨u, p, hh, _⟩ := (C44_basic_iff r f).1 h1
  obtain ⟨t, _, _, hb, _⟩ := (C44_accepted_iff r o).1 h2
  rw [hh] at hb; simp at hb

example : verify (demoReq (.bearer "t".toList)) (.and users tokens) ≠ .succeed :=
  C67_mixed_providers_reject_all _ _ _

end Verif.Auth
