import Verif.Settings.Spec

set_option linter.unusedSimpArgs false

namespace Verif.Settings

open Verif.Mustache (Text)

/-- The errors of a validation. -/
def errs {α : Type} : V α → List Err
  | .ok _ => []
  | .error es => es

/-- Refusals have errors. -/
def Proper {α : Type} (v : V α) : Prop := ∀ es, v = .error es → es ≠ []

theorem ok_iff {α : Type} {v : V α} (h : Proper v) : (∃ a, v = .ok a) ↔ ∀ e, e ∉ errs v := by
  cases v with
  | ok a => simp [errs]
  | error es =>
    constructor
    · rintro ⟨a, ha⟩; cases ha
    · intro hn
      exact absurd (List.eq_nil_iff_forall_not_mem.mpr hn) (h es rfl)

theorem proper_fail {α : Type} (k : Kind) : Proper (fail k : V α) := by
  intro es h
  cases h
  simp

theorem proper_ok {α : Type} (a : α) : Proper (.ok a : V α) := by
  intro es h
  cases h

theorem mem_both {α β : Type} (a : V α) (b : V β) (e : Err) : e ∈ errs (both a b) ↔ e ∈ errs a ∨ e ∈ errs b := by
  cases a <;> cases b <;> simp [both, errs]

theorem proper_both {α β : Type} {a : V α} {b : V β} (ha : Proper a) (hb : Proper b) : Proper (both a b) := by
  cases a with
  | ok a => cases b with
    | ok b => exact proper_ok _
    | error f => intro es h; cases h; exact hb f rfl
  | error e =>
    have := ha e rfl
    cases b with
    | ok b => intro es h; cases h; exact this
    | error f => intro es h; cases h; simp [this]

theorem both_ok {α β : Type} {a : V α} {b : V β} {p : α × β} (h : both a b = .ok p) : a = .ok p.1 ∧ b = .ok p.2 := by
  cases a <;> cases b <;> simp [both] at h
  subst h
  exact ⟨rfl, rfl⟩

theorem mem_mapV {α β : Type} (f : α → β) (v : V α) : errs (mapV f v) = errs v := by cases v <;> rfl

theorem proper_mapV {α β : Type} (f : α → β) {v : V α} (h : Proper v) : Proper (mapV f v) := by
  cases v with
  | ok => exact proper_ok _
  | error e => intro es he; cases he; exact h e rfl

theorem mapV_ok {α β : Type} {f : α → β} {v : V α} {b : β} (h : mapV f v = .ok b) : ∃ a, v = .ok a ∧ b = f a := by
  cases v <;> simp [mapV] at h
  exact ⟨_, rfl, h.symm⟩

theorem mem_each {α β : Type} (f : α → V β) (l : List α) (e : Err) : e ∈ errs (each f l) ↔ ∃ a ∈ l, e ∈ errs (f a) := by
  induction l with
  | nil => simp [each, errs]
  | cons a l ih =>
    have h : e ∈ errs (each f (a :: l)) ↔ e ∈ errs (f a) ∨ e ∈ errs (each f l) := by
      rw [each]
      cases f a <;> cases each f l <;> simp [errs]
    rw [h, ih]
    simp

theorem proper_each {α β : Type} {f : α → V β} (hf : ∀ a, Proper (f a)) (l : List α) : Proper (each f l) := by
  induction l with
  | nil => exact proper_ok _
  | cons a l ih =>
    intro es h
    rw [each] at h
    cases h1 : f a <;> cases h2 : each f l <;> simp [h1, h2] at h
    · subst h
      simp [hf a _ h1]
    · subst h
      exact hf a _ h1
    · subst h
      exact ih _ h2

theorem each_ok {α β : Type} {f : α → V β} {g : α → β} (hg : ∀ a b, f a = .ok b → b = g a) :
    ∀ {l : List α} {bs : List β}, each f l = .ok bs → bs = l.map g
  | [], bs, h => by
    cases h
    rfl
  | a :: l, bs, h => by
    rw [each] at h
    cases h1 : f a <;> cases h2 : each f l <;> simp [h1, h2] at h
    subst h
    rw [hg a _ h1, each_ok hg h2]
    rfl

theorem mem_trace {α : Type} (p : Text) (v : V α) (k : Kind) (q : List Text) :
    (⟨k, q⟩ : Err) ∈ errs (trace p v) ↔ ∃ r, q = p :: r ∧ ⟨k, r⟩ ∈ errs v := by
  cases v with
  | ok => simp [trace, errs]
  | error es =>
    simp only [trace, errs, List.mem_map, Err.mk.injEq]
    constructor
    · rintro ⟨x, hx, rfl, rfl⟩
      exact ⟨_, rfl, hx⟩
    · rintro ⟨r, rfl, h⟩
      exact ⟨_, h, rfl, rfl⟩

theorem proper_trace {α : Type} (p : Text) {v : V α} (h : Proper v) : Proper (trace p v) := by
  cases v with
  | ok => exact proper_ok _
  | error e => intro es he; cases he; simp [h e rfl]

theorem trace_ok {α : Type} {p : Text} {v : V α} {a : α} (h : trace p v = .ok a) : v = .ok a := by
  cases v <;> simp [trace] at h
  rw [h]

/-! ## Headers -/

theorem headerName_some (t : Text) : (∃ n, Verif.Hook.headerName t = some n) ↔ HeaderNameOk t := by
  unfold Verif.Hook.headerName HeaderNameOk NameChar
  cases t with
  | nil => simp
  | cons c r => simp [Verif.Hook.tokenChar]

theorem headerName_eq {t n : Text} (h : Verif.Hook.headerName t = some n) : n = small t := by
  unfold Verif.Hook.headerName at h
  split at h <;> simp at h
  exact h.symm

theorem headerName_none (t : Text) : Verif.Hook.headerName t = none ↔ ¬ HeaderNameOk t := by
  rw [← headerName_some]
  cases Verif.Hook.headerName t <;> simp

theorem validValue_iff (t : Text) : Verif.Hook.validValue t = true ↔ HeaderValueOk t := by
  simp [Verif.Hook.validValue, HeaderValueOk, or_comm]

theorem mem_headerV (kv : Text × Text) (e : Err) : e ∈ errs (headerV kv) ↔
    (e = ⟨.headerName kv.1, []⟩ ∧ ¬ HeaderNameOk kv.1) ∨ (e = ⟨.headerValue kv.2, []⟩ ∧ ¬ HeaderValueOk kv.2) := by
  unfold headerV
  rw [mem_both, ← headerName_none, ← validValue_iff]
  cases Verif.Hook.headerName kv.1 <;> cases Verif.Hook.validValue kv.2 <;> simp [errs, fail]

theorem proper_headerV (kv : Text × Text) : Proper (headerV kv) := by
  unfold headerV
  apply proper_both
  · split
    · exact proper_ok _
    · exact proper_fail _
  · split
    · exact proper_ok _
    · exact proper_fail _

theorem headerV_ok {kv p : Text × Text} (h : headerV kv = .ok p) : p = (small kv.1, kv.2) := by
  obtain ⟨h1, h2⟩ := both_ok h
  split at h1
  · next n hn =>
    cases h1
    split at h2 <;> simp [fail] at h2
    rw [h2, ← headerName_eq hn]
  · cases h1

theorem toLower_x (c : Char) : c.toLower = 'x' ↔ c = 'x' ∨ c = 'X' := by
  constructor
  · intro h
    unfold Char.toLower at h
    split at h
    · next hc =>
      right
      apply Char.ext
      have h2 := congrArg Char.val h
      simp at h2
      have h3 : c.val.toNat + 32 = 120 := by
        have := congrArg UInt32.toNat h2
        simp at this
        have hb : c.val.toNat ≤ 90 := hc.2
        have hcn : c.toNat = c.val.toNat := rfl
        omega
      apply UInt32.toNat_inj.mp
      show c.val.toNat = 88
      omega
    · exact .inl h
  · rintro (rfl | rfl) <;> decide

theorem toLower_dash (c : Char) : c.toLower = '-' ↔ c = '-' := by
  constructor
  · intro h
    unfold Char.toLower at h
    split at h
    · next hc =>
      exfalso
      have h2 := congrArg Char.val h
      simp at h2
      have := congrArg UInt32.toNat h2
      simp at this
      have hb : c.val.toNat ≤ 90 := hc.2
      have hcn : c.toNat = c.val.toNat := rfl
      have ha : 65 ≤ c.val.toNat := hc.1
      omega
    · exact h
  · rintro rfl; decide

theorem xPrefix (h : Text) : "x-".toList.isPrefixOf (h.map Char.toLower) = true ↔
    ∃ r, h = 'x' :: '-' :: r ∨ h = 'X' :: '-' :: r := by
  match h with
  | [] => simp
  | [a] => simp [List.isPrefixOf]
  | a :: b :: r =>
    have e : "x-".toList.isPrefixOf ((a :: b :: r).map Char.toLower) = true ↔ a.toLower = 'x' ∧ b.toLower = '-' := by
      show ('x' == a.toLower && ('-' == b.toLower && true)) = true ↔ _
      rw [Bool.and_true, Bool.and_eq_true, beq_iff_eq, beq_iff_eq, eq_comm, eq_comm (a := '-')]
    rw [e, toLower_x, toLower_dash]
    constructor
    · rintro ⟨h1 | h1, h2⟩
      · exact ⟨r, .inl (by rw [h1, h2])⟩
      · exact ⟨r, .inr (by rw [h1, h2])⟩
    · rintro ⟨q, h | h⟩
      · simp at h; exact ⟨.inl h.1, h.2.1⟩
      · simp at h; exact ⟨.inr h.1, h.2.1⟩

theorem mem_experimentalOne (h : Text) (e : Err) : e ∈ errs (experimentalOne h) ↔
    (e = ⟨.experimental h, []⟩ ∧ ¬ ∃ r, h = 'x' :: '-' :: r ∨ h = 'X' :: '-' :: r) ∨
    (e = ⟨.headerName h, []⟩ ∧ (∃ r, h = 'x' :: '-' :: r ∨ h = 'X' :: '-' :: r) ∧ ¬ HeaderNameOk h) := by
  rw [← xPrefix, ← headerName_none]
  unfold experimentalOne
  cases hx : "x-".toList.isPrefixOf (h.map Char.toLower)
  · simp [errs, fail]
  · cases Verif.Hook.headerName h <;> simp [errs, fail]

theorem proper_experimentalOne (h : Text) : Proper (experimentalOne h) := by
  unfold experimentalOne
  split
  · exact proper_fail _
  · split
    · exact proper_ok _
    · exact proper_fail _

theorem experimentalOne_ok {h n : Text} (e : experimentalOne h = .ok n) : n = small h := by
  unfold experimentalOne at e
  split at e
  · cases e
  · split at e
    · next m hm =>
      cases e
      exact headerName_eq hm
    · cases e

/-! ## The parts -/

theorem customOf_eq (c : Conf) : customOf c = customHeaders c := by
  unfold customOf customHeaders
  cases c.headers <;> rfl

theorem experimentalOf_eq (c : Conf) : experimentalOf c = experimentalHeaders c := by
  unfold experimentalOf experimentalHeaders
  cases hh : c.headers with
  | none => rfl
  | some h =>
    obtain ⟨a, b, e, d, f⟩ := h
    cases e <;> rfl

variable {Addr : Type} (ip : Text → Option Addr) (lo : Addr)

theorem mem_hostnameV (h : Text) (e : Err) : e ∈ errs (hostnameV ip lo h) ↔
    e = ⟨.hostname, ["schema".toList, "@server".toList, "hostname".toList]⟩ ∧ h ≠ "localhost".toList ∧ ip h = none := by
  unfold hostnameV
  obtain ⟨k, q⟩ := e
  split
  · next hl => simp [errs, hl]
  · next hl =>
    simp only [mem_trace]
    cases hi : ip h with
    | some a => simp [errs, hi]
    | none =>
      simp only [errs, fail, List.mem_singleton, Err.mk.injEq]
      constructor
      · rintro ⟨r, rfl, s, rfl, t, rfl, rfl, rfl⟩
        exact ⟨⟨rfl, rfl⟩, hl, trivial⟩
      · rintro ⟨⟨rfl, rfl⟩, _⟩
        exact ⟨_, rfl, _, rfl, _, rfl, rfl, rfl⟩

theorem proper_hostnameV (h : Text) : Proper (hostnameV ip lo h) := by
  unfold hostnameV
  split
  · exact proper_ok _
  · apply proper_trace; apply proper_trace; apply proper_trace
    split
    · exact proper_ok _
    · exact proper_fail _

theorem mem_headersV (l : List (Text × Text)) (e : Err) : e ∈ errs (headersV l) ↔ ∃ kv ∈ l,
    (e = ⟨.headerName kv.1, ["schema".toList, "@server".toList, "headers".toList, "custom".toList]⟩ ∧ ¬ HeaderNameOk kv.1)
    ∨ (e = ⟨.headerValue kv.2, ["schema".toList, "@server".toList, "headers".toList, "custom".toList]⟩
      ∧ ¬ HeaderValueOk kv.2) := by
  unfold headersV
  obtain ⟨k, q⟩ := e
  simp only [mem_trace, mem_each, mem_headerV, Err.mk.injEq]
  constructor
  · rintro ⟨r, rfl, s, rfl, t, rfl, u, rfl, a, ha, h⟩
    refine ⟨a, ha, ?_⟩
    rcases h with ⟨⟨rfl, rfl⟩, h⟩ | ⟨⟨rfl, rfl⟩, h⟩
    · exact .inl ⟨⟨rfl, rfl⟩, h⟩
    · exact .inr ⟨⟨rfl, rfl⟩, h⟩
  · rintro ⟨a, ha, ⟨⟨rfl, rfl⟩, h⟩ | ⟨⟨rfl, rfl⟩, h⟩⟩
    · exact ⟨_, rfl, _, rfl, _, rfl, _, rfl, a, ha, .inl ⟨⟨rfl, rfl⟩, h⟩⟩
    · exact ⟨_, rfl, _, rfl, _, rfl, _, rfl, a, ha, .inr ⟨⟨rfl, rfl⟩, h⟩⟩

theorem proper_headersV (l : List (Text × Text)) : Proper (headersV l) := by
  unfold headersV
  apply proper_trace; apply proper_trace; apply proper_trace; apply proper_trace
  exact proper_each proper_headerV l

theorem headersV_ok {l r : List (Text × Text)} (h : headersV l = .ok r) : r = l.map (fun kv => (small kv.1, kv.2)) := by
  exact each_ok (fun a b hab => headerV_ok hab) (trace_ok (trace_ok (trace_ok (trace_ok h))))

theorem mem_experimentalV (l : List Text) (e : Err) : e ∈ errs (experimentalV l) ↔ ∃ h ∈ l,
    (e = ⟨.experimental h, ["schema".toList, "@server".toList, "headers".toList, "experimental".toList]⟩
      ∧ ¬ ∃ r, h = 'x' :: '-' :: r ∨ h = 'X' :: '-' :: r)
    ∨ (e = ⟨.headerName h, ["schema".toList, "@server".toList, "headers".toList, "experimental".toList]⟩
      ∧ (∃ r, h = 'x' :: '-' :: r ∨ h = 'X' :: '-' :: r) ∧ ¬ HeaderNameOk h) := by
  unfold experimentalV
  obtain ⟨k, q⟩ := e
  simp only [mem_trace, mem_each, mem_experimentalOne, Err.mk.injEq]
  constructor
  · rintro ⟨r, rfl, s, rfl, t, rfl, u, rfl, a, ha, h⟩
    refine ⟨a, ha, ?_⟩
    rcases h with ⟨⟨rfl, rfl⟩, h⟩ | ⟨⟨rfl, rfl⟩, h⟩
    · exact .inl ⟨⟨rfl, rfl⟩, h⟩
    · exact .inr ⟨⟨rfl, rfl⟩, h⟩
  · rintro ⟨a, ha, ⟨⟨rfl, rfl⟩, h⟩ | ⟨⟨rfl, rfl⟩, h⟩⟩
    · exact ⟨_, rfl, _, rfl, _, rfl, _, rfl, a, ha, .inl ⟨⟨rfl, rfl⟩, h⟩⟩
    · exact ⟨_, rfl, _, rfl, _, rfl, _, rfl, a, ha, .inr ⟨⟨rfl, rfl⟩, h⟩⟩

theorem proper_experimentalV (l : List Text) : Proper (experimentalV l) := by
  unfold experimentalV
  apply proper_trace; apply proper_trace; apply proper_trace; apply proper_trace
  exact proper_each proper_experimentalOne l

theorem experimentalV_ok {l r : List Text} (h : experimentalV l = .ok r) : r = l.map small := by
  exact each_ok (fun a b hab => experimentalOne_ok hab) (trace_ok (trace_ok (trace_ok (trace_ok h))))

theorem mem_corsV (o : Option Verif.Front.CorsConfig) (e : Err) : e ∈ errs (corsV o) ↔
    e = ⟨.cors, ["schema".toList, "@server".toList, "headers".toList, "cors".toList]⟩
      ∧ ∃ c, o = some c ∧ Verif.Front.corsOf c = none := by
  unfold corsV
  obtain ⟨k, q⟩ := e
  simp only [mem_trace]
  cases o with
  | none => simp [errs]
  | some c =>
    cases hc : Verif.Front.corsOf c with
    | some x => simp [errs, hc]
    | none =>
      simp only [hc, errs, fail, List.mem_singleton, Err.mk.injEq]
      constructor
      · rintro ⟨r, rfl, s, rfl, t, rfl, u, rfl, rfl, rfl⟩
        exact ⟨⟨rfl, rfl⟩, c, rfl, hc⟩
      · rintro ⟨⟨rfl, rfl⟩, _⟩
        exact ⟨_, rfl, _, rfl, _, rfl, _, rfl, rfl, rfl⟩

theorem proper_corsV (o : Option Verif.Front.CorsConfig) : Proper (corsV o) := by
  unfold corsV
  apply proper_trace; apply proper_trace; apply proper_trace; apply proper_trace
  split
  · exact proper_ok _
  · split
    · exact proper_ok _
    · exact proper_fail _

theorem corsV_ok {o : Option Verif.Front.CorsConfig} {r : Option Verif.Front.Cors} (h : corsV o = .ok r) :
    r = o.bind Verif.Front.corsOf := by
  have h := trace_ok (trace_ok (trace_ok (trace_ok h)))
  cases o with
  | none =>
    cases h
    rfl
  | some c =>
    rw [Option.bind_some]
    cases hc : Verif.Front.corsOf c with
    | none => simp [hc, fail] at h
    | some k =>
      simp [hc] at h
      exact h.symm

theorem httpOf_ok {c : Conf} {x : Ext} (h : ProtocolOk c x) : ∃ p, httpOf c x = .ok p := by
  unfold httpOf
  cases hv : c.version with
  | none => exact ⟨_, rfl⟩
  | some v =>
    cases v with
    | http1 => exact ⟨_, rfl⟩
    | http2 =>
      obtain ⟨h1, h2⟩ := h hv
      cases hc : x.certs with
      | nil => exact absurd hc h1
      | cons a l =>
        cases hk : x.keys with
        | nil => exact absurd hk h2
        | cons k ks => exact ⟨_, rfl⟩

theorem httpOf_error {c : Conf} {x : Ext} {es : List Err} (h : httpOf c x = .error es) :
    es ≠ [] ∧ ∀ e ∈ es, Wrong ip c x e := by
  unfold httpOf at h
  cases hv : c.version with
  | none => simp [hv] at h
  | some v =>
    cases v with
    | http1 => simp [hv] at h
    | http2 =>
      simp only [hv, Option.getD_some] at h
      cases hc : x.certs with
      | nil =>
        simp [hc, fail] at h
        subst h
        refine ⟨by simp, fun e he => ?_⟩
        simp at he
        subst he
        exact .certificate hv hc
      | cons a l =>
        cases hk : x.keys with
        | nil =>
          simp [hc, hk, fail] at h
          subst h
          refine ⟨by simp, fun e he => ?_⟩
          simp at he
          subst he
          exact .key hv hk
        | cons k ks => simp [hc, hk] at h

theorem http_not_ok {c : Conf} {x : Ext} {p : Http} (h : httpOf c x = .ok p) : ProtocolOk c x := by
  intro hv
  unfold httpOf at h
  simp only [hv, Option.getD_some] at h
  constructor
  · intro hc
    simp [hc, fail] at h
  · intro hk
    cases hc : x.certs <;> simp [hc, hk, fail] at h

/-- The four parts that are checked together. -/
def parts (c : Conf) : V (((Addr × List (Text × Text)) × List Text) × Option Verif.Front.Cors) :=
  both (both (both
    (hostnameV ip lo ((c.hostname.getD "127.0.0.1".toList).map Char.toLower))
    (headersV (customOf c)))
    (experimentalV (experimentalOf c)))
    (corsV (c.headers.bind Headers.cors))

theorem proper_parts (c : Conf) : Proper (parts ip lo c) :=
  proper_both (proper_both (proper_both (proper_hostnameV ip lo _) (proper_headersV _)) (proper_experimentalV _))
    (proper_corsV _)

theorem mem_parts (hip : ip "127.0.0.1".toList ≠ none) {c : Conf} {x : Ext} (hp : ProtocolOk c x) (e : Err) :
    e ∈ errs (parts ip lo c) ↔ Wrong ip c x e := by
  unfold parts
  rw [mem_both, mem_both, mem_both, mem_hostnameV, mem_headersV, mem_experimentalV, mem_corsV, customOf_eq,
    experimentalOf_eq]
  constructor
  · rintro (((⟨rfl, h1, h2⟩ | ⟨⟨k, v⟩, hm, ⟨rfl, h⟩ | ⟨rfl, h⟩⟩) | ⟨h, hm, ⟨rfl, h'⟩ | ⟨rfl, h1, h2⟩⟩) | ⟨rfl, o, h1, h2⟩)
    · cases hh : c.hostname with
      | none =>
        rw [hh] at h2
        exact absurd h2 hip
      | some t =>
        rw [hh] at h1 h2
        exact .hostname t hh h1 h2
    · exact .name k v hm h
    · exact .value k v hm h
    · exact .prefix h hm h'
    · exact .experimental h hm h1 h2
    · cases hh : c.headers with
      | none => simp [hh] at h1
      | some h => exact .cors h o hh (by simpa [hh] using h1) h2
  · intro hw
    cases hw with
    | certificate hv hc => exact absurd hc (hp hv).1
    | key hv hk => exact absurd hk (hp hv).2
    | hostname h h1 h2 h3 => exact .inl (.inl (.inl ⟨rfl, by rw [h1]; exact h2, by rw [h1]; exact h3⟩))
    | name k v hm h => exact .inl (.inl (.inr ⟨(k, v), hm, .inl ⟨rfl, h⟩⟩))
    | value k v hm h => exact .inl (.inl (.inr ⟨(k, v), hm, .inr ⟨rfl, h⟩⟩))
    | «prefix» h hm h1 => exact .inl (.inr ⟨h, hm, .inl ⟨rfl, h1⟩⟩)
    | experimental h hm h1 h2 => exact .inl (.inr ⟨h, hm, .inr ⟨rfl, h1, h2⟩⟩)
    | cors h o h1 h2 h3 => exact .inr ⟨rfl, o, by simp [h1, h2], h3⟩

theorem settings_http {cpus : Nat} {c : Conf} {x : Ext} {p : Http} (h : httpOf c x = .ok p) :
    settings ip lo cpus c x = mapV (fun r => make cpus c x r.1.1.1 p r.1.1.2 r.1.2 r.2) (parts ip lo c) := by
  unfold settings
  rw [h]
  rfl

theorem settings_error {cpus : Nat} {c : Conf} {x : Ext} {es : List Err} (h : httpOf c x = .error es) :
    settings ip lo cpus c x = .error es := by
  unfold settings
  rw [h]

/-! ## Variables -/

theorem getVars_snoc (l : List (Text × Text)) (kv : Text × Text) : getVars (l ++ [kv]) = putVar (getVars l) kv := by
  simp [getVars]

/-! ## Words -/

theorem refChar_iff (c : Char) : refChar c = true ↔ c.isAlphanum = true ∨ c = '-' ∨ c = '_' := by
  simp [refChar, or_assoc]

theorem takeWhile_word (a b : Text) (h : ∀ c ∈ a, refChar c = true) :
    (a ++ '@' :: b).takeWhile refChar = a ∧ (a ++ '@' :: b).dropWhile refChar = '@' :: b := by
  induction a with
  | nil => simp [show refChar '@' = false by decide]
  | cons c r ih =>
    obtain ⟨h1, h2⟩ := ih (fun x hx => h x (List.mem_cons_of_mem _ hx))
    have hc := h c (by simp)
    exact ⟨by rw [List.cons_append, List.takeWhile_cons, hc]; simp [h1],
      by rw [List.cons_append, List.dropWhile_cons, hc]; simp [h2]⟩

theorem takeWhile_all (p : Char → Bool) (t : Text) : ∀ c ∈ t.takeWhile p, p c = true := by
  induction t with
  | nil => simp
  | cons a t ih =>
    intro c hc
    rw [List.takeWhile_cons] at hc
    split at hc
    · next ha =>
      rcases List.mem_cons.mp hc with rfl | hc
      · exact ha
      · exact ih c hc
    · cases hc

theorem splitOnce_word (a b : Text) (h : '@' ∉ a) : splitOnce (a ++ '@' :: b) = some (a, b) := by
  induction a with
  | nil => simp [splitOnce]
  | cons c r ih =>
    have hc : c ≠ '@' := fun e => h (by simp [e])
    rw [List.cons_append, splitOnce, if_neg hc, ih (fun e => h (List.mem_cons_of_mem _ e))]
    rfl

end Verif.Settings
