import Verif.Settings.Lemmas

/-!
# Properties of the settings of the server

C147: the server runs with the settings of the configuration, and settings that cannot be used are all reported.
C148: telemetry is sent where the configuration says.
-/

set_option linter.unusedSimpArgs false

namespace Verif.Settings

open Verif.Mustache (Text)

variable {Addr : Type} (ip : Text → Option Addr) (lo : Addr)

/-! ## C147: settings -/

/-- C147: settings are accepted exactly if nothing is wrong with them. -/
theorem C147_accepted (hip : ip "127.0.0.1".toList ≠ none) (cpus : Nat) (c : Conf) (x : Ext) :
    (∃ s, settings ip lo cpus c x = .ok s) ↔ ∀ e, ¬ Wrong ip c x e := by
  cases h : httpOf c x with
  | error es =>
    rw [settings_error ip lo h]
    obtain ⟨h1, h2⟩ := httpOf_error ip h
    constructor
    · rintro ⟨s, hs⟩; cases hs
    · intro hn
      cases es with
      | nil => exact absurd rfl h1
      | cons e _ => exact absurd (h2 e (by simp)) (hn e)
  | ok p =>
    rw [settings_http ip lo h, ok_iff (proper_mapV _ (proper_parts ip lo c)), mem_mapV]
    have := mem_parts ip lo hip (http_not_ok h) (c := c) (x := x)
    constructor
    · intro hn e hw; exact hn e ((this e).mpr hw)
    · intro hn e he; exact hn e ((this e).mp he)

/-- C147: what is reported is wrong, and a refusal reports something. -/
theorem C147_reported (hip : ip "127.0.0.1".toList ≠ none) (cpus : Nat) (c : Conf) (x : Ext) (es : List Err)
    (h : settings ip lo cpus c x = .error es) : es ≠ [] ∧ ∀ e ∈ es, Wrong ip c x e := by
  cases hh : httpOf c x with
  | error fs =>
    rw [settings_error ip lo hh] at h
    cases h
    exact httpOf_error ip hh
  | ok p =>
    rw [settings_http ip lo hh] at h
    refine ⟨proper_mapV _ (proper_parts ip lo c) es h, fun e he => ?_⟩
    apply (mem_parts ip lo hip (http_not_ok hh) e).mp
    rw [← mem_mapV (fun r => make cpus c x r.1.1.1 p r.1.1.2 r.1.2 r.2), h]
    exact he

/-- C147 (partial: a server that is to use HTTP/2 has a certificate and a key).  Everything that is wrong is reported, at
once. -/
theorem C147_all_partial (hip : ip "127.0.0.1".toList ≠ none) (cpus : Nat) (c : Conf) (x : Ext) (hp : ProtocolOk c x)
    (es : List Err) (h : settings ip lo cpus c x = .error es) (e : Err) (hw : Wrong ip c x e) : e ∈ es := by
  obtain ⟨p, hh⟩ := httpOf_ok hp
  rw [settings_http ip lo hh] at h
  have := (mem_parts ip lo hip hp e).mpr hw
  rw [← mem_mapV (fun r => make cpus c x r.1.1.1 p r.1.1.2 r.1.2 r.2), h] at this
  exact this

theorem accepted_parts {cpus : Nat} {c : Conf} {x : Ext} {s : Server Addr} (h : settings ip lo cpus c x = .ok s) :
    ∃ p r, httpOf c x = .ok p ∧ parts ip lo c = .ok r ∧ s = make cpus c x r.1.1.1 p r.1.1.2 r.1.2 r.2 := by
  cases hh : httpOf c x with
  | error es => rw [settings_error ip lo hh] at h; cases h
  | ok p =>
    rw [settings_http ip lo hh] at h
    obtain ⟨r, h1, h2⟩ := mapV_ok h
    exact ⟨p, r, rfl, h1, h2⟩

/-- C147: a server runs with the switches and numbers that are given, and with the documented ones where none are
given. -/
theorem C147_given (cpus : Nat) (c : Conf) (x : Ext) (s : Server Addr) (h : settings ip lo cpus c x = .ok s) :
    s.port = given c.port 8000 ∧ s.workers = given c.workers cpus ∧ s.introspection = given c.introspection true
    ∧ s.queryValidation = given c.queryValidation false ∧ s.responseValidation = given c.responseValidation false
    ∧ s.batchRequests = given c.batchRequests false ∧ s.showcase = given c.showcase false
    ∧ s.apolloTracing = given c.apolloTracing false ∧ s.pipelineFlush = given c.pipelineFlush true
    ∧ s.timeout = given c.globalResponseTimeout 0
    ∧ s.routes.status = given (c.routes.map Routes.status) "/status".toList
    ∧ s.routes.graphql = given (c.routes.map Routes.graphql) "/graphql".toList
    ∧ s.cacheControl = given (c.headers.bind Headers.cacheControl) false
    ∧ s.setCookies = given (c.headers.bind Headers.setCookies) false := by
  obtain ⟨p, r, _, _, rfl⟩ := accepted_parts ip lo h
  have g : ∀ {α : Type} (o : Option α) (d : α), o.getD d = given o d := by intro α o d; cases o <;> rfl
  refine ⟨g _ _, g _ _, g _ _, g _ _, g _ _, g _ _, g _ _, g _ _, g _ _, g _ _, ?_, ?_, ?_, ?_⟩
  · show (c.routes.getD _).status = _
    cases c.routes <;> rfl
  · show (c.routes.getD _).graphql = _
    cases c.routes <;> rfl
  · show (c.headers.map _).getD false = _
    cases c.headers with
    | none => rfl
    | some h => exact g _ _
  · show (c.headers.map _).getD false = _
    cases c.headers with
    | none => rfl
    | some h => exact g _ _

/-- C147: the address is the one that is given; `localhost`, in any case, is the loopback address. -/
theorem C147_address (cpus : Nat) (c : Conf) (x : Ext) (s : Server Addr) (h : settings ip lo cpus c x = .ok s) (t : Text)
    (ht : c.hostname = some t) : (small t = "localhost".toList → s.hostname = lo)
      ∧ (small t ≠ "localhost".toList → ip (small t) = some s.hostname) := by
  obtain ⟨p, r, _, hr, rfl⟩ := accepted_parts ip lo h
  have h1 := (both_ok (both_ok (both_ok hr).1).1).1
  rw [ht, Option.getD_some] at h1
  change hostnameV ip lo (small t) = _ at h1
  show (small t = "localhost".toList → r.1.1.1 = lo) ∧ (small t ≠ "localhost".toList → ip (small t) = some r.1.1.1)
  unfold hostnameV at h1
  constructor
  · intro hl
    rw [if_pos hl] at h1
    cases h1
    rfl
  · intro hl
    rw [if_neg hl] at h1
    have h1 := trace_ok (trace_ok (trace_ok h1))
    change (match ip (small t) with | some a => Except.ok a | none => fail .hostname) = _ at h1
    cases hi : ip (small t) with
    | none => simp [hi, fail] at h1
    | some a => simp [hi] at h1; rw [h1]

/-- C147: responses get all headers that are given, in order, with names in lower case. -/
theorem C147_headers (cpus : Nat) (c : Conf) (x : Ext) (s : Server Addr) (h : settings ip lo cpus c x = .ok s) (n : Text) :
    (s.responseHeaders.filter (fun kv => kv.1 = n)).map (·.2)
      = ((customHeaders c).filter (fun kv => small kv.1 = n)).map (·.2)
    ∧ (n ∈ s.experimental ↔ ∃ k ∈ experimentalHeaders c, small k = n) := by
  obtain ⟨p, r, _, hr, rfl⟩ := accepted_parts ip lo h
  have h1 := headersV_ok (both_ok (both_ok (both_ok hr).1).1).2
  have h2 := experimentalV_ok (both_ok (both_ok hr).1).2
  show ((r.1.1.2).filter _).map _ = _ ∧ (n ∈ r.1.2 ↔ _)
  rw [h1, h2, customOf_eq, experimentalOf_eq]
  refine ⟨?_, by simp [List.mem_map]⟩
  rw [List.filter_map, List.map_map]
  rfl

/-- C147: rules for other origins are those of the configuration. -/
theorem C147_cors (cpus : Nat) (c : Conf) (x : Ext) (s : Server Addr) (h : settings ip lo cpus c x = .ok s) :
    s.cors = (c.headers.bind Headers.cors).bind Verif.Front.corsOf := by
  obtain ⟨p, r, _, hr, rfl⟩ := accepted_parts ip lo h
  exact corsV_ok (both_ok hr).2

theorem find_put (m : List (Text × Text)) (kv : Text × Text) (k : Text) :
    ((putVar m kv).find? (fun x => x.1 = k)).map (·.2)
      = if kv.1 = k then some kv.2 else (m.find? (fun x => x.1 = k)).map (·.2) := by
  unfold putVar
  by_cases hk : kv.1 = k
  · subst hk
    rw [if_pos rfl, List.find?_append]
    have : (m.filter (fun x => x.1 ≠ kv.1)).find? (fun x => x.1 = kv.1) = none := by
      rw [List.find?_eq_none]
      intro x hx
      have := (List.mem_filter.mp hx).2
      simpa using this
    rw [this]
    simp
  · rw [if_neg hk, List.find?_append, List.find?_filter]
    have e : (fun a : Text × Text => decide (a.1 ≠ kv.1) && decide (a.1 = k)) = fun a => decide (a.1 = k) := by
      funext a
      by_cases ha : a.1 = k
      · have : a.1 ≠ kv.1 := fun h => hk (h.symm.trans ha)
        simp [ha, this]
        intro h; exact hk h.symm
      · simp [ha]
    simp only [Bool.decide_and, Bool.decide_eq_true] at e ⊢
    rw [e]
    simp [hk]

theorem find_vars (l : List (Text × Text)) (k : Text) : ∀ m : List (Text × Text),
    ((l.foldl putVar m).find? (fun x => x.1 = k)).map (·.2) = (lastOf l k).or ((m.find? (fun x => x.1 = k)).map (·.2)) := by
  induction l with
  | nil => intro m; rfl
  | cons kv l ih =>
    intro m
    rw [List.foldl_cons, ih, find_put]
    unfold lastOf
    rw [List.reverse_cons, List.find?_append]
    cases h : l.reverse.find? (fun x => x.1 = k) with
    | some y => simp
    | none => by_cases hk : kv.1 = k <;> simp [hk]

/-- C147: a variable has the value that is given last. -/
theorem C147_vars (cpus : Nat) (c : Conf) (x : Ext) (s : Server Addr) (h : settings ip lo cpus c x = .ok s) (k : Text) :
    (s.vars.find? (fun v => v.1 = k)).map (·.2) = lastOf c.vars k := by
  obtain ⟨p, r, _, _, rfl⟩ := accepted_parts ip lo h
  show ((getVars c.vars).find? _).map _ = _
  unfold getVars
  rw [find_vars]
  simp

/-- C147: the script that is linked is run, with the time that is given. -/
theorem C147_script (cpus : Nat) (c : Conf) (x : Ext) (s : Server Addr) (h : settings ip lo cpus c x = .ok s) :
    s.script.map Script.source = x.script ∧ ∀ z, s.script = some z → z.timeout = c.scriptTimeout := by
  obtain ⟨p, r, _, _, rfl⟩ := accepted_parts ip lo h
  show (scriptOf c x).map _ = _ ∧ ∀ z, scriptOf c x = some z → _
  unfold scriptOf
  cases x.script with
  | none => simp
  | some t => simp

/-- C147: with HTTP/2 the server uses the certificates and the first key. -/
theorem C147_http2 (cpus : Nat) (c : Conf) (x : Ext) (s : Server Addr) (h : settings ip lo cpus c x = .ok s) :
    (∃ k, s.http = .http2 x.certs k ∧ x.keys.head? = some k) ↔ c.version = some .http2 := by
  obtain ⟨p, r, hp, _, rfl⟩ := accepted_parts ip lo h
  show (∃ k, p = .http2 x.certs k ∧ _) ↔ _
  have hq := http_not_ok hp
  unfold httpOf at hp
  cases hv : c.version with
  | none => simp [hv] at hp; subst hp; simp
  | some v =>
    cases v with
    | http1 => simp [hv] at hp; subst hp; simp
    | http2 =>
      obtain ⟨h1, h2⟩ := hq hv
      simp only [hv, Option.getD_some] at hp
      cases hc : x.certs with
      | nil => exact absurd hc h1
      | cons a l =>
        cases hk : x.keys with
        | nil => exact absurd hk h2
        | cons k ks =>
          simp [hc, hk] at hp
          subst hp
          simp

/-- C147: a limit of time holds for operations of REST endpoints. -/
theorem C147_rest_limit (cpus : Nat) (c : Conf) (x : Ext) (s : Server Addr) (h : settings ip lo cpus c x = .ok s) (n : Nat)
    (hn : c.globalResponseTimeout = some (n : Int)) (h0 : 0 < n) : limit s .rest = some n := by
  have ht := (C147_given ip lo cpus c x s h).2.2.2.2.2.2.2.2.2.1
  rw [hn] at ht
  have ht : s.timeout = (n : Int) := ht
  unfold limit
  rw [ht]
  simp [h0]

/-- C147: a server starts with as many threads as are given, if that is not zero. -/
theorem C147_workers (cpus : Nat) (hc : 0 < cpus) (c : Conf) (h : c.workers ≠ some 0) :
    forkStart cpus c = .running (given c.workers cpus) := by
  unfold forkStart
  cases hw : c.workers with
  | none => simp [given]; omega
  | some w =>
    have : w ≠ 0 := fun e => h (by rw [hw, e])
    simp [given, this]

/-- C147 does not hold without a certificate: other errors are not reported. -/
theorem C147_violated_by_http2 (c : Conf) (x : Ext) (hv : c.version = some .http2) (hc : x.certs = [])
    (hh : c.hostname = some "not a host".toList) (hi : ip "not a host".toList = none) (cpus : Nat) :
    Wrong ip c x ⟨.hostname, ["schema".toList, "@server".toList, "hostname".toList]⟩
    ∧ settings ip lo cpus c x = .error [⟨.certificate, []⟩] := by
  refine ⟨.hostname _ hh (by decide) hi, ?_⟩
  rw [settings_error ip lo (es := [⟨.certificate, []⟩])]
  simp [httpOf, hv, hc, fail]

/-- C147 does not hold for certificates without a version: they are accepted, and the server speaks plain HTTP. -/
theorem C147_violated_by_certificate (cert key : Text) :
    ∃ s : Server Nat, settings (fun _ => some 0) 0 4 {} ⟨[cert], [key], none⟩ = .ok s ∧ s.http = .http1 :=
  ⟨_, rfl, rfl⟩

/-- C147 does not hold for limits of time: they do not hold for operations of GraphQL requests. -/
theorem C147_violated_by_timeout :
    ∃ s : Server Nat, settings (fun _ => some 0) 0 4 { globalResponseTimeout := some 100 } ⟨[], [], none⟩ = .ok s
      ∧ limit s .rest = some 100 ∧ limit s .graphql = none :=
  ⟨_, rfl, rfl, rfl⟩

/-- C147 does not hold for zero workers: the settings are accepted, and the start panics. -/
theorem C147_violated_by_workers :
    ∃ s : Server Nat, settings (fun _ => some 0) 0 4 { workers := some 0 } ⟨[], [], none⟩ = .ok s
      ∧ forkStart 4 { workers := some 0 } = .panic :=
  ⟨_, rfl, rfl⟩

/-! ## C148: telemetry -/

/-- C148: a reference to a graph is accepted exactly if it is two words with an `@` between them. -/
theorem C148_reference (t : Text) : isRef t = true ↔ ∃ a b, Word a ∧ Word b ∧ t = a ++ '@' :: b := by
  constructor
  · intro h
    unfold isRef at h
    have hs := List.takeWhile_append_dropWhile (p := refChar) (l := t)
    cases hd : t.dropWhile refChar with
    | nil => simp [hd] at h
    | cons c b =>
      rw [hd] at hs
      by_cases hc : c = '@'
      · subst hc
        simp only [hd, Bool.and_eq_true, Bool.not_eq_true', List.isEmpty_eq_false_iff, List.all_eq_true] at h
        obtain ⟨⟨h1, h2⟩, h3⟩ := h
        refine ⟨t.takeWhile refChar, b, ⟨h1, fun c hc => (refChar_iff c).mp (takeWhile_all _ _ c hc)⟩,
          ⟨h2, fun c hc => (refChar_iff c).mp (h3 c hc)⟩, hs.symm⟩
      · exfalso
        simp only [hd] at h
        split at h
        · next heq => simp at heq; exact hc heq.1
        · cases h
  · rintro ⟨a, b, ⟨ha, ha'⟩, ⟨hb, hb'⟩, rfl⟩
    obtain ⟨h1, h2⟩ := takeWhile_word a b (fun c hc => (refChar_iff c).mpr (ha' c hc))
    unfold isRef
    rw [h1, h2]
    simp only [Bool.and_eq_true, Bool.not_eq_true', List.isEmpty_eq_false_iff, List.all_eq_true]
    exact ⟨⟨ha, hb⟩, fun c hc => (refChar_iff c).mpr (hb' c hc)⟩

/-- C148: with telemetry that is accepted the server starts, and traces are sent for the graph and the variant that are
named. -/
theorem C148_traces {U : Type} (url : Text → Option U) (e : Option Exporter) (hs : List Text) (r : Option (Export U) × List Text)
    (h : telemetry url e hs = .ok r) : (∃ z, tracing r.1 = some z)
      ∧ ∀ ref key, e = some (.apollo ref key) → ∃ a b, Word a ∧ Word b ∧ ref = a ++ '@' :: b ∧ tracing r.1 = some (some (a, b)) := by
  have key : ∀ ref k, e = some (.apollo ref k) →
      ∃ a b, Word a ∧ Word b ∧ ref = a ++ '@' :: b ∧ tracing r.1 = some (some (a, b)) := by
    intro ref k he
    subst he
    unfold telemetry at h
    obtain ⟨x, h1, h2⟩ := mapV_ok (trace_ok h)
    have h1 := trace_ok h1
    split at h1
    · next hr =>
      cases h1
      obtain ⟨a, b, ha, hb, rfl⟩ := (C148_reference ref).mp hr
      refine ⟨a, b, ha, hb, rfl, ?_⟩
      rw [h2]
      show (splitOnce _).map some = _
      rw [splitOnce_word a b]
      · rfl
      · intro hm
        rcases ha.2 _ hm with h | h | h
        · exact absurd h (by decide)
        · exact absurd h (by decide)
        · exact absurd h (by decide)
    · cases h1
  refine ⟨?_, key⟩
  cases e with
  | none => cases h; exact ⟨_, rfl⟩
  | some e =>
    cases e with
    | apollo ref k =>
      obtain ⟨a, b, _, _, _, ht⟩ := key ref k rfl
      exact ⟨_, ht⟩
    | stdout p =>
      unfold telemetry at h
      obtain ⟨x, h1, h2⟩ := mapV_ok (trace_ok h)
      cases h1
      rw [h2]
      exact ⟨_, rfl⟩
    | prometheus p =>
      unfold telemetry at h
      obtain ⟨x, h1, h2⟩ := mapV_ok (trace_ok h)
      cases h1
      rw [h2]
      exact ⟨_, rfl⟩
    | otlp u l =>
      unfold telemetry at h
      obtain ⟨x, h1, h2⟩ := mapV_ok (trace_ok h)
      obtain ⟨y, h3, h4⟩ := mapV_ok (trace_ok h1)
      rw [h2, h4]
      exact ⟨_, rfl⟩

/-- C148: telemetry is exported to the URL that is given, with all headers that are given, in order. -/
theorem C148_otlp {U : Type} (url : Text → Option U) (u : Text) (l : List (Text × Text)) (hs : List Text)
    (r : Option (Export U) × List Text) (h : telemetry url (some (.otlp u l)) hs = .ok r) :
    ∃ v, url u = some v ∧ r = (some (.otlp v (l.map (fun kv => (small kv.1, kv.2)))), hs) := by
  unfold telemetry at h
  obtain ⟨x, h1, h2⟩ := mapV_ok (trace_ok h)
  obtain ⟨y, h3, h4⟩ := mapV_ok (trace_ok h1)
  obtain ⟨h5, h6⟩ := both_ok h3
  have h6 := each_ok (fun a b hab => headerV_ok hab) (trace_ok h6)
  have h5 := trace_ok h5
  cases hu : url u with
  | none => simp [hu, fail] at h5
  | some v =>
    simp [hu] at h5
    exact ⟨v, rfl, by rw [h2, h4, h6, ← h5]⟩

/-- C148: a URL that cannot be read and headers that cannot be sent are all reported, each at its place. -/
theorem C148_reported {U : Type} (url : Text → Option U) (u : Text) (l : List (Text × Text)) (hs : List Text) (e : Err) :
    e ∈ errs (telemetry url (some (.otlp u l)) hs) ↔
      (url u = none ∧ e = ⟨.url, ["@telemetry".toList, "otlp".toList, "url".toList]⟩)
      ∨ ∃ kv ∈ l, (¬ HeaderNameOk kv.1 ∧ e = ⟨.headerName kv.1, ["@telemetry".toList, "otlp".toList, "headers".toList]⟩)
        ∨ (¬ HeaderValueOk kv.2 ∧ e = ⟨.headerValue kv.2, ["@telemetry".toList, "otlp".toList, "headers".toList]⟩) := by
  unfold telemetry
  obtain ⟨k, q⟩ := e
  dsimp only
  simp only [mem_trace, mem_mapV, mem_both, mem_each, mem_headerV, Err.mk.injEq]
  constructor
  · rintro ⟨a, rfl, b, rfl, ⟨c, rfl, h⟩ | ⟨c, rfl, kv, hm, h⟩⟩
    · left
      cases hu : url u with
      | some v => simp [hu, errs] at h
      | none =>
        simp [hu, errs, fail] at h
        obtain ⟨rfl, rfl⟩ := h
        exact ⟨rfl, rfl, rfl⟩
    · right
      refine ⟨kv, hm, ?_⟩
      rcases h with ⟨⟨rfl, rfl⟩, h⟩ | ⟨⟨rfl, rfl⟩, h⟩
      · exact .inl ⟨h, rfl, rfl⟩
      · exact .inr ⟨h, rfl, rfl⟩
  · rintro (⟨hu, rfl, rfl⟩ | ⟨kv, hm, ⟨h, rfl, rfl⟩ | ⟨h, rfl, rfl⟩⟩)
    · exact ⟨_, rfl, _, rfl, .inl ⟨_, rfl, by simp [hu, errs, fail]⟩⟩
    · exact ⟨_, rfl, _, rfl, .inr ⟨_, rfl, kv, hm, .inl ⟨⟨rfl, rfl⟩, h⟩⟩⟩
    · exact ⟨_, rfl, _, rfl, .inr ⟨_, rfl, kv, hm, .inr ⟨⟨rfl, rfl⟩, h⟩⟩⟩

/-- C148: the other exporters are used as they are given. -/
theorem C148_others {U : Type} (url : Text → Option U) (hs : List Text) (p : Bool) (path ref key : Text) (hr : isRef ref = true) :
    telemetry url (some (.stdout p)) hs = .ok (some (.stdout p), hs)
    ∧ telemetry url (some (.prometheus path)) hs = .ok (some (.prometheus path), hs)
    ∧ telemetry url (some (.apollo ref key)) hs = .ok (some (.apollo ref key), hs) := by
  refine ⟨rfl, rfl, ?_⟩
  unfold telemetry
  simp [hr, trace, mapV]

end Verif.Settings
