import Verif.Edge.Lemmas

/-!
# Properties of the servers on AWS Lambda and on Cloudflare, and of the showcase
-/

set_option linter.unusedSimpArgs false

namespace Verif.Edge

open Verif.Mustache (Text)
open Verif.HttpUrl (joinWith)
open Verif.Sdl (V)
open Verif.Doc (showV)
open Verif.Load (Io Cfg Ext Res Link isUrl isAbsolute readFile readOne readAll readRest renderFile addLink addLinks linkPath join
  parent envCtx unifyCfg fetch fetchAll fetchOne orErr)

/-! ## C141: requests and responses -/

/-- **C141**, on Lambda, for requests of one of the methods of HTTP without a query and without a port, if the path
parameter `proxy` holds the whole path: the request that is handled has the method, host, path, headers and body of
the one that was sent. -/
theorem C141_lambda_partial (r : LReq) (m : String) (hm : r.method = m.toList) (hs : Standard m) (h : Text)
    (hh : r.host = some h) (hp : Plain ['/', '?', '#'] h) (hsc : Plain [':'] (r.scheme.getD "http".toList))
    (hpath : r.path = '/' :: joinWith '/' (r.proxy.getD [])) (hpl : Plain ['?', '#'] r.path) :
    ∃ q, lambdaRequest r = .ok q ∧ q.method = r.method ∧ q.headers = r.headers ∧ q.body = r.body ∧
      Says q.uri h r.path none ∧ q.path = r.path := by
  have hmem : r.method ∈ methods := by rw [hm]; exact standard_methods.mp hs
  have hsays : Says (lambdaUri r.scheme h r.proxy) h r.path none := by
    refine ⟨r.scheme.getD "http".toList, hsc, hp, ⟨_, hpath⟩, hpl, by simp, ?_⟩
    simp [lambdaUri, hpath, queryText]
  refine ⟨⟨r.method, lambdaUri r.scheme h r.proxy, r.headers, r.body⟩, ?_, rfl, rfl, rfl, hsays, ?_⟩
  · simp [lambdaRequest, hmem, hh]
  · exact (says_parts (q := ⟨r.method, lambdaUri r.scheme h r.proxy, r.headers, r.body⟩) hsays).1

/-- **C141**: on Lambda no request that is handled has a query, whatever the client sent. -/
theorem C141_lambda_no_query (r : LReq) (q : HReq) (hq : lambdaRequest r = .ok q)
    (hp : ∀ h, r.host = some h → Plain ['/', '?', '#'] h) (hsc : Plain [':'] (r.scheme.getD "http".toList))
    (hpl : ∀ s ∈ r.proxy.getD [], Plain ['?', '#'] s) : q.query = none := by
  unfold lambdaRequest at hq
  split at hq
  · split at hq
    · cases hq
    · rename_i h hh
      cases hq
      have hj : ∀ l : List Text, (∀ s ∈ l, Plain ['?', '#'] s) → Plain ['?', '#'] (joinWith '/' l) := by
        intro l
        induction l with
        | nil => intro _ c hc; cases hc
        | cons s l ih =>
          intro hl
          cases l with
          | nil => exact hl s List.mem_cons_self
          | cons s' l =>
            intro c hc
            simp only [joinWith, List.mem_append, List.mem_cons] at hc
            rcases hc with hc | rfl | hc
            · exact hl s List.mem_cons_self c hc
            · decide
            · exact ih (fun x hx => hl x (List.mem_cons_of_mem _ hx)) c hc
      refine (says_parts (a := h) (p := '/' :: joinWith '/' (r.proxy.getD [])) ?_).2
      refine ⟨r.scheme.getD "http".toList, hsc, hp h hh, ⟨_, rfl⟩, ?_, by simp, ?_⟩
      · intro c hc
        rcases List.mem_cons.mp hc with rfl | hc
        · decide
        · exact hj _ hpl c hc
      · simp [lambdaUri, queryText]
  · cases hq

/-- **C141**, on Cloudflare: the request that is handled has the method, URL, headers and body of the one that was sent,
if the body is a text. -/
theorem C141_worker_partial (text : Bytes → Bytes) (r : WReq) (m : String) (hm : r.method = m.toList) (hs : Standard m)
    (ht : text r.body = r.body) : workerRequest text r = .ok ⟨r.method, r.url, r.headers, r.body⟩ := by
  have hu : upper r.method = r.method := by
    rw [hm]
    rcases hs with h | h | h | h | h | h | h | h | h <;> subst h <;> decide
  have : r.method ∈ methods := by rw [hm]; exact standard_methods.mp hs
  simp [workerRequest, hu, this, ht]

/-- **C141**, on Cloudflare: other methods are refused with an error, not with a panic. -/
theorem C141_worker_refuses (text : Bytes → Bytes) (r : WReq) (h : ∀ m : String, Standard m → upper r.method ≠ m.toList) :
    workerRequest text r = .err := by
  unfold workerRequest
  rw [if_neg]
  intro hm
  obtain ⟨m, e⟩ : ∃ m : String, m.toList = upper r.method := ⟨String.ofList (upper r.method), String.toList_ofList⟩
  exact h m (standard_methods.mpr (by rw [e]; exact hm)) e.symm

/-- **C141**, responses: on Lambda the client gets the response that was made; on Cloudflare, if the values of its
headers are texts. -/
theorem C141_response (utf8 : Bytes → Bool) (r : Resp) :
    lambdaResponse r = .ok r ∧ ((∀ h ∈ r.headers, utf8 h.2 = true) → workerResponse utf8 r = .ok r) ∧
      ((∃ h ∈ r.headers, utf8 h.2 = false) → workerResponse utf8 r = .err) := by
  refine ⟨rfl, fun h => ?_, fun h => ?_⟩
  · simp [workerResponse, utf8Headers_ok h]
  · simp [workerResponse, utf8Headers_err h]

/-! ## C142: contexts on Cloudflare -/

/-- The context was built from this configuration by one of the events. -/
def Made {α : Type} (es : List (Ev α)) (c : Option Text) (b : Built α) : Prop :=
  ∃ e ∈ es, (∃ i, e.act = .built i) ∧ e.world c = b

theorem Made.mono {α : Type} {es es' : List (Ev α)} {c : Option Text} {b : Built α} (h : Made es c b) (hs : ∀ e ∈ es, e ∈ es') :
    Made es' c b := by
  obtain ⟨e, he, h⟩ := h
  exact ⟨e, hs e he, h⟩

/-- What is known about a state after some events. -/
structure Good {α : Type} (es : List (Ev α)) (s : St α) : Prop where
  cached : ∀ p a, s.cached = some (p, a) → Made es (some p) (.app a)
  waiting : ∀ i c, (i, c) ∈ s.waiting → ∃ e ∈ es, e.act = .start i c
  got : ∀ i c b, (i, c, b) ∈ s.got → (∃ e ∈ es, e.act = .start i c) ∧ Made es c b

theorem hit_some {α : Type} {s : Option (Text × α)} {c : Option Text} {a : α} (h : hit s c = some a) : ∃ p, c = some p ∧ s = some (p, a) := by
  unfold hit at h
  split at h
  · rename_i p q a'
    split at h
    · rename_i e
      cases h
      exact ⟨p, rfl, by rw [e]⟩
    · cases h
  · cases h

theorem good_step {α : Type} {es : List (Ev α)} {s : St α} (h : Good es s) (e : Ev α) : Good (es ++ [e]) (step s e) := by
  have mem : ∀ x ∈ es, x ∈ es ++ [e] := fun x hx => List.mem_append_left _ hx
  have self : e ∈ es ++ [e] := by simp
  have st : ∀ {i c}, (∃ x ∈ es, x.act = .start i c) → ∃ x ∈ es ++ [e], x.act = .start i c := fun ⟨x, hx, h⟩ => ⟨x, mem x hx, h⟩
  unfold step
  split
  · rename_i i c hact
    split
    · rename_i a ha
      obtain ⟨p, rfl, hp⟩ := hit_some ha
      refine ⟨fun p a ha => (h.cached p a ha).mono mem, fun i c hi => st (h.waiting i c hi), ?_⟩
      intro j d b hj
      rcases List.mem_append.mp hj with hj | hj
      · exact ⟨st (h.got j d b hj).1, (h.got j d b hj).2.mono mem⟩
      · simp only [List.mem_singleton, Prod.mk.injEq] at hj
        obtain ⟨rfl, rfl, rfl⟩ := hj
        exact ⟨⟨e, self, hact⟩, (h.cached p a hp).mono mem⟩
    · refine ⟨fun p a ha => (h.cached p a ha).mono mem, ?_, fun j d b hj => ⟨st (h.got j d b hj).1, (h.got j d b hj).2.mono mem⟩⟩
      intro j d hj
      rcases List.mem_append.mp hj with hj | hj
      · exact st (h.waiting j d hj)
      · simp only [List.mem_singleton, Prod.mk.injEq] at hj
        obtain ⟨rfl, rfl⟩ := hj
        exact ⟨e, self, hact⟩
  · rename_i i hact
    split
    · exact ⟨fun p a ha => (h.cached p a ha).mono mem, fun i c hi => st (h.waiting i c hi),
        fun j d b hj => ⟨st (h.got j d b hj).1, (h.got j d b hj).2.mono mem⟩⟩
    · rename_i k c hf
      have hk : k = i := by simpa using List.find?_some hf
      subst hk
      have hw := h.waiting k c (List.mem_of_find?_eq_some hf)
      have hgot : ∀ j d b, (j, d, b) ∈ s.got ++ [(k, c, e.world c)] → (∃ x ∈ es ++ [e], x.act = .start j d) ∧ Made (es ++ [e]) d b := by
        intro j d b hj
        rcases List.mem_append.mp hj with hj | hj
        · exact ⟨st (h.got j d b hj).1, (h.got j d b hj).2.mono mem⟩
        · simp only [List.mem_singleton, Prod.mk.injEq] at hj
          obtain ⟨rfl, rfl, rfl⟩ := hj
          exact ⟨st hw, ⟨e, self, ⟨_, hact⟩, rfl⟩⟩
      have hwait : ∀ j d, (j, d) ∈ s.waiting.filter (fun w => w.1 ≠ k) → ∃ x ∈ es ++ [e], x.act = .start j d :=
        fun j d hj => st (h.waiting j d ((List.mem_filter.mp hj).1))
      simp only []
      split
      · rename_i a p ha
        refine ⟨?_, hwait, hgot⟩
        intro p' a' hpa
        simp only [Option.some.injEq, Prod.mk.injEq] at hpa
        obtain ⟨rfl, rfl⟩ := hpa
        exact ⟨e, self, ⟨_, hact⟩, ha⟩
      · exact ⟨fun p a ha => (h.cached p a ha).mono mem, hwait, hgot⟩

theorem good_run {α : Type} (es : List (Ev α)) : Good es (run {} es) := by
  have key : ∀ (es' es : List (Ev α)) (s : St α), Good es s → Good (es ++ es') (run s es') := by
    intro es'
    induction es' with
    | nil => intro es s h; simpa [run] using h
    | cons e es' ih =>
      intro es s h
      have := ih (es ++ [e]) (step s e) (good_step h e)
      simpa [run, List.append_assoc] using this
  have := key es [] {} ⟨by simp, by simp, by simp⟩
  simpa using this

/-- **C142**: whatever the order in which requests come and contexts are built, a request gets only a context (or a
refusal) that was built for the very configuration that it names, and only requests that were made get one. -/
theorem C142_named {α : Type} (es : List (Ev α)) (i : Nat) (c : Option Text) (b : Built α) (h : (i, c, b) ∈ (run {} es).got) :
    (∃ e ∈ es, e.act = .start i c) ∧ ∃ e ∈ es, (∃ j, e.act = .built j) ∧ e.world c = b :=
  (good_run es).got i c b h

/-- The request has been answered, or waits. -/
def Pends {α : Type} (i : Nat) (c : Option Text) (s : St α) : Prop :=
  (∃ b, (i, c, b) ∈ s.got) ∨ ((i, c) ∈ s.waiting ∧ ∀ d, (i, d) ∈ s.waiting → d = c)

theorem pends_step {α : Type} {i : Nat} {c : Option Text} {s : St α} {e : Ev α} (h : Pends i c s) (hs : ∀ d, e.act ≠ .start i d)
    (hb : e.act ≠ .built i) : Pends i c (step s e) := by
  have grow : ∀ {l l' : List (Nat × Option Text × Built α)}, (∃ b, (i, c, b) ∈ l) → ∃ b, (i, c, b) ∈ l ++ l' :=
    fun ⟨b, hb⟩ => ⟨b, List.mem_append_left _ hb⟩
  unfold step
  split
  · rename_i j d hact
    have hj : j ≠ i := by intro e'; subst e'; exact hs d hact
    split
    · exact h.elim (fun h => Or.inl (grow h)) Or.inr
    · refine h.elim Or.inl (fun h => Or.inr ⟨List.mem_append_left _ h.1, ?_⟩)
      intro d' hd
      rcases List.mem_append.mp hd with hd | hd
      · exact h.2 d' hd
      · simp only [List.mem_singleton, Prod.mk.injEq] at hd
        exact absurd hd.1.symm hj
  · rename_i j hact
    have hj : j ≠ i := by intro e'; subst e'; exact hb hact
    split
    · exact h
    · rename_i k d hf
      have rest : Pends i c { s with waiting := s.waiting.filter (fun w => w.1 ≠ j), got := s.got ++ [(j, d, e.world d)] } := by
        refine h.elim (fun h => Or.inl (grow h)) (fun h => Or.inr ⟨List.mem_filter.mpr ⟨h.1, by simpa using fun e => hj e.symm⟩, ?_⟩)
        intro d' hd
        exact h.2 d' (List.mem_filter.mp hd).1
      simp only []
      split
      · exact rest
      · exact rest

/-- **C142**: every request gets something: at once, or when the context that it waits for has been built. -/
theorem C142_answered {α : Type} (es es' : List (Ev α)) (w w' : World α) (i : Nat) (c : Option Text)
    (hs : ∀ e ∈ es ++ es', ∀ d, e.act ≠ .start i d) (hb : ∀ e ∈ es', e.act ≠ .built i) :
    ∃ b, (i, c, b) ∈ (run {} (es ++ ⟨w, .start i c⟩ :: es' ++ [⟨w', .built i⟩])).got := by
  have h1 : Pends i c (step (run {} es) ⟨w, .start i c⟩) := by
    have hw := (good_run es).waiting
    unfold step
    simp only []
    split
    · rename_i a ha
      exact Or.inl ⟨.app a, by simp⟩
    · refine Or.inr ⟨by simp, ?_⟩
      intro d hd
      rcases List.mem_append.mp hd with hd | hd
      · obtain ⟨e, he, ha⟩ := hw i d hd
        exact absurd ha (hs e (List.mem_append_left _ he) d)
      · simp only [List.mem_singleton, Prod.mk.injEq] at hd
        exact hd.2
  have h2 : ∀ (l : List (Ev α)) (s : St α), Pends i c s → (∀ e ∈ l, ∀ d, e.act ≠ .start i d) → (∀ e ∈ l, e.act ≠ .built i) →
      Pends i c (run s l) := by
    intro l
    induction l with
    | nil => intro s h _ _; exact h
    | cons e l ih =>
      intro s h hs hb
      exact ih (step s e) (pends_step h (hs e List.mem_cons_self) (hb e List.mem_cons_self))
        (fun x hx => hs x (List.mem_cons_of_mem _ hx)) (fun x hx => hb x (List.mem_cons_of_mem _ hx))
  have h3 := h2 es' _ h1 (fun e he => hs e (List.mem_append_right _ he)) hb
  have e : run {} (es ++ ⟨w, .start i c⟩ :: es' ++ [⟨w', .built i⟩]) =
      step (run (step (run {} es) ⟨w, .start i c⟩) es') ⟨w', .built i⟩ := by simp [run]
  rw [e]
  generalize run (step (run {} es) ⟨w, .start i c⟩) es' = s at h3
  unfold step
  simp only []
  split
  · rename_i hf
    rcases h3 with h | h
    · exact h
    · exact absurd (List.find?_eq_none.mp hf (i, c) h.1) (by simp)
  · rename_i k d hf
    have hk : k = i := by simpa using List.find?_some hf
    subst hk
    have : ∃ b, (k, c, b) ∈ s.got ++ [(k, d, w' d)] := by
      rcases h3 with ⟨b, h⟩ | h
      · exact ⟨b, List.mem_append_left _ h⟩
      · have := h.2 d (List.mem_of_find?_eq_some hf)
        subst this
        exact ⟨w' d, by simp⟩
    split
    · exact this
    · exact this

/-- **C142**, for a configuration that is not the one that was used last: the request gets what is built for it after
it came, so a context of the configuration as it is then. -/
theorem C142_fresh_partial {α : Type} (s : St α) (w w' : World α) (i : Nat) (p : Text)
    (hc : ∀ q a, s.cached = some (q, a) → q ≠ p) (hi : ∀ x ∈ s.waiting, x.1 ≠ i) :
    (run s [⟨w, .start i (some p)⟩, ⟨w', .built i⟩]).got = s.got ++ [(i, some p, w' (some p))] := by
  have hh : hit s.cached (some p) = none := by
    cases h : hit s.cached (some p) with
    | none => rfl
    | some a =>
      obtain ⟨q, hq, hs⟩ := hit_some h
      cases hq
      exact absurd rfl (hc p a hs)
  have hf : (s.waiting ++ [(i, some p)]).find? (fun w => w.1 = i) = some (i, some p) := by
    rw [List.find?_append, List.find?_eq_none.mpr (by intro x hx; simpa using hi x hx)]
    simp
  simp only [run, List.foldl_cons, List.foldl_nil]
  unfold step
  simp only [hh, hf]
  split <;> rfl

/-- **C142**: a request that names no configuration gets no context. -/
theorem C142_none {β : Type} (io : Io β) (n : Nat) (valid : Cfg β × Ext → Bool) (fs : Bool) :
    createAppCtx io n valid fs none = .refused .noConfig := rfl

/-- **C142**: a context holds the configuration as it was read, with what it links to. -/
theorem C142_read {β : Type} (io : Io β) (n : Nat) (valid : Cfg β × Ext → Bool) (fs : Bool) (p : Text) (a : App β)
    (h : createAppCtx io n valid fs (some p) = .app a) : readAll io n [p] = .ok (a.config, a.ext) ∧ valid (a.config, a.ext) = true := by
  unfold createAppCtx at h
  simp only [] at h
  split at h
  · cases h
  · split at h
    · cases h
    · cases h
    · cases h
    · rename_i m hm
      split at h
      · rename_i hv
        cases h
        exact ⟨hm, hv⟩
      · cases h

/-- **C142** does not hold for endpoints: a context has none, so that no REST endpoint of a configuration is served. -/
theorem C142_no_endpoints {β : Type} (io : Io β) (n : Nat) (valid : Cfg β × Ext → Bool) (fs : Bool) (p : Option Text) (a : App β)
    (h : createAppCtx io n valid fs p = .app a) : a.endpoints = [] := by
  unfold createAppCtx at h
  split at h
  · cases h
  · split at h
    · cases h
    · split at h
      · cases h
      · cases h
      · cases h
      · split at h
        · cases h; rfl
        · cases h

/-! ## C143: the showcase and the machine of the server -/

theorem readFile_url {β : Type} {io : Io β} {d : List (Text × Text)} {e : Text → Option Text} {p : Text} (hp : isUrl p = true) :
    readFile { io with disk := d, env := e } p = readFile io p := by
  simp [readFile, hp]

theorem renderFile_noEnv {β : Type} {io : Io β} {d : List (Text × Text)} {e : Text → Option Text} {c : Text} (h : NoEnv c) :
    renderFile { io with disk := d, env := e } c = renderFile io c := by
  unfold renderFile
  have : Verif.Mustache.renderPartial (Verif.Mustache.parse c) (envCtx { io with disk := d, env := e }) =
      Verif.Mustache.renderPartial (Verif.Mustache.parse c) (envCtx io) := by
    unfold Verif.Mustache.renderPartial
    congr 1
    refine List.map_congr_left (fun s hs => ?_)
    cases s with
    | lit l => rfl
    | expr ps =>
      have : envCtx { io with disk := d, env := e } ps = envCtx io ps := by
        match ps with
        | [] => rfl
        | [a] => rfl
        | a :: k :: r =>
          unfold envCtx
          by_cases ha : a = "env".toList
          · subst ha
            exact absurd hs (h _)
          · simp only [ha, if_false]
      simp only [this]
  simp only [this]

theorem fetchOne_web {β : Type} {io : Io β} {d : List (Text × Text)} {e : Text → Option Text} {n : Nat} {u s : Text} :
    fetchOne { io with disk := d, env := e } n u s = fetchOne io n u s := rfl

theorem fetch_web {β : Type} {io : Io β} {d : List (Text × Text)} {e : Text → Option Text} {n : Nat} {u : Text} :
    fetch { io with disk := d, env := e } n u = fetch io n u := by
  have : ∀ l, fetchAll { io with disk := d, env := e } n u l = fetchAll io n u l := by
    intro l
    induction l with
    | nil => rfl
    | cons s l ih => simp only [fetchAll, ih, fetchOne_web]
  unfold fetch
  rw [show fetchAll { io with disk := d, env := e } n u = fetchAll io n u from funext this]

theorem isUrl_append {a b : Text} (h : isUrl a = true) : isUrl (a ++ b) = true := by
  unfold isUrl at h ⊢
  rw [Bool.or_eq_true] at h ⊢
  rcases h with h | h
  · exact Or.inl (by rw [List.isPrefixOf_iff_prefix] at h ⊢; exact h.trans (List.prefix_append a b))
  · exact Or.inr (by rw [List.isPrefixOf_iff_prefix] at h ⊢; exact h.trans (List.prefix_append a b))

theorem linkPath_url {dir : Text} {l : Link} (hd : isUrl dir = true) (hl : Remote l) : isUrl (linkPath dir l.src) = true := by
  unfold linkPath
  split
  · assumption
  · rename_i hu
    have ha : isAbsolute l.src = false := by
      rcases hl.1 with h | h
      · exact absurd h hu
      · exact h
    have hne : dir.isEmpty = false := by
      cases dir with
      | nil => simp [isUrl] at hd
      | cons _ _ => rfl
    unfold join
    simp only [ha, hne, Bool.or_self, if_false, Bool.false_eq_true]
    split
    · exact isUrl_append hd
    · exact isUrl_append hd

theorem addLink_web {β : Type} {io : Io β} {d : List (Text × Text)} {e : Text → Option Text} {n : Nat} {dir : Text} {l : Link}
    {s : Cfg β × Ext} (hweb : ∀ p c, readFile io p = .ok c → NoEnv c) (hd : isUrl dir = true) (hl : Remote l) :
    addLink { io with disk := d, env := e } n dir l s = addLink io n dir l s := by
  have hu := linkPath_url hd hl
  have hk := hl.2
  unfold addLink
  simp only [readFile_url hu, fetch_web]
  cases hkind : l.kind with
  | config =>
    simp only []
    cases hr : readFile io (linkPath dir l.src) with
    | err _ => rfl
    | more => rfl
    | ok c =>
      simp only [Res.bind, renderFile_noEnv (hweb _ c hr)]
      cases renderFile io c <;> rfl
  | protobuf => exact absurd hkind hk
  | _ => rfl

theorem addLinks_web {β : Type} {io : Io β} {d : List (Text × Text)} {e : Text → Option Text} {n : Nat} {dir : Text}
    (hweb : ∀ p c, readFile io p = .ok c → NoEnv c) (hd : isUrl dir = true) :
    ∀ (ls : List Link) (s : Cfg β × Ext), (∀ l ∈ ls, Remote l) →
      addLinks { io with disk := d, env := e } n dir ls s = addLinks io n dir ls s
  | [], s, _ => rfl
  | l :: ls, s, h => by
    simp only [addLinks, addLink_web hweb hd (h l List.mem_cons_self)]
    cases addLink io n dir l s with
    | ok x => exact addLinks_web hweb hd ls x (fun y hy => h y (List.mem_cons_of_mem _ hy))
    | err _ => rfl
    | more => rfl

/-- **C143**, if nothing that is fetched mentions the environment and every link in it is to something elsewhere: what
a client of the showcase gets does not depend on the files and the environment of the server. -/
theorem C143_showcase_partial {β : Type} (io : Io β) (n : Nat) (valid : Cfg β × Ext → Bool) (p : Text)
    (hp : isUrl p = true) (hdir : isUrl (parent p) = true) (hweb : ∀ q c, readFile io q = .ok c → NoEnv c)
    (hlinks : ∀ q c o, io.config q c = some o → ∀ l ∈ o.links, Remote l) (disk : List (Text × Text)) (env : Text → Option Text) :
    createAppCtx { io with disk := disk, env := env } n valid false (some p) = createAppCtx io n valid false (some p) := by
  have key : readOne { io with disk := disk, env := env } n p = readOne io n p := by
    unfold readOne
    rw [readFile_url hp]
    cases hr : readFile io p with
    | err _ => rfl
    | more => rfl
    | ok c =>
      simp only [Res.bind, renderFile_noEnv (hweb _ c hr)]
      cases renderFile io c with
      | err _ => rfl
      | more => rfl
      | ok c' =>
        simp only []
        cases ho : io.config p c' with
        | none => rfl
        | some o =>
          simp only [orErr]
          unfold Verif.Load.resolve
          exact addLinks_web hweb hdir _ _ (fun l hl => hlinks p c' o ho l (List.mem_filter.mp hl).1)
  have key2 : readAll { io with disk := disk, env := env } n [p] = readAll io n [p] := by
    simp only [readAll, key]
    cases readOne io n p <;> rfl
  unfold createAppCtx
  simp only [key2]

/-- **C143**: a path that is not a URL is refused, without anything being read. -/
theorem C143_paths {β : Type} (io : Io β) (n : Nat) (valid : Cfg β × Ext → Bool) (p : Text) (h : ':' ∉ p) :
    createAppCtx io n valid false (some p) = .refused .invalidUrl := by
  have : anyUrl p = false := by
    unfold anyUrl
    split
    · rfl
    · rename_i c r
      have : (c :: r).contains ':' = false := by
        cases hh : (c :: r).contains ':' with
        | false => rfl
        | true => exact absurd (List.contains_iff_mem.mp hh) h
      rw [this, Bool.and_false]
  simp [createAppCtx, this]

/-! ## C144: the cache on Cloudflare -/

/-- **C144**, for values that are written alike in GraphQL and in JSON: while its age lasts, a value that was put into
the cache is what is found in it. -/
theorem C144_kept_partial (now later key ttl : Nat) (v : V) (s : Kv) (hv : Flat v) (hm : later < now + ttl) :
    kvGet later key (kvSet now key v ttl s) = .ok (some v) := by
  have : later < now + ttl * 1000 := by omega
  simp [kvGet, kvSet, readJson_flat hv, this]

/-- **C144**: other keys are left alone. -/
theorem C144_others (now later key key' ttl : Nat) (v : V) (s : Kv) (h : key' ≠ key) :
    kvGet later key' (kvSet now key v ttl s) = kvGet later key' s := by
  unfold kvGet kvSet
  have h1 : ∀ t : Kv, (t.filter (fun e => e.1 ≠ key)).find? (fun e => e.1 = key') = t.find? (fun e => e.1 = key') := by
    intro t
    induction t with
    | nil => rfl
    | cons x t ih =>
      by_cases hx : x.1 = key
      · have hx' : ¬ x.1 = key' := by rw [hx]; exact fun e => h e.symm
        rw [List.filter_cons_of_neg (by simp [hx]), ih, List.find?_cons_of_neg (by simp [hx'])]
      · rw [List.filter_cons_of_pos (by simp [hx])]
        simp only [List.find?_cons, ih]
  rw [List.find?_cons_of_neg (by simpa using fun e => h e.symm), h1]

/-- **C144** does not hold for objects: an object with a field, put into the cache, makes every reading of the key fail
while the entry lasts. -/
theorem C144_object_fails (now later key ttl : Nat) (k : Text) (v : V) (kvs : List (Text × V)) (s : Kv)
    (hk : ∃ c r, k = c :: r ∧ (c.isAlpha = true ∨ c = '_')) (hm : later < now + ttl * 1000) :
    kvGet later key (kvSet now key (.obj ((k, v) :: kvs)) ttl s) = .error () := by
  obtain ⟨c, r, rfl, hc⟩ := hk
  have hc' : ∀ x : Char, x.isAlpha = false → x ≠ '_' → c ≠ x := by
    intro x h1 h2 e
    subst e
    rcases hc with h | h
    · rw [h1] at h; cases h
    · exact h2 h
  have e : ∃ t, showV (.obj ((c :: r, v) :: kvs)) = '{' :: c :: t := by
    cases kvs with
    | nil => exact ⟨_, by simp [showV, Verif.Doc.toQ, Verif.Doc.toQKvs, Verif.Doc.toQKv, Verif.Gql.showQ, Verif.Gql.showKvs, Verif.Gql.showKv, joinWith]; rfl⟩
    | cons kv kvs => exact ⟨_, by simp [showV, Verif.Doc.toQ, Verif.Doc.toQKvs, Verif.Doc.toQKv, Verif.Gql.showQ, Verif.Gql.showKvs, Verif.Gql.showKv, joinWith]; rfl⟩
  obtain ⟨t, e⟩ := e
  have hs : skip (c :: t) = c :: t := skip_eq (by
    simp [hc' ' ' (by decide) (by decide), hc' '\n' (by decide) (by decide), hc' '\t' (by decide) (by decide), hc' '\r' (by decide) (by decide)])
  have hf : ∀ n, jfields n (c :: t) = none := by
    intro n
    cases n with
    | zero => rfl
    | succ n =>
      rw [jfields, hs]
      split
      · rename_i h
        exact absurd (List.cons.inj h).1 (hc' '"' (by decide) (by decide))
      · rfl
  have hj : readJson ('{' :: c :: t) = none := by
    unfold readJson
    have : jval (2 * ('{' :: c :: t).length + 2) ('{' :: c :: t) = none := by
      rw [jval, skip_eq (by decide)]
      simp only [show ('{' : Char) ≠ '"' from by decide, show ('{' : Char) ≠ '[' from by decide, if_false, if_true, hs, hf]
      rw [if_neg (by simpa using hc' '}' (by decide) (by decide))]
      rfl
    rw [this]
  simp [kvGet, kvSet, e, hj, hm]

end Verif.Edge
