import Verif.Merge.Lemmas

set_option linter.unusedSimpArgs false

/-!
# C24: merging configurations
-/

namespace Verif.Merge
open Verif.Mustache (Text)
open Verif.HttpUrl (GVal)

/-! ## Specification -/

/-- The last entry of the list that is set. -/
def lastSet {α : Type} : List (Option α) → Option α
  | [] => none
  | x :: rest => match lastSet rest with
    | some v => some v
    | none => x

/-- Is a name in a set of names? -/
def inSet (s : Option BSet) (n : Text) : Prop := ∃ b, s = some b ∧ ∃ u, (n, u) ∈ b.entries

/-- The definition of field `f` of type `t` in a configuration. -/
def fieldDef (c : Config) (t f : Text) : Option Opaque :=
  ((c.types.entries.find? (·.1 = t)).map (·.2)).bind
    (fun d => ((d.fields.entries.find? (·.1 = f)).map (·.2)))

/-- All files merged from left to right, starting from the empty configuration. -/
def mergeAll (cs : List Config) : Config := cs.foldl Config.merge {}

theorem get_eq_find {V : Type} (k : Text) (m : List (Text × V)) :
    get k m = (m.find? (·.1 = k)).map (·.2) := by
  induction m with
  | nil => rfl
  | cons p r ih =>
    obtain ⟨k', v⟩ := p
    by_cases h : k' = k <;> simp [get, List.find?_cons, h, ih]

theorem fold_last {α : Type} (p : Config → Option α)
    (hp : ∀ a b, p (Config.merge a b) = match p b with | some v => some v | none => p a)
    (cs : List Config) (a : Config) :
    p (cs.foldl Config.merge a) = match lastSet (cs.map p) with | some v => some v | none => p a := by
  induction cs generalizing a with
  | nil => rfl
  | cons c rest ih =>
    simp only [List.foldl_cons, List.map_cons, lastSet, ih, hp]
    cases lastSet (rest.map p) <;> rfl

theorem mergeOpt_right_eq {α : Type} (a b : Option α) :
    mergeOpt right a b = match b with | some v => some v | none => a := by
  cases a <;> cases b <;> rfl

theorem mergeAll_last {α : Type} (p : Config → Option α)
    (hp : ∀ a b, p (Config.merge a b) = mergeOpt right (p a) (p b)) (h0 : p {} = none)
    (cs : List Config) : p (mergeAll cs) = lastSet (cs.map p) := by
  unfold mergeAll
  rw [fold_last p (fun a b => by rw [hp, mergeOpt_right_eq]), h0]
  cases lastSet (cs.map p) <;> rfl

/-! ## Associativity -/

/-- However the merges of three configurations are grouped, the result is the same. -/
theorem C24_config_associative (a b c : Config) :
    Config.merge (Config.merge a b) c = Config.merge a (Config.merge b c) := assoc_config a b c

/-- The same for the resolved extensions (proto files, scripts, certificates, endpoints, credentials). -/
theorem C24_extensions_associative (a b c : Extensions) :
    Extensions.merge (Extensions.merge a b) c = Extensions.merge a (Extensions.merge b c) :=
  assoc_extensions a b c

/-- The same for insertion-ordered maps whose values merge associatively, including the order of keys. -/
theorem C24_index_map_associative {V : Type} (mv : V → V → V)
    (h : ∀ x y z, mv (mv x y) z = mv x (mv y z)) (a b c : List (Text × V))
    (ha : (a.map (·.1)).Nodup) (hb : (b.map (·.1)).Nodup) (hc : (c.map (·.1)).Nodup) :
    mergeIndex mv (mergeIndex mv a b) c = mergeIndex mv a (mergeIndex mv b c) :=
  mergeIndex_assoc ha hb hc (fun _ x y z _ _ _ => h x y z)

/-- Keys of the left map keep their place, new keys of the right follow in the right's order. -/
theorem C24_index_map_order {V : Type} (mv : V → V → V) (a b : List (Text × V))
    (hb : (b.map (·.1)).Nodup) :
    (mergeIndex mv a b).map (·.1) = a.map (·.1) ++ (b.map (·.1)).filter (fun k => !(a.map (·.1)).contains k) := by
  have := keys_mergeIndex mv a b hb
  unfold keysOf at this
  rw [this]
  congr 1
  apply List.filter_congr
  intro x _
  simp

example : mergeIndex (right : Nat → Nat → Nat) [("b".toList, 1), ("a".toList, 2)]
    [("c".toList, 3), ("b".toList, 4)] = [("b".toList, 4), ("a".toList, 2), ("c".toList, 3)] := by decide

/-! ## The right-most file wins -/

/-- Every scalar setting of the merged configuration is the one of the last file that sets it. -/
theorem C24_last_file_wins (cs : List Config) :
    let m := mergeAll cs
    (m.server.apolloTracing = lastSet (cs.map (·.server.apolloTracing))) ∧
    (m.server.batchRequests = lastSet (cs.map (·.server.batchRequests))) ∧
    (m.server.globalResponseTimeout = lastSet (cs.map (·.server.globalResponseTimeout))) ∧
    (m.server.hostname = lastSet (cs.map (·.server.hostname))) ∧
    (m.server.introspection = lastSet (cs.map (·.server.introspection))) ∧
    (m.server.enableFederation = lastSet (cs.map (·.server.enableFederation))) ∧
    (m.server.enableJit = lastSet (cs.map (·.server.enableJit))) ∧
    (m.server.pipelineFlush = lastSet (cs.map (·.server.pipelineFlush))) ∧
    (m.server.port = lastSet (cs.map (·.server.port))) ∧
    (m.server.queryValidation = lastSet (cs.map (·.server.queryValidation))) ∧
    (m.server.responseValidation = lastSet (cs.map (·.server.responseValidation))) ∧
    (m.server.showcase = lastSet (cs.map (·.server.showcase))) ∧
    (m.server.version = lastSet (cs.map (·.server.version))) ∧
    (m.server.workers = lastSet (cs.map (·.server.workers))) ∧
    (m.upstream.onRequest = lastSet (cs.map (·.upstream.onRequest))) ∧
    (m.upstream.connectTimeout = lastSet (cs.map (·.upstream.connectTimeout))) ∧
    (m.upstream.httpCache = lastSet (cs.map (·.upstream.httpCache))) ∧
    (m.upstream.http2Only = lastSet (cs.map (·.upstream.http2Only))) ∧
    (m.upstream.keepAliveInterval = lastSet (cs.map (·.upstream.keepAliveInterval))) ∧
    (m.upstream.keepAliveTimeout = lastSet (cs.map (·.upstream.keepAliveTimeout))) ∧
    (m.upstream.keepAliveWhileIdle = lastSet (cs.map (·.upstream.keepAliveWhileIdle))) ∧
    (m.upstream.poolMaxIdlePerHost = lastSet (cs.map (·.upstream.poolMaxIdlePerHost))) ∧
    (m.upstream.poolIdleTimeout = lastSet (cs.map (·.upstream.poolIdleTimeout))) ∧
    (m.upstream.tcpKeepAlive = lastSet (cs.map (·.upstream.tcpKeepAlive))) ∧
    (m.upstream.timeout = lastSet (cs.map (·.upstream.timeout))) ∧
    (m.upstream.userAgent = lastSet (cs.map (·.upstream.userAgent))) ∧
    (m.upstream.verifySsl = lastSet (cs.map (·.upstream.verifySsl))) ∧
    (m.schema.query = lastSet (cs.map (·.schema.query))) ∧
    (m.schema.mutation = lastSet (cs.map (·.schema.mutation))) ∧
    (m.schema.subscription = lastSet (cs.map (·.schema.subscription))) ∧
    (m.telemetry.exporter = lastSet (cs.map (·.telemetry.exporter))) := by
  refine ⟨?_, ?_, ?_, ?_, ?_, ?_, ?_, ?_, ?_, ?_, ?_, ?_, ?_, ?_, ?_, ?_, ?_, ?_, ?_, ?_, ?_, ?_, ?_, ?_,
    ?_, ?_, ?_, ?_, ?_, ?_, mergeAll_last (·.telemetry.exporter) (fun a b => telemetry_eq _ _) rfl cs⟩
  · exact mergeAll_last (·.server.apolloTracing) (fun _ _ => rfl) rfl cs
  · exact mergeAll_last (·.server.batchRequests) (fun _ _ => rfl) rfl cs
  · exact mergeAll_last (·.server.globalResponseTimeout) (fun _ _ => rfl) rfl cs
  · exact mergeAll_last (·.server.hostname) (fun _ _ => rfl) rfl cs
  · exact mergeAll_last (·.server.introspection) (fun _ _ => rfl) rfl cs
  · exact mergeAll_last (·.server.enableFederation) (fun _ _ => rfl) rfl cs
  · exact mergeAll_last (·.server.enableJit) (fun _ _ => rfl) rfl cs
  · exact mergeAll_last (·.server.pipelineFlush) (fun _ _ => rfl) rfl cs
  · exact mergeAll_last (·.server.port) (fun _ _ => rfl) rfl cs
  · exact mergeAll_last (·.server.queryValidation) (fun _ _ => rfl) rfl cs
  · exact mergeAll_last (·.server.responseValidation) (fun _ _ => rfl) rfl cs
  · exact mergeAll_last (·.server.showcase) (fun _ _ => rfl) rfl cs
  · exact mergeAll_last (·.server.version) (fun _ _ => rfl) rfl cs
  · exact mergeAll_last (·.server.workers) (fun _ _ => rfl) rfl cs
  · exact mergeAll_last (·.upstream.onRequest) (fun _ _ => rfl) rfl cs
  · exact mergeAll_last (·.upstream.connectTimeout) (fun _ _ => rfl) rfl cs
  · exact mergeAll_last (·.upstream.httpCache) (fun _ _ => rfl) rfl cs
  · exact mergeAll_last (·.upstream.http2Only) (fun _ _ => rfl) rfl cs
  · exact mergeAll_last (·.upstream.keepAliveInterval) (fun _ _ => rfl) rfl cs
  · exact mergeAll_last (·.upstream.keepAliveTimeout) (fun _ _ => rfl) rfl cs
  · exact mergeAll_last (·.upstream.keepAliveWhileIdle) (fun _ _ => rfl) rfl cs
  · exact mergeAll_last (·.upstream.poolMaxIdlePerHost) (fun _ _ => rfl) rfl cs
  · exact mergeAll_last (·.upstream.poolIdleTimeout) (fun _ _ => rfl) rfl cs
  · exact mergeAll_last (·.upstream.tcpKeepAlive) (fun _ _ => rfl) rfl cs
  · exact mergeAll_last (·.upstream.timeout) (fun _ _ => rfl) rfl cs
  · exact mergeAll_last (·.upstream.userAgent) (fun _ _ => rfl) rfl cs
  · exact mergeAll_last (·.upstream.verifySsl) (fun _ _ => rfl) rfl cs
  · exact mergeAll_last (·.schema.query) (fun _ _ => rfl) rfl cs
  · exact mergeAll_last (·.schema.mutation) (fun _ _ => rfl) rfl cs
  · exact mergeAll_last (·.schema.subscription) (fun _ _ => rfl) rfl cs

example : (mergeAll [{ server := { port := some 8000, workers := some 2 } },
    { server := { port := some 9000 } }, {}]).server.port = some 9000 := by
  rw [(C24_last_file_wins _).2.2.2.2.2.2.2.2.1]; rfl

/-- The same for settings inside nested blocks. -/
theorem C24_last_nested_setting_wins (cs : List Config) :
    let m := mergeAll cs
    let cors (c : Config) : Option Cors := c.server.headers.bind (·.cors)
    (m.server.headers.bind (·.cacheControl) = lastSet (cs.map (·.server.headers.bind (·.cacheControl)))) ∧
    (m.server.headers.bind (·.setCookies) = lastSet (cs.map (·.server.headers.bind (·.setCookies)))) ∧
    ((cors m).bind (·.allowCredentials) = lastSet (cs.map (fun c => (cors c).bind (·.allowCredentials)))) ∧
    ((cors m).bind (·.allowPrivateNetwork) =
      lastSet (cs.map (fun c => (cors c).bind (·.allowPrivateNetwork)))) ∧
    ((cors m).bind (·.maxAge) = lastSet (cs.map (fun c => (cors c).bind (·.maxAge)))) ∧
    (m.server.script.bind (·.timeout) = lastSet (cs.map (·.server.script.bind (·.timeout)))) ∧
    (m.server.routes.map (·.status) = lastSet (cs.map (·.server.routes.map (·.status)))) ∧
    (m.server.routes.map (·.graphql) = lastSet (cs.map (·.server.routes.map (·.graphql)))) ∧
    (m.upstream.proxy.map (·.url) = lastSet (cs.map (·.upstream.proxy.map (·.url)))) ∧
    (m.upstream.batch.map (·.delay) = lastSet (cs.map (·.upstream.batch.map (·.delay)))) ∧
    (m.upstream.batch.bind (·.maxSize) = lastSet (cs.map (·.upstream.batch.bind (·.maxSize)))) := by
  have bind_ : ∀ {α β : Type} (f : α → α → α) (q : α → Option β),
      (∀ x y, q (f x y) = mergeOpt right (q x) (q y)) → ∀ x y : Option α,
      (mergeOpt f x y).bind q = mergeOpt right (x.bind q) (y.bind q) := by
    intro α β f q h x y
    cases x <;> cases y <;> simp [mergeOpt, h]
    all_goals (rename_i z; cases q z <;> rfl)
  have map_ : ∀ {α β : Type} (f : α → α → α) (q : α → β),
      (∀ x y, q (f x y) = q y) → ∀ x y : Option α,
      (mergeOpt f x y).map q = mergeOpt right (x.map q) (y.map q) := by
    intro α β f q h x y
    cases x <;> cases y <;> simp [mergeOpt, h, right]
  have cors_ : ∀ {β : Type} (q : Cors → Option β),
      (∀ x y, q (Cors.merge x y) = mergeOpt right (q x) (q y)) → ∀ a b : Config,
      ((Config.merge a b).server.headers.bind (·.cors)).bind q =
        mergeOpt right ((a.server.headers.bind (·.cors)).bind q) ((b.server.headers.bind (·.cors)).bind q) := by
    intro β q h a b
    have := bind_ Headers.merge (fun x => x.cors.bind q) (fun x y => bind_ Cors.merge q h _ _)
      a.server.headers b.server.headers
    show ((mergeOpt Headers.merge a.server.headers b.server.headers).bind (·.cors)).bind q = _
    simpa [Option.bind_assoc] using this
  refine ⟨?_, ?_, ?_, ?_, ?_, ?_, ?_, ?_, ?_, ?_, ?_⟩
  · exact mergeAll_last (·.server.headers.bind (·.cacheControl))
      (fun _ _ => bind_ Headers.merge _ (fun _ _ => rfl) _ _) rfl cs
  · exact mergeAll_last (·.server.headers.bind (·.setCookies))
      (fun _ _ => bind_ Headers.merge _ (fun _ _ => rfl) _ _) rfl cs
  · exact mergeAll_last (fun c => (c.server.headers.bind (·.cors)).bind (·.allowCredentials))
      (cors_ _ (fun _ _ => rfl)) rfl cs
  · exact mergeAll_last (fun c => (c.server.headers.bind (·.cors)).bind (·.allowPrivateNetwork))
      (cors_ _ (fun _ _ => rfl)) rfl cs
  · exact mergeAll_last (fun c => (c.server.headers.bind (·.cors)).bind (·.maxAge))
      (cors_ _ (fun _ _ => rfl)) rfl cs
  · exact mergeAll_last (·.server.script.bind (·.timeout))
      (fun _ _ => bind_ ScriptOptions.merge _ (fun _ _ => rfl) _ _) rfl cs
  · exact mergeAll_last (·.server.routes.map (·.status))
      (fun _ _ => map_ Routes.merge _ (fun _ _ => rfl) _ _) rfl cs
  · exact mergeAll_last (·.server.routes.map (·.graphql))
      (fun _ _ => map_ Routes.merge _ (fun _ _ => rfl) _ _) rfl cs
  · exact mergeAll_last (·.upstream.proxy.map (·.url))
      (fun _ _ => map_ Proxy.merge _ (fun _ _ => rfl) _ _) rfl cs
  · exact mergeAll_last (·.upstream.batch.map (·.delay))
      (fun _ _ => map_ Batch.merge _ (fun _ _ => rfl) _ _) rfl cs
  · exact mergeAll_last (·.upstream.batch.bind (·.maxSize))
      (fun _ _ => bind_ Batch.merge _ (fun _ _ => rfl) _ _) rfl cs

/-- A field of a type is defined as in the last file that defines it. -/
theorem C24_last_field_definition_wins (cs : List Config) (t f : Text) :
    fieldDef (mergeAll cs) t f = lastSet (cs.map (fun c => fieldDef c t f)) := by
  apply mergeAll_last (fun c => fieldDef c t f)
  · intro a b
    simp only [fieldDef, ← get_eq_find]
    show Option.bind (get t (BMap.merge TypeDef.merge a.types b.types).entries) _ = _
    rw [get_merge]
    cases get t a.types.entries <;> cases get t b.types.entries <;> simp [mergeOpt, mergeOpt_none_left,
      mergeOpt_none_right]
    · rename_i x
      cases get f x.fields.entries <;> rfl
    · rename_i x
      cases get f x.fields.entries <;> rfl
    · rename_i x y
      show get f (BMap.merge right x.fields y.fields).entries = _
      rw [get_merge]
      cases get f x.fields.entries <;> cases get f y.fields.entries <;> rfl
  · rfl

example : fieldDef (mergeAll [
    { types := ⟨[("A".toList, { fields := ⟨[("x".toList, "Int".toList), ("y".toList, "Int".toList)],
        by simp [Sorted, tlt]⟩ })], by simp [Sorted]⟩ },
    { types := ⟨[("A".toList, { fields := ⟨[("x".toList, "String".toList)], by simp [Sorted]⟩ })],
        by simp [Sorted]⟩ }]) "A".toList "x".toList = some "String".toList := by
  rw [C24_last_field_definition_wins]; rfl

/-- A variable has the value of the last file that assigns it. -/
theorem C24_last_variable_wins (a b : List KeyValue) (k : Text) :
    lastOf k (mergeKeyValueVecs a b) = match lastOf k b with | some v => some v | none => lastOf k a := by
  rw [lastOf_merge]; cases lastOf k b <;> rfl

/-- The variables of a merged configuration are listed once each, in the order of their names. -/
theorem C24_variables_listed_once (a b : List KeyValue) :
    ((mergeKeyValueVecs a b).map (·.key)).Nodup := by
  have h := canonical_merge a b
  unfold Canonical at h
  unfold List.Nodup
  rw [List.pairwise_map]
  refine h.imp ?_
  intro x y hxy e
  rw [e, tlt_irrefl] at hxy
  cases hxy

example : mergeKeyValueVecs [⟨"b".toList, "1".toList⟩, ⟨"a".toList, "2".toList⟩] [⟨"b".toList, "3".toList⟩]
    = [⟨"a".toList, "2".toList⟩, ⟨"b".toList, "3".toList⟩] := by decide

theorem inSet_merge (a b : BSet) (n : Text) :
    (∃ u, (n, u) ∈ (BSet.merge a b).entries) ↔ (∃ u, (n, u) ∈ a.entries) ∨ ∃ u, (n, u) ∈ b.entries := by
  have h : ∀ s : BSet, (∃ u, (n, u) ∈ s.entries) ↔ (get n s.entries).isSome := by
    intro s
    constructor
    · rintro ⟨u, hu⟩
      cases e : get n s.entries with
      | some v => rfl
      | none => exact absurd (List.mem_map.mpr ⟨_, hu, rfl⟩) (get_none_iff.mp e)
    · intro e
      obtain ⟨v, hv⟩ := Option.isSome_iff_exists.mp e
      exact ⟨v, get_mem hv⟩
  rw [h, h, h]
  show (get n (BMap.merge right a b).entries).isSome = true ↔ _
  rw [get_merge]
  cases get n a.entries <;> cases get n b.entries <;> simp [mergeOpt]

/-- Sets of header names are united. -/
theorem C24_allowed_headers_united (a b : Upstream) (n : Text) :
    inSet (Upstream.merge a b).allowedHeaders n ↔ inSet a.allowedHeaders n ∨ inSet b.allowedHeaders n := by
  unfold inSet
  simp only [Upstream.merge]
  cases a.allowedHeaders <;> cases b.allowedHeaders <;> simp [mergeOpt]
  exact inSet_merge _ _ n

/-- Types, unions and enums of the merged configuration: those of either file; members of a union or enum
defined in both are united. -/
theorem C24_members_united (a b : Config) (u n : Text) :
    let members (m : BMap Members) : Prop := ∃ d, (m.entries.find? (·.1 = u)).map (·.2) = some d ∧
      ∃ x, (n, x) ∈ d.names.entries
    (members (Config.merge a b).unions ↔ members a.unions ∨ members b.unions) ∧
    (members (Config.merge a b).enums ↔ members a.enums ∨ members b.enums) := by
  have h : ∀ x y : BMap Members,
      ((∃ d, get u (BMap.merge Members.merge x y).entries = some d ∧ ∃ v, (n, v) ∈ d.names.entries) ↔
        (∃ d, get u x.entries = some d ∧ ∃ v, (n, v) ∈ d.names.entries) ∨
        (∃ d, get u y.entries = some d ∧ ∃ v, (n, v) ∈ d.names.entries)) := by
    intro x y
    rw [get_merge]
    cases get u x.entries <;> cases get u y.entries <;> simp [mergeOpt]
    exact inSet_merge _ _ n
  simp only [← get_eq_find]
  exact ⟨h _ _, h _ _⟩

/-- Documentation and cache setting of a type: the right file's if it has one. Required providers of a
protected type: those of both files. Interfaces: those of either. Directives and added fields: one after
the other. -/
theorem C24_type_settings (a b : TypeDef) (n : Text) :
    ((TypeDef.merge a b).doc = lastSet [a.doc, b.doc]) ∧
    ((TypeDef.merge a b).cache = lastSet [a.cache, b.cache]) ∧
    ((TypeDef.merge a b).protected_.isSome = (a.protected_.isSome || b.protected_.isSome)) ∧
    (n ∈ ((TypeDef.merge a b).protected_.bind (·.id)).getD [] ↔
      n ∈ (a.protected_.bind (·.id)).getD [] ∨ n ∈ (b.protected_.bind (·.id)).getD []) ∧
    ((∃ x, (n, x) ∈ (TypeDef.merge a b).implements.entries) ↔
      (∃ x, (n, x) ∈ a.implements.entries) ∨ ∃ x, (n, x) ∈ b.implements.entries) ∧
    ((TypeDef.merge a b).directives = a.directives ++ b.directives) ∧
    ((TypeDef.merge a b).addedFields = a.addedFields ++ b.addedFields) := by
  refine ⟨?_, ?_, ?_, ?_, inSet_merge _ _ n, rfl, rfl⟩
  · simp only [TypeDef.merge, lastSet, mergeOpt_right_eq]
  · simp only [TypeDef.merge, lastSet, mergeOpt_right_eq]
  · simp only [TypeDef.merge]
    cases a.protected_ <;> cases b.protected_ <;> rfl
  · simp only [TypeDef.merge]
    cases a.protected_ <;> cases b.protected_ <;> simp [mergeOpt]
    rename_i x y
    simp only [Protected.merge]
    cases x.id <;> cases y.id <;> simp [mergeOpt, mergeVec]

/-- Extensions: the right script if there is one, for each proto file the right one, and all
certificates, keys, endpoints and credentials. -/
theorem C24_extensions_settings (a b : Extensions) (n : Text) :
    let proto (e : Extensions) := (e.grpcFileDescriptors.entries.find? (·.1 = n)).map (·.2)
    let m := Extensions.merge a b
    m.script = lastSet [a.script, b.script] ∧ proto m = lastSet [proto a, proto b] ∧
    m.cert = a.cert ++ b.cert ∧ m.keys = a.keys ++ b.keys ∧ m.endpoints = a.endpoints ++ b.endpoints ∧
    m.htpasswd = a.htpasswd ++ b.htpasswd ∧ m.jwks = a.jwks ++ b.jwks := by
  refine ⟨?_, ?_, rfl, rfl, rfl, rfl, rfl⟩
  · simp only [Extensions.merge, lastSet, mergeOpt_right_eq]
  · simp only [← get_eq_find, Extensions.merge, get_merge, lastSet, mergeOpt_right_eq]

/-- Links, certificates and the like are listed one after the other. -/
theorem C24_lists_concatenated (cs : List Config) :
    (mergeAll cs).links = cs.flatMap (·.links) ∧
    (mergeAll cs).telemetry.requestHeaders = cs.flatMap (·.telemetry.requestHeaders) := by
  have h : ∀ (a : Config), (cs.foldl Config.merge a).links = a.links ++ cs.flatMap (·.links) ∧
      (cs.foldl Config.merge a).telemetry.requestHeaders =
        a.telemetry.requestHeaders ++ cs.flatMap (·.telemetry.requestHeaders) := by
    induction cs with
    | nil => intro a; simp
    | cons c rest ih =>
      intro a
      simp only [List.foldl_cons, List.flatMap_cons]
      obtain ⟨h1, h2⟩ := ih (Config.merge a c)
      rw [h1, h2]
      simp [Config.merge, Telemetry.merge, mergeVec]
  simpa [mergeAll] using h {}

/-- A type keeps every resolver of either file, each once more at most. -/
theorem C24_resolvers_kept (a b : TypeDef) (r : Opaque) :
    r ∈ (TypeDef.merge a b).resolvers ↔ r ∈ a.resolvers ∨ r ∈ b.resolvers :=
  mem_mergeResolvers _ _ _

/-! ## The empty configuration -/

/-- Merging with the empty configuration changes nothing if the variables are listed in order, each once.
Full statement: for every configuration. What is missing: see `C24_identity_violated_by_variable_order`;
the variables themselves keep their values (`C24_last_variable_wins`). -/
theorem C24_empty_is_identity_partial (a : Config)
    (h : a.server.vars.Pairwise (fun x y => tlt x.key y.key = true)) :
    Config.merge a {} = a ∧ Config.merge {} a = a := by
  have h1 := vars_empty_right h
  have h2 := vars_empty_left h
  obtain ⟨s, u, sc, t, un, en, l, te⟩ := a
  obtain ⟨tx, th⟩ := te
  simp only at h1 h2
  constructor
  · simp only [Config.merge, Server.merge, Upstream.merge, RootSchema.merge, mergeOpt_none_right, h1,
      map_empty_right, mergeVec, List.append_nil, Telemetry.merge]
    cases tx <;> rfl
  · simp only [Config.merge, Server.merge, Upstream.merge, RootSchema.merge, mergeOpt_none_left, h2,
      map_empty_left, mergeVec, List.nil_append, Telemetry.merge]
    cases tx <;> rfl

example : Config.merge { server := { vars := [⟨"a".toList, "1".toList⟩, ⟨"b".toList, "2".toList⟩] } } {} =
    { server := { vars := [⟨"a".toList, "1".toList⟩, ⟨"b".toList, "2".toList⟩] } } :=
  (C24_empty_is_identity_partial _ (by decide)).1

/-- Merging with the empty configuration reorders the variables. -/
theorem C24_identity_violated_by_variable_order : ∃ a : Config, Config.merge a {} ≠ a := by
  refine ⟨{ server := { vars := [⟨"b".toList, "1".toList⟩, ⟨"a".toList, "2".toList⟩] } }, ?_⟩
  intro h
  have := congrArg (fun c => c.server.vars) h
  revert this
  decide

/-- The right-most file wins even where it says nothing: a file with an `@upstream` that does not mention
`verifySSL` switches verification back on. -/
theorem C24_silence_violated_by_verify_ssl : ∃ a b : Upstream, a.getVerifySsl = false ∧
    b.verifySsl = none ∧ (Upstream.merge a b.written).getVerifySsl = true :=
  ⟨{ verifySsl := some false }, { timeout := some 5 }, rfl, rfl, rfl⟩

/-- The same for the batch settings: a `batch` that only names headers resets the delay and the size. -/
theorem C24_silence_violated_by_batch : ∃ a b : Upstream, a.getDelay = 10 ∧ a.getMaxSize = 7 ∧
    b.batch = some { Batch.default with headers := ⟨[("x".toList, ())], by simp [Sorted]⟩ } ∧
    (Upstream.merge a b).getDelay = 0 ∧ (Upstream.merge a b).getMaxSize = 100 :=
  ⟨{ batch := some { delay := 10, headers := BMap.empty, maxSize := some 7 } }, { batch := some _ },
    rfl, rfl, rfl, rfl, rfl⟩

/-! ## Merging values -/

/-- Neither a list nor an object. -/
def IsScalar : GVal → Prop
  | .list _ => False
  | .obj _ => False
  | _ => True

/-- Objects have each key once. -/
inductive WF : GVal → Prop where
  | scalar {v} : IsScalar v → WF v
  | list {l} : (∀ v ∈ l, WF v) → WF (.list l)
  | obj {kvs : List (Text × GVal)} : (kvs.map (·.1)).Nodup → (∀ k v, (k, v) ∈ kvs → WF v) → WF (.obj kvs)

/-- Two values have the same shape wherever both are present. -/
inductive Agree : GVal → GVal → Prop where
  | scalar {a b} : IsScalar a → IsScalar b → Agree a b
  | list {a b} : Agree (.list a) (.list b)
  | obj {a b : List (Text × GVal)} : (∀ k x y, (k, x) ∈ a → (k, y) ∈ b → Agree x y) →
      Agree (.obj a) (.obj b)

theorem mergeConst_scalar {a b : GVal} (ha : IsScalar a) (hb : IsScalar b) : mergeConst a b = b := by
  cases a <;> cases b <;> simp_all [IsScalar, mergeConst]

/-- Merging the results of several resolvers does not depend on the grouping, for values of the same
shape. Full statement: for all values. What is missing: see the counterexamples below. -/
theorem C24_values_associative_partial (a b c : GVal) (ha : WF a) (hb : WF b) (hc : WF c)
    (hab : Agree a b) (hbc : Agree b c) (hac : Agree a c) :
    mergeConst (mergeConst a b) c = mergeConst a (mergeConst b c) := by
  induction hab generalizing c with
  | scalar ha' hb' =>
    cases hbc with
    | scalar _ hc' =>
      rw [mergeConst_scalar ha' hb', mergeConst_scalar hb' hc', mergeConst_scalar ha' hc']
    | list => simp [IsScalar] at hb'
    | obj _ => simp [IsScalar] at hb'
  | list =>
    cases hbc with
    | scalar h _ => simp [IsScalar] at h
    | list => simp [mergeConst]
  | @obj x y hxy ih =>
    cases hbc with
    | scalar h _ => simp [IsScalar] at h
    | @obj _ z hyz =>
      cases hac with
      | scalar h _ => simp [IsScalar] at h
      | obj hxz =>
        cases ha with
        | scalar h => simp [IsScalar] at h
        | obj na wa => cases hb with
          | scalar h => simp [IsScalar] at h
          | obj nb wb => cases hc with
            | scalar h => simp [IsScalar] at h
            | obj nc wc =>
              simp only [mergeConst, mergeConstKvs_eq]
              congr 1
              apply mergeIndex_assoc na nb nc
              intro k u v w hu hv hw
              have hu := get_mem hu; have hv := get_mem hv; have hw := get_mem hw
              exact ih k u v hu hv w (wa k u hu) (wb k v hv) (wc k w hw) (hyz k v w hv hw)
                (hxz k u w hu hw)

example : let a : GVal := .obj [("x".toList, .int 1), ("l".toList, .list [.int 1])]
    let b : GVal := .obj [("l".toList, .list [.int 2]), ("y".toList, .null)]
    Agree a b ∧ WF a := by
  refine ⟨.obj ?_, .obj (by decide) ?_⟩
  · intro k x y hx hy
    simp at hx hy
    rcases hx with ⟨rfl, rfl⟩ | ⟨rfl, rfl⟩ <;> rcases hy with ⟨h, rfl⟩ | ⟨h, rfl⟩ <;>
      first | exact .list | simp at h
  · intro k v hv
    simp at hv
    rcases hv with ⟨rfl, rfl⟩ | ⟨rfl, rfl⟩
    · exact .scalar trivial
    · exact .list (by simp; exact .scalar trivial)

/-- An entry of the merged object: the entries merged where both have one, otherwise the one there is. -/
theorem C24_object_entries (a b : List (Text × GVal)) (hb : (b.map (·.1)).Nodup) (k : Text) :
    ∃ m, mergeConst (.obj a) (.obj b) = .obj m ∧
      (∀ x y, a.lookup k = some x → b.lookup k = some y → m.lookup k = some (mergeConst x y)) ∧
      (a.lookup k = none → m.lookup k = b.lookup k) ∧ (b.lookup k = none → m.lookup k = a.lookup k) := by
  have hl : ∀ m : List (Text × GVal), m.lookup k = get k m := by
    intro m
    induction m with
    | nil => rfl
    | cons p r ih =>
      obtain ⟨k', v⟩ := p
      simp only [List.lookup, get]
      by_cases h : k' = k
      · subst h; simp
      · have : (k == k') = false := by simpa using Ne.symm h
        simp [h, this, ih]
  refine ⟨mergeConstKvs a b, by simp [mergeConst], ?_, ?_, ?_⟩ <;>
    simp only [hl, mergeConstKvs_eq, get_mergeIndex mergeConst a b hb]
  · intro x y hx hy; rw [hx, hy]; rfl
  · intro h; rw [h, mergeOpt_none_left]
  · intro h; rw [h, mergeOpt_none_right]

/-- Where both are scalars the right one wins; lists are concatenated. -/
theorem C24_value_leaves (a b : GVal) :
    (IsScalar a → IsScalar b → mergeConst a b = b) ∧
    (∀ l m, mergeConst (.list l) (.list m) = .list (l ++ m)) :=
  ⟨mergeConst_scalar, fun _ _ => by simp [mergeConst]⟩

example : mergeConst (.obj [("a".toList, .int 1), ("b".toList, .list [.int 1])])
    (.obj [("b".toList, .list [.int 2]), ("c".toList, .null)]) =
    .obj [("a".toList, .int 1), ("b".toList, .list [.int 1, .int 2]), ("c".toList, .null)] := by
  simp [mergeConst, mergeConstKvs, get, setKey]

/-- Grouping matters once lists meet scalars: `[1], 2, 3` is `[1, 2, 3]` or `[1, 3]`. -/
theorem C24_values_violated_by_list_and_scalars : ∃ a b c : GVal,
    mergeConst (mergeConst a b) c ≠ mergeConst a (mergeConst b c) := by
  refine ⟨.list [.int 1], .int 2, .int 3, ?_⟩
  simp [mergeConst]

/-- Grouping matters once objects meet a scalar: `{a}, null, {b}` is `{b}` or `{a, b}`. -/
theorem C24_values_violated_by_null_between_objects : ∃ a c : GVal,
    mergeConst (mergeConst a .null) c ≠ mergeConst a (mergeConst .null c) := by
  refine ⟨.obj [("a".toList, .int 1)], .obj [("b".toList, .int 2)], ?_⟩
  simp [mergeConst, mergeConstKvs, get]

/-- `null` on the left is neutral. -/
theorem C24_null_left (v : GVal) : mergeConst .null v = v := by cases v <;> simp [mergeConst]

/-- `null` on the right is not: it wipes out an object, and adds an element to a list. -/
theorem C24_identity_violated_by_null_right :
    mergeConst (.obj [("a".toList, .int 1)]) .null = .null ∧
    mergeConst (.list [.int 1]) .null = .list [.int 1, .null] := by
  constructor <;> simp [mergeConst]

/-! ## YAML documents -/

/-- Neither sequence, mapping nor tagged. -/
def YScalar : YVal → Prop
  | .seq _ => False
  | .map _ => False
  | .tagged _ _ => False
  | _ => True

/-- Mappings have each key once. -/
inductive YWF : YVal → Prop where
  | scalar {v} : YScalar v → YWF v
  | seq {l} : (∀ v ∈ l, YWF v) → YWF (.seq l)
  | map {kvs : List (Text × YVal)} : (kvs.map (·.1)).Nodup → (∀ k v, (k, v) ∈ kvs → YWF v) → YWF (.map kvs)
  | tagged {t v} : YWF v → YWF (.tagged t v)

/-- Two documents have the same shape wherever both are present. -/
inductive YAgree : YVal → YVal → Prop where
  | scalar {a b} : YScalar a → YScalar b → YAgree a b
  | seq {a b} : YAgree (.seq a) (.seq b)
  | map {a b : List (Text × YVal)} : (∀ k x y, (k, x) ∈ a → (k, y) ∈ b → YAgree x y) →
      YAgree (.map a) (.map b)
  | tagged {t a b} : YAgree a b → YAgree (.tagged t a) (.tagged t b)

theorem mergeYaml_scalar {a b : YVal} (ha : YScalar a) (hb : YScalar b) : mergeYaml a b = b := by
  cases a <;> cases b <;> simp_all [YScalar, mergeYaml]

theorem yremove_keys (k : Text) (m : List (Text × YVal)) (h : (keysOf m).Nodup) :
    keysOf (yremove k m) = (keysOf m).filter (fun x => decide (x ≠ k)) := by
  induction m with
  | nil => rfl
  | cons p r ih =>
    obtain ⟨k', v⟩ := p
    have hb : k' ∉ keysOf r ∧ (keysOf r).Nodup := by simpa [keysOf] using h
    unfold yremove
    by_cases e : k' = k
    · subst e
      simp only [if_true]
      have : keysOf ((k', v) :: r) = k' :: keysOf r := rfl
      rw [this, List.filter_cons]
      simp only [ne_eq, not_true_eq_false, decide_false, Bool.false_eq_true, if_false]
      symm
      apply List.filter_eq_self.mpr
      intro x hx
      simp; intro e; subst e; exact hb.1 hx
    · simp only [e, if_false]
      have : keysOf ((k', v) :: r) = k' :: keysOf r := rfl
      rw [this, List.filter_cons]
      simp only [ne_eq, e, not_false_eq_true, decide_true, if_true]
      rw [← ih hb.2]
      rfl

theorem get_yremove (k j : Text) (m : List (Text × YVal)) (h : (keysOf m).Nodup) :
    get j (yremove k m) = if k = j then none else get j m := by
  induction m with
  | nil => simp [yremove, get]
  | cons p r ih =>
    obtain ⟨k', v⟩ := p
    have hb : k' ∉ keysOf r ∧ (keysOf r).Nodup := by simpa [keysOf] using h
    unfold yremove
    by_cases e : k' = k
    · subst e
      simp only [if_true, get]
      by_cases e' : k' = j
      · subst e'; simp [get_none_iff.mpr hb.1]
      · simp [e']
    · simp only [e, if_false, get, ih hb.2]
      by_cases e' : k' = j
      · subst e'; simp [Ne.symm e]
      · simp [e']

theorem get_append {V : Type} (j : Text) (a b : List (Text × V)) :
    get j (a ++ b) = (get j a).or (get j b) := by
  induction a with
  | nil => simp [get]
  | cons p r ih =>
    obtain ⟨k', v⟩ := p
    by_cases e : k' = j <;> simp [get, e, ih]

theorem yaml_step_nodup {k : Text} {v : YVal} {a : List (Text × YVal)} (ha : (keysOf a).Nodup) :
    (keysOf (yremove k a ++ [(k, v)])).Nodup := by
  have : keysOf (yremove k a ++ [(k, v)]) = keysOf (yremove k a) ++ [k] := by simp [keysOf]
  rw [this, yremove_keys k a ha, List.nodup_append]
  refine ⟨ha.filter _, by simp, ?_⟩
  intro x hx y hy e
  simp at hx hy
  exact hx.2 (e.trans hy)

theorem keys_mergeYamlKvs (a b : List (Text × YVal)) (ha : (keysOf a).Nodup) (hb : (keysOf b).Nodup) :
    keysOf (mergeYamlKvs a b) = (keysOf a).filter (fun k => decide (k ∉ keysOf b)) ++ keysOf b := by
  induction b generalizing a with
  | nil =>
    have : (keysOf a).filter (fun _ => true) = keysOf a := List.filter_eq_self.mpr (by simp)
    simpa [mergeYamlKvs, keysOf] using this.symm
  | cons p r ih =>
    obtain ⟨k, v⟩ := p
    have hb' : k ∉ keysOf r ∧ (keysOf r).Nodup := by simpa [keysOf] using hb
    unfold mergeYamlKvs
    rw [ih _ (yaml_step_nodup ha) hb'.2]
    have e1 : ∀ w, keysOf (yremove k a ++ [(k, w)]) = keysOf (yremove k a) ++ [k] := by simp [keysOf]
    have e2 : keysOf ((k, v) :: r) = k :: keysOf r := rfl
    rw [e1, e2, yremove_keys k a ha, List.filter_append, List.filter_filter]
    simp only [List.filter_cons, List.filter_nil, hb'.1, not_false_eq_true, decide_true, if_true,
      List.append_assoc, List.singleton_append]
    congr 1
    apply List.filter_congr
    intro x _
    by_cases h1 : x = k <;> by_cases h2 : x ∈ keysOf r <;> simp [h1, h2]

theorem nodup_mergeYamlKvs {a b : List (Text × YVal)} (ha : (keysOf a).Nodup) (hb : (keysOf b).Nodup) :
    (keysOf (mergeYamlKvs a b)).Nodup := by
  rw [keys_mergeYamlKvs a b ha hb, List.nodup_append]
  refine ⟨ha.filter _, hb, ?_⟩
  intro x hx y hy e
  subst e
  simp at hx
  exact hx.2 hy

theorem get_mergeYamlKvs (a b : List (Text × YVal)) (ha : (keysOf a).Nodup) (hb : (keysOf b).Nodup)
    (j : Text) : get j (mergeYamlKvs a b) = mergeOpt mergeYaml (get j a) (get j b) := by
  induction b generalizing a with
  | nil => simp [mergeYamlKvs, get, mergeOpt_none_right]
  | cons p r ih =>
    obtain ⟨k, v⟩ := p
    have hb' : k ∉ keysOf r ∧ (keysOf r).Nodup := by simpa [keysOf] using hb
    unfold mergeYamlKvs
    rw [ih _ (yaml_step_nodup ha) hb'.2, get_append, get_yremove k j a ha]
    by_cases h : k = j
    · subst h
      simp only [if_true, get_none_iff.mpr hb'.1, mergeOpt_none_right, get, Option.none_or]
      cases get k a <;> rfl
    · simp [h, get]

/-- Merging YAML documents of the same shape does not depend on the grouping. Full statement: for all
documents. What is missing: see `C24_yaml_violated_by_mapping_then_sequence`. -/
theorem C24_yaml_associative_partial (a b c : YVal) (ha : YWF a) (hb : YWF b) (hc : YWF c)
    (hab : YAgree a b) (hbc : YAgree b c) (hac : YAgree a c) :
    mergeYaml (mergeYaml a b) c = mergeYaml a (mergeYaml b c) := by
  induction hab generalizing c with
  | scalar ha' hb' =>
    cases hbc with
    | scalar _ hc' =>
      rw [mergeYaml_scalar ha' hb', mergeYaml_scalar hb' hc', mergeYaml_scalar ha' hc']
    | seq => simp [YScalar] at hb'
    | map _ => simp [YScalar] at hb'
    | tagged _ => simp [YScalar] at hb'
  | seq =>
    cases hbc with
    | scalar h _ => simp [YScalar] at h
    | seq => simp [mergeYaml]
  | @tagged t x y hxy ih =>
    cases hbc with
    | scalar h _ => simp [YScalar] at h
    | @tagged _ _ z hyz =>
      cases hac with
      | scalar h _ => simp [YScalar] at h
      | tagged hxz =>
        cases ha with
        | scalar h => simp [YScalar] at h
        | tagged wa => cases hb with
          | scalar h => simp [YScalar] at h
          | tagged wb => cases hc with
            | scalar h => simp [YScalar] at h
            | tagged wc =>
              simp only [mergeYaml, if_true]
              rw [ih z wa wb wc hyz hxz]
  | @map x y hxy ih =>
    cases hbc with
    | scalar h _ => simp [YScalar] at h
    | @map _ z hyz =>
      cases hac with
      | scalar h _ => simp [YScalar] at h
      | map hxz =>
        cases ha with
        | scalar h => simp [YScalar] at h
        | map na wa => cases hb with
          | scalar h => simp [YScalar] at h
          | map nb wb => cases hc with
            | scalar h => simp [YScalar] at h
            | map nc wc =>
              simp only [mergeYaml]
              congr 1
              apply list_ext_of_keys
              · rw [keys_mergeYamlKvs _ _ (nodup_mergeYamlKvs na nb) nc, keys_mergeYamlKvs _ _ na nb,
                  keys_mergeYamlKvs _ _ na (nodup_mergeYamlKvs nb nc), keys_mergeYamlKvs _ _ nb nc]
                rw [List.filter_append, List.filter_filter, List.append_assoc]
                congr 1
                apply List.filter_congr
                intro k _
                by_cases h1 : k ∈ keysOf y <;> by_cases h2 : k ∈ keysOf z <;> simp [h1, h2]
              · exact nodup_mergeYamlKvs (nodup_mergeYamlKvs na nb) nc
              · intro k
                rw [get_mergeYamlKvs _ _ (nodup_mergeYamlKvs na nb) nc, get_mergeYamlKvs _ _ na nb,
                  get_mergeYamlKvs _ _ na (nodup_mergeYamlKvs nb nc), get_mergeYamlKvs _ _ nb nc]
                cases ea : get k x <;> cases eb : get k y <;> cases ec : get k z <;> simp [mergeOpt]
                have hu := get_mem ea; have hv := get_mem eb; have hw := get_mem ec
                exact ih k _ _ hu hv _ (wa k _ hu) (wb k _ hv) (wc k _ hw) (hyz k _ _ hv hw)
                  (hxz k _ _ hu hw)

/-- An entry of a merged YAML mapping; sequences are concatenated; the right scalar wins. -/
theorem C24_yaml_entries (a b : List (Text × YVal)) (ha : (a.map (·.1)).Nodup) (hb : (b.map (·.1)).Nodup)
    (k : Text) : ∃ m, mergeYaml (.map a) (.map b) = .map m ∧
      let entry (l : List (Text × YVal)) := (l.find? (·.1 = k)).map (·.2)
      (∀ x y, entry a = some x → entry b = some y → entry m = some (mergeYaml x y)) ∧
      (entry a = none → entry m = entry b) ∧ (entry b = none → entry m = entry a) := by
  refine ⟨mergeYamlKvs a b, by simp [mergeYaml], ?_⟩
  simp only [← get_eq_find, get_mergeYamlKvs a b ha hb]
  refine ⟨?_, ?_, ?_⟩
  · intro x y hx hy; rw [hx, hy]; rfl
  · intro h; rw [h, mergeOpt_none_left]
  · intro h; rw [h, mergeOpt_none_right]

/-- Leaves of YAML documents. -/
theorem C24_yaml_leaves (a b : YVal) : (YScalar a → YScalar b → mergeYaml a b = b) ∧
    (∀ l m, mergeYaml (.seq l) (.seq m) = .seq (l ++ m)) :=
  ⟨mergeYaml_scalar, fun _ _ => by simp [mergeYaml]⟩

/-- A mapping followed by a sequence lands at the end of the sequence, so that the left document is read
after the right one. -/
theorem C24_yaml_violated_by_mapping_then_sequence : ∃ a b c : YVal,
    mergeYaml (mergeYaml a b) c ≠ mergeYaml a (mergeYaml b c) := by
  refine ⟨.map [], .seq [.str "x".toList], .str "y".toList, ?_⟩
  simp [mergeYaml]

/-- With three differently tagged documents the middle one decides whether the outer two are merged. -/
theorem C24_yaml_violated_by_tags : ∃ a b c : YVal,
    mergeYaml (mergeYaml a b) c ≠ mergeYaml a (mergeYaml b c) := by
  refine ⟨.tagged "t".toList (.seq [.null]), .tagged "u".toList .null, .tagged "t".toList (.seq []), ?_⟩
  simp [mergeYaml]

example : YAgree (.map [("schema".toList, .seq [.str "a".toList])])
    (.map [("schema".toList, .seq [.str "b".toList]), ("x".toList, .null)]) := by
  refine .map ?_
  intro k x y hx hy
  simp at hx hy
  obtain ⟨rfl, rfl⟩ := hx
  rcases hy with ⟨h, rfl⟩ | ⟨h, rfl⟩
  · exact .seq
  · simp at h

end Verif.Merge
