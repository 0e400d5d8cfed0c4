import Verif.Loaders.Spec

/-!
# C137, C138: data loaders and batching
-/

set_option linter.unusedSimpArgs false

namespace Verif.Loaders

open Mustache (Text)

/-! ## Numbering -/

/-- From loaders `s` to loaders `t`, the calls `cs` were numbered: each kind's numbers go on where they
were, and each loader is that of its call. -/
structure Step (s : State) (cs : List Io) (t : State) : Prop where
  loaders : ∀ k, t.of k = s.of k ++ (if k = .js then [] else (cs.filter (fun i => i.kind == k)).map ownLoader)
  numbers : ∀ k, k ≠ .js → (cs.filter (fun i => i.kind == k)).map (·.dl) =
    (List.range' (s.of k).length (cs.filter (fun i => i.kind == k)).length).map some

theorem Step.refl (s : State) : Step s [] s := by
  constructor
  · intro k; simp
  · intro k _; simp

theorem Step.trans {s t u : State} {a b : List Io} (h1 : Step s a t) (h2 : Step t b u) : Step s (a ++ b) u := by
  constructor
  · intro k
    rw [h2.loaders k, h1.loaders k]
    by_cases hk : k = .js
    · simp [hk]
    · simp [hk]
  · intro k hk
    rw [List.filter_append, List.map_append, h1.numbers k hk, h2.numbers k hk, List.length_append,
      ← List.map_append]
    congr 1
    have : (t.of k).length = (s.of k).length + (a.filter (fun i => i.kind == k)).length := by
      rw [h1.loaders k]; simp [hk]
    rw [this, List.range'_append_1]

theorem number_step (i : Io) (s : State) : Step s [(number i s).1] (number i s).2 := by
  obtain ⟨kind, what, key, query, dl⟩ := i
  constructor
  · intro k
    cases kind <;> cases k <;> simp [number, State.of, ownLoader]
  · intro k hk
    cases kind <;> cases k <;> simp [number, State.of, ownLoader] at hk ⊢

theorem number_plain (i : Io) (s : State) : { (number i s).1 with dl := none } = { i with dl := none } := by
  obtain ⟨kind, what, key, query, dl⟩ := i
  cases kind <;> rfl

mutual
theorem modify_step : ∀ (x : IR) (s : State), Step s (callsOf (modify x s).1) (modify x s).2
  | .io i, s => number_step i s
  | .cache _ i, s => number_step i s
  | .path x _, s => modify_step x s
  | .protect _ x, s => modify_step x s
  | .map x _, s => modify_step x s
  | .pipe a b, s => (modify_step a s).trans (modify_step b (modify a s).2)
  | .merge l, s => modifyAll_step l s
  | .discriminate _ x, s => modify_step x s
  | .entity m, s => modifyEntries_step m s
  | .dynamic _, s => .refl s
  | .ctxPath _, s => .refl s
  | .service _, s => .refl s
theorem modifyAll_step : ∀ (l : List IR) (s : State), Step s (callsOfAll (modifyAll l s).1) (modifyAll l s).2
  | [], s => .refl s
  | x :: r, s => (modify_step x s).trans (modifyAll_step r (modify x s).2)
theorem modifyEntries_step : ∀ (m : List (Text × IR)) (s : State),
    Step s (callsOfEntries (modifyEntries m s).1) (modifyEntries m s).2
  | [], s => .refl s
  | p :: r, s => (modifyEntry_step p s).trans (modifyEntries_step r (modifyEntry p s).2)
theorem modifyEntry_step : ∀ (p : Text × IR) (s : State),
    Step s (callsOfEntry (modifyEntry p s).1) (modifyEntry p s).2
  | (_, x), s => modify_step x s
end

mutual
theorem modify_plain : ∀ (x : IR) (s : State), plain (modify x s).1 = plain x
  | .io i, s => congrArg IR.io (number_plain i s)
  | .cache a i, s => congrArg (IR.cache a) (number_plain i s)
  | .path x p, s => congrArg (IR.path · p) (modify_plain x s)
  | .protect a x, s => congrArg (IR.protect a) (modify_plain x s)
  | .map x m, s => congrArg (IR.map · m) (modify_plain x s)
  | .pipe a b, s => by
    show IR.pipe (plain (modify a s).1) (plain (modify b (modify a s).2).1) = IR.pipe (plain a) (plain b)
    rw [modify_plain a, modify_plain b]
  | .merge l, s => congrArg IR.merge (modifyAll_plain l s)
  | .discriminate d x, s => congrArg (IR.discriminate d) (modify_plain x s)
  | .entity m, s => congrArg IR.entity (modifyEntries_plain m s)
  | .dynamic _, _ => rfl
  | .ctxPath _, _ => rfl
  | .service _, _ => rfl
theorem modifyAll_plain : ∀ (l : List IR) (s : State), plainAll (modifyAll l s).1 = plainAll l
  | [], _ => rfl
  | x :: r, s => by
    show plain (modify x s).1 :: plainAll (modifyAll r (modify x s).2).1 = plain x :: plainAll r
    rw [modify_plain x, modifyAll_plain r]
theorem modifyEntries_plain : ∀ (m : List (Text × IR)) (s : State), plainEntries (modifyEntries m s).1 = plainEntries m
  | [], _ => rfl
  | p :: r, s => by
    show plainEntry (modifyEntry p s).1 :: plainEntries (modifyEntries r (modifyEntry p s).2).1
      = plainEntry p :: plainEntries r
    rw [modifyEntry_plain p, modifyEntries_plain r]
theorem modifyEntry_plain : ∀ (p : Text × IR) (s : State), plainEntry (modifyEntry p s).1 = plainEntry p
  | (k, x), s => congrArg (Prod.mk k) (modify_plain x s)
end

theorem modifyField_step (f : Field) (s : State) : Step s (callsOfField (modifyField f s).1) (modifyField f s).2 := by
  obtain ⟨n, r⟩ := f
  cases r with
  | none => exact .refl s
  | some x => exact modify_step x s

theorem modifyField_plain (f : Field) (s : State) : plainField (modifyField f s).1 = plainField f := by
  obtain ⟨n, r⟩ := f
  cases r with
  | none => rfl
  | some x =>
    show Field.mk n (some (plain (modify x s).1)) = Field.mk n (some (plain x))
    rw [modify_plain]

theorem modifyFields_step : ∀ (fs : List Field) (s : State),
    Step s ((modifyFields fs s).1.flatMap callsOfField) (modifyFields fs s).2
  | [], s => .refl s
  | f :: r, s => (modifyField_step f s).trans (modifyFields_step r (modifyField f s).2)

theorem modifyFields_plain : ∀ (fs : List Field) (s : State),
    (modifyFields fs s).1.map plainField = fs.map plainField
  | [], _ => rfl
  | f :: r, s => by
    show plainField (modifyField f s).1 :: (modifyFields r (modifyField f s).2).1.map plainField
      = plainField f :: r.map plainField
    rw [modifyField_plain f, modifyFields_plain r]

theorem modifyDefs_step : ∀ (ds : List Def) (s : State),
    Step s (objectCalls (modifyDefs ds s).1) (modifyDefs ds s).2
  | [], s => .refl s
  | .object _ fs :: r, s => (modifyFields_step fs s).trans (modifyDefs_step r (modifyFields fs s).2)
  | .interface _ _ :: r, s => modifyDefs_step r s
  | .other _ :: r, s => modifyDefs_step r s

theorem modifyDefs_plain : ∀ (ds : List Def) (s : State), (modifyDefs ds s).1.map plainDef = ds.map plainDef
  | [], _ => rfl
  | .object n fs :: r, s => by
    show Def.object n ((modifyFields fs s).1.map plainField) :: (modifyDefs r (modifyFields fs s).2).1.map plainDef
      = Def.object n (fs.map plainField) :: r.map plainDef
    rw [modifyFields_plain, modifyDefs_plain r]
  | .interface n fs :: r, s => congrArg (List.cons _) (modifyDefs_plain r s)
  | .other n :: r, s => congrArg (List.cons _) (modifyDefs_plain r s)

/-! ## C137: each call has a loader of its own -/

/-- C137: the calls of a kind are numbered from zero on without gaps, and there are as many loaders, so
that no two calls of objects share one. -/
theorem C137_own_partial (ds : List Def) (k : Kind) (hk : k ≠ .js) :
    ((objectCalls (appContext ds).1).filter (fun i => i.kind == k)).map (·.dl) =
      (List.range ((appContext ds).2.of k).length).map some := by
  have h := modifyDefs_step ds .empty
  have h0 : State.empty.of k = [] := by cases k <;> rfl
  have h1 := h.numbers k hk
  have h2 := h.loaders k
  rw [if_neg hk, h0, List.nil_append] at h2
  have h3 : ((appContext ds).2.of k).length =
      ((objectCalls (modifyDefs ds .empty).1).filter (fun i => i.kind == k)).length := by
    show ((modifyDefs ds .empty).2.of k).length = _
    rw [h2, List.length_map]
  rw [h3, List.range_eq_range']
  rw [h0] at h1
  exact h1

/-- C137: the loader with the number of a call is the one made for it. -/
theorem C137_loader_partial (ds : List Def) (i : Io) (hi : i ∈ objectCalls (appContext ds).1) (hk : i.kind ≠ .js) :
    ∃ n, i.dl = some n ∧ ((appContext ds).2.of i.kind)[n]? = some (ownLoader i) := by
  have h := modifyDefs_step ds .empty
  have h0 : State.empty.of i.kind = [] := by cases i.kind <;> rfl
  have h2 := h.loaders i.kind
  rw [if_neg hk, h0, List.nil_append] at h2
  have h1 := h.numbers i.kind hk
  rw [h0] at h1
  have hm : i ∈ (objectCalls (modifyDefs ds .empty).1).filter (fun j => j.kind == i.kind) :=
    List.mem_filter.mpr ⟨hi, by simp⟩
  obtain ⟨n, hn, hin⟩ := List.mem_iff_getElem.mp hm
  refine ⟨n, ?_, ?_⟩
  · have h3 : (((objectCalls (modifyDefs ds .empty).1).filter (fun j => j.kind == i.kind)).map (·.dl))[n]?
        = some i.dl := by
      rw [List.getElem?_map, List.getElem?_eq_getElem hn, hin]; rfl
    rw [h1, List.getElem?_map, List.getElem?_range' (by simpa using hn)] at h3
    simpa using h3.symm
  · show ((modifyDefs ds .empty).2.of i.kind)[n]? = _
    rw [h2, List.getElem?_map, List.getElem?_eq_getElem hn, hin]; rfl

/-- C137: nothing else changes: the definitions are those of the blueprint up to the numbers. -/
theorem C137_same (ds : List Def) : (appContext ds).1.map plainDef = ds.map plainDef := modifyDefs_plain ds .empty

/-! ## C138: batching -/

/-- C138: without settings for batches and without batch keys every call is made for itself. -/
theorem C138_off (ds : List Def) (s : State) (i : Io) (h : anyKeyed ds = false) :
    mode (effectiveBatch ds none) s i = .alone := by
  unfold effectiveBatch applyBatching mode
  rw [h]
  cases i.kind <;> rfl

theorem isBatchingEnabled_iff (b : Option Batch) : isBatchingEnabled b = true ↔ BatchingOn b := by
  cases b with
  | none => simp [isBatchingEnabled, BatchingOn]
  | some c =>
    simp only [isBatchingEnabled, decide_eq_true_eq, BatchingOn, Option.some.injEq, exists_eq_left']
    omega

theorem effective_some (ds : List Def) (c : Batch) :
    ∃ m, effectiveBatch ds (some c) = some ⟨c.delay, some m⟩ := by
  refine ⟨c.maxSize.getD 100, ?_⟩
  unfold effectiveBatch applyBatching getBatch
  split <;> rfl

/-- C138: with batching on, every call of a query goes through the loader made for it. -/
theorem C138_on_partial (ds : List Def) (c : Option Batch) (hc : BatchingOn c) (i : Io)
    (hi : i ∈ objectCalls (appContext ds).1) (hk : i.kind ≠ .js) (hq : i.kind ≠ .http → i.query = true) :
    mode (effectiveBatch ds c) (appContext ds).2 i = .through (ownLoader i) := by
  obtain ⟨n, h1, h2⟩ := C137_loader_partial ds i hi hk
  obtain ⟨b, rfl, hb⟩ := hc
  obtain ⟨m, hm⟩ := effective_some ds b
  rw [hm]
  unfold mode
  cases hkind : i.kind with
  | js => exact absurd hkind hk
  | http =>
    rw [hkind] at h2
    have : isBatchingEnabled (some ⟨b.delay, some m⟩) = true := (isBatchingEnabled_iff _).mpr ⟨_, rfl, hb⟩
    rw [this, h1]
    simp only [if_true, Option.bind_some]
    show (match (appContext ds).2.http[n]? with | some l => Mode.through l | none => Mode.alone) = _
    rw [show (appContext ds).2.http[n]? = some (ownLoader i) from h2]
  | graphql =>
    rw [hkind] at h2
    rw [hq (by simp [hkind]), h1]
    show withDl ((appContext ds).2.graphql[n]?) = _
    rw [show (appContext ds).2.graphql[n]? = some (ownLoader i) from h2]
    rfl
  | grpc =>
    rw [hkind] at h2
    rw [hq (by simp [hkind]), h1]
    show withDl ((appContext ds).2.grpc[n]?) = _
    rw [show (appContext ds).2.grpc[n]? = some (ownLoader i) from h2]
    rfl

/-- C138: with a delay of zero every HTTP call is made for itself. -/
theorem C138_zero_partial (ds : List Def) (c : Option Batch) (hc : ¬ BatchingOn c) (s : State) (i : Io)
    (hk : i.kind = .http) : mode (effectiveBatch ds c) s i = .alone := by
  have h : isBatchingEnabled (effectiveBatch ds c) = false := by
    rw [← Bool.not_eq_true, isBatchingEnabled_iff]
    rintro ⟨b, hb, hd⟩
    cases c with
    | none =>
      unfold effectiveBatch applyBatching at hb
      split at hb
      · have hb' : some Batch.default = some b := hb
        cases hb'
        exact hd rfl
      · cases hb
    | some c =>
      obtain ⟨m, hm⟩ := effective_some ds c
      rw [hm] at hb
      cases hb
      exact hc ⟨c, rfl, hd⟩
  unfold mode
  rw [hk, h]
  rfl

/-- C138: calls of mutations to GraphQL and gRPC upstreams are never combined. -/
theorem C138_mutation_partial (b : Option Batch) (s : State) (i : Io) (hk : i.kind ≠ .http) (hq : i.query = false) :
    mode b s i = .alone := by
  unfold mode
  rw [hq]
  cases hkind : i.kind with
  | http => exact absurd hkind hk
  | _ => simp

/-- C138: no call of an object's field panics, whatever the settings. -/
theorem C138_safe_partial (ds : List Def) (b : Option Batch) (i : Io) (hi : i ∈ objectCalls (appContext ds).1) :
    mode b (appContext ds).2 i ≠ .panics := by
  by_cases hk : i.kind = .js
  · unfold mode; rw [hk]; exact nofun
  · obtain ⟨n, h1, h2⟩ := C137_loader_partial ds i hi hk
    unfold mode
    cases hkind : i.kind with
    | js => exact nofun
    | http => dsimp only; split <;> exact nofun
    | graphql =>
      rw [hkind] at h2
      rw [h1]
      simp only [Option.bind_some]
      rw [show (appContext ds).2.graphql[n]? = some (ownLoader i) from h2]
      split <;> exact nofun
    | grpc =>
      rw [hkind] at h2
      rw [h1]
      simp only [Option.bind_some]
      rw [show (appContext ds).2.grpc[n]? = some (ownLoader i) from h2]
      split <;> exact nofun

/-! Batch keys -/

/-- C138: a batch key of an HTTP call is accepted exactly if batching is on and batches hold something. -/
theorem C138_keys (c : Option Batch) (i : Io) (hk : i.kind = .http) (hi : i.key.isSome = true) :
    keyAccepted c i = true ↔ BatchingOn c ∧ ∀ b, c = some b → b.maxSize ≠ some 0 := by
  unfold keyAccepted
  rw [hk, hi]
  cases c with
  | none => simp [getDelay, Batch.default, BatchingOn]
  | some b =>
    obtain ⟨d, m⟩ := b
    cases m with
    | none => simp [getDelay, getMaxSize, BatchingOn]
    | some m => simp [getDelay, getMaxSize, BatchingOn]

theorem anyKeyed_call : ∀ ds, anyKeyed ds = true → ∃ i ∈ objectCalls ds, i.kind = .http ∧ i.key.isSome = true
  | [], h => by simp [anyKeyed] at h
  | .object n fs :: r, h => by
    simp only [anyKeyed, Bool.or_eq_true, List.any_eq_true] at h
    rcases h with ⟨f, hf, hk⟩ | h
    · obtain ⟨fname, res⟩ := f
      cases res with
      | none => simp [isKeyed] at hk
      | some x =>
        cases x with
        | io i =>
          simp only [isKeyed, Bool.and_eq_true, beq_iff_eq] at hk
          exact ⟨i, List.mem_append_left _ (List.mem_flatMap.mpr ⟨_, hf, List.mem_singleton.mpr rfl⟩), hk⟩
        | _ => simp [isKeyed] at hk
    · obtain ⟨i, hi, hk⟩ := anyKeyed_call r h
      exact ⟨i, List.mem_append_right _ hi, hk⟩
  | .interface _ _ :: r, h => anyKeyed_call r h
  | .other _ :: r, h => anyKeyed_call r h

/-- C138: in an accepted configuration the settings of batches are those that were written; the default for
batch keys is never used. -/
theorem C138_settings (ds : List Def) (c : Option Batch) (h : KeysAccepted ds c) :
    effectiveBatch ds c = c.map fun b => ⟨b.delay, some (b.maxSize.getD 100)⟩ := by
  cases c with
  | some b =>
    unfold effectiveBatch applyBatching getBatch
    split <;> rfl
  | none =>
    have : anyKeyed ds = false := by
      rw [← Bool.not_eq_true]
      intro ha
      obtain ⟨i, hi, hk, hs⟩ := anyKeyed_call ds ha
      obtain ⟨⟨b, hb, -⟩, -⟩ := (C138_keys none i hk hs).mp (h i hi)
      cases hb
    unfold effectiveBatch applyBatching
    rw [this]
    rfl

/-- C138 fails for a delay of zero: calls of queries to GraphQL upstreams go through their loader though
batching is off. -/
theorem C138_violated_by_zero_delay (ds : List Def) (i : Io) (hi : i ∈ objectCalls (appContext ds).1)
    (hk : i.kind = .graphql) (hq : i.query = true) :
    ¬ BatchingOn (some Batch.default) ∧
    mode (effectiveBatch ds (some .default)) (appContext ds).2 i = .through (ownLoader i) := by
  refine ⟨by rintro ⟨b, hb, hd⟩; cases hb; exact hd rfl, ?_⟩
  obtain ⟨n, h1, h2⟩ := C137_loader_partial ds i hi (by simp [hk])
  obtain ⟨m, hm⟩ := effective_some ds .default
  rw [hm]
  unfold mode
  rw [hk, hq, h1]
  rw [hk] at h2
  show withDl ((appContext ds).2.graphql[n]?) = _
  rw [show (appContext ds).2.graphql[n]? = some (ownLoader i) from h2]
  rfl

/-- A mutation with an HTTP call. -/
def mutationDefs : List Def :=
  [.object "Mutation".toList [⟨"pay".toList, some (.io ⟨.http, 7, none, false, none⟩)⟩]]

/-- C138 fails for mutations with HTTP calls: they go through a loader, which makes equal calls once. -/
theorem C138_violated_by_mutation :
    ∀ i ∈ objectCalls (appContext mutationDefs).1,
      mode (effectiveBatch mutationDefs (some ⟨1, none⟩)) (appContext mutationDefs).2 i = .through (ownLoader i) := by
  intro i hi
  have hi' : i ∈ [(⟨.http, 7, none, false, some 0⟩ : Io)] := hi
  rw [List.mem_singleton] at hi'
  subst hi'
  rfl

/-- An interface whose field has a GraphQL call. -/
def interfaceDefs : List Def :=
  [.interface "Node".toList [⟨"owner".toList, some (.io ⟨.graphql, 3, none, true, none⟩)⟩]]

/-- C137 and C138 fail for interfaces: their calls have no loader, and with settings for batches a call of a
query panics. -/
theorem C138_violated_by_interface (b : Batch) :
    (appContext interfaceDefs).1 = interfaceDefs ∧
    ∀ i ∈ interfaceCalls interfaceDefs,
      mode (effectiveBatch interfaceDefs (some b)) (appContext interfaceDefs).2 i = .panics := by
  refine ⟨rfl, ?_⟩
  intro i hi
  have hi' : i ∈ [(⟨.graphql, 3, none, true, none⟩ : Io)] := hi
  rw [List.mem_singleton] at hi'
  subst hi'
  rfl

/-- C138 fails for batch keys of gRPC calls: without settings for batches the key is accepted, and the call is
made for itself. -/
theorem C138_violated_by_grpc_key (ds : List Def) (s : State) (i : Io) (hk : i.kind = .grpc)
    (h : anyKeyed ds = false) :
    keyAccepted none i = true ∧ mode (effectiveBatch ds none) s i = .alone := by
  refine ⟨?_, C138_off ds s i h⟩
  unfold keyAccepted
  rw [hk]
  rfl

end Verif.Loaders
