/-!
# Model of `DataLoader` (src/core/data_loader/data_loader.rs)

The loader is shared by concurrent async tasks.  The only synchronisation point is the
mutex around `Requests`; between the critical section of `load_many` and the `tokio::spawn`
that follows it there is no `await`, so (lock section + spawn) is one atomic action.

Actions of a history:

* `load c ks`      caller `c` runs `load_many(ks)` up to `rx.await` (lines 117-210);
                   `load_one(k)` (lines 107-114) is `load c [k]`;
* `fire i`         the `i`-th outstanding delayed task wakes up (lines 190-201);
* `complete i r`   the upstream answers the `i`-th batch in flight with `r` and the rest of
                   `do_load` runs (lines 334-362);
* `crash i`        the task of the `i`-th batch in flight dies (loader panic): its senders are dropped
                   and `rx.await.unwrap()` (line 210) panics in the callers;
* `cancel c`       caller `c` is dropped while waiting; its sender stays queued and
                   `tx.send(..).ok()` (lines 354, 359) ignores the missing receiver;
* `feed kvs`, `clear`, `enable b`, `enableAll b`   lines 217-229, 247-255, 97-104, 92-94.

Simplifications: `self.disable_cache` is read once per action (the Rust code reads the atomic
again after releasing the lock, lines 177/187); keys and key sets are duplicate-free lists.
-/

namespace Verif.DataLoader

/-- Point update of a function (stands for updates of the maps at data_loader/data_loader.rs:141, 342-344). -/
def upd {α β : Type} [DecidableEq α] (f : α → β) (a : α) (b : β) : α → β :=
  fun x => if x = a then b else f x

/-- `HashSet::insert` on a duplicate-free list (used at data_loader/data_loader.rs:132-154). -/
def insertKey {K : Type} [DecidableEq K] (s : List K) (k : K) : List K :=
  if k ∈ s then s else s ++ [k]

/-- `HashSet::extend` / collecting into a `HashSet` (lines 136, 143, 154). -/
def extendKeys {K : Type} [DecidableEq K] (s : List K) (ks : List K) : List K :=
  ks.foldl insertKey s

/-- `ResSender` (lines 274-277): the waiting caller and the values it already got from
the cache.  The `HashMap` `use_cache_values` is a partial function. -/
structure Sender (K V : Type) where
  caller : Nat
  cached : K → Option V

/-- `KeysAndSender` (line 290) of a dispatched batch plus the `disable_cache` flag captured
when its task was created (lines 177, 187). -/
structure Batch (K V : Type) where
  keys : List K
  senders : List (List K × Sender K V)
  disableCache : Bool

/-- What a caller of `load_many` observes (data_loader/data_loader.rs:117-211). -/
inductive CState (K V E : Type) where
  | idle
  | waiting
  | answered (r : Except E (K → Option V))
  | panicked
  | dropped

/-- `DataLoader` + `Requests` (lines 20-29, 279-288) + tasks spawned by it.
`timers` are the outstanding `StartFetch` tasks (each with its captured `disable_cache`),
`inflight` the batches handed to the upstream loader. -/
structure State (K V E : Type) where
  keys : List K
  pending : List (List K × Sender K V)
  cache : K → Option V
  disableCache : Bool
  disableAll : Bool
  timers : List Bool
  inflight : List (Batch K V)
  callers : Nat → CState K V E

/-- Configuration: `max_batch_size` (line 27) and whether the cache factory stores anything
(`hasCache = false` is `NoCache`, `true` is `HashMapCache`; cache.rs:11-110). -/
structure Cfg where
  maxBatch : Nat
  hasCache : Bool

/-- The actions of a history, data_loader/data_loader.rs as listed at the top of this file. -/
inductive Event (K V E : Type) where
  | load (c : Nat) (ks : List K)
  | fire (i : Nat)
  | complete (i : Nat) (r : Except E (K → Option V))
  | crash (i : Nat)
  | cancel (c : Nat)
  | feed (kvs : List (K × V))
  | clear
  | enable (b : Bool)
  | enableAll (b : Bool)

variable {K V E : Type} [DecidableEq K]

/-- `Requests::new` (lines 295-302), no caller yet. -/
def init (K V E : Type) : State K V E :=
  { keys := [], pending := [], cache := fun _ => none, disableCache := false, disableAll := false
    timers := [], inflight := [], callers := fun _ => .idle }

/-- Cache lookup as done by `load_many` (lines 135-145): nothing is found when caching is
disabled; `NoCache::get` never finds anything. -/
def lookup (cfg : Cfg) (s : State K V E) (k : K) : Option V :=
  if s.disableCache || s.disableAll || !cfg.hasCache then none else s.cache k

/-- `CacheStorage::insert` for all pairs of a `HashMap` (lines 340-344). -/
def cacheInsertAll (cfg : Cfg) (cache : K → Option V) (values : K → Option V) : K → Option V :=
  if cfg.hasCache then fun k => (values k).or (cache k) else cache

/-- The keys that have to be fetched: `keys_set` (lines 132-146). -/
def missKeys (cfg : Cfg) (s : State K V E) (ks : List K) : List K :=
  extendKeys [] (ks.filter (fun k => (lookup cfg s k).isNone))

/-- `use_cache_values` (lines 133-141). -/
def hitValues (cfg : Cfg) (s : State K V E) (ks : List K) : K → Option V :=
  fun k => if k ∈ ks then lookup cfg s k else none

/-- `load_many` (lines 117-210) for caller `c`. -/
def loadFn (cfg : Cfg) (s : State K V E) (c : Nat) (ks : List K) : State K V E :=
  let prevCount := s.keys.length
  let keysSet := missKeys cfg s ks
  let hits := hitValues cfg s ks
  if keysSet.isEmpty then
    -- lines 148-152: everything cached, or nothing asked
    { s with callers := upd s.callers c (.answered (.ok hits)) }
  else
    let keys := extendKeys s.keys keysSet
    let pending := s.pending ++ [(keysSet, ⟨c, hits⟩)]
    let callers := upd s.callers c .waiting
    if cfg.maxBatch ≤ keys.length then
      -- ImmediateLoad (lines 160-161, 175-184), `take` (lines 304-309)
      { s with
        keys := [], pending := [], callers := callers
        inflight := s.inflight ++ [⟨keys, pending, s.disableAll⟩] }
    else if !keys.isEmpty && prevCount == 0 then
      -- StartFetch (lines 164-165, 185-206)
      { s with keys := keys, pending := pending, callers := callers, timers := s.timers ++ [s.disableAll] }
    else
      -- Delay (lines 166-167, 207)
      { s with keys := keys, pending := pending, callers := callers }

/-- The delayed task after its timer (lines 191-201). -/
def fireFn (s : State K V E) (i : Nat) (dc : Bool) : State K V E :=
  let s' := { s with timers := s.timers.eraseIdx i, keys := [], pending := [] }
  if s.keys.isEmpty then s'
  else { s' with inflight := s.inflight ++ [⟨s.keys, s.pending, dc⟩] }

/-- The sender of caller `c` among the senders of a batch (data_loader/data_loader.rs:155-158, 347-360). -/
def senderOf (b : Batch K V) (c : Nat) : Option (List K × Sender K V) :=
  b.senders.find? (fun p => p.2.caller == c)

/-- Sending on the oneshot channels of all senders of a batch (lines 348-355, 358-360);
receivers that are gone are ignored. -/
def deliver (callers : Nat → CState K V E) (b : Batch K V)
    (mk : List K × Sender K V → CState K V E) : Nat → CState K V E :=
  fun c =>
    match callers c, senderOf b c with
    | .waiting, some p => mk p
    | st, _ => st

/-- The result map built for one sender (lines 349-353). -/
def resultFor (values : K → Option V) (p : List K × Sender K V) : K → Option V :=
  fun k => if k ∈ p.1 then (values k).or (p.2.cached k) else p.2.cached k

/-- `do_load` after the upstream answered (lines 334-362). -/
def completeFn (cfg : Cfg) (s : State K V E) (i : Nat) (b : Batch K V) (r : Except E (K → Option V)) :
    State K V E :=
  match r with
  | .ok values =>
      { s with
        inflight := s.inflight.eraseIdx i
        cache := if s.disableCache || b.disableCache then s.cache else cacheInsertAll cfg s.cache values
        callers := deliver s.callers b (fun p => .answered (.ok (resultFor values p))) }
  | .error e =>
      { s with
        inflight := s.inflight.eraseIdx i
        callers := deliver s.callers b (fun _ => .answered (.error e)) }

/-- Inserting fed pairs one after the other (lines 224-228). -/
def feedCache (cfg : Cfg) (cache : K → Option V) (kvs : List (K × V)) : K → Option V :=
  if cfg.hasCache then kvs.foldl (fun c kv => upd c kv.1 (some kv.2)) cache else cache

/-- One action; `none` when it is not enabled
(data_loader/data_loader.rs:97-362, one action each as listed at the top). -/
def apply (cfg : Cfg) (s : State K V E) : Event K V E → Option (State K V E)
  | .load c ks =>
      match s.callers c with
      | .idle => some (loadFn cfg s c ks)
      | _ => none
  | .fire i =>
      match s.timers[i]? with
      | some dc => some (fireFn s i dc)
      | none => none
  | .complete i r =>
      match s.inflight[i]? with
      | some b => some (completeFn cfg s i b r)
      | none => none
  | .crash i =>
      match s.inflight[i]? with
      | some b => some { s with
          inflight := s.inflight.eraseIdx i
          callers := deliver s.callers b (fun _ => .panicked) }
      | none => none
  | .cancel c =>
      match s.callers c with
      | .waiting => some { s with callers := upd s.callers c .dropped }
      | _ => none
  | .feed kvs => some { s with cache := feedCache cfg s.cache kvs }
  | .clear => some { s with cache := fun _ => none }
  | .enable b => some { s with disableCache := !b }
  | .enableAll b => some { s with disableAll := !b }

/-- A whole history (no counterpart in the code: composes the actions of data_loader/data_loader.rs:97-362). -/
def run (cfg : Cfg) : State K V E → List (Event K V E) → Option (State K V E)
  | s, [] => some s
  | s, e :: es =>
      match apply cfg s e with
      | some s' => run cfg s' es
      | none => none

end Verif.DataLoader
