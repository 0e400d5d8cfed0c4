/-!
# Model of `Dedupe` (src/core/data_loader/dedupe.rs)

The Rust type is used concurrently by async tasks.  Tasks only interleave at
`await` points and at the mutex, so the atomic actions are:

* `call t k`      task `t` starts `dedupe(&k, ..)` (dedupe.rs:54-59);
* `step t`        the critical section `self.step(key)` (dedupe.rs:60, 89-114);
* `complete t v`  the future returned by `or_else()` yields `v` and the
                  synchronous rest of the `Init` arm runs (dedupe.rs:73-81);
* `cancel t`      the future of task `t` is dropped at an `await` point
                  (this drops the strong `tx` if the task owns one);
* `recvOk t`      `rx.recv().await` yields the broadcast value (dedupe.rs:62-63);
* `recvErr t`     `rx.recv().await` yields an error, `continue` (dedupe.rs:64-70).

Every history is a list of such actions; an action that is not enabled makes the
run undefined (`none`).
-/

namespace Verif.Dedupe

/-- Point update of a function, used for maps and for the table of tasks
(stands for `HashMap::insert` and `remove` at data_loader/dedupe.rs:72-82, 89-114). -/
def upd {α β : Type} [DecidableEq α] (f : α → β) (a : α) (b : β) : α → β :=
  fun x => if x = a then b else f x

/-- `State<Value>` (dedupe.rs:26-33).  `pending ch` is a `Weak` reference to the
sender of channel `ch`; whether it can be upgraded is `Chan.alive`. -/
inductive Slot (V : Type) where
  | ready (v : V)
  | pending (ch : Nat)
  deriving DecidableEq, Repr

/-- A `tokio::sync::broadcast` channel as used in dedupe.rs: `alive` says that the
single strong `Arc<Sender>` exists (dedupe.rs:106-113), `msg` is the only message
that is ever sent on it (dedupe.rs:80).

Simplification: at most one message is sent per channel, so the channel capacity
(`size`) and lagging receivers play no role; every receiver of the channel in the model
subscribed before the message was sent (receivers are only created while the sender is
upgradable through the cache, dedupe.rs:99-101). -/
structure Chan (V : Type) where
  alive : Bool
  msg : Option V
  deriving DecidableEq, Repr

/-- Control state of one async call of `dedupe` (dedupe.rs:54-87). -/
inductive TState (K V : Type) where
  /-- not yet called -/
  | idle
  /-- at the head of the loop, about to take the lock (dedupe.rs:59-60) -/
  | start (k : K)
  /-- in the `Init` arm, awaiting `or_else()`, owning the sender of `ch` (dedupe.rs:72-73) -/
  | exec (k : K) (ch : Nat)
  /-- in the `Await` arm, awaiting `rx.recv()` on `ch` (dedupe.rs:62) -/
  | wait (k : K) (ch : Nat)
  /-- returned `v` (dedupe.rs:85) -/
  | done (k : K) (v : V)
  /-- the future was dropped -/
  | dropped
  deriving DecidableEq, Repr

/-- `Dedupe<Key, Value>` (dedupe.rs:16-23) plus the tasks using it.
`nextCh` numbers the channels created so far. -/
structure State (K V : Type) where
  cache : K → Option (Slot V)
  chans : Nat → Chan V
  tasks : Nat → TState K V
  nextCh : Nat

/-- The actions of a history, data_loader/dedupe.rs:54-114 as listed at the top of this file. -/
inductive Event (K V : Type) where
  | call (t : Nat) (k : K)
  | step (t : Nat)
  | complete (t : Nat) (v : V)
  | cancel (t : Nat)
  | recvOk (t : Nat)
  | recvErr (t : Nat)
  deriving DecidableEq, Repr

/-- `Dedupe::new` (dedupe.rs:50-52): empty cache, no task has started. -/
def init (K V : Type) : State K V :=
  { cache := fun _ => none, chans := fun _ => ⟨false, none⟩, tasks := fun _ => .idle, nextCh := 0 }

variable {K V : Type} [DecidableEq K]

/-- The end of `Dedupe::step` (dedupe.rs:106-113): new channel, `Pending(weak)` is
stored under the key and the caller becomes the executor. -/
def initArm (s : State K V) (t : Nat) (k : K) : State K V :=
  { cache := upd s.cache k (some (.pending s.nextCh))
    chans := upd s.chans s.nextCh ⟨true, none⟩
    tasks := upd s.tasks t (.exec k s.nextCh)
    nextCh := s.nextCh + 1 }

/-- `Dedupe::step` (dedupe.rs:89-114), run by task `t` for key `k`, together with the
immediate `Step::Return` arm (dedupe.rs:61). -/
def stepFn (s : State K V) (t : Nat) (k : K) : State K V :=
  match s.cache k with
  | some (.ready v) => { s with tasks := upd s.tasks t (.done k v) }
  | some (.pending ch) =>
      if (s.chans ch).alive then
        { s with tasks := upd s.tasks t (.wait k ch) }
      else
        initArm s t k
  | none => initArm s t k

/-- The synchronous tail of the `Init` arm (dedupe.rs:74-81) after `or_else()` yielded
`v`: with persistence the value is stored, otherwise the entry is removed; the value is
broadcast; the strong sender is dropped when the arm ends. -/
def completeFn (persist : Bool) (s : State K V) (t : Nat) (k : K) (ch : Nat) (v : V) : State K V :=
  { s with
    cache := upd s.cache k (if persist then some (.ready v) else none)
    chans := upd s.chans ch ⟨false, some v⟩
    tasks := upd s.tasks t (.done k v) }

/-- One action; `none` when it is not enabled.  `persist` is `Dedupe::persist`
(dedupe.rs:22). -/
def apply (persist : Bool) (s : State K V) : Event K V → Option (State K V)
  | .call t k =>
      match s.tasks t with
      | .idle => some { s with tasks := upd s.tasks t (.start k) }
      | _ => none
  | .step t =>
      match s.tasks t with
      | .start k => some (stepFn s t k)
      | _ => none
  | .complete t v =>
      match s.tasks t with
      | .exec k ch => some (completeFn persist s t k ch v)
      | _ => none
  | .cancel t =>
      match s.tasks t with
      | .exec _ ch =>
          some { s with
            chans := upd s.chans ch { s.chans ch with alive := false }
            tasks := upd s.tasks t .dropped }
      | .start _ | .wait _ _ => some { s with tasks := upd s.tasks t .dropped }
      | _ => none
  | .recvOk t =>
      match s.tasks t with
      | .wait k ch =>
          match (s.chans ch).msg with
          | some v => some { s with tasks := upd s.tasks t (.done k v) }
          | none => none
      | _ => none
  | .recvErr t =>
      match s.tasks t with
      | .wait k ch =>
          match (s.chans ch).msg, (s.chans ch).alive with
          | none, false => some { s with tasks := upd s.tasks t (.start k) }
          | _, _ => none
      | _ => none

/-- A whole history (no counterpart in the code: composes the actions of data_loader/dedupe.rs:54-114). -/
def run (persist : Bool) : State K V → List (Event K V) → Option (State K V)
  | s, [] => some s
  | s, e :: es =>
      match apply persist s e with
      | some s' => run persist s' es
      | none => none

end Verif.Dedupe
