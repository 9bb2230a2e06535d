/-!
# `AsyncFlag` and `AsyncCounter` (`src/async_flag.rs`)

Both are an atomic value plus an `event_listener::Event`, and differ only in the value, the updates and the test made by
`wait`; so the protocol is written once, for any value type. One action is one atomic access to the value or to the event.
Updaters and waiters are numbered by naturals. All atomics are `SeqCst`, hence interleaving semantics.
-/

namespace Verif.AsyncFlag

/-- What distinguishes the two: the test made by `wait` with its parameter, and the updates of the value
(async_flag.rs:15-18, 51-69, 95-114). -/
structure Kind (V P Op : Type) where
  ready : P → V → Bool
  apply : Op → V → V

/-- The updates of `AsyncFlag`: `set` (async_flag.rs:41-44), `unset` (46-49). -/
inductive FlagOp where
  | set
  | unset
deriving DecidableEq, Repr

/-- `AsyncFlag` (async_flag.rs:31-70): `wait` tests that the flag is set (54, 62). -/
def flag : Kind Bool Unit FlagOp where
  ready _ v := v
  apply
    | .set, _ => true
    | .unset, _ => false

/-- `AsyncCounter` (async_flag.rs:72-115): a `u64` incremented with wrap-around (`fetch_add`, 84); `wait(from)` tests
`value > from` (99, 108). -/
def counter : Kind Nat Nat Unit where
  ready src v := decide (v > src)
  apply _ v := (v + 1) % 2 ^ 64

/-- An updating thread: outside, or past the store and before `event.notify(usize::MAX)` (async_flag.rs:42-43, 47-48,
84-85). -/
inductive Updater where
  | idle
  | stored
deriving DecidableEq, Repr

/-- A future in `wait` (async_flag.rs:51-69, 95-114): about to do the first check; about to call `listen`; about to do
the second check (its listener is registered and possibly already notified); in `listener.await`; returned (with the value
read). -/
inductive Waiter (V P : Type) where
  | idle
  | check1 (p : P)
  | listen (p : P)
  | check2 (p : P) (notified : Bool)
  | sleeping (p : P) (notified : Bool)
  | done (p : P) (v : V)
deriving DecidableEq, Repr

/-- `Inner` (async_flag.rs:15-18) and its users. -/
structure State (V P : Type) where
  value : V
  updaters : Nat → Updater
  waiters : Nat → Waiter V P

/-- `AsyncFlag::new` (async_flag.rs:32-39), `AsyncCounter::new` (73-80), for initial value `v`. -/
def init {V P : Type} (v : V) : State V P := ⟨v, fun _ => .idle, fun _ => .idle⟩

/-- `event.notify(usize::MAX)`: every registered listener is notified (async_flag.rs:43, 48, 85; crate event-listener). -/
def notify {V P : Type} : Waiter V P → Waiter V P
  | .check2 p _ => .check2 p true
  | .sleeping p _ => .sleeping p true
  | w => w

/-- Actions: an updater stores; it notifies; a future is started with parameter `p`; it does its next step; it is dropped
(`tokio::time::timeout` in `get_queuestate`, `select!` elsewhere).
Stores and notifications: async_flag.rs:41-49, 83-86; futures: 51-69, 95-114. -/
inductive Act (P Op : Type) where
  | store (i : Nat) (op : Op)
  | notify (i : Nat)
  | wait (j : Nat) (p : P)
  | go (j : Nat)
  | drop (j : Nat)

/-- Function update. No counterpart in the code: updaters and waiters are numbered here. -/
def upd {α : Type} (f : Nat → α) (i : Nat) (a : α) : Nat → α := fun j => if j = i then a else f j

/-- One step of a future (async_flag.rs:52-68, 96-113); a sleeping one moves only if notified. -/
def advance {V P Op : Type} (K : Kind V P Op) (value : V) : Waiter V P → Waiter V P
  | .check1 p => if K.ready p value then .done p value else .listen p
  | .listen p => .check2 p false
  | .check2 p n => if K.ready p value then .done p value else .sleeping p n
  | .sleeping p true => .check1 p
  | w => w

/-- The transition function; an impossible action changes nothing. `store`, `notify`: async_flag.rs:41-49, 83-86; the
others: 51-69, 95-114. -/
def step {V P Op : Type} (K : Kind V P Op) (s : State V P) : Act P Op → State V P
  | .store i op =>
    match s.updaters i with
    | .idle => { s with value := K.apply op s.value, updaters := upd s.updaters i .stored }
    | .stored => s
  | .notify i =>
    match s.updaters i with
    | .stored => { s with updaters := upd s.updaters i .idle, waiters := fun j => AsyncFlag.notify (s.waiters j) }
    | .idle => s
  | .wait j p =>
    match s.waiters j with
    | .idle => { s with waiters := upd s.waiters j (.check1 p) }
    | _ => s
  | .go j => { s with waiters := upd s.waiters j (advance K s.value (s.waiters j)) }
  | .drop j => { s with waiters := upd s.waiters j .idle }

/-- A schedule. No counterpart in the code: an interleaving of calls. -/
def run {V P Op : Type} (K : Kind V P Op) (s : State V P) (acts : List (Act P Op)) : State V P := acts.foldl (step K) s

end Verif.AsyncFlag
