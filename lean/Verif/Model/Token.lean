import Verif.Model.Tracker

/-!
# The cancellation token (`src/fancy_cancellation_token.rs`)

Any number of threads call `cancel`, any number of futures wait in `soft_cancelled` / `hard_cancelled`. One action is
one access to the `watch` channel. Threads and futures are numbered by naturals.
-/

namespace Verif.Token
open Verif.Tracker (Cancel)

/-- A thread inside `cancel` (fancy_cancellation_token.rs:79-98). `passed c`: the check (80-96) let it through, it is
about to call `send_replace` (97); the read guard of the check is dropped at line 96, so others may act in between. -/
inductive Caller where
  | idle
  | passed (c : Cancel)
deriving DecidableEq, Repr

/-- Which future: `soft_cancelled(time)` (fancy_cancellation_token.rs:42) or `hard_cancelled()` (65). -/
inductive Kind where
  | soft (time : Int)
  | hard
deriving DecidableEq, Repr

/-- A future: not started; about to `borrow_and_update` (fancy_cancellation_token.rs:47, 70); in `changed().await` (60,
75) having seen version `seen`; returned. -/
inductive Waiter where
  | idle
  | looking (k : Kind)
  | parked (k : Kind) (seen : Nat)
  | returned (k : Kind) (v : Cancel)
deriving DecidableEq, Repr

/-- The `watch` channel (fancy_cancellation_token.rs:14-17; value and version number, the version being an unbounded
natural here), and everybody using it. -/
structure State where
  value : Option Cancel
  version : Nat
  callers : Nat → Caller
  waiters : Nat → Waiter

/-- `CancellationToken::new` (fancy_cancellation_token.rs:20-28). -/
def init : State := ⟨none, 0, fun _ => .idle, fun _ => .idle⟩

/-- The test made by the futures on the value seen (fancy_cancellation_token.rs:48-58, 71). -/
def fires : Kind → Option Cancel → Bool
  | .soft t, some (.afterTime ct) => decide (t > ct)
  | .soft _, some .hard => true
  | .hard, some .hard => true
  | _, _ => false

/-- The check at the head of `cancel` (fancy_cancellation_token.rs:80-96): may the caller go on to `send_replace`? -/
def mayProceed (existing : Option Cancel) : Cancel → Bool
  | .hard => true
  | .afterTime new =>
    match existing with
    | some (.afterTime old) => !(decide (new > old))
    | some .hard => false
    | none => true

/-- Actions: thread `i` calls `cancel c` and does the check; thread `i` does the `send_replace`; future `j` is started;
it looks at the value; it is woken because the version is not the one it saw (fancy_cancellation_token.rs:42-99). -/
inductive Act where
  | check (i : Nat) (c : Cancel)
  | send (i : Nat)
  | wait (j : Nat) (k : Kind)
  | look (j : Nat)
  | wake (j : Nat)
deriving DecidableEq, Repr

/-- Function update. No counterpart in the code: threads and futures are numbered here. -/
def upd {α : Type} (f : Nat → α) (i : Nat) (a : α) : Nat → α := fun j => if j = i then a else f j

/-- The transition function; an action that is not possible changes nothing. `check`: fancy_cancellation_token.rs:80-96;
`send`: 97 (`send_replace` stores and bumps the version under one lock); `wait`: 43, 66; `look`: 46-59, 69-74 (value and
version are read under one lock); `wake`: 60, 75 (`changed` completes iff the version differs from the one seen). -/
def step (s : State) : Act → State
  | .check i c =>
    match s.callers i with
    | .idle => if mayProceed s.value c then { s with callers := upd s.callers i (.passed c) } else s
    | _ => s
  | .send i =>
    match s.callers i with
    | .passed c => { s with value := some c, version := s.version + 1, callers := upd s.callers i .idle }
    | _ => s
  | .wait j k =>
    match s.waiters j with
    | .idle => { s with waiters := upd s.waiters j (.looking k) }
    | _ => s
  | .look j =>
    match s.waiters j, s.value with
    | .looking k, some v =>
      if fires k (some v) then { s with waiters := upd s.waiters j (.returned k v) }
      else { s with waiters := upd s.waiters j (.parked k s.version) }
    | .looking k, none => { s with waiters := upd s.waiters j (.parked k s.version) }
    | _, _ => s
  | .wake j =>
    match s.waiters j with
    | .parked k seen => if seen = s.version then s else { s with waiters := upd s.waiters j (.looking k) }
    | _ => s

/-- A schedule. No counterpart in the code: an interleaving. -/
def run (s : State) (acts : List Act) : State := acts.foldl step s

end Verif.Token
