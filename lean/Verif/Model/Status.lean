import Verif.Model.AsyncFlag

/-!
# Long-polling the queue state: `get_queuestate` (sync.rs:675-714) against `add_to_ready_queue` (sync.rs:512-571)

The scheduler loop makes tasks ready in batches and then bumps the counter; any number of status requests poll. Only one
entry of the `queuestate` map (one affinity) is followed, since the entries are independent; the tasks it counts are only
counted up here (`added`), the part of the count that is ready, in flight or finished is in `Verif.Model.Tracker`.
-/

namespace Verif.Status
open Verif.AsyncFlag (Waiter counter)

/-- The scheduler loop in `add_to_ready_queue`: outside; with `left` tasks of the batch still to be counted (sync.rs:525-541);
all counted and sent, about to call `incr` (567); `incr` has done the `fetch_add` and not yet the notification
(async_flag.rs:84-85). -/
inductive Loop where
  | idle
  | adding (left : Nat)
  | notifying
deriving DecidableEq, Repr

/-- A status request. `waiting`: in the `timeout(...)` of sync.rs:696; `expired`: about to `load` (698); `haveEtag`: line 701;
`napping`: `sleep_until` (703); `reading e`: `etag_new = e`, about to read `queuestate` (707-713); `done e n t`: returned
etag `e` and count `n` at time `t`. -/
inductive Pc where
  | idle
  | waiting
  | expired
  | haveEtag (e : Nat)
  | napping
  | reading (e : Nat)
  | done (e n : Nat) (t : Nat)
deriving DecidableEq, Repr

/-- The arguments of a request (sync.rs:687-692) and the clock at its start (693). -/
structure Args where
  etag : Nat
  timemin : Nat
  timeout : Nat
  start : Nat
deriving DecidableEq, Repr

/-- Everything; `now` in milliseconds. `totals` is history: the value of `added` at the creation of the tracker and at each
`incr`, oldest first (sync.rs:57-102). -/
structure State where
  now : Nat
  ev : AsyncFlag.State Nat Nat
  loop : Loop
  added : Nat
  totals : List Nat
  args : Nat → Args
  pcs : Nat → Pc

/-- At creation (sync.rs:104-179). -/
def init : State :=
  { now := 0, ev := AsyncFlag.init 0, loop := .idle, added := 0, totals := [0], args := fun _ => ⟨0, 0, 0, 0⟩,
    pcs := fun _ => .idle }

/-- Actions; `j` is the number of a request (sync.rs:512-571, 675-714). -/
inductive Act where
  | tick (d : Nat)
  | batch (n : Nat)
  | addOne
  | incr
  | notify
  | poll (j etag timemin timeout : Nat)
  | go (j : Nat)
  | ready (j : Nat)
  | expire (j : Nat)
  | load (j : Nat)
  | test (j : Nat)
  | napDone (j : Nat)
  | read (j : Nat)
deriving DecidableEq, Repr

/-- The transition function; an impossible action changes nothing. The updater of the counter is the scheduler loop, number
0. `batch`/`addOne`/`incr`/`notify`: sync.rs:512-571 (a batch has at least one task, of any affinity, so `n` may be 0);
`poll`: 693-696; `go`: a step of `AsyncCounter::wait`; `ready`: it has returned (697); `expire`/`load`: 698; `test`: 701-702;
`napDone`: 703-704; `read`: 707-713. -/
def step (s : State) : Act → State
  | .tick d => { s with now := s.now + d }
  | .batch n => match s.loop with
    | .idle => { s with loop := .adding n }
    | _ => s
  | .addOne => match s.loop with
    | .adding (n + 1) => { s with loop := .adding n, added := s.added + 1 }
    | _ => s
  | .incr => match s.loop with
    | .adding 0 =>
      { s with loop := .notifying, ev := AsyncFlag.step counter s.ev (.store 0 ()), totals := s.totals ++ [s.added] }
    | _ => s
  | .notify => match s.loop with
    | .notifying => { s with loop := .idle, ev := AsyncFlag.step counter s.ev (.notify 0) }
    | _ => s
  | .poll j etag tmin tmo => match s.pcs j with
    | .idle =>
      { s with
        args := AsyncFlag.upd s.args j ⟨etag, tmin, tmo, s.now⟩
        pcs := AsyncFlag.upd s.pcs j .waiting
        ev := AsyncFlag.step counter s.ev (.wait j etag) }
    | _ => s
  | .go j => { s with ev := AsyncFlag.step counter s.ev (.go j) }
  | .ready j => match s.pcs j, s.ev.waiters j with
    | .waiting, .done _ v => { s with pcs := AsyncFlag.upd s.pcs j (.haveEtag v) }
    | _, _ => s
  | .expire j => match s.pcs j with
    | .waiting =>
      if (s.args j).start + (s.args j).timeout ≤ s.now then
        { s with pcs := AsyncFlag.upd s.pcs j .expired, ev := AsyncFlag.step counter s.ev (.drop j) }
      else s
    | _ => s
  | .load j => match s.pcs j with
    | .expired => { s with pcs := AsyncFlag.upd s.pcs j (.haveEtag s.ev.value) }
    | _ => s
  | .test j => match s.pcs j with
    | .haveEtag e =>
      if s.now - (s.args j).start < (s.args j).timemin then { s with pcs := AsyncFlag.upd s.pcs j .napping }
      else { s with pcs := AsyncFlag.upd s.pcs j (.reading e) }
    | _ => s
  | .napDone j => match s.pcs j with
    | .napping =>
      if (s.args j).start + (s.args j).timemin ≤ s.now then
        { s with pcs := AsyncFlag.upd s.pcs j (.reading s.ev.value) }
      else s
    | _ => s
  | .read j => match s.pcs j with
    | .reading e => { s with pcs := AsyncFlag.upd s.pcs j (.done e s.added s.now) }
    | _ => s

/-- A schedule. No counterpart in the code: an interleaving. -/
def run (s : State) (acts : List Act) : State := acts.foldl step s

end Verif.Status
