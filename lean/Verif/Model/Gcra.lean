/-!
# Model of the launch rate limiter (`src/time/gcra.rs`)

Clock readings are naturals (nanoseconds). `u64` additions are modelled on `Nat` (they overflow only after
584 years of uptime); the one subtraction that can underflow, `new_tat - burst_offset`, is modelled with the
wrap-around of a release build.
-/

namespace Verif.Gcra

/-- `PERIOD`, src/time/gcra.rs:21-22. -/
def period : Nat := 1000000000

/-- The `tau` computed from the rate, src/time/gcra.rs:31-35 and 44-48. -/
def tauOf (rate : Nat) : Nat := if rate = 0 then 0 else period / rate

/-- `RateLimiter`, src/time/gcra.rs:24-27. -/
structure Limiter where
  tau : Nat
  tat : Nat
deriving DecidableEq, Repr

/-- `RateLimiter::new`, src/time/gcra.rs:30-41; `now` is the clock reading made there. -/
def mkNew (now rate : Nat) : Limiter :=
  { tau := tauOf rate, tat := now + tauOf rate * rate }

/-- `rate_per_second`, src/time/gcra.rs:54-61. -/
def ratePerSecond (l : Limiter) : Nat := if l.tau = 0 then 0 else period / l.tau

/-- `u64` subtraction as in a release build (wraps), used at src/time/gcra.rs:106. -/
def subU64 (a b : Nat) : Nat := if b ≤ a then a - b else a + 2 ^ 64 - b

/-- `compute_raw`, src/time/gcra.rs:94-113: the new `tat` and the time to wait (0 = granted). -/
def computeRaw (now tat tau cost : Nat) : Nat × Nat :=
  if tau = 0 then (tat, 0)
  else
    let increment := tau * cost
    let tat := max tat now
    let newTat := tat + increment
    let allowAt := subU64 newTat period
    if allowAt > now then (tat, allowAt - now) else (newTat, 0)

/-- Where a caller is inside `compute` (src/time/gcra.rs:73-92) or `reset` (43-52).
`idle`: not inside. `haveNow`: the clock has been read (74). `haveTau`: `tau` loaded (76).
`haveTat`: `tat` loaded (77), about to compare-exchange. `resetting`: `reset` has stored `tau` (50) and will
store `tat` (51). -/
inductive Pc where
  | idle
  | haveNow (now : Nat)
  | haveTau (now tau : Nat)
  | haveTat (now tau tat : Nat)
  | resetting (tat : Nat)
deriving DecidableEq, Repr

/-- The limiter shared by any number of callers (numbered by naturals). `grants` records the clock reading of
every permit granted since the last completed `reset`, newest first: the observable returns of `until_ready`
(src/time/gcra.rs:63-71). -/
structure Sys where
  lim : Limiter
  pcs : Nat → Pc
  grants : List Nat

/-- One atomic access by caller `i` (time/gcra.rs:73-92). -/
inductive Act where
  | call (i now : Nat)         -- enter `compute`, read the clock (74)
  | loadTau (i : Nat)          -- 76
  | loadTat (i : Nat)          -- 77
  | cas (i : Nat)              -- 78-90; on failure loop back to 76
  | resetTau (i now rate : Nat) -- 44-50
  | resetTat (i : Nat)         -- 51
deriving DecidableEq, Repr

/-- Set the program counter of caller `i` (helper for src/time/gcra.rs:73-92). -/
def setPc (pcs : Nat → Pc) (i : Nat) (p : Pc) : Nat → Pc := fun j => if j = i then p else pcs j

/-- One atomic step, src/time/gcra.rs:43-92. An action that does not fit the caller's program counter leaves
the state unchanged. -/
def step (s : Sys) : Act → Sys
  | .call i now =>
    match s.pcs i with
    | .idle => { s with pcs := setPc s.pcs i (.haveNow now) }
    | _ => s
  | .loadTau i =>
    match s.pcs i with
    | .haveNow now => { s with pcs := setPc s.pcs i (.haveTau now s.lim.tau) }
    | _ => s
  | .loadTat i =>
    match s.pcs i with
    | .haveTau now tau => { s with pcs := setPc s.pcs i (.haveTat now tau s.lim.tat) }
    | _ => s
  | .cas i =>
    match s.pcs i with
    | .haveTat now tau tat =>
      if s.lim.tat = tat then
        let r := computeRaw now tat tau 1
        { lim := { s.lim with tat := r.1 }
          pcs := setPc s.pcs i .idle
          grants := if r.2 = 0 then now :: s.grants else s.grants }
      else { s with pcs := setPc s.pcs i (.haveNow now) }
    | _ => s
  | .resetTau i now rate =>
    match s.pcs i with
    | .idle =>
      { s with lim := { s.lim with tau := tauOf rate }
               pcs := setPc s.pcs i (.resetting (now + tauOf rate * rate)) }
    | _ => s
  | .resetTat i =>
    match s.pcs i with
    | .resetting tat =>
      { lim := { s.lim with tat := tat }, pcs := setPc s.pcs i .idle, grants := [] }
    | _ => s

/-- A run of atomic steps (any interleaving of callers), src/time/gcra.rs:43-92. -/
def run (s : Sys) (acts : List Act) : Sys := acts.foldl step s

/-- A fresh limiter nobody is inside of, src/time/gcra.rs:30-41. -/
def init (now rate : Nat) : Sys := { lim := mkNew now rate, pcs := fun _ => .idle, grants := [] }

/-- Whether an action belongs to a `reset` call, src/time/gcra.rs:43-52. -/
def Act.isReset : Act → Bool
  | .resetTau .. => true
  | .resetTat .. => true
  | _ => false

/-!
## Launches: permits taken before a task is there

`ReadyTrackerClient::recv` (src/sync.rs:612-641) first awaits a permit (614) and only then waits for a task
(632). `Recv` models any number of such receivers at this granularity; queues are reduced to a number of
unclaimed tasks (their identity does not matter for counting launches).
-/

/-- `waiting`: receivers with a permit, blocked at src/sync.rs:632. `tasks`: unclaimed ready tasks.
`launches`: times of the returns at src/sync.rs:638. -/
structure Recv where
  lim : Limiter
  now : Nat
  waiting : Nat
  tasks : Nat
  permits : List Nat
  launches : List Nat
deriving DecidableEq, Repr

/-- Actions of the receivers and of the scheduler, src/sync.rs:512-571 and 612-641. -/
inductive RAct where
  | tick (d : Nat)   -- time passes
  | permit           -- some receiver calls recv and tries `until_ready` (src/sync.rs:614)
  | ready (k : Nat)  -- the scheduler makes k tasks ready (src/sync.rs:560-566)
  | launch           -- some waiting receiver pops a task (src/sync.rs:632-638)
deriving DecidableEq, Repr

/-- One step of the receivers, src/sync.rs:612-641. -/
def rstep (s : Recv) : RAct → Recv
  | .tick d => { s with now := s.now + d }
  | .permit =>
    let r := computeRaw s.now s.lim.tat s.lim.tau 1
    let lim := { s.lim with tat := r.1 }
    if r.2 = 0 then { s with lim := lim, waiting := s.waiting + 1, permits := s.now :: s.permits }
    else { s with lim := lim }
  | .ready k => { s with tasks := s.tasks + k }
  | .launch =>
    if 0 < s.waiting ∧ 0 < s.tasks then
      { s with waiting := s.waiting - 1, tasks := s.tasks - 1, launches := s.now :: s.launches }
    else s

/-- A run of receiver steps, src/sync.rs:612-641. -/
def rrun (s : Recv) (acts : List RAct) : Recv := acts.foldl rstep s

/-- Start of an execute with the given rate, src/sync.rs:173. -/
def rinit (now rate : Nat) : Recv :=
  { lim := mkNew now rate, now := now, waiting := 0, tasks := 0, permits := [], launches := [] }

end Verif.Gcra
