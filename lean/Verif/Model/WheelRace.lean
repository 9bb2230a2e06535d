import Verif.Model.TimeWheel

/-!
# The timer wheel with several threads (`src/time/timewheel.rs`)

`tick` and `insert` use the atomic `current` first and take the lock of a slot afterwards. Here these are two actions each,
and any number of threads can be between the two. There is one ticker (the reaper, server.rs:111-158).
-/

namespace Verif.WheelRace
open Verif.TimeWheel

/-- An action of some thread (time/timewheel.rs:38-80). -/
inductive Act (α : Type) where
  /-- The ticker's `fetch_add` (timewheel.rs:39-40). -/
  | advance
  /-- The ticker takes the lock and the content of the slot (timewheel.rs:41-42). -/
  | take
  /-- Thread `t` begins `insert`, up to the load of `current` (timewheel.rs:47-53). -/
  | load (t : Nat) (dur : Nat) (e : α)
  /-- Thread `t` takes the lock of the slot and inserts (timewheel.rs:55-67). -/
  | put (t : Nat)
  /-- `cancel` uses nothing but the lock of the slot (timewheel.rs:71-78). -/
  | cancel (k : TimerID)
deriving DecidableEq, Repr

/-- The wheel (timewheel.rs:14-19), the slot the ticker is about to empty (`index`, 40), and for each thread in the middle of
`insert` the slot it is about to lock (`pos`, 52) with its entry. -/
structure State (α : Type) where
  wheel : Wheel α
  ticking : Option Nat
  loaded : Nat → Option (Nat × α)

/-- `TimeWheel::new` (timewheel.rs:23-31), no thread being at work. -/
def init {α : Type} (duration : Nat) : State α := ⟨new duration, none, fun _ => none⟩

/-- One action, with the answer of the call it completes. `err`: the action is not possible now (e.g. the ticker is not where it
must be). Cites: timewheel.rs:38-78, line by line at the cases. -/
def step {α : Type} (s : State α) : Act α → Res Unit (State α × Option (Ret α))
  /- timewheel.rs:39-40 -/
  | .advance =>
    match s.ticking with
    | some _ => .err ()
    | none =>
      let index := (s.wheel.current + 1) % 256
      .ok ({ s with wheel := { s.wheel with current := index }, ticking := some index }, none)
  /- timewheel.rs:41-42 -/
  | .take =>
    match s.ticking with
    | none => .err ()
    | some index =>
      .ok ({ s with wheel := { s.wheel with slots := upd s.wheel.slots index none }, ticking := none },
        some (.fired (match s.wheel.slots index with
          | some m => m.entries.map (fun x => (⟨x.1, index⟩, x.2))
          | none => [])))
  /- timewheel.rs:47-53 -/
  | .load t dur e =>
    match s.loaded t with
    | some _ => .err ()
    | none =>
      if dur > s.wheel.duration then .panic "dur cannot exceed duration"
      else if s.wheel.duration = 0 then .panic "attempt to divide by zero"
      else .ok ({ s with loaded := upd s.loaded t (some ((s.wheel.current + stepOf s.wheel.duration dur) % 256, e)) }, none)
  /- timewheel.rs:55-67 -/
  | .put t =>
    match s.loaded t with
    | none => .err ()
    | some (pos, e) =>
      let r := ((s.wheel.slots pos).getD .empty).insert e
      .ok ({ s with
          wheel := { s.wheel with slots := upd s.wheel.slots pos (some r.1) }
          loaded := upd s.loaded t none }, some (.id ⟨r.2, pos⟩))
  /- timewheel.rs:71-78 -/
  | .cancel k => .ok ({ s with wheel := TimeWheel.cancel s.wheel k }, some .unit)

/-- A sequence of actions of all threads, with the answers. No counterpart in the code: an interleaving. -/
def run {α : Type} : State α → List (Act α) → Res Unit (State α × List (Option (Ret α)))
  | s, [] => .ok (s, [])
  | s, o :: os => (step s o).bind (fun r => (run r.1 os).bind (fun q => .ok (q.1, r.2 :: q.2)))

end Verif.WheelRace
