import Verif.Model.Base

/-!
# The timer wheel (`src/time/timewheel.rs`)

Each method takes the lock of one slot once, so each is one atomic action. `tick` first advances `current` and then takes
the lock, and `insert` likewise; what happens between the two is the subject of `Model/WheelRace` (C147). The reaper is the only ticker.
-/

namespace Verif.TimeWheel

/-- A key of a `slotmap::SlotMap` (`DefaultKey`): slot number and version. Crate slotmap, used in time/timewheel.rs:38-80. -/
structure Key where
  idx : Nat
  version : Nat
deriving DecidableEq, Repr

/-- `slotmap::SlotMap` 1.0 (external crate): slot 0 is a dummy; a slot holds a version, odd iff occupied, and its content;
`free` is the list of free slots, last freed first. Versions are unbounded here (32 bits in the crate). -/
structure SlotMap (α : Type) where
  slots : List (Nat × Option α)
  free : List Nat
deriving DecidableEq, Repr

/-- `SlotMap::with_key()` (used at timewheel.rs:57). -/
def SlotMap.empty {α : Type} : SlotMap α := ⟨[(0, none)], []⟩

/-- `SlotMap::insert` (used at timewheel.rs:62): reuses the slot freed last, else appends one. -/
def SlotMap.insert {α : Type} (m : SlotMap α) (e : α) : SlotMap α × Key :=
  match m.free with
  | i :: fs =>
    let v := ((m.slots[i]?).map (·.1)).getD 0
    (⟨m.slots.set i (v + 1, some e), fs⟩, ⟨i, v + 1⟩)
  | [] => (⟨m.slots ++ [(1, some e)], []⟩, ⟨m.slots.length, 1⟩)

/-- `SlotMap::get`. Crate slotmap, used in time/timewheel.rs:38-80. -/
def SlotMap.get {α : Type} (m : SlotMap α) (k : Key) : Option α :=
  match m.slots[k.idx]? with
  | some (v, some e) => if v = k.version then some e else none
  | _ => none

/-- `SlotMap::remove` (used at timewheel.rs:76): nothing if the key is not current. -/
def SlotMap.remove {α : Type} (m : SlotMap α) (k : Key) : SlotMap α :=
  match m.get k with
  | some _ => ⟨m.slots.set k.idx (k.version + 1, none), k.idx :: m.free⟩
  | none => m

/-- Iteration over a `SlotMap`: keys and entries. Crate slotmap, used in time/timewheel.rs:38-80. -/
def SlotMap.entries {α : Type} (m : SlotMap α) : List (Key × α) :=
  (List.range m.slots.length).filterMap (fun i => match m.slots[i]? with
    | some (v, some e) => some (⟨i, v⟩, e)
    | _ => none)

/-- `TimerID` (timewheel.rs:8-12). -/
structure TimerID where
  key : Key
  slot : Nat
deriving DecidableEq, Repr

/-- `TimeWheel` (timewheel.rs:14-19); `current` is below 256, `duration` in nanoseconds. -/
structure Wheel (α : Type) where
  current : Nat
  slots : Nat → Option (SlotMap α)
  duration : Nat

/-- `TimeWheel::new` (timewheel.rs:23-31). -/
def new {α : Type} (duration : Nat) : Wheel α := ⟨0, fun _ => none, duration⟩

/-- Function update. No counterpart in the code: slots are a function here. -/
def upd {β : Type} (f : Nat → β) (i : Nat) (a : β) : Nat → β := fun j => if j = i then a else f j

/-- `tick` (timewheel.rs:38-43); the entries of the slot are given with the ids under which they were inserted. -/
def tick {α : Type} (w : Wheel α) : Wheel α × List (TimerID × α) :=
  let index := (w.current + 1) % 256
  ({ w with
      current := index
      slots := upd w.slots index none },
    match w.slots index with
    | some m => m.entries.map (fun x => (⟨x.1, index⟩, x.2))
    | none => [])

/-- The step computed by `insert` (timewheel.rs:50-51): the product fits into 64 bits for delays below 2^56 ns (2 years),
which is assumed here; the conversion to `u8` is the remainder mod 256. -/
def stepOf (duration dur : Nat) : Nat := 256 * dur / duration % 256

/-- `insert` (timewheel.rs:46-68). A wheel of duration 0 divides by zero. -/
def insert {α : Type} (w : Wheel α) (dur : Nat) (e : α) : Res Unit (Wheel α × TimerID) :=
  if dur > w.duration then .panic "dur cannot exceed duration"
  else if w.duration = 0 then .panic "attempt to divide by zero"
  else
    let pos := (w.current + stepOf w.duration dur) % 256
    let r := ((w.slots pos).getD .empty).insert e
    .ok ({ w with slots := upd w.slots pos (some r.1) }, ⟨r.2, pos⟩)

/-- `cancel` (timewheel.rs:71-78). -/
def cancel {α : Type} (w : Wheel α) (k : TimerID) : Wheel α :=
  match w.slots k.slot with
  | some m => { w with slots := upd w.slots k.slot (some (m.remove k.key)) }
  | none => w

/-- Operations (time/timewheel.rs:38-80). -/
inductive Op (α : Type) where
  | tick
  | insert (dur : Nat) (e : α)
  | cancel (k : TimerID)
deriving DecidableEq, Repr

/-- What a caller sees of an operation (time/timewheel.rs:38-80). -/
inductive Ret (α : Type) where
  | fired (l : List (TimerID × α))
  | id (k : TimerID)
  | unit
deriving DecidableEq, Repr

/-- One operation (time/timewheel.rs:38-80). -/
def step {α : Type} (w : Wheel α) : Op α → Res Unit (Wheel α × Ret α)
  | .tick => let r := tick w; .ok (r.1, .fired r.2)
  | .insert d e => (insert w d e).bind (fun r => .ok (r.1, .id r.2))
  | .cancel k => .ok (cancel w k, .unit)

/-- A sequence of operations with what the caller saw. No counterpart in the code: calls one after the other. -/
def run {α : Type} : Wheel α → List (Op α) → Res Unit (Wheel α × List (Ret α))
  | w, [] => .ok (w, [])
  | w, o :: os => (step w o).bind (fun r => (run r.1 os).bind (fun q => .ok (q.1, r.2 :: q.2)))

end Verif.TimeWheel
