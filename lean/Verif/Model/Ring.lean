import Verif.Model.Base

/-!
# Average of recent task runtimes (`src/simpleringbuffer.rs`)
-/

namespace Verif.Ring

/-- `AllocRingBuffer` of capacity `cap` holding durations in nanoseconds, oldest first (simpleringbuffer.rs:5-7; the
internal array of the crate is not modelled). -/
structure Ring where
  cap : Nat
  items : List Nat
deriving DecidableEq, Repr

/-- `new` (simpleringbuffer.rs:10-19): the assertion on the capacity, and `AllocRingBuffer::new`, which rejects 0. -/
def mkNew (cap : Nat) : Res Unit Ring :=
  if cap ≤ 1000 then
    if cap = 0 then .panic "Capacity must be greater than 0" else .ok ⟨cap, []⟩
  else .panic "assertion failed: capacity <= 1000"

/-- `push` (simpleringbuffer.rs:21-24): a full ring buffer drops its oldest element. -/
def push (r : Ring) (d : Nat) : Ring :=
  if r.items.length < r.cap then { r with items := r.items ++ [d] } else { r with items := r.items.tail ++ [d] }

/-- `x.as_millis() as u64` (simpleringbuffer.rs:44). -/
def millis (d : Nat) : Nat := (d / 1000000) % 2 ^ 64

/-- `.sum::<u64>()` (simpleringbuffer.rs:44), wrapping as in a release build. -/
def sumU64 (l : List Nat) : Nat := l.foldl (fun a b => (a + b) % 2 ^ 64) 0

/-- `mean` (simpleringbuffer.rs:38-46), in milliseconds. -/
def mean (r : Ring) : Res Unit Nat :=
  if r.items.length ≤ 1000 then
    .ok (if r.items.length = 0 then 0 else sumU64 (r.items.map millis) / r.items.length)
  else .panic "assertion failed: n_items <= 1000"

end Verif.Ring
