import Verif.Model.WheelRace
import Verif.Spec.TimeWheel

/-!
# Serial executions of a timer wheel used by several threads (specification side)
-/

namespace Verif.WheelRace
open Verif.TimeWheel

/-- How many ticks until tick number `n ≡ at_` modulo 256 comes, `done` ticks being complete: between 1 and 256. -/
def ticksUntil (at_ done : Nat) : Nat := (at_ + 255 * (done + 1)) % 256 + 1

/-- The meaning of `ticksUntil`. -/
theorem ticksUntil_spec (at_ done n : Nat) : n = ticksUntil at_ done ↔ 1 ≤ n ∧ n ≤ 256 ∧ (done + n) % 256 = at_ % 256 := by
  unfold ticksUntil; omega

/-- The actions as a sequence of whole operations on a wheel where a delay is a number of ticks: ticks happen when they take
the lock; an insertion happens when it takes the lock, and its timer waits for the next tick whose number is, modulo 256, the
number of ticks *begun* when the thread looked at the clock plus the delay (`a`: ticks begun; `b`: ticks complete; `D` the
duration of the wheel; `m`: for threads in the middle of an insertion, tick number waited for and entry). -/
def serial {α : Type} (D : Nat) (a b : Nat) (m : Nat → Option (Nat × α)) : List (Act α) → List (Op α)
  | [] => []
  | .advance :: os => serial D (a + 1) b m os
  | .take :: os => .tick :: serial D a (b + 1) m os
  | .load t d e :: os => serial D a b (upd m t (some (a + ticksFor D d, e))) os
  | .put t :: os => match m t with
    | some (n, e) => .insert (ticksUntil n b) e :: serial D a b (upd m t none) os
    | none => serial D a b m os
  | .cancel k :: os => .cancel k :: serial D a b m os

/-- A call that has returned: what was called, the answer, and the times of its first and last action. -/
structure Call (α : Type) where
  op : Op α
  ret : Ret α
  started : Nat
  ended : Nat
deriving DecidableEq, Repr

/-- Linearizability (Herlihy and Wing): the calls can be put in an order in which no call precedes one that had returned before
it began, such that the wheel, used by a single thread in that order, gives these answers. -/
def Linearizable {α : Type} (D : Nat) (h : List (Call α)) : Prop :=
  ∃ l : List (Call α), l.Perm h ∧ l.Pairwise (fun x y => ¬ y.ended < x.started) ∧
    ∃ w, TimeWheel.run (new D) (l.map (·.op)) = .ok (w, l.map (·.ret))

/-- The first action satisfying `p` and its answer, with its time, the list starting at time `i`. -/
def firstAt {α : Type} (p : Act α → Bool) : Nat → List (Act α × Option (Ret α)) → Option (Nat × Ret α)
  | _, [] => none
  | i, (o, r) :: l => if p o then r.map (fun r => (i, r)) else firstAt p (i + 1) l

/-- Is it the action taking the slot? -/
def isTake {α : Type} : Act α → Bool | .take => true | _ => false
/-- Is it the action of thread `t` inserting? -/
def isPut {α : Type} (t : Nat) : Act α → Bool | .put t' => t' == t | _ => false

/-- The complete calls of an execution (actions with answers), the first action having time `i`. -/
def calls {α : Type} : Nat → List (Act α × Option (Ret α)) → List (Call α)
  | _, [] => []
  | i, (o, r) :: l =>
    (match o with
      | .advance => ((firstAt isTake (i + 1) l).map (fun x => Call.mk .tick x.2 i x.1)).toList
      | .load t d e => ((firstAt (isPut t) (i + 1) l).map (fun x => Call.mk (.insert d e) x.2 i x.1)).toList
      | .cancel k => (r.map (fun r => Call.mk (.cancel k) r i i)).toList
      | _ => []) ++ calls (i + 1) l

/-- Is it the beginning of a tick? -/
def isAdvance {α : Type} : Act α → Bool | .advance => true | _ => false

/-- Number of ticks begun in a list of actions. -/
def begun {α : Type} (os : List (Act α)) : Nat := os.countP isAdvance

/-- Number of ticks completed in a list of actions. -/
def complete {α : Type} (os : List (Act α)) : Nat := os.countP isTake

end Verif.WheelRace
