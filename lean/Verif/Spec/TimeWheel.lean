import Verif.Model.TimeWheel

/-!
# What a timer wheel is meant to do (specification side)

A list of pending timers, each with the number of ticks left. No slots, no keys: ids are what `insert` returned.
-/

namespace Verif.TimeWheel

/-- A pending timer. -/
structure Timer (α : Type) where
  id : TimerID
  entry : α
  left : Nat
deriving DecidableEq, Repr

/-- Ticks until a timer inserted with delay `dur` fires: `⌊256 * dur / duration⌋`, except that 0 (shorter than a tick)
means 256; the full duration gives 256 as well. -/
def ticksFor (duration dur : Nat) : Nat :=
  if 256 * dur / duration = 0 then 256 else 256 * dur / duration

/-- The timers left after an operation which returned `r`, the pending timers being `p`. -/
def specNext {α : Type} (duration : Nat) (p : List (Timer α)) : Op α → Ret α → List (Timer α)
  | .tick, _ => (p.filter (fun t => t.left != 1)).map (fun t => { t with left := t.left - 1 })
  | .insert d e, .id k => p ++ [⟨k, e, ticksFor duration d⟩]
  | .cancel k, _ => p.filter (fun t => t.id != k)
  | _, _ => p

/-- Is `r` a correct answer to the operation? A tick returns exactly the timers with one tick left (in any order); an insert
returns an id not in use. -/
def specRet {α : Type} (p : List (Timer α)) : Op α → Ret α → Prop
  | .tick, .fired l => l.Perm ((p.filter (fun t => t.left == 1)).map (fun t => (t.id, t.entry)))
  | .insert _ _, .id k => k ∉ p.map (·.id)
  | .cancel _, .unit => True
  | _, _ => False

/-- All answers are correct, starting with pending timers `p`; and `p'` are pending at the end. -/
inductive SpecRuns {α : Type} (duration : Nat) : List (Timer α) → List (Op α) → List (Ret α) → List (Timer α) → Prop
  | nil (p : List (Timer α)) : SpecRuns duration p [] [] p
  | cons {p p' : List (Timer α)} {o : Op α} {os : List (Op α)} {r : Ret α} {rs : List (Ret α)} :
      specRet p o r → SpecRuns duration (specNext duration p o r) os rs p' → SpecRuns duration p (o :: os) (r :: rs) p'

/-- The entry under an id. -/
def look {α : Type} (w : Wheel α) (k : TimerID) : Option α := (w.slots k.slot).bind (fun m => m.get k.key)

end Verif.TimeWheel
