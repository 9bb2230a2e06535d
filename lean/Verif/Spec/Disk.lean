import Verif.Model.Disk
import Verif.Spec.World

/-!
# Vocabulary for statements about the bytes of the log over histories (specification side)
-/

namespace Verif.Disk
open Verif Verif.Json

/-- What the types of the fields guarantee: the process writes only numbers in their ranges. -/
def inRange (d : State) : Prop := d.world.sess.isSome = true → ∀ e ∈ d.world.log, Writable e

/-- A history: actions lead from one state to another. -/
inductive Runs : State → List Act → State → Prop
  | nil (d : State) : Runs d [] d
  | cons {d d1 d' : State} {a : Act} {as : List Act} : step d a = .ok d1 → inRange d1 → Runs d1 as d' → Runs d (a :: as) d'

/-- No process, and the constructor is refused whatever its arguments. -/
def Refused (d : State) : Prop := d.world.sess = none ∧ ∀ dir roots newKey info, step d (.world (.open dir roots newKey info)) = .err ()

/-- No process, and the constructor succeeds whatever its arguments. -/
def Opens (d : State) : Prop := d.world.sess = none ∧ ∀ dir roots newKey info, ∃ d', step d (.world (.open dir roots newKey info)) = .ok d'

/-- Does the file end with a complete line? -/
def LineEnd (bs : List UInt8) : Prop := bs = [] ∨ bs.getLast? = some 10

/-- Does the process end? -/
def Act.isStop : Act → Bool | .stop _ => true | _ => false

/-- The files the ends of processes have left. -/
def left : State → List Act → List (List UInt8)
  | _, [] => []
  | d, a :: as =>
    match step d a with
    | .ok d1 => (if a.isStop then [d1.bytes] else []) ++ left d1 as
    | _ => []

end Verif.Disk
