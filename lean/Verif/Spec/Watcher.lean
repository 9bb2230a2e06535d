import Verif.Model.Watcher

/-!
# What the runner should hear of Slurm's error file (specification side)
-/

namespace Verif.Watcher
open Verif.Json

/-- The bytes appended by the actions. -/
def written : List Act → List UInt8
  | [] => []
  | .append bs _ :: as => bs ++ written as
  | _ :: as => written as

/-- The content of the file at some moment up to the actions `as`. -/
def WasContent (file : List UInt8) (as : List Act) (p : List UInt8) : Prop := ∃ pre, pre <+: as ∧ p = file ++ written pre

/-- The text says that the job is over: it contains one of the words. -/
def SaysOver (s : List Char) : Prop :=
  ∃ w ∈ ["CANCELLED", "FAILED", "ERROR"], ∃ a b, s = a ++ w.toList ++ b

/-- The texts under way or received. -/
def State.messages (s : State) : List (List Char) := s.got ++ s.chan.toList ++ s.blocked.toList

end Verif.Watcher
