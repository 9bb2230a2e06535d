import Verif.Model.Print
import Verif.Spec.Tracker

/-!
# Vocabulary for what is printed (specification side)
-/

namespace Verif.Print
open Verif Verif.Tracker

/-- A finish report as the reader of the output sees it. `full`: there had been no soft shutdown yet. `quick`: less than five seconds
had passed since the task was reported started. -/
structure Report where
  task : Nat
  status : ExitStatus
  out : Captured
  full : Bool
  quick : Bool
deriving DecidableEq, Repr

/-- What should be seen of report number `i` (from 0) of an `execute`: a numbered line for a success; a line for a failure and the
captured output only as long as there was no soft shutdown. `off` is the number of tasks known to be complete beforehand. -/
def shown (c : Cfg) (off : Nat) (i : Nat) (r : Report) : List Line :=
  (if r.status = .code 0 then [.progress (off + i + 1) (off + c.g.n) (shownAs c r.task)]
   else if r.full then [.failure (match r.status with
      | .code _ => if r.quick then "FIZZLED" else "FAILED"
      | .cancelled => "CANCELLED"
      | .disconnected => "DISCONNECTED") (keyOf c r.task) (cmdOf c.g r.task).runcount (shownAs c r.task)]
   else []) ++
  (if r.full then ([r.out.stdout, r.out.stderr].filter (· ≠ "")).map .output else [])

/-- The number and total of a progress line. -/
def Line.nums? : Line → Option (Nat × Nat)
  | .progress k n _ => some (k, n)
  | _ => none

/-- The word, key and run count of a failure line. -/
def Line.failed? : Line → Option (String × String × Nat)
  | .failure w k n _ => some (w, k, n)
  | _ => none

end Verif.Print
