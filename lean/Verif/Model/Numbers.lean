import Verif.Model.World
import Verif.Model.Print

/-!
# What is printed in the course of a session (execgraph.rs:260, 276-282; sync.rs:433-467)

`Model/Print` has one `execute`; here `count_offset` is what the `ExecGraph` has when the `execute` is called.
-/

namespace Verif.World
open Verif

/-- What an action of a history prints. `count_offset` is the number of completed keys at the call, taken before `get_subgraph` adds the reused ones
(execgraph.rs:260-267). `out n v` is the captured output that comes with the report of task `v` of the session's `execute` number `n` (sync.rs:433-467). -/
def lines (out : Nat → Nat → Print.Captured) (w : World) : Act → List Print.Line
  | .trk a =>
    match w.sess with
    | none => []
    | some s =>
      match s.run with
      | none => []
      | some r => Print.prints r.cfg r.completed0.length (out s.executes) r.st a
  | _ => []

/-- Everything printed in the course of a history (sync.rs:433-467, execgraph.rs:260). -/
def printed (out : Nat → Nat → Print.Captured) : World → List Act → List Print.Line
  | _, [] => []
  | w, a :: as => lines out w a ++ (match step w a with | .ok w1 => printed out w1 as | _ => [])

end Verif.World
