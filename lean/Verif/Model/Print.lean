import Verif.Model.Tracker
import Verif.Model.Json

/-!
# What `execute` prints (sync.rs:401-470)

Everything goes through `rawlog!`, to the console and to the file `log.txt` beside the log (see `Model/Mirror` for the writers).
-/

namespace Verif.Print
open Verif Verif.Tracker

/-- The captured output of a task (`stdout` and `stderr` of `FinishedEvent`, sync.rs:724-731). -/
structure Captured where
  stdout : String
  stderr : String
deriving DecidableEq, Repr

/-- One call of `rawlog!` (logging.rs:161-176). -/
inductive Line where
  /-- sync.rs:435-440 -/
  | progress (k n : Nat) (display : String)
  /-- sync.rs:449-456 -/
  | failure (what key : String) (runcount : Nat) (display : String)
  /-- sync.rs:462, 465 -/
  | output (text : String)
deriving DecidableEq, Repr

/-- `fail_description` (sync.rs:798-806); called for failures only, so that its assertion holds. -/
def failDescription : ExitStatus → Bool → String
  | .code _, true => "FIZZLED"
  | .code _, false => "FAILED"
  | .cancelled, _ => "CANCELLED"
  | .disconnected, _ => "DISCONNECTED"

/-- `Cmd::display` as printed. Where it panics (`none`) the task was never made ready (see `displayText` in `Tracker.addReady`), so that no
report of it arrives (execgraph.rs:117-144, printed at sync.rs:420-467). -/
def shownAs (c : Cfg) (v : Nat) : String := ((cmdOf c.g v).displayText).getD ""

/-- The lines for the captured output (sync.rs:461-466). -/
def outLines (o : Captured) : List Line :=
  (if o.stdout.isEmpty then [] else [.output o.stdout]) ++ (if o.stderr.isEmpty then [] else [.output o.stderr])

/-- The printing part of `_finished_bookkeeping_1` (sync.rs:433-467), in a state with the counters from before the call. `off` is `count_offset`;
`total` is the number of statuses, i.e. of selected tasks (402). Simplification: the sums of counters do not overflow. -/
def printFin (c : Cfg) (off : Nat) (o : Captured) (s : State) (v : Nat) (st : ExitStatus) : List Line :=
  (if st.isSuccess then [.progress (s.nSuccess + 1 + s.nFailed + off) (c.g.n + off) (shownAs c v)]
   else if s.soft then []
   else [.failure (failDescription st (fizzled s v)) (cmdOf c.g v).key (cmdOf c.g v).runcount (shownAs c v)]) ++
  (if s.soft then [] else outLines o)

/-- The counters after one report (sync.rs:434, 442). -/
def counted (s : State) (st : ExitStatus) : State :=
  if st.isSuccess then { s with nSuccess := s.nSuccess + 1 } else { s with nFailed := s.nFailed + 1 }

/-- Several reports, one after the other, with the output that came with them (sync.rs:401-470). -/
def printSeq (c : Cfg) (off : Nat) : State → List (Nat × ExitStatus × Captured) → List Line
  | _, [] => []
  | s, (v, st, o) :: r => printFin c off o s v st ++ printSeq c off (counted s st) r

/-- The reports among the events (sync.rs:774-777). -/
def finished : List Event → List Fin
  | [] => []
  | .finished e :: es => e :: finished es
  | .started _ _ _ _ :: es => finished es

/-- What an action prints: the Finished branch (sync.rs:303-311) and `drain` (201-203, 234-236: made-up reports have no output). `out` is the
output that comes with the report of a task. -/
def prints (c : Cfg) (off : Nat) (out : Nat → Captured) (s : State) : Act → List Line
  | .recvFinished _ _ =>
    match s.chan with
    | .finished e :: _ => printFin c off (out e.id) s e.id e.status
    | _ => []
  | .drain order _ =>
    printSeq c off s ((finished s.chan).map (fun e => (e.id, e.status, out e.id)) ++ order.map (fun v => (v, .disconnected, ⟨"", ""⟩)))
  | _ => []

/-- Everything printed in a run (sync.rs:183-249, 255-390). -/
def printed (c : Cfg) (off : Nat) (out : Nat → Captured) : State → List Act → List Line
  | _, [] => []
  | s, a :: as => prints c off out s a ++ (match step c s a with | .ok s1 => printed c off out s1 as | _ => [])

/-- The text of a line, as the pieces `write_fmt` hands to the writer one after the other (sync.rs:435-440, 449-456, 462, 465;
constants.rs:1). -/
def pieces : Line → List String
  | .progress k n d => ["[", String.ofList (Json.decimal k), "/", String.ofList (Json.decimal n), "] ", d, "\n"]
  | .failure what key rc d =>
    ["\x1b[1;31m", what, ":\x1b[0m ", "wrk/", key, ".", String.ofList (Nat.toDigits 16 rc), ": ", d, "\n"]
  | .output t => [t]

end Verif.Print
