import Verif.Spec.World

/-!
# What the result of `execute` says; where the results in the log come from (specification side)
-/

namespace Verif.World
open Verif

/-- From `w`, `execute` is called, the scheduler and the runners act (`tas`), and it returns in `w'`; if it finds nothing to
run it returns at once. -/
def Executed (w : World) (target : Option Nat) (rerun : Bool) (fizzles : Nat) (tas : List Tracker.Act) (w' : World) : Prop :=
  ∃ ch now w1, step w (.exec target rerun fizzles ch now) = .ok w1 ∧
    (tas = [] ∧ w1.running = none ∧ w' = w1 ∨ ∃ w2, Runs w1 (tas.map .trk) w2 ∧ step w2 .finish = .ok w')

/-- Every task of the session which `execute` was to look at has a success in the log. -/
def AllDone (w : World) (target : Option Nat) (w' : World) : Prop :=
  ∀ i c, w.tasks.nodes[i]? = some c → Spec.Considered w.tasks target i → SuccessLogged w'.log c.key

/-- The reports of ends of tasks sent in a history: key, status, values. -/
def reports : World → List Act → List (String × Tracker.ExitStatus × List (List (String × String)))
  | _, [] => []
  | w, a :: as =>
    (match a, w.running with
      | .trk (.sendFinished e), some r => [(Tracker.keyOf r.cfg e.id, e.status, e.values)]
      | _, _ => []) ++
    (match step w a with
      | .ok w1 => reports w1 as
      | _ => [])

/-- Whenever a task with key `k` was reported to have succeeded, it was with the values `W k`. -/
def Told (W : String → List (List (String × String))) (as : List Act) : Prop :=
  ∀ k v, (k, Tracker.ExitStatus.code 0, v) ∈ reports init as → v = W k

/-- The values of the entries "Finished with exit code 0" of key `k`. -/
def results (k : String) (es : List LogEntry) : List (List (List (String × String))) :=
  es.filterMap (fun e => match e with | .finished f => if f.key = k ∧ f.status = 0 then some f.values else none | _ => none)

/-- `execute` with these choices and actions, for concrete cases. -/
def tryExec (w : World) (target : Option Nat) (rerun : Bool) (fizzles : Nat) (ch : Choices) (now : Int)
    (tas : List Tracker.Act) : Res Unit World :=
  (step w (.exec target rerun fizzles ch now)).bind (fun w1 => (replay w1 (tas.map .trk)).bind (fun w2 => step w2 .finish))

end Verif.World
