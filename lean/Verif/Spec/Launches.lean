import Verif.Model.Launches
import Verif.Spec.Tracker

/-!
# Vocabulary for the launch rate in the status (specification side)
-/

namespace Verif.Launches
open Verif Verif.Tracker

/-- A run of well-behaved runners: actions `as` lead from `s` to `s'`, none of them panics. -/
inductive Runs (c : Cfg) : State → List Act → State → Prop
  | nil (s : State) : Runs c s [] s
  | cons {s s1 s' : State} {a : Act} {as : List Act} :
      disciplined s.tr a = true → step c s a = .ok s1 → Runs c s1 as s' → Runs c s (a :: as) s'

/-- The tasks returned by `recv` along a run, each with the moment (nanoseconds). -/
def launches (c : Cfg) : Tracker.State → List Act → List (Int × Nat)
  | _, [] => []
  | s, a :: as => ((obsOf s a).filterMap Obs.got?).map (fun x => (s.now, x.2)) ++
    (match Tracker.step c s a with | .ok s1 => launches c s1 as | _ => [])

/-- Seconds from `t` to `t'`. -/
noncomputable def between (t t' : Int) : ℝ := ((t' - t : Int) : ℝ) / 1000000000

end Verif.Launches
