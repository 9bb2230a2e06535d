import Verif.Model.Numbers
import Verif.Spec.World
import Verif.Spec.Print

/-!
# Vocabulary for the numbers shown in the course of a session (specification side)
-/

namespace Verif.World
open Verif

/-- No process ends: everything happens in one session. -/
def OneSession (as : List Act) : Prop := ∀ keep, .stop keep ∉ as

/-- Whenever an `execute` returned, all its reports had been handled before it stopped serving (none were left to `drain`). -/
def NothingDrained (w : World) (as : List Act) : Prop :=
  ∀ pre post w1 r, as = pre ++ .finish :: post → Runs w pre w1 → w1.running = some r → r.st.drained = []

/-- Whenever an `execute` returned, all its reports had been successes. -/
def AllSucceed (w : World) (as : List Act) : Prop :=
  ∀ pre post w1 r, as = pre ++ .finish :: post → Runs w pre w1 → w1.running = some r → ∀ x ∈ Tracker.closedTasks r.st, x.2 = .code 0

/-- No `execute` reused a result from the log (`reuseOrder` are the keys for which it writes Backref entries, C09). -/
def NothingReused (as : List Act) : Prop := ∀ target rerun fizzles ch now, .exec target rerun fizzles ch now ∈ as → ch.reuseOrder = []

/-- The numbers `k` of the progress lines `[k/n]`. -/
def shownNumbers (ls : List Print.Line) : List Nat := (ls.filterMap Print.Line.nums?).map (·.1)

/-- The keys counted as done in the session. -/
def World.doneCount (w : World) : Nat := match w.sess with | none => 0 | some s => s.g.completed.length

end Verif.World
