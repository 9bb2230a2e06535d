import Verif.Spec.Complete
import Verif.Spec.Outcome

/-!
# Resuming interrupted work (specification side)
-/

namespace Verif.World
open Verif

/-- What the tasks do when they are run: exit status and values, by key. -/
abbrev Does := String → Tracker.ExitStatus × List (List (String × String))

/-- Successes that were reported are true. (Other reports may be anything: tasks may have been killed.) -/
def Earlier (B : Does) (w : World) (as : List Act) : Prop :=
  ∀ k v, (k, Tracker.ExitStatus.code 0, v) ∈ reports w as → B k = (.code 0, v)

/-- All reports are true. -/
def AllTrue (B : Does) (w : World) (as : List Act) : Prop := ∀ k st v, (k, st, v) ∈ reports w as → B k = (st, v)

/-- Each task of `g` depends on exactly the tasks with the keys `D` says. -/
def Fits (D : String → String → Prop) (g : DiGraph Cmd) : Prop :=
  ∀ (i : Nat) (c : Cmd), g.nodes[i]? = some c → ∀ k, D k c.key ↔ ∃ (j : Nat) (cj : Cmd), g.Dep j i ∧ g.nodes[j]? = some cj ∧ cj.key = k

/-- In all sessions of the history the tasks had these dependencies. -/
def SameDeps (D : String → String → Prop) (as : List Act) : Prop :=
  ∀ as1 w1, as1 <+: as → Runs init as1 w1 → Fits D w1.tasks

/-- No session of the history called `execute` twice. -/
def OncePerSession (as : List Act) : Prop :=
  ∀ as1 w1, as1 <+: as → Runs init as1 w1 → w1.executes ≤ 1

/-- The actions of one whole `execute` with failures to be rerun: only its start if it finds nothing to run. -/
def Whole (target : Option Nat) (fizzles : Nat) (tas : List Tracker.Act) (acts : List Act) : Prop :=
  ∃ ch now, tas = [] ∧ acts = [.exec target true fizzles ch now] ∨
    acts = .exec target true fizzles ch now :: (tas.map .trk ++ [.finish])

/-- The tasks alone say that task `i` is to be run: everything it transitively depends on succeeds. -/
def DueIn (B : Does) (g : DiGraph Cmd) (i : Nat) : Prop :=
  ∀ u cu, g.Reach u i → g.nodes[u]? = some cu → (B cu.key).1 = .code 0

/-- Task `i` is to be run and fails. -/
def FailsIn (B : Does) (g : DiGraph Cmd) (target : Option Nat) (i : Nat) : Prop :=
  ∃ c, g.nodes[i]? = some c ∧ Spec.Considered g target i ∧ DueIn B g i ∧ (B c.key).1 ≠ .code 0

/-- After a history `as` of any number of sessions, each ended in any way, a session is open and its first `execute`, `acts`,
runs to its end, with failures to be rerun and without a shutdown. Reported successes of earlier are true, and so are all
reports of this `execute`; fewer tasks fail than there may be quick failures. -/
structure Resumption (D : String → String → Prop) (B : Does) (target : Option Nat) (as acts : List Act) (w w' : World) : Prop where
  history : Runs init as w
  deps : SameDeps D as
  earlier : Earlier B init as
  first : w.executes = 0
  whole : ∃ fizzles tas, Whole target fizzles tas acts ∧ Tracker.NoShutdown tas ∧
    ∀ l : List Nat, l.Nodup → (∀ i ∈ l, FailsIn B w.tasks target i) → l.length < fizzles
  runs : Runs w acts w'
  returned : w'.running = none
  honest : AllTrue B w acts

end Verif.World
