import Verif.Model.Metered
import Verif.Spec.Limited

/-!
# Vocabulary for the rate shown under a rate limit (specification side)
-/

namespace Verif.Metered
open Verif Verif.Sys

/-- A run: actions `as` lead from `s` to `s'`; `/begun` is not repeated. -/
inductive Runs (c : Sys.Cfg) : State → List Limited.Act → State → Prop
  | nil (s : State) : Runs c s [] s
  | cons {s s1 s' : State} {a : Limited.Act} {as : List Limited.Act} :
      (∀ b, a = .sys b → polite c s.lim.sys b = true) → step c s a = .ok s1 → Runs c s1 as s' → Runs c s (a :: as) s'

/-- At every moment of the run at most `H` local loops and requests of remote runners wait for a task past the rate limiter. -/
def AtMostWait (c : Sys.Cfg) (s : Limited.State) (as : List Limited.Act) (H : Nat) : Prop :=
  ∀ bs cs s1, as = bs ++ cs → Limited.Runs c s bs s1 → Limited.holding s1.sys ≤ H

end Verif.Metered
