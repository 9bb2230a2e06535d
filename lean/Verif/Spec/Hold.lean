import Verif.Model.Hold
import Verif.Spec.Progress
import Verif.Spec.Greedy

/-!
# Vocabulary for how long a request for a task is held (specification side)
-/

namespace Verif.Hold
open Verif Verif.Tracker Verif.Sys

/-- A run: actions `as` lead from `s` to `s'`; `/begun` is not repeated. -/
inductive Runs (c : Sys.Cfg) : State → List Sys.Act → State → Prop
  | nil (s : State) : Runs c s [] s
  | cons {s s1 s' : State} {a : Sys.Act} {as : List Sys.Act} :
      polite c s.sys a = true → step c s a = .ok s1 → Runs c s1 as s' → Runs c s (a :: as) s'

/-- Has the request been answered (or dropped)? -/
def answered : Handler → Bool
  | .done _ | .dead _ => true
  | _ => false

/-- Does the request wait for a task, or for the rate limiter? -/
def isHeld : Handler → Bool
  | .toRecv _ _ | .inRecv _ _ => true
  | _ => false

/-- What execgraph does by itself takes no time, and its timers go off in time: time goes by only when there is nothing left to do, and
not beyond the end of the holding time of a request that is still held. -/
def Prompt (c : Sys.Cfg) (s : State) (a : Sys.Act) : Prop :=
  0 < ticks a → AtRest c s.sys ∧
    ∀ (h : Nat) (x : Handler) (t : Int), s.sys.handlers[h]? = some x → isHeld x = true → s.held[h]? = some t → s.sys.tr.now + ticks a ≤ t + hold

/-- A run with `Prompt` at each action. -/
inductive Timely (c : Sys.Cfg) : State → List Sys.Act → State → Prop
  | nil (s : State) : Timely c s [] s
  | cons {s s1 s' : State} {a : Sys.Act} {as : List Sys.Act} :
      polite c s.sys a = true → Prompt c s a → step c s a = .ok s1 → Timely c s1 as s' → Timely c s (a :: as) s'

end Verif.Hold
