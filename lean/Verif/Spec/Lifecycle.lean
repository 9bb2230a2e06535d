import Verif.Model.Lifecycle

/-!
# Vocabulary for the tasks behind `execute` (specification side)
-/

namespace Verif.Lifecycle
open Verif

/-- A run. -/
inductive Runs : State → List Act → State → Prop
  | nil (s : State) : Runs s [] s
  | cons {s s1 s' : State} {a : Act} {as : List Act} : step s a = .ok s1 → Runs s1 as s' → Runs s (a :: as) s'

/-- Replays actions, for concrete cases. -/
def replay : State → List Act → Res Unit State
  | s, [] => .ok s
  | s, a :: as => match step s a with | .ok s1 => replay s1 as | .err e => .err e | .panic m => .panic m

theorem runs_of_replay : ∀ {as : List Act} {s s' : State}, replay s as = .ok s' → Runs s as s' := by
  intro as
  induction as with
  | nil => intro s s' h; simp only [replay, Res.ok.injEq] at h; subst h; exact .nil _
  | cons a as ih =>
    intro s s' h
    simp only [replay] at h
    split at h
    · rename_i s1 h1; exact .cons h1 (ih h)
    · cases h
    · cases h

/-- Is it something execgraph itself does (apart from ending the main loop)? -/
def inside : Act → Bool
  | .httpUp | .httpSeeHard | .httpDrained | .httpDone | .adminUp | .adminSeeHard | .adminDrained | .answer _ | .adminAnswer _
  | .provSpawn true | .provSeeExit | .provCancel _ | .provNoAddr | .joinDone => true
  | _ => false

/-- The reasons for a hard cancellation: the main loop is through, an administrator wants it, the provisioner cannot be
started, it has exited. -/
def reason : Act → Bool
  | .mainEnd | .adminHard | .provSpawn false | .procExit => true
  | _ => false

/-- The latest moment at which one of the requests is due. -/
def latest : List Req → Nat
  | [] => 0
  | r :: rs => max (r.due.getD 0) (latest rs)

/-- Is it a new request? -/
def isRequest : Act → Bool
  | .httpRequest _ | .adminRequest _ => true
  | _ => false

end Verif.Lifecycle
