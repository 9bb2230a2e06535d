import Verif.Model.Abort
import Verif.Spec.World

/-!
# Vocabulary for histories with panicking `execute` calls
-/

namespace Verif.Abort
open Verif Verif.World

/-- A history. -/
inductive Runs : World → List Act → World → Prop
  | nil (w : World) : Runs w [] w
  | cons {w w1 w' : World} {a : Act} {as : List Act} : step w a = .ok w1 → Runs w1 as w' → Runs w (a :: as) w'

/-- Worlds some history leads to. -/
def Reachable (w : World) : Prop := ∃ as, Runs World.init as w

/-- Does the process end? -/
def Act.isStop : Act → Bool
  | .world a => a.isStop
  | .panics _ => false
  | .unflushed _ => false

/-- Replays actions, for concrete cases. -/
def replay : World → List Act → Res Unit World
  | w, [] => .ok w
  | w, a :: as => (step w a).bind (fun w1 => replay w1 as)

theorem runs_of_replay : ∀ {as : List Act} {w w' : World}, replay w as = .ok w' → Runs w as w' := by
  intro as
  induction as with
  | nil => intro w w' h; simp only [replay, Res.ok.injEq] at h; subst h; exact .nil _
  | cons a as ih =>
    intro w w' h
    simp only [replay] at h
    cases hs : step w a with
    | ok w1 => rw [hs] at h; exact .cons hs (ih h)
    | err x => rw [hs] at h; simp [Res.bind] at h
    | panic x => rw [hs] at h; simp [Res.bind] at h

/-- What holds after replaying actions from the start. -/
def after (as : List Act) (p : World → Bool) : Bool :=
  match replay World.init as with | .ok w => p w | _ => false

theorem runs_of_after {as : List Act} {p : World → Bool} (h : after as p = true) :
    ∃ w, Runs World.init as w ∧ p w = true := by
  unfold after at h
  split at h
  · rename_i w hw; exact ⟨w, runs_of_replay hw, h⟩
  · cases h

end Verif.Abort
