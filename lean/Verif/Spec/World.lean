import Verif.Model.World
import Verif.Spec.Tracker
import Verif.Spec.Selection

/-!
# Vocabulary for statements about histories (specification side)
-/

namespace Verif.World
open Verif

/-- A history: actions lead from one world to another, none of them panics. -/
inductive Runs : World → List Act → World → Prop
  | nil (w : World) : Runs w [] w
  | cons {w w1 w' : World} {a : Act} {as : List Act} : step w a = .ok w1 → Runs w1 as w' → Runs w (a :: as) w'

/-- Worlds some history leads to. -/
def Reachable (w : World) : Prop := ∃ as, Runs init as w

/-- The `execute` call in progress. -/
def World.running (w : World) : Option Running := w.sess.bind (·.run)

/-- The log has an entry "Finished with exit code 0" of key `k`. -/
def SuccessLogged (es : List LogEntry) (k : String) : Prop := ∃ f, LogEntry.finished f ∈ es ∧ f.key = k ∧ f.status = 0

/-- After an entry "Finished with exit code 0" of a key there is no Ready, Started or Finished entry of that key. -/
def NoRerun (es : List LogEntry) : Prop :=
  ∀ pre f post, es = pre ++ .finished f :: post → f.status = 0 → ∀ e ∈ post, Spec.about f.key e = false

/-- One more entry: the runcounts under which key `k` was started so far, and the runcount of its last Ready entry. -/
def attemptsStep (k : String) (acc : List Nat × Option Nat) : LogEntry → List Nat × Option Nat
  | .ready r => if r.key = k then (acc.1, some r.runcount) else acc
  | .started s => if s.key = k then (acc.1 ++ acc.2.toList, acc.2) else acc
  | _ => acc

/-- The runcounts under which key `k` was started, in file order: for each Started entry the runcount of the last Ready
entry before it. -/
def attempts (k : String) (es : List LogEntry) : List Nat := (es.foldl (attemptsStep k) ([], none)).1

/-- Is it an action of the scheduler or of a runner? Between the start and the return of `execute` there are only these. -/
def Act.isTrk : Act → Bool | .trk _ => true | _ => false

/-- Does the process end? -/
def Act.isStop : Act → Bool | .stop _ => true | _ => false

/-- What is certainly in the file, whatever happens to the process: everything it had flushed. -/
def World.durable (w : World) : List LogEntry :=
  match w.sess with
  | none => w.file
  | some s => w.log.take s.flushed

/-- The tasks of the session, with their dependencies. -/
def World.tasks (w : World) : DiGraph Cmd :=
  match w.sess with
  | none => .empty
  | some s => s.g.deps

/-- Number of `execute` calls of the session so far. -/
def World.executes (w : World) : Nat :=
  match w.sess with
  | none => 0
  | some s => s.executes

/-- Result of the last `execute` of the session that returned. -/
def World.result (w : World) : Option (Nat × List String) := w.sess.bind (·.result)

/-- Replays actions, for concrete cases. -/
def replay : World → List Act → Res Unit World
  | w, [] => .ok w
  | w, a :: as => (step w a).bind (fun w1 => replay w1 as)

theorem runs_of_replay : ∀ {as : List Act} {w w' : World}, replay w as = .ok w' → Runs w as w' := by
  intro as
  induction as with
  | nil => intro w w' h; simp only [replay, Res.ok.injEq] at h; subst h; exact .nil _
  | cons a as ih =>
    intro w w' h
    simp only [replay] at h
    cases hs : step w a with
    | ok w1 => rw [hs] at h; exact .cons hs (ih h)
    | err x => rw [hs] at h; simp [Res.bind] at h
    | panic x => rw [hs] at h; simp [Res.bind] at h

/-- What holds after replaying actions from the start; `false` if some action is not possible. -/
def after (as : List Act) (p : World → Bool) : Bool :=
  match replay init as with | .ok w => p w | _ => false

theorem runs_of_after {as : List Act} {p : World → Bool} (h : after as p = true) :
    ∃ w, Runs init as w ∧ p w = true := by
  unfold after at h
  split at h
  · rename_i w hw; exact ⟨w, runs_of_replay hw, h⟩
  · cases h

end Verif.World
