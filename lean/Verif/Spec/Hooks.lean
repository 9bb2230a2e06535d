import Verif.Model.Hooks
import Verif.Spec.Abort

/-!
# Vocabulary for histories with postambles
-/

namespace Verif.Hooks
open Verif Verif.World

/-- A history. -/
inductive Runs (objs : Nat → PyObj) : State → List Act → State → Prop
  | nil (s : State) : Runs objs s [] s
  | cons {s s1 s' : State} {a : Act} {as : List Act} : step objs s a = .ok s1 → Runs objs s1 as s' → Runs objs s (a :: as) s'

/-- States some history leads to. -/
def Reachable (objs : Nat → PyObj) (s : State) : Prop := ∃ as, Runs objs init as s

/-- The finishes recorded in a log, in order: task, and whether it succeeded. -/
def recorded (es : List LogEntry) : List (String × Bool) :=
  es.filterMap (fun e => match e with | .finished f => some (f.key, decide (f.status = 0)) | _ => none)

/-- The finishes to which the postamble (if there is one) has not objected, in order. -/
def granted (qs : List Ask) : List (String × Bool) := (qs.filter (fun q => q.answer.ok)).map (fun q => (q.key, q.success))

/-- The run count in the last Ready entry of task `k`. -/
def announced (k : String) (es : List LogEntry) : Option Nat :=
  (es.filterMap (fun e => match e with | .ready r => if r.key = k then some r.runcount else none | _ => none)).getLast?

/-- Replays actions, for concrete cases. -/
def replay (objs : Nat → PyObj) : State → List Act → Res Unit State
  | s, [] => .ok s
  | s, a :: as => (step objs s a).bind (fun s1 => replay objs s1 as)

theorem runs_of_replay {objs : Nat → PyObj} : ∀ {as : List Act} {s s' : State}, replay objs s as = .ok s' → Runs objs s as s' := by
  intro as
  induction as with
  | nil => intro s s' h; simp only [replay, Res.ok.injEq] at h; subst h; exact .nil _
  | cons a as ih =>
    intro s s' h
    simp only [replay] at h
    cases hs : step objs s a with
    | ok s1 => rw [hs] at h; exact .cons hs (ih h)
    | err x => rw [hs] at h; simp [Res.bind] at h
    | panic x => rw [hs] at h; simp [Res.bind] at h

/-- What holds after replaying actions from the start. -/
def after (objs : Nat → PyObj) (as : List Act) (p : State → Bool) : Bool :=
  match replay objs init as with | .ok s => p s | _ => false

theorem runs_of_after {objs : Nat → PyObj} {as : List Act} {p : State → Bool} (h : after objs as p = true) :
    ∃ s, Runs objs init as s ∧ p s = true := by
  unfold after at h
  split at h
  · rename_i s hs; exact ⟨s, runs_of_replay hs, h⟩
  · cases h

end Verif.Hooks
