import Verif.Model.Lifetime
import Verif.Spec.System

/-!
# Vocabulary for statements about the lifetime of the tracker (specification side)
-/

namespace Verif.Lifetime
open Verif Verif.Sys

/-- A run: actions `as` lead from `s` to `s'`. Clients may do what they like, also repeat `/begun`. -/
inductive Runs (c : Sys.Cfg) : State → List Act → State → Prop
  | nil (s : State) : Runs c s [] s
  | cons {s s1 s' : State} {a : Act} {as : List Act} : step c s a = .ok s1 → Runs c s1 as s' → Runs c s (a :: as) s'

/-- All spawned tasks have ended: local loops, requests, and the reaper. -/
def TasksEnded (s : Sys.State) : Prop := allExited s.loops = true ∧ allDone s.handlers = true ∧ reaperEnded s.reaper = true

/-- Replays actions, for concrete cases. -/
def replay (c : Sys.Cfg) : State → List Act → Res Unit State
  | s, [] => .ok s
  | s, a :: as => (step c s a).bind (fun s1 => replay c s1 as)

theorem runs_of_replay {c : Sys.Cfg} : ∀ {as : List Act} {s s' : State}, replay c s as = .ok s' → Runs c s as s' := by
  intro as
  induction as with
  | nil => intro s s' h; simp only [replay, Res.ok.injEq] at h; subst h; exact .nil _
  | cons a as ih =>
    intro s s' h
    simp only [replay] at h
    cases hs : step c s a with
    | ok s1 => rw [hs] at h; exact .cons hs (ih h)
    | err x => rw [hs] at h; simp [Res.bind] at h
    | panic x => rw [hs] at h; simp [Res.bind] at h

/-- What holds after replaying actions from the start; `false` if some action is not possible. -/
def after (c : Sys.Cfg) (as : List Act) (p : State → Bool) : Bool :=
  match replay c (init c Tracker.emptyLog 0) as with | .ok s => p s | _ => false

theorem runs_of_after {c : Sys.Cfg} {as : List Act} {p : State → Bool} (h : after c as p = true) :
    ∃ s, Runs c (init c Tracker.emptyLog 0) as s ∧ p s = true := by
  unfold after at h
  split at h
  · rename_i s hs; exact ⟨s, runs_of_replay hs, h⟩
  · cases h

end Verif.Lifetime
