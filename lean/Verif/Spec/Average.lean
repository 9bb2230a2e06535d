import Verif.Model.Average
import Verif.Spec.Tracker

/-!
# Vocabulary for the average runtime in the status (specification side)
-/

namespace Verif.Average
open Verif Verif.Tracker

/-- A run of well-behaved runners: actions `as` lead from `s` to `s'`, none of them panics. -/
inductive Runs (c : Cfg) : State → List Act → State → Prop
  | nil (s : State) : Runs c s [] s
  | cons {s s1 s' : State} {a : Act} {as : List Act} :
      disciplined s.tr a = true → step c s a = .ok s1 → Runs c s1 as s' → Runs c s (a :: as) s'

/-- The runtime this action settles: it processes a report with exit code 0, and the start report of the task was processed before;
the time from the one to the other, in nanoseconds. -/
def runtimeAt (times : List (Nat × Int)) (s : Tracker.State) (a : Act) : List Nat :=
  match a, s.chan with
  | .recvFinished _ _, .finished e :: _ =>
    match times.lookup e.id with
    | some t => if e.status = .code 0 then [(s.now - t).toNat] else []
    | none => []
  | _, _ => []

/-- The runtimes settled along a run, oldest first; `times`: when the start reports before the run were processed. -/
def runtimes (c : Cfg) : (times : List (Nat × Int)) → Tracker.State → List Act → List Nat
  | _, _, [] => []
  | times, s, a :: as => runtimeAt times s a ++
    (match Tracker.step c s a with | .ok s1 => runtimes c (timesAfter times s a) s1 as | _ => [])

/-- The last 100. -/
def last100 (l : List Nat) : List Nat := l.drop (l.length - 100)

/-- The mean in whole milliseconds of runtimes in nanoseconds, each rounded down to whole milliseconds; 0 for none. -/
def meanMs (l : List Nat) : Nat := (l.map (· / 1000000)).sum / l.length

/-- What holds after replaying actions from the start; `false` if some action is not possible. -/
def replay (c : Cfg) : State → List Act → (State → Bool) → Bool
  | s, [], p => p s
  | s, a :: as, p => disciplined s.tr a && match step c s a with | .ok s' => replay c s' as p | _ => false

theorem runs_of_replay {c : Cfg} : ∀ {as : List Act} {s : State} {p : State → Bool}, replay c s as p = true →
    ∃ s', Runs c s as s' ∧ p s' = true := by
  intro as
  induction as with
  | nil => intro s p h; exact ⟨s, .nil _, h⟩
  | cons a as ih =>
    intro s p h
    simp only [replay, Bool.and_eq_true] at h
    obtain ⟨h1, h2⟩ := h
    cases hs : step c s a with
    | ok s1 =>
      rw [hs] at h2
      obtain ⟨s', hr, hp⟩ := ih h2
      exact ⟨s', .cons h1 hs hr, hp⟩
    | _ => rw [hs] at h2; cases h2

end Verif.Average
