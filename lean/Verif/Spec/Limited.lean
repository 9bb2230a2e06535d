import Verif.Model.Limited
import Verif.Spec.System

/-!
# Vocabulary for the launch rate of an `execute` (specification side)
-/

namespace Verif.Limited
open Verif Verif.Tracker Verif.Sys

/-- A run: actions `as` lead from `s` to `s'`; `/begun` is not repeated. -/
inductive Runs (c : Sys.Cfg) : State → List Act → State → Prop
  | nil (s : State) : Runs c s [] s
  | cons {s s1 s' : State} {a : Act} {as : List Act} :
      (∀ b, a = .sys b → polite c s.sys b = true) → step c s a = .ok s1 → Runs c s1 as s' → Runs c s (a :: as) s'

/-- Is a task handed out, to a local loop or to a remote runner? -/
def handsOut : Act → Bool
  | .sys (.loopGot _ _) | .sys (.hGot _ _) => true
  | _ => false

/-- How many tasks are handed out. -/
def handedOut (as : List Act) : Nat := as.countP handsOut

/-- Does the local loop wait for a task, past the rate limiter? -/
def loopHolds : Loop → Bool
  | .inRecv => true
  | _ => false

/-- Does the request of a remote runner wait for a task, past the rate limiter? -/
def reqHolds : Handler → Bool
  | .inRecv _ _ => true
  | _ => false

/-- How many local loops and requests of remote runners wait for a task and are past the rate limiter. -/
def holding (s : Sys.State) : Nat := s.loops.countP loopHolds + s.handlers.countP reqHolds

/-- The rate limit in force: that of the newest `POST /ratelimit`, or the one `execute` was called with. -/
def inForce (rate : Nat) : List Act → Nat
  | [] => rate
  | .setRate r :: as => inForce r as
  | _ :: as => inForce rate as

/-- Nobody changes the rate limit. -/
def Unchanged (as : List Act) : Prop := ∀ r, Act.setRate r ∉ as

/-- The actions of the execute itself. -/
def sysActs : List Act → List Sys.Act
  | [] => []
  | .sys a :: as => a :: sysActs as
  | _ :: as => sysActs as

/-- Replays actions, for concrete cases. -/
def replay (c : Sys.Cfg) : State → List Act → (State → Bool) → Bool
  | s, [], p => p s
  | s, a :: as, p =>
    (match a with | .sys b => polite c s.sys b | _ => true) && match step c s a with | .ok s' => replay c s' as p | _ => false

theorem runs_of_replay {c : Sys.Cfg} : ∀ {as : List Act} {s : State} {p : State → Bool}, replay c s as p = true →
    ∃ s', Runs c s as s' ∧ p s' = true := by
  intro as
  induction as with
  | nil => intro s p h; exact ⟨s, .nil _, h⟩
  | cons a as ih =>
    intro s p h
    simp only [replay, Bool.and_eq_true] at h
    obtain ⟨h1, h2⟩ := h
    cases hs : step c s a with
    | ok s1 =>
      rw [hs] at h2
      obtain ⟨s', hr, hp⟩ := ih h2
      exact ⟨s', .cons (fun b hb => by subst hb; exact h1) hs hr, hp⟩
    | _ => rw [hs] at h2; cases h2

end Verif.Limited
