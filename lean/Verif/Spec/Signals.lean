import Verif.Model.Signals

/-!
# Process groups and signals: what the claims are about
-/

namespace Verif.Spec.Signals
open Verif Verif.Signals

/-- How things are on a POSIX system: a number has one process, and the leader of a session leads its own group. -/
structure Posix (s : State) : Prop where
  nodup : (s.procs.map (·.pid)).Nodup
  leader : ∀ q ∈ s.procs, q.pid = q.sid → q.pgid = q.pid

/-- No `execute` has been called in the process yet, and nobody has been forked by it yet (as far as we look). -/
structure Fresh (s : State) : Prop where
  posix : Posix s
  entered : s.entered = 0
  armed : s.armed = 0
  registered : s.registered = false
  none : ∀ q ∈ s.procs, q.ours = false

/-- The process of the session is there, with this group and disposition. -/
def Me (s : State) (g : Nat) (d : Disp) : Prop := ∃ q ∈ s.procs, q.pid = s.me ∧ q.pgid = g ∧ q.term = d

/-- Nobody takes process `p` into another group than its own. -/
def StaysPut (p : Nat) (as : List Act) : Prop := ∀ c g, Act.setpgid c p g ∈ as → g = p

/-- Nobody else is taken into the group of process `p`. -/
def NobodyJoins (p : Nat) (as : List Act) : Prop := ∀ c t, Act.setpgid c t p ∈ as → t = p

/-- An ordinary program does this: what the process of the session has forked stays in its group and does nothing about SIGTERM; the process itself starts others only as `execute` does, and does not ignore SIGTERM. -/
def Tame (s : State) : Act → Prop
  | .setpgid _ t _ => ∀ q ∈ s.procs, q.pid = t → q.ours = false
  | .setsid c => ∀ q ∈ s.procs, q.pid = c → q.ours = false
  | .disp c d => (∀ q ∈ s.procs, q.pid = c → q.ours = false) ∧ (c = s.me → d ≠ .ign)
  | .fork c _ => c ≠ s.me
  | _ => True

/-- All actions of a run are such. -/
def AllTame (s : State) (as : List Act) : Prop := ∀ pre a post t, as = pre ++ a :: post → Runs s pre t → Tame t a

end Verif.Spec.Signals
