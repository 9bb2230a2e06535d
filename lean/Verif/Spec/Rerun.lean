import Verif.Spec.World

/-!
# Several `execute` calls in one session (specification side)
-/

namespace Verif.World
open Verif

/-- In the part of the log after its last header, that is, in the last session, the task with key `k` was taken up (a Ready
entry) or its result was reused (a Backref entry). -/
def Taken (k : String) (es : List LogEntry) : Prop :=
  ∃ pre e post, es = pre ++ e :: post ∧ (∀ x ∈ post, ∀ h, x ≠ .header h) ∧
    ((∃ r, e = .ready r ∧ r.key = k) ∨ e = .backref ⟨k⟩)

/-- The runcounts of the Ready entries of key `k`, in file order. -/
def readyCounts (k : String) (es : List LogEntry) : List Nat :=
  es.filterMap (fun e => match e with | .ready r => if r.key = k then some r.runcount else none | _ => none)

/-- The number of attempts of key `k` (Started entries). -/
def startsOf (k : String) (es : List LogEntry) : Nat :=
  es.countP (fun e => match e with | .started x => x.key == k | _ => false)

end Verif.World
