import Verif.Spec.World
import Verif.Spec.Log

/-!
# Vocabulary for statements about storage roots (specification side)
-/

namespace Verif.World
open Verif Spec

/-- Number of storage roots of the session that wrote last: those of the newest header. -/
def rootCount (es : List LogEntry) : Nat :=
  match lastHeader es with
  | some h => h.storageRoots.length
  | none => 0

/-- Key `k` has succeeded, and when it was last made ready it was given storage root number `i`. -/
def SucceededUnder (es : List LogEntry) (k : String) (i : Nat) : Prop :=
  ∃ pre r post f, es = pre ++ .ready r :: post ∧ r.key = k ∧ r.storageRoot = i ∧
    (∀ r', LogEntry.ready r' ∈ post → r'.key ≠ k) ∧ LogEntry.finished f ∈ post ∧ f.key = k ∧ f.status = 0

/-- Sessions have at least `m` storage roots and tasks are given one of the first `m`. -/
def Act.fits (m : Nat) : Act → Prop
  | .open _ roots _ _ => m ≤ roots.length
  | .add cmd _ => cmd.storageRoot < m
  | _ => True

end Verif.World
