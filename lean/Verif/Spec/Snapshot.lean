import Verif.Spec.Log

/-!
# Vocabulary for statements about `load_logfile` (specification side)
-/

namespace Verif.Spec
open Verif

/-- The key of a Ready, Started, Finished or Backref entry. -/
def keyOf : LogEntry → Option String
  | .header _ => none
  | .ready r => some r.key
  | .started s => some s.key
  | .finished f => some f.key
  | .backref b => some b.key

/-- Keys of the Backref entries, in order. -/
def backrefKeys (es : List LogEntry) : List String :=
  es.filterMap (fun e => match e with | .backref b => some b.key | _ => none)

/-- Is it a Backref entry? -/
def isBackref : LogEntry → Bool | .backref _ => true | _ => false

/-- Is it a header? -/
def isHeader : LogEntry → Bool | .header _ => true | _ => false

/-- `e`, followed by the entries `later`, belongs to the last attempt of a key in `B`: it is a Ready, Started or
Finished entry of such a key and no Ready entry of that key follows. -/
def InLastAttempt (B : List String) (e : LogEntry) (later : List LogEntry) : Prop :=
  ∃ k ∈ B, about k e = true ∧ ∀ x ∈ later, ¬ (isReady x = true ∧ about k x = true)

instance (B : List String) (e : LogEntry) (later : List LogEntry) : Decidable (InLastAttempt B e later) := by
  unfold InLastAttempt; infer_instance

/-- The entries of the last attempts of the keys in `B`, in file order. -/
def lastAttempts (B : List String) : List LogEntry → List LogEntry
  | [] => []
  | e :: later => if InLastAttempt B e later then e :: lastAttempts B later else lastAttempts B later

/-- The other entries, in file order. -/
def otherEntries (B : List String) : List LogEntry → List LogEntry
  | [] => []
  | e :: later => if InLastAttempt B e later then otherEntries B later else e :: otherEntries B later

end Verif.Spec
