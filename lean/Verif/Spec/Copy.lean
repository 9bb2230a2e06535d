import Verif.Model.Copy
import Verif.Spec.Snapshot

/-!
# Vocabulary for statements about copying logs (specification side)
-/

namespace Verif.Copy
open Verif Spec

/-- Has the log an entry (Ready, Started or Finished) of key `k`? -/
def Mentions (k : String) (es : List LogEntry) : Prop := ∃ e ∈ es, about k e = true

instance (k : String) (es : List LogEntry) : Decidable (Mentions k es) := by unfold Mentions; infer_instance

/-- The entries after the last header. -/
def newest : List LogEntry → List LogEntry
  | [] => []
  | e :: es => if es.any isHeader then newest es else if isHeader e then es else e :: es

/-- Key `k` takes part in the newest session: an entry after the last header (Ready, Started, Finished or Backref) is about it. -/
def InNewest (k : String) (es : List LogEntry) : Prop := ∃ e ∈ newest es, keyOf e = some k

instance (k : String) (es : List LogEntry) : Decidable (InNewest k es) := by unfold InNewest; infer_instance

end Verif.Copy
