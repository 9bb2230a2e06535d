import Verif.Model.LogIo
import Verif.Spec.Mirror
import Verif.Spec.LogBytes

/-!
# Vocabulary for failing writes to the log file (specification side)
-/

namespace Verif.LogIo
open Verif Verif.Json Verif.Mirror

/-- The pieces make up the text of the entry. -/
def Op.whole : Op → Prop
  | .write e ps => ps.flatten = utf8 (entryText e)
  | .flush => True

/-- The entry an operation writes. -/
def Op.entry : Op → Option LogEntry
  | .write e _ => some e
  | .flush => none

/-- Operations in a row, and their results; each goes on whether or not the one before it has failed. -/
inductive Runs (cap : Nat) : Log → List (Op × Io) → Log → Prop
  | nil (l : Log) : Runs cap l [] l
  | cons {l l1 l' : Log} {op : Op} {io : Io} {ops : List (Op × Io)} : op.whole → step cap l op = .ok (l1, io) → Runs cap l1 ops l' →
      Runs cap l ((op, io) :: ops) l'

/-- The entries written. -/
def entries (ops : List (Op × Io)) : List LogEntry := ops.filterMap (fun x => x.1.entry)

/-- All operations succeeded. -/
def AllGood (ops : List (Op × Io)) : Prop := ∀ x ∈ ops, x.2.good = true

end Verif.LogIo
