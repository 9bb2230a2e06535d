import Verif.Model.Construct

/-! # Spec: what a constructor needs, and the workflow key -/

namespace Verif.Construct
open Verif Verif.Json

/-- The steps up to the mirror file succeed: the number of slots is known, the lock is free and can be taken, the log can be read. -/
structure Reads (s : Proc) (a : Args) (e : Env) (n : Nat) (lf : LogFile) : Prop where
  slots : (0 ≤ a.numParallel ∧ n = a.numParallel.toNat) ∨ (a.numParallel < 0 ∧ e.cores = some n ∧ n < 2 ^ 31)
  lock : e.lockOpens = true ∧ s.locked a.path.1 = false
  machine : e.argsUnicode = true ∧ e.cwd = true ∧ e.lockWrites = true ∧ e.logOpens = true ∧ e.logReads = true ∧ e.canonical = true
  log : openBytes ((s.logs a.path).getD []) a.path.1 = .ok lf

/-- The workflow key: that of the log; a new log gets it from the callback, or the default. -/
def KeyOf (lf : LogFile) (a : Args) (key : String) : Prop :=
  (∃ h, LogEntry.header h ∈ lf.entries ∧ h.workflowKey = key) ∨
    ((∀ h, LogEntry.header h ∉ lf.entries) ∧ (a.newKeyFn = some (.ok key) ∨ a.newKeyFn = none ∧ key = "default-key-value"))

end Verif.Construct
