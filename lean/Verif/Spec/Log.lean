import Verif.Model.LogFile

/-!
# Vocabulary for statements about log contents (specification side)
-/

namespace Verif.Spec
open Verif

/-- `e` is a Ready, Started or Finished entry of key `k`. -/
def about (k : String) : LogEntry → Bool
  | .ready r => r.key == k
  | .started s => s.key == k
  | .finished f => f.key == k
  | _ => false

/-- The Ready/Started/Finished entries of key `k`, in file order. -/
def history (k : String) (es : List LogEntry) : List LogEntry := es.filter (about k)

/-- Is it a Ready entry? -/
def isReady : LogEntry → Bool | .ready _ => true | _ => false
/-- Is it a Started entry? -/
def isStarted : LogEntry → Bool | .started _ => true | _ => false
/-- Is it a Finished entry? -/
def isFinished : LogEntry → Bool | .finished _ => true | _ => false

/-- The log protocol: among the entries of each key, a Started entry directly follows a Ready entry and a Finished
entry directly follows a Started entry. -/
def Protocol (es : List LogEntry) : Prop :=
  ∀ k pre e post, history k es = pre ++ e :: post →
    (isStarted e = true → ∃ p, pre.getLast? = some p ∧ isReady p = true) ∧
    (isFinished e = true → ∃ p, pre.getLast? = some p ∧ isStarted p = true)

/-- All headers have the supported version and all have the same workflow key. -/
def HeadersOk (es : List LogEntry) : Prop :=
  (∀ h, LogEntry.header h ∈ es → h.version = 4) ∧
  (∀ h h', LogEntry.header h ∈ es → LogEntry.header h' ∈ es → h.workflowKey = h'.workflowKey)

/-- The payload of a Ready entry. -/
def ready? : LogEntry → Option ReadyEntry | .ready r => some r | _ => none

/-- The last Ready entry of a list. -/
def lastReady (l : List LogEntry) : Option ReadyEntry := (l.filterMap ready?).getLast?

/-- The last header of a list. -/
def lastHeader (l : List LogEntry) : Option HeaderEntry :=
  (l.filterMap (fun e => match e with | .header h => some h | _ => none)).getLast?

/-- What a log says about a key, read off its last entry and its last Ready entry. -/
def statusOf (k : String) (es : List LogEntry) : Option RuncountStatus :=
  match (history k es).getLast?, lastReady (history k es) with
  | some (.ready _), some r => some (.ready r.runcount r.storageRoot)
  | some (.started _), some r => some (.started r.runcount r.storageRoot)
  | some (.finished f), some r => some (.finished r.runcount r.storageRoot (decide (f.status = 0)))
  | _, _ => none

/-- The object in memory says about every key what its file says, and the file follows the protocol. -/
structure Consistent (lf : LogFile) : Prop where
  protocol : Protocol lf.entries
  status : ∀ k, lf.mem.runcounts k = statusOf k lf.entries

end Verif.Spec
