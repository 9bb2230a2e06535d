import Verif.Model.Json

/-!
# The bytes of the log (specification side)
-/

namespace Verif.Json
open Verif

/-- What the types of the fields guarantee of an entry (`u32`, `i32`, `HashMap`; a time of a `SystemTime` after 1970). -/
def Writable : LogEntry → Prop
  | .header h => h.version < 4294967296 ∧ h.pid < 4294967296 ∧ h.time.secs < 9223372036854775808 ∧ h.time.nanos < 1000000000
  | .ready r => r.runcount < 4294967296 ∧ r.storageRoot < 4294967296 ∧ r.time.secs < 9223372036854775808 ∧
      r.time.nanos < 1000000000
  | .started s => s.pid < 4294967296 ∧ s.time.secs < 9223372036854775808 ∧ s.time.nanos < 1000000000
  | .finished f => -2147483648 ≤ f.status ∧ f.status < 2147483648 ∧ f.time.secs < 9223372036854775808 ∧
      f.time.nanos < 1000000000 ∧ ∀ m ∈ f.values, (m.map (·.1)).Nodup
  | .backref _ => True

/-- The bytes of a file to which the entries `es` were written. -/
def fileOf (es : List LogEntry) : List UInt8 := es.flatMap lineBytes

/-- Opening a file given by its entries, with the errors of opening one given by its bytes. -/
def lift {α : Type} : Res LogfileError α → Res ReadError α
  | .ok a => .ok a
  | .err e => .err (.log e)
  | .panic m => .panic m

/-- Name of the variant and fields of an entry as they are written. -/
def written (e : LogEntry) : String × List (String × Json) :=
  match toJson e with
  | .obj [(n, .obj l)] => (n, l)
  | _ => ("", [])

/-- The fields that may be missing in a log (logfile2.rs:38, 49, 60, 69), with the names of their variants. -/
def mayMiss : List (String × String) :=
  [("Header", "storage_roots"), ("Ready", "r"), ("Started", "slurm_jobid"), ("Finished", "values")]

/-- The entry with its optional field as if not there. -/
def defaulted : LogEntry → LogEntry
  | .header h => .header { h with storageRoots := [] }
  | .ready r => .ready { r with storageRoot := 0 }
  | .started s => .started { s with slurmJobid := "" }
  | .finished f => .finished { f with values := [] }
  | .backref b => .backref b

mutual
/-- No numbers with fraction or exponent. -/
def noReal : Json → Bool
  | .real => false
  | .arr l => noReals l
  | .obj l => noRealFields l
  | _ => true
/-- In a list. -/
def noReals : List Json → Bool
  | [] => true
  | v :: l => noReal v && noReals l
/-- In fields. -/
def noRealFields : List (String × Json) → Bool
  | [] => true
  | (_, v) :: l => noReal v && noRealFields l
end

end Verif.Json
