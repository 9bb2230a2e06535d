import Verif.Model.ExecGraph
import Verif.Model.Print

/-!
# Names of attempts
-/

namespace Verif.Names
open Verif

/-- `format!("{}.{}", key, runcount)` (pylib.rs:165). -/
def dirName (key : String) (runcount : Nat) : String := key ++ "." ++ String.ofList (Nat.toDigits 10 runcount)

/-- `PathBuf::join` on Unix (pylib.rs:165): an absolute path replaces the first one; otherwise a slash is added if there is none. -/
def join (base name : String) : String :=
  if name.toList.head? = some '/' then name
  else if base = "" ∨ base.toList.getLast? = some '/' then base ++ name
  else base ++ "/" ++ name

/-- The path `logfile_runcount` returns for a recorded success (pylib.rs:156-167). -/
def path (d : TaskDir) : String := join d.root (dirName d.key d.runcount)

/-- What the line about a failed task says (sync.rs:449-456, constants.rs:1). -/
def failureLine (what key : String) (runcount : Nat) (display : String) : String :=
  String.join (Print.pieces (.failure what key runcount display))

end Verif.Names
