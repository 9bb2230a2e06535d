import Verif.Model.Json
import Verif.Model.Snapshot
import Verif.Spec.LogBytes

/-!
# `load_logfile` and `write_logfile` (pylib.rs:396-420)

On the bytes of the files. Not modelled: the conversion of entries to Python values and back (pythonize), the lock.
-/

namespace Verif.Copy
open Verif Verif.Json

/-- `load_logfile(path, "all")` (pylib.rs:398-408, logfile2.rs:571-593). -/
def loadAll (bs : List UInt8) : Res ReadError (List LogEntry) := readBytes bs

/-- `load_logfile(path, "current,outdated")` (pylib.rs:401, logfile2.rs:468-569). -/
def loadBoth (bs : List UInt8) : Res ReadError (List LogEntry × List LogEntry) :=
  (readBytes bs).bind (fun es => lift (Snapshot.currentAndOutdated es))

/-- `write_logfile(path, es)` (pylib.rs:410-420) on a file with bytes `bs` (none if there is no file): the log is opened, and the entries are
appended at the end, where reading has stopped. If a write panics the entries before it are in the file; this is left out. -/
def writeLogfile (bs : List UInt8) (dir : String) (es : List LogEntry) : Res ReadError (List UInt8) :=
  (openBytes bs dir).bind (fun lf => (lift (lf.writeAll es)).bind (fun _ => .ok (bs ++ fileOf es)))

end Verif.Copy
