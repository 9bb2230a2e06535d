import Verif.Model.Mirror
import Verif.Model.Json

/-!
# Failing writes to the log file

`LogFile` writes through a `BufReaderWriterSeq` (crate bufreaderwriter, external), which when writing is a `BufWriter` of std with its default capacity. An entry is
written in pieces by `serde_json::to_writer` (external; here: any pieces that make up its text), then the newline. The operating system answers as it likes
(`Verif.Mirror.Ans`).
-/

namespace Verif.LogIo
open Verif Verif.Json Verif.Mirror

/-- `Write::write_all` of std (logfile2.rs:274-275), at most `fuel` turns. -/
def writeAll (cap : Nat) : Nat → Buf → Bytes → Buf × Io
  | _, f, [] => (f, .ok 0)
  | 0, f, _ :: _ => (f, .stuck)
  | fuel + 1, f, x :: xs =>
    match f.write cap (x :: xs) with
    | (f, .ok 0) => (f, .zero)
    | (f, .ok (n + 1)) => writeAll cap fuel f ((x :: xs).drop (n + 1))
    | (f, .intr) => writeAll cap fuel f (x :: xs)
    | r => r

/-- `serde_json::to_writer` and the newline (logfile2.rs:274-275): piece by piece, until one fails. -/
def pieces (cap : Nat) : Buf → List Bytes → Buf × Io
  | f, [] => (f, .ok 0)
  | f, b :: bs =>
    match writeAll cap (b.length + f.fd.plan.length) f b with
    | (f, .ok _) => pieces cap f bs
    | r => r

/-- An open log (logfile2.rs:154-161): what is in memory, and the file. `lf.entries` are all entries whose writing was begun. -/
structure Log where
  lf : LogFile
  f : Buf

/-- What is done with an open log (logfile2.rs:213-278, 425-427). -/
inductive Op where
  /-- `ps` are the pieces in which `serde_json` writes the entry. -/
  | write (e : LogEntry) (ps : List Bytes)
  | flush

/-- `write` (logfile2.rs:213-277): memory first, whatever becomes of the bytes; `flush` (logfile2.rs:425-427). -/
def step (cap : Nat) (l : Log) : Op → Res LogfileError (Log × Io)
  | .write e ps =>
    match l.lf.write e with
    | .ok lf => .ok (⟨lf, (pieces cap l.f (ps ++ [[10]])).1⟩, (pieces cap l.f (ps ++ [[10]])).2)
    | .err x => .err x
    | .panic m => .panic m
  | .flush => .ok (⟨l.lf, l.f.flush.1⟩, l.f.flush.2)

/-- The file after the process was killed. No counterpart in the code. -/
def Log.killed (l : Log) : Bytes := l.f.fd.got

/-- The file after the log was dropped: `BufWriter` flushes, the result is ignored (logfile2.rs:454-460). -/
def Log.dropped (l : Log) : Bytes := l.f.flush.1.fd.got

end Verif.LogIo
