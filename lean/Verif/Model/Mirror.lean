import Verif.Model.Base

/-!
# logging.rs: console and mirror file

`rawlog!` writes to a `ConsoleAndFile`: the console (`grep_cli::stdout`, which on a terminal is the `Stdout` of std, i.e. a `LineWriter` of capacity
1024) and, if set, a `BufWriter` (capacity 8192) on the file `log.txt`. The writers of std are modelled after their documented source
(`std::io::buffered`): they decide how many bytes of a `write` are taken. The operating system answers every `write(2)` as it likes. Not
modelled here: stdout that is not a terminal (Model/Piped), the mutex (one call at a time here), poisoning (Model/Construct).
-/

namespace Verif.Mirror
open Verif

/-- Bytes (`&[u8]`, logging.rs:74). -/
abbrev Bytes := List UInt8

/-- Answer of the operating system to `write(2)`: it takes at most `n` bytes, or is interrupted by a signal, or fails.
Operating system, no counterpart in the code. -/
inductive Ans where
  | took (n : Nat)
  | intr
  | fail
deriving DecidableEq, Repr

/-- An open file: what was written through it, and the answers to the coming calls of `write(2)`; when these are used up everything is
taken. Operating system, no counterpart in the code. -/
structure Fd where
  got : Bytes
  plan : List Ans
deriving DecidableEq, Repr

/-- `io::Result<usize>`; `zero` is the error `WriteZero`; `stuck` never occurs (`Props.Mirror.never_stuck`). Standard library, no counterpart in the repo. -/
inductive Io where
  | ok (n : Nat)
  | intr
  | zero
  | fail
  | stuck
deriving DecidableEq, Repr

/-- `write(2)`. Operating system, no counterpart in the code. -/
def Fd.write (f : Fd) (b : Bytes) : Fd × Io :=
  match f.plan with
  | [] => (⟨f.got ++ b, []⟩, .ok b.length)
  | .took n :: p => (⟨f.got ++ b.take n, p⟩, .ok (b.take n).length)
  | .intr :: p => (⟨f.got, p⟩, .intr)
  | .fail :: p => (⟨f.got, p⟩, .fail)

/-- A buffered writer: the file and the bytes not yet written. Standard library, no counterpart in the repo. -/
structure Buf where
  fd : Fd
  pend : Bytes
deriving DecidableEq, Repr

/-- `BufWriter::flush_buf` of std (logging.rs:49, 85, 87): writes until the buffer is empty; what has been written leaves the buffer also when there is an
error. -/
def flushGo : List Ans → Bytes → Bytes → Buf × Io
  | plan, got, [] => (⟨⟨got, plan⟩, []⟩, .ok 0)
  | [], got, x :: xs => (⟨⟨got ++ x :: xs, []⟩, []⟩, .ok 0)
  | .took 0 :: p, got, x :: xs => (⟨⟨got, p⟩, x :: xs⟩, .zero)
  | .took (n + 1) :: p, got, x :: xs => flushGo p (got ++ (x :: xs).take (n + 1)) ((x :: xs).drop (n + 1))
  | .intr :: p, got, x :: xs => flushGo p got (x :: xs)
  | .fail :: p, got, x :: xs => (⟨⟨got, p⟩, x :: xs⟩, .fail)

/-- `flush` of a `BufWriter` or `LineWriter` on a file (logging.rs:85, 87). -/
def Buf.flush (f : Buf) : Buf × Io := flushGo f.fd.plan f.fd.got f.pend

/-- The end of `BufWriter::write` (`write_cold`), when the buffer has been flushed if necessary: long texts go to the file directly, and then only as much of them
as it takes. Standard library, no counterpart in the repo. -/
def Buf.put (cap : Nat) (f : Buf) (b : Bytes) : Buf × Io :=
  if b.length ≥ cap then (⟨(f.fd.write b).1, f.pend⟩, (f.fd.write b).2)
  else (⟨f.fd, f.pend ++ b⟩, .ok b.length)

/-- `BufWriter::write` of std (logging.rs:78). -/
def Buf.write (cap : Nat) (f : Buf) (b : Bytes) : Buf × Io :=
  if b.length < cap - f.pend.length then (⟨f.fd, f.pend ++ b⟩, .ok b.length)
  else if b.length > cap - f.pend.length then
    match f.flush with
    | (f, .ok _) => f.put cap b
    | r => r
  else f.put cap b

/-- The newline. Standard library, no counterpart in the repo. -/
def nl : UInt8 := 10

/-- A text up to and including its last newline, and what follows. Standard library, no counterpart in the repo. -/
def splitLast (b : Bytes) : Bytes × Bytes :=
  let t := (b.reverse.takeWhile (· != nl)).reverse
  (b.take (b.length - t.length), t)

/-- What `LineWriterShim::write` puts into the (empty) buffer when `n` bytes of the lines `ls` were taken and `tail` follows. `eager`: up to Rust 1.77 the
buffer is filled with the beginning of a tail that does not fit; later versions leave such a tail alone. -/
def lineRest (eager : Bool) (cap n : Nat) (ls tail : Bytes) : Bytes :=
  if n ≥ ls.length then (if tail.length ≥ cap then (if eager then tail.take cap else []) else tail)
  else if ls.length - n ≤ cap then ls.drop n
  else
    let area := ((ls ++ tail).drop n).take cap
    if nl ∈ area then (splitLast area).1 else area

/-- `LineWriter::write` of std (`LineWriterShim`), the console on a terminal (logging.rs:76). -/
def Buf.lineWrite (eager : Bool) (cap : Nat) (f : Buf) (b : Bytes) : Buf × Io :=
  if nl ∈ b then
    match f.flush with
    | (f, .ok _) =>
      match f.fd.write (splitLast b).1 with
      | (fd, .ok n) =>
        if n = 0 then (⟨fd, f.pend⟩, .ok 0)
        else
          (⟨fd, f.pend ++ lineRest eager cap n (splitLast b).1 (splitLast b).2⟩,
            .ok (n + (lineRest eager cap n (splitLast b).1 (splitLast b).2).length))
      | (fd, e) => (⟨fd, f.pend⟩, e)
    | r => r
  else if f.pend.getLast? = some nl then
    match f.flush with
    | (f, .ok _) => f.write cap b
    | r => r
  else f.write cap b

/-- Capacity of the buffer of std's `Stdout`. Standard library, no counterpart in the repo. -/
def consoleCap : Nat := 1024

/-- Default capacity of a `BufWriter` (logging.rs:59, 97). -/
def fileCap : Nat := 8192

/-- `ConsoleAndFile` (logging.rs:47-52). -/
structure Dual where
  eager : Bool
  console : Buf
  file : Option Buf
deriving DecidableEq, Repr

/-- `write` (logging.rs:74-81): the console's count is ignored. -/
def Dual.write (d : Dual) (b : Bytes) : Dual × Io :=
  match d.console.lineWrite d.eager consoleCap b with
  | (c, .ok _) =>
    match d.file with
    | none => ({ d with console := c }, .ok 0)
    | some f => ({ d with console := c, file := some (f.write fileCap b).1 }, (f.write fileCap b).2)
  | (c, e) => ({ d with console := c }, e)

/-- `Write::write_all` of std, at most `fuel` turns. Standard library. Called by `write_fmt` (logging.rs:171-176). -/
def writeAll : Nat → Dual → Bytes → Dual × Io
  | _, d, [] => (d, .ok 0)
  | 0, d, _ :: _ => (d, .stuck)
  | fuel + 1, d, x :: xs =>
    match d.write (x :: xs) with
    | (d, .ok 0) => (d, .zero)
    | (d, .ok (n + 1)) => writeAll fuel d ((x :: xs).drop (n + 1))
    | (d, .intr) => writeAll fuel d (x :: xs)
    | r => r

/-- Answers still to come. No counterpart in the code. -/
def Dual.answers (d : Dual) : Nat := d.console.fd.plan.length + (match d.file with | some f => f.fd.plan.length | none => 0)

/-- `_rawlog` (logging.rs:171-176): `write_fmt` calls `write_all` for one piece of the text after the other, and stops at an error. -/
def rawlog (d : Dual) : List Bytes → Dual × Io
  | [] => (d, .ok 0)
  | b :: bs =>
    match writeAll (b.length + d.answers + 1) d b with
    | (d, .ok _) => rawlog d bs
    | r => r

/-- `flush` (logging.rs:83-90), `flush_logging` (119-124). -/
def Dual.flush (d : Dual) : Dual × Io :=
  match d.console.flush with
  | (c, .ok _) =>
    match d.file with
    | none => ({ d with console := c }, .ok 0)
    | some f => ({ d with console := c, file := some f.flush.1 }, f.flush.2)
  | (c, e) => ({ d with console := c }, e)

/-- The process: the mirror files that are closed, the path of the current one, the writer (logging.rs:47-52, 93-105). -/
structure Proc where
  closed : String → Fd
  cur : Option String
  dual : Dual

/-- Dropping the old writer flushes it; the code ignores the outcome, which is returned here for the theorems (logging.rs:97, `Drop` of
`BufWriter`). -/
def Proc.close (s : Proc) : Proc × Io :=
  match s.cur, s.dual.file with
  | some p, some f =>
    ({ s with
        closed := fun q => if q = p then f.flush.1.fd else s.closed q
        cur := none
        dual := { s.dual with file := none } }, f.flush.2)
  | _, _ => (s, .ok 0)

/-- What a process does with the logging: construct a graph (`init_logging` with the path of its `log.txt`, pylib.rs:82-83, or none at import, 428), print, flush. -/
inductive Op where
  | setPath (p : Option String)
  | raw (pieces : List Bytes)
  | flush
deriving DecidableEq, Repr

/-- One operation (logging.rs:93-106, 119-155, 171-176). Simplification: `open` does not fail. -/
def Proc.step (s : Proc) : Op → Proc × Io
  | .setPath none => (s, .ok 0)
  | .setPath (some p) =>
    ({ s.close.1 with
        cur := some p
        dual := { s.close.1.dual with file := some ⟨s.close.1.closed p, []⟩ } }, s.close.2)
  | .raw ps => ({ s with dual := (rawlog s.dual ps).1 }, (rawlog s.dual ps).2)
  | .flush => ({ s with dual := s.dual.flush.1 }, s.dual.flush.2)

/-- Operations one after the other, and their outcomes. No counterpart in the code: calls one after the other. -/
def Proc.run : Proc → List Op → Proc × List Io
  | s, [] => (s, [])
  | s, o :: os => (((s.step o).1.run os).1, (s.step o).2 :: ((s.step o).1.run os).2)

end Verif.Mirror
