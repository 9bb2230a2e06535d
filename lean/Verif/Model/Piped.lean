import Verif.Model.Mirror

/-!
# logging.rs: standard output that is not a terminal

If stdout is a file or a pipe, `grep_cli::stdout` (logging.rs:56) puts a `BufWriter` of 8192 bytes in front of the `Stdout` of std, which is still a `LineWriter` of 1024
bytes. The rest is as in Model/Mirror.
-/

namespace Verif.Mirror
open Verif

/-- The console: the bytes in the outer buffer, and std's `Stdout` (logging.rs:56; crates grep-cli, termcolor). -/
structure Piped where
  outer : Bytes
  inner : Buf
deriving DecidableEq, Repr

/-- `BufWriter::flush_buf` of std when the writer below is `Stdout`, at most `fuel` turns: what the inner writer takes leaves the buffer. Standard library, no
counterpart in the repo. -/
def drain (eager : Bool) : Nat → Bytes → Buf → Piped × Io
  | _, [], c => (⟨[], c⟩, .ok 0)
  | 0, x :: xs, c => (⟨x :: xs, c⟩, .stuck)
  | fuel + 1, x :: xs, c =>
    match c.lineWrite eager consoleCap (x :: xs) with
    | (c, .ok 0) => (⟨x :: xs, c⟩, .zero)
    | (c, .ok (n + 1)) => drain eager fuel ((x :: xs).drop (n + 1)) c
    | (c, .intr) => drain eager fuel (x :: xs) c
    | (c, e) => (⟨x :: xs, c⟩, e)

/-- `flush_buf` of the outer buffer. Standard library, no counterpart in the repo. -/
def Piped.drain (eager : Bool) (p : Piped) : Piped × Io := Mirror.drain eager (p.outer.length + p.inner.fd.plan.length) p.outer p.inner

/-- The end of `BufWriter::write` (`write_cold`): a long text goes to the inner writer directly, and then only as much of it as that takes. Standard library, no counterpart
in the repo. -/
def Piped.put (eager : Bool) (p : Piped) (b : Bytes) : Piped × Io :=
  if b.length ≥ fileCap then (⟨p.outer, (p.inner.lineWrite eager consoleCap b).1⟩, (p.inner.lineWrite eager consoleCap b).2)
  else (⟨p.outer ++ b, p.inner⟩, .ok b.length)

/-- `BufWriter::write` of std, the console that is not a terminal (logging.rs:76). -/
def Piped.write (eager : Bool) (p : Piped) (b : Bytes) : Piped × Io :=
  if b.length < fileCap - p.outer.length then (⟨p.outer ++ b, p.inner⟩, .ok b.length)
  else if b.length > fileCap - p.outer.length then
    match p.drain eager with
    | (p, .ok _) => p.put eager b
    | r => r
  else p.put eager b

/-- `flush` (logging.rs:85): both buffers. -/
def Piped.flush (eager : Bool) (p : Piped) : Piped × Io :=
  match p.drain eager with
  | (p, .ok _) => (⟨p.outer, p.inner.flush.1⟩, p.inner.flush.2)
  | r => r

/-- `ConsoleAndFile` (logging.rs:47-52), with a mirror file. -/
structure PDual where
  eager : Bool
  console : Piped
  file : Buf
deriving DecidableEq, Repr

/-- `write` (logging.rs:74-81): the console's count is ignored. -/
def PDual.write (d : PDual) (b : Bytes) : PDual × Io :=
  match d.console.write d.eager b with
  | (c, .ok _) => (⟨d.eager, c, (d.file.write fileCap b).1⟩, (d.file.write fileCap b).2)
  | (c, e) => (⟨d.eager, c, d.file⟩, e)

/-- `Write::write_all` of std, at most `fuel` turns. Standard library. Called by `write_fmt` (logging.rs:171-176). -/
def PDual.writeAll : Nat → PDual → Bytes → PDual × Io
  | _, d, [] => (d, .ok 0)
  | 0, d, _ :: _ => (d, .stuck)
  | fuel + 1, d, x :: xs =>
    match d.write (x :: xs) with
    | (d, .ok 0) => (d, .zero)
    | (d, .ok (n + 1)) => PDual.writeAll fuel d ((x :: xs).drop (n + 1))
    | (d, .intr) => PDual.writeAll fuel d (x :: xs)
    | r => r

/-- `_rawlog` (logging.rs:171-176), one piece after the other. -/
def PDual.rawlog (d : PDual) : List Bytes → PDual × Io
  | [] => (d, .ok 0)
  | b :: bs =>
    match PDual.writeAll (b.length + d.console.inner.fd.plan.length + d.file.fd.plan.length + 1) d b with
    | (d, .ok _) => d.rawlog bs
    | r => r

/-- `flush` (logging.rs:83-90). -/
def PDual.flush (d : PDual) : PDual × Io :=
  match d.console.flush d.eager with
  | (c, .ok _) => (⟨d.eager, c, d.file.flush.1⟩, d.file.flush.2)
  | (c, e) => (⟨d.eager, c, d.file⟩, e)

end Verif.Mirror
