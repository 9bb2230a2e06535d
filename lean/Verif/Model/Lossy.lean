import Verif.Model.Print
import Verif.Model.Fd3
import Verif.Model.Postcard

/-!
# The output of a task on its way to the log (localrunner.rs:213-246, execgraph-remote.rs:480-491, server.rs:478-489)

What a task writes to stdout and stderr is collected as bytes (`Model/ChildIo`), made a text with `String::from_utf8_lossy`, sent to the server by
remote runners, and printed when the report is handled (`Model/Print`).
-/

namespace Verif.Lossy
open Verif Verif.Print

/-- `safe_get`: a byte, or 0 behind the end. Standard library (core/str/lossy.rs), used at localrunner.rs:241, 245. -/
def get (t : List UInt8) (i : Nat) : Nat := ((t[i]?).getD 0).toNat

/-- `byte & 192 == TAG_CONT_U8`. Standard library (core/str/lossy.rs), used at localrunner.rs:241, 245. -/
def cont (n : Nat) : Bool := n / 64 == 2

/-- `utf8_char_width`. Standard library (core/str/validations.rs), used at localrunner.rs:241, 245. -/
def width (b : Nat) : Nat :=
  if b < 0x80 then 1 else if b < 0xC2 then 0 else if b < 0xE0 then 2 else if b < 0xF0 then 3 else if b < 0xF5 then 4 else 0

/-- The second bytes allowed in characters of three and four bytes. Standard library (core/str/lossy.rs), used at localrunner.rs:241, 245. -/
def second (b c : Nat) : Bool :=
  (b == 0xE0 && (0xA0 ≤ c && c ≤ 0xBF)) || ((0xE1 ≤ b && b ≤ 0xEC) && (0x80 ≤ c && c ≤ 0xBF)) ||
  (b == 0xED && (0x80 ≤ c && c ≤ 0x9F)) || ((0xEE ≤ b && b ≤ 0xEF) && (0x80 ≤ c && c ≤ 0xBF)) ||
  (b == 0xF0 && (0x90 ≤ c && c ≤ 0xBF)) || ((0xF1 ≤ b && b ≤ 0xF3) && (0x80 ≤ c && c ≤ 0xBF)) ||
  (b == 0xF4 && (0x80 ≤ c && c ≤ 0x8F))

/-- One pass of the loop of `Utf8Chunks::next`: whether `b` begins a character, and how many of the following bytes were accepted before the character was complete or the
next byte did not fit. Standard library (core/str/lossy.rs), used at localrunner.rs:241, 245. -/
def next (b : Nat) (t : List UInt8) : Bool × Nat :=
  if width b = 1 then (true, 0)
  else if width b = 2 then (if cont (get t 0) then (true, 1) else (false, 0))
  else if width b = 3 then
    if second b (get t 0) then (if cont (get t 1) then (true, 2) else (false, 1)) else (false, 0)
  else if width b = 4 then
    if second b (get t 0) then
      if cont (get t 1) then (if cont (get t 2) then (true, 3) else (false, 2)) else (false, 1)
    else (false, 0)
  else (false, 0)

/-- `String::from_utf8_lossy`: characters are taken over, everything else that was inspected becomes one U+FFFD. Valid bytes are pushed as they are; here they are decoded, which
does not fail (`Lossy.taken`). Each round uses up a byte, so that the number of bytes is enough for `fuel`. Standard library, used at localrunner.rs:241, 245. -/
def go : Nat → List UInt8 → List Char
  | 0, _ => []
  | _, [] => []
  | fuel + 1, b :: t =>
    let r := next b.toNat t
    (if r.1 then (Json.unutf8 (b :: t.take r.2)).getD [] else ['�']) ++ go fuel (t.drop r.2)

/-- `String::from_utf8_lossy` (localrunner.rs:241, 245). -/
def lossy (bs : List UInt8) : List Char := go bs.length bs

/-- `ChildOutput` (localrunner.rs:213-218). -/
structure Child where
  status : Fd3.ProcStatus
  stdout : List UInt8
  stderr : List UInt8
  fd3 : List UInt8

/-- `stdout_str`, `stderr_str` (localrunner.rs:240-246). -/
def text (bs : List UInt8) : String := String.ofList (lossy bs)

/-- The output in the report of a local task: `to_event` (localrunner.rs:221-230; status and values are in `Fd3.toEvent`). -/
def localReport (ch : Child) : Captured := ⟨text ch.stdout, text ch.stderr⟩

/-- The report of a remote runner (execgraph-remote.rs:480-491); `note`: `stderr_prefix`, the message about the time limit if SIGTERM was sent because of it (466). -/
def remoteReport (txn : UInt32) (note : Option String) (ch : Child) (more : Option Postcard.StartRequest) : Postcard.EndRequest :=
  ⟨txn, (Fd3.code ch.status).asI32, text ch.stdout, note.getD "" ++ text ch.stderr, Fd3.fd3Values ch.fd3.toByteArray, more⟩

/-- The last report of a runner that Slurm ends (execgraph-remote.rs:447-456). -/
def lastReport (txn : UInt32) (note : Option String) (message : String) : Postcard.EndRequest :=
  ⟨txn, -15, "", note.getD "" ++ message, [], none⟩

/-- The output in the event made of the request (server.rs:481-489). -/
def received (r : Postcard.EndRequest) : Captured := ⟨r.stdout, r.stderr⟩

/-- The bytes printed for the output of a task, in the order of the calls of `rawlog!` (sync.rs:460-467). -/
def shownBytes (o : Captured) : List UInt8 := (outLines o).flatMap (fun l => (pieces l).flatMap (fun p => Json.utf8 p.toList))

end Verif.Lossy
