import Verif.Model.Json

/-!
# The watcher of Slurm's error file (`async_watcher`, src/bin/execgraph-remote.rs:672-727)

A thread of the `notify` crate calls a closure for each inotify event; the closure reads the file and sends its text through a channel of
capacity 1, which `run_command` receives from while a task runs (execgraph-remote.rs:430). The file is only appended to. Events
other than modifications do nothing (692-693) and are left out; an error of the event stream, or of reading (695), is not modelled.
-/

namespace Verif.Watcher
open Verif.Json

/-- Does `w` occur in `s`? (`str::contains`, execgraph-remote.rs:705; and each alternative of the regular expression.) -/
def occurs (w : List Char) : List Char → Bool
  | [] => w.isEmpty
  | c :: s => w.isPrefixOf (c :: s) || occurs w s

/-- `FINAL_SLURM_ERROR_MESSAGE_STRINGS` (execgraph-remote.rs:28): the alternatives. -/
def finalWords : List String := ["CANCELLED", "FAILED", "ERROR"]

/-- The text if the buffer is not UTF-8 (execgraph-remote.rs:704). -/
def unreadable : String := "Unable to read slurm error file. Utf8 issue?"

/-- `from_utf8(&buffer).unwrap_or(..)` (execgraph-remote.rs:703-704). -/
def textOf (buffer : List UInt8) : List Char := (unutf8 buffer).getD unreadable.toList

/-- The condition for sending (execgraph-remote.rs:705). -/
def fires (s : List Char) : Bool := finalWords.any (fun w => occurs w.toList s) || occurs "Unable to read".toList s

/-- The file, the closure's buffer (execgraph-remote.rs:688), whether `watch` was called (716), the number of modification events that wait, the
text the closure is blocked with in `send` (708), the channel (682), the texts the runner received, and whether the receiver is gone. -/
structure State where
  file : List UInt8
  buffer : List UInt8
  watching : Bool
  events : Nat
  blocked : Option (List Char)
  chan : Option (List Char)
  got : List (List Char)
  closed : Bool
deriving DecidableEq, Repr

/-- The file has been opened (execgraph-remote.rs:687-688). -/
def init (file : List UInt8) : State := ⟨file, [], false, 0, none, none, [], false⟩

/-- What can happen (src/bin/execgraph-remote.rs:430-440, 673-727). -/
inductive Act where
  /-- Somebody appends to the file. inotify may merge the event with one that waits. -/
  | append (bs : List UInt8) (merged : Bool)
  /-- `watcher.watch` (execgraph-remote.rs:716). -/
  | watch
  /-- The closure is called for a modification (execgraph-remote.rs:690-714). -/
  | event
  /-- The blocked `send` (execgraph-remote.rs:706-711) goes on. -/
  | send
  /-- `notify_rx.recv()` (execgraph-remote.rs:430). -/
  | recv
  /-- `main` returns and drops the receiver. -/
  | close
deriving DecidableEq, Repr

/-- One step; `none` if it is not possible (src/bin/execgraph-remote.rs:430-440, 673-727). -/
def step (s : State) : Act → Option State
  | .append bs merged =>
    some { s with
      file := s.file ++ bs
      events := if s.watching then (if merged && 0 < s.events then s.events else s.events + 1) else s.events }
  | .watch => if s.watching then none else some { s with watching := true }
  | .event =>
    if s.events = 0 ∨ s.blocked ≠ none then none
    else
      /- `read_to_end` goes on where the last one ended (execgraph-remote.rs:695). -/
      let buffer := s.buffer ++ s.file.drop s.buffer.length
      let text := textOf buffer
      let s := { s with buffer := buffer, events := s.events - 1 }
      if fires text then
        if s.closed then some s
        else match s.chan with
          | none => some { s with chan := some text }
          | some _ => some { s with blocked := some text }
      else some s
  | .send =>
    match s.blocked, s.chan with
    | none, _ => none
    | some text, none => some { s with blocked := none, chan := if s.closed then none else some text }
    | some _, some _ => if s.closed then some { s with blocked := none } else none
  | .recv =>
    match s.chan with
    | none => none
    | some text => if s.closed then none else some { s with chan := none, got := s.got ++ [text] }
  | .close => if s.closed then none else some { s with closed := true }

/-- A sequence of steps. No counterpart in the code. -/
def run (s : State) : List Act → Option State
  | [] => some s
  | a :: as => (step s a).bind (fun s => run s as)

end Verif.Watcher
