import Verif.Model.Base

/-!
# The lock on the log (`LogFile::new`, `Drop for LogFile`) and the log file under it

Any number of openers, numbered by naturals; each system call is one action. The log is a list of equally long records; a
session writes at its own file offset, since the file is not opened in append mode (logfile2.rs:199-203).
-/

namespace Verif.Lock

/-- An opener. `opened i`: has opened (or created) the lock file, inode `i` (logfile2.rs:188-191); `holding i pos buf`: has
locked it (192), read the log up to offset `pos` (204; 278-294 when writing) and has `buf` in its write buffer; `dropping`:
`drop` has removed the lock file (457), the fields (`f` with its buffer, then `lockf`, declared in this order at 155-157) are
still to be dropped. Whether `new` failed is not kept: the opener is then `idle` again. -/
inductive Proc where
  | idle
  | opened (ino : Nat)
  | holding (ino pos : Nat) (buf : List Nat)
  | dropping (ino pos : Nat) (buf : List Nat)
deriving DecidableEq, Repr

/-- The file system: the inode named `.wrk.lock`, if any, the next fresh inode, the owner of the exclusive lock of each
inode (`flock`), the log; and the openers (logfile2.rs:185-211, 454-460; operating system). -/
structure State where
  path : Option Nat
  next : Nat
  lock : Nat → Option Nat
  file : List Nat
  procs : Nat → Proc

/-- Nothing there yet. No counterpart in the code. -/
def init : State := ⟨none, 0, fun _ => none, [], fun _ => .idle⟩

/-- Function update. No counterpart in the code: openers are numbered here. -/
def upd {α : Type} (f : Nat → α) (i : Nat) (a : α) : Nat → α := fun j => if j = i then a else f j

/-- `write(2)` of records at an offset: overwrites what is there, extends the file if necessary. Operating system, no counterpart in the code. -/
def writeAt (file : List Nat) (pos : Nat) (buf : List Nat) : List Nat :=
  file.take pos ++ buf ++ file.drop (pos + buf.length)

/-- Actions of opener `p`: open the lock file; lock it; write a record (into the buffer); flush; `drop`, first half: remove
the lock file; second half: flush the buffer, close, which releases the lock; the process dies (no flush, no removal)
(logfile2.rs:185-278, 425-427, 454-460). -/
inductive Act where
  | openLock (p : Nat)
  | tryLock (p : Nat)
  | write (p x : Nat)
  | flush (p : Nat)
  | unlink (p : Nat)
  | release (p : Nat)
  | die (p : Nat)
deriving DecidableEq, Repr

/-- The transition function; an impossible action changes nothing. `openLock`: logfile2.rs:187-191; `tryLock`: 192 (fails if
somebody has the lock of this inode; the inode was opened before, and is the one locked even if the name is gone), and
194-211 (creating the object, reading the log to its end); `write`: 213-277 into the buffer; `flush`: 425-427; `unlink`:
457; `release`: the drop of the fields `f` and `lockf`; `die`: the kernel closes the files. -/
def step (s : State) : Act → State
  | .openLock p =>
    match s.procs p with
    | .idle =>
      match s.path with
      | some i => { s with procs := upd s.procs p (.opened i) }
      | none => { s with path := some s.next, next := s.next + 1, procs := upd s.procs p (.opened s.next) }
    | _ => s
  | .tryLock p =>
    match s.procs p with
    | .opened i =>
      match s.lock i with
      | some _ => { s with procs := upd s.procs p .idle }
      | none => { s with lock := upd s.lock i (some p), procs := upd s.procs p (.holding i s.file.length []) }
    | _ => s
  | .write p x =>
    match s.procs p with
    | .holding i pos buf => { s with procs := upd s.procs p (.holding i pos (buf ++ [x])) }
    | _ => s
  | .flush p =>
    match s.procs p with
    | .holding i pos buf =>
      { s with file := writeAt s.file pos buf, procs := upd s.procs p (.holding i (pos + buf.length) []) }
    | _ => s
  | .unlink p =>
    match s.procs p with
    | .holding i pos buf => { s with path := none, procs := upd s.procs p (.dropping i pos buf) }
    | _ => s
  | .release p =>
    match s.procs p with
    | .dropping i pos buf =>
      { s with file := writeAt s.file pos buf, lock := upd s.lock i none, procs := upd s.procs p .idle }
    | _ => s
  | .die p =>
    match s.procs p with
    | .idle => s
    | .opened _ => { s with procs := upd s.procs p .idle }
    | .holding i _ _ => { s with lock := upd s.lock i none, procs := upd s.procs p .idle }
    | .dropping i _ _ => { s with lock := upd s.lock i none, procs := upd s.procs p .idle }

/-- A schedule. No counterpart in the code: an interleaving. -/
def run (s : State) (acts : List Act) : State := acts.foldl step s

end Verif.Lock
