import Verif.Model.World
import Verif.Spec.LogBytes

/-!
# Histories over the bytes of the log file

The histories of `Verif.Model.World`, but the file consists of bytes, and the end of a process can cut it anywhere after what
was flushed. The constructor reads the bytes (`Verif.Model.Json`).
-/

namespace Verif.Disk
open Verif Verif.Json

/-- The bytes of the file - while a process runs, those it found when it opened it - and the process; `world.file` is what the process
has read (logfile2.rs:185-211), and nothing if there is no process. -/
structure State where
  bytes : List UInt8
  world : World.World

/-- Actions (pylib.rs:62-121, 260-367; the end of a process has no counterpart in the code). -/
inductive Act where
  /-- Anything but the end of the process (see `Verif.World.Act`). -/
  | world (a : World.Act)
  /-- The process ends, and the file has `n` bytes. -/
  | stop (n : Nat)

/-- An empty file. As `OpenOptions::create` makes it (logfile2.rs:199-203). -/
def init : State := ⟨[], World.init⟩

/-- What the process has written (logfile2.rs:213-277), to its buffer or to the file: after the end of what it had read, whether or not
there is a newline (logfile2.rs:200-211: the position is where reading has ended). -/
def content (d : State) : List UInt8 := d.bytes ++ fileOf (d.world.log.drop d.world.file.length)

/-- The bytes known to be in the file (`flush`, execgraph.rs:413). -/
def durable (d : State) (s : World.Sess) : List UInt8 := d.bytes ++ fileOf ((d.world.log.take s.flushed).drop d.world.file.length)

/-- One action. The constructor (pylib.rs:62-122) reads the file first. -/
def step (d : State) : Act → Res Unit State
  | .world (.open dir roots newKey info) =>
    match openBytes d.bytes dir with
    | .ok lf => (World.step { d.world with file := lf.entries } (.open dir roots newKey info)).bind (fun w => .ok { d with world := w })
    | .err _ => .err ()
    | .panic m => .panic m
  | .world (.stop _) => .err ()
  | .world a => (World.step d.world a).bind (fun w => .ok { d with world := w })
  | .stop n =>
    match d.world.sess with
    | none => .err ()
    | some s =>
      if (durable d s).length ≤ n ∧ n ≤ (content d).length then
        .ok ⟨(content d).take n, { d.world with
          file := []
          sess := none }⟩
      else .err ()

end Verif.Disk
