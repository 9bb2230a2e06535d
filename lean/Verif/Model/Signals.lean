import Verif.Model.Base

/-!
# Process groups and signals around `execute`

What `execute` does to the processes around it besides starting tasks: it moves its process into a process group of its own (pylib.rs:337-343), and at its end
sends SIGTERM to that group (sync.rs:243-249). The processes of one machine are modelled as far as POSIX says what these calls do: numbers, groups, sessions, parents, the
disposition of SIGTERM, and the foreground group of one terminal. Not modelled: zombies (a process that has ended is gone at once), permissions (all processes belong to
one user), signals other than SIGTERM and the terminal's SIGINT, masks.
-/

namespace Verif.Signals
open Verif

/-- What a process does on SIGTERM: end (`SIG_DFL`), nothing (`SIG_IGN`), call a handler of the program (for Python: one set with `signal.signal`), or tokio's handler,
which never ends the process and calls the program's handler installed before it, if there was one (signal-hook-registry 1.4.1, Cargo.lock:1635). -/
inductive Disp where
  | dfl
  | ign
  | own
  | tokio (before : Bool)
deriving DecidableEq, Repr

/-- Does the process survive SIGTERM? POSIX, no counterpart in the code. -/
def Disp.survives : Disp → Bool
  | .dfl => false
  | _ => true

/-- Is a handler of the program called on SIGTERM? POSIX, no counterpart in the code. -/
def Disp.callsOwn : Disp → Bool
  | .own | .tokio true => true
  | _ => false

/-- What is left of it in a new program: ignored signals stay ignored, handlers are gone (execve). POSIX, no counterpart in the code. -/
def Disp.exec : Disp → Disp
  | .ign => .ign
  | _ => .dfl

/-- tokio's handler is put in place of what is there (tokio 1.32 `signal_enable`, Cargo.lock:1833). -/
def Disp.register : Disp → Disp
  | .own => .tokio true
  | .tokio b => .tokio b
  | _ => .tokio false

/-- A process: number, group, session, number of the process it was forked by, disposition of SIGTERM. `ours` is not there in reality: it was forked by the
process of the session or by such a process. Operating system, no counterpart in the code. -/
structure Proc where
  pid : Nat
  pgid : Nat
  sid : Nat
  parent : Nat
  term : Disp
  ours : Bool
deriving DecidableEq, Repr

/-- The processes; `me`: the number of the process in which `execute` is called; `fg`: the foreground group of the terminal; `registered`: has
tokio put its handler for SIGTERM in place (it does so once in the life of a process); `entered`, `armed`: numbers of `execute`s that are running, and of those among them that
have got to sync.rs:247; `ints`: how often the terminal's SIGINT got to the process; `calls`: how often a handler of the program was called for a SIGTERM `execute` had sent. -/
structure State where
  procs : List Proc
  me : Nat
  fg : Nat
  registered : Bool
  entered : Nat
  armed : Nat
  ints : Nat
  calls : Nat
deriving DecidableEq, Repr

/-- The process with a number. Operating system, no counterpart in the code. -/
def State.find (s : State) (p : Nat) : Option Proc := s.procs.find? (fun q => q.pid == p)

/-- A process is changed. Operating system, no counterpart in the code. -/
def State.upd (s : State) (p : Nat) (f : Proc → Proc) : State :=
  { s with procs := s.procs.map (fun q => if q.pid = p then f q else q) }

/-- Is the number in use, as that of a process, a group or a session? Such numbers are not given to new processes. (Nor is that of the process of the session: when it has ended we look
no further.) POSIX, no counterpart in the code. -/
def State.used (s : State) (p : Nat) : Bool := p == s.me || s.procs.any (fun q => q.pid == p || q.pgid == p || q.sid == p)

/-- SIGTERM to the processes of a group (killpg). POSIX; called at sync.rs:243-249. -/
def State.killpg (s : State) (g : Nat) : State :=
  { s with
    procs := s.procs.filter (fun q => q.pgid != g || q.term.survives)
    calls := s.calls + (if s.procs.any (fun q => q.pid == s.me && q.pgid == g && q.term.callsOwn) then 1 else 0) }

/-- May process `c` put process `t` into group `g` (setpgid)? `t` is `c` or a child of it, in the same session and not the leader of it; `g` is its own number or a group of the session. Simplified: that
the child has not yet called execve is not required. POSIX; called at pylib.rs:337-343. -/
def State.mayMove (s : State) (c t : Proc) (g : Nat) : Bool :=
  (t.pid == c.pid || t.parent == c.pid) && t.sid == c.sid && t.pid != t.sid &&
    (g == t.pid || s.procs.any (fun q => q.pgid == g && q.sid == t.sid))

/-- The actions. Of any process: `fork` (the child gets the number `n`), `exec`, `exit`, `setpgid`, `setsid`, `disp` (it sets what it does on SIGTERM), `term` (SIGTERM is sent to it by
somebody else), `foreground` (tcsetpgrp). `ctrlC`: at the terminal. Of `execute`: `enter` (pylib.rs:337-343), `spawn` (a task, or the provisioner, is started: localrunner.rs:71-89,
execgraph.rs:425-429; it has the number `n`), `listen` (sync.rs:245-246), `killpg` (sync.rs:247), `leave` (it ends without getting there: execgraph.rs:269-272, errors, panics). -/
inductive Act where
  | fork (c n : Nat)
  | exec (c : Nat)
  | exit (c : Nat)
  | setpgid (c t g : Nat)
  | setsid (c : Nat)
  | disp (c : Nat) (d : Disp)
  | term (c : Nat)
  | foreground (g : Nat)
  | ctrlC
  | enter
  | spawn (n : Nat)
  | listen
  | killpg
  | leave
deriving DecidableEq, Repr

/-- A new process, forked by `c`. POSIX, no counterpart in the code. -/
def State.child (s : State) (c : Proc) (n : Nat) (d : Disp) : State :=
  { s with procs := ⟨n, c.pgid, c.sid, c.pid, d, c.pid == s.me || c.ours⟩ :: s.procs }

/-- One action. `execute`: pylib.rs:337-343, sync.rs:243-249; the rest: operating system. -/
def step (s : State) : Act → Res Unit State
  | .fork c n =>
    match s.find c with
    | some q => if s.used n then .err () else .ok (s.child q n q.term)
    | none => .err ()
  | .exec c => if c = s.me then .err () else .ok (s.upd c (fun q => { q with term := q.term.exec }))
  | .exit c => .ok { s with procs := s.procs.filter (fun q => q.pid != c) }
  | .setpgid c t g =>
    match s.find c, s.find t with
    | some p, some q => if s.mayMove p q g then .ok (s.upd t (fun q => { q with pgid := g })) else .err ()
    | _, _ => .err ()
  | .setsid c =>
    match s.find c with
    | some q => if s.procs.any (fun x => x.pgid == q.pid) then .err () else .ok (s.upd c (fun q => { q with pgid := q.pid, sid := q.pid }))
    | none => .err ()
  | .disp c d =>
    match d with
    | .tokio _ => .err ()
    | d => .ok (s.upd c (fun q => { q with term := d }))
  | .term c => .ok { s with procs := s.procs.filter (fun q => q.pid != c || q.term.survives) }
  | .foreground g => .ok { s with fg := g }
  | .ctrlC => .ok { s with ints := s.ints + (if s.procs.any (fun q => q.pid == s.me && q.pgid == s.fg) then 1 else 0) }
  | .enter =>
    match s.find s.me with
    | some q =>
      -- the result of setpgid is not used: the exception is made but not raised (pylib.rs:341)
      .ok { (if s.mayMove q q q.pid then s.upd s.me (fun q => { q with pgid := q.pid }) else s) with entered := s.entered + 1 }
    | none => .err ()
  | .spawn n =>
    match s.find s.me with
    | some q => if s.entered = 0 ∨ s.used n then .err () else .ok (s.child q n q.term.exec)
    | none => .err ()
  | .listen =>
    match s.find s.me with
    | some _ =>
      if s.entered ≤ s.armed then .err ()
      else .ok { (if s.registered then s else s.upd s.me (fun q => { q with term := q.term.register })) with registered := true, armed := s.armed + 1 }
    | none => .err ()
  | .killpg =>
    match s.find s.me with
    | some q => if s.armed = 0 then .err () else .ok { s.killpg q.pgid with entered := s.entered - 1, armed := s.armed - 1 }
    | none => .err ()
  | .leave => if s.entered ≤ s.armed then .err () else .ok { s with entered := s.entered - 1 }

/-- A run. No counterpart in the code. -/
inductive Runs : State → List Act → State → Prop
  | nil (s : State) : Runs s [] s
  | cons {s t u : State} {a : Act} {as : List Act} : step s a = .ok t → Runs t as u → Runs s (a :: as) u

end Verif.Signals
