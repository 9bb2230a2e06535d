import Verif.Model.Base
import Verif.Model.Json

/-!
# The socket files of the admin servers (admin_server.rs:71-152)

Every session (an `execute` with a provisioner) makes a socket file named after its process; every session also looks through the directory of
these files and removes those whose processes are gone. The names are matched with a regular expression. Here several sessions in several
processes use one directory.
-/

namespace Verif.Sockets
open Verif

/-- `ADMIN_SOCKET_PREFIX` and a dash (constants.rs:2, admin_server.rs:76). -/
def wrk : List Char := ['w', 'r', 'k', '-']

/-- The end of a name (admin_server.rs:76, 125), without the dot. -/
def sock : List Char := ['s', 'o', 'c', 'k']

/-- Name of the socket file of a process (admin_server.rs:75-78, 84-89), without the directory. -/
def sockName (pid : Nat) : List Char := wrk ++ (Json.decimal pid ++ '.' :: sock)

/-- What is behind a literal of the regular expression (admin_server.rs:125). -/
def strip : List Char → List Char → Option (List Char)
  | [], s => some s
  | _ :: _, [] => none
  | p :: ps, c :: cs => if p = c then strip ps cs else none

/-- `.sock`: the dot is any character but a newline (admin_server.rs:125). -/
def dotSock : List Char → Bool
  | [] => false
  | c :: cs => c != '\n' && (strip sock cs).isSome

/-- `(\d+).sock`, as many digits as possible (admin_server.rs:125). Which characters are digits (`nd`) is a matter of Unicode: general category
Nd. -/
def digitsThen (nd : Char → Bool) : List Char → Option (List Char)
  | [] => none
  | c :: cs =>
    if nd c then
      match digitsThen nd cs with
      | some ds => some (c :: ds)
      | none => if dotSock cs then some [c] else none
    else none

/-- `socket_re.captures(..)` with group 1 (admin_server.rs:125, 132, 135-137): the leftmost match, anywhere in the name. Simplification: the name is given
as the characters `to_string_lossy` makes of it (131). -/
def capture (nd : Char → Bool) : List Char → Option (List Char)
  | [] => none
  | c :: cs => ((strip wrk (c :: cs)).bind (digitsThen nd)).or (capture nd cs)

/-- `parse::<usize>()` (admin_server.rs:138); `none` is the error that is unwrapped (139). -/
def parsePid (ds : List Char) : Option Nat :=
  if ds.all Json.isDigit && decide (Json.ofDigits ds < 2 ^ 64) then some (Json.ofDigits ds) else none

/-- `Pid::from(usize)`: cut to 32 bits (admin_server.rs:140; sysinfo). -/
def toPid (n : Nat) : Nat := n % 2 ^ 32

/-- An entry of the directory (admin_server.rs:118-152). -/
structure Entry where
  name : List Char
  /-- `file_type()?.is_socket()` (admin_server.rs:133) -/
  socket : Bool
  /-- The session that listens there, or has listened there; for the model only. -/
  owner : Option Nat
deriving DecidableEq, Repr

/-- Where a session is (admin_server.rs:71-116). -/
inductive SessSt where
  /-- Between `remove_file` and `bind` (admin_server.rs:105-106). -/
  | starting
  | serving
  | over
  /-- One of the `unwrap`s (admin_server.rs:106, 115). -/
  | panicked
  /-- The process has died. -/
  | killed
deriving DecidableEq, Repr

/-- A session: the process it runs in and the machine (admin_server.rs:71-116). -/
structure Sess where
  box : Nat
  pid : Nat
  st : SessSt
deriving DecidableEq, Repr

/-- Where a cleaner is (`clean_up_socket_dir`, admin_server.rs:118-152). -/
inductive CleanSt where
  | ready
  | scanning (todo : List Entry)
  /-- Between `refresh_process` and `remove_file` (admin_server.rs:140-145). -/
  | doomed (name : List Char) (todo : List Entry)
  | finished
  /-- An error of `remove_file` ends it (admin_server.rs:145). -/
  | failed
  /-- `parse::<usize>().unwrap()` (admin_server.rs:138-139). -/
  | panicked
deriving DecidableEq, Repr

/-- A cleaner. Simplification: it may go on after the end of its process (more can happen than in the code) (admin_server.rs:118-152). -/
structure Cleaner where
  box : Nat
  st : CleanSt
deriving DecidableEq, Repr

/-- Everything that shares a directory (admin_server.rs:71-152). -/
structure State where
  /-- The running processes: machine and number. -/
  procs : List (Nat × Nat)
  dir : List Entry
  sess : List Sess
  cleaners : List Cleaner
deriving DecidableEq, Repr

/-- Nothing yet. No counterpart in the code. -/
def init : State := ⟨[], [], [], []⟩

/-- What can happen (admin_server.rs:71-152). -/
inductive Act where
  /-- A process comes into being. Simplification: threads are left out, though `/proc` knows their numbers. -/
  | spawn (box pid : Nat)
  | die (box pid : Nat)
  /-- A session begins: whatever is at the path is removed (admin_server.rs:105). -/
  | start (box pid : Nat)
  /-- `bind` (admin_server.rs:106); the cleaner is spawned (110). -/
  | bind (i : Nat)
  /-- A session ends (admin_server.rs:115). -/
  | finish (i : Nat)
  /-- `read_dir` (admin_server.rs:128). Simplification: all entries are read at one moment. -/
  | list (c : Nat)
  /-- The next entry is looked at (admin_server.rs:129-140). Simplification: `file_type` is what `read_dir` has told. -/
  | look (c : Nat)
  /-- `remove_file` (admin_server.rs:145). -/
  | remove (c : Nat)
  /-- Somebody else makes or removes a file in the directory. -/
  | create (name : List Char) (socket : Bool)
  | delete (name : List Char)
deriving DecidableEq, Repr

/-- Is there a file of this name? Operating system, no counterpart in the code. -/
def has (dir : List Entry) (name : List Char) : Bool := dir.any (fun e => e.name == name)

/-- `unlink`. Operating system; called at admin_server.rs:105, 115, 145. -/
def unlink (dir : List Entry) (name : List Char) : List Entry := dir.filter (fun e => e.name != name)

/-- Is the process there (`refresh_process`, admin_server.rs:140)? -/
def running (s : State) (box pid : Nat) : Bool := s.procs.contains (box, pid)

/-- The body of the loop (admin_server.rs:129-148). -/
def lookAt (nd : Char → Bool) (s : State) (box : Nat) (e : Entry) (todo : List Entry) : CleanSt :=
  match capture nd e.name with
  | none => .scanning todo
  | some ds =>
    if e.socket then
      match parsePid ds with
      | none => .panicked
      | some n => if running s box (toPid n) then .scanning todo else .doomed e.name todo
    else .scanning todo

/-- The transition function (admin_server.rs:71-152). -/
def step (nd : Char → Bool) (s : State) : Act → Res Unit State
  | .spawn b p => if !running s b p && decide (p < 2 ^ 22) then .ok { s with procs := (b, p) :: s.procs } else .err ()
  | .die b p =>
    .ok { s with
      procs := s.procs.filter (fun x => x != (b, p))
      sess := s.sess.map (fun x => if x.box = b && x.pid = p && (x.st = .starting || x.st = .serving) then { x with st := .killed } else x) }
  | .start b p =>
    if running s b p then .ok { s with
      dir := unlink s.dir (sockName p)
      sess := s.sess ++ [⟨b, p, .starting⟩] } else .err ()
  | .bind i =>
    match s.sess[i]? with
    | some ⟨b, p, .starting⟩ =>
      if has s.dir (sockName p) then .ok { s with sess := s.sess.set i ⟨b, p, .panicked⟩ }
      else .ok { s with
        dir := s.dir ++ [⟨sockName p, true, some i⟩]
        sess := s.sess.set i ⟨b, p, .serving⟩
        cleaners := s.cleaners ++ [⟨b, .ready⟩] }
    | _ => .err ()
  | .finish i =>
    match s.sess[i]? with
    | some ⟨b, p, .serving⟩ =>
      if has s.dir (sockName p) then .ok { s with
        dir := unlink s.dir (sockName p)
        sess := s.sess.set i ⟨b, p, .over⟩ }
      else .ok { s with sess := s.sess.set i ⟨b, p, .panicked⟩ }
    | _ => .err ()
  | .list c =>
    match s.cleaners[c]? with
    | some ⟨b, .ready⟩ => .ok { s with cleaners := s.cleaners.set c ⟨b, .scanning s.dir⟩ }
    | _ => .err ()
  | .look c =>
    match s.cleaners[c]? with
    | some ⟨b, .scanning []⟩ => .ok { s with cleaners := s.cleaners.set c ⟨b, .finished⟩ }
    | some ⟨b, .scanning (e :: todo)⟩ => .ok { s with cleaners := s.cleaners.set c ⟨b, lookAt nd s b e todo⟩ }
    | _ => .err ()
  | .remove c =>
    match s.cleaners[c]? with
    | some ⟨b, .doomed name todo⟩ =>
      if has s.dir name then .ok { s with
        dir := unlink s.dir name
        cleaners := s.cleaners.set c ⟨b, .scanning todo⟩ }
      else .ok { s with cleaners := s.cleaners.set c ⟨b, .failed⟩ }
    | _ => .err ()
  | .create name socket => if has s.dir name then .err () else .ok { s with dir := s.dir ++ [⟨name, socket, none⟩] }
  | .delete name => .ok { s with dir := unlink s.dir name }

end Verif.Sockets
