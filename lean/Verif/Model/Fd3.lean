import Verif.Model.Tracker

/-!
# What becomes of the output of a task (`ChildOutput`, localrunner.rs:211-270)
-/

namespace Verif.Fd3
open Verif

/-- How a process ended (`std::process::ExitStatus` on Unix, after `wait`): exit code or signal.
Standard library; used at localrunner.rs:232-238. -/
inductive ProcStatus where
  | exited (code : Nat)
  | signaled (sig : Nat)
deriving DecidableEq, Repr

/-- `ChildOutput::code` (localrunner.rs:232-238). -/
def code : ProcStatus → Tracker.ExitStatus
  | .exited c => .code c
  | .signaled n => .code (-(n : Int))

/-- States of the automaton of `shell_words::split` (external crate, version 1.1). -/
inductive St where
  | delimiter | backslash | unquoted | unquotedBackslash | single | double | doubleBackslash | comment
deriving DecidableEq, Repr

/-- Is it one of the blanks that separate words? Crate shell-words, used at localrunner.rs:250. -/
def blank (c : Char) : Bool := c == '\t' || c == ' ' || c == '\n'

/-- `shell_words::split` (external crate, version 1.1; used at localrunner.rs:250): `w` is the word so far. `none` is a
`ParseError`. Reading to the end of the list is the `None` case of the loop. -/
def splitGo : St → List Char → List Char → Option (List (List Char))
  | .delimiter, _, [] => some []
  | .delimiter, w, c :: cs =>
    if c = '\'' then splitGo .single w cs
    else if c = '"' then splitGo .double w cs
    else if c = '\\' then splitGo .backslash w cs
    else if blank c then splitGo .delimiter w cs
    else if c = '#' then splitGo .comment w cs
    else splitGo .unquoted (w ++ [c]) cs
  | .backslash, w, [] => some [w ++ ['\\']]
  | .backslash, w, c :: cs =>
    if c = '\n' then splitGo .delimiter w cs else splitGo .unquoted (w ++ [c]) cs
  | .unquoted, w, [] => some [w]
  | .unquoted, w, c :: cs =>
    if c = '\'' then splitGo .single w cs
    else if c = '"' then splitGo .double w cs
    else if c = '\\' then splitGo .unquotedBackslash w cs
    else if blank c then (splitGo .delimiter [] cs).map (w :: ·)
    else splitGo .unquoted (w ++ [c]) cs
  | .unquotedBackslash, w, [] => some [w ++ ['\\']]
  | .unquotedBackslash, w, c :: cs =>
    if c = '\n' then splitGo .unquoted w cs else splitGo .unquoted (w ++ [c]) cs
  | .single, _, [] => none
  | .single, w, c :: cs => if c = '\'' then splitGo .unquoted w cs else splitGo .single (w ++ [c]) cs
  | .double, _, [] => none
  | .double, w, c :: cs =>
    if c = '"' then splitGo .unquoted w cs
    else if c = '\\' then splitGo .doubleBackslash w cs
    else splitGo .double (w ++ [c]) cs
  | .doubleBackslash, _, [] => none
  | .doubleBackslash, w, c :: cs =>
    if c = '\n' then splitGo .double w cs
    else if c = '$' || c = '`' || c = '"' || c = '\\' then splitGo .double (w ++ [c]) cs
    else splitGo .double (w ++ ['\\', c]) cs
  | .comment, _, [] => some []
  | .comment, w, c :: cs => if c = '\n' then splitGo .delimiter w cs else splitGo .comment w cs

/-- `shell_words::split` (localrunner.rs:250). -/
def split (cs : List Char) : Option (List (List Char)) := splitGo .delimiter [] cs

/-- Key and value of a word, cut at the first `=` (localrunner.rs:253-256). -/
def assign : List Char → Option (List Char × List Char)
  | [] => none
  | c :: cs => if c = '=' then some ([], cs) else (assign cs).map (fun kv => (c :: kv.1, kv.2))

/-- `HashMap::insert` on an association list (the order of a `HashMap` is arbitrary anyway) (localrunner.rs:248-270). -/
def put (m : List (String × String)) (k v : String) : List (String × String) :=
  m.filter (fun x => x.1 != k) ++ [(k, v)]

/-- `collect` into a `HashMap` (localrunner.rs:258). -/
def toMap (kvs : List (List Char × List Char)) : List (String × String) :=
  kvs.foldl (fun m kv => put m (String.ofList kv.1) (String.ofList kv.2)) []

/-- `parse_line` (localrunner.rs:249-260). -/
def parseLine (line : List Char) : Option (List (String × String)) :=
  (split line).map (fun ws => toMap (ws.filterMap assign))

/-- Remove the carriage return before a newline (`str::lines`, std). Used at localrunner.rs:263. -/
def chomp (l : List Char) : List Char := if l.getLast? = some '\r' then l.dropLast else l

/-- `str::lines` (std; used at localrunner.rs:264); `l` is the line so far. -/
def linesGo : List Char → List Char → List (List Char)
  | l, [] => if l = [] then [] else [l]
  | l, c :: cs => if c = '\n' then chomp l :: linesGo [] cs else linesGo (l ++ [c]) cs

/-- `str::lines` (localrunner.rs:264). -/
def lines (cs : List Char) : List (List Char) := linesGo [] cs

/-- `fd3_values` on text (localrunner.rs:263-267). -/
def valuesOf (cs : List Char) : List (List (String × String)) := (lines cs).filterMap parseLine

/-- `fd3_values` (localrunner.rs:248-269). -/
def fd3Values (bytes : ByteArray) : List (List (String × String)) :=
  match String.fromUTF8? bytes with
  | some s => valuesOf s.toList
  | none => []

/-- `to_event` (localrunner.rs:221-230), without stdout and stderr. -/
def toEvent (id : Nat) (st : ProcStatus) (fd3 : ByteArray) : Tracker.Fin := ⟨id, code st, fd3Values fd3, none⟩

end Verif.Fd3
