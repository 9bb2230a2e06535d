import Verif.Model.LogFile

/-!
# `LogFileSnapshotReader::read_current_and_outdated` (logfile2.rs:468-569)
-/

namespace Verif.Snapshot
open Verif

/-- The key an entry carries, if any (logfile2.rs:545-551). -/
def entryKey : LogEntry → Option String
  | .header _ => none
  | .ready v => some v.key
  | .started v => some v.key
  | .finished v => some v.key
  | .backref v => some v.key

/-- `HashSet::insert`: sets are lists without duplicates. Standard library; used at logfile2.rs:468-569. -/
def setInsert (s : List String) (k : String) : List String := if k ∈ s then s else s ++ [k]

/-- First loop (logfile2.rs:478-491), on the reversed entries: state is result_current (in push order) and
pending_backrefs; returns also the header found and the rest of the iterator. -/
def loop1 : List LogEntry → List LogEntry → List String →
    List LogEntry × List String × Option LogEntry × List LogEntry
  | [], cur, pend => (cur, pend, none, [])
  | .header h :: rest, cur, pend => (cur, pend, some (.header h), rest)
  | .backref b :: rest, cur, pend => loop1 rest cur (setInsert pend b.key)
  | e :: rest, cur, pend => loop1 rest (cur ++ [e]) pend

/-- Body of the second loop (logfile2.rs:497-524): state (result_current, result_outdated, pending_backrefs). -/
def body2 (e : LogEntry) (cur out : List LogEntry) (pend : List String) :
    List LogEntry × List LogEntry × List String :=
  match e with
  | .ready v => if v.key ∈ pend then (cur ++ [e], out, pend.erase v.key) else (cur, out ++ [e], pend)
  | .started v => if v.key ∈ pend then (cur ++ [e], out, pend) else (cur, out ++ [e], pend)
  | .finished v => if v.key ∈ pend then (cur ++ [e], out, pend) else (cur, out ++ [e], pend)
  | .header _ => (cur, out ++ [e], pend)
  | .backref _ => (cur, out ++ [e], pend)

/-- Second loop with the early exit (logfile2.rs:497-528). Returns (current, outdated, rest of the iterator). -/
def loop2 : List LogEntry → List LogEntry → List LogEntry → List String →
    List LogEntry × List LogEntry × List LogEntry
  | [], cur, out, _ => (cur, out, [])
  | e :: rest, cur, out, pend =>
    let r := body2 e cur out pend
    if r.2.2.isEmpty then (r.1, r.2.1, rest) else loop2 rest r.1 r.2.1 r.2.2

/-- `read_current_and_outdated` (logfile2.rs:468-569) on the parsed entries; the `assert!` at line 540 is an explicit
panic. -/
def currentAndOutdated (all : List LogEntry) : Res LogfileError (List LogEntry × List LogEntry) :=
  let (cur1, pend, header, rest1) := loop1 all.reverse [] []
  let nbackrefs := pend.length
  let (cur2, out2, rest2) := loop2 rest1 cur1 [] pend
  let cur3 := cur2 ++ header.toList
  let current := cur3.reverse
  let outdated := (out2 ++ rest2).reverse
  if current.length + outdated.length + nbackrefs ≠ all.length then .panic "assertion failed"
  else
    let currentKeys := current.filterMap entryKey
    .ok (current, outdated.filter (fun x =>
      match entryKey x with
      | none => true
      | some k => !(currentKeys.contains k)))

end Verif.Snapshot
