import Verif.Model.Sockets

/-!
# Vocabulary for the socket files (specification side)
-/

namespace Verif.Sockets
open Verif

/-- What is known about Unicode: the ASCII digits are digits, no other ASCII character is one. -/
structure Digits (nd : Char → Bool) : Prop where
  ascii : ∀ c : Char, c.toNat < 128 → nd c = Json.isDigit c

/-- A name like those of execgraph: somewhere in it is `wrk-`, digits, one more character, `sock`. -/
def Looks (nd : Char → Bool) (name ds : List Char) : Prop :=
  ∃ a c b, name = a ++ (wrk ++ (ds ++ c :: (sock ++ b))) ∧ ds ≠ [] ∧ (∀ x ∈ ds, nd x = true) ∧ c ≠ '\n'

/-- A run in which every action is one of those `ok` admits. -/
inductive Runs (nd : Char → Bool) (ok : State → Act → Prop) : State → List Act → State → Prop
  | nil (s : State) : Runs nd ok s [] s
  | snoc {s s1 s' : State} {a : Act} {as : List Act} : Runs nd ok s as s1 → ok s1 a → step nd s1 a = .ok s' → Runs nd ok s (as ++ [a]) s'

/-- No restriction. -/
def anything (_ : State) (_ : Act) : Prop := True

/-- All on one machine. -/
def oneBox (_ : State) : Act → Prop
  | .spawn b _ | .start b _ => b = 0
  | _ => True

/-- A process has at most one session at a time. -/
def oneSession (s : State) : Act → Prop
  | .start b p => ∀ x ∈ s.sess, x.box = b → x.pid = p → x.st ≠ .starting ∧ x.st ≠ .serving
  | _ => True

/-- Nobody else makes or removes files with the names of sessions. -/
def noForeign (_ : State) : Act → Prop
  | .create name _ | .delete name => ∀ p, name ≠ sockName p
  | _ => True

/-- The number of a process is not given to a new one while a cleaner is about to remove the file of the old one. -/
def noReuse (s : State) : Act → Prop
  | .spawn _ p => ∀ c ∈ s.cleaners, ∀ name todo, c.st = .doomed name todo → name ≠ sockName p
  | _ => True

/-- All four. -/
def calm (s : State) (a : Act) : Prop := oneBox s a ∧ oneSession s a ∧ noForeign s a ∧ noReuse s a

/-- A session can be reached: at the path of its process is its own socket. -/
def Reachable (s : State) (i : Nat) : Prop :=
  ∃ x, s.sess[i]? = some x ∧ (⟨sockName x.pid, true, some i⟩ : Entry) ∈ s.dir ∧ ∀ e ∈ s.dir, e.name = sockName x.pid → e.owner = some i

/-- Only this cleaner does anything. -/
def alone (c : Nat) (_ : State) : Act → Prop
  | .list c' | .look c' | .remove c' => c' = c
  | _ => False

/-- A file a cleaner takes for the socket of a process that is gone. -/
def stale (nd : Char → Bool) (s : State) (box : Nat) (e : Entry) : Bool :=
  e.socket && match capture nd e.name with
    | some ds => match parsePid ds with
      | some n => !running s box (toPid n)
      | none => false
    | none => false

/-- A file a cleaner panics on: a socket with something like a number in its name that is none, or too large. -/
def bad (nd : Char → Bool) (e : Entry) : Bool :=
  e.socket && match capture nd e.name with
    | some ds => (parsePid ds).isNone
    | none => false

/-- Replays actions, for concrete cases. -/
def replay (nd : Char → Bool) : State → List Act → Res Unit State
  | s, [] => .ok s
  | s, a :: as => match step nd s a with | .ok s1 => replay nd s1 as | .err e => .err e | .panic m => .panic m

end Verif.Sockets
