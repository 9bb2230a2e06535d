import Verif.Spec.Family
import Verif.Spec.Outcome

/-!
# What a program does when it is left alone (specification side)
-/

namespace Verif.ChildIo
open Verif

variable {P : Type}

/-- `Yields op o p inp i h ws code`: a process in state `p` which has the end of the input iff `i`, with `inp` still to be read, and the
output `o` iff `h`, writes `ws` to `o` and exits with `code`. No pipe is ever full, no other process is there: the meaning of
the program as a function of its input. (A process that starts another one has no such meaning.) -/
inductive Yields (op : P → Op P) (o : Out) : P → List UInt8 → Bool → Bool → List UInt8 → Nat → Prop
  | put {p next b inp i ws code} : op p = .put o b next → Yields op o next inp i true ws code → Yields op o p inp i true (b :: ws) code
  | putElsewhere {p next x b inp i h ws code} : op p = .put x b next → (x ≠ o ∨ h = false) → Yields op o next inp i h ws code →
      Yields op o p inp i h ws code
  | get {p next b inp h ws code} : op p = .get next → Yields op o (next (some b)) inp true h ws code →
      Yields op o p (b :: inp) true h ws code
  | getEnd {p next inp i h ws code} : op p = .get next → (i = false ∨ inp = []) → Yields op o (next none) inp i h ws code →
      Yields op o p inp i h ws code
  | close {p next inp i h ws code} : op p = .close o next → Yields op o next inp i false ws code → Yields op o p inp i h ws code
  | closeElse {p next x inp i h ws code} : op p = .close x next → x ≠ o → Yields op o next inp i h ws code →
      Yields op o p inp i h ws code
  | closeInput {p next inp i h ws code} : op p = .closeInput next → Yields op o next inp false h ws code → Yields op o p inp i h ws code
  | work {p next inp i h ws code} : op p = .work next → Yields op o next inp i h ws code → Yields op o p inp i h ws code
  | exit {p code inp i h} : op p = .exit code → Yields op o p inp i h [] code

/-- The program of a task yields `ws` on the output `o` and the exit code `code`. -/
def Gives (c : Cfg P) (o : Out) (ws : List UInt8) (code : Nat) : Prop :=
  Yields c.op o c.start (c.input.getD []) c.input.isSome (c.piped o) ws code

/-- A program that starts no other process. -/
def Single (op : P → Op P) : Prop := ∀ p next other, op p ≠ .fork next other

end Verif.ChildIo

namespace Verif.Family
open Verif Verif.Tracker

variable {P : Type}

/-- The programs of the tasks, each with its input, write `bytes v` to descriptor 3 and exit with `code v`. -/
def Programs (c : Cfg P) (code : Nat → Nat) (bytes : Nat → List UInt8) : Prop :=
  ∀ v, v < c.sys.tr.g.n → ChildIo.Gives (childCfg c 0 v) .val (bytes v) (code v)

/-- What the tasks do according to their programs. -/
def behaviour (code : Nat → Nat) (bytes : Nat → List UInt8) : Behaviour where
  status := fun v => .code (code v)
  values := fun v => Fd3.fd3Values ⟨(bytes v).toArray⟩

/-- Fewer tasks fail than there may be quick failures: tasks which are to be run and fail. -/
def FewFailures (c : Tracker.Cfg) (b : Behaviour) : Prop :=
  ∀ l : List Nat, l.Nodup → (∀ v ∈ l, Due c b v ∧ b.status v ≠ .code 0) → l.length < c.fizzlesAllowed

end Verif.Family
