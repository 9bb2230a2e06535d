import Verif.Spec.Tracker

/-!
# Concrete runs used as non-trivial cases of the tracker theorems
-/

namespace Verif.Props.Tracker
open Verif Verif.Tracker

/-- A task with a key and an affinity mask. -/
def task (key : String) (affinity : BitVec 64 := 1) (priority : Nat := 0) : Cmd :=
  { key := key, display := some key, affinity := affinity, priority := priority }

/-- Four tasks `a → b, a → c, b → d, c → d`; `c` may also run on runner type 1. -/
def diamond : Cfg where
  g := ⟨[task "a", task "b", task "c" 3, task "d"], [(0, 1), (0, 2), (1, 3), (2, 3)]⟩
  fizzlesAllowed := 1

/-- A receiver of type `r` comes and obtains the `j`-th item of its queue, nobody else being inside `recv`. -/
def take (r j : Nat) : List Act := [.enter r, .pop 0 j, .claim 0, .account 0]

/-- The runner reports start and exit code 0. -/
def reportOk (v : Nat) : List Act := [.sendStarted v "h" 1 "", .sendFinished ⟨v, .code 0, [], none⟩]

def t0 : SysTime := ⟨0, 0⟩

/-- `a` is run. -/
def runA : List Act :=
  [.begin [0] t0, .sendNext, .sendDone t0] ++ take 0 0 ++ reportOk 0 ++ [.recvStarted t0]

/-- `a` is finished, `b` and `c` are made ready and both are obtained, `c` by runner type 1. -/
def runBC : List Act :=
  runA ++ [.recvFinished [1, 2] t0, .sendNext, .sendNext, .sendDone t0] ++ take 0 0 ++ take 1 0

/-- `b` is finished by exit code 0, `c` is still running. -/
def runB : List Act := runBC ++ reportOk 1 ++ [.sendStarted 2 "h" 2 "", .recvStarted t0, .recvFinished [3] t0]

example : after diamond runBC (fun s => s.obtained == [(0, 0), (0, 1), (1, 2)] && s.held == [1, 2]) = true := by decide

end Verif.Props.Tracker
