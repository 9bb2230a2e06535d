import Verif.Model.Remote

/-!
# The remote runner (specification side)
-/

namespace Verif.Remote
open Verif

/-! ## Cleanup -/

/-- In these turns no pid is used for two processes: processes are named by their pids. -/
def NoReuse (ts : List Turn) : Prop := ∀ t ∈ ts, ∀ p ∈ t.children, p.proc = p.pid

/-- The signals sent in the `i`-th turn. -/
def sentIn (ts : List Turn) (i : Nat) : List Sent := ((cleanup [] ts).1[i]?).getD []

/-! ## Runs -/

/-- `Reach c as s`: the runner comes to state `s` by the actions `as`. -/
inductive Reach (c : Cfg) : List Act → State → Prop where
  | init : Reach c [] (init c)
  | snoc {as : List Act} {s s' : State} {a : Act} : Reach c as s → step c s a = .ok s' → Reach c (as ++ [a]) s'

/-- What the runner does with a task, from receiving it to reporting its end: the program can not be started (status 13), or
it is started, its end is awaited and its exit code and values are reported; `k` times SIGTERM because of the deadline.
`next`: another task is asked for. -/
inductive Round : Bool → List Obs → Prop where
  | failed (r : StartResp) (next : Bool) : Round next [.received r, .spawn none, .begun r.txn 0, .finish r.txn 13 [] next]
  | ran (r : StartResp) (pid k : Nat) (out : Output) (next : Bool) :
      Round next ([.received r, .spawn (some pid), .begun r.txn pid] ++ List.replicate k (.sigterm pid) ++
        [.output pid out, .finish r.txn out.code out.values next])

/-- The last task of a runner: the beginning of a round, or ended by Slurm (status -15). -/
inductive Last : List Obs → Prop where
  | part {next : Bool} {l l' : List Obs} : Round next l → l' <+: l → Last l'
  | slurm (r : StartResp) (pid k : Nat) : Last ([.received r, .spawn (some pid), .begun r.txn pid] ++
      List.replicate k (.sigterm pid) ++ [.sigterm pid, .finish r.txn (-15) [] false])

/-- What follows when the actions `as` are done from `s`, if they are possible. -/
def run (c : Cfg) : State → List Act → Option State
  | s, [] => some s
  | s, a :: as =>
    match step c s a with
    | .ok s' => run c s' as
    | _ => none

/-- Number of tasks received. -/
def received (l : List Obs) : Nat := l.countP (fun o => match o with | .received _ => true | _ => false)

/-- Number of SIGTERMs to `pid`. -/
def sigterms (pid : Nat) (l : List Obs) : Nat := l.countP (fun o => decide (o = .sigterm pid))

end Verif.Remote
