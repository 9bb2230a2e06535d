import Verif.Model.Grid
import Verif.Spec.Anywhere

/-!
# Vocabulary for server, loops, runners and all processes (specification side)
-/

namespace Verif.Grid
open Verif Verif.Tracker

variable {P : Type}

/-- A run: actions `as` lead from `s` to `s'`. -/
inductive Runs (c : Family.Cfg P) : State P → List Act → State P → Prop
  | nil (s : State P) : Runs c s [] s
  | cons {s s1 s' : State P} {a : Act} {as : List Act} : step c s a = .ok s1 → Runs c s1 as s' → Runs c s (a :: as) s'

/-- The actions of server, loops and runners. -/
def clActs : List Act → List Cluster.Act
  | [] => []
  | .cl a :: as => a :: clActs as
  | _ :: as => clActs as

/-- What can be seen of a run, if an action in a state shows `f`. -/
def collect {β : Type} (f : State P → Act → List β) (c : Family.Cfg P) : State P → List Act → List β
  | _, [] => []
  | s, a :: as => f s a ++ (match step c s a with | .ok s1 => collect f c s1 as | _ => [])

/-- The action as the local side sees it. -/
def famAct (s : State P) : Act → List Family.Act
  | .cl a => (Cluster.sysAct (cluster s) a).map .sys
  | .near i a => [.kid i a]
  | .far _ _ => []

/-- No transaction id is drawn twice. -/
def Fresh (c : Family.Cfg P) (lf : LogFile) (now : Int) (as : List Act) : Prop := Cluster.Fresh c.sys lf now (clActs as)

/-- In the run `as` a process of task `v`, started by a remote runner, ended as `st`, and `bytes` is what it and its descendants had written
to descriptor 3, which nobody has open any more. -/
def RanFar (c : Family.Cfg P) (s0 : State P) (as : List Act) (v : Nat) (st : Fd3.ProcStatus) (bytes : List UInt8) : Prop :=
  ∃ pre post s i k, as = pre ++ post ∧ Runs c s0 pre s ∧ s.far i = some k ∧ k.task = v ∧
    ChildIo.Runs (farCfg c v) (ChildIo.init (farCfg c v)) k.hist k.st ∧
    ChildIo.childEnds (farCfg c v) (ChildIo.init (farCfg c v)) k.hist = [st] ∧
    ChildIo.written (farCfg c v) (ChildIo.init (farCfg c v)) .val k.hist = bytes ∧
    ∀ p ∈ k.st.procs, p.holds .val = false

/-- In the run `as` a process of task `v`, started by a local loop, ended as `st`, and `bytes` is what it and its descendants had written
to descriptor 3, see `Family.Ran`. -/
def RanNear (c : Family.Cfg P) (lf : LogFile) (now : Int) (as : List Act) (v : Nat) (st : Fd3.ProcStatus) (bytes : List UInt8) : Prop :=
  Family.Ran c (Family.init c lf now) (collect famAct c (init c lf now) as) v st bytes

/-- Does something go wrong around the programs? A shutdown request, Ctrl-C, a cancellation, a process that cannot be started or is
killed by somebody (also by the SIGTERM of its runner after the deadline), a runner told by Slurm to stop. -/
def trouble : Act → Bool
  | .cl a => Cluster.disturbed a
  | .near _ (.kill _ _) | .far _ (.kill _ _) => true
  | _ => false

/-- The programs of the tasks, each with its input, write `bytes v` to descriptor 3 and exit with `code v`. -/
def Programs (c : Family.Cfg P) (code : Nat → Nat) (bytes : Nat → List UInt8) : Prop :=
  ∀ v, v < c.sys.tr.g.n → ChildIo.Gives (farCfg c v) .val (bytes v) (code v)

/-- Replays actions, for concrete cases. -/
def replay (c : Family.Cfg P) : State P → List Act → Res Unit (State P)
  | s, [] => .ok s
  | s, a :: as => (step c s a).bind (fun s1 => replay c s1 as)

theorem runs_of_replay {c : Family.Cfg P} : ∀ {as : List Act} {s s' : State P}, replay c s as = .ok s' → Runs c s as s' := by
  intro as
  induction as with
  | nil => intro s s' h; simp only [replay, Res.ok.injEq] at h; subst h; exact .nil _
  | cons a as ih =>
    intro s s' h
    simp only [replay] at h
    cases hs : step c s a with
    | ok s1 => rw [hs] at h; exact .cons hs (ih h)
    | err x => rw [hs] at h; cases h
    | panic x => rw [hs] at h; cases h

/-- What holds after replaying actions from the start; `false` if some action is not possible. -/
def after (c : Family.Cfg P) (as : List Act) (p : State P → Bool) : Bool :=
  match replay c (init c emptyLog 0) as with | .ok s => p s | _ => false

theorem runs_of_after {c : Family.Cfg P} {as : List Act} {p : State P → Bool} (h : after c as p = true) :
    ∃ s, Runs c (init c emptyLog 0) as s ∧ p s = true := by
  unfold after at h
  split at h
  · rename_i s hs; exact ⟨s, runs_of_replay hs, h⟩
  · cases h

end Verif.Grid
