import Verif.Model.Cluster
import Verif.Spec.System
import Verif.Spec.Remote

/-!
# Vocabulary for statements about server and runners together (specification side)
-/

namespace Verif.Cluster
open Verif

/-- A run: actions `as` lead from `s` to `s'`. -/
inductive Runs (c : Sys.Cfg) : State → List Act → State → Prop
  | nil (s : State) : Runs c s [] s
  | cons {s s1 s' : State} {a : Act} {as : List Act} : step c s a = .ok s1 → Runs c s1 as s' → Runs c s (a :: as) s'

/-- What can be seen of a run, if an action in a state shows `f`. -/
def collect {β : Type} (f : State → Act → List β) (c : Sys.Cfg) : State → List Act → List β
  | _, [] => []
  | s, a :: as => f s a ++ (match step c s a with | .ok s1 => collect f c s1 as | _ => [])

/-- The action as the server sees it. -/
def sysAct (s : State) : Act → List Sys.Act
  | .server a => [a]
  | .other r => [.request r]
  | .arrive k => match s.packets[k]? with | some p => [.request p.req] | none => []
  | _ => []

/-- The run as the server sees it. -/
def served (c : Sys.Cfg) (lf : LogFile) (now : Int) (as : List Act) : List Sys.Act := collect sysAct c (init c lf now) as

/-- No transaction id is drawn twice. -/
def Fresh (c : Sys.Cfg) (lf : LogFile) (now : Int) (as : List Act) : Prop :=
  Sys.FreshTxns c (Sys.init c lf now) (served c lf now as)

/-- Tasks whose process is started: by a local loop, or by a remote runner, the task it has received last. (A runner panics
instead if there is no command or descriptor 3 is used twice.) -/
def processes (s : State) : Act → List Nat
  | .server (.loopSpawn i true) => match s.sys.loops[i]? with | some (.got v) => [v] | _ => []
  | .runner i (.spawn (some _)) =>
    match s.runners[i]? with
    | some r =>
      match r.st.phase with
      | .got q => if q.cmdline = [] ∨ q.inputFd = some 3 then [] else (r.tasks.getLast?.map (·.2.2)).toList
      | _ => []
    | none => []
  | _ => []

/-- Does the main task of a runner wait for an answer? -/
def awaiting : Remote.Phase → Bool
  | .starting | .begun _ _ | .ending _ _ | .gasping _ => true
  | _ => false

/-- How a runner comes to report `code` and `values` for a task it has received as `q`: its process was started and ended so,
after `k` SIGTERMs because of the deadline; it could not be started; or Slurm ended the job. -/
inductive Story (q : Remote.StartResp) : Int → List (List (String × String)) → List Remote.Obs → Prop
  | ran (pid k : Nat) (out : Remote.Output) (next : Bool) : Story q out.code out.values
      ([.received q, .spawn (some pid), .begun q.txn pid] ++ List.replicate k (.sigterm pid) ++
        [.output pid out, .finish q.txn out.code out.values next])
  | failed (next : Bool) : Story q 13 [] [.received q, .spawn none, .begun q.txn 0, .finish q.txn 13 [] next]
  | slurm (pid k : Nat) : Story q (-15) [] ([.received q, .spawn (some pid), .begun q.txn pid] ++
      List.replicate k (.sigterm pid) ++ [.sigterm pid, .finish q.txn (-15) [] false])

/-- Replays actions, for concrete cases. -/
def replay (c : Sys.Cfg) : State → List Act → Res Unit State
  | s, [] => .ok s
  | s, a :: as => (step c s a).bind (fun s1 => replay c s1 as)

theorem runs_of_replay {c : Sys.Cfg} : ∀ {as : List Act} {s s' : State}, replay c s as = .ok s' → Runs c s as s' := by
  intro as
  induction as with
  | nil => intro s s' h; simp only [replay, Res.ok.injEq] at h; subst h; exact .nil _
  | cons a as ih =>
    intro s s' h
    simp only [replay] at h
    cases hs : step c s a with
    | ok s1 => rw [hs] at h; exact .cons hs (ih h)
    | err x => rw [hs] at h; cases h
    | panic x => rw [hs] at h; cases h

/-- What holds after replaying actions from the start; `false` if some action is not possible. -/
def after (c : Sys.Cfg) (as : List Act) (p : State → Bool) : Bool :=
  match replay c (init c Tracker.emptyLog 0) as with | .ok s => p s | _ => false

theorem runs_of_after {c : Sys.Cfg} {as : List Act} {p : State → Bool} (h : after c as p = true) :
    ∃ s, Runs c (init c Tracker.emptyLog 0) as s ∧ p s = true := by
  unfold after at h
  split at h
  · rename_i s hs; exact ⟨s, runs_of_replay hs, h⟩
  · cases h

end Verif.Cluster
