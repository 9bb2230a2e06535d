import Verif.Model.Deploy
import Verif.Spec.World
import Verif.Spec.Cluster

/-!
# Vocabulary for statements about whole deployments (specification side)
-/

namespace Verif.Cluster
open Verif

/-- Processes that ended, as seen by whoever started them: task, exit code, values written to descriptor 3. -/
def exits (s : State) : Act → List (Nat × Int × List (List (String × String)))
  | .server (.loopOutput i code values) => match s.sys.loops[i]? with | some (.running v _) => [(v, code, values)] | _ => []
  | .runner i (.output out) =>
    match s.runners[i]? with
    | some r =>
      match r.st.phase with
      | .waiting _ _ _ => (r.tasks.getLast?.map (fun x => (x.2.2, out.code, out.values))).toList
      | _ => []
    | none => []
  | _ => []

end Verif.Cluster

namespace Verif.Deploy
open Verif

/-- The transaction ids an `execute` draws at random are distinct. -/
def fresh (d : State) : Act → Prop
  | .cluster a => ∀ l, d.live = some l → Cluster.Fresh l.cfg l.lf l.now (l.acts ++ [a])
  | _ => True

/-- A history: actions lead from one state to another. -/
inductive Runs : State → List Act → State → Prop
  | nil (d : State) : Runs d [] d
  | cons {d d1 d' : State} {a : Act} {as : List Act} : fresh d a → step d a = .ok d1 → Runs d1 as d' → Runs d (a :: as) d'

/-- What can be seen of a history, if an action in a state shows `f`. -/
def collect {β : Type} (f : State → Act → List β) : State → List Act → List β
  | _, [] => []
  | d, a :: as => f d a ++ (match step d a with | .ok d1 => collect f d1 as | _ => [])

/-- The cluster in which an action takes place. -/
def place (d : State) : Act → Option (Live × Cluster.Act)
  | .cluster a => d.live.map (fun l => (l, a))
  | .late n a => d.old[n]?.map (fun l => (l, a))
  | _ => none

/-- The key of a task of an `execute` call. -/
def Live.key (l : Live) (v : Nat) : String := Tracker.keyOf l.cfg.tr v

/-- Processes started, anywhere: the key of the task. -/
def started (d : State) (a : Act) : List String :=
  match place d a with
  | some (l, b) => (Cluster.processes l.st b).map l.key
  | none => []

/-- Processes seen to end, anywhere: the key of the task, exit code, values. -/
def ended (d : State) (a : Act) : List (String × Int × List (List (String × String))) :=
  match place d a with
  | some (l, b) => (Cluster.exits l.st b).map (fun x => (l.key x.1, x.2))
  | none => []

/-- Exit codes that are reported without a process having ended with them: -1: it could not be started by a local loop, the
runner disappeared, or `execute` ended first (localrunner.rs:104-112, sync.rs:791, 230-250); 13: it could not be started by a remote runner
(execgraph-remote.rs:371-378); -15: Slurm ended the runner (execgraph-remote.rs:449-456); -10: cancelled (sync.rs:790, localrunner.rs:135-139). -/
def madeUp (code : Int) : Bool := code == -1 || code == 13 || code == -15 || code == -10

/-- The action as the world of `Verif.Model.World` sees it. -/
def worldAct (d : State) : Act → List World.Act
  | .world a => [a]
  | .exec target rerun fizzles ch now _ _ _ => [.exec target rerun fizzles ch now]
  | .cluster a => match d.live with
    | some l => ((Cluster.sysAct l.st a).flatMap (Sys.trackerAct l.cfg l.st.sys)).map .trk
    | none => []
  | .late _ _ => []

/-- Replays actions, for concrete cases. -/
def replay : State → List Act → Res Unit State
  | d, [] => .ok d
  | d, a :: as => (step d a).bind (fun d1 => replay d1 as)

/-- The transaction ids an `execute` has drawn. -/
def Live.drawn (l : Live) (acts : List Cluster.Act) : List Nat :=
  Sys.collect Sys.drawn l.cfg (Sys.init l.cfg l.lf l.now) (Cluster.served l.cfg l.lf l.now acts)

/-- The same as a check, for concrete cases. -/
def freshB (d : State) : Act → Bool
  | .cluster a => match d.live with
    | some l => decide (l.drawn (l.acts ++ [a])).Nodup
    | none => true
  | _ => true

/-- Do all actions draw new ids? -/
def allFresh : State → List Act → Bool
  | _, [] => true
  | d, a :: as => freshB d a && (match step d a with | .ok d1 => allFresh d1 as | _ => true)

theorem runs_of_replay : ∀ {as : List Act} {d d' : State}, replay d as = .ok d' → allFresh d as = true → Runs d as d' := by
  intro as
  induction as with
  | nil => intro d d' h _; simp only [replay, Res.ok.injEq] at h; subst h; exact .nil _
  | cons a as ih =>
    intro d d' h hf
    simp only [replay] at h
    simp only [allFresh, Bool.and_eq_true] at hf
    cases hs : step d a with
    | ok d1 =>
      rw [hs] at h hf
      refine .cons ?_ hs (ih h hf.2)
      have := hf.1
      cases a with
      | cluster a =>
        intro l hl
        simp only [freshB, hl, decide_eq_true_eq] at this
        exact this
      | _ => trivial
    | err x => rw [hs] at h; cases h
    | panic x => rw [hs] at h; cases h

/-- What holds after replaying actions from the start; `false` if some action is not possible or an id is drawn twice. -/
def after (as : List Act) (p : State → Bool) : Bool :=
  allFresh init as && (match replay init as with | .ok d => p d | _ => false)

theorem runs_of_after {as : List Act} {p : State → Bool} (h : after as p = true) : ∃ d, Runs init as d ∧ p d = true := by
  unfold after at h
  rw [Bool.and_eq_true] at h
  obtain ⟨h1, h2⟩ := h
  split at h2
  · rename_i d hd; exact ⟨d, runs_of_replay hd h1, h2⟩
  · cases h2

end Verif.Deploy
