import Verif.Model.Tracker
import Verif.Spec.Log
import Verif.Spec.Graph

/-!
# Vocabulary for statements about one `execute` call (specification side)
-/

namespace Verif.Tracker
open Verif

/-- A run of well-behaved runners: actions `as` lead from `s` to `s'`, none of them panics. -/
inductive Runs (c : Cfg) : State → List Act → State → Prop
  | nil (s : State) : Runs c s [] s
  | cons {s s1 s' : State} {a : Act} {as : List Act} :
      disciplined s a = true → step c s a = .ok s1 → Runs c s1 as s' → Runs c s (a :: as) s'

/-- States of an `execute` call that starts with log `lf` at time `now`. -/
def Reachable (c : Cfg) (lf : LogFile) (now : Int) (s : State) : Prop := ∃ as, Runs c (init c lf now) as s

/-- What the callers guarantee about the selected graph: edge ends are nodes, keys are distinct, fewer than 2^32 tasks. -/
structure Good (c : Cfg) : Prop where
  wf : c.g.WF
  small : c.g.n < 2 ^ 32
  keys : (c.g.nodes.map (·.key)).Nodup

/-- Every command can be displayed (its words are valid UTF-8), so that the Ready entry can be written. -/
def Displayable (c : Cfg) : Prop := ∀ cmd ∈ c.g.nodes, (cmd.displayText).isSome

/-- Key of a Ready entry. -/
def readyKey? : LogEntry → Option String | .ready r => some r.key | _ => none

/-- Key and exit code of a Finished entry. -/
def finOf? : LogEntry → Option (String × Int) | .finished f => some (f.key, f.status) | _ => none

/-- Keys of the Ready entries, in order. -/
def readyKeys (es : List LogEntry) : List String := es.filterMap readyKey?

/-- Keys and exit codes of the Finished entries, in order. -/
def finList (es : List LogEntry) : List (String × Int) := es.filterMap finOf?

/-- Runner `r` (a runner type) obtained task `v`. -/
def Obtained (s : State) (v : Nat) : Prop := ∃ r, (r, v) ∈ s.obtained

/-- The finish report of `v` was processed while serving, and it was exit code 0. -/
def Succeeded (s : State) (v : Nat) : Prop := (v, ExitStatus.code 0) ∈ s.processed

/-- A finish report of `v` other than exit code 0 was processed while serving. -/
def FailedIn (s : State) (v : Nat) : Prop := ∃ st, (v, st) ∈ s.processed ∧ st ≠ .code 0

/-- Replays actions, for concrete cases; refuses actions a well-behaved runner does not take. -/
def replay (c : Cfg) : State → List Act → Out
  | s, [] => .ok s
  | s, a :: as => if disciplined s a then (step c s a).bind (fun s1 => replay c s1 as) else .err ()

/-- An empty log file in directory "/d". -/
def emptyLog : LogFile := ⟨.empty, [], "/d"⟩

/-- What holds after replaying actions from the start; `false` if some action is not possible. -/
def after (c : Cfg) (as : List Act) (p : State → Bool) : Bool :=
  match replay c (init c emptyLog 0) as with | .ok s => p s | _ => false

theorem runs_of_replay {c : Cfg} : ∀ {as : List Act} {s s' : State}, replay c s as = .ok s' → Runs c s as s' := by
  intro as
  induction as with
  | nil => intro s s' h; simp only [replay, Res.ok.injEq] at h; subst h; exact .nil _
  | cons a as ih =>
    intro s s' h
    simp only [replay] at h
    split at h
    · rename_i hd
      cases hs : step c s a with
      | ok s1 => rw [hs] at h; exact .cons hd hs (ih h)
      | err x => rw [hs] at h; simp [Res.bind] at h
      | panic x => rw [hs] at h; simp [Res.bind] at h
    · cases h

theorem runs_of_after {c : Cfg} {as : List Act} {p : State → Bool} (h : after c as p = true) :
    ∃ s, Runs c (init c emptyLog 0) as s ∧ p s = true := by
  unfold after at h
  split at h
  · rename_i s hs; exact ⟨s, runs_of_replay hs, h⟩
  · cases h

/-- The entries this execute has appended to the log it started with. -/
def newEntries (lf : LogFile) (s : State) : List LogEntry := s.lf.entries.drop lf.entries.length

/-- Key of a task. -/
def keyOf (c : Cfg) (v : Nat) : String := (cmdOf c.g v).key

/-- Task `v` was made ready: this execute has logged a Ready entry for it. -/
def MadeReady (c : Cfg) (lf : LogFile) (s : State) (v : Nat) : Prop := v < c.g.n ∧ keyOf c v ∈ readyKeys (newEntries lf s)

instance (c : Cfg) (lf : LogFile) (s : State) (v : Nat) : Decidable (MadeReady c lf s v) :=
  inferInstanceAs (Decidable (_ ∧ _))

/-- All finish reports handled so far, while serving and in `drain`. -/
def closedTasks (s : State) : List (Nat × ExitStatus) := s.processed ++ s.drained

/-- What an outside observer sees of one action: `recv` returning a task; a finish report taken from the channel by
the server. -/
inductive Obs where
  | got (runnertype v : Nat)
  | report (v : Nat) (st : ExitStatus)
deriving DecidableEq, Repr

/-- The observation an action gives. -/
def obsOf (s : State) : Act → List Obs
  | .account i => match s.claimed[i]? with | some (r, it) => [.got r it.id] | none => []
  | .recvFinished _ _ => match s.chan with | .finished e :: _ => [.report e.id e.status] | _ => []
  | _ => []

/-- The observations of a run. -/
def observe (c : Cfg) : State → List Act → List Obs
  | _, [] => []
  | s, a :: as => obsOf s a ++ (match step c s a with | .ok s1 => observe c s1 as | _ => [])

/-- Runner type and task, if the observation is a returning `recv`. -/
def Obs.got? : Obs → Option (Nat × Nat) | .got r v => some (r, v) | _ => none

/-- Task and status, if the observation is a finish report. -/
def Obs.report? : Obs → Option (Nat × ExitStatus) | .report v st => some (v, st) | _ => none

/-- Is the server task done with serving? -/
def ServingOver (s : State) : Prop := s.pc = .joining ∨ s.pc = .joined ∨ s.pc = .done

/-- Dependencies have smaller ids than the tasks depending on them (selected graphs have this: `Bridge.selected_good`). -/
def Ordered (c : Cfg) : Prop := ∀ u v, c.g.Dep u v → u < v

/-- Number of receivers inside `recv`, past its checks. -/
def insideRecv (s : State) : Nat := s.waiting.length + s.popped.length + s.claimed.length

/-- Some flag of task `w` is still free: nobody has claimed the task. -/
def Unclaimed (s : State) (w : Nat) : Prop := ∃ f ∈ s.flags, f.owner = w ∧ f.taken = false

/-- Times at which start reports were processed, after one more action. -/
def timesAfter (times : List (Nat × Int)) (s : State) (a : Act) : List (Nat × Int) :=
  match a, s.chan with
  | .recvStarted _, .started id _ _ _ :: _ => (id, s.now) :: times
  | _, _ => times

/-- Does this action process a failure within 5 s (5*10^9 ns) of the processing of the start report? -/
def quickAt (times : List (Nat × Int)) (s : State) (a : Act) : Bool :=
  match a, s.chan with
  | .recvFinished _ _, .finished e :: _ =>
    match times.lookup e.id with
    | some t => decide (e.status ≠ .code 0 ∧ s.now - t < 5000000000)
    | none => false
  | _, _ => false

/-- Number of failures processed along a run within 5 s of the start report; `times`: start reports before the run. -/
def quickFailures (c : Cfg) : (times : List (Nat × Int)) → State → List Act → Nat
  | _, _, [] => 0
  | times, s, a :: as => (quickAt times s a).toNat +
    (match step c s a with | .ok s1 => quickFailures c (timesAfter times s a) s1 as | _ => 0)

/-- No shutdown from outside is acted on: neither a soft one, nor a hard one, nor ctrl-c. -/
def NoShutdown (as : List Act) : Prop := ∀ a ∈ as, a ≠ .seeTrigger ∧ a ≠ .seeHard ∧ a ≠ .ctrlC

end Verif.Tracker
