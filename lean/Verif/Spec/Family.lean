import Verif.Model.Family
import Verif.Spec.ChildIo
import Verif.Spec.Terminate
import Verif.Spec.Entries

/-!
# Vocabulary for local loops together with their processes (specification side)
-/

namespace Verif.Family
open Verif Verif.Tracker

variable {P : Type}

/-- `/begun` is not repeated, see `Sys.polite`. -/
def polite (c : Cfg P) (s : State P) : Act → Bool
  | .sys a => Sys.polite c.sys s.sys a
  | .kid _ _ => true

/-- A run: actions `as` lead from `s` to `s'`. -/
inductive Runs (c : Cfg P) : State P → List Act → State P → Prop
  | nil (s : State P) : Runs c s [] s
  | cons {s s1 s' : State P} {a : Act} {as : List Act} :
      polite c s a = true → step c s a = .ok s1 → Runs c s1 as s' → Runs c s (a :: as) s'

/-- The actions of the system in a run. -/
def sysActs : List Act → List Sys.Act
  | [] => []
  | .sys a :: as => a :: sysActs as
  | .kid _ _ :: as => sysActs as

/-- What is done with the pipes and processes of loop `i` in an action, other than the start of a task. -/
def kidAct (i : Nat) : Act → List ChildIo.Act
  | .kid j a => if j = i then [a] else []
  | .sys (.loopStarted j _ _) => if j = i then [.started] else []
  | .sys (.loopSoft j) | .sys (.loopHard j) => if j = i then [.cancel] else []
  | .sys (.loopOutput j _ _) => if j = i then [.finish] else []
  | _ => []

/-- What is done with the pipes and processes of loop `i` in a run. -/
def kidActs (i : Nat) (as : List Act) : List ChildIo.Act := as.flatMap (kidAct i)

/-- Does loop `i` start a process? -/
def spawns (i : Nat) : Act → Bool
  | .sys (.loopSpawn j true) => j == i
  | _ => false

/-- In the run `as` loop `i` started a process of task `v`, and `hist` is what was done in its pipes and by its processes since, until
the loop started the next one or until some moment before. -/
def Did (c : Cfg P) (s0 : State P) (as : List Act) (i v : Nat) (hist : List ChildIo.Act) : Prop :=
  ∃ pre mid post s1, as = pre ++ .sys (.loopSpawn i true) :: (mid ++ post) ∧ Runs c s0 pre s1 ∧ s1.sys.loops[i]? = some (.got v) ∧
    (∀ a ∈ mid, spawns i a = false) ∧ hist = kidActs i mid

/-- In the run `as` a local process of task `v` ended as `st`, and `bytes` is what it and its descendants had written to descriptor 3. -/
def Ran (c : Cfg P) (s0 : State P) (as : List Act) (v : Nat) (st : Fd3.ProcStatus) (bytes : List UInt8) : Prop :=
  ∃ i hist s, Did c s0 as i v hist ∧ ChildIo.Runs (childCfg c i v) (ChildIo.init (childCfg c i v)) hist s ∧
    ChildIo.childEnds (childCfg c i v) (ChildIo.init (childCfg c i v)) hist = [st] ∧
    ChildIo.written (childCfg c i v) (ChildIo.init (childCfg c i v)) .val hist = bytes ∧
    ∀ p ∈ s.procs, p.holds .val = false

/-- Is the action one of execgraph or of a process it has started? -/
def internal : Act → Bool
  | .sys a => Sys.internal a
  | .kid _ (.kill _ _) => false
  | .kid _ _ => true

/-- Does a local loop panic? -/
def isDie : Act → Bool
  | .sys a => Sys.isDie a
  | .kid _ _ => false

/-- Does somebody ask for a soft shutdown? -/
def isTrigger : Act → Bool
  | .sys a => Sys.isTrigger a
  | .kid _ _ => false

/-- Is a process killed by somebody else? -/
def isKill : Act → Bool
  | .kid _ (.kill _ _) => true
  | _ => false

/-- Does something go wrong around the programs? A shutdown request, Ctrl-C, a panic of a loop, a process that cannot be started or is
killed by somebody else. -/
def trouble : Act → Bool
  | .sys (.server .trigger) | .sys (.server .ctrlC) | .sys (.server (.cancel _)) | .sys (.loopDie _) | .sys (.loopSpawn _ false) => true
  | .kid _ (.kill _ _) => true
  | _ => false

/-- Loop `i` is writing the input of a task and cannot go on: nobody can read it any more, or the pipe is full and all
processes of the task are themselves in front of a full pipe. -/
def Jammed (c : Cfg P) (s : State P) (i : Nat) : Prop :=
  ∃ v x st b rest, s.sys.loops[i]? = some (.spawned v x) ∧ kidOf s i = some ⟨v, st⟩ ∧ st.stage = .feeding (b :: rest) ∧
    ((∀ p ∈ st.procs, p.input = false) ∨
      c.cap ≤ st.inBuf.length ∧ ∀ p ∈ st.procs, ∃ o b next, c.op v p.state = .put o b next ∧ (childCfg c i v).piped o = true ∧
        p.holds o = true ∧ c.cap ≤ (st.buf o).length)

/-- The inputs of all tasks fit into a pipe, and are read to the end. -/
def InputsRead (c : Cfg P) : Prop :=
  ∀ v d bytes, v < c.sys.tr.g.n → (cmdOf c.sys.tr.g v).fdInput = some (d, bytes) →
    bytes.length ≤ c.cap ∧ ∃ R : P → Prop, ChildIo.ReadsAll (childCfg c 0 v) R ∧ R (c.start v)

/-- The programs come to an end: `rank` says how much a process has still to do; it gets smaller with every step, but a byte
of input may make `k` more to do. What is to be done after a fork is divided among the two processes. -/
def Ends (op : P → ChildIo.Op P) (k : Nat) (rank : P → Nat) : Prop :=
  ∀ p, match op p with
    | .put _ _ next => rank next < rank p
    | .get next => (∀ b, rank (next (some b)) ≤ rank p + k) ∧ rank (next none) < rank p
    | .close _ next => rank next < rank p
    | .closeInput next => rank next < rank p
    | .fork next other => rank next + rank other < rank p
    | .work next => rank next < rank p
    | .exit _ => 0 < rank p

/-- An infinite run: the clock may go on for ever. -/
structure InfRun (c : Cfg P) (lf : LogFile) (now : Int) (σ : Nat → State P) (α : Nat → Act) : Prop where
  start : σ 0 = init c lf now
  next : ∀ k, polite c (σ k) (α k) = true ∧ step c (σ k) (α k) = .ok (σ (k + 1))

/-- Nobody waits for ever in front of a possible action of execgraph or of its processes (other than a panic of a loop). -/
def Fair (c : Cfg P) (σ : Nat → State P) (α : Nat → Act) : Prop :=
  ∀ k, (∃ a s', internal a = true ∧ isDie a = false ∧ step c (σ k) a = .ok s') → ∃ j, k ≤ j ∧ internal (α j) = true

/-- Replays actions, for concrete cases. -/
def replay (c : Cfg P) : State P → List Act → Res Unit (State P)
  | s, [] => .ok s
  | s, a :: as => if polite c s a then (step c s a).bind (fun s1 => replay c s1 as) else .err ()

theorem runs_of_replay {c : Cfg P} : ∀ {as : List Act} {s s' : State P}, replay c s as = .ok s' → Runs c s as s' := by
  intro as
  induction as with
  | nil => intro s s' h; simp only [replay, Res.ok.injEq] at h; subst h; exact .nil _
  | cons a as ih =>
    intro s s' h
    simp only [replay] at h
    split at h
    · rename_i hd
      cases hs : step c s a with
      | ok s1 => rw [hs] at h; exact .cons hd hs (ih h)
      | err x => rw [hs] at h; simp [Res.bind] at h
      | panic x => rw [hs] at h; simp [Res.bind] at h
    · cases h

/-- What holds after replaying actions from the start; `false` if some action is not possible. -/
def after (c : Cfg P) (as : List Act) (p : State P → Bool) : Bool :=
  match replay c (init c emptyLog 0) as with | .ok s => p s | _ => false

theorem runs_of_after {c : Cfg P} {as : List Act} {p : State P → Bool} (h : after c as p = true) :
    ∃ s, Runs c (init c emptyLog 0) as s ∧ p s = true := by
  unfold after at h
  split at h
  · rename_i s hs; exact ⟨s, runs_of_replay hs, h⟩
  · cases h

end Verif.Family
