import Verif.Spec.Terminate

/-!
# Vocabulary for how long an `execute` takes (specification side)
-/

namespace Verif.Sys
open Verif Verif.Tracker

/-- How much time an action stands for: only the clock makes time go by. -/
def ticks : Act → Nat
  | .server (.tick d) => d
  | _ => 0

/-- Time that goes by during the actions `as`. -/
def elapsed (as : List Act) : Nat := (as.map ticks).sum

/-- Time that goes by in states with property `p`, while the actions `as` are done from state `s` on. -/
def timeIn (c : Cfg) (p : State → Bool) : State → List Act → Nat
  | _, [] => 0
  | s, a :: as =>
    match step c s a with
    | .ok s' => (if p s then ticks a else 0) + timeIn c p s' as
    | _ => 0

/-- Does the process of task `v` run in a local loop? -/
def runsTask (v : Nat) (s : State) : Bool :=
  s.loops.any (fun l => match l with | .running w _ => w == v | _ => false)

/-- How long the process of `v` ran. -/
def ran (c : Cfg) (v : Nat) (s : State) (as : List Act) : Nat := timeIn c (runsTask v) s as

/-- How long the processes of all selected tasks ran, in total. -/
def work (c : Cfg) (s : State) (as : List Act) : Nat := ((List.range c.tr.g.n).map (fun v => ran c v s as)).sum

/-- Do processes run in all `numParallel` loops (the console loop not counted)? -/
def allBusy (c : Cfg) (s : State) : Bool :=
  (List.range c.numParallel).all (fun i => match s.loops[i]? with | some (.running _ _) => true | _ => false)

/-- execgraph has nothing left to do by itself: it waits for processes to end or for somebody outside. -/
def Resting (c : Cfg) (s : State) : Prop := ¬ ∃ a s', ownAct a = true ∧ step c s a = .ok s'

/-- What execgraph does by itself takes no time: time goes by only when it has nothing left to do. -/
def Swift (c : Cfg) : State → List Act → Prop
  | _, [] => True
  | s, a :: as => (0 < ticks a → Resting c s) ∧ ∀ s', step c s a = .ok s' → Swift c s' as

/-- Tasks, the last one first, each of which depends directly on the one listed after it. -/
inductive DepChain (g : DiGraph Cmd) : List Nat → Prop
  | one (v : Nat) : DepChain g [v]
  | cons {u v : Nat} {l : List Nat} : g.Dep u v → DepChain g (u :: l) → DepChain g (v :: u :: l)

/-- How long the processes of the tasks in the list ran, in total. -/
def timeOf (c : Cfg) (s : State) (as : List Act) (l : List Nat) : Nat := (l.map (fun v => ran c v s as)).sum

/-- Every task accepts runner type 0, that of the `numParallel` loops. -/
def AnyLoop (c : Cfg) : Prop := ∀ cmd ∈ c.tr.g.nodes, cmd.affinity.getLsbD 0 = true

end Verif.Sys
