import Verif.Model.ChildIo

/-!
# Vocabulary for input and output of local tasks (specification side)
-/

namespace Verif.ChildIo
open Verif

variable {P : Type}

/-- A run: actions `as` lead from `s` to `s'`. -/
inductive Runs (c : Cfg P) : State P → List Act → State P → Prop
  | nil (s : State P) : Runs c s [] s
  | cons {s s1 s' : State P} {a : Act} {as : List Act} : step c s a = .ok s1 → Runs c s1 as s' → Runs c s (a :: as) s'

/-- Replays actions, for concrete cases. -/
def replay (c : Cfg P) : State P → List Act → Res Unit (State P)
  | s, [] => .ok s
  | s, a :: as => match step c s a with | .ok s1 => replay c s1 as | .err e => .err e | .panic m => .panic m

/-- What holds after replaying actions from the start; `false` if some action is not possible. -/
def after (c : Cfg P) (as : List Act) (p : State P → Bool) : Bool :=
  match replay c (init c) as with | .ok s => p s | _ => false

theorem runs_of_replay {c : Cfg P} : ∀ {as : List Act} {s s' : State P}, replay c s as = .ok s' → Runs c s as s' := by
  intro as
  induction as with
  | nil => intro s s' h; simp only [replay, Res.ok.injEq] at h; subst h; exact .nil _
  | cons a as ih =>
    intro s s' h
    simp only [replay] at h
    split at h
    · rename_i s1 h1; exact .cons h1 (ih h)
    · cases h
    · cases h

theorem runs_of_after {c : Cfg P} {as : List Act} {p : State P → Bool} (h : after c as p = true) :
    ∃ s, Runs c (init c) as s ∧ p s = true := by
  unfold after at h
  split at h
  · rename_i s hs; exact ⟨s, runs_of_replay hs, h⟩
  · cases h

/-- The byte written to the pipe `o` by this action, if any: the `i`-th process is about to write and has the descriptor, and the other
end is open. -/
def wrote (c : Cfg P) (s : State P) (o : Out) : Act → List UInt8
  | .run i =>
    match s.procs[i]? with
    | some p =>
      match c.op p.state with
      | .put x b _ => if x = o ∧ c.piped o ∧ p.holds o ∧ reading s.stage then [b] else []
      | _ => []
    | none => []
  | _ => []

/-- Everything written to the pipe `o` in a run, in this order. -/
def written (c : Cfg P) : State P → Out → List Act → List UInt8
  | _, _, [] => []
  | s, o, a :: as => wrote c s o a ++ (match step c s a with | .ok s1 => written c s1 o as | _ => [])

/-- Does the child itself end here, and how? -/
def childEnd (c : Cfg P) (s : State P) : Act → List Fd3.ProcStatus
  | .run i =>
    match s.procs[i]? with
    | some p => match p.child, c.op p.state with | true, .exit code => [.exited code] | _, _ => []
    | none => []
  | .kill i sig => match s.procs[i]? with | some p => if p.child then [.signaled sig] else [] | none => []
  | _ => []

/-- How the child has ended in a run (an empty list: it has not). -/
def childEnds (c : Cfg P) : State P → List Act → List Fd3.ProcStatus
  | _, [] => []
  | s, a :: as => childEnd c s a ++ (match step c s a with | .ok s1 => childEnds c s1 as | _ => [])

/-- Is it something from outside: a cancellation, a signal? -/
def outside : Act → Bool
  | .cancel | .kill _ _ => true
  | _ => false

/-- Is it an action of the loop? -/
def parent : Act → Bool
  | .run _ | .kill _ _ => false
  | _ => true

/-- Is this one of the ends of the loop body: reported, cancelled, panicked? -/
def over : Stage → Bool
  | .ended _ _ | .cancelled | .panicked => true
  | _ => false

/-- Is it a signal from outside? -/
def isKill : Act → Bool
  | .kill _ _ => true
  | _ => false

/-- A program one of whose processes always stays in `R`: it reads its input to the end before it closes it or exits (it may do
anything after the end of the file). -/
def ReadsAll (c : Cfg P) (R : P → Prop) : Prop :=
  ∀ p, R p → match c.op p with
    | .put _ _ next => R next
    | .get next => ∀ b, R (next (some b))
    | .close _ next => R next
    | .closeInput _ => False
    | .fork next other => R next ∨ R other
    | .work next => R next
    | .exit _ => False

/-- A program one of whose processes always stays in `R`: it neither ends nor closes `o`. -/
def KeepsOpen (c : Cfg P) (o : Out) (R : P → Prop) : Prop :=
  ∀ p, R p → match c.op p with
    | .put _ _ next => R next
    | .get next => ∀ b, R (next b)
    | .close x next => x ≠ o ∧ R next
    | .closeInput next => R next
    | .fork next other => R next ∨ R other
    | .work next => R next
    | .exit _ => False

end Verif.ChildIo
