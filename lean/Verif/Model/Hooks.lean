import Verif.Model.Abort

/-!
# Postambles that refuse

`call_postamble` runs a C function of the user when a finish is handled, before anything is written (sync.rs:401-410). If the function does not
return 0, or the object is no capsule of the right name, it panics, and `execute` with it. Here the histories of `World` go on after that.
The function may do anything, so its results are given with the action.
-/

namespace Verif.Hooks
open Verif Verif.World

/-- A Python object given as postamble (execgraph.rs:65-75). -/
structure PyObj where
  /-- Is it exactly a capsule? (`PyCapsule_CheckExact`) -/
  capsule : Bool
  /-- The name of the capsule. -/
  name : String
deriving DecidableEq, Repr

/-- The check of `Capsule::call` (execgraph.rs:84, 91-93). A capsule has a pointer that is not null. -/
def PyObj.valid (o : PyObj) : Bool := o.capsule && o.name == "Execgraph::Capsule-v3"

/-- What comes of asking: there is no postamble; it can not be called; it returned `i` (execgraph.rs:77-107, 163-178). -/
inductive Answer where
  | absent
  | invalid
  | code (i : Int)
deriving DecidableEq, Repr

/-- Does `call_postamble` return? (execgraph.rs:163-177) -/
def Answer.ok : Answer → Bool
  | .absent => true
  | .invalid => false
  | .code i => i == 0

/-- A call of `call_postamble` (sync.rs:406-410) and what came of it. -/
structure Ask where
  key : String
  success : Bool
  runcount : Nat
  ntasks : Nat
  answer : Answer
deriving DecidableEq, Repr

/-- The call for the finish `x` (sync.rs:402-410, execgraph.rs:77-103, 163-177); `i` is what the function returns, if it is called. -/
def ask (objs : Nat → PyObj) (c : Tracker.Cfg) (x : Nat × Bool) (i : Int) : Ask :=
  let cmd := Tracker.cmdOf c.g x.1
  ⟨cmd.key, x.2, cmd.runcount, c.g.n,
    match cmd.postamble with
    | none => .absent
    | some h => if (objs h).valid then .code i else .invalid⟩

/-- The calls for several finishes one after another (`drain`, sync.rs:183-252), up to the first panic. -/
def asks (objs : Nat → PyObj) (c : Tracker.Cfg) : List (Nat × Bool) → List Int → List Ask
  | [], _ => []
  | x :: xs, is =>
    if (ask objs c x (is.headD 0)).answer.ok then ask objs c x (is.headD 0) :: asks objs c xs is.tail
    else [ask objs c x (is.headD 0)]

/-- Is it a Finished entry? `LogEntry::is_finished` (logfile2.rs:143-145) -/
def isFin : LogEntry → Bool
  | .finished _ => true
  | _ => false

/-- Is action `a` broken off after `k` of its entries `new`, if `passed` calls returned and the next did not? Serving, nothing is
written before the call (sync.rs:308 before 312-327). In `drain` (sync.rs:204-242) the finishes before have been written; simplified: the
made-up Started entry of the refused finish, which would come next, may be there or not. -/
def cutOk (a : Tracker.Act) (new : List LogEntry) (passed k : Nat) : Bool :=
  match a with
  | .drain _ _ => ((new.take k).filter isFin).length == passed
  | _ => k == 0

/-- A world, and (ghost) the calls so far. No counterpart in the code. -/
structure State where
  w : World
  asked : List Ask

/-- Nothing has happened. No counterpart in the code. -/
def init : State := ⟨World.init, []⟩

/-- Actions: those of `World`; those of the scheduler with the values the postambles return, and where it is broken off.
Scheduler: sync.rs:255-390, 401-410; else `Verif.Model.World`. -/
inductive Act where
  | world (a : World.Act)
  | trk (a : Tracker.Act) (answers : List Int) (k : Nat)

/-- The transition function. A refused finish makes `execute` panic (execgraph.rs:166-174 in sync.rs:406), see `Model/Abort`. -/
def step (objs : Nat → PyObj) (s : State) : Act → Res Unit State
  | .world a =>
    match a with
    | .trk _ => .err ()
    | a => (World.step s.w a).bind (fun w => .ok { s with w := w })
  | .trk a answers k =>
    match s.w.sess.bind (fun se => se.run) with
    | none => .err ()
    | some r =>
      match Tracker.step r.cfg r.st a with
      | .ok st =>
        let qs := asks objs r.cfg (st.postambles.drop r.st.postambles.length) answers
        if qs.all (fun q => q.answer.ok) then
          (World.step s.w (.trk a)).bind (fun w => .ok ⟨w, s.asked ++ qs⟩)
        else if cutOk a (st.lf.entries.drop r.st.lf.entries.length) (qs.length - 1) k then
          (Abort.step s.w (.panics (some (a, k)))).bind (fun w => .ok ⟨w, s.asked ++ qs⟩)
        else .err ()
      | .err e => .err e
      | .panic m => .panic m

end Verif.Hooks
