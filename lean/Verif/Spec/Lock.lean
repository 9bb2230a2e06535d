import Verif.Model.Lock

/-!
# What exclusive access to the log means
-/

namespace Verif.Lock

/-- `p` has the log open for writing: `new` has succeeded and the object is not completely dropped. -/
def Proc.hasLog : Proc → Bool
  | .holding _ _ _ | .dropping _ _ _ => true
  | _ => false

/-- `p` is between opening and locking the lock file. -/
def Proc.inBetween : Proc → Bool
  | .opened _ => true
  | _ => false

/-- `p` is in `drop`. -/
def Proc.inDrop : Proc → Bool
  | .dropping _ _ _ => true
  | _ => false

/-- At most one opener has the log. -/
def Exclusive (s : State) : Prop := ∀ p q, (s.procs p).hasLog = true → (s.procs q).hasLog = true → p = q

/-- The proviso: when `a` removes the lock file nobody is between opening and locking it, and when `a` opens it nobody is
in `drop`. -/
def Calm (s : State) : Act → Prop
  | .unlink p => (s.procs p).hasLog = true → ∀ q, (s.procs q).inBetween = false
  | .openLock _ => ∀ q, (s.procs q).inDrop = false
  | _ => True

/-- A schedule in which every action meets the proviso. -/
inductive CalmRuns : State → List Act → State → Prop
  | nil (s) : CalmRuns s [] s
  | cons {s a as s'} : Calm s a → CalmRuns (step s a) as s' → CalmRuns s (a :: as) s'

/-- Nobody ever removes the lock file. -/
def NoUnlink (as : List Act) : Prop := ∀ p, Act.unlink p ∉ as

end Verif.Lock
