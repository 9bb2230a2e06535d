import Verif.Model.Admin
import Verif.Spec.System

/-!
# Vocabulary for the admin's requests (specification side)
-/

namespace Verif.Admin
open Verif

/-- Runs, with the answers given to the requests, in order. What the runners do is as in `Sys.Runs`. -/
inductive Runs (c : Sys.Cfg) : State → List Act → List Answer → State → Prop where
  | nil (s) : Runs c s [] [] s
  | sys {s s1 s2 a as r} : Sys.polite c s.sys a = true → step c s (.sys a) = .ok (s1, none) → Runs c s1 as r s2 →
      Runs c s (.sys a :: as) r s2
  | permit {s s1 s2 now as r} : step c s (.permit now) = .ok (s1, none) → Runs c s1 as r s2 → Runs c s (.permit now :: as) r s2
  | print {s s1 s2 ps as r} : step c s (.print ps) = .ok (s1, none) → Runs c s1 as r s2 → Runs c s (.print ps :: as) r s2
  | admin {s s1 s2 e q as o r} : step c s (.admin e q) = .ok (s1, some o) → Runs c s1 as r s2 → Runs c s (.admin e q :: as) (o :: r) s2

/-- The request was answered with a status. -/
def Answer.good : Answer → Bool
  | .status _ _ => true
  | _ => false

/-- What the scheduler and its runners are put through: their own actions, and the shutdowns the admin got an answer for. -/
def effects : List Act → List Answer → List Sys.Act
  | .sys a :: as, r => a :: effects as r
  | .admin _ (.shutdown _ soft) :: as, o :: r =>
    if o.good then .server (if soft then .trigger else .cancel .hard) :: effects as r else effects as r
  | .admin _ _ :: as, _ :: r => effects as r
  | _ :: as, r => effects as r
  | [], _ => []

/-- The provisioner info asked for last. -/
def lastInfo (i0 : Option String) : List Act → Option String
  | [] => i0
  | .admin _ (.info i) :: as => lastInfo i as
  | _ :: as => lastInfo i0 as

/-- The rate limit asked for last. -/
def lastRate (r0 : Nat) : List Act → Nat
  | [] => r0
  | .admin _ (.ratelimit r) :: as => lastRate r as
  | _ :: as => lastRate r0 as

/-- The line an admin's shutdown request puts into `log.txt`. -/
def shutdownLine (date user : String) (soft : Bool) : String :=
  "[" ++ date ++ "]: \x1b[1;33mWarning\x1b[0m: " ++ (if soft then "Soft" else "Hard") ++ " shutdown triggered by admin '" ++ user ++ "'\n"

end Verif.Admin
