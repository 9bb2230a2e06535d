import Verif.Spec.Signals

/-!
# Process groups and sessions
-/

namespace Verif.Spec.Signals
open Verif Verif.Signals

/-- On a POSIX system a group lies within one session, and so does the process with the number of the group, if there is one. -/
def GroupsInSessions (s : State) : Prop := ∀ q ∈ s.procs, ∀ r ∈ s.procs, q.pgid = r.pgid ∨ q.pgid = r.pid → q.sid = r.sid

end Verif.Spec.Signals
