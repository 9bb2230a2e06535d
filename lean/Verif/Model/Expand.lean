import Verif.Model.Base

/-!
# Options with `%` patterns and job ids (src/bin/execgraph-remote.rs:34-43, 643-668)
-/

namespace Verif.Expand

/-- `str::replace` with the pattern `%c` (`c` not `%`): left to right, not looking at what was put in.
Standard library; called at src/bin/execgraph-remote.rs:643-668. -/
def replace (c : Char) (v : List Char) : List Char → List Char
  | [] => []
  | [x] => [x]
  | x :: y :: s => if x = '%' ∧ y = c then v ++ replace c v s else x :: replace c v (y :: s)

/-- What the runner knows: user name, `SLURM_ARRAY_JOB_ID`, `SLURM_ARRAY_TASK_ID`, `SLURM_JOB_NAME`, `SLURM_CLUSTER_NAME`,
`SLURM_JOB_ID` (if set), host name (execgraph-remote.rs:36-37, 645-667). -/
structure Env where
  user : List Char
  arrayJob : Option (List Char)
  arrayTask : Option (List Char)
  jobName : Option (List Char)
  cluster : Option (List Char)
  jobId : Option (List Char)
  host : List Char
deriving DecidableEq, Repr

/-- `SLURM_JOBID` (execgraph-remote.rs:35-40; again at 651-654): the id by which the server knows the job. -/
def slurmJobid (e : Env) : List Char := e.arrayJob.getD [] ++ '_' :: e.arrayTask.getD []

/-- `parse_disconnect_error_message` (execgraph-remote.rs:651-668): the replacements one after the other. -/
def disconnectMessage (e : Env) (s : List Char) : List Char :=
  replace 'h' e.host (replace 'c' (e.cluster.getD ['%', 'c']) (replace 'x' (e.jobName.getD ['%', 'x'])
    (replace 'j' (slurmJobid e) (replace 'u' e.user s))))

/-- `parse_slurm_error_logfile` (execgraph-remote.rs:643-649): panics without `SLURM_JOB_ID`, which is read before the replacement. -/
def errorLogfile (e : Env) (s : List Char) : Res Unit (List Char) :=
  match e.jobId with
  | none => .panic "Unable to get SLURM_JOB_ID"
  | some j => .ok (replace 'j' j (replace 'u' e.user s))

end Verif.Expand
