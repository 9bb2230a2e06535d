import Verif.Props.Rate
import Verif.Props.TaskGraph
import Verif.Props.GraphTheory
import Verif.Props.Selection
import Verif.Props.Log
import Verif.Props.Snapshot
import Verif.Props.Tracker
import Verif.Props.TrackerRuns
import Verif.Props.World
import Verif.Props.Execute
import Verif.Props.Token
import Verif.Props.AsyncFlag
import Verif.Props.Status
import Verif.Props.Ring
import Verif.Props.TimeWheel
import Verif.Props.Lock
import Verif.Props.Display
import Verif.Props.Fd3
import Verif.Spec.Shell
import Verif.Props.Shell
import Verif.Props.Codec
import Verif.Props.System
import Verif.Props.Faults
import Verif.Props.Reports
import Verif.Props.LogBytes
import Verif.Props.Remote
import Verif.Props.Cluster
import Verif.Props.Deploy
import Verif.Props.Disk
import Verif.Props.Terminate
import Verif.Props.ChildIo
import Verif.Props.RateCounter
import Verif.Props.Lifecycle
import Verif.Props.Sockets
import Verif.Props.Progress
import Verif.Props.Fairly
import Verif.Props.Print
import Verif.Props.Mirror
import Verif.Props.Abort
import Verif.Props.LogIo
import Verif.Props.Metered
import Verif.Proof.Metered
import Verif.Spec.Metered
import Verif.Model.Metered
import Verif.Props.Launches
import Verif.Proof.Launches
import Verif.Spec.Launches
import Verif.Model.Launches
import Verif.Props.Average
import Verif.Proof.Average
import Verif.Spec.Average
import Verif.Model.Average
import Verif.Props.Limited
import Verif.Proof.Limited
import Verif.Spec.Limited
import Verif.Model.Limited
import Verif.Props.Numbers
import Verif.Proof.Numbers
import Verif.Spec.Numbers
import Verif.Model.Numbers
import Verif.Props.Lossy
import Verif.Proof.Lossy
import Verif.Spec.Lossy
import Verif.Model.Lossy
import Verif.Props.Piped
import Verif.Proof.Piped
import Verif.Spec.Piped
import Verif.Model.Piped
import Verif.Props.Construct
import Verif.Props.MirrorDir
import Verif.Proof.Construct
import Verif.Spec.Construct
import Verif.Model.Construct
import Verif.Props.Hold
import Verif.Proof.Rest
import Verif.Proof.Hold
import Verif.Spec.Hold
import Verif.Model.Hold
import Verif.Props.Greedy
import Verif.Proof.Greedy3
import Verif.Proof.Greedy2
import Verif.Proof.Greedy
import Verif.Spec.Greedy
import Verif.Props.Range
import Verif.Proof.Range
import Verif.Props.SentAway
import Verif.Proof.SentAway
import Verif.Props.JsonGrammar
import Verif.Props.Runners2
import Verif.Props.Runners
import Verif.Props.Signals
import Verif.Props.SignalsSession
import Verif.Props.Grid
import Verif.Props.GridPanic
import Verif.Props.Names
import Verif.Props.Hooks
import Verif.Props.CtrlC
import Verif.Props.Workflow
import Verif.Props.Resume
import Verif.Props.LogRead
import Verif.Props.Accepted
import Verif.Props.Anywhere
import Verif.Props.Program
import Verif.Proof.Counts
import Verif.Props.Rerun
import Verif.Props.Complete
import Verif.Props.Outcome
import Verif.Props.Admin
import Verif.Props.Family
import Verif.Props.Expand
import Verif.Props.Watcher
import Verif.Props.WheelRace
import Verif.Props.Copy
import Verif.Props.Lifetime
import Verif.Props.Roots
import Verif.Audit
