import Verif.Proof.Grid2
import Verif.Props.Anywhere
import Verif.Props.Program

/-!
# C167: from the programs to the log, wherever they run

`Runs c (init c lf now) as s`: in an `execute` call the server, the local loops, the remote runners, and the pipes and processes of both have
done `as`; task `v` has the program `c.op v`.
-/

namespace Verif.Props.Grid
open Verif Verif.Grid
open Verif.Tracker hiding Act Cfg State Runs init step replay after runs_of_replay runs_of_after
open Verif.Props.Tracker (t0)
open Verif.Props.System (job loopRun)
open Verif.Props.Cluster (r0)
open Verif.Props.ChildIo (table)
open scoped List

variable {P P' : Type} {c : Family.Cfg P} {c' : Family.Cfg P'} {lf lf' : LogFile} {now now' : Int} {s : State P} {s' : State P'} {as as' : List Act}

/-- C167: whatever the processes do, server, loops and runners do what the other theorems say: without the processes the run is one of
`Verif.Model.Cluster`, and without the remote runners it is one of `Verif.Model.Family`. -/
theorem run_of_parts (hr : Runs c (init c lf now) as s) (hf : Fresh c lf now as) :
    Cluster.Runs c.sys (Cluster.init c.sys lf now) (clActs as) (cluster s) ∧
    Family.Runs c (Family.init c lf now) (collect famAct c (init c lf now) as) s.fam :=
  ⟨hr.clusterInit, (hr.family hf).1⟩

/-- **C167.** Every Finished entry this execute has appended to the log: a process of the task with this key, started by a local loop or by a
remote runner, ended with this code (negative: by this signal), and the values are made of exactly what it and its descendants wrote to
descriptor 3, which nobody has open any more; or the code is one of the substitutes -1 and -10 (not started, lost, drained, cancelled),
13 (a remote runner could not start it) and -15 (Slurm told a remote runner to stop). -/
theorem logged_end_true (hg : Good c.sys.tr) (hr : Runs c (init c lf now) as s) (hf : Fresh c lf now as) {f : FinishedEntry}
    (he : LogEntry.finished f ∈ newEntries lf s.fam.sys.tr) :
    (∃ v st bytes, keyOf c.sys.tr v = f.key ∧ (RanNear c lf now as v st bytes ∨ RanFar c (init c lf now) as v st bytes) ∧
      Fd3.code st = .code f.status ∧ f.values = Fd3.fd3Values ⟨bytes.toArray⟩) ∨
    (f.status = -1 ∨ f.status = -10) ∧ f.values = [] ∨
    (∃ (i : Nat) (r : Cluster.Runner), s.runners[i]? = some r ∧ .spawn none ∈ r.st.trace ∧ f.status = 13) ∨
    ∃ (i : Nat) (r : Cluster.Runner) (p T : Nat), s.runners[i]? = some r ∧ [.sigterm p, .finish T (-15) [] false] <:+: r.st.trace ∧ f.status = -15 := by
  have hc := hr.clusterInit
  have hrs := (hc.inv hf).run
  rcases Props.Tracker.entries_have_origin (hrs.toInit hg) _ he with ⟨e, h1, h2, h3, h4⟩ | ⟨_, v, _, _, h3, h4⟩
  · have ran : ∀ code, (e.id, code, e.values) ∈ Cluster.collect Cluster.exits c.sys (Cluster.init c.sys lf now) (clActs as) → f.status = code →
        ∃ v st bytes, keyOf c.sys.tr v = f.key ∧ (RanNear c lf now as v st bytes ∨ RanFar c (init c lf now) as v st bytes) ∧
          Fd3.code st = .code f.status ∧ f.values = Fd3.fd3Values ⟨bytes.toArray⟩ := by
      intro code hx e1
      obtain ⟨st, bytes, g1, g2, g3⟩ := exits_ran hr hf hx
      exact ⟨e.id, st, bytes, h2.symm, g1, by rw [e1]; exact g2, by rw [h4]; exact g3⟩
    rcases Props.System.finish_reports_true hrs h1 with ⟨code, h5, h6⟩ | ⟨code, txn, _, h5, h6, _⟩ | ⟨h5, h6, _⟩ | ⟨h5, h6, _⟩ | ⟨h5, h6, _⟩
    · rw [h5] at h3
      exact .inl (ran code (Cluster.outputs_exits hc hf _ h6) h3)
    · rw [h5] at h3
      have h3 : f.status = code := h3
      rcases Cluster.end_story hc hf h6 with g | ⟨i, r, g1, g2, g3⟩ | ⟨i, r, p, g1, g2, g3⟩
      · exact .inl (ran code g h3)
      · exact .inr (.inr (.inl ⟨i, r, g1, g2, h3.trans g3⟩))
      · exact .inr (.inr (.inr ⟨i, r, p, txn, g1, g2, h3.trans g3⟩))
    · rw [h5] at h3; exact .inr (.inl ⟨.inl h3, by rw [h4, h6]⟩)
    · rw [h5] at h3; exact .inr (.inl ⟨.inr h3, by rw [h4, h6]⟩)
    · rw [h5] at h3; exact .inr (.inl ⟨.inl h3, by rw [h4, h6]⟩)
  · exact .inr (.inl ⟨.inl h3, h4⟩)

/-- **C167.** Programs that write `bytes v` to descriptor 3 and exit with `code v`; fewer of them fail than quick failures are allowed.
After a complete `execute`, with any number of local loops and remote runners, without trouble (shutdown requests, Ctrl-C, processes that
cannot be started or are killed, Slurm) and in which the server heard of every runner in time, the log has been given exactly
these Finished entries: one for every task all of whose dependencies exit with 0, with the exit code and the values of its program. -/
theorem log_computed_anywhere (hg : Good c.sys.tr) (hord : Ordered c.sys.tr) {code : Nat → Nat} {bytes : Nat → List UInt8}
    (hp : Programs c code bytes) (hfew : Family.FewFailures c.sys.tr (Family.behaviour code bytes))
    (hr : Runs c (init c lf now) as s) (hf : Fresh c lf now as) (hh : Cluster.Heard c.sys lf now (clActs as))
    (ha : ∀ a ∈ as, trouble a = false) (he : ServingOver s.fam.sys.tr) :
    (∀ o, o ∈ outcomes (newEntries lf s.fam.sys.tr) ↔ ∃ v, v < c.sys.tr.g.n ∧ (∀ u, c.sys.tr.g.Reach u v → code u = 0) ∧
      o = (keyOf c.sys.tr v, (code v : Int), Fd3.fd3Values ⟨(bytes v).toArray⟩)) ∧
    (outcomes (newEntries lf s.fam.sys.tr)).Nodup ∧
    (∀ v, v < c.sys.tr.g.n → (Succeeded s.fam.sys.tr v ↔ code v = 0 ∧ ∀ u, c.sys.tr.g.Reach u v → code u = 0)) := by
  obtain ⟨l1, l2, l3⟩ := Props.Anywhere.log_determined_anywhere_partial hg hord hr.clusterInit hf hh
    (fun a h => ha _ (mem_clActs h)) (ends_as hg hp hr hf ha) hfew he
  have hdue : ∀ v, Due c.sys.tr (Family.behaviour code bytes) v ↔ v < c.sys.tr.g.n ∧ ∀ u, c.sys.tr.g.Reach u v → code u = 0 := by
    intro v
    unfold Due Family.behaviour
    simp only [ExitStatus.code.injEq, Int.natCast_eq_zero]
  refine ⟨fun o => ?_, l2, fun v hv => ?_⟩
  · refine (l1 o).trans ?_
    constructor
    · rintro ⟨v, hd, rfl⟩
      exact ⟨v, ((hdue v).1 hd).1, ((hdue v).1 hd).2, rfl⟩
    · rintro ⟨v, hv, hd, rfl⟩
      exact ⟨v, (hdue v).2 ⟨hv, hd⟩, rfl⟩
  · unfold Succeeded
    refine (l3 v (.code 0)).trans ?_
    rw [hdue]
    simp only [Family.behaviour, ExitStatus.code.injEq]
    constructor
    · rintro ⟨⟨_, h⟩, e⟩; exact ⟨by omega, h⟩
    · rintro ⟨e, h⟩; exact ⟨⟨hv, h⟩, by omega⟩

/-- **C167.** So two such executions of the same tasks, with programs that do the same but maybe in another way, the one here and the other
there, add the same to the log up to order and return the same numbers. -/
theorem placement_of_programs_irrelevant (hg : Good c.sys.tr) (hord : Ordered c.sys.tr) (hg' : Good c'.sys.tr)
    (hsame : SameTasks c.sys.tr c'.sys.tr) {code : Nat → Nat} {bytes : Nat → List UInt8}
    (hp : Programs c code bytes) (hfew : Family.FewFailures c.sys.tr (Family.behaviour code bytes))
    (hr : Runs c (init c lf now) as s) (hf : Fresh c lf now as) (hh : Cluster.Heard c.sys lf now (clActs as))
    (ha : ∀ a ∈ as, trouble a = false) (he : ServingOver s.fam.sys.tr)
    (hp' : Programs c' code bytes) (hfew' : Family.FewFailures c'.sys.tr (Family.behaviour code bytes))
    (hr' : Runs c' (init c' lf' now') as' s') (hf' : Fresh c' lf' now' as') (hh' : Cluster.Heard c'.sys lf' now' (clActs as'))
    (ha' : ∀ a ∈ as', trouble a = false) (he' : ServingOver s'.fam.sys.tr) :
    outcomes (newEntries lf s.fam.sys.tr) ~ outcomes (newEntries lf' s'.fam.sys.tr) ∧
    s.fam.sys.tr.nFailed = s'.fam.sys.tr.nFailed ∧ s.fam.sys.tr.nSuccess = s'.fam.sys.tr.nSuccess :=
  Props.Anywhere.placement_irrelevant_partial hg hord hg' hsame hr.clusterInit hf hh (fun a h => ha _ (mem_clActs h)) (ends_as hg hp hr hf ha)
    hfew he hr'.clusterInit hf' hh' (fun a h => ha' _ (mem_clActs h)) (ends_as hg' hp' hr' hf' ha') hfew' he'

/-! ### Non-trivial case -/

/-- `b` needs `a`, `c` needs `b`; `b` may only run remotely and has an input. -/
def spread : Family.Cfg Nat where
  sys := {
    tr := { g := ⟨[job "a", { job "b" 4 with fdInput := some (5, [8]) }, job "c"], [(0, 1), (1, 2)]⟩, fizzlesAllowed := 2 }
    numParallel := 1
    remote := true
    secret := "k" }
  op := fun v => match v with
    -- writes `x=y` to descriptor 3 and exits with 0
    | 0 => table [.put .val 120 1, .put .val 61 2, .put .val 121 3]
    -- reads its input to the end, writes `z=w` to descriptor 3 and exits with 3
    | 1 => table [.get (fun b => if b.isSome then 0 else 1), .put .val 122 2, .put .val 61 3, .put .val 119 4, .exit 3]
    | _ => table [.work 1]
  start := fun _ => 0
  cap := 2

/-- `a` is run by the local loop, `b` by a remote runner. -/
def spreadRun : List Act :=
  [.cl (.server (.server (.begin [0] t0))), .cl (.server (.server .sendNext)), .cl (.server (.server (.sendDone t0)))] ++
  (loopRun 0 0).map (fun a => .cl (.server a)) ++
  [.cl (.server (.server (.recvStarted t0))), .near 0 (.run 0), .near 0 (.run 0), .near 0 (.collect .val), .near 0 (.run 0),
    .near 0 (.collect .val), .near 0 (.collect .val), .near 0 (.run 0), .near 0 .reap, .near 0 (.eof .val), .near 0 (.eof .out), .near 0 (.eof .err),
    .cl (.server (.loopOutput 0 0 [[("x", "y")]])), .cl (.server (.loopReport 0)),
    .cl (.server (.server (.recvFinished [1] t0))), .cl (.server (.server .sendNext)), .cl (.server (.server (.sendDone t0))),
    .cl (.join { r0 with rt := 2 }), .cl (.runner 0 .sendStart), .cl (.arrive 0), .cl (.server (.hRecv 0)), .cl (.server (.server (.pop 0 0))),
    .cl (.server (.server (.claim 0))), .cl (.server (.hGot 0 0)), .cl (.server (.hTimer 0 5)), .cl (.server (.hInsert 0)), .cl (.answer 0),
    .cl (.runner 0 (.spawn (some 7))), .far 0 .feed, .far 0 (.run 0), .cl (.runner 0 (.fed true)), .far 0 (.run 0), .far 0 (.run 0),
    .cl (.runner 0 .sendBegun), .cl (.arrive 1), .cl (.answer 0), .cl (.server (.server (.recvStarted t0))),
    .far 0 (.run 0), .far 0 (.collect .val), .far 0 (.run 0), .far 0 (.run 0), .cl (.runner 0 (.childEnds 7)), .far 0 .reap,
    .far 0 (.collect .val), .far 0 (.collect .val), .far 0 (.eof .out), .far 0 (.eof .err), .far 0 (.eof .val),
    .cl (.runner 0 (.output ⟨3, [[("z", "w")]]⟩)), .cl (.runner 0 .sendEnd), .cl (.arrive 2), .cl (.server (.hCancel 2)),
    .cl (.server (.hReport 2)), .cl (.server (.server (.recvFinished [2] t0)))]

def spreadCode (v : Nat) : Nat := if v = 1 then 3 else 0
def spreadBytes (v : Nat) : List UInt8 := if v = 0 then [120, 61, 121] else if v = 1 then [122, 61, 119] else []

theorem spread_good : Good spread.sys.tr := ⟨fun e h => by revert e; decide, by decide, by decide⟩
theorem spread_ordered : Ordered spread.sys.tr := by
  intro u v h
  have : u = 0 ∧ v = 1 ∨ u = 1 ∧ v = 2 := by simpa [spread, DiGraph.Dep] using h
  omega

theorem spread_programs : Programs spread spreadCode spreadBytes := by
  intro v hv
  have hv : v = 0 ∨ v = 1 ∨ v = 2 := by
    have : v < 3 := hv
    omega
  rcases hv with rfl | rfl | rfl
  · exact .put (next := 1) rfl <| .put (next := 2) rfl <| .put (next := 3) rfl <| .exit rfl
  · exact .get (next := fun b => if b.isSome then 0 else 1) rfl <| .getEnd (next := fun b => if b.isSome then 0 else 1) rfl (.inr rfl) <|
      .put (next := 2) rfl <| .put (next := 3) rfl <| .put (next := 4) rfl <| .exit rfl
  · exact .work (next := 1) rfl <| .exit rfl

theorem spread_few : Family.FewFailures spread.sys.tr (Family.behaviour spreadCode spreadBytes) :=
  Props.Anywhere.few_of_one (by intro v h; simp [Family.behaviour, spreadCode, h]) (by decide)

/-- `a` runs here and `b` there; both are logged with what their programs do. -/
theorem spread_logged : ∃ s, Runs spread (init spread emptyLog 0) spreadRun s ∧ Fresh spread emptyLog 0 spreadRun ∧
    ServingOver s.fam.sys.tr ∧ outcomes (newEntries emptyLog s.fam.sys.tr) = [("a", 0, [[("x", "y")]]), ("b", 3, [[("z", "w")]])] := by
  obtain ⟨s, h1, h2⟩ := runs_of_after (c := spread) (as := spreadRun) (p := fun s => s.fam.sys.tr.pc == .joining &&
    outcomes (newEntries emptyLog s.fam.sys.tr) == [("a", 0, [[("x", "y")]]), ("b", 3, [[("z", "w")]])]) (by decide +kernel)
  simp only [Bool.and_eq_true, beq_iff_eq] at h2
  exact ⟨s, h1, by unfold Fresh Cluster.Fresh Sys.FreshTxns; decide +kernel, .inl h2.1, h2.2⟩

/-- All hypotheses of `log_computed_anywhere` are met by it. -/
example : ∃ s, Runs spread (init spread emptyLog 0) spreadRun s ∧ ServingOver s.fam.sys.tr ∧
    ∀ o, o ∈ outcomes (newEntries emptyLog s.fam.sys.tr) ↔ ∃ v, v < 3 ∧ (∀ u, spread.sys.tr.g.Reach u v → spreadCode u = 0) ∧
      o = (keyOf spread.sys.tr v, (spreadCode v : Int), Fd3.fd3Values ⟨(spreadBytes v).toArray⟩) := by
  obtain ⟨s, h1, h2, h3, _⟩ := spread_logged
  exact ⟨s, h1, h3, (log_computed_anywhere spread_good spread_ordered spread_programs spread_few h1 h2
    (Props.Anywhere.heard_of_few (by unfold Sys.Prompt; decide +kernel) (by decide +kernel)) (by decide +kernel) h3).1⟩

/-- The same tasks, but `b` may run locally, and `a` does some work before it writes. -/
def hereToo : Family.Cfg Nat where
  sys := {
    tr := { g := ⟨[job "a", { job "b" with fdInput := some (5, [8]) }, job "c"], [(0, 1), (1, 2)]⟩, fizzlesAllowed := 2 }
    numParallel := 1
    remote := false
    secret := "" }
  op := fun v => match v with
    | 0 => table [.work 1, .put .val 120 2, .put .val 61 3, .put .val 121 4]
    | 1 => table [.get (fun b => if b.isSome then 0 else 1), .put .val 122 2, .put .val 61 3, .put .val 119 4, .exit 3]
    | _ => table [.work 1]
  start := fun _ => 0
  cap := 1

/-- Both tasks run locally. -/
def hereRun : List Act :=
  [.cl (.server (.server (.begin [0] t0))), .cl (.server (.server .sendNext)), .cl (.server (.server (.sendDone t0)))] ++
  (loopRun 0 0).map (fun a => .cl (.server a)) ++
  [.cl (.server (.server (.recvStarted t0))), .near 0 (.run 0), .near 0 (.run 0), .near 0 (.collect .val), .near 0 (.run 0),
    .near 0 (.collect .val), .near 0 (.run 0), .near 0 (.collect .val), .near 0 (.run 0), .near 0 .reap, .near 0 (.eof .val),
    .near 0 (.eof .out), .near 0 (.eof .err),
    .cl (.server (.loopOutput 0 0 [[("x", "y")]])), .cl (.server (.loopReport 0)),
    .cl (.server (.server (.recvFinished [1] t0))), .cl (.server (.server .sendNext)), .cl (.server (.server (.sendDone t0)))] ++
  ((loopRun 0 0).take 5).map (fun a => .cl (.server a)) ++
  [.near 0 .feed, .near 0 (.run 0), .near 0 .fed] ++ ((loopRun 0 0).drop 5).map (fun a => .cl (.server a)) ++
  [.cl (.server (.server (.recvStarted t0))), .near 0 (.run 0), .near 0 (.run 0), .near 0 (.collect .val), .near 0 (.run 0),
    .near 0 (.collect .val), .near 0 (.run 0), .near 0 (.collect .val), .near 0 (.run 0), .near 0 .reap, .near 0 (.eof .val),
    .near 0 (.eof .out), .near 0 (.eof .err),
    .cl (.server (.loopOutput 0 3 [[("z", "w")]])), .cl (.server (.loopReport 0)),
    .cl (.server (.server (.recvFinished [2] t0)))]

theorem hereToo_good : Good hereToo.sys.tr := ⟨fun e h => by revert e; decide, by decide, by decide⟩

theorem hereToo_programs : Programs hereToo spreadCode spreadBytes := by
  intro v hv
  have hv : v = 0 ∨ v = 1 ∨ v = 2 := by
    have : v < 3 := hv
    omega
  rcases hv with rfl | rfl | rfl
  · exact .work (next := 1) rfl <| .put (next := 2) rfl <| .put (next := 3) rfl <| .put (next := 4) rfl <| .exit rfl
  · exact .get (next := fun b => if b.isSome then 0 else 1) rfl <| .getEnd (next := fun b => if b.isSome then 0 else 1) rfl (.inr rfl) <|
      .put (next := 2) rfl <| .put (next := 3) rfl <| .put (next := 4) rfl <| .exit rfl
  · exact .work (next := 1) rfl <| .exit rfl

/-- All hypotheses of `placement_of_programs_irrelevant` are met: the one run with `b` there, the other with `b` here. -/
example : ∃ s s', Runs spread (init spread emptyLog 0) spreadRun s ∧ Runs hereToo (init hereToo emptyLog 0) hereRun s' ∧
    ServingOver s'.fam.sys.tr ∧ outcomes (newEntries emptyLog s.fam.sys.tr) ~ outcomes (newEntries emptyLog s'.fam.sys.tr) := by
  obtain ⟨s, h1, h2, h3, _⟩ := spread_logged
  obtain ⟨s', h1', h2'⟩ := runs_of_after (c := hereToo) (as := hereRun) (p := fun s => s.fam.sys.tr.pc == .joining) (by decide +kernel)
  simp only [beq_iff_eq] at h2'
  exact ⟨s, s', h1, h1', .inl h2', (placement_of_programs_irrelevant spread_good spread_ordered hereToo_good ⟨by decide, by decide⟩
    spread_programs spread_few h1 h2
    (Props.Anywhere.heard_of_few (by unfold Sys.Prompt; decide +kernel) (by decide +kernel)) (by decide +kernel) h3
    hereToo_programs (Props.Anywhere.few_of_one (by intro v h; simp [Family.behaviour, spreadCode, h]) (by decide)) h1'
    (by unfold Fresh Cluster.Fresh Sys.FreshTxns; decide +kernel)
    (Props.Anywhere.heard_of_few (by unfold Sys.Prompt; decide +kernel) (by decide +kernel)) (by decide +kernel) (.inl h2')).1⟩

/-- In the first run the end of `b` that is logged is the end of a process of the remote runner, which wrote `z=w`. -/
example : RanFar spread (init spread emptyLog 0) spreadRun 1 (.exited 3) [122, 61, 119] := by
  obtain ⟨s, h1, h2⟩ := runs_of_after (c := spread) (as := spreadRun.take 57) (p := fun s => match s.far 0 with
    | some k => k.task == 1 && ChildIo.childEnds (farCfg spread 1) (ChildIo.init (farCfg spread 1)) k.hist == [.exited 3] &&
      ChildIo.written (farCfg spread 1) (ChildIo.init (farCfg spread 1)) .val k.hist == [122, 61, 119] && k.st.procs.isEmpty &&
      (match s.runners[0]? with | some r => busy r.st.phase | none => false)
    | none => false) (by decide +kernel)
  cases hk : s.far 0 with
  | none => rw [hk] at h2; cases h2
  | some k =>
    rw [hk] at h2
    simp only [Bool.and_eq_true, beq_iff_eq, List.isEmpty_iff] at h2
    obtain ⟨⟨⟨⟨g1, g2⟩, g3⟩, g4⟩, g5⟩ := h2
    split at g5
    · rename_i r hr
      obtain ⟨k', e1, _, e3⟩ := h1.far 0 r hr g5
      rw [hk] at e1; cases e1
      rw [g1] at e3
      exact ⟨_, spreadRun.drop 57, s, 0, k, (List.take_append_drop _ _).symm, h1, hk, g1, e3, g2, g3, by rw [g4]; intro p h; cases h⟩
    · cases g5

/-! ### inputs nobody takes -/

/-- One task, for remote runners: the program `filter` (C119), which writes `cap + 1` bytes to stdout before it reads its input of `cap + 1` bytes. -/
def jam (cap : Nat) : Family.Cfg Nat where
  sys := {
    tr := { g := ⟨[{ job "a" 4 with fdInput := some (5, List.replicate (cap + 1) 0) }], []⟩, fizzlesAllowed := 1 }
    numParallel := 1
    remote := true
    secret := "k" }
  op := fun _ => (Props.ChildIo.filter cap).op
  start := fun _ => 0
  cap := cap

/-- A runner gets the task and starts its process. -/
def jamRun : List Act :=
  [.cl (.server (.server (.begin [0] t0))), .cl (.server (.server .sendNext)), .cl (.server (.server (.sendDone t0))),
    .cl (.join { r0 with rt := 2 }), .cl (.runner 0 .sendStart), .cl (.arrive 0), .cl (.server (.hRecv 0)), .cl (.server (.server (.pop 0 0))),
    .cl (.server (.server (.claim 0))), .cl (.server (.hGot 0 0)), .cl (.server (.hTimer 0 5)), .cl (.server (.hInsert 0)), .cl (.answer 0),
    .cl (.runner 0 (.spawn (some 7)))]

theorem jam_child (cap : Nat) : farCfg (jam cap) 0 = Props.ChildIo.filter cap := rfl

set_option maxRecDepth 20000 in
/-- **C167, the violation.** However much fits into a pipe, there is a task such that a remote runner that has started its process never says so
to the server (`/begun`) nor anything else but pings, in no schedule in which nobody kills that process: not after a lost
connection, SIGUSR1 or its deadline either, as it writes the input without looking at anything else. -/
theorem one_task_blocks_runner_violated (cap : Nat) :
    (∃ s r, Runs (jam cap) (init (jam cap) emptyLog 0) jamRun s ∧ s.runners[0]? = some r ∧ (∃ q, r.st.phase = .feeding q 7) ∧
      r.tasks.getLast?.map (·.2.2) = some 0) ∧
    ∀ lf now as s i r q pid bs s', Runs (jam cap) (init (jam cap) lf now) as s → s.runners[i]? = some r → r.st.phase = .feeding q pid →
      r.tasks.getLast?.map (·.2.2) = some 0 → Runs (jam cap) s bs s' → (∀ x, Act.far i x ∈ as ++ bs → ChildIo.isKill x = false) →
      ∃ r', s'.runners[i]? = some r' ∧ r'.st.phase = .feeding q pid ∧ r'.st.trace = r.st.trace := by
  constructor
  · obtain ⟨s, h1, h2⟩ := runs_of_after (c := jam cap) (as := jamRun) (p := fun s => match s.runners[0]? with
      | some r => (match r.st.phase with | .feeding _ p => p == 7 | _ => false) && r.tasks.getLast?.map (·.2.2) == some 0
      | none => false) (by with_unfolding_all rfl)
    split at h2
    · rename_i r hr
      simp only [Bool.and_eq_true, beq_iff_eq] at h2
      obtain ⟨h2, h3⟩ := h2
      split at h2
      · rename_i q p hp
        simp only [beq_iff_eq] at h2
        subst h2
        exact ⟨s, r, h1, hr, ⟨q, hp⟩, h3⟩
      · cases h2
    · cases h2
  · intro lf now as s i r q pid bs s' hr hi hq hv hr' ha
    exact feeds_for_ever (c := jam cap) (v := 0) (fun hist st h1 h2 => (Props.ChildIo.large_input_deadlock_violated cap).1 hist st h1 h2) hr hi hq hv hr' ha

end Verif.Props.Grid
