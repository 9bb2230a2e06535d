import Verif.Proof.Deploy
import Verif.Props.Cluster

/-!
# Properties of whole deployments (C105-C109)

Sessions over one log file, each `execute` with local loops, HTTP server, network and remote runners; remote runners may
outlive the process they belong to. Assumption: the transaction ids one `execute` draws at random are distinct (`fresh`).
-/

namespace Verif.Props.Deploy
open Verif Verif.Deploy
open Verif.World (SuccessLogged)

variable {as : List Act} {d d' : State}

/-! ### a demo -/

/-- The tasks `a` and `b` of `World.open2`, `b` depending on `a`; the log file is opened. -/
def opened : List Act := Props.World.open2.map .world

/-- `execute` of both, with remote runners only. -/
def execRemote : Act := .exec none true 1 ⟨[0, 1], [1, 0], [0, 1], []⟩ 0 0 true "k"

/-- `execute` of both, with one local loop. -/
def execLocal : Act := .exec none true 1 ⟨[0, 1], [1, 0], [0, 1], []⟩ 0 1 false "k"

/-- Things that happen in the cluster, and at its server. -/
def inCluster (as : List Cluster.Act) : List Act := as.map .cluster
/-- See `inCluster`. -/
def atServer (as : List Sys.Act) : List Act := inCluster (as.map .server)

/-- The scheduler makes the first task ready. -/
def begins : List Act := atServer [.server (.begin [0] ⟨0, 0⟩), .server .sendNext, .server (.sendDone ⟨0, 0⟩)]

/-- The next task is made ready. -/
def sends : List Act := atServer [.server .sendNext, .server (.sendDone ⟨0, 0⟩)]

/-- A remote runner obtains `a`, and runs it to its end with exit code 0. -/
def remoteA : List Act := begins ++ inCluster ([.join Props.Cluster.r0] ++ Props.Cluster.hand 0 0 0 0 5 ++ Props.Cluster.launch 0 1 7 ++
  Props.Cluster.complete 0 2 7 0 ++ [.server (.server (.recvFinished [1] ⟨1, 0⟩))]) ++ sends

/-- And with the answer it obtains `b`. -/
def remoteRun : List Act := remoteA ++ inCluster [.server (.hFlag 2), .server (.hRecv 2), .server (.server (.pop 0 0)),
  .server (.server (.claim 0)), .server (.hGot 2 0), .server (.hTimer 2 6), .server (.hInsert 2), .answer 0]

/-- The local loop runs a task to its end. -/
def localRun (code : Int) (next : List Nat) : List Act := atServer
  (Props.System.loopRun 0 0 ++ [.server (.recvStarted ⟨0, 0⟩), .loopOutput 0 code [], .loopReport 0, .server (.recvFinished next ⟨1, 0⟩)])

/-- `execute` returns. -/
def localEnd : List Act := atServer [.server (.cancel .hard), .loopRecv 0, .loopRecv 1, .joinDone, .server (.drain [] ⟨2, 0⟩)] ++
  [.world .finish]

/-- The first process is killed after the remote runner has obtained `b`; the second session runs `b` locally. -/
def takenOver : List Act := opened ++ [execRemote] ++ remoteRun ++ [.world (.stop 5)] ++ opened ++
  [.exec none true 1 ⟨[0, 1], [1, 0], [0], ["a"]⟩ 0 1 false "l"] ++ begins ++ localRun 0 [] ++ localEnd ++ [.world (.stop 10)]

/-! ### C105: deployments are histories -/

/-- **C105.** Whatever local loops, server, network and remote runners do: what happens to the log, to the tasks and to the
results of `execute` is a history as in the properties of histories (C28-C41), with the same world. -/
theorem deployment_is_history (hr : Runs init as d) : World.Runs World.init (collect worldAct init as) d.world := hr.inv.world

/-- **C105.** The tracker the cluster of the `execute` in progress works with is the one of that history. -/
theorem cluster_in_world (hr : Runs init as d) {l : Live} (hl : d.live = some l) :
    ∃ r, d.world.running = some r ∧ r.cfg = l.cfg.tr ∧ r.st = l.st.sys.tr ∧ d.world.tasks = l.tasks := by
  obtain ⟨s, r, h⟩ := hr.inv.link l hl
  exact ⟨r, by simp [World.World.running, h.sess, h.run], h.cfg, h.st, by simp [World.World.tasks, h.sess, h.tasks]⟩

/-- Non-trivial case: two sessions, with ten entries in the log. -/
example : ∃ d, Runs init takenOver d ∧ d.world.log.length = 10 ∧ collect started init takenOver = ["a", "b"] ∧
    collect ended init takenOver = [("a", 0, [[("x", "y")]]), ("b", 0, [])] := by
  obtain ⟨d, h1, h2⟩ := runs_of_after (as := takenOver) (p := fun d => d.world.log.length == 10) (by decide +kernel)
  exact ⟨d, h1, by simpa using h2, by decide +kernel, by decide +kernel⟩

/-! ### C106: processes are started after their dependencies have ended successfully -/

theorem place_mem {a : Act} {l : Live} {b : Cluster.Act} (hp : place d a = some (l, b)) : l ∈ clusters d := by
  cases a with
  | cluster a =>
    simp only [place, Option.map_eq_some_iff, Prod.mk.injEq] at hp
    obtain ⟨x, h1, h2, _⟩ := hp
    subst h2
    simp [clusters, h1]
  | late n a =>
    simp only [place, Option.map_eq_some_iff, Prod.mk.injEq] at hp
    obtain ⟨x, h1, h2, _⟩ := hp
    subst h2
    exact List.mem_append_right _ (List.mem_of_getElem? h1)
  | _ => cases hp

theorem past (hr : Runs init as d) : ∀ x ∈ collect ended init as, x.1 ∈ collect started init as := by
  refine Runs.snocInd (P := fun as _ => ∀ x ∈ collect ended init as, x.1 ∈ collect started init as) ?_ ?_ hr
  · intro x hx; cases hx
  · intro as d a d' hr ih hf hs x hx
    rw [collect_snoc hr] at hx ⊢
    rcases List.mem_append.1 hx with hx | hx
    · exact List.mem_append_left _ (ih x hx)
    · refine List.mem_append_left _ ?_
      unfold ended at hx
      split at hx
      · rename_i l b hp
        obtain ⟨y, h1, h2⟩ := List.mem_map.1 hx
        have hc := hr.inv.clusters l (place_mem hp)
        rw [← h2]
        exact hc.procs _ (Cluster.exit_process hc.runs hc.fresh h1)
      · cases hx

/-- **C106.** Whenever a process is started, by a local loop or by a remote runner - also one that runs on after its server
is gone - for a task of the first `execute` of a session: for every dependency of that task a process had been started before, in this session or an
earlier one, and was seen to end with exit code 0. -/
theorem dependencies_ended_first_partial (hr : Runs init as d) {a : Act} {l : Live} {b : Cluster.Act} (hp : place d a = some (l, b))
    (hfirst : l.first = true) {v : Nat} (hv : v ∈ Cluster.processes l.st b) {i j : Nat} {ci cj : Cmd} (hi : l.tasks.nodes[i]? = some ci)
    (hk : ci.key = l.key v) (hd : l.tasks.Dep j i) (hj : l.tasks.nodes[j]? = some cj) :
    cj.key ∈ collect started init as ∧ ∃ vals, (cj.key, 0, vals) ∈ collect ended init as := by
  have hc := hr.inv.clusters l (place_mem hp)
  have hpast := past hr
  suffices h : ∃ vals, (cj.key, 0, vals) ∈ collect ended init as from ⟨h.elim fun _ h => hpast _ h, h⟩
  have ho := Cluster.process_obtained hc.runs hc.fresh hv
  have hrun := (hc.runs.inv hc.fresh).run.toInit hc.good
  have hre : Tracker.Reachable l.cfg.tr l.lf l.now l.st.sys.tr := ⟨_, hrun⟩
  have hlt : v < l.cfg.tr.g.n := ((hre.inv hc.good).1).core.deps.lt v (hre.obtained_made hc.good ho)
  have hnode : l.cfg.tr.g.nodes[v]? = some (Tracker.cmdOf l.cfg.tr.g v) := Tracker.node_of_lt hlt
  rcases hc.deps hfirst v _ hnode i ci hi hk j cj hd hj with ⟨u, cu, h1, h2, h3⟩ | h
  · have hs := Props.Tracker.dependencies_first hc.good hre ho h1
    obtain ⟨e, g1, g2, g3⟩ := Tracker.processed_reported hrun _ hs
    have := hc.exits _ (Cluster.finish_exit hc.runs hc.fresh g1 g3 (by decide) (by decide) (by decide))
    have e2 : l.key e.id = cj.key := by
      rw [g2, ← h3]; simp [Live.key, Tracker.keyOf, Tracker.cmdOf_eq h2]
    rw [e2] at this
    exact ⟨_, this⟩
  · exact hc.before _ h

/-- A runner starts a process. -/
def spawns (i pid : Nat) : Cluster.Act := .runner i (.spawn (some pid))

/-- Non-trivial case: the remote runner starts `b`, which depends on `a`. -/
example : ∃ d l, Runs init (opened ++ [execRemote] ++ remoteRun) d ∧ place d (.cluster (spawns 0 9)) = some (l, spawns 0 9) ∧
    l.first = true ∧ 1 ∈ Cluster.processes l.st (spawns 0 9) ∧ l.key 1 = "b" ∧ l.tasks.Dep 0 1 ∧ l.tasks.nodes.map (·.key) = ["a", "b"] := by
  obtain ⟨d, h1, h2⟩ := runs_of_after (as := opened ++ [execRemote] ++ remoteRun) (p := fun d =>
    match d.live with
    | some l => l.first && decide (1 ∈ Cluster.processes l.st (spawns 0 9)) && decide (l.key 1 = "b") && decide (l.tasks.Dep 0 1) &&
      decide (l.tasks.nodes.map (fun x => x.key) = ["a", "b"])
    | none => false) (by decide +kernel)
  cases hl : d.live with
  | none => rw [hl] at h2; cases h2
  | some l =>
    rw [hl] at h2
    simp only [Bool.and_eq_true, decide_eq_true_eq] at h2
    exact ⟨d, l, h1, by simp [place, hl], h2.1.1.1.1, h2.1.1.1.2, h2.1.1.2, h2.1.2, h2.2⟩

/-- `a` fails; in the same session `execute` is called again; the local loop is about to start `b`. -/
def failedAgain : List Act := opened ++ [execLocal] ++ begins ++ localRun 1 [1] ++ localEnd ++
  [.exec none true 1 ⟨[0, 1], [1, 0], [0], []⟩ 0 1 false "l"] ++ begins ++ atServer ((Props.System.loopRun 0 0).take 4)

/-- **C106 (violated for later `execute` calls).** In the second `execute` of a session a process of `b` is started although the only process there ever was
of `a`, on which `b` depends, has ended with exit code 1. -/
theorem dependencies_ended_first_violated : ∃ d a, Runs init failedAgain d ∧ (∃ d', step d a = .ok d') ∧ "b" ∈ started d a ∧
    d.world.tasks.Dep 0 1 ∧ d.world.tasks.nodes.map (·.key) = ["a", "b"] ∧ collect ended init failedAgain = [("a", 1, [])] := by
  obtain ⟨d, h1, h2⟩ := runs_of_after (as := failedAgain) (p := fun d =>
    (match step d (.cluster (.server (.loopSpawn 0 true))) with | .ok _ => true | _ => false) &&
    decide ("b" ∈ started d (.cluster (.server (.loopSpawn 0 true)))) && decide (d.world.tasks.Dep 0 1) &&
      decide (d.world.tasks.nodes.map (fun x => x.key) = ["a", "b"])) (by decide +kernel)
  simp only [Bool.and_eq_true, decide_eq_true_eq] at h2
  refine ⟨d, _, h1, ?_, h2.1.1.2, h2.1.2, h2.2, by decide +kernel⟩
  have := h2.1.1.1
  split at this
  · rename_i d' hd; exact ⟨d', hd⟩
  · cases this

/-! ### C107: what has succeeded is not started again -/

/-- **C107.** Whenever the `execute` in progress starts a process, locally or on a remote runner: no success of that task is in the
log, be it from this session or an earlier one. -/
theorem success_not_started_partial (hr : Runs init as d) {a : Cluster.Act} (hf : fresh d (.cluster a)) (hs : step d (.cluster a) = .ok d')
    {k : String} (hk : k ∈ started d (.cluster a)) : ¬ SuccessLogged d.world.log k := by
  intro ⟨f, h1, h2, h3⟩
  cases hl : d.live with
  | none => simp [started, place, hl] at hk
  | some l =>
    have hI := hr.inv
    obtain ⟨s, r, hL⟩ := hI.link l hl
    have hc := hI.clusters l (by simp [clusters, hl])
    simp only [started, place, hl, Option.map_some, List.mem_map] at hk
    obtain ⟨v, hv, hk⟩ := hk
    have ho := Cluster.process_obtained hc.runs hc.fresh hv
    have hre : Tracker.Reachable l.cfg.tr l.lf l.now l.st.sys.tr := ⟨_, (hc.runs.inv hc.fresh).run.toInit hc.good⟩
    have hlt : v < l.cfg.tr.g.n := ((hre.inv hc.good).1).core.deps.lt v (hre.obtained_made hc.good ho)
    have hnode : l.cfg.tr.g.nodes[v]? = some (Tracker.cmdOf l.cfg.tr.g v) := Tracker.node_of_lt hlt
    rw [log_of_run hL.sess hL.run, hL.st] at h1
    by_cases hold : LogEntry.finished f ∈ l.lf.entries
    · have h4 := hc.unsucc _ (List.mem_of_getElem? hnode)
      have hS := hI.winv.sess s hL.sess
      have := (World.hasSuccess_iff (lf := l.lf) (hL.lf ▸ hS.cons) (hL.lf ▸ hS.log.norerun) (Tracker.cmdOf l.cfg.tr.g v).key).2
        ⟨f, hold, by rw [h2, ← hk]; rfl, h3⟩
      rw [this] at h4; cases h4
    · obtain ⟨u, g1, g2, g3⟩ := hc.ends h1 (by rw [h3]; rfl) hold
      have huv : u = v := by
        refine hc.good.keyInj g2 hlt ?_
        show l.key u = l.key v
        rw [g1, h2, hk]
      subst huv
      have g4 := Cluster.exits_processes hc.runs hc.fresh g3
      simp only [step, hl] at hs
      obtain ⟨l', h5, _⟩ := Res.bind_ok.1 hs
      simp only [Live.step] at h5
      obtain ⟨t, h6, _⟩ := Res.bind_ok.1 h5
      have := Cluster.processes_count hc.good (hc.runs.snoc h6) (hf l hl) u
      rw [Cluster.collect_snoc hc.runs, List.count_append] at this
      have q1 := List.count_pos_iff.2 g4
      have q2 := List.count_pos_iff.2 hv
      simp only at q1
      omega

theorem runs_split {w : World.World} {bs cs : List World.Act} {w1 w2 : World.World} (h1 : World.Runs w bs w1) (h2 : World.Runs w (bs ++ cs) w2) :
    World.Runs w1 cs w2 := by
  induction h1 with
  | nil => exact h2
  | cons hs _ ih =>
    cases h2 with
    | cons hs' h2 => rw [hs] at hs'; cases hs'; exact ih h2

/-- **C107.** If a success is safely in the file - all that was logged when an earlier `execute` returned, or when the earlier session
ended - then whatever happens later: no `execute` starts that task again. -/
theorem durable_success_final_partial (hr : Runs init as d) {k : String} (hk : SuccessLogged d.world.durable k) {bs : List Act} {d1 d2 : State}
    (hr1 : Runs d bs d1) {a : Cluster.Act} (hf : fresh d1 (.cluster a)) (hs : step d1 (.cluster a) = .ok d2) : k ∉ started d1 (.cluster a) := by
  intro h
  refine success_not_started_partial (hr.append hr1) hf hs h ?_
  have h1 := (hr.append hr1).inv.world
  rw [collect_append hr] at h1
  have h2 := runs_split hr.inv.world h1
  have := (Props.World.returned_is_durable_partial ⟨_, hr.inv.world⟩).2.1 _ _ h2
  obtain ⟨f, g1, g2⟩ := hk
  exact ⟨f, this.subset g1, g2⟩

/-- Non-trivial case: the second session's `execute` starts `b`, while the success of `a` is in the file since the first session ended. -/
example : ∃ d d1 d2, Runs init (takenOver.take 40) d ∧ SuccessLogged d.world.durable "a" ∧ Runs d ((takenOver.drop 40).take 11) d1 ∧
    step d1 (.cluster (.server (.loopSpawn 0 true))) = .ok d2 ∧ started d1 (.cluster (.server (.loopSpawn 0 true))) = ["b"] := by
  obtain ⟨d, h1, h2⟩ := runs_of_after (as := takenOver.take 40) (p := fun d =>
    d.world.durable.any (fun e => match e with | .finished f => f.key == "a" && f.status == 0 | _ => false) &&
    allFresh d ((takenOver.drop 40).take 11) &&
    (match replay d ((takenOver.drop 40).take 11) with
    | .ok d1 => (match step d1 (.cluster (.server (.loopSpawn 0 true))) with | .ok _ => true | _ => false) &&
      started d1 (.cluster (.server (.loopSpawn 0 true))) == ["b"]
    | _ => false)) (by decide +kernel)
  simp only [Bool.and_eq_true, List.any_eq_true] at h2
  obtain ⟨⟨⟨e, h3, h4⟩, h5⟩, h6⟩ := h2
  split at h6
  · rename_i d1 hd1
    simp only [Bool.and_eq_true, beq_iff_eq] at h6
    have h7 := h6.1
    split at h7
    · rename_i d2 hd2
      refine ⟨d, d1, d2, h1, ?_, runs_of_replay hd1 h5, hd2, h6.2⟩
      cases e with
      | finished f =>
        simp only [Bool.and_eq_true, beq_iff_eq] at h4
        exact ⟨f, h3, h4⟩
      | _ => cases h4
    · cases h7
  · cases h6

/-- **C107 (violated by runners of an earlier process).** The first process is killed when a remote runner has obtained `b`. The second session runs `b` to success,
`execute` returns, the process ends; then the runner starts a process of `b`. -/
theorem success_not_started_violated : ∃ d a, Runs init takenOver d ∧ SuccessLogged d.world.durable "b" ∧ (∃ d', step d a = .ok d') ∧
    started d a = ["b"] := by
  obtain ⟨d, h1, h2⟩ := runs_of_after (as := takenOver) (p := fun d =>
    d.world.durable.any (fun e => match e with | .finished f => f.key == "b" && f.status == 0 | _ => false) &&
    (match step d (.late 0 (spawns 0 9)) with | .ok _ => true | _ => false) && started d (.late 0 (spawns 0 9)) == ["b"]) (by decide +kernel)
  simp only [Bool.and_eq_true, List.any_eq_true, beq_iff_eq] at h2
  obtain ⟨⟨⟨e, h3, h4⟩, h5⟩, h6⟩ := h2
  refine ⟨d, _, h1, ?_, ?_, h6⟩
  · cases e with
    | finished f =>
      simp only [Bool.and_eq_true, beq_iff_eq] at h4
      exact ⟨f, h3, h4⟩
    | _ => cases h4
  · split at h5
    · rename_i d' hd; exact ⟨d', hd⟩
    · cases h5

/-- The same, but the runner starts its process while the second session's process of `b` runs. -/
def overlapping : List Act := takenOver.take 53

/-- **C107 (violated by runners of an earlier process).** Two processes of the same task at once: one of the session in progress, one of a runner of an earlier process. Both have
the same attempt number, that is the same attempt directory. -/
theorem two_processes_at_once_violated : ∃ d l0 l1, Runs init overlapping d ∧ d.live = some l1 ∧ d.old = [l0] ∧
    l1.st.sys.loops[0]? = some (.running 0 0) ∧ l1.key 0 = "b" ∧ (∃ d', step d (.late 0 (spawns 0 9)) = .ok d') ∧
    started d (.late 0 (spawns 0 9)) = ["b"] ∧
    (d.world.log.filterMap (fun e => match e with | .ready r => some (r.key, r.runcount) | _ => none)) = [("a", 0), ("b", 0), ("b", 0)] := by
  obtain ⟨d, h1, h2⟩ := runs_of_after (as := overlapping) (p := fun d =>
    match d.live, d.old with
    | some l1, [_] => l1.st.sys.loops[0]? == some (.running 0 0) && l1.key 0 == "b" &&
      (match step d (.late 0 (spawns 0 9)) with | .ok _ => true | _ => false) && started d (.late 0 (spawns 0 9)) == ["b"] &&
      (d.world.log.filterMap (fun e => match e with | .ready r => some (r.key, r.runcount) | _ => none)) == [("a", 0), ("b", 0), ("b", 0)]
    | _, _ => false) (by decide +kernel)
  split at h2
  · rename_i l1 l0 e1 e2
    simp only [Bool.and_eq_true, beq_iff_eq] at h2
    obtain ⟨⟨⟨⟨a1, a2⟩, a3⟩, a4⟩, a5⟩ := h2
    refine ⟨d, l0, l1, h1, e1, e2, a1, a2, ?_, a4, a5⟩
    split at a3
    · rename_i d' hd; exact ⟨d', hd⟩
    · cases a3
  · cases h2

/-! ### C108: exit codes in the log are true -/

/-- **C108.** An entry Finished in the log, with an exit code that is not one of those made up by server and runners (-1, -10, -15, 13):
a process of that task had been started and was seen to end with this exit code and these values. So success in the log is always true. -/
theorem logged_exit_true (hr : Runs init as d) {f : FinishedEntry} (hf : LogEntry.finished f ∈ d.world.log) (hm : madeUp f.status = false) :
    (f.key, f.status, f.values) ∈ collect ended init as ∧ f.key ∈ collect started init as := by
  have := hr.inv.ends f hf hm
  exact ⟨this, past hr _ this⟩

/-- **C108 (success).** -/
theorem logged_success_true (hr : Runs init as d) {k : String} (hk : SuccessLogged d.world.log k) :
    ∃ vals, (k, 0, vals) ∈ collect ended init as := by
  obtain ⟨f, h1, h2, h3⟩ := hk
  have := (logged_exit_true hr h1 (by rw [h3]; rfl)).1
  rw [h2, h3] at this
  exact ⟨_, this⟩

/-- Non-trivial case: exit code 1 of `a`. -/
example : ∃ d f, Runs init failedAgain d ∧ LogEntry.finished f ∈ d.world.log ∧ f.key = "a" ∧ f.status = 1 ∧ madeUp f.status = false := by
  obtain ⟨d, h1, h2⟩ := runs_of_after (as := failedAgain) (p := fun d =>
    d.world.log.any (fun e => match e with | .finished f => f.key == "a" && f.status == 1 | _ => false)) (by decide +kernel)
  obtain ⟨e, h3, h4⟩ := List.any_eq_true.1 h2
  cases e with
  | finished f =>
    simp only [Bool.and_eq_true, beq_iff_eq] at h4
    exact ⟨d, f, h1, h3, h4.1, h4.2, by rw [h4.2]; rfl⟩
  | _ => cases h4

/-! ### C109: no panic -/

theorem runner_acts_do_not_panic {c : Sys.Cfg} {s : Cluster.State} {a : Cluster.Act} (ha : runnerOnly a = true) (m : String) :
    Cluster.step c s a ≠ .panic m := by
  have hrem : ∀ rc st b (f : Remote.State → Res Unit Cluster.State), (Remote.step rc st b).bind f = .panic m →
      (∀ t, f t ≠ (.panic m : Res Unit Cluster.State)) → False := by
    intro rc st b f e hne
    cases h : Remote.step rc st b with
    | ok t => rw [h] at e; exact hne t e
    | err x => rw [h] at e; cases e
    | panic m' => exact Props.Cluster.remote_no_panic rc st b m' h
  have hhear : ∀ (i : Nat) (r : Cluster.Runner) (h : Nat) x, Cluster.hear c s i r h x ≠ .panic m := by
    intro i r h x e
    unfold Cluster.hear at e
    split at e
    · exact hrem _ _ _ _ e (by intro t; simp)
    · cases e
  intro e
  cases a with
  | runner i b =>
    simp only [Cluster.step] at e
    split at e
    · split at e
      · cases e
      · exact hrem _ _ _ _ e (by intro t; simp)
    · cases e
  | answer i =>
    simp only [Cluster.step] at e
    split at e
    · split at e
      · split at e
        · exact hhear _ _ _ _ e
        · cases e
      · cases e
    · cases e
  | fail i =>
    simp only [Cluster.step] at e
    split at e
    · split at e
      · exact hhear _ _ _ _ e
      · cases e
    · cases e
  | _ => cases ha

/-- **C109.** In no deployment does anything but `add_task` make the server's process panic, whatever its runners and the runners of earlier processes do; the
commands must be displayable. (Local loops and handlers that panic by themselves are actions of the model, `loopDie` and `hDie`; so are panics of remote runners.) -/
theorem deployment_no_panic (hr : Runs init as d) (hd : ∀ c ∈ d.world.tasks.nodes, (c.displayText).isSome) (a : Act)
    (hf : fresh d a) (ha : ∀ cmd deps, a ≠ .world (.add cmd deps)) (m : String) : step d a ≠ .panic m := by
  intro e
  have hI := hr.inv
  have hreach : World.Reachable d.world := ⟨_, hI.world⟩
  have hdw : ∀ s, d.world.sess = some s → ∀ c ∈ s.g.deps.nodes, (c.displayText).isSome := by
    intro s hs c hc
    exact hd c (by simpa [World.World.tasks, hs] using hc)
  have hw : ∀ b (f : World.World → Res Unit State), (∀ cmd deps, b ≠ .add cmd deps) → (World.step d.world b).bind f = .panic m →
      (∀ w, f w ≠ .panic m) → False := by
    intro b f hb e hne
    cases h : World.step d.world b with
    | ok w => rw [h] at e; exact hne w e
    | err x => rw [h] at e; cases e
    | panic m' => exact Props.World.history_no_panic hreach hdw b hb m' h
  cases a with
  | world b =>
    simp only [step] at e
    split at e
    · exact hw _ _ (by intro _ _ h; cases h) e (by intro w; simp)
    · exact ha _ _ rfl
    · exact hw _ _ (by intro _ _ h; cases h) e (by intro w; simp)
    · exact hw _ _ (by intro _ _ h; cases h) e (by intro w; simp)
    · cases e
    · cases e
  | exec target rerun fizzles ch now numParallel remote secret =>
    exact hw _ _ (by intro _ _ h; cases h) e (by intro w; simp)
  | cluster b =>
    simp only [step] at e
    cases hl : d.live with
    | none => rw [hl] at e; cases e
    | some l =>
      rw [hl] at e
      obtain ⟨s, r, hL⟩ := hI.link l hl
      have hc := hI.clusters l (by simp [clusters, hl])
      have hR := (hI.winv.sess s hL.sess).run r hL.run
      have hdisp : Tracker.Displayable l.cfg.tr := by
        intro c hcm
        rw [← hL.cfg] at hcm
        exact hdw s hL.sess c (hR.src c hcm)
      cases h : Cluster.step l.cfg l.st b with
      | ok t => simp [Live.step, h, Res.bind] at e
      | err x => simp [Live.step, h, Res.bind] at e
      | panic m' => exact Props.Cluster.server_does_not_panic hc.good hdisp hc.runs hc.fresh b m' h
  | late n b =>
    simp only [step] at e
    split at e
    · rename_i l hl
      split at e
      · rename_i hb
        cases h : Cluster.step l.cfg l.st b with
        | ok t => simp [Live.step, h, Res.bind] at e
        | err x => simp [Live.step, h, Res.bind] at e
        | panic m' => exact runner_acts_do_not_panic hb m' h
      · cases e
    · cases e

/-- Non-trivial case: in the demo the commands are displayable while `execute` runs. -/
example : ∃ d, Runs init overlapping d ∧ d.live.isSome ∧ d.world.tasks.nodes.length = 2 ∧
    ∀ c ∈ d.world.tasks.nodes, (c.displayText).isSome := by
  obtain ⟨d, h1, h2⟩ := runs_of_after (as := overlapping) (p := fun d => d.live.isSome && d.world.tasks.nodes.length == 2 &&
    d.world.tasks.nodes.all (fun c => (c.displayText).isSome)) (by decide +kernel)
  simp only [Bool.and_eq_true, beq_iff_eq, List.all_eq_true] at h2
  exact ⟨d, h1, h2.1.1, h2.1.2, h2.2⟩

end Verif.Props.Deploy
