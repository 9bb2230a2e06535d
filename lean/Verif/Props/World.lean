import Verif.Proof.World
import Verif.Props.Tracker

/-!
# C32, C33, C36, C37, C73, C74: histories of sessions over one log file
-/

namespace Verif.Props.World
open Verif Verif.World Spec

variable {w w' : World}

/-- A task of the demos. -/
def job (key : String) : Cmd := { cmdline := [.str "true"], key := key, display := some key, affinity := 1 }

/-- Machine-dependent header fields of the demos. -/
def info : HeaderEntry := ⟨0, ⟨0, 0⟩, "u", "h", "", [], "/w", 1, []⟩

/-- A session with tasks `a` and `b`, `b` depending on `a`. -/
def open2 : List Act := [.open "/d" ["/r"] "k" info, .add (job "a") [], .add (job "b") [0]]

/-- Runner type 0 obtains task `v`, reports its start, and the report is processed. -/
def started (v : Nat) : List Act :=
  [.trk (.enter 0), .trk (.pop 0 0), .trk (.claim 0), .trk (.account 0), .trk (.sendStarted v "h" 1 ""), .trk (.recvStarted t0)]
where t0 : SysTime := ⟨0, 0⟩

/-- `v` exits with `code`; `next` are its dependents. -/
def exits (v : Nat) (code : Int) (next : List Nat) : List Act :=
  [.trk (.sendFinished ⟨v, .code code, [], none⟩), .trk (.recvFinished next ⟨1, 0⟩)]

/-- The first task is made ready. -/
def begun : List Act := [.trk (.begin [0] ⟨0, 0⟩), .trk .sendNext, .trk (.sendDone ⟨0, 0⟩)]

/-- Ready items were sent. -/
def sent : List Act := [.trk .sendNext, .trk (.sendDone ⟨0, 0⟩)]

/-- Serving is over, the call returns. -/
def returns : List Act := [.trk .joinDone, .trk (.drain [] ⟨2, 0⟩), .finish]

/-- `execute` on both tasks. -/
def exec2 : Act := .exec none true 1 ⟨[0, 1], [1, 0], [0, 1], []⟩ 0

/-- Session 1: `a` succeeds, `b` is obtained and started; the process is killed with everything so far on disk. Session 2:
`b` is to be run again, and is started. -/
def killedThenResumed : List Act :=
  open2 ++ [exec2] ++ begun ++ started 0 ++ exits 0 0 [1] ++ sent ++ started 1 ++ [.stop 6] ++
  open2 ++ [.exec none true 1 ⟨[0, 1], [1, 0], [0], ["a"]⟩ 0] ++ begun ++ started 0

/-- **C33.** In every history the log follows the protocol and its headers agree, at every moment and also if it is cut
anywhere at an entry boundary: it can be opened again. -/
theorem log_always_opens (h : Reachable w) (keep : Nat) (dir : String) :
    Protocol (w.log.take keep) ∧ HeadersOk (w.log.take keep) ∧ ∃ lf, LogFile.open (w.log.take keep) dir = .ok lf := by
  have hl := h.inv.log
  rw [← List.take_append_drop keep w.log] at hl
  have hp := hl.prefix
  exact ⟨hp.protocol, hp.headers, (Log.reopen_iff _ _).2 ⟨hp.protocol, hp.headers⟩⟩

theorem open_succeeds_inv (h : WInv w) (hs : w.sess = none) (dir : String) (roots : List String) (newKey : String)
    (info : HeaderEntry) : ∃ w', step w (.open dir roots newKey info) = .ok w' := by
  have hf := h.file
  obtain ⟨lf, hl⟩ := (Log.reopen_iff w.file dir).2 ⟨hf.protocol, hf.headers⟩
  simp only [step, hs, pyNew, hl, Res.bind, LogFile.write, LogMem.write]
  exact ⟨_, rfl⟩

/-- **C33.** After any history the Python constructor succeeds. -/
theorem open_succeeds (h : Reachable w) (hs : w.sess = none) (dir : String) (roots : List String) (newKey : String)
    (info : HeaderEntry) : ∃ w', step w (.open dir roots newKey info) = .ok w' :=
  open_succeeds_inv h.inv hs dir roots newKey info

theorem history_no_panic_inv (h : WInv w) (hd : ∀ s, w.sess = some s → ∀ c ∈ s.g.deps.nodes, (c.displayText).isSome)
    (a : Act) (ha : ∀ cmd deps, a ≠ .add cmd deps) (m : String) : step w a ≠ .panic m := by
  intro hp
  have hI := h
  cases a with
  | add cmd deps => exact ha _ _ rfl
  | «open» dir roots newKey info =>
    cases hs : w.sess with
    | some s => simp [step, hs] at hp
    | none =>
      obtain ⟨w', hw⟩ := open_succeeds_inv h hs dir roots newKey info
      rw [hw] at hp; cases hp
  | exec target rerun fizzles ch now =>
    unfold step at hp
    cases hs : w.sess with
    | none => simp [hs] at hp
    | some s =>
      simp only [hs] at hp
      split at hp
      · cases hp
      · obtain ⟨lf', c', h1, _⟩ := Selection.getSubgraph_ok s.g target rerun ch
        unfold startExec at hp
        rw [h1] at hp
        simp only at hp
        split at hp <;> cases hp
  | trk a =>
    unfold step at hp
    cases hs : w.sess with
    | none => simp [hs] at hp
    | some s =>
      simp only [hs] at hp
      cases hrun : s.run with
      | none => simp [hrun] at hp
      | some r =>
        simp only [hrun] at hp
        split at hp
        · cases hp
        · have hR := (hI.sess s hs).run r hrun
          cases hst : Tracker.step r.cfg r.st a with
          | ok st => rw [hst] at hp; cases hp
          | err e => rw [hst] at hp; cases hp
          | panic m' =>
            refine Tracker.no_panic hR.good ?_ hR.reach a m' hst
            intro c hc
            exact hd s hs c (hR.src c hc)
  | finish =>
    unfold step at hp
    cases hs : w.sess with
    | none => simp [hs] at hp
    | some s =>
      simp only [hs] at hp
      cases hrun : s.run with
      | none => simp [hrun] at hp
      | some r =>
        simp only [hrun] at hp
        split at hp <;> cases hp
  | stop keep =>
    unfold step at hp
    cases hs : w.sess with
    | none => simp [hs] at hp
    | some s =>
      simp only [hs] at hp
      split at hp <;> cases hp

/-- **C33/C21.** In no history does an action of the scheduler, of a runner, or of the end of `execute` panic, nor does
the start of `execute`; the commands must be displayable. (`add` panics if a recorded success has a storage root index the
session has no root for, see `Log.success_directory_panics`, and at 2^32 - 1 tasks.) -/
theorem history_no_panic (h : Reachable w) (hd : ∀ s, w.sess = some s → ∀ c ∈ s.g.deps.nodes, (c.displayText).isSome)
    (a : Act) (ha : ∀ cmd deps, a ≠ .add cmd deps) (m : String) : step w a ≠ .panic m :=
  history_no_panic_inv h.inv hd a ha m

/-- **C36.** In every history, after an entry "Finished with exit code 0" of a key the log has no further Ready, Started or
Finished entry of that key. -/
theorem success_never_rerun (h : Reachable w) : NoRerun w.log := h.inv.log.norerun

theorem success_not_obtained_inv (h : WInv w) {target : Option Nat} {rerun : Bool} {fizzles : Nat} {ch : Choices} {now : Int}
    {w1 w2 : World} (he : step w (.exec target rerun fizzles ch now) = .ok w1) {as : List Act} (hr : Runs w1 as w2)
    (ht : ∀ a ∈ as, a.isTrk = true) {r : Running} (hrun : w2.running = some r) {v : Nat} (ho : Tracker.Obtained r.st v) :
    ¬ SuccessLogged w.log (Tracker.keyOf r.cfg v) := by
  obtain ⟨s, s1, lf', c', e1, e2, e3, e4, e5, e6, e7, e8, e9, e10, e11⟩ := exec_cases he
  have hI := h.sess s e1
  rcases e11 with ⟨e11, _⟩ | ⟨c, e11, _⟩
  · exfalso
    cases hr with
    | nil => simp [World.running, e3, e11] at hrun
    | @cons _ _ _ a as hst _ =>
      have ha := ht a (by simp)
      cases a with
      | trk b => simp [step, e3, e11] at hst
      | _ => simp [Act.isTrk] at ha
  · obtain ⟨st, e12⟩ := runs_trk hr ht e3 e11
    have hI2 : WInv w2 := winv_runs hr (winv_step h he)
    subst e12
    simp only [World.running, Option.bind_some, Option.some.injEq] at hrun
    subst hrun
    have hR := (hI2.sess _ rfl).run _ rfl
    have hm := hR.reach.obtained_made hR.good ho
    have hlt := ((hR.reach.inv hR.good).1).core.deps.lt v hm
    have := (hR.fresh _ (List.mem_of_getElem? (Tracker.node_of_lt hlt))).1
    simp only [e8, e6] at this
    rw [e5, ← hasSuccess_iff hI.cons hI.log.norerun]
    unfold Tracker.keyOf
    rw [this]
    simp

/-- **C36.** A key with such an entry in the log is not among the tasks an `execute` obtains: whatever happens between the
start and the return of an `execute`, no runner obtains a task whose success was in the log when `execute` was called. -/
theorem success_not_obtained (h : Reachable w) {target : Option Nat} {rerun : Bool} {fizzles : Nat} {ch : Choices} {now : Int}
    {w1 w2 : World} (he : step w (.exec target rerun fizzles ch now) = .ok w1) {as : List Act} (hr : Runs w1 as w2)
    (ht : ∀ a ∈ as, a.isTrk = true) {r : Running} (hrun : w2.running = some r) {v : Nat} (ho : Tracker.Obtained r.st v) :
    ¬ SuccessLogged w.log (Tracker.keyOf r.cfg v) :=
  success_not_obtained_inv h.inv he hr ht hrun ho

/-- Non-trivial case: after the kill, `b` was obtained again in session 2, `a` was not: its success had survived. -/
example : after killedThenResumed (fun w => (w.running.map (fun r => r.st.obtained.map (fun x => Tracker.keyOf r.cfg x.2))) == some ["b"] &&
    decide (LogEntry.backref ⟨"a"⟩ ∈ w.log)) = true := by decide +kernel

/-- **C37 (what holds).** If no session of the history called `execute` more than once, the runcounts of the attempts of
every key, in the order of their Started entries, are strictly increasing. -/
theorem runcounts_increase_partial (h : Reachable w) (hm : w.multi = false) (k : String) :
    (attempts k w.log).Pairwise (· < ·) :=
  (fresh_of_rcOk h.inv.log.protocol (h.inv.log.rcok hm)).inc k

/-- Non-trivial case: `b` had two attempts. -/
example : after killedThenResumed (fun w => attempts "b" w.log == [0, 1] && attempts "a" w.log == [0] && !w.multi) = true := by
  decide +kernel

/-- One session: `a` is interrupted by ctrl-c while running; `execute` is called again with rerunning of failures. -/
def interruptedTwice : List Act :=
  open2 ++ [exec2] ++ begun ++ started 0 ++ [.trk .ctrlC, .trk .joinDone, .trk (.drain [0] ⟨2, 0⟩), .finish, exec2] ++ begun ++ started 0

/-- **C37 (violated).** Over two `execute` calls of one session two attempts of one key can have the same runcount. -/
theorem runcounts_increase_violated : ∃ w, Reachable w ∧ attempts "a" w.log = [0, 0] := by
  obtain ⟨w, h1, h2⟩ := runs_of_after (as := interruptedTwice) (p := fun w => attempts "a" w.log == [0, 0]) (by decide +kernel)
  exact ⟨w, ⟨_, h1⟩, by simpa using h2⟩

theorem dependencies_succeeded_partial_inv (h : WInv w) (hfirst : w.executes = 0)
    {target : Option Nat} {rerun : Bool} {fizzles : Nat} {ch : Choices} {now : Int} {w1 w2 : World}
    (he : step w (.exec target rerun fizzles ch now) = .ok w1) {as : List Act} (hr : Runs w1 as w2)
    (ht : ∀ a ∈ as, a.isTrk = true) {r : Running} (hrun : w2.running = some r) {v : Nat} (ho : Tracker.Obtained r.st v)
    {i j : Nat} {ci cj : Cmd} (hi : w.tasks.nodes[i]? = some ci) (hk : ci.key = Tracker.keyOf r.cfg v)
    (hd : w.tasks.Dep j i) (hj : w.tasks.nodes[j]? = some cj) :
    SuccessLogged w.log cj.key ∨ ∃ u, Tracker.keyOf r.cfg u = cj.key ∧ Tracker.Succeeded r.st u := by
  obtain ⟨s, s1, lf', c', e1, e2, e3, e4, e5, e6, e7, e8, e9, e10, e11⟩ := exec_cases he
  have hI := h.sess s e1
  rcases e11 with ⟨e11, _⟩ | ⟨c, e11, _⟩
  · exfalso
    cases hr with
    | nil => simp [World.running, e3, e11] at hrun
    | @cons _ _ _ a as hst _ =>
      have ha := ht a (by simp)
      cases a with
      | trk b => simp [step, e3, e11] at hst
      | _ => simp [Act.isTrk] at ha
  · obtain ⟨st, e12⟩ := runs_trk hr ht e3 e11
    have hI2 : WInv w2 := winv_runs hr (winv_step h he)
    subst e12
    simp only [World.running, Option.bind_some, Option.some.injEq] at hrun
    subst hrun
    have hR := (hI2.sess _ rfl).run _ rfl
    have hm := hR.reach.obtained_made hR.good ho
    have hlt := ((hR.reach.inv hR.good).1).core.deps.lt v hm
    simp only [World.tasks, e1] at hi hj hd
    simp only [World.executes, e1] at hfirst
    have hnd : ∀ (i : Nat) (x : Cmd), s.g.deps.nodes[i]? = some x →
        ∃ y, (Selection.prioritised s.g ch).nodes[i]? = some y ∧ y.key = x.key := by
      intro i x hx
      simp only [withPriorities, List.getElem?_mapIdx, hx, Option.map_some, Option.some.injEq]
      exact ⟨_, rfl, rfl⟩
    have hd' : (Selection.prioritised s.g ch).Dep j i := hd
    obtain ⟨yi, yi1, yi2⟩ := hnd i ci hi
    obtain ⟨yj, yj1, yj2⟩ := hnd j cj hj
    have := hR.deps v _ (Tracker.node_of_lt hlt) i yi (by simpa only [e8] using yi1) (by rw [yi2, hk]; rfl) j yj
      (by simpa only [e8] using hd') (by simpa only [e8] using yj1)
    rcases this with ⟨u, cu, d1, d2, d3⟩ | d | d
    · right
      refine ⟨u, ?_, Tracker.dependencies_first hR.good hR.reach ho d1⟩
      unfold Tracker.keyOf
      rw [Tracker.cmdOf_eq d2, d3, yj2]
    · left
      rw [e5, ← hasSuccess_iff hI.cons hI.log.norerun]
      simpa only [e8, e6, yj2] using d
    · exfalso
      have := hR.first (by simp only [e9, hfirst]; omega)
      simp only at this
      rw [this] at d
      simp at d

/-- **C32 (what holds).** In the first `execute` call of a session, a runner obtains a task only if each of its
dependencies, in the whole task graph of the session, had a success in the log when `execute` was called, or was run in
this `execute` and its success was reported and processed. -/
theorem dependencies_succeeded_partial (h : Reachable w) (hfirst : w.executes = 0)
    {target : Option Nat} {rerun : Bool} {fizzles : Nat} {ch : Choices} {now : Int} {w1 w2 : World}
    (he : step w (.exec target rerun fizzles ch now) = .ok w1) {as : List Act} (hr : Runs w1 as w2)
    (ht : ∀ a ∈ as, a.isTrk = true) {r : Running} (hrun : w2.running = some r) {v : Nat} (ho : Tracker.Obtained r.st v)
    {i j : Nat} {ci cj : Cmd} (hi : w.tasks.nodes[i]? = some ci) (hk : ci.key = Tracker.keyOf r.cfg v)
    (hd : w.tasks.Dep j i) (hj : w.tasks.nodes[j]? = some cj) :
    SuccessLogged w.log cj.key ∨ ∃ u, Tracker.keyOf r.cfg u = cj.key ∧ Tracker.Succeeded r.st u :=
  dependencies_succeeded_partial_inv h.inv hfirst he hr ht hrun ho hi hk hd hj

/-- Non-trivial case: in session 2 `b` was obtained; it depends on `a`, whose success is in the log. -/
example : after killedThenResumed (fun w => w.executes == 1 && decide (w.tasks.edges = [(0, 1)]) &&
    (w.running.map (fun r => r.st.obtained.map (fun x => Tracker.keyOf r.cfg x.2))) == some ["b"]) = true := by
  decide +kernel

/-- One session: `a` fails and `execute` returns; `execute` is called again, with the same arguments. -/
def failedThenAgain : List Act :=
  open2 ++ [exec2] ++ begun ++ started 0 ++ exits 0 1 [1] ++ returns ++
  [.exec none true 1 ⟨[0, 1], [1, 0], [0], []⟩ 0] ++ begun ++ started 0

/-- **C32 (violated).** In the second `execute` of a session `b` is run although its only dependency `a` has failed and
never succeeded. -/
theorem dependencies_succeeded_violated : ∃ w r, Reachable w ∧ w.running = some r ∧
    (∃ v, Tracker.Obtained r.st v ∧ Tracker.keyOf r.cfg v = "b") ∧
    w.tasks.Dep 0 1 ∧ (w.tasks.nodes.map (·.key)) = ["a", "b"] ∧
    (∃ f, LogEntry.finished f ∈ w.log ∧ f.key = "a" ∧ f.status = 1) ∧ ¬ SuccessLogged w.log "a" := by
  obtain ⟨w, h1, h2⟩ := runs_of_after (as := failedThenAgain) (p := fun w =>
    match w.running with
    | none => false
    | some r => decide ((0, 0) ∈ r.st.obtained) && decide (Tracker.keyOf r.cfg 0 = "b") && decide ((0, 1) ∈ w.tasks.edges) &&
      decide (w.tasks.nodes.map (fun x => x.key) = ["a", "b"]) &&
      decide (LogEntry.finished ⟨⟨1, 0⟩, "a", 1, []⟩ ∈ w.log) &&
      w.log.all (fun e => match e with | .finished f => decide (f.status ≠ 0) | _ => true)) (by decide +kernel)
  cases hr : w.running with
  | none => rw [hr] at h2; cases h2
  | some r =>
    rw [hr] at h2
    simp only [Bool.and_eq_true, decide_eq_true_eq, List.all_eq_true] at h2
    obtain ⟨⟨⟨⟨⟨a1, a2⟩, a3⟩, a4⟩, a5⟩, a6⟩ := h2
    refine ⟨w, r, ⟨_, h1⟩, hr, ⟨0, ⟨0, a1⟩, a2⟩, a3, a4, ⟨_, a5, rfl, rfl⟩, ?_⟩
    rintro ⟨f, f1, f2, f3⟩
    have := a6 _ f1
    simp [f3] at this

/-- Session 1: `a` fails, `execute` returns, the process ends. Session 2: `execute` without rerunning failures selects
nothing; `execute` is called again, and `b` is run. -/
def failedReusedThenAgain : List Act :=
  open2 ++ [exec2] ++ begun ++ started 0 ++ exits 0 1 [1] ++ returns ++ [.stop 4] ++
  open2 ++ [.exec none false 1 ⟨[0, 1], [1, 0], [0, 1], ["a"]⟩ 0, .exec none false 1 ⟨[0, 1], [1, 0], [0], []⟩ 0] ++ begun ++ started 0

/-- **C32 (violated).** The same if the failure is only reused from an earlier session: with `rerun_failures = false` the
first `execute` runs nothing and returns no failures, the second runs the dependent of the failed task. -/
theorem reused_failure_violated : ∃ w r, Reachable w ∧ w.running = some r ∧
    (∃ v, Tracker.Obtained r.st v ∧ Tracker.keyOf r.cfg v = "b") ∧ w.tasks.Dep 0 1 ∧ w.executes = 2 ∧
    w.result = some (0, []) ∧ (w.tasks.nodes.map (·.key)) = ["a", "b"] ∧ ¬ SuccessLogged w.log "a" := by
  obtain ⟨w, h1, h2⟩ := runs_of_after (as := failedReusedThenAgain) (p := fun w =>
    match w.running with
    | none => false
    | some r => decide ((0, 0) ∈ r.st.obtained) && decide (Tracker.keyOf r.cfg 0 = "b") && decide ((0, 1) ∈ w.tasks.edges) &&
      decide (w.executes = 2) && decide (w.result = some (0, [])) &&
      decide (w.tasks.nodes.map (fun x => x.key) = ["a", "b"]) &&
      w.log.all (fun e => match e with | .finished f => decide (f.status ≠ 0) | _ => true)) (by decide +kernel)
  cases hr : w.running with
  | none => rw [hr] at h2; cases h2
  | some r =>
    rw [hr] at h2
    simp only [Bool.and_eq_true, decide_eq_true_eq, List.all_eq_true] at h2
    obtain ⟨⟨⟨⟨⟨⟨a1, a2⟩, a3⟩, a4⟩, a4'⟩, a5⟩, a6⟩ := h2
    refine ⟨w, r, ⟨_, h1⟩, hr, ⟨0, ⟨0, a1⟩, a2⟩, a3, a4, a4', a5, ?_⟩
    rintro ⟨f, f1, f2, f3⟩
    have := a6 _ f1
    simp [f3] at this

/-- **C73 (what holds).** The log only grows while a process works on it; what was on disk stays there, whatever happens to
the process and in later sessions; and when an `execute` that ran something returns, everything is on disk. -/
theorem returned_is_durable_partial (h : Reachable w) :
    (∀ as w', Runs w as w' → (∀ a ∈ as, a.isStop = false) → w.log <+: w'.log) ∧
    (∀ as w', Runs w as w' → w.durable <+: w'.log) ∧
    (∀ w1, step w .finish = .ok w1 → w1.log = w.log ∧ ∀ as w', Runs w1 as w' → w1.log <+: w'.log) := by
  have hdl : ∀ (w : World), w.durable <+: w.log := by
    intro w
    unfold World.durable
    cases hs : w.sess with
    | none => simp [World.log, hs]
    | some s => exact List.take_prefix _ _
  refine ⟨fun as w' hr ha => (runs_grow hr h.inv).1 ha, fun as w' hr => ((runs_grow hr h.inv).2).trans (hdl w'), ?_⟩
  intro w1 hs
  have hI1 := winv_step h.inv hs
  have key : w1.durable = w1.log ∧ w1.log = w.log := by
    unfold step at hs
    cases hse : w.sess with
    | none => simp [hse] at hs
    | some s =>
      simp only [hse] at hs
      cases hrun : s.run with
      | none => simp [hrun] at hs
      | some r =>
        simp only [hrun] at hs
        split at hs
        · cases hs
        · simp only [Res.ok.injEq] at hs
          subst hs
          simp [World.durable, World.log, endExec, hse, hrun]
  refine ⟨key.2, fun as w' hr => ?_⟩
  rw [← key.1]
  exact ((runs_grow hr hI1).2).trans (hdl w')

/-- Both tasks run, `execute` returns. -/
def bothRun : List Act :=
  open2 ++ [exec2] ++ begun ++ started 0 ++ exits 0 0 [1] ++ sent ++ started 1 ++ exits 1 0 [] ++ returns

/-- Non-trivial case. -/
example : after bothRun (fun w => w.result == some (0, ["a", "b"]) && w.log.length == 7 && w.durable.length == 7) = true := by
  decide +kernel

/-- Session 2 after `bothRun`: `execute` finds everything done and returns; then the process is killed. -/
def allReusedKilled : List Act :=
  bothRun ++ [.stop 7] ++ open2 ++ [.exec none true 1 ⟨[0, 1], [1, 0], [], ["a", "b"]⟩ 0]

/-- **C73 (violated).** If nothing needs to be run, `execute` returns with the Backref entries, and the header of the
session, only in the buffer of the process: they are lost if it is killed. -/
theorem returned_is_durable_violated : ∃ w w', Reachable w ∧ w.running = none ∧ w.result = some (0, []) ∧
    step w (.stop 7) = .ok w' ∧ LogEntry.backref ⟨"a"⟩ ∈ w.log ∧ LogEntry.backref ⟨"a"⟩ ∉ w'.log := by
  obtain ⟨w, h1, h2⟩ := runs_of_after (as := allReusedKilled) (p := fun w =>
    match step w (.stop 7) with
    | .ok w' => decide (w.running.isNone) && decide (w.result = some (0, [])) && decide (LogEntry.backref ⟨"a"⟩ ∈ w.log) &&
      decide (LogEntry.backref ⟨"a"⟩ ∉ w'.log)
    | _ => false) (by decide +kernel)
  cases hs : step w (.stop 7) with
  | ok w' =>
    rw [hs] at h2
    simp only [Bool.and_eq_true, decide_eq_true_eq] at h2
    obtain ⟨⟨⟨a1, a2⟩, a3⟩, a4⟩ := h2
    exact ⟨w, w', ⟨_, h1⟩, by simpa using a1, a2, hs, a3, a4⟩
  | err e => rw [hs] at h2; cases h2
  | panic e => rw [hs] at h2; cases h2

end Verif.Props.World
