import Verif.Proof.Abort
import Verif.Props.Execute
import Verif.Props.Snapshot
import Verif.Props.Log

/-!
# Histories in which `execute` panics, or its last flush fails, and the session goes on
-/

namespace Verif.Props.Abort
open Verif Verif.World Verif.Abort Spec

variable {w w' : World}

/-- **C142.** With any number of panicking `execute` calls in it, a history leaves a log that follows the protocol, with headers that agree, wherever it is cut at an entry
boundary; it can be opened again, and the constructor succeeds. -/
theorem log_always_opens (h : Abort.Reachable w) (keep : Nat) (dir : String) :
    Protocol (w.log.take keep) ∧ HeadersOk (w.log.take keep) ∧ (∃ lf, LogFile.open (w.log.take keep) dir = .ok lf) ∧
    (w.sess = none → ∀ roots newKey info, ∃ w', World.step w (.open dir roots newKey info) = .ok w') := by
  have hl := h.inv.log
  have e : w.log = w.log.take keep ++ w.log.drop keep := (List.take_append_drop _ _).symm
  have hl' : LogGood w.multi (w.log.take keep) := by rw [e] at hl; exact hl.prefix
  refine ⟨hl'.protocol, hl'.headers, ?_, fun hs roots newKey info => World.open_succeeds_inv h.inv hs dir roots newKey info⟩
  exact (Log.reopen_iff (w.log.take keep) dir).2 ⟨hl'.protocol, hl'.headers⟩

/-- **C142.** In such histories, too, a task recorded as successful is never run again: not in the log, and no runner obtains it. -/
theorem success_never_rerun (h : Abort.Reachable w) : NoRerun w.log ∧
    ∀ {target : Option Nat} {rerun : Bool} {fizzles : Nat} {ch : Choices} {now : Int} {w1 w2 : World},
      World.step w (.exec target rerun fizzles ch now) = .ok w1 → ∀ {as : List World.Act}, World.Runs w1 as w2 →
      (∀ a ∈ as, a.isTrk = true) → ∀ {r : Running}, w2.running = some r → ∀ {v : Nat}, Tracker.Obtained r.st v →
      ¬ SuccessLogged w.log (Tracker.keyOf r.cfg v) :=
  ⟨h.inv.log.norerun, fun he _ hr ht _ hrun _ ho => World.success_not_obtained_inv h.inv he hr ht hrun ho⟩

/-- **C142.** Nothing recorded is lost by a panicking `execute`: the log only grows as long as the process lives, and what is on disk stays. -/
theorem nothing_lost (h : Abort.Reachable w) {as : List Abort.Act} (hr : Abort.Runs w as w') :
    ((∀ a ∈ as, a.isStop = false) → w.log <+: w'.log) ∧ w.durable <+: w'.durable := Abort.runs_grow hr h.inv

/-- **C142.** The session can go on: no action panics by itself (commands displayable), and after the panicking `execute` the graph is idle and any `execute` the user asks for
can start. -/
theorem session_goes_on (h : Abort.Reachable w) (hd : ∀ s, w.sess = some s → ∀ c ∈ s.g.deps.nodes, (c.displayText).isSome) :
    (∀ (a : World.Act), (∀ cmd deps, a ≠ .add cmd deps) → ∀ m, World.step w a ≠ .panic m) ∧
    ∀ b w1, Abort.step w (.panics b) = .ok w1 → ∃ s, w1.sess = some s ∧ s.run = none ∧ w1.tasks = w.tasks ∧
      ∀ target rerun fizzles ch now, legal s.g target rerun ch = true → ∃ w2, World.step w1 (.exec target rerun fizzles ch now) = .ok w2 := by
  refine ⟨fun a ha m => World.history_no_panic_inv h.inv hd a ha m, ?_⟩
  intro b w1 hs
  obtain ⟨s, r, lf, e1, e2, rfl, e4⟩ := panics_cases h.inv hs
  refine ⟨_, rfl, rfl, by simp [World.World.tasks, e1], ?_⟩
  intro target rerun fizzles ch now hl
  obtain ⟨lf', c', h1, _⟩ := Selection.getSubgraph_ok { s.g with logfile := lf } target rerun ch
  simp only [World.step, hl, Option.isSome_none, Bool.not_true, Bool.or_self, Bool.false_eq_true, if_false, startExec, h1]
  split <;> exact ⟨_, rfl⟩

/-- The tasks that were returned, or reused, before stay done. -/
theorem done_panics {K : List String} (h : World.Done K w) (hi : WInv w) {b : Option (Tracker.Act × Nat)}
    (hs : Abort.step w (.panics b) = .ok w') : World.Done K w' := by
  obtain ⟨s, h1, h2, h3⟩ := h
  obtain ⟨s', r, lf, e1, e2, rfl, _⟩ := panics_cases hi hs
  rw [h1] at e1
  cases e1
  exact ⟨_, rfl, h2, fun r' hr' => by cases hr'⟩

/-- Nor does a failing last flush undo anything. -/
theorem done_unflushed {K : List String} (h : World.Done K w) (hi : WInv w) {k : Nat}
    (hs : Abort.step w (.unflushed k) = .ok w') : World.Done K w' := by
  obtain ⟨s, r, w1, s1, e1, e2, e3, e4, e5, e6, e7, e8, e9, e10, rfl⟩ := unflushed_cases hs
  obtain ⟨s', d1, d2, d3⟩ := h.step hi e3 (by intro k he; cases he)
  rw [e4] at d1
  cases d1
  exact ⟨_, rfl, d2, d3⟩

/-- **C142.** What an `execute` has returned is not run again in the session (C75), also if later ones panic. -/
theorem returned_not_again (h : Abort.Reachable w) {w1 w2 : World} (hf : World.step w .finish = .ok w1) {n : Nat} {keys : List String}
    (hres : w1.result = some (n, keys)) {as : List Abort.Act} (hr : Abort.Runs w1 as w2) (hns : ∀ a ∈ as, a.isStop = false)
    {r : Running} (hrun : w2.running = some r) : ∀ x ∈ r.cfg.g.nodes, x.key ∉ keys := by
  have hi1 : WInv w1 := World.winv_step h.inv hf
  have hd1 : World.Done keys w1 := World.finish_done hf hres
  have hd2 : World.Done keys w2 ∧ WInv w2 := by
    clear hrun hf hres
    induction hr with
    | nil => exact ⟨hd1, hi1⟩
    | @cons x y z a as hst _ ih =>
      refine ih (fun a hm => hns a (List.mem_cons_of_mem _ hm)) (Abort.winv_step hi1 hst) ?_
      cases a with
      | world a =>
        refine hd1.step hi1 hst ?_
        intro keep he
        subst he
        have := hns _ (List.mem_cons_self ..)
        simp [Abort.Act.isStop, World.Act.isStop] at this
      | panics b => exact done_panics hd1 hi1 hst
      | unflushed k => exact done_unflushed hd1 hi1 hst
  obtain ⟨⟨s, k1, _, k3⟩, hi2⟩ := hd2
  have hsr : s.run = some r := by simpa [World.World.running, k1] using hrun
  intro x hx hk
  exact (((hi2.sess s k1).run r hsr).fresh x hx).2 (k3 r hsr x.key hk)

/-- Actions of `World`. -/
def acts (l : List World.Act) : List Abort.Act := l.map .world

/-- `a` has succeeded and `b` has been started when printing fails; `execute` is called again. -/
def printFails : List Abort.Act :=
  acts (World.open2 ++ [World.exec2] ++ World.begun ++ World.started 0 ++ World.exits 0 0 [1] ++ World.sent ++ World.started 1) ++
  [.world (.trk (.sendFinished ⟨1, .code 0, [], none⟩)), .panics (some (.recvFinished [] ⟨1, 0⟩, 0))]

def printFailsAgain : List Abort.Act :=
  printFails ++ acts ([.exec none true 1 ⟨[0, 1], [1, 0], [0], ["a"]⟩ 0] ++ World.begun ++ World.started 0)

/-- Non-trivial case: the log of the session with the failed print, and what is obtained in the second `execute`. -/
example : Abort.after printFailsAgain (fun w => w.executes == 2 && (w.running.map (fun r => r.st.obtained.map (fun x => Tracker.keyOf r.cfg x.2))) == some ["b"] &&
    w.log.any (fun e => match e with | .finished f => f.key == "a" && f.status == 0 | _ => false)) = true := by decide +kernel

/-- Non-trivial case of `returned_not_again`: `a` fails in a first execute that returns; the second one, of `b`, panics; the third consists of `b` again. -/
example : Abort.after (acts World.failedThenAgain ++ [.panics none] ++ acts [.exec none true 1 ⟨[0, 1], [1, 0], [0], []⟩ 0])
    (fun w => w.executes == 3 && (w.running.map (fun r => r.cfg.g.nodes.map (fun x => x.key))) == some ["b"]) = true := by decide +kernel

/-- **C142 (violated).** A success whose line cannot be printed is not recorded, and the task is run again: here `b` has ended with exit code 0 and its report was being handled; it is started a second time, under
the same run count. -/
theorem success_recorded_violated : ∃ w, Abort.Reachable w ∧ attempts "b" w.log = [0, 0] ∧ ¬ SuccessLogged w.log "b" := by
  obtain ⟨w, h1, h2⟩ := Abort.runs_of_after (as := printFailsAgain) (p := fun w => decide (attempts "b" w.log = [0, 0]) &&
    w.log.all (fun e => match e with | .finished f => decide (f.key ≠ "b") | _ => true)) (by decide +kernel)
  simp only [Bool.and_eq_true, decide_eq_true_eq, List.all_eq_true] at h2
  refine ⟨w, ⟨_, h1⟩, h2.1, ?_⟩
  rintro ⟨f, f1, f2, _⟩
  have := h2.2 _ f1
  simp [f2] at this

/-- **C142 (violated).** After a panicking `execute` the next one writes Backrefs for results of the session itself (it takes them for results of earlier sessions). If the task
had an attempt before this session, `load_logfile` then shows that one as current, too. Here `a` failed in the first session and succeeded in the second. -/
theorem own_backref_violated : ∃ w current outdated, Abort.Reachable w ∧ LogEntry.backref ⟨"a"⟩ ∈ w.log ∧
    Snapshot.currentAndOutdated w.log = .ok (current, outdated) ∧
    (∃ f ∈ current, ∃ g ∈ current, (∃ t, f = .finished ⟨t, "a", 1, []⟩) ∧ ∃ t, g = .finished ⟨t, "a", 0, []⟩) := by
  obtain ⟨w, h1, h2⟩ := Abort.runs_of_after
    (as := acts (World.open2 ++ [World.exec2] ++ World.begun ++ World.started 0 ++ World.exits 0 1 [1] ++ World.returns ++ [.stop 4] ++
      World.open2 ++ [World.exec2] ++ World.begun ++ World.started 0 ++ World.exits 0 0 [1] ++ World.sent) ++ [.panics none] ++
      acts [.exec none true 1 ⟨[0, 1], [1, 0], [0], ["a"]⟩ 0])
    (p := fun w => decide (LogEntry.backref ⟨"a"⟩ ∈ w.log) &&
      match Snapshot.currentAndOutdated w.log with
      | .ok (c, _) => decide (LogEntry.finished ⟨⟨1, 0⟩, "a", 1, []⟩ ∈ c) && decide (LogEntry.finished ⟨⟨0, 0⟩, "a", 0, []⟩ ∈ c)
      | _ => false) (by decide +kernel)
  simp only [Bool.and_eq_true, decide_eq_true_eq] at h2
  obtain ⟨h2, h3⟩ := h2
  split at h3
  · rename_i c o hc
    simp only [Bool.and_eq_true, decide_eq_true_eq] at h3
    exact ⟨w, c, o, ⟨_, h1⟩, h2, hc, _, h3.1, _, h3.2, ⟨_, rfl⟩, ⟨_, rfl⟩⟩
  · cases h3

/-! ### C174: the last flush fails -/

/-- **C174.** If the last flush of an `execute` fails, the session goes on as if it had returned: the log in memory and the tasks are the same, and
every later call of `execute` selects the same tasks, writes the same entries and starts in the same state. What was on disk stays there. -/
theorem goes_on_as_if_returned {k : Nat} (hs : Abort.step w (.unflushed k) = .ok w') :
    ∃ w1, World.step w .finish = .ok w1 ∧ w'.log = w1.log ∧ w'.tasks = w1.tasks ∧ w'.running = none ∧ w'.result = w.result ∧
      w.durable <+: w'.durable ∧
      ∀ target rerun fizzles ch now,
        (∀ w2, World.step w1 (.exec target rerun fizzles ch now) = .ok w2 → ∃ w2', World.step w' (.exec target rerun fizzles ch now) = .ok w2' ∧
          w2'.log = w2.log ∧ w2'.running = w2.running ∧ w2'.tasks = w2.tasks) := by
  obtain ⟨s, r, w1, s1, e1, e2, e3, e4, e5, e6, e7, e8, e9, e10, rfl⟩ := unflushed_cases hs
  have hl : w.log = r.st.lf.entries := by simp [World.log, e1, e2]
  have hl' : World.log { w1 with sess := some { s1 with flushed := k, result := s.result } } = r.st.lf.entries := by simp [World.log, e8, e7]
  refine ⟨w1, e3, ?_, ?_, ?_, ?_, ?_, ?_⟩
  · rw [hl']; simp [World.log, e4, e8, e7]
  · simp [World.World.tasks, e4]
  · simp [World.World.running, e8]
  · simp [World.World.result, e1]
  · simp only [World.durable, e1, hl, hl']
    exact List.take_prefix_take_left e5
  · intro target rerun fizzles ch now w2 h2
    simp only [World.step, e4, e8, Option.isSome_none, Bool.false_or] at h2 ⊢
    split at h2
    · cases h2
    · rename_i hle
      rw [if_neg hle]
      simp only [startExec] at h2 ⊢
      split at h2
      · rename_i sub g hg
        split at h2
        · rename_i hn
          simp only [Res.ok.injEq] at h2
          subst h2
          rw [if_pos hn]
          exact ⟨_, rfl, by simp [World.log, e8], by simp [World.World.running, e8], by simp [World.World.tasks]⟩
        · rename_i hn
          simp only [Res.ok.injEq] at h2
          subst h2
          rw [if_neg hn]
          exact ⟨_, rfl, by simp [World.log], by simp [World.World.running], by simp [World.World.tasks]⟩
      · cases h2
      · cases h2

/-- The first of two tasks fails, everything is in the log, but the last flush fails; `execute` is called again. -/
def flushFails : List Abort.Act :=
  acts (World.open2 ++ [World.exec2] ++ World.begun ++ World.started 0 ++ World.exits 0 1 [1] ++ World.returns.dropLast) ++ [.unflushed 1] ++
  acts [.exec (some 0) true 1 ⟨[0, 1], [1, 0], [], []⟩ 0]

/-- **C174 (violated).** A failure can go unreported for good: `a` has failed; the `execute` that ran it ended with an error of the last flush; the next one, of
`a` alone, finds nothing to do and returns no failures. -/
theorem failure_never_told_violated : ∃ as w, Abort.Runs World.init as w ∧ (∀ a ∈ as, (∀ b, a ≠ .panics b) ∧ a ≠ .world .finish) ∧
    (∃ f, LogEntry.finished f ∈ w.log ∧ f.key = "a" ∧ f.status = 1) ∧ w.executes = 2 ∧ w.result = some (0, []) := by
  obtain ⟨w, h1, h2⟩ := Abort.runs_of_after (as := flushFails) (p := fun w => decide (LogEntry.finished ⟨⟨1, 0⟩, "a", 1, []⟩ ∈ w.log) &&
    w.executes == 2 && w.result == some (0, [])) (by decide +kernel)
  simp only [Bool.and_eq_true, decide_eq_true_eq, beq_iff_eq] at h2
  refine ⟨_, w, h1, ?_, ⟨_, h2.1.1, rfl, rfl⟩, h2.1.2, h2.2⟩
  have hall : flushFails.all (fun a => match a with | .panics _ => false | .world .finish => false | _ => true) = true := by decide +kernel
  intro a ha
  have := List.all_eq_true.1 hall a ha
  constructor
  · intro b hb
    subst hb
    exact absurd this (by simp)
  · intro hb
    subst hb
    exact absurd this (by simp)

/-- Non-trivial case of `goes_on_as_if_returned`: the flush fails with everything done and only the header on disk. -/
example : ∃ as w w', Abort.Runs World.init as w ∧ Abort.step w (.unflushed 1) = .ok w' ∧ w'.durable.length = 1 ∧ w'.log.length = 4 := by
  obtain ⟨w, h1, h2⟩ := Abort.runs_of_after (as := flushFails.take (flushFails.length - 2))
    (p := fun w => match Abort.step w (.unflushed 1) with | .ok w' => w'.durable.length == 1 && w'.log.length == 4 | _ => false) (by decide +kernel)
  split at h2
  · rename_i w' hw
    simp only [Bool.and_eq_true, beq_iff_eq] at h2
    exact ⟨_, w, w', h1, hw, h2⟩
  · cases h2

end Verif.Props.Abort
