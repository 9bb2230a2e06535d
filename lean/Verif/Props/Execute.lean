import Verif.Proof.TrackerEntries
import Verif.Props.Tracker
import Verif.Props.World
import Mathlib.Data.List.Nodup

/-!
# C74-C78: what an execute returns, logs and acknowledges
-/

namespace Verif.Props.Tracker
open Verif Verif.Tracker Spec

variable {c : Cfg} {lf : LogFile} {now : Int} {s : State}

theorem rinv (h : Runs c (init c lf now) as s) : RInv c lf as s := by simpa using RInv.run h (rinv_init lf now)

/-- **C76.** Every entry this execute has appended so far has an origin as described in `Origin`. (The third case of
Started entries is the one that violates the documented claim.) -/
theorem entries_have_origin {as : List Act} (h : Runs c (init c lf now) as s) :
    ∀ e ∈ newEntries lf s, Origin c as e := by
  obtain ⟨new, h1, h2⟩ := (rinv h).entries
  unfold newEntries
  rw [h1, List.drop_left]
  exact h2

/-- **C76 (violated in drain).** The runner of `c` reports host "h", pid 2; ctrl-c is seen first; the log says host
"host", pid 0. -/
theorem started_entry_violated : ∃ s, Reachable diamond emptyLog 0 s ∧
    ∃ as, Runs diamond (init diamond emptyLog 0) as s ∧ Act.sendStarted 2 "h" 2 "" ∈ as ∧
    (∀ ho p j, Act.sendStarted 2 ho p j ∈ as → ho = "h" ∧ p = 2) ∧
    LogEntry.started ⟨t0, keyOf diamond 2, "host", 0, ""⟩ ∈ newEntries emptyLog s := by
  obtain ⟨s, h1, h2⟩ := runs_of_after (c := diamond) (as := lateReport)
    (p := fun s => decide (LogEntry.started ⟨t0, keyOf diamond 2, "host", 0, ""⟩ ∈ newEntries emptyLog s)) (by decide)
  refine ⟨s, ⟨_, h1⟩, _, h1, by simp [lateReport], ?_, by simpa using h2⟩
  intro ho p j hm
  simp [lateReport, runBC, runA, take, reportOk] at hm
  exact ⟨hm.1, hm.2.1⟩

/-- Non-trivial case: after `runB` the log shows the reported host and pid, and the exit code. -/
example : after diamond runB (fun s => decide (newEntries emptyLog s = [.ready ⟨t0, "a", 0, "a", 0⟩,
    .started ⟨t0, "a", "h", 1, ""⟩, .ready ⟨t0, "b", 0, "b", 0⟩, .ready ⟨t0, "c", 0, "c", 0⟩, .finished ⟨t0, "a", 0, []⟩,
    .started ⟨t0, "b", "h", 1, ""⟩, .finished ⟨t0, "b", 0, []⟩])) = true := by decide

/-- A report sent with flag `f` that the server has not finished with: it is in the channel, or the server is putting the
tasks it made ready into the queues. -/
def Unprocessed (s : State) (f : Nat) : Prop :=
  (∃ e, Event.finished e ∈ s.chan ∧ e.flag = some f) ∨ ∃ todo e, s.pc = .sending todo (some e) ∧ e.flag = some f

theorem waiting_iff {f : Nat} : f ∈ waitingFlags s ↔ Unprocessed s f := by
  unfold waitingFlags Unprocessed
  rw [List.mem_append, List.mem_filterMap]
  constructor
  · rintro (⟨ev, h1, h2⟩ | h)
    · cases ev with
      | started _ _ _ _ => cases h2
      | finished e => exact .inl ⟨e, h1, h2⟩
    · cases hp : s.pc with
      | sending todo fin =>
        rw [hp] at h
        cases fin with
        | none => simp [curFlag] at h
        | some e => exact .inr ⟨todo, e, rfl, by simpa [curFlag] using h⟩
      | _ => rw [hp] at h; simp [curFlag] at h
  · rintro (⟨e, h1, h2⟩ | ⟨todo, e, h1, h2⟩)
    · exact .inl ⟨_, h1, h2⟩
    · right; rw [h1]; simp [curFlag, h2]

/-- **C77.** Every report sent with a flag is acknowledged: it is not yet processed, or the flag is set, or the execute is
over and the token is hard cancelled (for which the handler waits as well). -/
theorem reports_acknowledged {as : List Act} (h : Runs c (init c lf now) as s) {e : Fin} (he : Act.sendFinished e ∈ as) {f : Nat}
    (hf : e.flag = some f) : Unprocessed s f ∨ f ∈ s.flagsSet ∨ (s.pc = .done ∧ s.token = some .hard) := by
  have hi := rinv h
  by_cases hd : s.pc = .done
  · exact .inr (.inr ⟨hd, hi.hard (.inr (.inr hd))⟩)
  · have hm : f ∈ sentFlags as := List.mem_filterMap.2 ⟨_, he, hf⟩
    rcases List.mem_append.1 ((hi.flags hd).mem_iff.2 hm) with hx | hx
    · exact .inr (.inl hx)
    · exact .inl (waiting_iff.1 hx)

/-- **C77.** The token is hard cancelled as soon as serving is over, so that in particular no handler waits while `execute`
waits for the handlers. -/
theorem over_is_cancelled {as : List Act} (h : Runs c (init c lf now) as s) (ho : ServingOver s) : s.token = some .hard :=
  (rinv h).hard ho

/-- **C77.** If each report comes with its own flag, then a set flag belongs to a processed report, and the tasks it made
ready are in the queues (the server is not in the middle of it). -/
theorem acknowledged_is_processed {as : List Act} (h : Runs c (init c lf now) as s) (hn : (sentFlags as).Nodup) {e : Fin}
    (he : Act.sendFinished e ∈ as) {f : Nat} (hf : e.flag = some f) (hs : f ∈ s.flagsSet) (hd : s.pc ≠ .done) :
    (e.id, e.status) ∈ s.processed ∧ ¬ Unprocessed s f := by
  have hi := rinv h
  have hnd := (hi.flags hd).nodup_iff.2 hn
  refine ⟨?_, fun hu => ?_⟩
  · obtain ⟨e', k1, k2, k3⟩ := hi.set f hs
    have : e = e' := by
      have hx : ∀ (as : List Act), (sentFlags as).Nodup → Act.sendFinished e ∈ as → Act.sendFinished e' ∈ as → e = e' := by
        intro as
        induction as with
        | nil => intro _ h; cases h
        | cons a as ih =>
          intro hn h1 h2
          have hn' : (sentFlags as).Nodup := by
            rw [show a :: as = [a] ++ as from rfl, sentFlags_append, List.nodup_append] at hn
            exact hn.2.1
          have hdis : ∀ x : Fin, Act.sendFinished x = a → x.flag = some f → f ∉ sentFlags as := by
            intro x hx hxf hm
            subst hx
            rw [show Act.sendFinished x :: as = [Act.sendFinished x] ++ as from rfl, sentFlags_append, List.nodup_append] at hn
            exact hn.2.2 f (List.mem_filterMap.2 ⟨Act.sendFinished x, by simp, hxf⟩) f hm rfl
          rcases List.mem_cons.1 h1 with h1 | h1 <;> rcases List.mem_cons.1 h2 with h2 | h2
          · rw [← h1] at h2; cases h2; rfl
          · exact absurd (List.mem_filterMap.2 ⟨_, h2, k2⟩) (hdis e h1 hf)
          · exact absurd (List.mem_filterMap.2 ⟨_, h1, hf⟩) (hdis e' h2 k2)
          · exact ih hn' h1 h2
      exact hx as hn he k1
    subst this
    exact k3
  · rw [List.nodup_append] at hnd
    exact hnd.2.2 f hs f (waiting_iff.2 hu) rfl

/-- `a` reports its end with flag 7. -/
def flagged : List Act :=
  [.begin [0] t0, .sendNext, .sendDone t0] ++ take 0 0 ++ [.sendStarted 0 "h" 1 "", .sendFinished ⟨0, .code 0, [], some 7⟩,
    .recvStarted t0, .recvFinished [1, 2] t0]

/-- Non-trivial case: while `b` and `c` are put into the queues the flag is not set; after it, it is. -/
example : after diamond flagged (fun s => s.flagsSet.isEmpty) = true ∧
    after diamond (flagged ++ [.sendNext]) (fun s => s.flagsSet.isEmpty) = true ∧
    after diamond (flagged ++ [.sendNext, .sendNext, .sendDone t0]) (fun s => s.flagsSet == [7]) = true := by decide

/-- **C78.** The event counter is the number of actions that logged Ready entries, less one while the last batch is still
being put into the queues. -/
theorem counter_counts_batches {as : List Act} (h : Runs c (init c lf now) as s) :
    (∀ todo fin, s.pc = .sending todo fin → s.counter + 1 = readyBatches c (init c lf now) as) ∧
    ((∀ todo fin, s.pc ≠ .sending todo fin) → s.counter = readyBatches c (init c lf now) as) := by
  have hc := counter_run h
  have h0 : (init c lf now).counter = 0 := rfl
  have h1 : sendingNat (init c lf now).pc = 0 := rfl
  rw [h0, h1] at hc
  refine ⟨fun todo fin hp => ?_, fun hp => ?_⟩
  · have : sendingNat s.pc = 1 := by rw [hp]; rfl
    omega
  · have : sendingNat s.pc = 0 := by
      cases hx : s.pc with
      | sending t f => exact absurd hx (hp t f)
      | _ => rfl
    omega

/-- Non-trivial case: two batches (`a`, then `b` and `c`). -/
example : after diamond runB (fun s => s.counter == 2) = true ∧
    readyBatches diamond (init diamond emptyLog 0) runB = 2 := by decide

end Verif.Props.Tracker

namespace Verif.Props.World
open Verif Verif.World Spec

variable {w : World}

/-- **C74.** `execute` is called, the scheduler and runners act, it returns `(n, keys)`: `n` is the number of Finished
entries with non-zero exit code which this call appended to the log; `keys` are the keys of the first of its Finished
entries, in order and without repetition. -/
theorem result_agrees_with_log (h : Reachable w) {target : Option Nat} {rerun : Bool} {fizzles : Nat} {ch : Choices}
    {now : Int} {w1 w2 w3 : World} (he : step w (.exec target rerun fizzles ch now) = .ok w1) {as : List Act}
    (hr : Runs w1 as w2) (ht : ∀ a ∈ as, a.isTrk = true) (hf : step w2 .finish = .ok w3) :
    ∃ n keys, w3.result = some (n, keys) ∧
      n = (Tracker.finList (w3.log.drop w1.log.length)).countP (fun x => decide (x.2 ≠ 0)) ∧
      keys = ((Tracker.finList (w3.log.drop w1.log.length)).map (·.1)).take keys.length ∧ keys.Nodup := by
  obtain ⟨s, s1, lf', c', e1, e2, e3, e4, e5, e6, e7, e8, e9, e10, e11⟩ := exec_cases he
  rcases e11 with ⟨e11, _⟩ | ⟨c, e11, _⟩
  · exfalso
    cases hr with
    | nil => simp [step, e3, e11] at hf
    | @cons _ _ _ a as hst _ =>
      have ha := ht a (by simp)
      cases a with
      | trk b => simp [step, e3, e11] at hst
      | _ => simp [Act.isTrk] at ha
  · obtain ⟨st, e12⟩ := runs_trk hr ht e3 e11
    have hI2 : WInv w2 := winv_runs hr (winv_step h.inv he)
    subst e12
    have hR := (hI2.sess _ rfl).run _ rfl
    simp only [step] at hf
    split at hf
    · cases hf
    · rename_i hpc
      have hpc : st.pc = .done := by simpa using hpc
      simp only [Res.ok.injEq] at hf
      subst hf
      have hl1 : w1.log = s1.g.logfile.entries := by
        unfold World.log
        rw [e3]
        simp only [e11, Tracker.init]
        rw [e8]
      have hl3 : (endExec { w1 with sess := some { s1 with run := some ⟨c, now, s.g.completed, st⟩ } }
          { s1 with run := some ⟨c, now, s.g.completed, st⟩ } ⟨c, now, s.g.completed, st⟩).log = st.lf.entries := rfl
      have hnew : st.lf.entries.drop w1.log.length = Tracker.newEntries s1.g.logfile st := by rw [hl1]; rfl
      refine ⟨_, _, rfl, ?_, ?_, ?_⟩
      · rw [hl3, hnew]
        exact ((Tracker.failure_count hR.good hR.reach).2.2.2 (by simp [hpc])).1
      · rw [hl3, hnew]
        obtain ⟨_, hh⟩ := hR.reach.inv hR.good
        obtain ⟨_, _, hok⟩ := hh.log.new_eq
        rw [hok.fin]
        have : Tracker.curOf st.pc = none := by rw [hpc]; rfl
        simp only [this, ne_eq, reduceCtorEq, not_false_eq_true, decide_true, List.filter_true, List.map_append, List.map_map,
          List.length_map]
        rw [List.take_append_of_le_length (by simp), List.take_of_length_le (by simp)]
        rfl
      · have hnd := hR.reach.closed_nodup hR.good
        unfold Tracker.closedTasks at hnd
        rw [List.map_append, List.nodup_append] at hnd
        have hlt : ∀ v ∈ st.processed.map (·.1), v < c.g.n := by
          intro v hv
          obtain ⟨hi, _⟩ := hR.reach.inv hR.good
          refine hi.core.deps.lt v (hR.reach.busy_made hR.good ?_)
          rw [List.map_append]
          exact List.mem_append_right _ (List.mem_append_left _ hv)
        have := List.Nodup.map_on (f := fun v => (Tracker.cmdOf c.g v).key)
          (fun x hx y hy hxy => hR.good.keyInj (hlt x hx) (hlt y hy) hxy) hnd.1
        rwa [List.map_map] at this

/-- Non-trivial case: `a` fails, so `b` is not run; the result is one failure and the key `a`. -/
example : after (failedThenAgain.take 18) (fun w => w.result == some (1, ["a"]) &&
    decide (Tracker.finList w.log = [("a", 1)])) = true := by decide +kernel

/-- **C74.** An execute that finds nothing to run has returned `(0, [])` and appended Backref entries only. -/
theorem nothing_to_run {target : Option Nat} {rerun : Bool} {fizzles : Nat} {ch : Choices} {now : Int} {w1 : World}
    (he : step w (.exec target rerun fizzles ch now) = .ok w1) (hn : w1.running = none) :
    w1.result = some (0, []) ∧ ∃ ks : List String, w1.log = w.log ++ ks.map (fun k => LogEntry.backref ⟨k⟩) := by
  obtain ⟨s, s1, lf', c', e1, e2, e3, e4, e5, e6, e7, e8, e9, e10, e11⟩ := exec_cases he
  rcases e11 with ⟨e11, e12⟩ | ⟨c, e11, _⟩
  · refine ⟨by simp [World.result, e3, e12], ch.reuseOrder, ?_⟩
    rw [e5, ← e7]
    simp [World.log, e3, e11, e8]
  · simp [World.running, e3, e11] at hn

theorem addTask_completed {g : ExecGraph} {cmd : Cmd} {deps : List Nat} {r}
    (hr : TaskGraph.Reachable g) (h : pyAddTask g cmd deps = .ok r) : r.2.completed = g.completed := by
  unfold pyAddTask at h
  obtain ⟨x, _, h⟩ := Res.bind_ok.1 h
  simp only [Res.ok.injEq] at h
  subst h
  exact (addTask_facts hr _ _).2.1

/-- Non-trivial case: everything was done in an earlier session. -/
example : after allReusedKilled (fun w => w.running.isNone && w.result == some (0, []) &&
    decide (w.log.drop 8 = [.backref ⟨"a"⟩, .backref ⟨"b"⟩])) = true := by decide +kernel

/-- The keys `K` are completed in the session, and were so when the current execute was called. -/
def Done (K : List String) (w : World) : Prop :=
  ∃ s, w.sess = some s ∧ (∀ k ∈ K, k ∈ s.g.completed) ∧ ∀ r, s.run = some r → ∀ k ∈ K, k ∈ r.completed0

theorem mem_insertKeys {ks completed : List String} {k : String} :
    k ∈ insertKeys completed ks ↔ k ∈ completed ∨ k ∈ ks := by
  induction ks generalizing completed with
  | nil => simp [insertKeys]
  | cons a ks ih =>
    rw [insertKeys, ih]
    by_cases ha : a ∈ completed
    · rw [if_pos ha]
      simp only [List.mem_cons]
      constructor
      · rintro (h | h)
        · exact .inl h
        · exact .inr (.inr h)
      · rintro (h | rfl | h)
        · exact .inl h
        · exact .inl ha
        · exact .inr h
    · rw [if_neg ha]
      simp [or_assoc]

theorem exec_completed {w1 : World} {target : Option Nat} {rerun : Bool} {fizzles : Nat} {ch : Choices} {now : Int}
    (h : step w (.exec target rerun fizzles ch now) = .ok w1) {s : Sess} (hs : w.sess = some s) :
    ∃ s1, w1.sess = some s1 ∧ (∀ k ∈ s.g.completed, k ∈ s1.g.completed) ∧
      ∀ r, s1.run = some r → r.completed0 = s.g.completed := by
  unfold step at h
  simp only [hs] at h
  split at h
  · cases h
  · obtain ⟨lf', c', h1, h2, h3, h4, h5⟩ := Selection.getSubgraph_ok s.g target rerun ch
    unfold startExec at h
    simp only [h1] at h
    split at h
    · simp only [Res.ok.injEq] at h
      subst h
      refine ⟨_, rfl, fun k hk => (h5 k).2 (.inl hk), ?_⟩
      intro r hr
      rename_i hrun _
      have hr : s.run = some r := hr
      simp [hr] at hrun
    · simp only [Res.ok.injEq] at h
      subst h
      refine ⟨_, rfl, fun k hk => (h5 k).2 (.inl hk), ?_⟩
      intro r hr
      simp only [Option.some.injEq] at hr
      subst hr
      rfl

theorem Done.step {K : List String} (h : Done K w) (hi : WInv w) {a : Act} {w' : World} (hst : World.step w a = .ok w')
    (ha : ∀ keep, a ≠ .stop keep) : Done K w' := by
  obtain ⟨s, h1, h2, h3⟩ := h
  cases a with
  | «open» dir roots newKey info => simp [World.step, h1] at hst
  | add cmd deps =>
    unfold World.step at hst
    simp only [h1] at hst
    split at hst
    · cases hst
    · rename_i hrun
      split at hst
      · cases hst
      · split at hst
        · rename_i r hr
          cases hst
          refine ⟨_, rfl, ?_, fun r' hr' => h3 r' hr'⟩
          have := addTask_completed (hi.sess s h1).reach hr
          intro k hk
          show k ∈ r.2.completed
          rw [this]
          exact h2 k hk
        · cases hst
        · cases hst
  | exec target rerun fizzles ch now =>
    obtain ⟨s1, k1, k2, k3⟩ := exec_completed hst h1
    exact ⟨s1, k1, fun k hk => k2 k (h2 k hk), fun r hr k hk => by rw [k3 r hr]; exact h2 k hk⟩
  | trk b =>
    unfold World.step at hst
    simp only [h1] at hst
    cases hrun : s.run with
    | none => simp [hrun] at hst
    | some r =>
      simp only [hrun] at hst
      split at hst
      · cases hst
      · obtain ⟨st, _, k2⟩ := Res.bind_ok.1 hst
        cases k2
        refine ⟨_, rfl, h2, ?_⟩
        intro r' hr'
        cases hr'
        exact h3 r hrun
  | finish =>
    unfold World.step at hst
    simp only [h1] at hst
    cases hrun : s.run with
    | none => simp [hrun] at hst
    | some r =>
      simp only [hrun] at hst
      split at hst
      · cases hst
      · cases hst
        exact ⟨_, rfl, fun k hk => mem_insertKeys.2 (.inl (h2 k hk)), fun r' hr' => by cases hr'⟩
  | stop keep => exact absurd rfl (ha keep)

theorem finish_done {w1 : World} (hf : World.step w .finish = .ok w1) {n : Nat} {keys : List String} (hres : w1.result = some (n, keys)) :
    Done keys w1 := by
  unfold World.step at hf
  cases hs : w.sess with
  | none => simp [hs] at hf
  | some s =>
    cases hrun : s.run with
    | none => simp [hs, hrun] at hf
    | some r =>
      simp only [hs, hrun] at hf
      split at hf
      · cases hf
      · cases hf
        simp only [World.result, endExec, Option.bind_some, Option.some.injEq, Prod.mk.injEq] at hres
        refine ⟨_, rfl, fun k hk => mem_insertKeys.2 (.inr ?_), fun r' hr' => by cases hr'⟩
        rw [hres.2]; exact hk

/-- **C75.** A task whose key an execute returned - it may have failed - is not part of any later execute of the same
session, whatever happens in between. -/
theorem nothing_runs_twice_in_session (h : Reachable w) {w1 w2 : World} (hf : step w .finish = .ok w1) {n : Nat}
    {keys : List String} (hres : w1.result = some (n, keys)) {as : List Act} (hr : Runs w1 as w2)
    (hns : ∀ keep, Act.stop keep ∉ as) {r : Running} (hrun : w2.running = some r) :
    ∀ x ∈ r.cfg.g.nodes, x.key ∉ keys := by
  have hi1 : WInv w1 := winv_step h.inv hf
  have hd1 : Done keys w1 := finish_done hf hres
  have hd2 : Done keys w2 ∧ WInv w2 := by
    clear hrun hf hres
    induction hr with
    | nil => exact ⟨hd1, hi1⟩
    | @cons x y z a as hst _ ih =>
      exact ih (fun keep hm => hns keep (List.mem_cons_of_mem _ hm)) (winv_step hi1 hst)
        (hd1.step hi1 hst (fun keep he => hns keep (by simp [he])))
  obtain ⟨⟨s, k1, _, k3⟩, hi2⟩ := hd2
  have hsr : s.run = some r := by simpa [World.running, k1] using hrun
  intro x hx hk
  exact (((hi2.sess s k1).run r hsr).fresh x hx).2 (k3 r hsr x.key hk)

/-- Non-trivial case: `a` has failed; the second execute of the session consists of `b` alone. -/
example : after failedThenAgain (fun w => (w.running.map (fun r => r.cfg.g.nodes.map (fun x => x.key))) == some ["b"]) = true := by
  decide +kernel

end Verif.Props.World
