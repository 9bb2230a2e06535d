import Verif.Proof.Runners4
import Verif.Props.Runners

/-!
# Everything is done, with the actual remote runners (C172)

C137 takes it as given that every connection ends. Here it follows from the program of the runners, if nothing goes wrong on their
side and on the network.
-/

namespace Verif.Props.Runners
open Verif Verif.Cluster
open Verif.Tracker (emptyLog Good Displayable Ordered Succeeded ExitStatus)
open Verif.Props.Tracker (t0)
open Verif.Props.Progress
open Verif.Props.Fairly (clean clean_intact)

variable {c : Sys.Cfg} {lf : LogFile} {now : Int} {σ : Nat → State} {α : Nat → Act}

/-- **C172.** An infinite run of the server with any number of actual runners. If

* scheduler, processes and outside are as in C170 (but for the clock of the reaper, which is not needed), nothing of the server panics,
  and no transaction id is drawn twice,
* nothing goes wrong (`trouble`): all processes can be started and end with exit code 0, no runner is ended by Slurm, none gives the
  server up, no answer gets lost, there is no cancellation,
* requests and answers arrive after some time, and no runner stays for ever at one place of its program,

then `execute` returns, and every selected task has been reported as successful exactly once, in an order in which dependencies come
first. -/
theorem everything_done_runners (hg : Good c.tr) (hdisp : Displayable c.tr) (hst : Sys.Startable c) (hord : Ordered c.tr)
    (hne : c.tr.g.n ≠ 0) (hz : c.tr.fizzlesAllowed ≠ 0) (h : InfRun c lf now σ α) (hf : AllFresh c lf now α)
    (hj : Sys.Justly c (sysStates σ) (sysActs σ α)) (hco : Sys.Cooperative c (sysStates σ) (sysActs σ α)) (hn : NoPanic σ α)
    (hw : ∀ k, trouble (σ k) (α k) = false) (hm : RunnersMove σ) (hra : RequestsArrive σ) (han : AnswersArrive σ) :
    ∃ k, (σ k).sys.tr.pc = .done ∧ ((σ k).sys.tr.processed.map (·.1)).Perm (List.range c.tr.g.n) ∧
      (∀ l x r, (σ k).sys.tr.processed = l ++ x :: r → ∀ u, c.tr.g.Dep u x.1 → (u, ExitStatus.code 0) ∈ l) ∧
      ∀ v, v < c.tr.g.n → Succeeded (σ k).sys.tr v :=
  Fairly.everything_done hg hdisp hst hord hne hz (h.sys hf) hj hco (conns_end hg hst h hf hw hm hra han) (intact h hf hn)
    (right_sys hg hst h hf hw)

/-- **C172.** What is behind it: a runner to which nothing bad happens reports the end of every task it was given, so that every
connection ends (unless there is a hard cancellation before, as at the end of `execute`). -/
theorem connections_end (hg : Good c.tr) (hst : Sys.Startable c) (h : InfRun c lf now σ α) (hf : AllFresh c lf now α)
    (hw : ∀ k, trouble (σ k) (α k) = false) (hm : RunnersMove σ) (hra : RequestsArrive σ) (han : AnswersArrive σ) :
    Sys.ConnsEnd (sysStates σ) := conns_end hg hst h hf hw hm hra han

/-- A runner of type 5 takes `a`, runs it and asks for more; a local loop runs `b`; the runner is told that there is no more, and
everything returns. -/
def finished : List Act := offered.map .server ++ [.join r5, .runner 0 .sendStart, .arrive 0, .server (.hRecv 0), .server (.server (.pop 2 0)),
  .server (.server (.claim 0)), .server (.hGot 0 0), .server (.hTimer 0 7), .server (.hInsert 0), .answer 0, .runner 0 (.spawn (some 1)),
  .runner 0 .sendBegun, .arrive 1, .answer 0, .server (.server (.recvStarted t0)), .other ⟨some "k", some (some "j"), .ping 7⟩,
  .runner 0 (.childEnds 1), .runner 0 (.output ⟨0, [[("x", "y")]]⟩), .runner 0 .sendEnd, .arrive 2] ++
  ([.hCancel 3, .hReport 3, .server (.recvFinished [1] t0), .server .sendNext, .server (.sendDone t0), .hFlag 3, .hRecv 3,
    .server (.pop 0 0), .server (.claim 0), .loopGot 0 0, .loopSpawn 0 true, .loopStarted 0 "h" 7, .loopOutput 0 0 [], .loopReport 0,
    .server (.recvStarted t0), .server (.recvFinished [] t0), .loopRecv 0, .loopClosed 1 0, .hLeave 3 0 false, .reapStop, .joinDone,
    .server (.drain [] t0)].map .server : List Act) ++ [.answer 0, .runner 0 .cleaned]

/-- Non-trivial case: this run. -/
example : ∃ σ α, InfRun mixed emptyLog 0 σ α ∧ AllFresh mixed emptyLog 0 α ∧ Sys.Justly mixed (sysStates σ) (sysActs σ α) ∧
    Sys.Cooperative mixed (sysStates σ) (sysActs σ α) ∧ NoPanic σ α ∧ (∀ k, trouble (σ k) (α k) = false) ∧ RunnersMove σ ∧
    RequestsArrive σ ∧ AnswersArrive σ ∧
    ∃ k, (σ k).sys.tr.pc = .done ∧ (σ k).sys.tr.processed = [(0, .code 0), (1, .code 0)] ∧ (σ k).runners.map (·.st.phase) = [.exited] := by
  obtain ⟨s, hr, hs⟩ := runs_of_after (c := mixed) (as := finished)
    (p := fun (s : State) => clean s.sys && s.sys.tr.pc == .done && s.sys.tr.processed == [(0, .code 0), (1, .code 0)] &&
      decide (s.runners.map (·.st.phase) = [.exited]) && s.runners.all (fun r => (atTask r.st.phase).isNone) &&
      s.runners.all (fun r => r.waits.isNone)) (by decide +kernel)
  simp only [Bool.and_eq_true, beq_iff_eq, decide_eq_true_eq] at hs
  obtain ⟨⟨⟨⟨⟨h0, hd⟩, hpr⟩, hph⟩, hq⟩, hwn⟩ := hs
  obtain ⟨h1, h2, h3⟩ := clean_intact h0
  obtain ⟨σ, α, e1, e2, e3, e4, e5, e6, e7, e8, e9, e10, e11, e12, e13, e14⟩ := exists_moving hr (by unfold Fresh Sys.FreshTxns; decide +kernel) h1 h2 h3 hq
  have hacts : ∀ k, Sys.panics (sysActs σ α k) = false := by
    intro k
    rcases Sys.only_these e11 e12 k with h | h
    · have : ∀ a ∈ view mixed (init mixed emptyLog 0) finished, Sys.panics a = false := by decide +kernel
      exact this _ h
    · rw [h]; rfl
  have htr : ∀ k, trouble (σ k) (α k) = false := by
    intro k
    have := nowhere (f := fun s a => if trouble s a then [()] else []) e1 e13 e14 (by decide +kernel) (fun s => rfl) k
    simpa using this
  obtain ⟨hra, han⟩ := arrive_at_end e1 e9 h3 hwn
  refine ⟨σ, α, e1, e2, e3, e5, ⟨hacts, fun k => (e8 k).reaper⟩, htr, e6, hra, han, finished.length, ?_⟩
  rw [e9 _ (Nat.le_refl _)]; exact ⟨hd, hpr, hph⟩

end Verif.Props.Runners
