import Verif.Proof.Runners2
import Verif.Props.Fairly
import Verif.Props.Cluster

/-!
# `execute` with the actual remote runners comes to an end; reports of runners are accepted (C170, C171)

C135 and C136 take it as given that connections end or fall silent. Here it follows from the program of the runners
(execgraph-remote.rs) and what is expected of their surroundings.
-/

namespace Verif.Props.Runners
open Verif Verif.Cluster
open Verif.Tracker (emptyLog Good Displayable Ordered)
open Verif.Props.Tracker (t0)
open Verif.Props.System (silentRun remote2)
open Verif.Props.Cluster (bothRun complete r0)
open Verif.Props.Progress
open Verif.Props.Fairly (clean clean_intact)

variable {c : Sys.Cfg} {lf : LogFile} {now : Int} {s s' : State} {as : List Act} {σ : Nat → State} {α : Nat → Act}

/-! ### C171: reports of runners are accepted -/

/-- **C171.** Whatever the network does, if no transaction id is drawn twice: an `/end` sent by a runner that arrives while its transaction
is in the table of connections is taken as the end of that connection: it is never refused because of the job id. -/
theorem report_accepted (hr : Runs c (init c lf now) as s) (hf : Fresh c lf now as) {k i : Nat} {q : Sys.Request}
    (hk : s.packets[k]? = some ⟨i, q, none⟩) {T : Nat} {code : Int} {values : List (List (String × String))} {next : Option Nat}
    (hb : q.body = .finish T code values next) {conn : Sys.Conn} (hc : s.sys.conns.lookup T = some conn)
    (hs : step c s (.arrive k) = .ok s') :
    s'.sys.handlers = s.sys.handlers ++ [.ending conn code values next] ∧ T ∉ s'.sys.conns.map (·.1) := by
  have hi := hr.inv hf
  obtain ⟨r, o, h1, ho, hrq⟩ := hi.sent k _ hk
  have hjob := report_job hr hf hk hb hc h1
  simp only [step, hk] at hs
  obtain ⟨t, h2, e⟩ := Grid.bind_ok hs
  cases e
  have hq := hi.packetJob hk h1
  simp only at hq hrq
  have hauth : q.auth = some c.secret := by
    cases o <;> simp only [request] at hrq <;> first | (cases hrq; done) | (simp only [Option.some.injEq] at hrq; rw [← hrq])
  simp only [Sys.step] at h2
  split at h2
  · cases h2
  · simp only [Sys.takeRequest, hauth, hb, hq] at h2
    simp only [ne_eq, not_true_eq_false, if_false, Sys.endH, hc, hjob, Res.ok.injEq] at h2
    subst h2
    exact ⟨rfl, by simp [Sys.dropKey]⟩

/-- **C171.** And no connection is dropped without a report. -/
theorem no_connection_lost (hr : Runs c (init c lf now) as s) (hf : Fresh c lf now as) : s.sys.forgotten = [] := never_forgets hr hf

/-- Non-trivial case: two runners, the second one reports; its packet (number 4) has not arrived yet, its transaction is in the table. -/
example : ∃ s, Runs remote2 (init remote2 emptyLog 0) (bothRun ++ (complete 1 4 8 3).take 3) s ∧
    Fresh remote2 emptyLog 0 (bothRun ++ (complete 1 4 8 3).take 3) ∧
    (∃ i q next conn, s.packets[4]? = some ⟨i, q, none⟩ ∧ q.body = .finish 6 3 [[("x", "y")]] next ∧ s.sys.conns.lookup 6 = some conn) ∧
    ∃ s', step remote2 s (.arrive 4) = .ok s' := by
  obtain ⟨s, hr, hs⟩ := runs_of_after (c := remote2) (as := bothRun ++ (complete 1 4 8 3).take 3)
    (p := fun (s : State) => (match (s.packets[4]? : Option Packet) with
      | some ⟨_, q, none⟩ => decide (q.body = .finish 6 3 [[("x", "y")]] (some 0))
      | _ => false) && (s.sys.conns.lookup 6).isSome &&
      (match step remote2 s (.arrive 4) with | .ok _ => true | _ => false)) (by decide +kernel)
  simp only [Bool.and_eq_true] at hs
  refine ⟨s, hr, by unfold Fresh Sys.FreshTxns; decide +kernel, ?_, ?_⟩
  · obtain ⟨conn, hc⟩ := Option.isSome_iff_exists.1 hs.1.2
    have h1 := hs.1.1
    split at h1
    · rename_i i q hk
      exact ⟨i, q, some 0, conn, hk, by simpa using h1, hc⟩
    · cases h1
  · have h1 := hs.2
    split at h1
    · rename_i s' hk; exact ⟨s', hk⟩
    · cases h1

/-! ### C170: `execute` returns -/

/-- **C170.** An infinite run of the server with any number of actual runners, over a network that may delay or lose everything. If

* the scheduler is fair to the server and its processes, the clock of the reaper goes on, handlers are prompt, for a ready task somebody
  asks (`Cooperative`), nothing of the server panics, and nobody asks for a soft shutdown (as in C136),
* no transaction id is drawn twice,
* no runner stays for ever at one place of its program, and pings are sent by runners with the task only,

then `execute` returns: whether runners report, lose the network, crash or are ended by Slurm. -/
theorem execute_returns_runners (hg : Good c.tr) (hdisp : Displayable c.tr) (hst : Sys.Startable c) (hord : Ordered c.tr)
    (hne : c.tr.g.n ≠ 0) (h : InfRun c lf now σ α) (hf : AllFresh c lf now α) (hj : Sys.Justly c (sysStates σ) (sysActs σ α))
    (hclock : Sys.Strong c (sysStates σ) (sysActs σ α) (fun _ a => Sys.isReapTick a))
    (hprompt : ∀ k, Sys.slowTick (sysStates σ k) (sysActs σ α k) = []) (hco : Sys.Cooperative c (sysStates σ) (sysActs σ α))
    (hm : RunnersMove σ) (hp : PingsStop c σ α) (hn : NoPanic σ α) (ht : ∀ k, Sys.isTrigger (sysActs σ α k) = false) :
    ∃ k, (σ k).sys.tr.pc = .done := by
  refine Sys.just_ends_silent hg hdisp hst hord hne (h.sys hf) hj hclock hprompt hco (fun k => ⟨ht k, ?_⟩) (intact h hf hn) (conns_silent h hf hm hp)
  have := hn.acts k
  unfold sysActs
  revert this
  generalize seen (σ k) (α k) = a
  cases a <;> simp [Sys.panics, Sys.isDie]

/-- **C170.** What is behind it: at some time no runner has the task of a given transaction any more, and its connection has ended or
is silent, unless there is a hard cancellation before. -/
theorem connections_end_or_silent (h : InfRun c lf now σ α) (hf : AllFresh c lf now α) (hm : RunnersMove σ) (hp : PingsStop c σ α) :
    Sys.ConnsEndOrSilent c (sysStates σ) (sysActs σ α) := conns_silent h hf hm hp

/-- A runner of type 5. -/
def r5 : RCfg := ⟨⟨0, none, none⟩, 5, "j", "h"⟩

/-- It takes `a`, starts its process and says so; then it crashes in the conversion of an error. The reaper removes its connection;
everything returns. -/
def crash : List Act := offered.map .server ++ [.join r5, .runner 0 .sendStart, .arrive 0, .server (.hRecv 0), .server (.server (.pop 2 0)),
  .server (.server (.claim 0)), .server (.hGot 0 0), .server (.hTimer 0 7), .server (.hInsert 0), .answer 0, .runner 0 (.spawn (some 1)),
  .runner 0 .sendBegun, .arrive 1, .answer 0, .server (.server (.recvStarted t0)), .other ⟨some "k", some (some "j"), .ping 7⟩,
  .runner 0 .waitFails] ++ silentRun.map .server ++ [.server (.server (.recvFinished [1] t0)), .server (.loopClosed 0 0),
  .server (.loopClosed 1 0), .server .reapStop, .server .joinDone, .server (.server (.drain [] t0))]

/-- Non-trivial case: the runner crashes; `execute` returns with `a` disconnected. -/
example : ∃ σ α, InfRun mixed emptyLog 0 σ α ∧ AllFresh mixed emptyLog 0 α ∧ Sys.Justly mixed (sysStates σ) (sysActs σ α) ∧
    Sys.Strong mixed (sysStates σ) (sysActs σ α) (fun _ a => Sys.isReapTick a) ∧
    (∀ k, Sys.slowTick (sysStates σ k) (sysActs σ α k) = []) ∧ Sys.Cooperative mixed (sysStates σ) (sysActs σ α) ∧
    RunnersMove σ ∧ PingsStop mixed σ α ∧ NoPanic σ α ∧ (∀ k, Sys.isTrigger (sysActs σ α k) = false) ∧
    ∃ k, (σ k).sys.tr.pc = .done ∧ (σ k).sys.tr.processed = [(0, .disconnected)] ∧ (σ k).runners.map (·.st.phase) = [.stuck] := by
  obtain ⟨s, hr, hs⟩ := runs_of_after (c := mixed) (as := crash)
    (p := fun (s : State) => clean s.sys && s.sys.tr.pc == .done && s.sys.tr.processed == [(0, .disconnected)] &&
      decide (s.runners.map (·.st.phase) = [.stuck]) && s.runners.all (fun r => (atTask r.st.phase).isNone)) (by decide +kernel)
  simp only [Bool.and_eq_true, beq_iff_eq, decide_eq_true_eq] at hs
  obtain ⟨⟨⟨⟨h0, hd⟩, hpr⟩, hph⟩, hq⟩ := hs
  obtain ⟨h1, h2, h3⟩ := clean_intact h0
  obtain ⟨σ, α, e1, e2, e3, e4, e5, e6, e7, e8, e9, e10, e11, e12, _⟩ := exists_moving hr (by unfold Fresh Sys.FreshTxns; decide +kernel) h1 h2 h3 hq
  have hacts : ∀ k, Sys.panics (sysActs σ α k) = false ∧ Sys.isTrigger (sysActs σ α k) = false := by
    intro k
    rcases Sys.only_these e11 e12 k with h | h
    · have : ∀ a ∈ view mixed (init mixed emptyLog 0) crash, Sys.panics a = false ∧ Sys.isTrigger a = false := by decide +kernel
      exact this _ h
    · rw [h]; exact ⟨rfl, rfl⟩
  refine ⟨σ, α, e1, e2, e3, e4, fun k => ?_, e5, e6, e7, ⟨fun k => (hacts k).1, fun k => (e8 k).reaper⟩, fun k => (hacts k).2, crash.length, ?_⟩
  · exact Sys.never_there e10 e11 e12 (by decide +kernel) (fun s => rfl) k
  · rw [e9 _ (Nat.le_refl _)]; exact ⟨hd, hpr, hph⟩

end Verif.Props.Runners
