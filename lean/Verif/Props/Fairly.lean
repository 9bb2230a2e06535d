import Verif.Proof.Fairly3
import Verif.Props.Progress
import Verif.Props.Faults

/-!
# `execute` with remote runners comes to an end (C135–C137)

`InfRun c lf now σ α`: an infinite run of an `execute` call, with action `α k` in state `σ k`. `Justly`: the scheduler leaves no part
of execgraph waiting for ever where it could go on again and again, and processes end. `Cooperative`: for a ready task that nobody
takes, somebody will ask and is let through by the rate limiter in time; after a hard cancellation there are no requests any more. `Intact`: nothing has panicked, and no
connection was dropped without a report (see C59, C88 for how this happens).
-/

namespace Verif.Props.Fairly
open Verif Verif.Tracker Verif.Sys
open Verif.Props.Tracker (task t0)
open Verif.Props.System (job loopRun handOut req silentRun)
open Verif.Props.Progress

variable {c : Sys.Cfg} {lf : LogFile} {now : Int} {s s' : Sys.State} {σ : Nat → Sys.State} {α : Nat → Sys.Act}

/-! ### concrete cases -/

/-- Everything has returned, nothing was lost. -/
def clean (s : Sys.State) : Bool :=
  over s && s.forgotten.isEmpty && decide (s.tr.token = some .hard) &&
    s.loops.all (fun l => match l with | .dead _ => false | _ => true) &&
    s.handlers.all (fun l => match l with | .dead _ => false | _ => true) && decide (s.reaper = .stopped)

theorem clean_intact (h : clean s = true) : over s = true ∧ Intact s ∧ s.tr.token = some .hard := by
  unfold clean at h
  simp only [Bool.and_eq_true, decide_eq_true_eq, List.isEmpty_iff, List.all_eq_true] at h
  obtain ⟨⟨⟨⟨⟨h1, h2⟩, h3⟩, h4⟩, h5⟩, h6⟩ := h
  refine ⟨h1, ⟨fun v hv => ?_, fun v hv => ?_, fun e he => ?_, h2⟩, h3⟩
  · have := h4 _ hv; cases this
  · have := h5 _ hv; cases this
  · rw [h6] at he; cases he

/-- The runner takes `a` and is not heard of again; the reaper removes it; everything returns. -/
def silenced : List Sys.Act := offered ++ Progress.taken ++ silentRun ++ [.server (.recvFinished [1] t0), .loopClosed 0 0,
  .loopClosed 1 0, .reapStop, .joinDone, .server (.drain [] t0)]

/-! ### C135: `execute` returns -/

/-- **C135.** In every infinite run with a fair scheduler and cooperating runners in which every connection ends at some time, nothing
is lost and nobody asks for a soft shutdown: `execute` returns. -/
theorem execute_returns (hg : Good c.tr) (hdisp : Displayable c.tr) (hst : Startable c) (hord : Ordered c.tr) (hne : c.tr.g.n ≠ 0)
    (h : InfRun c lf now σ α) (hj : Justly c σ α) (hco : Cooperative c σ α) (hends : ConnsEnd σ) (hin : ∀ k, Intact (σ k))
    (ha : ∀ k, isTrigger (α k) = false ∧ isDie (α k) = false) : ∃ k, (σ k).tr.pc = .done :=
  just_ends hg hdisp hst hord hne h hj hco ha hin hends

/-- Non-trivial case: a run in which a remote runner executes `a` and a local loop `b`. -/
example : ∃ σ α, InfRun mixed emptyLog 0 σ α ∧ Justly mixed σ α ∧ Cooperative mixed σ α ∧ ConnsEnd σ ∧ (∀ k, Intact (σ k)) ∧
    (∀ k, isTrigger (α k) = false ∧ isDie (α k) = false) ∧ ∃ k, (σ k).tr.pc = .done ∧ (σ k).tr.processed = [(0, .code 0), (1, .code 0)] := by
  obtain ⟨s, hr, hs⟩ := Sys.runs_of_after (c := mixed) (as := mixedRun)
    (p := fun s => clean s && s.tr.pc == .done && s.tr.processed == [(0, .code 0), (1, .code 0)]) (by decide +kernel)
  simp only [Bool.and_eq_true, beq_iff_eq] at hs
  obtain ⟨h1, h2, h3⟩ := clean_intact hs.1.1
  obtain ⟨σ, α, e1, e2, _, e4, e5, e6, e7, e8, e9⟩ := exists_just hr h1 h2 h3
  refine ⟨σ, α, e1, e2, e4, e5, e6, fun k => ?_, mixedRun.length, ?_⟩
  · rcases only_these e8 e9 k with h | h
    · revert h; generalize α k = a; revert a; decide +kernel
    · rw [h]; exact ⟨rfl, rfl⟩
  · rw [e7 _ (Nat.le_refl _)]; exact ⟨hs.1.2, hs.2⟩

/-! ### C136: silent runners -/

/-- **C136.** It is enough that every connection ends or falls silent (no `/ping` any more), provided the clock of the reaper goes on and
the handlers are prompt (none takes so long between the timer wheel and the table of connections that the wheel turns). -/
theorem execute_returns_silent (hg : Good c.tr) (hdisp : Displayable c.tr) (hst : Startable c) (hord : Ordered c.tr)
    (hne : c.tr.g.n ≠ 0) (h : InfRun c lf now σ α) (hj : Justly c σ α) (hclock : Strong c σ α (fun _ a => isReapTick a))
    (hprompt : ∀ k, slowTick (σ k) (α k) = []) (hco : Cooperative c σ α) (hends : ConnsEndOrSilent c σ α)
    (hin : ∀ k, Intact (σ k)) (ha : ∀ k, isTrigger (α k) = false ∧ isDie (α k) = false) : ∃ k, (σ k).tr.pc = .done :=
  just_ends_silent hg hdisp hst hord hne h hj hclock hprompt hco ha hin hends

/-- Non-trivial case: the runner takes `a` and is not heard of again; `execute` returns with `a` disconnected. -/
example : ∃ σ α, InfRun mixed emptyLog 0 σ α ∧ Justly mixed σ α ∧ Strong mixed σ α (fun _ a => isReapTick a) ∧
    (∀ k, slowTick (σ k) (α k) = []) ∧ Cooperative mixed σ α ∧ ConnsEndOrSilent mixed σ α ∧ (∀ k, Intact (σ k)) ∧
    (∀ k, isTrigger (α k) = false ∧ isDie (α k) = false) ∧ ∃ k, (σ k).tr.pc = .done ∧ (σ k).tr.processed = [(0, .disconnected)] := by
  obtain ⟨s, hr, hs⟩ := Sys.runs_of_after (c := mixed) (as := silenced)
    (p := fun s => clean s && s.tr.pc == .done && s.tr.processed == [(0, .disconnected)]) (by decide +kernel)
  simp only [Bool.and_eq_true, beq_iff_eq] at hs
  obtain ⟨h1, h2, h3⟩ := clean_intact hs.1.1
  obtain ⟨σ, α, e1, e2, e3, e4, e5, e6, e7, e8, e9⟩ := exists_just hr h1 h2 h3
  refine ⟨σ, α, e1, e2, e3, fun k => ?_, e4, fun k txn hm => ?_, e6, fun k => ?_, silenced.length, ?_⟩
  · exact never_there e1 e8 e9 (by decide +kernel) (fun s => rfl) k
  · obtain ⟨j, h4, h5⟩ := e5 k txn hm
    exact ⟨j, h4, h5.elim .inl (fun h => .inr (.inl h))⟩
  · rcases only_these e8 e9 k with h | h
    · revert h; generalize α k = a; revert a; decide +kernel
    · rw [h]; exact ⟨rfl, rfl⟩
  · rw [e7 _ (Nat.le_refl _)]; exact ⟨hs.1.2, hs.2⟩

/-! ### C137: everything is done -/

/-- **C137.** If, besides, nothing goes wrong (processes and runners report exit code 0, processes can be started, no runner disconnects,
no cancellation): `execute` returns, and then every selected task has been reported as successful exactly once, in an order in
which dependencies come first. -/
theorem everything_done (hg : Good c.tr) (hdisp : Displayable c.tr) (hst : Startable c) (hord : Ordered c.tr)
    (hne : c.tr.g.n ≠ 0) (hz : c.tr.fizzlesAllowed ≠ 0) (h : InfRun c lf now σ α) (hj : Justly c σ α) (hco : Cooperative c σ α)
    (hends : ConnsEnd σ) (hin : ∀ k, Intact (σ k)) (ha : ∀ k, wrongAt (σ k) (α k) = false) :
    ∃ k, (σ k).tr.pc = .done ∧ ((σ k).tr.processed.map (·.1)).Perm (List.range c.tr.g.n) ∧
      (∀ l x r, (σ k).tr.processed = l ++ x :: r → ∀ u, c.tr.g.Dep u x.1 → (u, ExitStatus.code 0) ∈ l) ∧
      ∀ v, v < c.tr.g.n → Succeeded (σ k).tr v := by
  obtain ⟨k, hk⟩ := just_ends hg hdisp hst hord hne h hj hco (fun k => calm_of_right (wrong_of_at (ha k))) hin hends
  refine ⟨k, hk, ?_⟩
  have hr := h.prefix k
  obtain ⟨hp, hok⟩ := remote_peace hg hz h ha k
  have hall := Tracker.all_succeed hg hord (hr.toInit hg) hp.no ?_ (.inr (.inr hk)) hok
  · exact ⟨hall.1, (Tracker.order_topological hg ⟨_, hr.toInit hg⟩).2.2.2, hall.2⟩
  rw [hp.quick]; omega

/-- Where something goes wrong. -/
def wrongObs (s : Sys.State) (a : Sys.Act) : List Unit := if wrongAt s a then [()] else []

/-- Non-trivial case: the run in which a remote runner executes `a` and a local loop `b`. -/
example : ∃ σ α, InfRun mixed emptyLog 0 σ α ∧ Justly mixed σ α ∧ Cooperative mixed σ α ∧ ConnsEnd σ ∧ (∀ k, Intact (σ k)) ∧
    (∀ k, wrongAt (σ k) (α k) = false) ∧ ∃ k, (σ k).tr.pc = .done ∧ ∀ v, v < 2 → Succeeded (σ k).tr v := by
  obtain ⟨s, hr, hs⟩ := Sys.runs_of_after (c := mixed) (as := mixedRun) (p := clean) (by decide +kernel)
  obtain ⟨h1, h2, h3⟩ := clean_intact hs
  obtain ⟨σ, α, e1, e2, _, e4, e5, e6, e7, e8, e9⟩ := exists_just hr h1 h2 h3
  have hw : ∀ k, wrongAt (σ k) (α k) = false := fun k => by
    have := never_there (f := wrongObs) e1 e8 e9 (by decide +kernel) (fun s => rfl) k
    simpa [wrongObs] using this
  obtain ⟨k, h4, _, _, h5⟩ := everything_done mixed_good mixed_displayable mixed_startable mixed_ordered (by decide) (by decide)
    e1 e2 e4 e5 e6 hw
  exact ⟨σ, α, e1, e2, e4, e5, e6, hw, k, h4, h5⟩

end Verif.Props.Fairly
