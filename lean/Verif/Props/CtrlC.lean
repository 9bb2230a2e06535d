import Verif.Proof.CtrlC
import Verif.Proof.Fairly2
import Verif.Props.Faults
import Verif.Props.Execute

/-!
# After a hard cancellation `execute` returns, whatever has panicked before (C164)
-/

namespace Verif.Props.CtrlC
open Verif Verif.Tracker Verif.Sys
open Verif.Props.Tracker (t0)
open Verif.Props.System (job req handOut)

variable {c : Sys.Cfg} {lf : LogFile} {now : Int} {σ : Nat → Sys.State} {α : Nat → Sys.Act}

/-- Six tasks: the first can not be started (its input is on descriptor 3) and may only run on the console, the second has a preamble. One
local loop and the console loop, besides the HTTP server; one quick failure is enough for a soft shutdown. -/
def wreck : Sys.Cfg where
  tr := { g := ⟨[{ job "x" 2 with fdInput := some (3, [104]) }, { job "y" with preamble := some 0 }, job "a", job "b", job "c", job "d"], []⟩,
          fizzlesAllowed := 1 }
  numParallel := 1
  remote := true
  secret := "k"

theorem wreck_good : Good wreck.tr := ⟨fun _ h => by simp [wreck] at h, by decide, by decide⟩
theorem wreck_displayable : Displayable wreck.tr := by intro cmd h; revert cmd; decide

/-- The console loop panics with the first task, a handler with the second; then the reaper panics, as in `System.reaperRun`. -/
def wrecked : List Sys.Act := [.server (.begin [0, 1, 2, 3, 4, 5] t0), .server .sendNext, .server .sendNext, .server (.sendDone t0),
  .loopRecv 1, .server (.pop 0 0), .server (.claim 0), .loopGot 1 0, .loopDie 1,
  req "j" (.start 0), .hRecv 0, .server (.pop 0 0), .server (.claim 0), .hGot 0 0, .hDie 0] ++
  handOut 1 0 5 "j" ++ handOut 2 0 6 "j" ++ handOut 3 0 7 "j" ++ handOut 4 0 8 "j" ++
  [req "j" (.begun 5 "h" 1), req "j" (.begun 6 "h" 1), .server (.recvStarted t0), .server (.recvStarted t0),
   req "j" (.finish 5 1 [] none), .hCancel 7, .hReport 7, .server (.recvFinished [] t0),
   .reapTick, .reapCheck [6, 7, 8], .reapRemove, req "j" (.finish 7 0 [] none), .reapRemove]

/-- The user presses Ctrl-C; the handler that is under way reports, the local loop is told that there is nothing any more. -/
def out : List Sys.Act := [.server .ctrlC, .hCancel 8, .hReport 8, .loopRecv 0, .joinDone, .server (.drain [3] t0)]

/-! ### C164: the way out -/

/-- **C164 (fair runs).** In every infinite run in which the user presses Ctrl-C while the server waits, or a hard shutdown is requested
(admin server, provisioner), and no part of execgraph is left waiting for ever: `execute` returns, provided that from some time on nobody
connects or asks for a soft shutdown any more. Loops, handlers and the reaper may have panicked, before or after; processes need not
end; remote runners need not be heard of again. -/
theorem cancelled_returns (hg : Good c.tr) (hdisp : Displayable c.tr) (h : InfRun c lf now σ α) (hj : Relentless c σ α)
    (hhard : ∃ k, α k = .server .ctrlC ∨ α k = .server (.cancel .hard))
    (hcease : ∃ k, ∀ j, k ≤ j → isRequest (α j) = false ∧ isTrigger (α j) = false) : ∃ k, (σ k).tr.pc = .done := by
  obtain ⟨k, hk⟩ := hhard
  refine hard_ends hg hdisp h hj ⟨k + 1, ?_⟩ hcease
  have hs := (h.next k).2
  rcases hk with hk | hk
  · rw [hk] at hs
    simp only [Sys.step, serverAct, if_true] at hs
    obtain ⟨t, ht, hs⟩ := trk_ok.1 hs
    simp only [Tracker.step] at ht
    split at ht
    · cases ht
    · simp only [Res.ok.injEq] at ht; subst ht
      rw [hs]; rfl
  · rw [hk] at hs
    simp only [Sys.step, serverAct, if_true] at hs
    obtain ⟨t, ht, hs⟩ := trk_ok.1 hs
    simp only [Tracker.step, Res.ok.injEq] at ht; subst ht
    rw [hs]; rfl

/-- **C164 (fair runs).** The same holds when serving has come to an end for any reason. -/
theorem over_returns (hg : Good c.tr) (hdisp : Displayable c.tr) (h : InfRun c lf now σ α) (hj : Relentless c σ α)
    {k : Nat} (hk : ServingOver (σ k).tr)
    (hcease : ∃ k, ∀ j, k ≤ j → isRequest (α j) = false ∧ isTrigger (α j) = false) : ∃ k, (σ k).tr.pc = .done :=
  hard_ends hg hdisp h hj ⟨k, Props.Tracker.over_is_cancelled ((h.prefix k).toInit hg) hk⟩ hcease

/-- Non-trivial case: a run in which a loop, a handler and the reaper have panicked, a task has been handed to a runner that is not
heard of again, and then Ctrl-C is pressed. -/
example : ∃ σ α, InfRun wreck emptyLog 0 σ α ∧ Relentless wreck σ α ∧ (∃ k, α k = .server .ctrlC) ∧
    (∃ k, ∀ j, k ≤ j → isRequest (α j) = false ∧ isTrigger (α j) = false) ∧
    ∃ k, (σ k).tr.pc = .idle ∧ (σ k).loops = [.top, .dead 0] ∧ (σ k).handlers[0]? = some (.dead 1) ∧ (σ k).reaper = .dead [3] ∧
      (σ k).conns.map (·.2.node) = [5] ∧ ∃ j, k < j ∧ (σ j).tr.pc = .done := by
  obtain ⟨s0, hr0, hs0⟩ := Sys.runs_of_after (c := wreck) (as := wrecked) (p := fun s => s.tr.pc == .idle &&
    s.loops == [.top, .dead 0] && s.handlers[0]? == some (.dead 1) && s.reaper == .dead [3] && s.conns.map (·.2.node) == [5])
    (by decide +kernel)
  obtain ⟨s, hr, hs⟩ := Sys.runs_of_after (c := wreck) (as := wrecked ++ out) (p := fun s => over s) (by decide +kernel)
  simp only [Bool.and_eq_true, beq_iff_eq] at hs0
  obtain ⟨⟨⟨⟨h1, h2⟩, h3⟩, h4⟩, h5⟩ := hs0
  obtain ⟨σ, α, e0, e1, e2, e3⟩ := extend hr
  have strong : ∀ P : Sys.State → Sys.Act → Bool, (∀ a s', Sys.step wreck s a = .ok s' → P s a = false) → Strong wreck σ α P := by
    intro P hP hx
    exfalso
    obtain ⟨j, hj, a, s', h4, h5⟩ := hx _
    rw [(e2 j hj).1] at h4 h5
    rw [hP a s' h5] at h4
    cases h4
  have hinf : InfRun wreck emptyLog 0 σ α := ⟨e0, e1⟩
  have hat : σ wrecked.length = s0 := by
    have hpre : (List.range wrecked.length).map α = wrecked := by
      apply List.ext_getElem?
      intro i
      by_cases hi : i < wrecked.length
      · have := e3 i (by simp; omega)
        rw [List.getElem?_append_left hi] at this
        rw [this]
        simp [hi]
      · rw [List.getElem?_eq_none (by simpa using hi), List.getElem?_eq_none (by simpa using hi)]
    have := hinf.prefix wrecked.length
    rw [hpre] at this
    exact this.det hr0
  refine ⟨σ, α, hinf, ⟨strong _ (fun a s' hs' => (over_quiet hs hs').1), fun h => strong _ (fun a s' hs' => ?_),
    strong _ (fun a s' hs' => (over_quiet hs hs').2.2)⟩, ⟨wrecked.length, ?_⟩, ⟨(wrecked ++ out).length, fun j hj => ?_⟩,
    wrecked.length, by rw [hat]; exact h1, by rw [hat]; exact h2, by rw [hat]; exact h3, by rw [hat]; exact h4, by rw [hat]; exact h5,
    (wrecked ++ out).length, by simp [out], ?_⟩
  · have := (over_quiet hs hs').2.1
    cases hx : ofHandler h a with
    | false => rfl
    | true => rw [wait_of_handler hx] at this; cases this
  · have := e3 wrecked.length (by simp [out])
    rw [List.getElem?_append_right (Nat.le_refl _)] at this
    simpa [out] using this.symm
  · rw [(e2 j hj).2]; exact ⟨rfl, rfl⟩
  · rw [(e2 _ (Nat.le_refl _)).1]
    simp only [over, Bool.and_eq_true, beq_iff_eq] at hs
    exact hs.1.1.1.1.1.1

/-- **C164 (possibility).** From every reachable state after a hard cancellation there is a way to the return of `execute` that execgraph
goes by itself: no clock, no process that ends, no request is needed. -/
theorem always_a_way_out (hg : Good c.tr) (hdisp : Displayable c.tr) {s : Sys.State} (hr : Sys.Reachable c lf now s)
    (hhard : s.tr.token = some .hard) : ∃ bs s', Sys.Runs c s bs s' ∧ s'.tr.pc = .done ∧ ∀ a ∈ bs, byItself a = true := by
  obtain ⟨as, hr⟩ := hr
  exact way_out hg hdisp hr hhard

/-- **C164 (possibility).** In particular in every reachable state in which the server waits, Ctrl-C opens the way. -/
theorem ctrl_c_gets_out (hg : Good c.tr) (hdisp : Displayable c.tr) {s : Sys.State} (hr : Sys.Reachable c lf now s)
    (hpc : s.tr.pc = .idle) : ∃ bs s', Sys.Runs c s (.server .ctrlC :: bs) s' ∧ s'.tr.pc = .done ∧ ∀ a ∈ bs, byItself a = true := by
  obtain ⟨as, hr⟩ := hr
  have hs : Sys.step c s (.server .ctrlC) = .ok { s with tr := leaveLoop s.tr } := by
    simp only [Sys.step, serverAct, if_true]
    exact trk_ok.2 ⟨leaveLoop s.tr, by simp [Tracker.step, hpc], rfl⟩
  obtain ⟨bs, s', h1, h2, h3⟩ := way_out hg hdisp (hr.append (.cons rfl hs (.nil _))) rfl
  exact ⟨bs, s', .cons rfl hs h1, h2, h3⟩

/-- Non-trivial case: the same wreck, while the server waits. -/
example : ∃ s, Sys.Reachable wreck emptyLog 0 s ∧ s.tr.pc = .idle ∧ s.loops = [.top, .dead 0] ∧ s.handlers[0]? = some (.dead 1) ∧
    s.reaper = .dead [3] ∧ s.conns.map (·.2.node) = [5] := by
  obtain ⟨s0, hr0, hs0⟩ := Sys.runs_of_after (c := wreck) (as := wrecked) (p := fun s => s.tr.pc == .idle &&
    s.loops == [.top, .dead 0] && s.handlers[0]? == some (.dead 1) && s.reaper == .dead [3] && s.conns.map (·.2.node) == [5])
    (by decide +kernel)
  simp only [Bool.and_eq_true, beq_iff_eq] at hs0
  exact ⟨s0, ⟨_, hr0⟩, hs0.1.1.1.1, hs0.1.1.1.2, hs0.1.1.2, hs0.1.2, hs0.2⟩

end Verif.Props.CtrlC
