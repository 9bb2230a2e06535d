import Verif.Proof.Average
import Verif.Props.Ring
import Verif.Props.TrackerDemo

/-!
# C184: the average runtime in the status

`as` are the actions of runners, server and clock from the start of `execute` at time `now` (nanoseconds).
-/

namespace Verif.Props.Average
open Verif Verif.Tracker Verif.Average
open Verif.Props.Tracker (diamond take t0)

variable {c : Cfg} {lf : LogFile} {now : Int} {s0 s : Average.State}

/-- Less than 584554 years since the start of `execute`. -/
def SaneSpan (now now' : Int) : Prop := now' - now < 18446744073709551000000

theorem init_ok : Average.init c lf now = .ok ⟨Tracker.init c lf now, ⟨100, []⟩⟩ := rfl

theorem ring_eq (hg : Good c) (hi : Average.init c lf now = .ok s0) {as : List Act} (hr : Average.Runs c s0 as s)
    (hd : s.tr.pc ≠ .done) : s.ring = (runtimes c [] (Tracker.init c lf now) as).foldl Ring.push ⟨100, []⟩ := by
  rw [init_ok, Res.ok.injEq] at hi; subst hi
  exact ring_runs hg ⟨[], .nil _⟩ (by intro v _; rfl) hr hd

theorem runtimes_bounded (hi : Average.init c lf now = .ok s0) {as : List Act} (hr : Average.Runs c s0 as s) (hd : s.tr.pc ≠ .done) :
    (∀ d ∈ runtimes c [] (Tracker.init c lf now) as, (d : Int) ≤ s.tr.now - now) ∧ now ≤ s.tr.now := by
  rw [init_ok, Res.ok.injEq] at hi; subst hi
  exact runtimes_le hr.tr hd (Int.le_refl _) (by simp)

/-- **C184.** At any moment before the cleanup, the average in the status is the mean of the runtimes of the last 100 tasks (all, if
there are fewer) that were reported with exit code 0 and whose start report was processed, a runtime being the time from the processing of
the start report to that of the finish report; 0 if there is none. Asking for it does not panic. -/
theorem average_is_mean (hg : Good c) (hi : Average.init c lf now = .ok s0) {as : List Act} (hr : Average.Runs c s0 as s)
    (hd : s.tr.pc ≠ .done) (hs : SaneSpan now s.tr.now) :
    average s = .ok (meanMs (last100 (runtimes c [] (Tracker.init c lf now) as))) := by
  have h1 := ring_eq hg hi hr hd
  obtain ⟨h2, h3⟩ := runtimes_bounded hi hr hd
  unfold average
  rw [h1]
  generalize runtimes c [] (Tracker.init c lf now) as = l at h2
  cases l with
  | nil => rfl
  | cons x xs =>
    have hsane : ∀ d ∈ x :: xs, Ring.Sane d := by
      intro d hm
      have := h2 d hm
      unfold SaneSpan at hs
      unfold Ring.Sane
      rw [Nat.div_lt_iff_lt_mul (by decide)]
      have e : (2 ^ 64 / 1000 * 1000000 : Nat) ≥ 18446744073709551000000 := by decide
      omega
    rw [Ring.mean_eq 100 (by decide) (by decide) _ hsane (by simp)]
    have hl : (last100 (x :: xs)).length = min 100 (x :: xs).length := by simp [last100]; omega
    simp only [meanMs, hl]
    rfl

/-- **C184.** The average is never more than the time since the start of `execute`. -/
theorem average_le_elapsed (hg : Good c) (hi : Average.init c lf now = .ok s0) {as : List Act} (hr : Average.Runs c s0 as s)
    (hd : s.tr.pc ≠ .done) (hs : SaneSpan now s.tr.now) : ∃ m, average s = .ok m ∧ (m : Int) * 1000000 ≤ s.tr.now - now := by
  refine ⟨_, average_is_mean hg hi hr hd hs, ?_⟩
  obtain ⟨h2, h3⟩ := runtimes_bounded hi hr hd
  generalize runtimes c [] (Tracker.init c lf now) as = l at h2
  obtain ⟨b, hb⟩ : ∃ b : Nat, (b : Int) = s.tr.now - now := ⟨(s.tr.now - now).toNat, by omega⟩
  have h4 : meanMs (last100 l) ≤ b / 1000000 := by
    unfold meanMs
    apply Nat.div_le_of_le_mul
    have := Ring.sum_le ((last100 l).map (· / 1000000)) (b / 1000000) (by
      intro x hx
      obtain ⟨d, hd, rfl⟩ := List.mem_map.1 hx
      have := h2 d (List.mem_of_mem_drop hd)
      exact Nat.div_le_div_right (by omega))
    simpa using this
  have h5 := Nat.div_mul_le_self b 1000000
  have h6 : meanMs (last100 l) * 1000000 ≤ b := Nat.le_trans (Nat.mul_le_mul_right _ h4) h5
  omega

/-- **C184.** Only processing a report with exit code 0 changes the average: failures, starts, requests and the clock do not. -/
theorem only_successes {s' : Average.State} {a : Act} (h : Average.step c s a = .ok s') (hd : s'.tr.pc ≠ .done)
    (hno : ∀ order t e rest, a = .recvFinished order t → s.tr.chan = .finished e :: rest → e.status ≠ .code 0) :
    average s' = average s := by
  obtain ⟨h1, h2⟩ := step_tr h
  have : s'.ring = s.ring := by
    rw [h2]
    cases a with
    | recvFinished order t =>
      simp only [ringAfter]
      cases hch : s.tr.chan with
      | nil => rfl
      | cons ev rest =>
        cases ev with
        | started => rfl
        | finished e =>
          have hne := hno order t e rest rfl hch
          rw [← isSuccess_false_iff] at hne
          simp only [record, hne]
          cases s.tr.inflight.lookup e.id <;> rfl
    | drain order t =>
      simp only [Tracker.step] at h1
      split at h1
      · cases h1
      · exact absurd (Kept.drain h1).2 hd
    | _ => rfl
  simp only [average, this]

/-- **C184.** These are the runs of an `execute`: recording runtimes makes nothing impossible and nothing possible. -/
theorem is_an_execute (hi : Average.init c lf now = .ok s0) (as : List Act) (t : Tracker.State) :
    Tracker.Runs c (Tracker.init c lf now) as t ↔ ∃ s, Average.Runs c s0 as s ∧ s.tr = t := by
  rw [init_ok, Res.ok.injEq] at hi; subst hi
  constructor
  · intro h
    obtain ⟨r, h⟩ := runs_of_tr (s := ⟨Tracker.init c lf now, ⟨100, []⟩⟩) h
    exact ⟨_, h, rfl⟩
  · rintro ⟨s, h, rfl⟩; exact h.tr

/-- The first task of the diamond takes 3 s, then `b` fails after 1 s and `c` takes 7 s. -/
def demoActs : List Act :=
  [.begin [0] t0, .sendNext, .sendDone t0] ++ take 0 0 ++
  [.sendStarted 0 "h" 1 "", .tick 1000000000, .recvStarted t0, .tick 3000000000, .sendFinished ⟨0, .code 0, [], none⟩,
   .recvFinished [1, 2] t0, .sendNext, .sendNext, .sendDone t0] ++ take 0 0 ++ take 0 0 ++
  [.sendStarted 1 "h" 1 "", .sendStarted 2 "h" 1 "", .recvStarted t0, .recvStarted t0, .tick 1000000000,
   .sendFinished ⟨1, .code 1, [], none⟩, .recvFinished [3] t0, .tick 6000000000, .sendFinished ⟨2, .code 0, [], none⟩, .recvFinished [3] t0]

/-- Non-trivial case: the average of 3 s and 7 s; the failure does not count. -/
example : replay diamond ⟨Tracker.init diamond emptyLog 0, ⟨100, []⟩⟩ demoActs (fun s => s.tr.pc != .done && s.tr.now == 11000000000 &&
    match average s with | .ok m => m == 5000 | _ => false) = true ∧
    runtimes diamond [] (Tracker.init diamond emptyLog 0) demoActs = [3000000000, 7000000000] := by decide

end Verif.Props.Average
