import Verif.Proof.Launches
import Verif.Props.RateCounter
import Verif.Props.TrackerDemo

/-!
# C185: the launch rate in the status, over an `execute`

`as` are the actions of runners, server and clock from the start of `execute` at time `now` (nanoseconds).
-/

namespace Verif.Props.Launches
open Verif Verif.Tracker Verif.Launches
open Verif.Props.Tracker (diamond take t0)

variable {c : Cfg} {lf : LogFile} {now : Int} {s : Launches.State} {as : List Act}

theorem secs_sub (a b : Int) : secs a - secs b = between b a := by
  unfold secs between
  push_cast
  ring

/-- **C185.** At any later moment of an `execute`, the rate in the status is the sum over all tasks handed out so far of
`exp(-age/30 s)/30 s`, divided by `1 - exp(-T/30 s)` where `T` is the time since the start. -/
theorem rate_is (hr : Launches.Runs c (Launches.init c lf now) as s) (hd : s.tr.pc ≠ .done) (hn : now < s.tr.now) :
    rate s = ((launches c (Tracker.init c lf now) as).map (fun x => Real.exp (-(between x.1 s.tr.now) / 30) / 30)).sum /
      (1 - Real.exp (-(between now s.tr.now) / 30)) := by
  have h1 := ctr_runs hr
  obtain ⟨h2, h3⟩ := launches_inOrder (t := secs now) hr.tr hd (le_refl _)
  have hlt : secs now < secs s.tr.now := by
    unfold secs
    have : (now : ℝ) < (s.tr.now : ℝ) := by exact_mod_cast hn
    exact div_lt_div_of_pos_right this (by norm_num)
  unfold rate
  rw [h1]
  show RateCounter.getRate (RateCounter.after (RateCounter.new 30 (secs now) (secs now)) _) _ = _
  rw [RateCounter.rate_closed_form (by norm_num) h2 h3 hlt, secs_sub, List.map_map]
  congr 2
  apply List.map_congr_left
  intro x _
  simp only [Function.comp, secs_sub]

/-- **C185.** The tasks handed out are those the runners obtained, each once, in this order. -/
theorem launches_are_tasks (hr : Launches.Runs c (Launches.init c lf now) as s) :
    (launches c (Tracker.init c lf now) as).map (·.2) = s.tr.obtained.map (·.2) := by
  have := launches_tasks hr.tr
  rw [this]
  simp [Launches.init, Tracker.init]

/-- **C185.** During the first `T` seconds the rate is the number of tasks per time up to the factor `exp(T/30 s)`. -/
theorem young_rate (hr : Launches.Runs c (Launches.init c lf now) as s) (hd : s.tr.pc ≠ .done) (hn : now < s.tr.now) :
    s.tr.obtained.length / between now s.tr.now * Real.exp (-(between now s.tr.now) / 30) ≤ rate s ∧
    rate s ≤ s.tr.obtained.length / between now s.tr.now * Real.exp (between now s.tr.now / 30) := by
  have h1 := ctr_runs hr
  obtain ⟨h2, h3⟩ := launches_inOrder (t := secs now) hr.tr hd (le_refl _)
  have hlt : secs now < secs s.tr.now := by
    unfold secs
    have : (now : ℝ) < (s.tr.now : ℝ) := by exact_mod_cast hn
    exact div_lt_div_of_pos_right this (by norm_num)
  have hlen : s.tr.obtained.length = ((launches c (Tracker.init c lf now) as).map (fun x => secs x.1)).length := by
    have := congrArg List.length (launches_are_tasks hr)
    simpa using this.symm
  unfold rate
  rw [h1, hlen]
  have := RateCounter.young_rate (tau := 30) (by norm_num) (le_refl _) h2 h3 hlt
  rw [secs_sub] at this
  exact this

/-- **C185.** The rate is 0 as long as no task was handed out, and positive ever after. -/
theorem zero_iff (hr : Launches.Runs c (Launches.init c lf now) as s) (hd : s.tr.pc ≠ .done) (hn : now < s.tr.now) :
    (rate s = 0 ↔ s.tr.obtained = []) ∧ 0 ≤ rate s := by
  have hpos : 0 < between now s.tr.now := by
    unfold between
    have : (0 : ℝ) < ((s.tr.now - now : Int) : ℝ) := by exact_mod_cast (by omega : 0 < s.tr.now - now)
    exact div_pos this (by norm_num)
  obtain ⟨h1, h2⟩ := young_rate hr hd hn
  have hz : s.tr.obtained = [] → rate s = 0 := by
    intro h
    rw [h] at h1 h2
    simp only [List.length_nil, Nat.cast_zero, zero_div, zero_mul] at h1 h2
    linarith
  have hp : s.tr.obtained ≠ [] → 0 < rate s := by
    intro h
    have : (0 : ℝ) < s.tr.obtained.length := by exact_mod_cast List.length_pos_iff.2 h
    have h3 : 0 < s.tr.obtained.length / between now s.tr.now * Real.exp (-(between now s.tr.now) / 30) := by positivity
    linarith
  refine ⟨⟨fun h => Classical.byContradiction (fun hne => ?_), hz⟩, ?_⟩
  · have := hp hne; linarith
  · by_cases h : s.tr.obtained = []
    · rw [hz h]
    · exact le_of_lt (hp h)

/-- **C185.** These are the runs of an `execute`: counting launches makes nothing impossible and nothing possible. -/
theorem is_an_execute (t : Tracker.State) :
    Tracker.Runs c (Tracker.init c lf now) as t ↔ ∃ s, Launches.Runs c (Launches.init c lf now) as s ∧ s.tr = t := by
  constructor
  · intro h
    obtain ⟨r, h⟩ := runs_of_tr (s := Launches.init c lf now) h
    exact ⟨_, h, rfl⟩
  · rintro ⟨s, h, rfl⟩; exact h.tr

/-- Three tasks of the diamond, handed out after 1 s, 4 s and 5 s; 7 s have passed. -/
def demoActs : List Act :=
  [.begin [0] t0, .sendNext, .sendDone t0, .tick 1000000000] ++ take 0 0 ++
  [.sendStarted 0 "h" 1 "", .recvStarted t0, .tick 3000000000, .sendFinished ⟨0, .code 0, [], none⟩,
   .recvFinished [1, 2] t0, .sendNext, .sendNext, .sendDone t0] ++ take 0 0 ++ [.tick 1000000000] ++ take 0 0 ++ [.tick 2000000000]

/-- Non-trivial case: the hypotheses hold, and three tasks count. -/
example : after diamond demoActs (fun s => s.pc != .done && decide (0 < s.now) && s.obtained == [(0, 0), (0, 1), (0, 2)]) = true ∧
    launches diamond (Tracker.init diamond emptyLog 0) demoActs = [(1000000000, 0), (4000000000, 1), (5000000000, 2)] := by decide

end Verif.Props.Launches
