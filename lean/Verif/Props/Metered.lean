import Verif.Proof.Metered

/-!
# C186: the rate shown under a rate limit

`Runs c (init c lf now t rate) as s`: some schedule `as` of an `execute` call with `ratelimit_per_second = rate` that starts at time `t`
(nanoseconds since the machine was booted) leads to state `s`; `rate s` is what a status request then shows.
-/

namespace Verif.Props.Metered
open Verif Verif.Sys Verif.Metered
open Verif.Tracker (emptyLog)
open Verif.Props.Greedy (fork)
open Verif.Props.Limited (before instant)

variable {c : Sys.Cfg} {lf : LogFile} {now : Int} {t r : Nat} {s : Metered.State} {as : List Limited.Act}

/-- **C186.** If the rate limit `r` (a divisor of 10^9) is not changed and never more than `H` loops and requests wait for a task, the rate in
the status is at every moment at most `r * exp((1 + H/r) / 30)`. -/
theorem shown_rate (hr : Metered.Runs c (Metered.init c lf now t r) as s) (hu : Limited.Unchanged as) (h0 : 0 < r) (hd : r ∣ 1000000000)
    (h63 : s.lim.now < 2 ^ 63) {H : Nat} (hH : AtMostWait c (Limited.init c lf now t r) as H) :
    rate s ≤ r * Real.exp ((1 + H / r) / 30) := by
  have hr0 : (0 : ℝ) < r := by exact_mod_cast h0
  have hl : Limited.Runs c (Limited.init c lf now t r) as s.lim := hr.lim
  have hn : t ≤ s.lim.now := now_run hl
  have hc := ctr_runs hr
  rcases Nat.eq_or_lt_of_le hn with he | hlt
  · have : rate s = 0 := by
      unfold rate RateCounter.getRate
      rw [hc]
      have e : ∀ (l : List ℝ) (k : RateCounter.Counter), (RateCounter.after k l).t0 = k.t0 := by
        intro l
        induction l with
        | nil => intro k; rfl
        | cons x l ih => intro k; exact ih _
      have e0 : (RateCounter.after (Metered.init c lf now t r).ctr ((moments c (Metered.init c lf now t r).lim as).map secs)).t0 = secs s.lim.now := by
        rw [e, ← he]; rfl
      simp only [e0, RateCounter.since, sub_self, max_self, mul_zero, Real.exp_zero]
      simp
    rw [this]
    have := Real.exp_pos ((1 + H / r : ℝ) / 30)
    positivity
  · have hs := sparse_run (bs := as) (as := []) h0 (.nil _) hl hu h63 hH
    have hf := Props.Limited.launches_from_start hl hu h0 h63
    have hdm : r * (1000000000 / r) = 1000000000 := Nat.mul_div_cancel' hd
    have hT : 0 < 1000000000 / r := by
      rcases Nat.eq_zero_or_pos (1000000000 / r) with h | h
      · rw [h] at hdm; simp at hdm
      · exact h
    have hlen := moments_length hl
    have hw := weighted_rate hT hs (t := t) (by rw [hlen]; omega) hn
    obtain ⟨h2, h3⟩ := moments_inOrder (t := secs t) hl (le_refl _)
    have hlt' : secs t < secs s.lim.now := by
      unfold secs
      have : (t : ℝ) < (s.lim.now : ℝ) := by exact_mod_cast hlt
      exact div_lt_div_of_pos_right this (by norm_num)
    have e1 : rate s = (((moments c (Limited.init c lf now t r) as).map secs).map (fun x => Real.exp (-(secs s.lim.now - x) / 30) / 30)).sum /
        (1 - Real.exp (-(secs s.lim.now - secs t) / 30)) := by
      unfold rate
      rw [hc]
      exact Props.RateCounter.rate_closed_form (by norm_num) h2 h3 hlt'
    have hpos : 0 < 1 - Real.exp (-(secs s.lim.now - secs t) / 30) := by
      have : Real.exp (-(secs s.lim.now - secs t) / 30) < 1 := by
        rw [Real.exp_lt_one_iff, neg_div]
        have : 0 < (secs s.lim.now - secs t) / 30 := div_pos (by linarith) (by norm_num)
        linarith
      linarith
    have hTr : secs (1000000000 / r) = 1 / r := by
      have : (r : ℝ) * ((1000000000 / r : Nat) : ℝ) = 1000000000 := by exact_mod_cast hdm
      unfold secs
      rw [div_eq_div_iff (by norm_num) (ne_of_gt hr0)]
      linarith
    have hK : secs (1000000000 + H * (1000000000 / r)) = 1 + H / r := by
      have e : secs (1000000000 + H * (1000000000 / r)) = 1 + H * secs (1000000000 / r) := by
        unfold secs; push_cast; ring
      rw [e, hTr]; ring
    rw [e1, List.map_map, div_le_iff₀ hpos]
    rw [hK, hTr] at hw
    have e2 : Real.exp ((1 + H / r : ℝ) / 30) / (1 / r : ℝ) = r * Real.exp ((1 + H / r : ℝ) / 30) := by
      rw [div_div_eq_mul_div, div_one]; ring
    rw [e2] at hw
    exact hw

/-- **C186 (any rate up to 31622 per second).** The interval is `10^9 / r` rounded down, and what is lost by rounding (less than `r` nanoseconds per second) can be had at
the start. Then `10^9 / ((r + 1) * ⌊10^9 / r⌋ - 10^9)` takes the place of the first `r`; it is `r` if `r` divides 10^9, and 3.00000002 for 3. -/
theorem shown_rate_any (hr : Metered.Runs c (Metered.init c lf now t r) as s) (hu : Limited.Unchanged as) (h0 : 0 < r) (hq : r * r ≤ 1000000000)
    (h63 : s.lim.now < 2 ^ 63) {H : Nat} (hH : AtMostWait c (Limited.init c lf now t r) as H) :
    rate s ≤ 1000000000 / ((r + 1 : ℝ) * (1000000000 / r : Nat) - 1000000000) * Real.exp ((1 + H / r) / 30) := by
  have hTr1 : r ≤ 1000000000 / r := (Nat.le_div_iff_mul_le h0).2 hq
  have hdm : r * (1000000000 / r) + 1000000000 % r = 1000000000 := Nat.div_add_mod ..
  have hmod : 1000000000 % r < r := Nat.mod_lt _ h0
  obtain ⟨T, hTdef⟩ : ∃ T, T = 1000000000 / r := ⟨_, rfl⟩
  obtain ⟨d, hd⟩ : ∃ d, d = 1000000000 % r := ⟨_, rfl⟩
  have hden : (r + 1 : ℝ) * (1000000000 / r : Nat) - 1000000000 = ((T - d : Nat) : ℝ) := by
    rw [← hTdef, Nat.cast_sub (by omega)]
    have : (r : ℝ) * T + d = 1000000000 := by rw [hTdef, hd]; exact_mod_cast hdm
    linarith
  rw [hden]
  have hT0 : (0 : ℝ) < ((T - d : Nat) : ℝ) := by exact_mod_cast (by omega : 0 < T - d)
  have hr0 : (0 : ℝ) < r := by exact_mod_cast h0
  have hl : Limited.Runs c (Limited.init c lf now t r) as s.lim := hr.lim
  have hn : t ≤ s.lim.now := now_run hl
  have hc := ctr_runs hr
  rcases Nat.eq_or_lt_of_le hn with he | hlt
  · have : rate s = 0 := by
      unfold rate RateCounter.getRate
      rw [hc]
      have e : ∀ (l : List ℝ) (k : RateCounter.Counter), (RateCounter.after k l).t0 = k.t0 := by
        intro l
        induction l with
        | nil => intro k; rfl
        | cons x l ih => intro k; exact ih _
      have e0 : (RateCounter.after (Metered.init c lf now t r).ctr ((moments c (Metered.init c lf now t r).lim as).map secs)).t0 = secs s.lim.now := by
        rw [e, ← he]; rfl
      simp only [e0, RateCounter.since, sub_self, max_self, mul_zero, Real.exp_zero]
      simp
    rw [this]
    have := Real.exp_pos ((1 + H / r : ℝ) / 30)
    positivity
  · have hs := sparse_weaken (T' := T - d) (by omega) (sparse_run (bs := as) (as := []) h0 (.nil _) hl hu h63 hH)
    have hf := Props.Limited.launches_from_start hl hu h0 h63
    have hlen := moments_length hl
    have hw := weighted_rate (by omega : 0 < T - d) hs (t := t) (by
      rw [hlen]
      rcases Nat.eq_zero_or_pos (Limited.handedOut as) with h | h
      · rw [h]; omega
      · have e : Limited.handedOut as * (T - d) + Limited.handedOut as * d = Limited.handedOut as * T := by
          rw [← Nat.mul_add]; congr 1; omega
        have e' : d ≤ Limited.handedOut as * d := Nat.le_mul_of_pos_left _ h
        rw [← hTdef] at hf hdm
        omega) hn
    obtain ⟨h2, h3⟩ := moments_inOrder (t := secs t) hl (le_refl _)
    have hlt' : secs t < secs s.lim.now := by
      unfold secs
      have : (t : ℝ) < (s.lim.now : ℝ) := by exact_mod_cast hlt
      exact div_lt_div_of_pos_right this (by norm_num)
    have e1 : rate s = (((moments c (Limited.init c lf now t r) as).map secs).map (fun x => Real.exp (-(secs s.lim.now - x) / 30) / 30)).sum /
        (1 - Real.exp (-(secs s.lim.now - secs t) / 30)) := by
      unfold rate
      rw [hc]
      exact Props.RateCounter.rate_closed_form (by norm_num) h2 h3 hlt'
    have hpos : 0 < 1 - Real.exp (-(secs s.lim.now - secs t) / 30) := by
      have : Real.exp (-(secs s.lim.now - secs t) / 30) < 1 := by
        rw [Real.exp_lt_one_iff, neg_div]
        have : 0 < (secs s.lim.now - secs t) / 30 := div_pos (by linarith) (by norm_num)
        linarith
      linarith
    have hK : secs (1000000000 + H * (1000000000 / r)) ≤ 1 + H / r := by
      have e : secs (1000000000 + H * (1000000000 / r)) = 1 + H * secs (1000000000 / r) := by
        unfold secs; push_cast; ring
      have : (r : ℝ) * ((1000000000 / r : Nat) : ℝ) ≤ 1000000000 := by exact_mod_cast Nat.mul_div_le _ _
      have e' : secs (1000000000 / r) ≤ 1 / r := by
        unfold secs
        rw [div_le_div_iff₀ (by norm_num) hr0]
        linarith
      rw [e]
      have := mul_le_mul_of_nonneg_left e' (Nat.cast_nonneg (α := ℝ) H)
      rw [mul_one_div] at this
      linarith
    rw [e1, List.map_map, div_le_iff₀ hpos]
    have e2 : Real.exp (secs (1000000000 + H * (1000000000 / r)) / 30) / secs (T - d) ≤
        1000000000 / ((T - d : Nat) : ℝ) * Real.exp ((1 + H / r : ℝ) / 30) := by
      have e : secs (T - d) = ((T - d : Nat) : ℝ) / 1000000000 := rfl
      rw [e, div_div_eq_mul_div, mul_comm, mul_div_right_comm]
      exact mul_le_mul_of_nonneg_left (Real.exp_le_exp.2 (by linarith)) (by positivity)
    exact le_trans hw (mul_le_mul_of_nonneg_right e2 hpos.le)

/-- Local runners: at most `numParallel + 1` wait. -/
theorem atMostWait_local (hl : c.remote = false) : AtMostWait c (Limited.init c lf now t r) as (c.numParallel + 1) := by
  intro bs cs s1 _ h1
  have e1 := ((NoServer.init (lf := lf) (now := now) hl).runs h1.toSys).handlers
  have e2 := (trace_pend h1.toSys 0).1
  have e3 : (Limited.init c lf now t r).sys.loops.length ≤ c.numParallel + 1 := by
    simp only [Limited.init, Sys.init]
    split
    · simp
    · simp
  unfold Limited.holding
  rw [e1]
  have e4 := @List.countP_le_length _ Limited.loopHolds s1.sys.loops
  rw [e2] at e4
  simp only [List.countP_nil, Nat.add_zero]
  exact Nat.le_trans e4 e3

/-- **C186 (local runners).** Without remote runners: at most `r * exp((1 + (numParallel + 1)/r) / 30)`. -/
theorem shown_rate_local (hl : c.remote = false) (hr : Metered.Runs c (Metered.init c lf now t r) as s) (hu : Limited.Unchanged as) (h0 : 0 < r)
    (hd : r ∣ 1000000000) (h63 : s.lim.now < 2 ^ 63) :
    rate s ≤ r * Real.exp ((1 + (c.numParallel + 1 : ℝ) / r) / 30) := by
  have := shown_rate hr hu h0 hd h63 (atMostWait_local hl)
  push_cast at this
  exact this

/-- **C186 (local runners, any rate up to 31622 per second).** -/
theorem shown_rate_local_any (hl : c.remote = false) (hr : Metered.Runs c (Metered.init c lf now t r) as s) (hu : Limited.Unchanged as) (h0 : 0 < r)
    (hq : r * r ≤ 1000000000) (h63 : s.lim.now < 2 ^ 63) :
    rate s ≤ 1000000000 / ((r + 1 : ℝ) * (1000000000 / r : Nat) - 1000000000) * Real.exp ((1 + (c.numParallel + 1 : ℝ) / r) / 30) := by
  have := shown_rate_any hr hu h0 hq h63 (atMostWait_local hl)
  push_cast at this ⊢
  exact this

/-- Non-trivial case: one task per second and two loops; three tasks are handed out, two of them in the same instant. -/
example : ∃ s, Metered.Runs fork (Metered.init fork emptyLog 0 1000000000 1) (before ++ instant) s ∧ Limited.Unchanged (before ++ instant) ∧
    fork.remote = false ∧ s.lim.now < 2 ^ 63 ∧ Limited.handedOut (before ++ instant) = 3 := by
  obtain ⟨s, s', h1, h2, h3, h4, _⟩ := Props.Limited.burst_run
  obtain ⟨k, hk⟩ := runs_of_lim (s := Metered.init fork emptyLog 0 1000000000 1) (Runs_append h1 h2)
  exact ⟨_, hk, fun r h => by simp [before, instant, Props.Greedy.takes] at h, rfl, by show s'.now < _; omega, rfl⟩

/-- The schedule above, in which now nobody is refused a permit. -/
def at3 : List Limited.Act := before.take 2 ++ before.drop 3 ++ instant

/-- Three tasks per second, which does not divide 10^9. -/
example : ∃ s, Metered.Runs fork (Metered.init fork emptyLog 0 1000000000 3) at3 s ∧ Limited.Unchanged at3 ∧
    fork.remote = false ∧ s.lim.now < 2 ^ 63 ∧ Limited.handedOut at3 = 3 ∧ ¬ 3 ∣ 1000000000 ∧ 3 * 3 ≤ 1000000000 := by
  obtain ⟨s', h1, h2⟩ := Limited.runs_of_replay (c := fork) (as := at3) (s := Limited.init fork emptyLog 0 1000000000 3)
    (p := fun s => s.now == 4000000000) (by decide +kernel)
  simp only [beq_iff_eq] at h2
  obtain ⟨k, hk⟩ := runs_of_lim (s := Metered.init fork emptyLog 0 1000000000 3) h1
  exact ⟨_, hk, fun r h => by simp [at3, before, instant, Props.Greedy.takes] at h, rfl, by show s'.now < _; omega, rfl, by decide, by decide⟩

/-- One loop takes the first task in the moment `execute` begins; then one nanosecond passes. -/
def atOnce : List Limited.Act :=
  ([.loopRecv 0, .server (.begin [0] Props.Tracker.t0), .server .sendNext, .server (.sendDone Props.Tracker.t0), .server (.pop 0 0)] ++ Props.Greedy.takes 0 : List Sys.Act).map .sys ++ [.pass 1]

/-- For larger rates this does not hold: with 60000 tasks per second the interval is 16666 ns, and the 40000 ns lost by rounding are there for launches at the start. With two local runners 900 million
per second are shown after one nanosecond. -/
theorem high_rate_violated : ∃ s, Metered.Runs fork (Metered.init fork emptyLog 0 1000000000 60000) atOnce s ∧ Limited.Unchanged atOnce ∧ s.lim.now < 2 ^ 63 ∧
    fork.remote = false ∧ 900000000 ≤ rate s := by
  obtain ⟨s', h1, h2⟩ := Limited.runs_of_replay (c := fork) (as := atOnce) (s := Limited.init fork emptyLog 0 1000000000 60000)
    (p := fun s => s.now == 1000000001) (by decide +kernel)
  simp only [beq_iff_eq] at h2
  obtain ⟨k, hk⟩ := runs_of_lim (s := Metered.init fork emptyLog 0 1000000000 60000) h1
  refine ⟨_, hk, fun r h => by simp [atOnce, Props.Greedy.takes] at h, by show s'.now < _; omega, rfl, ?_⟩
  have hm : moments fork (Limited.init fork emptyLog 0 1000000000 60000) atOnce = [1000000000] := by decide +kernel
  have hc := ctr_runs hk
  have hx : secs 1000000001 - secs 1000000000 = 1 / 1000000000 := by unfold secs; norm_num
  obtain ⟨g2, g3⟩ := moments_inOrder (t := secs 1000000000) h1 (le_refl _)
  rw [hm] at g2 g3
  have e1 := Props.RateCounter.rate_closed_form (tau := 30) (now := secs 1000000000) (t := secs 1000000001) (by norm_num) g2 (by rw [h2] at g3; exact g3)
    (by have : (0 : ℝ) < 1 / 1000000000 := by norm_num
        linarith)
  have e0 : rate ⟨s', k⟩ = RateCounter.getRate (RateCounter.after (RateCounter.new 30 (secs 1000000000) (secs 1000000000)) ([1000000000].map secs)) (secs 1000000001) := by
    unfold rate
    rw [hc]
    show RateCounter.getRate (RateCounter.after _ ((moments fork (Limited.init fork emptyLog 0 1000000000 60000) atOnce).map secs)) (secs s'.now) = _
    rw [hm, h2]
    rfl
  rw [e0, e1]
  simp only [List.map_cons, List.map_nil, List.sum_cons, List.sum_nil, add_zero, hx]
  have l1 := Real.add_one_le_exp (-(1 / 1000000000 : ℝ) / 30)
  have l2 : Real.exp (-(1 / 1000000000 : ℝ) / 30) < 1 := by rw [Real.exp_lt_one_iff]; norm_num
  rw [le_div_iff₀ (by linarith)]
  have l3 : 900000000 * (1 - Real.exp (-(1 / 1000000000 : ℝ) / 30)) ≤ 900000000 * ((1 / 1000000000 : ℝ) / 30) := by
    have : 1 - Real.exp (-(1 / 1000000000 : ℝ) / 30) ≤ (1 / 1000000000 : ℝ) / 30 := by linarith
    exact mul_le_mul_of_nonneg_left this (by norm_num)
  refine le_trans l3 ?_
  have l4 : (1 + (-(1 / 1000000000 : ℝ) / 30)) / 30 ≤ Real.exp (-(1 / 1000000000 : ℝ) / 30) / 30 := by linarith
  refine le_trans ?_ l4
  norm_num

end Verif.Props.Metered
