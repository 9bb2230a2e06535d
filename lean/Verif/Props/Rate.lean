import Verif.Proof.Gcra

/-!
# C63, C64, C65, C66: the launch rate limiter

Observables: `grants` = clock readings of the permits handed out (returns of `until_ready`),
`launches` = times at which `recv` returned a task.
-/

namespace Verif.Props.Rate
open Verif.Gcra

/-- No `reset` call in the schedule. -/
def NoReset (acts : List Act) : Prop := ∀ i, (∀ now rate, Act.resetTau i now rate ∉ acts) ∧ Act.resetTat i ∉ acts

theorem NoReset.isReset {acts : List Act} (h : NoReset acts) : ∀ a ∈ acts, a.isReset = false := by
  intro a ha
  cases a with
  | resetTau i now rate => exact absurd ha ((h i).1 now rate)
  | resetTat i => exact absurd ha (h i).2
  | _ => rfl

/-- Clock readings below 2^63 ns (292 years of uptime). -/
def SaneClock (acts : List Act) : Prop := ∀ i n, Act.call i n ∈ acts → n < 2 ^ 63

/-- Number of permits whose clock reading lies in `[a,b]`. -/
def permitsIn (a b : Nat) (s : Sys) : Nat := (s.grants.filter (fun g => a ≤ g && g ≤ b)).length

/-- Number of permits with a reading up to `b`. -/
def permitsUpTo (b : Nat) (s : Sys) : Nat := (s.grants.filter (fun g => g ≤ b)).length

theorem sane_of (acts : List Act) (h : SaneClock acts) : ∀ a ∈ acts, a.sane := by
  intro a ha
  cases a <;> simp only [Act.sane]
  exact h _ _ ha

theorem sane_init (t0 rate : Nat) : ∀ i, pcSane ((init t0 rate).pcs i) := fun _ => trivial

/-- **C63 (window form).** Whatever the interleaving of any number of callers, and even if their clock readings
are out of order: the permits granted with readings in `[a,b]`, times the interval `10^9 / rate`, do not exceed the
window length plus one second. -/
theorem rate_window (t0 rate : Nat) (hr : 0 < rate) (acts : List Act) (hn : NoReset acts)
    (hs : SaneClock acts) (a b : Nat) (hab : a ≤ b) :
    permitsIn a b (run (init t0 rate) acts) * (1000000000 / rate) ≤ (b - a) + 1000000000 := by
  have htau : tauOf rate = 1000000000 / rate := by unfold tauOf period; rw [if_neg (by omega)]
  by_cases h0 : tauOf rate = 0
  · rw [← htau, h0]; omega
  · have hi := inv_run h0 acts (sane_init t0 rate) (inv_init t0 rate)
      (fun x hx => ⟨hn.isReset x hx, sane_of acts hs x hx⟩)
    rw [← htau]
    by_cases hc : 0 < permitsIn a b (run (init t0 rate) acts)
    · have := hi.win a b hc
      have hp : period = 1000000000 := rfl
      unfold permitsIn at *
      unfold cnt at this
      omega
    · have : permitsIn a b (run (init t0 rate) acts) = 0 := by omega
      rw [this]; omega

/-- **C63 (no initial burst).** Since creation at `t0`, the permits granted up to time `b` take at least their
number of intervals, up to the rounding remainder `10^9 - rate * (10^9 / rate) < rate` nanoseconds. -/
theorem rate_no_initial_burst (t0 rate : Nat) (hr : 0 < rate) (acts : List Act) (hn : NoReset acts)
    (hs : SaneClock acts) (b : Nat) (hb : t0 ≤ b) :
    permitsUpTo b (run (init t0 rate) acts) * (1000000000 / rate)
      ≤ (b - t0) + (1000000000 - rate * (1000000000 / rate)) := by
  have htau : tauOf rate = 1000000000 / rate := by unfold tauOf period; rw [if_neg (by omega)]
  by_cases h0 : tauOf rate = 0
  · rw [← htau, h0]; omega
  · have hi := inv_run h0 acts (sane_init t0 rate) (inv_init t0 rate)
      (fun x hx => ⟨hn.isReset x hx, sane_of acts hs x hx⟩)
    have hle : rate * (1000000000 / rate) ≤ 1000000000 := Nat.mul_div_le _ _
    rw [← htau] at *
    by_cases hc : 0 < permitsUpTo b (run (init t0 rate) acts)
    · have := hi.all b hc
      have hp : period = 1000000000 := rfl
      have hcomm := Nat.mul_comm (tauOf rate) rate
      unfold permitsUpTo at *
      unfold cnt at this
      omega
    · have : permitsUpTo b (run (init t0 rate) acts) = 0 := by omega
      rw [this]; omega

/-- In numbers: if the rate divides `10^9`, then over a window of `k` whole seconds at most `rate * (k+1)` permits
are granted, and over the first `k` seconds of the limiter's life at most `rate * k`. -/
theorem rate_per_seconds (t0 rate k : Nat) (hr : 0 < rate) (hd : rate ∣ 1000000000) (acts : List Act)
    (hn : NoReset acts) (hs : SaneClock acts) (a : Nat) :
    permitsIn a (a + k * 1000000000) (run (init t0 rate) acts) ≤ rate * (k + 1) ∧
    permitsUpTo (t0 + k * 1000000000) (run (init t0 rate) acts) ≤ rate * k := by
  obtain ⟨q, hq⟩ := hd
  have hq0 : 0 < q := by
    rcases Nat.eq_zero_or_pos q with h | h
    · subst h; simp at hq
    · exact h
  have hdiv : 1000000000 / rate = q := by rw [hq]; exact Nat.mul_div_cancel_left q hr
  have h1 := rate_window t0 rate hr acts hn hs a (a + k * 1000000000) (by omega)
  have h2 := rate_no_initial_burst t0 rate hr acts hn hs (t0 + k * 1000000000) (by omega)
  rw [hdiv] at h1 h2
  constructor
  · apply Nat.le_of_mul_le_mul_right _ hq0
    refine Nat.le_trans h1 ?_
    have : rate * (k + 1) * q = (k + 1) * (rate * q) := by
      rw [Nat.mul_right_comm, Nat.mul_comm]
    rw [this, ← hq]; omega
  · apply Nat.le_of_mul_le_mul_right _ hq0
    refine Nat.le_trans h2 ?_
    have : rate * k * q = k * (rate * q) := by
      rw [Nat.mul_right_comm, Nat.mul_comm]
    rw [this, ← hq]; omega

/-- **C63 (reset).** A `reset` at time `t` while nobody is inside the limiter gives exactly a fresh limiter: the
bounds above then hold from `t` on. -/
theorem reset_is_fresh (s : Sys) (hq : ∀ i, s.pcs i = .idle) (i t rate : Nat) :
    run s [.resetTau i t rate, .resetTat i] = init t rate := by
  simp only [run, List.foldl_cons, List.foldl_nil, step, hq i, setPc_same, init, mkNew]
  congr 1
  funext j
  unfold setPc
  split
  · rfl
  · exact hq j

/-- Non-trivial case: rate 2, three callers, two permits granted within the same second. -/
example :
    (run (init 1000000000 2)
      [.call 0 2500000000, .call 1 2000000000, .loadTau 0, .loadTau 1, .loadTat 0, .loadTat 1, .cas 1, .cas 0,
       .loadTau 0, .loadTat 0, .cas 0, .call 2 2500000000, .loadTau 2, .loadTat 2, .cas 2]).grants
      = [2500000000, 2500000000, 2000000000] := by decide

/-- **C64 (retry succeeds).** With rate between 1 and 10^9 and at least one second of uptime: a caller that is told
to wait `w` is granted at every later clock reading `t ≥ now + w` if the limiter was not touched in between. -/
theorem retry_granted (rate now tat t : Nat) (hr : 0 < rate) (hr' : rate ≤ 1000000000)
    (hup : 1000000000 ≤ now)
    (ht : now + (computeRaw now tat (tauOf rate) 1).2 ≤ t) :
    let first := computeRaw now tat (tauOf rate) 1
    first.2 ≠ 0 → (computeRaw t first.1 (tauOf rate) 1).2 = 0 := by
  intro first hw
  have e : first = computeRaw now tat (tauOf rate) 1 := rfl
  rw [← e] at ht
  clear_value first
  have hle := tauOf_le rate
  have hp : period = 1000000000 := rfl
  have htau : tauOf rate ≠ 0 := by
    unfold tauOf; rw [if_neg (by omega)]
    have := Nat.div_pos hr' hr
    unfold period; omega
  generalize hT : tauOf rate = T at *
  unfold computeRaw subU64 at e
  simp only [htau, if_false, Nat.mul_one] at e
  have hm := Nat.le_max_right tat now
  generalize hmx : max tat now = m at *
  rw [if_pos (show period ≤ m + T by omega)] at e
  by_cases h2 : m + T - period > now
  · rw [if_pos h2] at e
    have e1 : first.1 = m := by rw [e]
    have e2 : first.2 = m + T - period - now := by rw [e]
    have ht' : m + T - period ≤ t := by
      rw [e2] at ht; omega
    rw [e1]
    unfold computeRaw subU64
    simp only [htau, if_false, Nat.mul_one]
    rcases Nat.le_total m t with h | h
    · have : max m t = t := Nat.max_eq_right h
      rw [this, if_pos (show period ≤ t + T by omega), if_neg (show ¬ t + T - period > t by omega)]
    · have : max m t = m := Nat.max_eq_left h
      rw [this, if_pos (show period ≤ m + T by omega), if_neg (show ¬ m + T - period > t by omega)]
  · rw [if_neg h2] at e
    rw [e] at hw; simp at hw

/-- **C64 (waits are short).** In every reachable state, a caller whose clock reading `now` is at least every
reading made so far is told to wait at most one interval `10^9 / rate`. -/
theorem wait_at_most_one_interval (t0 rate : Nat) (hr : 0 < rate) (hr' : rate ≤ 1000000000)
    (acts : List Act) (hn : NoReset acts) (hs : SaneClock acts) (now : Nat) (hnow : now < 2 ^ 63)
    (hup : 1000000000 ≤ now) (h0 : t0 ≤ now)
    (hmax : ∀ i n, Act.call i n ∈ acts → n ≤ now) :
    (computeRaw now (run (init t0 rate) acts).lim.tat (tauOf rate) 1).2 ≤ 1000000000 / rate := by
  have htau : tauOf rate = 1000000000 / rate := by unfold tauOf period; rw [if_neg (by omega)]
  have hp : period = 1000000000 := rfl
  have hT0 : tauOf rate ≠ 0 := by
    have := Nat.div_pos hr' hr
    omega
  have hb : BInv now (run (init t0 rate) acts) := by
    refine binv_run acts (sane_init t0 rate) ⟨?_, fun _ => trivial⟩ ?_
    · simp only [init, mkNew]
      have : tauOf rate * rate ≤ 1000000000 := by
        rw [htau]; exact Nat.div_mul_le_self _ _
      omega
    · intro x hx
      refine ⟨hn.isReset x hx, sane_of acts hs x hx, ?_⟩
      intro i n he
      subst he
      exact hmax i n hx
  have hle := tauOf_le rate
  have htat := hb.tat
  rw [← htau]
  generalize (run (init t0 rate) acts).lim.tat = tat at *
  generalize tauOf rate = T at *
  unfold computeRaw subU64
  simp only [hT0, if_false, Nat.mul_one]
  have hm := Nat.le_max_right tat now
  have hm2 : max tat now ≤ now + period := Nat.max_le.2 ⟨htat, by omega⟩
  generalize max tat now = m at *
  rw [if_pos (show period ≤ m + T by omega)]
  split <;> simp only <;> omega

/-- **C64 (unlimited).** Rate 0, and any rate above 10^9 per second, never makes anybody wait. -/
theorem unlimited (rate now tat : Nat) (hr : rate = 0 ∨ 1000000000 < rate) :
    (computeRaw now tat (tauOf rate) 1).2 = 0 := by
  have : tauOf rate = 0 := by
    unfold tauOf period
    rcases hr with h | h
    · simp [h]
    · rw [if_neg (by omega)]; exact Nat.div_eq_of_lt h
  simp [computeRaw, this]

/-- Non-trivial case of the C64 hypotheses: rate 2, denied for 0.5s, then granted. -/
example : (computeRaw 5000000000 6000000000 (tauOf 2) 1) = (6000000000, 500000000) ∧
    (computeRaw 5500000000 6000000000 (tauOf 2) 1).2 = 0 := by decide

/-- **C65.** The displayed rate is the one set, for all rates with `r * r ≤ 10^9` (up to 31622 per second). -/
theorem rate_readback (now r : Nat) (hr : r * r ≤ 1000000000) : ratePerSecond (mkNew now r) = r := by
  unfold ratePerSecond mkNew tauOf
  by_cases h0 : r = 0
  · subst h0; simp
  · simp only [h0, if_false]
    have hp : period = 1000000000 := rfl
    have hr0 : 0 < r := by omega
    have ht : r ≤ period / r := (Nat.le_div_iff_mul_le hr0).2 (by omega)
    have ht0 : period / r ≠ 0 := by omega
    simp only [ht0, if_false]
    have h1 : period / r * r ≤ period := Nat.div_mul_le_self _ _
    have h2 : period < (period / r + 1) * r := by
      have := Nat.lt_mul_div_succ period hr0
      rw [Nat.mul_comm] at this; exact this
    generalize period / r = t at *
    have ht1 : 0 < t := by omega
    apply Nat.le_antisymm
    · apply Nat.le_of_lt_succ
      rw [Nat.div_lt_iff_lt_mul ht1]
      have e1 : (t + 1) * r = t * r + r := by rw [Nat.add_mul, Nat.one_mul]
      have e2 : r.succ * t = t * r + t := by rw [Nat.succ_mul, Nat.mul_comm r t]
      omega
    · rw [Nat.le_div_iff_mul_le ht1, Nat.mul_comm]; exact h1

/-- **C65.** For every rate from 1 to 10^9 the displayed rate is never smaller than the one set. -/
theorem rate_readback_ge (now r : Nat) (hr : 0 < r) (hr' : r ≤ 1000000000) :
    r ≤ ratePerSecond (mkNew now r) := by
  unfold ratePerSecond mkNew tauOf
  have h0 : r ≠ 0 := by omega
  have hp : period = 1000000000 := rfl
  have ht : 0 < period / r := Nat.div_pos (by omega) hr
  have ht0 : period / r ≠ 0 := by omega
  simp only [h0, if_false, ht0]
  rw [Nat.le_div_iff_mul_le ht, Nat.mul_comm]; exact Nat.div_mul_le_self _ _

/-- **C65 fails for large rates**: 60000 per second is displayed as 60002. -/
theorem rate_readback_violated : ratePerSecond (mkNew 0 60000) = 60002 := by decide

/-- The hypothesis of `rate_readback` is met by 31622. -/
example : 31622 * 31622 ≤ 1000000000 := by decide

/-- **C66.** Every launch has used up one permit of its own and one task made ready: the permits that were not used are held by waiting receivers, the tasks that were
not launched are still there. -/
theorem accounting (t0 rate : Nat) (acts : List RAct) :
    let s := rrun (rinit t0 rate) acts
    s.permits.length = s.waiting + s.launches.length ∧
    (acts.map (fun a => match a with | .ready k => k | _ => 0)).sum = s.tasks + s.launches.length := by
  suffices h : ∀ (acts : List RAct) (s : Recv) (r : Nat), s.permits.length = s.waiting + s.launches.length → r = s.tasks + s.launches.length →
      (rrun s acts).permits.length = (rrun s acts).waiting + (rrun s acts).launches.length ∧
      r + (acts.map (fun a => match a with | .ready k => k | _ => 0)).sum = (rrun s acts).tasks + (rrun s acts).launches.length by
    have := h acts (rinit t0 rate) 0 rfl rfl
    exact ⟨this.1, by omega⟩
  intro acts
  induction acts with
  | nil => intro s r h1 h2; exact ⟨h1, by simpa [rrun] using h2⟩
  | cons a acts ih =>
    intro s r h1 h2
    have e : rrun s (a :: acts) = rrun (rstep s a) acts := rfl
    rw [e, List.map_cons, List.sum_cons]
    cases a with
    | tick d => have := ih (rstep s (.tick d)) r h1 h2; exact ⟨this.1, by simp only at this ⊢; omega⟩
    | permit =>
      have := ih (rstep s .permit) r (by simp only [rstep]; split <;> simp [h1]; omega) (by simp only [rstep]; split <;> exact h2)
      exact ⟨this.1, by simp only at this ⊢; omega⟩
    | ready k =>
      have := ih (rstep s (.ready k)) (r + k) h1 (by simp only [rstep]; omega)
      exact ⟨this.1, by simp only at this ⊢; omega⟩
    | launch =>
      have := ih (rstep s .launch) r (by simp only [rstep]; split <;> simp only [List.length_cons, h1] <;> omega)
        (by simp only [rstep]; split <;> simp only [List.length_cons, h2] <;> omega)
      exact ⟨this.1, by simp only at this ⊢; omega⟩

/-- Non-trivial case: two permits, three tasks, one launch. -/
example : let s := rrun (rinit 0 1) [.tick 1000000000, .permit, .tick 1000000000, .permit, .ready 3, .launch, .tick 5]
    s.permits.length = 2 ∧ s.waiting = 1 ∧ s.launches.length = 1 ∧ s.tasks = 2 := by decide +kernel

/-- **C66 (documented claim violated).** Whatever the rate limit, any number `k` of tasks can be launched at one and
the same instant: idle receivers keep the permits they took earlier. -/
theorem launch_rate_violated (rate k t0 : Nat) :
    ∃ acts, let s := rrun (rinit t0 rate) acts
      s.lim.tau = tauOf rate ∧ s.launches = List.replicate k s.now := by
  refine ⟨hoard k ++ [.ready k] ++ List.replicate k .launch, ?_⟩
  have hle := tauOf_le rate
  have htr : tauOf rate * rate ≤ period := by
    unfold tauOf; split
    · omega
    · exact Nat.div_mul_le_self _ _
  have h1 := hoard_run k (rinit t0 rate) hle (by simp only [rinit, mkNew]; omega)
  have happ : rrun (rinit t0 rate) (hoard k ++ [.ready k] ++ List.replicate k .launch)
      = rrun (rstep (rrun (rinit t0 rate) (hoard k)) (.ready k)) (List.replicate k .launch) := by
    simp [rrun, List.foldl_append]
  have h2 := launch_all k (rstep (rrun (rinit t0 rate) (hoard k)) (.ready k))
    (by simp only [rstep]; rw [h1.1]; omega) (by simp only [rstep]; omega)
  refine ⟨?_, ?_⟩
  · have := rtau_run (hoard k ++ [.ready k] ++ List.replicate k .launch) (rinit t0 rate)
    rw [this]; rfl
  · rw [happ, h2.1, h2.2]
    have : (rstep (rrun (rinit t0 rate) (hoard k)) (.ready k)).launches = [] := by
      simp only [rstep]; rw [h1.2.1]; rfl
    rw [this, List.append_nil]

/-- **C66 (what does hold, `_partial`).** Over the whole life of an execute the launches are limited: `n` launches
need `n` intervals since the start (up to the rounding remainder). Missing compared to the documented claim: over shorter
windows only `launch_rate_window` holds, see `launch_rate_violated`. -/
theorem launch_rate_partial (t0 rate : Nat) (hr : 0 < rate) (acts : List RAct)
    (hnow : (rrun (rinit t0 rate) acts).now < 2 ^ 63) :
    let s := rrun (rinit t0 rate) acts
    s.launches.length * (1000000000 / rate)
      ≤ (s.now - t0) + (1000000000 - rate * (1000000000 / rate)) := by
  intro s
  have htau : tauOf rate = 1000000000 / rate := by unfold tauOf period; rw [if_neg (by omega)]
  have h63 : t0 < 2 ^ 63 := Nat.lt_of_le_of_lt (rnow_mono acts (rinit t0 rate)) hnow
  have hge : t0 ≤ s.now := rnow_mono acts (rinit t0 rate)
  by_cases h0 : tauOf rate = 0
  · rw [← htau, h0]; omega
  · have hi := rinv_run h0 acts (rinv_init t0 rate h63) hnow
    have hle : rate * (1000000000 / rate) ≤ 1000000000 := Nat.mul_div_le _ _
    have hcomm := Nat.mul_comm (tauOf rate) rate
    have hp : period = 1000000000 := rfl
    rw [← htau] at *
    have hc := hi.count
    have hlen : s.launches.length ≤ s.permits.length := by
      show (rrun (rinit t0 rate) acts).launches.length ≤ (rrun (rinit t0 rate) acts).permits.length
      omega
    have hmul := Nat.mul_le_mul_right (tauOf rate) hlen
    by_cases hpos : 0 < s.permits.length
    · have := hi.high hpos
      have e : (rrun (rinit t0 rate) acts).permits.length = s.permits.length := rfl
      have e2 : (rrun (rinit t0 rate) acts).now = s.now := rfl
      rw [e, e2] at this
      omega
    · have : s.permits.length = 0 := by omega
      rw [this] at hmul; omega

/-- **C66 (windows).** In any stretch of a run (from the end of `acts` to the end of `more`), the launches exceed what the rate limit
allows (window length plus one second) by at most the number of receivers that hold a permit at its beginning. -/
theorem launch_rate_window (t0 rate : Nat) (hr : 0 < rate) (acts more : List RAct)
    (hnow : (rrun (rinit t0 rate) (acts ++ more)).now < 2 ^ 63) :
    let s := rrun (rinit t0 rate) acts
    let s' := rrun (rinit t0 rate) (acts ++ more)
    (s'.launches.length - s.launches.length) * (1000000000 / rate)
      ≤ (s'.now - s.now) + 1000000000 + s.waiting * (1000000000 / rate) := by
  intro s s'
  have htau : tauOf rate = 1000000000 / rate := by unfold tauOf period; rw [if_neg (by omega)]
  have es : s' = rrun s more := by simp only [s, s', rrun, List.foldl_append]
  rw [← htau]
  by_cases h0 : tauOf rate = 0
  · rw [h0]; omega
  · have hi : WInv (tauOf rate) s.now s.permits.length s.waiting s.launches.length s :=
      ⟨by rw [rtau_run]; rfl, Nat.le_refl _, Nat.le_refl _, rfl, fun h => absurd h (Nat.lt_irrefl _), fun h => absurd h (Nat.lt_irrefl _)⟩
    have hi' : WInv (tauOf rate) s.now s.permits.length s.waiting s.launches.length s' := by
      rw [es]; exact winv_run h0 more hi (by rw [← es]; exact hnow)
    have hc := hi'.count
    have hg := hi'.grow
    have hn := hi'.now
    have hp : period = 1000000000 := rfl
    have hle : s'.launches.length - s.launches.length ≤ (s'.permits.length - s.permits.length) + s.waiting := by omega
    have hmul := Nat.mul_le_mul_right (tauOf rate) hle
    rw [Nat.add_mul] at hmul
    by_cases hpos : s.permits.length < s'.permits.length
    · have := hi'.high hpos
      omega
    · have : s'.permits.length - s.permits.length = 0 := by omega
      rw [this] at hmul
      omega

/-- Non-trivial case: rate 1, after 3 seconds three tasks launched at one instant. -/
example : (rrun (rinit 0 1) [.tick 1000000000, .permit, .tick 1000000000, .permit, .tick 1000000000, .permit,
    .ready 3, .launch, .launch, .launch]).launches = [3000000000, 3000000000, 3000000000] := by decide

end Verif.Props.Rate
