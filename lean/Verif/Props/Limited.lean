import Verif.Proof.Limited
import Verif.Proof.Terminate
import Verif.Props.Greedy

/-!
# The launch rate of an `execute` (C183)

`Runs c (init c lf now t rate) as s`: some schedule `as` of an `execute` call with `ratelimit_per_second = rate` that starts at time `t`
(nanoseconds since the machine was booted) leads to state `s` at time `s.now`. `handedOut as` is the number of tasks that local loops and
remote runners are given in it.
-/

namespace Verif.Props.Limited
open Verif Verif.Tracker Verif.Sys Verif.Limited
open Verif.Props.Tracker (t0)
open Verif.Props.Greedy (fork takes forkRun fork_runs)

variable {c : Sys.Cfg} {lf : LogFile} {now : Int} {t rate : Nat} {s s' : Limited.State}

/-! ### concrete case -/

/-- `b` and `c` depend on `a`; two loops, one task per second. Loop 1 gets past the limiter after one second, loop 0 after two; loop 0 runs
`a` for a second. -/
def before : List Limited.Act :=
  [.pass 1000000000, .sys (.loopRecv 1), .refused, .pass 1000000000, .sys (.loopRecv 0)] ++
    (([.server (.begin [0] t0), .server .sendNext, .server (.sendDone t0), .server (.pop 0 0)] : List Sys.Act) ++ takes 0).map .sys ++ [.pass 1000000000] ++
    ([.loopOutput 0 0 [], .loopReport 0, .server (.recvFinished [1, 2] t0), .server .sendNext, .server (.sendDone t0)] : List Sys.Act).map .sys

/-- Then both are given a task at once. -/
def instant : List Limited.Act :=
  (([.loopRecv 0, .server (.pop 0 0)] : List Sys.Act) ++ takes 1 ++ ([.server (.pop 0 0)] : List Sys.Act) ++ takes 0).map .sys

theorem burst_run : ∃ s s', Limited.Runs fork (Limited.init fork emptyLog 0 1000000000 1) before s ∧ Limited.Runs fork s instant s' ∧
    s'.now = s.now ∧ s.now = 4000000000 ∧ holding s.sys = 1 := by
  obtain ⟨s, h1, h2⟩ := runs_of_replay (c := fork) (as := before) (s := Limited.init fork emptyLog 0 1000000000 1)
    (p := fun s => replay fork s instant (fun s' => s'.now == s.now) && s.now == 4000000000 && holding s.sys == 1) (by decide +kernel)
  simp only [Bool.and_eq_true, beq_iff_eq] at h2
  obtain ⟨s', h3, h4⟩ := runs_of_replay h2.1.1
  exact ⟨s, s', h1, h3, by simpa using h4, h2.1.2, h2.2⟩

/-! ### C183 -/

/-- An execute with a rate limit is an execute: all that is proved about the actions of an `execute` applies. -/
theorem is_an_execute {as : List Limited.Act} (hr : Limited.Runs c (Limited.init c lf now t rate) as s) :
    Sys.Runs c (Sys.init c lf now) (sysActs as) s.sys := hr.toSys

/-- **C183 (windows).** Over any stretch `bs` of an execute in which the rate limit `r` is not changed, the tasks handed out, to local loops and
remote runners together, times the interval `10^9 / r` are at most the length of the stretch, plus one second, plus an interval for
each runner that already waits for a task at its beginning. -/
theorem launches_window {as bs : List Limited.Act} (h1 : Limited.Runs c (Limited.init c lf now t rate) as s) (h2 : Limited.Runs c s bs s')
    (hu : Unchanged bs) (hr : 0 < inForce rate as) (h63 : s'.now < 2 ^ 63) :
    handedOut bs * (1000000000 / inForce rate as) ≤
      (s'.now - s.now) + 1000000000 + holding s.sys * (1000000000 / inForce rate as) := by
  have e : Gcra.tauOf (inForce rate as) = 1000000000 / inForce rate as := by unfold Gcra.tauOf Gcra.period; rw [if_neg (by omega)]
  have ht := tau_run (t := t) h1 rfl
  rw [← e]
  by_cases h0 : Gcra.tauOf (inForce rate as) = 0
  · rw [h0]; omega
  · obtain ⟨_, h3, h4⟩ := granted_le h0 h2 hu ht h63
    have h5 := handed_le h2
    have h6 : handedOut bs ≤ granted bs + holding s.sys := by omega
    have h7 := Nat.mul_le_mul_right (Gcra.tauOf (inForce rate as)) h6
    rw [Nat.add_mul] at h7
    have hp : Gcra.period = 1000000000 := rfl
    by_cases hg : 0 < granted bs
    · have := h4 hg
      have := Nat.le_max_right s.lim.tat s.now
      omega
    · have : granted bs = 0 := by omega
      rw [this] at h7
      omega

/-- **C183 (from the start).** From the start of an execute on, as long as the rate limit is not changed, `n` tasks take at least `n`
intervals, up to the rounding of the interval: there is no initial burst. -/
theorem launches_from_start {as : List Limited.Act} (h1 : Limited.Runs c (Limited.init c lf now t rate) as s) (hu : Unchanged as)
    (hr : 0 < rate) (h63 : s.now < 2 ^ 63) :
    handedOut as * (1000000000 / rate) ≤ (s.now - t) + (1000000000 - rate * (1000000000 / rate)) := by
  have e : Gcra.tauOf rate = 1000000000 / rate := by unfold Gcra.tauOf Gcra.period; rw [if_neg (by omega)]
  rw [← e]
  by_cases h0 : Gcra.tauOf rate = 0
  · rw [h0]; omega
  · obtain ⟨_, h3, h4⟩ := granted_le h0 h1 hu rfl h63
    have h5 := handed_le h1
    have hz : holding (Limited.init c lf now t rate).sys = 0 := by
      simp only [holding, Limited.init, Sys.init, List.countP_nil, Nat.add_zero]
      split
      · rfl
      · simp [List.countP_replicate, loopHolds]
    have h6 : handedOut as ≤ granted as := by omega
    have h7 := Nat.mul_le_mul_right (Gcra.tauOf rate) h6
    have hp : Gcra.period = 1000000000 := rfl
    have hm := tauOf_mul_le rate
    rw [Nat.mul_comm] at hm
    have hnow : (Limited.init c lf now t rate).now = t := rfl
    by_cases hg : 0 < granted as
    · have h8 := h4 hg
      have h9 : t + Gcra.tauOf rate * rate ≤ max (Limited.init c lf now t rate).lim.tat (Limited.init c lf now t rate).now := Nat.le_max_left _ _
      rw [Nat.mul_comm (Gcra.tauOf rate)] at h9
      omega
    · have : granted as = 0 := by omega
      rw [this] at h7
      omega

/-- **C183 (after a change).** After the rate limit was set to `r`, and until it is set again, `n` tasks take at least `n` intervals (up to
rounding), not counting one for each runner that already waited for a task: a change of the limit does not bring a burst by itself. -/
theorem launches_after_change {as bs : List Limited.Act} {r : Nat} {s0 : Limited.State} (h1 : Limited.Runs c (Limited.init c lf now t rate) as s0)
    (hc : Limited.step c s0 (.setRate r) = .ok s) (h2 : Limited.Runs c s bs s') (hu : Unchanged bs) (hr : 0 < r) (h63 : s'.now < 2 ^ 63) :
    handedOut bs * (1000000000 / r) ≤
      (s'.now - s0.now) + (1000000000 - r * (1000000000 / r)) + holding s0.sys * (1000000000 / r) := by
  have e : Gcra.tauOf r = 1000000000 / r := by unfold Gcra.tauOf Gcra.period; rw [if_neg (by omega)]
  rw [← e]
  simp only [Limited.step, Res.ok.injEq] at hc
  subst hc
  by_cases h0 : Gcra.tauOf r = 0
  · rw [h0]; omega
  · obtain ⟨_, h3, h4⟩ := granted_le h0 h2 hu rfl h63
    have h5 := handed_le h2
    simp only at h3 h5
    have h6 : handedOut bs ≤ granted bs + holding s0.sys := by omega
    have h7 := Nat.mul_le_mul_right (Gcra.tauOf r) h6
    rw [Nat.add_mul] at h7
    have hp : Gcra.period = 1000000000 := rfl
    have hm := tauOf_mul_le r
    rw [Nat.mul_comm] at hm
    by_cases hg : 0 < granted bs
    · have h8 := h4 hg
      have h9 : s0.now + Gcra.tauOf r * r ≤ max (s0.now + Gcra.tauOf r * r) s0.now := Nat.le_max_left _ _
      simp only [Gcra.mkNew] at h8
      rw [Nat.mul_comm (Gcra.tauOf r)] at h9 h8
      omega
    · have : granted bs = 0 := by omega
      rw [this] at h7
      omega

/-- Non-trivial case: at the fourth second the limit is set to 2 per second. Then loop 0 gets no further permit at once, but half a second later. -/
example : replay fork (Limited.init fork emptyLog 0 1000000000 1) (before ++ [.setRate 2]) (fun s => holding s.sys == 1 &&
    !(match Limited.step fork s (.sys (.loopRecv 0)) with | .ok _ => true | _ => false) &&
    replay fork s [.pass 500000000, .sys (.loopRecv 0)] (fun s' => holding s'.sys == 2)) = true := by decide +kernel

/-- **C183 (local runners).** Without remote runners at most `numParallel` loops and the console loop wait for a task: over any `k` seconds at
most `r * (k + 1)` tasks are handed out plus `numParallel + 1`, if `r` divides `10^9`. -/
theorem local_launches {as bs : List Limited.Act} (hl : c.remote = false) (h1 : Limited.Runs c (Limited.init c lf now t rate) as s)
    (h2 : Limited.Runs c s bs s') (hu : Unchanged bs) (hr : 0 < inForce rate as) (hd : inForce rate as ∣ 1000000000) (h63 : s'.now < 2 ^ 63)
    {k : Nat} (hk : s'.now ≤ s.now + k * 1000000000) :
    handedOut bs ≤ inForce rate as * (k + 1) + (c.numParallel + 1) := by
  have hw := launches_window h1 h2 hu hr h63
  have hh : holding s.sys ≤ c.numParallel + 1 := by
    have e1 := ((NoServer.init (lf := lf) (now := now) hl).runs h1.toSys).handlers
    have e2 := (trace_pend h1.toSys 0).1
    have e3 : (Limited.init c lf now t rate).sys.loops.length ≤ c.numParallel + 1 := by
      simp only [Limited.init, Sys.init]
      split
      · simp
      · simp
    unfold holding
    rw [e1]
    have e4 := @List.countP_le_length _ loopHolds s.sys.loops
    rw [e2] at e4
    simp only [List.countP_nil, Nat.add_zero]
    exact Nat.le_trans e4 e3
  generalize inForce rate as = r at *
  obtain ⟨q, hq⟩ := hd
  have hdiv : 1000000000 / r = q := by rw [hq]; exact Nat.mul_div_cancel_left q hr
  rw [hdiv] at hw
  have hq0 : 0 < q := by
    rcases Nat.eq_zero_or_pos q with h | h
    · subst h; simp at hq
    · exact h
  apply Nat.le_of_mul_le_mul_right _ hq0
  have e5 := Nat.mul_le_mul_right q hh
  have e6 : (r * (k + 1) + (c.numParallel + 1)) * q = (k + 1) * (r * q) + (c.numParallel + 1) * q := by
    rw [Nat.add_mul, Nat.mul_right_comm, Nat.mul_comm (r * q)]
  rw [e6, ← hq]
  omega

/-- Non-trivial case: the run above, in which two tasks are handed out in an instant, with `k = 0`, rate 1 and two loops. -/
example : ∃ s s', Limited.Runs fork (Limited.init fork emptyLog 0 1000000000 1) before s ∧ Limited.Runs fork s instant s' ∧ Unchanged instant ∧
    inForce 1 before = 1 ∧ handedOut instant = 2 ∧ handedOut before = 1 ∧ fork.remote = false ∧ s'.now ≤ s.now + 0 * 1000000000 ∧ s'.now < 2 ^ 63 := by
  obtain ⟨s, s', h1, h2, h3, h4, h5⟩ := burst_run
  exact ⟨s, s', h1, h2, fun r h => by simp [instant, takes] at h, rfl, rfl, rfl, rfl, by omega, by omega⟩

/-- **C183 (violated: no more than the rate).** With a limit of one task per second two tasks are handed out in one instant: a loop that was let
through by the limiter keeps its permit while there is no task. -/
theorem burst_violated : ∃ s s', Limited.Runs fork (Limited.init fork emptyLog 0 1000000000 1) before s ∧ Limited.Runs fork s instant s' ∧
    Unchanged (before ++ instant) ∧ s'.now = s.now ∧ handedOut instant = 2 := by
  obtain ⟨s, s', h1, h2, h3, _, _⟩ := burst_run
  exact ⟨s, s', h1, h2, fun r h => by simp [before, instant, takes] at h, h3, rfl⟩

/-- **C183 (one interval is enough).** In any state of an execute on a machine that is up for a second: whoever waits for the rate limiter can go on
when one interval `10^9 / r` has passed (0 if there is no limit), if nobody else takes the permit. -/
theorem next_permit {as : List Limited.Act} (h1 : Limited.Runs c (Limited.init c lf now t rate) as s) (ht : 1000000000 ≤ t) {d : Nat}
    (hd : 1000000000 / inForce rate as ≤ d) (h63 : s.now + d < 2 ^ 63) {a : Sys.Act} {y : Sys.State} (hs : Sys.step c s.sys a = .ok y) :
    ∃ s1 s2, Limited.step c s (.pass d) = .ok s1 ∧ Limited.step c s1 (.sys a) = .ok s2 ∧ s2.sys = y ∧ s2.now = s.now + d := by
  obtain ⟨n1, n2⟩ := ahead_run h1 (by omega) (by
    have := tauOf_mul_le rate
    simp only [Limited.init, Gcra.mkNew]; omega)
  have hn : t ≤ s.now := n1
  have htau := tau_run (t := t) h1 rfl
  have e : Gcra.tauOf (inForce rate as) ≤ d := by
    unfold Gcra.tauOf Gcra.period
    split
    · omega
    · exact hd
  rw [← htau] at e
  refine ⟨{ s with now := s.now + d }, ?_⟩
  cases hb : asksPermit a with
  | false =>
    refine ⟨⟨y, s.lim, s.now + d⟩, rfl, ?_, rfl, rfl⟩
    simp only [Limited.step, hb, Bool.false_eq_true, if_false, hs, Res.bind]
  | true =>
    have hp : Gcra.period = 1000000000 := rfl
    have hc : (compute { s with now := s.now + d }).2 = 0 := by
      have hle := Gcra.tauOf_le (inForce rate as)
      rw [← htau] at hle
      have hm := Nat.le_max_right s.lim.tat (s.now + d)
      have hm2 : max s.lim.tat (s.now + d) + s.lim.tau ≤ s.now + d + Gcra.period := by
        rcases Nat.le_total s.lim.tat (s.now + d) with h | h
        · rw [Nat.max_eq_right h]; omega
        · rw [Nat.max_eq_left h]; omega
      have h1 : Gcra.period ≤ max s.lim.tat (s.now + d) + s.lim.tau := by omega
      have h2 : ¬ (max s.lim.tat (s.now + d) + s.lim.tau - Gcra.period > s.now + d) := by omega
      simp only [compute, Gcra.computeRaw, Gcra.subU64, Nat.mul_one, if_pos h1, if_neg h2, ite_self]
      split <;> rfl
    refine ⟨⟨y, (compute { s with now := s.now + d }).1, s.now + d⟩, rfl, ?_, rfl, rfl⟩
    simp only [Limited.step, hb, if_true, hc, hs, Res.bind]

/-- Non-trivial case: after the second given to loop 1, loop 0 has to wait, and may go on a second later. -/
example : replay fork (Limited.init fork emptyLog 0 1000000000 1) [.pass 1000000000, .sys (.loopRecv 1), .refused] (fun s =>
    !(match Limited.step fork s (.sys (.loopRecv 0)) with | .ok _ => true | _ => false) &&
    replay fork s [.pass 1000000000, .sys (.loopRecv 0)] (fun s' => holding s'.sys == 2)) = true := by decide +kernel

/-- **C183 (nothing else waits).** Only who asks for a task waits for the limiter: tasks that run, reports, cancellations, requests and the server go on
whatever the limit, and do not use up permits. -/
theorem nothing_else_waits {a : Sys.Act} (h1 : ∀ i, a ≠ .loopRecv i) (h2 : ∀ i, a ≠ .hRecv i) {y : Sys.State} (hs : Sys.step c s.sys a = .ok y) :
    Limited.step c s (.sys a) = .ok ⟨y, s.lim, s.now⟩ := by
  have hb : asksPermit a = false := by
    cases a <;> first
      | rfl
      | exact absurd rfl (h1 _)
      | exact absurd rfl (h2 _)
  simp only [Limited.step, hb, Bool.false_eq_true, if_false, hs, Res.bind]

/-- Non-trivial case: while loop 0 has to wait, its neighbour is given `a` and starts it. -/
example : replay fork (Limited.init fork emptyLog 0 1000000000 1) ([.pass 1000000000, .sys (.loopRecv 1)] ++
    (([.server (.begin [0] t0), .server .sendNext, .server (.sendDone t0), .server (.pop 0 0)] : List Sys.Act) ++ takes 1).map .sys) (fun s =>
    !(match Limited.step fork s (.sys (.loopRecv 0)) with | .ok _ => true | _ => false) && runsTask 0 s.sys) = true := by decide +kernel

/-- **C183 (no limit).** With rate limit 0 the limiter never keeps anybody waiting: every schedule of the execute is possible. -/
theorem unlimited {as : List Sys.Act} {y : Sys.State} (hr : Sys.Runs c (Sys.init c lf now) as y) :
    ∃ s, Limited.Runs c (Limited.init c lf now t 0) (as.map .sys) s ∧ s.sys = y := by
  suffices h : ∀ {as : List Sys.Act} {x y : Sys.State}, Sys.Runs c x as y → ∀ lim : Gcra.Limiter, lim.tau = 0 → ∀ n,
      ∃ s, Limited.Runs c ⟨x, lim, n⟩ (as.map .sys) s ∧ s.sys = y from h hr _ rfl t
  intro as x y hr
  induction hr with
  | nil x => exact fun lim _ n => ⟨⟨x, lim, n⟩, .nil _, rfl⟩
  | @cons x x1 y a as hp hs _ ih =>
    intro lim h0 n
    have hc : Gcra.computeRaw n lim.tat lim.tau 1 = (lim.tat, 0) := by simp [Gcra.computeRaw, h0]
    obtain ⟨s, h1, h2⟩ := ih lim h0 n
    refine ⟨s, .cons (s1 := ⟨x1, lim, n⟩) (fun b hb => by cases hb; exact hp) ?_ h1, h2⟩
    simp only [Limited.step, compute, hc, hs, Res.bind, if_true, ite_self]

/-- Non-trivial case: the run of C177, in which three tasks are handed out. -/
example : ∃ s, Limited.Runs fork (Limited.init fork emptyLog 0 1000000000 0) (forkRun.map .sys) s ∧ handedOut (forkRun.map .sys) = 3 := by
  obtain ⟨y, h1, _⟩ := fork_runs
  obtain ⟨s, h2, _⟩ := unlimited (t := 1000000000) h1
  exact ⟨s, h2, rfl⟩

end Verif.Props.Limited
