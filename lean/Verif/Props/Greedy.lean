import Verif.Proof.Greedy3
import Verif.Proof.Rest
import Verif.Proof.Standstill
import Verif.Props.Terminate

/-!
# How long an `execute` takes (C177)

Time goes by with the actions `.server (.tick d)` only. `ran c v s as` is how long the process of task `v` ran in a local loop
during the actions `as`, `work` is the sum over all tasks. `Resting`: execgraph has nothing left to do by itself. `Swift`: what
execgraph does by itself takes no time. `allBusy`: a process runs in each of the `numParallel` loops.
-/

namespace Verif.Props.Greedy
open Verif Verif.Tracker Verif.Sys
open Verif.Props.Tracker (task t0)
open Verif.Props.System (job)

variable {c : Sys.Cfg} {lf : LogFile} {now : Int} {s s' : Sys.State}

/-! ### concrete case -/

/-- `b` and `c` depend on `a`; two loops. -/
def fork : Sys.Cfg where
  tr := { g := ⟨[job "a", job "b", job "c"], [(0, 1), (0, 2)]⟩, fizzlesAllowed := 1 }
  numParallel := 2
  remote := false
  secret := "k"

theorem fork_good : Good fork.tr := ⟨fun e h => by revert e; decide, by decide, by decide⟩
theorem fork_displayable : Displayable fork.tr := by
  intro cmd h; revert cmd; decide
theorem fork_runnable : LocallyRunnable fork := by
  intro cmd h; revert cmd; decide
theorem fork_anyLoop : AnyLoop fork := by
  intro cmd h; revert cmd; decide
theorem fork_ordered : Ordered fork.tr := by
  intro u v h
  simp only [fork, DiGraph.Dep, List.mem_cons, Prod.mk.injEq, List.not_mem_nil, or_false] at h
  omega

/-- Loop `i` waits in `recv`, gets a task from its queue and starts it. -/
def takes (i : Nat) : List Sys.Act :=
  [.server (.claim 0), .loopGot i 0, .loopSpawn i true, .loopStarted i "h" 7, .server (.recvStarted t0)]

/-- `a` runs for 5, then `b` for 3 and `c` for 4. -/
def forkRun : List Sys.Act :=
  [.loopRecv 0, .loopRecv 1, .loopRecv 2, .server (.begin [0] t0), .server .sendNext, .server (.sendDone t0), .server (.pop 0 0)] ++ takes 0 ++
  [.server (.tick 5), .loopOutput 0 0 [], .loopReport 0, .loopRecv 0, .server (.recvFinished [1, 2] t0), .server .sendNext, .server (.sendDone t0),
    .server (.pop 0 0)] ++ takes 1 ++ [.server (.pop 1 0)] ++ takes 0 ++
  [.server (.tick 3), .loopOutput 1 0 [], .loopReport 1, .loopRecv 1, .server (.recvFinished [] t0), .server (.tick 1)]

theorem fork_runs : ∃ s, Sys.Runs fork (Sys.init fork emptyLog 0) forkRun s ∧ s.tr.pc = .idle := by
  obtain ⟨s, h1, h2⟩ := runs_of_after (c := fork) (as := forkRun) (p := fun s => s.tr.pc == .idle) (by decide +kernel)
  exact ⟨s, h1, by simpa using h2⟩

theorem fork_swift : Swift fork (Sys.init fork emptyLog 0) forkRun := swift_of_swiftly (by decide +kernel)

/-! ### C177 -/

/-- **C177 (no idle slots).** In every schedule, at any moment at which execgraph has nothing left to do by itself and the queues
are not closed by a shutdown: a process runs in each of the `numParallel` loops, or every task whose dependencies have all
succeeded is finished or running. -/
theorem no_idle_slots (hg : Good c.tr) (hdisp : Displayable c.tr) (hrun : LocallyRunnable c) (hord : Ordered c.tr)
    (hne : c.tr.g.n ≠ 0) (hpar : c.numParallel ≠ 0) (haff : AnyLoop c) (hl : c.remote = false) {as : List Sys.Act}
    (hr : Sys.Runs c (Sys.init c lf now) as s) (ha : ∀ a ∈ as, isTrigger a = false ∧ isDie a = false) (hpc : s.tr.pc ≠ .done)
    (hrest : Resting c s) (hopen : s.tr.readyOpen = true) :
    allBusy c s = true ∨ ∀ v, v < c.tr.g.n → (∀ u, c.tr.g.Dep u v → Succeeded s.tr u) →
      (∃ st, (v, st) ∈ s.tr.processed) ∨ runsTask v s = true := by
  cases hb : allBusy c s with
  | true => exact .inl rfl
  | false =>
    right
    intro v hv hd
    by_cases hp : ∃ st, (v, st) ∈ s.tr.processed
    · exact .inl hp
    · right
      refine rest_ready hg hdisp hrun hord hne hpar haff ((Calmly.init hl).runs hg hr ha) hpc hrest hopen hb hv (fun u hu => ?_) ?_
      · exact mem_okIds.2 ⟨_, hd u hu, rfl⟩
      · intro h
        obtain ⟨⟨_, st⟩, h1, rfl⟩ := List.mem_map.1 h
        exact hp ⟨st, h1⟩

/-- Non-trivial case: at the end of the run above `c` runs in loop 0, `b` is finished, loop 1 has nothing to do. -/
example : after fork forkRun (fun s => restful s && s.tr.readyOpen && !allBusy fork s && runsTask 2 s && s.tr.processed == [(0, .code 0), (1, .code 0)]) = true := by
  decide +kernel

/-- **C177 (nobody waits in vain).** In every schedule, with remote runners or without, at any moment at which execgraph has nothing left
to do by itself (`AtRest`; somebody may still have to wait for the rate limiter) and the queues are not closed by a shutdown: while somebody waits in `recv` for a task for runner type `r`, every
task that accepts `r` and whose dependencies have all succeeded has been made ready and claimed. -/
theorem nobody_waits_in_vain (hg : Good c.tr) (hdisp : Displayable c.tr) {as : List Sys.Act}
    (hr : Sys.Runs c (Sys.init c lf now) as s) (hrest : AtRest c s) (hopen : s.tr.readyOpen = true) {r : Nat} (hw : r ∈ s.tr.waiting)
    {v : Nat} (hv : v < c.tr.g.n) (hb : (cmdOf c.tr.g v).affinity.getLsbD r = true) (hd : ∀ u, c.tr.g.Dep u v → Succeeded s.tr u) :
    MadeReady c.tr lf s.tr v ∧ ¬ Unclaimed s.tr v := by
  have hreach := (Sys.Reachable.inv hg ⟨_, hr⟩).reach
  obtain ⟨hti, hth⟩ := hreach.inv hg
  have hna := hrest.no
  have hpc : s.tr.pc = .idle := by
    have serve : ¬ (s.tr.pc = .new ∨ (∃ todo fin, s.tr.pc = .sending todo fin) ∨ (s.tr.pc = .idle ∧ s.tr.chan ≠ []) ∨ s.tr.pc = .joined) := by
      intro hx
      obtain ⟨a, t, ha, ht, h1, h2, h3, h4⟩ := can_serve hg hdisp hreach hx
      exact hna (canDo_server ha ht h1 h2 h3 h4)
    have hend : ended s.tr.pc = false := by
      cases he : ended s.tr.pc with
      | false => rfl
      | true => rw [hti.shape.endClosed he] at hopen; cases hopen
    cases hp : s.tr.pc with
    | new => exact absurd (.inl hp) serve
    | sending todo fin => exact absurd (.inr (.inl ⟨_, _, hp⟩)) serve
    | idle => rfl
    | _ => rw [hp] at hend; cases hend
  have hsoft : s.tr.soft = false := by
    cases hs : s.tr.soft with
    | false => rfl
    | true => rw [hti.shape.softClosed hs] at hopen; cases hopen
  refine ⟨(hreach.made_iff hg).2 (hti.core.deps.ready hsoft (by rw [hpc]; rfl) v hv (fun u hu => mem_okIds.2 ⟨_, hd u hu, rfl⟩)), ?_⟩
  rintro ⟨f, hf, hfv, hft⟩
  obtain ⟨k, hk⟩ := List.getElem?_of_mem hf
  have hk' : s.tr.flags[k]? = some ⟨v, false⟩ := by rw [hk, ← hfv, ← hft]
  obtain ⟨w, hw⟩ := List.getElem?_of_mem hw
  rcases hti.core.items.avail k v hk' r hb with ⟨x, hx, hxk⟩ | ⟨p, hpp, _, hpk⟩ | ⟨b, hbm, _⟩
  · obtain ⟨j, t, ht⟩ := Tracker.can_pop (c := c.tr) hw (List.ne_nil_of_mem hx)
    exact hna (canDo_server rfl ht (by simp) (by simp) (by simp) (by simp))
  · obtain ⟨i, hi⟩ := List.getElem?_of_mem hpp
    have hfl := (hti.core.items.poppedOk p hpp).flag
    obtain ⟨q, it⟩ := p
    obtain ⟨t, ht⟩ := can_step hg hdisp hreach (.claim i) (by
      simp only [Tracker.step, hi]
      cases hf : s.tr.flags[it.flag]? with
      | none => simp [hf] at hfl
      | some f => simp only; split <;> simp)
    exact hna (canDo_server rfl ht (by simp) (by simp) (by simp) (by simp))
  · rw [hpc] at hbm; simp [todoOf] at hbm

/-- Non-trivial case: when `a` has been started, both other loops wait in `recv`. -/
example : after fork (forkRun.take 12) (fun s => still s && s.tr.readyOpen && s.tr.waiting == [0, 1]) = true := by decide +kernel

/-- Non-trivial case with remote runners: both tasks are given to runners, a third waits in `recv`. -/
example : after Props.System.remote2 (Props.System.serve ++ Props.System.handOut 0 0 5 "j" ++ Props.System.handOut 1 0 6 "k" ++
      [Props.System.req "l" (.start 0), .hRecv 2]) (fun s => still s && s.tr.readyOpen && s.tr.waiting == [0]) = true := by decide +kernel

/-- **C177 (time, above).** As long as `execute` has not returned, and if what execgraph does by itself takes no time: with
`p = numParallel`, `p` times the time that has gone by is at most the total running time of the processes plus `p - 1` times that
of the tasks of some chain of dependencies (Graham's bound). Failures of tasks, cancellations and Ctrl-C do not matter. -/
theorem time_at_most (hg : Good c.tr) (hdisp : Displayable c.tr) (hrun : LocallyRunnable c) (hord : Ordered c.tr)
    (hne : c.tr.g.n ≠ 0) (hpar : c.numParallel ≠ 0) (haff : AnyLoop c) (hl : c.remote = false) {as : List Sys.Act}
    (hr : Sys.Runs c (Sys.init c lf now) as s) (ha : ∀ a ∈ as, isTrigger a = false ∧ isDie a = false)
    (hswift : Swift c (Sys.init c lf now) as) (hpc : s.tr.pc ≠ .done) :
    ∃ l, DepChain c.tr.g l ∧
      c.numParallel * elapsed as ≤ work c (Sys.init c lf now) as + (c.numParallel - 1) * timeOf c (Sys.init c lf now) as l := by
  have hb := books hg hdisp hrun hord hne hpar haff hl hr ha hswift hpc
  obtain ⟨l, h1, h2⟩ := hb.longest
  refine ⟨l, h1, ?_⟩
  have := hb.slots
  have := Nat.mul_le_mul_left (c.numParallel - 1) h2
  omega

/-- Non-trivial case: 9 have gone by, 12 of work are done, the chain `a`, `c` took 9. -/
example : elapsed forkRun = 9 ∧ work fork (Sys.init fork emptyLog 0) forkRun = 12 ∧ timeOf fork (Sys.init fork emptyLog 0) forkRun [2, 0] = 9 := by
  decide +kernel

example : ∃ l, DepChain fork.tr.g l ∧ 2 * elapsed forkRun ≤ work fork (Sys.init fork emptyLog 0) forkRun + 1 * timeOf fork (Sys.init fork emptyLog 0) forkRun l := by
  obtain ⟨s, h1, h2⟩ := fork_runs
  exact time_at_most fork_good fork_displayable fork_runnable fork_ordered (by decide) (by decide) fork_anyLoop rfl h1 (by decide +kernel) fork_swift
    (by rw [h2]; simp)

/-- **C177 (time, below).** In every schedule, whatever takes time: the tasks of a chain of dependencies ran one after the other, and
never more than `numParallel + 1` processes at the same time (the one more is the console). -/
theorem time_at_least (hg : Good c.tr) (hpar : c.numParallel ≠ 0) (hl : c.remote = false) {as : List Sys.Act}
    (hr : Sys.Runs c (Sys.init c lf now) as s) (ha : ∀ a ∈ as, isTrigger a = false ∧ isDie a = false) (hpc : s.tr.pc ≠ .done) :
    (∀ l, DepChain c.tr.g l → timeOf c (Sys.init c lf now) as l ≤ elapsed as) ∧
      work c (Sys.init c lf now) as ≤ (c.numParallel + 1) * elapsed as :=
  at_least hg hpar hl hr ha hpc

/-- Non-trivial case. -/
example : timeOf fork (Sys.init fork emptyLog 0) forkRun [2, 0] ≤ elapsed forkRun := by
  obtain ⟨s, h1, h2⟩ := fork_runs
  exact (time_at_least fork_good (by decide) rfl h1 (by decide +kernel) (by rw [h2]; simp)).1 _ (.cons (by decide) (.one 0))

/-- **C177 (at most twice the optimum).** Let `b` be a time in which the same processes could be run on `numParallel` slots: each
chain of dependencies fits into it, and all the work into the slots. As long as `execute` has not returned, at most
`(2 - 1 / numParallel) b` has gone by. -/
theorem at_most_twice (hg : Good c.tr) (hdisp : Displayable c.tr) (hrun : LocallyRunnable c) (hord : Ordered c.tr)
    (hne : c.tr.g.n ≠ 0) (hpar : c.numParallel ≠ 0) (haff : AnyLoop c) (hl : c.remote = false) {as : List Sys.Act}
    (hr : Sys.Runs c (Sys.init c lf now) as s) (ha : ∀ a ∈ as, isTrigger a = false ∧ isDie a = false)
    (hswift : Swift c (Sys.init c lf now) as) (hpc : s.tr.pc ≠ .done) {b : Nat}
    (hchain : ∀ l, DepChain c.tr.g l → timeOf c (Sys.init c lf now) as l ≤ b)
    (hwork : work c (Sys.init c lf now) as ≤ c.numParallel * b) : c.numParallel * elapsed as ≤ (2 * c.numParallel - 1) * b := by
  obtain ⟨l, h1, h2⟩ := time_at_most hg hdisp hrun hord hne hpar haff hl hr ha hswift hpc
  have h3 := Nat.mul_le_mul_left (c.numParallel - 1) (hchain l h1)
  have : 2 * c.numParallel - 1 = (c.numParallel - 1) + c.numParallel := by omega
  rw [this, Nat.add_mul]
  omega

/-- Non-trivial case: the run above, with `b = 9`. -/
example : 2 * elapsed forkRun ≤ 3 * 9 := by
  obtain ⟨s, h1, h2⟩ := fork_runs
  have hpc : s.tr.pc ≠ .done := by rw [h2]; simp
  refine at_most_twice fork_good fork_displayable fork_runnable fork_ordered (by decide) (by decide) fork_anyLoop rfl h1 (by decide +kernel) fork_swift
    hpc (b := 9) (fun l hl => ?_) (by decide +kernel)
  have := (time_at_least fork_good (by decide) rfl h1 (by decide +kernel) hpc).1 l hl
  have h9 : elapsed forkRun = 9 := by decide +kernel
  omega

end Verif.Props.Greedy
