import Verif.Proof.TrackerFacts
import Verif.Props.TrackerDemo

/-!
# C10-C12, C14, C16-C18, C20, C21, C25, C30, C31, C35: what holds in every state of an `execute` call

`Reachable c lf now s`: some schedule of well-behaved runners, of any length, leads to state `s`.
-/

namespace Verif.Props.Tracker
open Verif Verif.Tracker Verif.Spec
open scoped List

variable {c : Cfg} {lf : LogFile} {now : Int} {s : State}

/-- The ghost lists used in the statements are what an observer of the run sees: `obtained` the returning `recv` calls,
`processed` the finish reports taken from the channel while serving (their tasks are the code's `finished_order`). -/
theorem ghosts_are_observations {as : List Act} {s0 : State} (hr : Runs c s0 as s) :
    s.obtained = s0.obtained ++ (observe c s0 as).filterMap Obs.got? ∧
    s.processed = s0.processed ++ (observe c s0 as).filterMap Obs.report? := by
  induction hr with
  | nil => simp [observe]
  | @cons s0 s1 s2 a as hd hs _ ih =>
    have key : s1.obtained = s0.obtained ++ (obsOf s0 a).filterMap Obs.got? ∧
        s1.processed = s0.processed ++ (obsOf s0 a).filterMap Obs.report? := step_ghosts hs
    simp only [observe, hs, List.filterMap_append]
    rw [ih.1, ih.2, key.1, key.2]
    simp

/-- **C10.** A runner obtains a task only after the success of every dependency was reported and processed. -/
theorem dependencies_first (hg : Good c) (hr : Reachable c lf now s) {u v : Nat} (ho : Obtained s v)
    (hd : c.g.Dep u v) : Succeeded s u :=
  hr.made_deps hg (hr.obtained_made hg ho) hd

/-- **C10.** The same for transitive dependencies. -/
theorem dependencies_first_transitive (hg : Good c) (hr : Reachable c lf now s) {u v : Nat} (ho : Obtained s v)
    (hd : c.g.Reach u v) : Succeeded s u :=
  hr.made_reach hg (hr.obtained_made hg ho) hd

/-- Non-trivial case: `b` and `c` were obtained, both depend on `a`. -/
example : ∃ s, Reachable diamond emptyLog 0 s ∧ Obtained s 2 ∧ diamond.g.Dep 0 2 := by
  obtain ⟨s, h1, h2⟩ := runs_of_after (c := diamond) (as := runBC) (p := fun s => decide ((1, 2) ∈ s.obtained)) (by decide)
  exact ⟨s, ⟨_, h1⟩, ⟨1, by simpa using h2⟩, by decide⟩

/-- **C11.** No task is obtained twice, whatever the number of receivers and queues. -/
theorem obtained_once (hg : Good c) (hr : Reachable c lf now s) : (s.obtained.map (·.2)).Nodup :=
  hr.obtained_nodup hg

/-- Non-trivial case: `c` sits in two queues, receivers of both types have popped it, one wins. -/
example : after diamond (runA ++ [.recvFinished [1, 2] t0, .sendNext, .sendNext, .sendDone t0, .enter 0, .enter 1,
    .pop 0 1, .pop 0 0, .claim 1, .claim 0, .account 0])
    (fun s => s.obtained == [(0, 0), (1, 2)] && s.waiting == [0]) = true := by decide

/-- **C12.** A receiver of type `r` obtains only tasks whose affinity mask has bit `r`; and `r` is below 64. -/
theorem affinity_respected (hg : Good c) (hr : Reachable c lf now s) {r v : Nat} (ho : (r, v) ∈ s.obtained) :
    ∃ cmd, c.g.nodes[v]? = some cmd ∧ cmd.affinity.getLsbD r = true ∧ r < 64 := by
  obtain ⟨hi, hh⟩ := hr.inv hg
  have hv := hi.core.deps.lt v (hr.obtained_made hg ⟨r, ho⟩)
  have ha := hh.past.aff _ ho
  refine ⟨cmdOf c.g v, node_of_lt hv, ha, ?_⟩
  by_contra hx
  rw [BitVec.getLsbD_of_ge _ _ (by omega)] at ha
  cases ha

/-- **C12.** `recv` refuses runner types from 64 on, and only those, with NoSuchRunnerType; such a call never waits. -/
theorem runner_type_checked (c : Cfg) (s : State) (r : Nat) :
    (recvCheck s r = .error .noSuchRunnerType ↔ 64 ≤ r) ∧ (64 ≤ r → step c s (.enter r) = .err ()) := by
  constructor
  · unfold recvCheck
    split
    · simp; omega
    · split <;> simp <;> omega
  · intro h
    simp only [step]
    split
    · rfl
    · rw [recvCheck, if_pos h]

/-- **C14.** Once a task was reported finished with anything but exit code 0 (or found disconnected), nothing that
transitively depends on it is made ready, obtained, started in the log or finished in the log. -/
theorem failure_stops_downstream (hg : Good c) (hr : Reachable c lf now s) {u v : Nat} {st : ExitStatus}
    (hf : (u, st) ∈ closedTasks s) (hst : st ≠ .code 0) (hd : c.g.Reach u v) :
    ¬ MadeReady c lf s v ∧ ¬ Obtained s v ∧ (∀ e, LogEntry.started e ∈ newEntries lf s → e.key ≠ keyOf c v) ∧
    (∀ e, LogEntry.finished e ∈ newEntries lf s → e.key ≠ keyOf c v) := by
  obtain ⟨hi, hh⟩ := hr.inv hg
  obtain ⟨_, _, hnew⟩ := hh.log.new_eq
  have hvn : v < c.g.n := by
    obtain ⟨k, hk⟩ := hd
    cases hk with
    | snoc _ h2 => exact (hg.wf _ h2).2
  have hnm : v ∉ owners s.flags := by
    intro hm
    have h0 := hr.made_reach hg hm hd
    exact hst (closed_unique (hr.closed_nodup hg) (List.mem_append_left _ h0) hf)
  have hnfin : ∀ w, w < c.g.n → w ∉ owners s.flags → ∀ e, LogEntry.finished e ∈ newEntries lf s → e.key ≠ keyOf c w := by
    intro w hw hnm e he hk
    have h1 : (e.key, e.status) ∈ finList (newEntries lf s) := List.mem_filterMap.2 ⟨_, he, rfl⟩
    rw [hnew.fin] at h1
    obtain ⟨x, hx, hxe⟩ := List.mem_map.1 h1
    simp only [Prod.mk.injEq] at hxe
    have hxm := (List.mem_filter.1 hx).1
    have hxo : x.1 ∈ owners s.flags := hr.obtained_made hg (hr.closed_obtained hg (st := x.2) hxm)
    have : x.1 = w := hg.keyInj (hi.core.deps.lt _ hxo) hw (hxe.1.trans hk)
    exact hnm (this ▸ hxo)
  refine ⟨fun h => hnm ((hr.made_iff hg).1 h), fun h => hnm (hr.obtained_made hg h), ?_, hnfin v hvn hnm⟩
  -- Started: all transitive dependencies of a started task have a Finished entry with exit code 0
  have hstart : ∀ k u v, c.g.Walk (k + 1) u v → (u, st) ∈ closedTasks s →
      ∀ e, LogEntry.started e ∈ newEntries lf s → e.key ≠ keyOf c v := by
    intro k u v hw huc e he hk
    cases hw with
    | @snoc _ _ w _ hw hdep =>
      obtain ⟨i, hie⟩ := List.getElem?_of_mem he
      obtain ⟨j, f, _, hj, hfk, hf0⟩ := hnew.start i e hie v w hdep hk.symm
      have h1 : (f.key, f.status) ∈ finList (newEntries lf s) := List.mem_filterMap.2 ⟨_, List.mem_of_getElem? hj, rfl⟩
      rw [hnew.fin] at h1
      obtain ⟨x, hx, hxe⟩ := List.mem_map.1 h1
      simp only [Prod.mk.injEq] at hxe
      have hxm := (List.mem_filter.1 hx).1
      have hxo : x.1 ∈ owners s.flags := hr.obtained_made hg (hr.closed_obtained hg (st := x.2) hxm)
      have hxw : x.1 = w := hg.keyInj (hi.core.deps.lt _ hxo) (hg.wf _ hdep).1 (hxe.1.trans hfk)
      subst hxw
      cases k with
      | zero =>
        cases hw
        have : st = x.2 := closed_unique (hr.closed_nodup hg) (a := x.2) hxm huc
        rw [this] at hst
        apply hst
        rw [← asI32_ne_zero, hxe.2, hf0]
      | succ k =>
        have h0 := hr.made_reach hg hxo ⟨k, hw⟩
        exact hst (closed_unique (hr.closed_nodup hg) (List.mem_append_left _ h0) huc)
  obtain ⟨k, hk⟩ := hd
  exact hstart k u v hk hf

/-- Non-trivial case: `a` fails with code 1, three tasks are downstream of it. -/
example : after diamond ([.begin [0] t0, .sendNext, .sendDone t0] ++ take 0 0 ++
    [.sendFinished ⟨0, .code 1, [], none⟩, .recvFinished [1, 2] t0]) (fun s => closedTasks s == [(0, .code 1)]) = true := by
  decide

/-- **C16.** The reported order has no duplicates, contains only selected tasks, and every dependency of a listed task
is listed before it, with exit code 0. The keys returned by `execute` have no duplicates either. -/
theorem order_topological (hg : Good c) (hr : Reachable c lf now s) :
    (s.processed.map (·.1)).Nodup ∧ (s.processed.map (fun x => keyOf c x.1)).Nodup ∧
    (∀ x ∈ s.processed, x.1 < c.g.n) ∧
    ∀ l x r, s.processed = l ++ x :: r → ∀ u, c.g.Dep u x.1 → (u, ExitStatus.code 0) ∈ l := by
  obtain ⟨hi, hh⟩ := hr.inv hg
  have hnd : (s.processed.map (·.1)).Nodup := by
    have := hr.closed_nodup hg
    rw [closedTasks, List.map_append, List.nodup_append] at this
    exact this.1
  have hlt : ∀ x ∈ s.processed, x.1 < c.g.n := fun x hx =>
    hi.core.deps.lt _ (hr.obtained_made hg (hr.closed_obtained hg (st := x.2) (List.mem_append_left _ hx)))
  refine ⟨hnd, ?_, hlt, fun l x r h u hu => mem_okIds_iff.1 (hh.past.topo l x r h u hu)⟩
  have : s.processed.map (fun x => keyOf c x.1) = (s.processed.map (·.1)).map (keyOf c) := by simp
  rw [this]
  rw [List.Nodup, List.pairwise_map]
  refine List.Pairwise.imp_of_mem ?_ hnd
  intro a b ha hb hne hk
  obtain ⟨x, hx, rfl⟩ := List.mem_map.1 ha
  obtain ⟨y, hy, rfl⟩ := List.mem_map.1 hb
  exact hne (hg.keyInj (hlt x hx) (hlt y hy) hk)

/-- Non-trivial case: the whole diamond was run. -/
example : after diamond (runB ++ [.sendFinished ⟨2, .code 0, [], none⟩, .recvStarted t0, .recvFinished [3] t0, .sendNext,
    .sendDone t0] ++ take 0 1 ++ reportOk 3 ++ [.recvStarted t0, .recvFinished [] t0])
    (fun s => s.processed.map (·.1) == [0, 1, 2, 3] && s.pc == .joining) = true := by decide

/-- **C17.** The counters are the numbers of finish reports handled, split by success; while no report is half
processed they are also the numbers of Finished entries in the log, split by exit code. -/
theorem failure_count (hg : Good c) (hr : Reachable c lf now s) :
    s.nFailed = (closedTasks s).countP (fun x => decide (x.2 ≠ .code 0)) ∧
    s.nSuccess = (closedTasks s).countP (fun x => decide (x.2 = .code 0)) ∧
    s.nFailed + s.nSuccess = (closedTasks s).length ∧
    ((∀ todo fin, s.pc ≠ .sending todo fin) →
      s.nFailed = (finList (newEntries lf s)).countP (fun x => decide (x.2 ≠ 0)) ∧
      s.nSuccess = (finList (newEntries lf s)).countP (fun x => decide (x.2 = 0))) := by
  obtain ⟨hi, hh⟩ := hr.inv hg
  have h1 : s.nFailed = (closedTasks s).countP (fun x => decide (x.2 ≠ .code 0)) := by
    rw [hi.core.cnt.failed]
    apply List.countP_congr
    intro x _
    simp [isSuccess_false_iff]
  have h2 : s.nSuccess = (closedTasks s).countP (fun x => decide (x.2 = .code 0)) := by
    rw [hi.core.cnt.success]
    apply List.countP_congr
    intro x _
    simp [isSuccess_iff]
  refine ⟨h1, h2, ?_, ?_⟩
  · rw [h1, h2, List.length_eq_countP_add_countP (fun x : Nat × ExitStatus => decide (x.2 ≠ .code 0))]
    congr 1
    apply List.countP_congr
    intro x _
    simp
  · intro hpc
    obtain ⟨_, _, hnew⟩ := hh.log.new_eq
    have hcur : curOf s.pc = none := by
      cases hp : s.pc with
      | sending t f => exact absurd hp (hpc t f)
      | _ => rfl
    rw [hcur] at hnew
    have hfin := hnew.fin
    rw [show List.filter (fun x => decide (none ≠ some x.1)) (s.processed ++ s.drained) = closedTasks s from
      List.filter_eq_self.2 (by simp)] at hfin
    rw [hfin, h1, h2, List.countP_map, List.countP_map]
    constructor <;> apply List.countP_congr <;> intro x _ <;> simp [asI32_ne_zero]

/-- **C17.** After `drain` every task whose start was reported is counted exactly once; a task that was obtained and is
not counted was never reported as started. -/
theorem failure_count_drained (hg : Good c) (hr : Reachable c lf now s) (hpc : s.pc = .done) :
    ((closedTasks s).map (·.1)).Nodup ∧ ∀ v ∈ s.startedSent, v ∈ (closedTasks s).map (·.1) := by
  obtain ⟨hi, hh⟩ := hr.inv hg
  refine ⟨hr.closed_nodup hg, fun v hv => ?_⟩
  have htr := hi.tr
  obtain ⟨h1, h2⟩ := hh.atDone hpc
  rw [hpc] at htr
  rcases List.mem_append.1 (htr.sentIn v hv) with hx | hx
  · have := htr.conv v hv (.inl hx)
    rw [h1, h2] at this
    simp at this
  · exact hx

/-- **C18.** Until a shutdown begins, for every affinity mask `a` the queue counters are exact: `num_ready` is the number
of tasks with that mask that were made ready and not yet returned by `recv`, `num_inflight` the number returned by
`recv` whose finish report is not yet processed. The second holds during and after a shutdown too. -/
theorem queue_counters (hg : Good c) (hr : Reachable c lf now s) {a : BitVec 64} {sn : Snap} (hq : s.qs a = some sn) :
    (s.readyOpen = true → sn.numReady = (List.range c.g.n).countP (fun v =>
      decide ((cmdOf c.g v).affinity = a ∧ MadeReady c lf s v ∧ v ∉ s.obtained.map (·.2)))) ∧
    sn.numInflight = (List.range c.g.n).countP (fun v =>
      decide ((cmdOf c.g v).affinity = a ∧ v ∈ s.obtained.map (·.2) ∧ v ∉ (closedTasks s).map (·.1))) := by
  obtain ⟨hi, hh⟩ := hr.inv hg
  have hobt := hh.past.obt
  have hplace := hi.core.place hg
  -- where each made task is
  have hall := (owners_perm s.flags).trans (List.Perm.append_right _ hi.core.acct.perm)
  have hnd := hall.nodup_iff.1 hi.core.deps.nodup
  have hpend : (untakenIds s.flags ++ itemIds s.claimed) ~
      (List.range c.g.n).filter (fun v => decide (MadeReady c lf s v ∧ v ∉ s.obtained.map (·.2))) := by
    rw [List.perm_ext_iff_of_nodup]
    · intro v
      simp only [List.mem_filter, List.mem_range, decide_eq_true_eq, hr.made_iff hg]
      rw [hall.mem_iff, hobt.mem_iff]
      have hlt : v ∈ owners s.flags → v < c.g.n := hi.core.deps.lt v
      rw [hall.mem_iff] at hlt
      have hdis : v ∈ untakenIds s.flags ++ itemIds s.claimed →
          v ∉ s.held ++ s.lost ++ finIds s.chan ++ s.processed.map (·.1) ++ s.drained.map (·.1) := by
        intro h1 h2
        have hc := List.nodup_iff_count.1 hnd v
        have c1 := List.count_pos_iff.2 h1
        have c2 := List.count_pos_iff.2 h2
        simp only [List.count_append] at hc c1 c2
        omega
      simp only [List.mem_append] at hlt hdis ⊢
      tauto
    · rw [List.nodup_iff_count]
      intro v
      have hc := List.nodup_iff_count.1 hnd v
      simp only [List.count_append] at hc ⊢
      omega
    · exact List.nodup_range.filter _
  have hbusy : (s.held ++ s.lost ++ finIds s.chan) ~
      (List.range c.g.n).filter (fun v => decide (v ∈ s.obtained.map (·.2) ∧ v ∉ (closedTasks s).map (·.1))) := by
    have hu := hplace.uniq
    rw [List.perm_ext_iff_of_nodup]
    · intro v
      simp only [List.mem_filter, List.mem_range, decide_eq_true_eq]
      rw [hobt.mem_iff]
      have hlt : v ∈ s.held ++ s.lost ++ finIds s.chan → v < c.g.n := fun h =>
        hi.core.deps.lt v (hr.busy_made hg (List.mem_append_left _ h))
      have hdis : v ∈ s.held ++ s.lost ++ finIds s.chan → v ∉ (s.processed ++ s.drained).map (·.1) := by
        intro h1 h2
        rw [List.nodup_append] at hu
        exact hu.2.2 v h1 v h2 rfl
      simp only [closedTasks, List.map_append, List.mem_append] at hlt hdis ⊢
      tauto
    · rw [List.nodup_append] at hu; exact hu.1
    · exact List.nodup_range.filter _
  constructor
  · intro ho
    rw [hi.core.qs.readyEq ho a sn hq, hpend.countP_eq, List.countP_filter]
    apply List.countP_congr
    intro v _
    simp [affIs]
  · rw [hi.core.qs.busyEq a sn hq, hbusy.countP_eq, List.countP_filter]
    apply List.countP_congr
    intro v _
    simp [affIs]

/-- **C18.** Every task made ready has a counter entry for its mask (`recv` and the server never miss it). -/
theorem queue_entry_exists (hg : Good c) (hr : Reachable c lf now s) {v : Nat} (hm : MadeReady c lf s v) :
    ∃ sn, s.qs (cmdOf c.g v).affinity = some sn := by
  obtain ⟨hi, _⟩ := hr.inv hg
  exact Option.isSome_iff_exists.1 (hi.core.qs.isSome v ((hr.made_iff hg).1 hm))

/-- Non-trivial case: after `a` finished and `c` was taken by runner type 1, `b` is ready and `c` inflight. -/
example : after diamond (runA ++ [.recvFinished [1, 2] t0, .sendNext, .sendNext, .sendDone t0] ++ take 1 0)
    (fun s => s.qs 1 == some ⟨1, 0⟩ && s.qs 3 == some ⟨0, 1⟩ && s.readyOpen) = true := by decide

/-- **C20.** Once serving has begun, the unready count plus the number of Ready entries written is the number of
selected tasks. -/
theorem unready_exact (hg : Good c) (hr : Reachable c lf now s) (hpc : s.pc ≠ .new) :
    s.nUnready + (readyKeys (newEntries lf s)).length = c.g.n ∧ (readyKeys (newEntries lf s)).Nodup := by
  obtain ⟨hi, hh⟩ := hr.inv hg
  obtain ⟨_, _, hnew⟩ := hh.log.new_eq
  have hb : begunOf s.pc = true := by
    cases hp : s.pc <;> simp_all [begunOf]
  have := hi.core.cnt.unready hb
  rw [hnew.ready]
  refine ⟨by simpa [owners] using this, ?_⟩
  rw [List.Nodup, List.pairwise_map]
  refine List.Pairwise.imp_of_mem ?_ hi.core.deps.nodup
  intro a b ha hb hne hk
  exact hne (hg.keyInj (hi.core.deps.lt _ ha) (hi.core.deps.lt _ hb) hk)

/-- **C21.** With well-behaved runners no action panics, in serving or in `drain`, whatever the log contained. The
commands must be displayable (a command line that is not UTF-8 makes `Cmd::display` panic). -/
theorem no_panic (hg : Good c) (hd : Displayable c) (hr : Reachable c lf now s) (a : Act) (m : String) :
    step c s a ≠ .panic m :=
  (hr.inv hg).1.no_panic hg hd a m

/-- The hypotheses of the theorems of this file hold for the diamond. -/
theorem diamond_good : Good diamond ∧ Displayable diamond := by
  refine ⟨⟨?_, by decide, by decide⟩, ?_⟩
  · intro e he; revert e; decide
  · intro cmd hc; revert cmd; decide

/-- **C25.** Work is bounded in every schedule: at most one Ready entry, one `recv`, one start report and one finish per
selected task. -/
theorem work_bounded (hg : Good c) (hr : Reachable c lf now s) :
    (readyKeys (newEntries lf s)).length ≤ c.g.n ∧ s.obtained.length ≤ c.g.n ∧ (closedTasks s).length ≤ c.g.n ∧
    s.nFailed + s.nSuccess ≤ c.g.n := by
  obtain ⟨hi, hh⟩ := hr.inv hg
  obtain ⟨_, _, hnew⟩ := hh.log.new_eq
  have hb : ∀ l : List Nat, l.Nodup → (∀ v ∈ l, v ∈ owners s.flags) → l.length ≤ c.g.n := by
    intro l h1 h2
    have := h1.length_le_of_subset (l₂ := List.range c.g.n) (fun v hv => List.mem_range.2 (hi.core.deps.lt v (h2 v hv)))
    simpa using this
  have h3 := hb ((closedTasks s).map (·.1)) (hr.closed_nodup hg) (fun v hv => by
    obtain ⟨x, hx, rfl⟩ := List.mem_map.1 hv
    exact hr.obtained_made hg (hr.closed_obtained hg (st := x.2) hx))
  simp only [List.length_map] at h3
  refine ⟨?_, ?_, h3, ?_⟩
  · rw [hnew.ready]
    simpa [owners] using hi.core.len
  · have := hb (s.obtained.map (·.2)) (hr.obtained_nodup hg) (fun v hv => by
      obtain ⟨x, hx, rfl⟩ := List.mem_map.1 hv
      exact hr.obtained_made hg ⟨x.1, hx⟩)
    simpa using this
  · rw [(failure_count hg hr).2.2.1]; exact h3

/-- **C30.** When `drain` has run, the log says of no task of this execute "started": whichever way serving ended. -/
theorem drained_log_closed (hg : Good c) (hr : Reachable c lf now s) (hl : Consistent lf) (hpc : s.pc = .done) {v : Nat}
    (hm : MadeReady c lf s v) (rc root : Nat) : statusOf (keyOf c v) s.lf.entries ≠ some (.started rc root) := by
  obtain ⟨hi, hh⟩ := hr.inv hg
  obtain ⟨hw, _, _⟩ := hh.log.new_eq
  rw [← (hl.writeAll hw).status]
  have htr := hi.tr
  obtain ⟨h1, h2⟩ := hh.atDone hpc
  rw [hpc, h2] at htr
  have hmade := (hr.made_iff hg).1 hm
  by_cases hc : v ∈ (s.processed ++ s.drained).map (·.1)
  · obtain ⟨x, hx, rfl⟩ := List.mem_map.1 hc
    have := htr.logFin x hx (by simp [curOf])
    unfold keyOf
    rw [this]; simp
  · have := htr.logReady v hmade (by simp) (.inl hc)
    unfold keyOf
    rw [this]; simp

/-- Non-trivial case: hard cancellation while `b` is running and the start report of `c` is still queued. -/
example : after diamond (runBC ++ [.sendStarted 1 "h" 1 "", .recvStarted t0, .sendStarted 2 "h" 2 "", .cancel .hard, .seeHard,
    .joinDone, .drain [2, 1] t0])
    (fun s => s.pc == .done && s.drained == [(2, .disconnected), (1, .disconnected)] && s.nFailed == 2) = true := by decide

/-- **C31 (what holds).** Every listed task has a Finished entry with its status in the log, once its report is
completely processed. -/
theorem listed_is_logged_partial (hg : Good c) (hr : Reachable c lf now s) (hpc : ∀ todo fin, s.pc ≠ .sending todo fin)
    {x : Nat × ExitStatus} (hx : x ∈ s.processed) : (keyOf c x.1, x.2.asI32) ∈ finList (newEntries lf s) := by
  obtain ⟨hi, hh⟩ := hr.inv hg
  obtain ⟨_, _, hnew⟩ := hh.log.new_eq
  rw [hnew.fin]
  refine List.mem_map.2 ⟨x, List.mem_filter.2 ⟨List.mem_append_left _ hx, ?_⟩, rfl⟩
  have hcur : curOf s.pc = none := by
    cases hp : s.pc with
    | sending t f => exact absurd hp (hpc t f)
    | _ => rfl
  simp [hcur]

/-- The report of `c` is in the channel when ctrl-c is seen. -/
def lateReport : List Act := runBC ++ [.sendStarted 2 "h" 2 "", .sendFinished ⟨2, .code 0, [], none⟩, .ctrlC, .joinDone, .drain [] t0]

/-- **C31 (violated).** A report that is only processed in `drain` is logged, with exit code 0, and counted, but its
task is not in the order `execute` returns. -/
theorem logged_is_listed_violated : ∃ s, Reachable diamond emptyLog 0 s ∧ s.pc = .done ∧
    (keyOf diamond 2, 0) ∈ finList (newEntries emptyLog s) ∧ 2 ∉ s.processed.map (·.1) ∧ s.nSuccess = 2 := by
  obtain ⟨s, h1, h2⟩ := runs_of_after (c := diamond) (as := lateReport) (p := fun s => decide (s.pc = .done ∧ (keyOf diamond 2, 0) ∈ finList (newEntries emptyLog s) ∧
      (2 : Nat) ∉ s.processed.map (fun x => x.1) ∧ s.nSuccess = 2)) (by decide)
  exact ⟨s, ⟨_, h1⟩, by simpa using h2⟩

/-- **C35.** In the log of an execute, every Started entry of a task is preceded, within the entries of this execute, by
a Finished entry with exit code 0 of each of its dependencies. -/
theorem started_after_dependencies (hg : Good c) (hr : Reachable c lf now s) {i : Nat} {e : StartedEntry} {u v : Nat}
    (hi : (newEntries lf s)[i]? = some (.started e)) (hk : e.key = keyOf c v) (hd : c.g.Dep u v) :
    ∃ (j : Nat) (f : FinishedEntry), j < i ∧ (newEntries lf s)[j]? = some (.finished f) ∧ f.key = keyOf c u ∧ f.status = 0 := by
  obtain ⟨_, hh⟩ := hr.inv hg
  obtain ⟨_, _, hnew⟩ := hh.log.new_eq
  exact hnew.start i e hi v u hd hk.symm

/-- **C35 (violated for Ready entries).** The Ready entry of `b` is in the log while the Finished entry of its only
dependency `a` is not yet written. -/
theorem ready_after_dependencies_violated : ∃ s, Reachable diamond emptyLog 0 s ∧ MadeReady diamond emptyLog s 1 ∧
    diamond.g.Dep 0 1 ∧ finList (newEntries emptyLog s) = [] := by
  obtain ⟨s, h1, h2⟩ := runs_of_after (c := diamond) (as := runA ++ [.recvFinished [1, 2] t0])
    (p := fun s => decide (MadeReady diamond emptyLog s 1 ∧ finList (newEntries emptyLog s) = [])) (by decide)
  simp only [decide_eq_true_eq] at h2
  exact ⟨s, ⟨_, h1⟩, h2.1, by decide, h2.2⟩

end Verif.Props.Tracker
