import Verif.Proof.Print2
import Verif.Props.Tracker

/-!
# What `execute` prints
-/

namespace Verif.Props.Print
open Verif Verif.Tracker Verif.Print

variable {c : Cfg} {lf : LogFile} {now : Int} {s : State} {as : List Act} {off : Nat} {out : Nat → Captured}

/-- **C138.** Everything an `execute` prints, exactly: the finish reports are shown one after the other, in the order in which they are handled
(`shown`). Those handled before a soft shutdown are shown in full; of later ones only successes are. The output shown with a report is the one that
came with it (none with a made-up report of `drain`); the failures called quick are the ones counted for the shutdown. -/
theorem lines_exact (hr : Runs c (init c lf now) as s) (off : Nat) (out : Nat → Captured) : ∃ rs : List Report,
    rs.map (fun r => (r.task, r.status)) = closedTasks s ∧
    printed c off out (init c lf now) as = rs.zipIdx.flatMap (fun p => shown c off p.2 p.1) ∧
    rs.Pairwise (fun a b => b.full = true → a.full = true) ∧
    (s.soft = false → ∀ r ∈ rs, r.full = true) ∧
    s.nFizzled = rs.countP (fun r => decide (r.status ≠ .code 0) && r.quick) ∧
    ∀ r ∈ rs, r.out = out r.task ∨ (r.status = .disconnected ∧ r.out = ⟨"", ""⟩ ∧ (r.task, r.status) ∈ s.drained) := by
  obtain ⟨rs, h⟩ := runs_seen hr off out
  exact ⟨rs, h.reports, h.lines, h.order, h.soft, h.fizz, h.outs⟩

theorem nums_shown (i : Nat) (r : Report) : (shown c off i r).filterMap Line.nums? =
    if r.status = .code 0 then [(off + i + 1, off + c.g.n)] else [] := by
  have h : ∀ l : List String, (l.map Line.output).filterMap Line.nums? = [] := by
    intro l; induction l <;> simp_all [Line.nums?]
  unfold shown
  rw [List.filterMap_append]
  have : (if r.full = true then List.map Line.output (List.filter (fun x => decide (x ≠ "")) [r.out.stdout, r.out.stderr]) else []).filterMap Line.nums? = [] := by
    split
    · exact h _
    · rfl
  rw [this, List.append_nil]
  split
  · rfl
  · split <;> rfl

theorem nums_from (k : Nat) : ∀ rs : List Report, ((rs.zipIdx k).flatMap (fun p => shown c off p.2 p.1)).filterMap Line.nums? =
    (rs.zipIdx k).filterMap (fun p => if p.1.status = .code 0 then some (off + p.2 + 1, off + c.g.n) else none) := by
  intro rs
  induction rs generalizing k with
  | nil => rfl
  | cons r rs ih =>
    simp only [List.zipIdx_cons, List.flatMap_cons, List.filterMap_append, nums_shown, ih, List.filterMap_cons]
    split <;> simp

theorem nums_lt (k : Nat) : ∀ rs : List Report,
    ((rs.zipIdx k).filterMap (fun p => if p.1.status = .code 0 then some (off + p.2 + 1, off + c.g.n) else none)).Pairwise (fun a b => a.1 < b.1) ∧
    ∀ x ∈ (rs.zipIdx k).filterMap (fun p => if p.1.status = .code 0 then some (off + p.2 + 1, off + c.g.n) else none),
      off + k < x.1 ∧ x.1 ≤ off + k + rs.length ∧ x.2 = off + c.g.n := by
  intro rs
  induction rs generalizing k with
  | nil => exact ⟨.nil, by simp⟩
  | cons r rs ih =>
    obtain ⟨i1, i2⟩ := ih (k + 1)
    simp only [List.zipIdx_cons, List.filterMap_cons, List.length_cons]
    split
    · rename_i h
      split at h
      · cases h
      · exact ⟨i1, fun x hx => by obtain ⟨a, b, c⟩ := i2 x hx; exact ⟨by omega, by omega, c⟩⟩
    · rename_i b h
      split at h
      · simp only [Option.some.injEq] at h
        subst h
        refine ⟨List.pairwise_cons.2 ⟨fun x hx => ?_, i1⟩, fun x hx => ?_⟩
        · have := (i2 x hx).1; simp only; omega
        · rcases List.mem_cons.1 hx with rfl | hx
          · exact ⟨by simp only; omega, by simp only; omega, rfl⟩
          · obtain ⟨a, b, c⟩ := i2 x hx; exact ⟨by omega, by omega, c⟩
      · cases h

/-- **C138.** The progress lines `[k/n]` of an execute all show the same total; their numbers increase, start above the number of tasks done
beforehand and never exceed the total. -/
theorem numbers_increase (hg : Good c) (hr : Runs c (init c lf now) as s) (off : Nat) (out : Nat → Captured) :
    ((printed c off out (init c lf now) as).filterMap Line.nums?).Pairwise (fun a b => a.1 < b.1) ∧
    ∀ x ∈ (printed c off out (init c lf now) as).filterMap Line.nums?, off < x.1 ∧ x.1 ≤ x.2 ∧ x.2 = off + c.g.n := by
  obtain ⟨rs, h1, h2, _⟩ := lines_exact hr off out
  have hlen : rs.length ≤ c.g.n := by
    have h3 : (closedTasks s).length ≤ c.g.n := (Tracker.work_bounded hg ⟨as, hr⟩).2.2.1
    rw [← h1, List.length_map] at h3
    exact h3
  rw [h2, nums_from]
  obtain ⟨k1, k2⟩ := nums_lt (c := c) (off := off) 0 rs
  exact ⟨k1, fun x hx => by obtain ⟨a, b, e⟩ := k2 x hx; exact ⟨by omega, by omega, e⟩⟩

/-- **C138.** When every report was a success the numbers are consecutive; when these are all tasks, the last line reads `[n/n]`. -/
theorem numbers_consecutive (hr : Runs c (init c lf now) as s) (off : Nat) (out : Nat → Captured) (hok : ∀ x ∈ closedTasks s, x.2 = .code 0) :
    (printed c off out (init c lf now) as).filterMap Line.nums? =
      (List.range (closedTasks s).length).map (fun i => (off + i + 1, off + c.g.n)) := by
  obtain ⟨rs, h1, h2, _⟩ := lines_exact hr off out
  have hall : ∀ r ∈ rs, r.status = .code 0 := by
    intro r hr
    exact hok (r.task, r.status) (by rw [← h1]; exact List.mem_map_of_mem hr)
  rw [h2, nums_from, ← h1, List.length_map]
  apply List.ext_getElem?
  have hall' : ∀ p ∈ rs.zipIdx, p.1.status = .code 0 := by
    intro p hp
    rw [(List.mem_zipIdx' hp).2]; exact hall _ (List.getElem_mem _)
  have : (rs.zipIdx).filterMap (fun p => if p.1.status = .code 0 then some (off + p.2 + 1, off + c.g.n) else none) =
      rs.zipIdx.map (fun p => (off + p.2 + 1, off + c.g.n)) := by
    rw [← List.filterMap_eq_map]
    apply List.filterMap_congr
    intro p hp
    simp [hall' p hp]
  rw [this]
  intro i
  rw [List.getElem?_map, List.getElem?_map, List.getElem?_zipIdx]
  by_cases hi : i < rs.length
  · rw [List.getElem?_eq_getElem hi, List.getElem?_range hi]; simp
  · rw [List.getElem?_eq_none (by omega), List.getElem?_eq_none (by simpa using hi)]; rfl

theorem failed_from (k : Nat) : ∀ rs : List Report, (∀ r ∈ rs, r.full = true) →
    (((rs.zipIdx k).flatMap (fun p => shown c off p.2 p.1)).filterMap Line.failed?).map (fun x => (x.2.1, x.2.2)) =
    (rs.filter (fun r => decide (r.status ≠ .code 0))).map (fun r => (keyOf c r.task, (cmdOf c.g r.task).runcount)) := by
  intro rs
  have h : ∀ l : List String, (l.map Line.output).filterMap Line.failed? = [] := by
    intro l; induction l <;> simp_all [Line.failed?]
  induction rs generalizing k with
  | nil => intro _; rfl
  | cons r rs ih =>
    intro hf
    have hr := hf r (by simp)
    have := ih (k + 1) (fun r hr => hf r (List.mem_cons_of_mem _ hr))
    rw [List.zipIdx_cons, List.flatMap_cons, List.filterMap_append, List.map_append, this]
    unfold shown
    simp only [hr, if_true, List.filterMap_append, h, List.append_nil]
    by_cases hs : r.status = .code 0
    · simp [hs, Line.failed?]
    · simp [hs, Line.failed?]

/-- **C138.** Without a soft shutdown every failure is named, once, in order, by its key and run count (from which its working directory follows),
and nothing else is. -/
theorem failures_named (hr : Runs c (init c lf now) as s) (off : Nat) (out : Nat → Captured) (hs : s.soft = false) :
    ((printed c off out (init c lf now) as).filterMap Line.failed?).map (fun x => (x.2.1, x.2.2)) =
    ((closedTasks s).filter (fun x => decide (x.2 ≠ .code 0))).map (fun x => (keyOf c x.1, (cmdOf c.g x.1).runcount)) := by
  obtain ⟨rs, h1, h2, _, h4, _⟩ := lines_exact hr off out
  rw [h2, failed_from 0 rs (h4 hs), ← h1, List.filter_map, List.map_map]
  rfl

/-- **C138.** The total in the progress lines is never more than the number of tasks of the session: those counted as done when `execute` was called
and those it is going to run are different tasks. In the first execute of a session nothing counts as done beforehand. -/
theorem total_bounded {w : World.World} (h : World.Reachable w) {r : World.Running} (hrun : w.running = some r) :
    r.completed0.length + r.cfg.g.n ≤ w.tasks.n ∧ (w.executes ≤ 1 → r.completed0 = []) := by
  cases hs : w.sess with
  | none => simp [World.World.running, hs] at hrun
  | some s =>
    have hrun : s.run = some r := by simpa [World.World.running, hs] using hrun
    have hI := h.inv.sess s hs
    have hR := hI.run r hrun
    have hc := (Print.Reachable.cinv h s hs).2 r hrun
    have ht : w.tasks = s.g.deps := by simp [World.World.tasks, hs]
    have he : w.executes = s.executes := by simp [World.World.executes, hs]
    refine ⟨?_, fun h => hR.first (by rw [← he]; exact h)⟩
    rw [ht]
    have hnd : (r.completed0 ++ r.cfg.g.nodes.map (·.key)).Nodup := by
      rw [List.nodup_append]
      refine ⟨hc.nodup, hR.good.keys, ?_⟩
      intro a ha b hb hab
      obtain ⟨x, hx, rfl⟩ := List.mem_map.1 hb
      exact (hR.fresh x hx).2 (hab ▸ ha)
    have hsub : (r.completed0 ++ r.cfg.g.nodes.map (·.key)) ⊆ s.g.deps.nodes.map (·.key) := by
      intro k hk
      rcases List.mem_append.1 hk with hk | hk
      · exact hc.sub k hk
      · obtain ⟨x, hx, rfl⟩ := List.mem_map.1 hk
        exact List.mem_map_of_mem (hR.src x hx)
    have := (List.subperm_of_subset hnd hsub).length_le
    simpa [DiGraph.n] using this

/-- The output that comes with task 1 and 2. -/
def outDemo (v : Nat) : Captured := if v = 1 then ⟨"hello\n", ""⟩ else if v = 2 then ⟨"", "oops\n"⟩ else ⟨"", ""⟩

/-- The diamond: `a` succeeds, then `b` fails quickly (which stops the execute), then `c` fails as well. -/
def twoFail : List Act := Tracker.runBC ++ [.sendStarted 1 "h" 1 "", .sendStarted 2 "h" 2 "", .recvStarted Tracker.t0, .recvStarted Tracker.t0,
  .sendFinished ⟨1, .code 1, [], none⟩, .recvFinished [3] Tracker.t0, .sendFinished ⟨2, .code 1, [], none⟩, .recvFinished [3] Tracker.t0]

/-- Non-trivial case of `lines_exact`: a success, a failure shown in full and one not shown at all. -/
example : after Tracker.diamond twoFail (fun s => s.soft && closedTasks s == [(0, .code 0), (1, .code 1), (2, .code 1)]) = true ∧
    printed Tracker.diamond 5 outDemo (init Tracker.diamond emptyLog 0) twoFail =
      [.progress 6 9 "a", .failure "FIZZLED" "b" 0 "b", .output "hello\n"] := by
  decide +kernel

/-- **C138 (violated).** That every failure is named does not hold after a soft shutdown: here two tasks have failed, the output of the second
names an error, and nothing of it is printed. -/
theorem failures_named_violated : ∃ as s, Runs Tracker.diamond (init Tracker.diamond emptyLog 0) as s ∧ s.nFailed = 2 ∧
    (2, .code 1) ∈ closedTasks s ∧ (outDemo 2).stderr ≠ "" ∧
    ∀ l ∈ printed Tracker.diamond 0 outDemo (init Tracker.diamond emptyLog 0) as,
      (∀ w k d, l ≠ .failure w "c" k d) ∧ l ≠ .output (outDemo 2).stderr := by
  obtain ⟨s, h1, h2⟩ := runs_of_after (c := Tracker.diamond) (as := twoFail)
    (p := fun s => decide (s.nFailed = 2) && decide ((2, .code 1) ∈ closedTasks s)) (by decide +kernel)
  simp only [Bool.and_eq_true, decide_eq_true_eq] at h2
  have e : printed Tracker.diamond 0 outDemo (init Tracker.diamond emptyLog 0) twoFail =
      [.progress 1 4 "a", .failure "FIZZLED" "b" 0 "b", .output "hello\n"] := by decide +kernel
  refine ⟨twoFail, s, h1, h2.1, h2.2, by decide, ?_⟩
  rw [e]
  intro l hl
  simp only [List.mem_cons, List.not_mem_nil, or_false] at hl
  rcases hl with rfl | rfl | rfl <;> simp [outDemo]

/-- Non-trivial case of `numbers_consecutive`: three of the tasks of the diamond have succeeded. -/
example : (printed Tracker.diamond 0 outDemo (init Tracker.diamond emptyLog 0)
    (Tracker.runB ++ [.sendFinished ⟨2, .code 0, [], none⟩, .recvStarted Tracker.t0, .recvFinished [3] Tracker.t0])).filterMap Line.nums? =
    [(1, 4), (2, 4), (3, 4)] := by decide +kernel

/-- Non-trivial case of `failures_named`: with two of three allowed quick failures there is no soft shutdown yet. -/
example : after { Tracker.diamond with fizzlesAllowed := 3 } twoFail (fun s => !s.soft) = true ∧
    printed { Tracker.diamond with fizzlesAllowed := 3 } 0 outDemo (init Tracker.diamond emptyLog 0) twoFail =
      [.progress 1 4 "a", .failure "FIZZLED" "b" 0 "b", .output "hello\n", .failure "FIZZLED" "c" 0 "c", .output "oops\n"] := by
  decide +kernel

/-- Non-trivial case of `drain`: the started tasks are called disconnected, and the report waiting in the channel is shown. -/
example : printed Tracker.diamond 0 outDemo (init Tracker.diamond emptyLog 0) (Tracker.runBC ++ [.sendStarted 1 "h" 1 "", .sendStarted 2 "h" 2 "",
    .recvStarted Tracker.t0, .recvStarted Tracker.t0, .ctrlC, .sendFinished ⟨1, .cancelled, [], none⟩, .joinDone, .drain [2] Tracker.t0]) =
      [.progress 1 4 "a", .failure "CANCELLED" "b" 0 "b", .output "hello\n", .failure "DISCONNECTED" "c" 0 "c"] := by
  decide +kernel

/-- Non-trivial case of `total_bounded`: in the second execute of a session one of the two tasks counts as done, the other is to be run. -/
example : World.after World.failedThenAgain (fun w => w.executes == 2 && w.tasks.n == 2 &&
    (w.running.map (fun r => (r.completed0, r.cfg.g.n))) == some (["a"], 1)) = true := by decide +kernel

end Verif.Props.Print
