import Verif.Proof.Numbers

/-!
# The numbers shown in the course of a session
-/

namespace Verif.Props.Numbers
open Verif Verif.World Spec
open Verif.Props.World (open2 exec2 begun started exits sent returns killedThenResumed job)

variable {w w' : World} {as : List Act} {out : Nat → Nat → Print.Captured}

/-- **C182.** In the course of a session, over any number of `execute`s and additions of tasks, the numbers in front of the finished tasks rise: none is shown twice, and all are
above the number of tasks counted as done at the beginning. Provided that no `execute` returned with reports left to `drain`; without this it is false (`repeated_violated`). -/
theorem numbers_rise_partial (h : Reachable w) (hn : w.running = none) (hr : Runs w as w') (h1 : OneSession as) (h2 : NothingDrained w as) :
    (shownNumbers (printed out w as)).Pairwise (· < ·) ∧ ∀ k ∈ shownNumbers (printed out w as), w.doneCount < k := by
  cases hs : w.sess with
  | none =>
    have h0 : Rising out [] w := by simp [Rising, hs]
    have := (Rising.runs hr h0 h.inv (Print.Reachable.cinv h) h1 h2).pairwise
    rw [List.nil_append] at this
    refine ⟨this, ?_⟩
    have hd : w.doneCount = 0 := by simp [World.doneCount, hs]
    rw [hd]
    cases hr with
    | nil => simp [printed, shownNumbers]
    | @cons _ w1 _ a as hst hr =>
      have hopen : ∃ dir roots newKey info, a = .open dir roots newKey info := by
        cases a with
        | «open» dir roots newKey info => exact ⟨_, _, _, _, rfl⟩
        | _ => simp [step, hs] at hst
      obtain ⟨dir, roots, newKey, info, rfl⟩ := hopen
      obtain ⟨_, s1, k1, k2, k3⟩ := open_step hst
      have h0 : Rising out [0] w1 := by simp [Rising, k1, k2]
      have := (Rising.runs hr h0 (winv_step h.inv hst) ((Print.Reachable.cinv h).step h.inv hst) (fun keep hm => h1 keep (List.mem_cons_of_mem _ hm))
        (fun pre post w2 r he hr hrun => h2 (_ :: pre) post w2 r (by rw [he]; rfl) (.cons hst hr) hrun)).pairwise
      intro k hk
      simp only [printed, hst, lines, List.nil_append] at hk
      exact (List.pairwise_cons.1 this).1 k hk
  | some s =>
    have hrun : s.run = none := by simpa [World.running, hs] using hn
    have h0 : Rising out [s.g.completed.length] w := by simp [Rising, hs, hrun]
    have := (Rising.runs hr h0 h.inv (Print.Reachable.cinv h) h1 h2).pairwise
    have hd : w.doneCount = s.g.completed.length := by simp [World.doneCount, hs]
    rw [hd]
    exact ⟨(List.pairwise_cons.1 this).2, (List.pairwise_cons.1 this).1⟩

/-- **C182.** If moreover everything succeeds and nothing is reused from earlier sessions, the numbers just go on from one `execute` to the next, and between two `execute`s the last one
shown is the number of tasks done in the session. -/
theorem numbers_continue (h : Reachable w) (hn : w.running = none) (hr : Runs w as w') (hn' : w'.running = none) (h1 : OneSession as) (h2 : NothingDrained w as)
    (h3 : AllSucceed w as) (h4 : NothingReused as) :
    shownNumbers (printed out w as) = List.range' (w.doneCount + 1) (w'.doneCount - w.doneCount) ∧ w.doneCount ≤ w'.doneCount := by
  have h0 : Counting out w.doneCount [] w := by
    cases hs : w.sess with
    | none => simp [Counting, hs, World.doneCount]
    | some s =>
      have hrun : s.run = none := by simpa [World.running, hs] using hn
      simp [Counting, hs, hrun, World.doneCount]
  have := Counting.runs hr h0 h.inv (Print.Reachable.cinv h) h1 h2 h3 h4
  rw [List.nil_append] at this
  cases hs : w'.sess with
  | none =>
    simp only [Counting, hs] at this
    have hd : w'.doneCount = 0 := by simp [World.doneCount, hs]
    rw [this.1, this.2, hd]
    exact ⟨rfl, Nat.le_refl _⟩
  | some s =>
    have hrun : s.run = none := by simpa [World.running, hs] using hn'
    simp only [Counting, hs, hrun] at this
    have hd : w'.doneCount = s.g.completed.length := by simp [World.doneCount, hs]
    rw [hd, this.2]
    exact ⟨by rw [this.1]; simp, by omega⟩

/-- **C182.** The total an `execute` of everything shows: the number of tasks of the session, less those for which this very call found a success in the log (it writes a Backref entry
for each of them). -/
theorem total_exact (h : Reachable w) {fizzles : Nat} {ch : Choices} {now : Int} {w1 : World} (he : step w (.exec none true fizzles ch now) = .ok w1)
    {r : Running} (hrun : w1.running = some r) : ∃ ks : List String, w1.log = w.log ++ ks.map (fun k => LogEntry.backref ⟨k⟩) ∧ ks.Nodup ∧
      (∀ k ∈ ks, SuccessLogged w.log k) ∧ r.completed0.length + r.cfg.g.n + ks.length = w1.tasks.n := by
  obtain ⟨s, s1, lf', c', e1, e2, e3, e4, e5, e6, e7, e8, e9, e10, e11⟩ := exec_cases he
  have hi := h.inv
  have hI := hi.sess s e1
  have hleg : legal s.g none true ch = true := by
    unfold step at he
    simp only [e1, e2, Option.isSome_none, Bool.false_or] at he
    cases hl : legal s.g none true ch with
    | true => rfl
    | false => simp [hl] at he
  have hL := (Bridge.legal_iff hI.reach).1 hleg
  obtain ⟨sub, g', ks, k1, k2, k3, k4, k5⟩ := Props.Selection.backrefs_exact hI.reach none true ch hL
  obtain ⟨sub', g'', m1, ids, m2, m3, _⟩ := Props.Selection.selection_exact hI.reach none true ch hL
  rw [k1] at m1
  cases m1
  have hsel := Bridge.selected hI.reach hL k1
  unfold step at he
  simp only [e1, e2, Option.isSome_none, Bool.false_or, hleg, Bool.not_true, Bool.false_eq_true, if_false] at he
  unfold startExec at he
  simp only [k1] at he
  have hkeys : g'.deps.nodes.map (·.key) = s.g.deps.nodes.map (·.key) := by
    have := k1
    unfold getSubgraph at this
    obtain ⟨x, _, hx⟩ := Res.bind_ok.1 this
    simp only [Res.ok.injEq, Prod.mk.injEq] at hx
    rw [← hx.2]
    exact Props.Selection.prioritised_keys s.g ch
  split at he
  · cases he
    simp [World.running, e2] at hrun
  · cases he
    simp only [World.running, Option.bind_some, Option.some.injEq] at hrun
    subst hrun
    have hl0 : w.log = s.g.logfile.entries := e5
    refine ⟨ks, ?_, k3, ?_, ?_⟩
    · rw [hl0, ← k2]; rfl
    · intro k hk
      obtain ⟨_, _, _, _, _, _, hsu⟩ := (k4 k).1 hk
      rw [hl0]
      rcases hsu with hsu | ⟨hsu, _⟩
      · exact (hasSuccess_iff hI.cons hI.log.norerun k).1 hsu
      · cases hsu
    · have hc := (Print.Reachable.cinv h s e1).1
      have hdn : (g'.deps.nodes.map (·.key)).Nodup := by
        rw [hkeys]; exact (TaskGraph.good_of_reachable hI.reach).nodup
      have hnd : (s.g.completed ++ sub.nodes.map (·.key) ++ ks).Nodup := by
        rw [List.nodup_append, List.nodup_append]
        refine ⟨⟨hc.nodup, hsel.keys, ?_⟩, k3, ?_⟩
        · intro a ha b hb hab
          obtain ⟨x, hx, rfl⟩ := List.mem_map.1 hb
          exact (hsel.node x hx).2.1 (hab ▸ ha)
        · intro a ha b hb hab
          subst hab
          obtain ⟨_, _, _, _, _, hno, hsu⟩ := (k4 a).1 hb
          rcases List.mem_append.1 ha with ha | ha
          · exact hno ha
          · obtain ⟨x, hx, rfl⟩ := List.mem_map.1 ha
            rcases hsu with hsu | ⟨hsu, _⟩
            · rw [(hsel.node x hx).1] at hsu; cases hsu
            · cases hsu
      have hp : (s.g.completed ++ sub.nodes.map (·.key) ++ ks).Perm (g'.deps.nodes.map (·.key)) := by
        refine (List.perm_ext_iff_of_nodup hnd hdn).2 (fun k => ?_)
        constructor
        · intro hk
          rcases List.mem_append.1 hk with hk | hk
          · rcases List.mem_append.1 hk with hk | hk
            · rw [hkeys]; exact hc.sub k hk
            · obtain ⟨x, hx, rfl⟩ := List.mem_map.1 hk
              exact List.mem_map_of_mem (hsel.src x hx)
          · obtain ⟨i, x, hx, rfl, _⟩ := (k4 k).1 hk
            exact List.mem_map_of_mem (List.mem_of_getElem? hx)
        · intro hk
          obtain ⟨x, hx, rfl⟩ := List.mem_map.1 hk
          obtain ⟨i, hxi⟩ := List.getElem?_of_mem hx
          have hlt : i < g'.deps.n := by
            obtain ⟨hh, _⟩ := List.getElem?_eq_some_iff.1 hxi
            exact hh
          have hcon : Considered g'.deps none i := ⟨hlt, fun t ht => by cases ht⟩
          by_cases hdone : x.key ∈ s.g.completed
          · simp [hdone]
          · by_cases hsu : s.g.logfile.mem.hasSuccess x.key = true
            · exact List.mem_append_right _ ((k4 _).2 ⟨i, x, hxi, rfl, hcon, hdone, .inl hsu⟩)
            · refine List.mem_append_left _ (List.mem_append_right _ ?_)
              have : i ∈ ids := (m3 i).2 ⟨⟨hcon, fun ⟨y, hy, hyk⟩ => by rw [hxi] at hy; cases hy; exact hdone hyk,
                fun ⟨y, hy, hyk⟩ => by rw [hxi] at hy; cases hy; exact hsu hyk⟩, fun hf => by cases hf⟩
              obtain ⟨a, ha⟩ := List.getElem?_of_mem this
              have := (m2.node a i ha).2
              rw [hxi] at this
              exact List.mem_map_of_mem (List.mem_of_getElem? this)
      have := hp.length_eq
      simp only [List.length_append, List.length_map] at this
      simp only [World.tasks, DiGraph.n]
      exact this

/-- No output. -/
def quiet : Nat → Nat → Print.Captured := fun _ _ => ⟨"", ""⟩

/-- Does `p` hold of every `execute` that returns? For concrete cases. -/
def returnsWith (p : Running → Bool) : World → List Act → Bool
  | _, [] => true
  | w, a :: as => (match a, w.running with | .finish, some r => p r | _, _ => true) && (match step w a with | .ok w1 => returnsWith p w1 as | _ => true)

theorem of_returnsWith {p : Running → Bool} : ∀ {as : List Act} {w : World}, returnsWith p w as = true →
    ∀ pre post w1 r, as = pre ++ .finish :: post → Runs w pre w1 → w1.running = some r → p r = true := by
  intro as
  induction as with
  | nil => intro w _ pre post w1 r he; simp at he
  | cons a as ih =>
    intro w h pre post w1 r he hr hrun
    simp only [returnsWith, Bool.and_eq_true] at h
    cases hr with
    | nil =>
      simp only [List.nil_append, List.cons.injEq] at he
      rw [he.1, hrun] at h
      exact h.1
    | @cons _ w2 _ b bs hs hr =>
      simp only [List.cons_append, List.cons.injEq] at he
      obtain ⟨rfl, he⟩ := he
      rw [hs] at h
      exact ih h.2 bs post w1 r he hr hrun

/-- One session: `a` and `b` are run, `c` is added, `execute` is called again and runs it. -/
def twoExecutes : List Act :=
  open2 ++ [exec2] ++ begun ++ started 0 ++ exits 0 0 [1] ++ sent ++ started 1 ++ exits 1 0 [] ++ returns ++
  [.add (job "c") [], .exec none true 1 ⟨[0, 1, 2], [2, 1, 0], [0], []⟩ 0] ++ begun ++ started 0 ++ exits 0 0 [] ++ returns

/-- Non-trivial case of `numbers_rise_partial` and `numbers_continue`: `[1/2] a`, `[2/2] b`, `[3/3] c`. -/
example : Reachable World.init ∧ World.init.running = none ∧ (∃ w', Runs World.init twoExecutes w' ∧ w'.running = none ∧ w'.doneCount = 3) ∧ OneSession twoExecutes ∧
    NothingDrained World.init twoExecutes ∧ AllSucceed World.init twoExecutes ∧ NothingReused twoExecutes ∧
    printed quiet World.init twoExecutes = [.progress 1 2 "a", .progress 2 2 "b", .progress 3 3 "c"] := by
  refine ⟨⟨[], .nil _⟩, rfl, ?_, ?_, ?_, ?_, ?_, by decide +kernel⟩
  · obtain ⟨w', h1, h2⟩ := runs_of_after (as := twoExecutes) (p := fun w => w.running.isNone && w.doneCount == 3) (by decide +kernel)
    simp only [Bool.and_eq_true, Option.isNone_iff_eq_none, beq_iff_eq] at h2
    exact ⟨w', h1, h2.1, h2.2⟩
  · intro keep hm
    simp [twoExecutes, open2, exec2, begun, started, exits, sent, returns] at hm
  · intro pre post w1 r he hr hrun
    have := of_returnsWith (p := fun r => r.st.drained.isEmpty) (by decide +kernel) pre post w1 r he hr hrun
    simpa using this
  · intro pre post w1 r he hr hrun
    have := of_returnsWith (p := fun r => (Tracker.closedTasks r.st).all (fun x => x.2 == .code 0)) (by decide +kernel) pre post w1 r he hr hrun
    intro x hx
    simpa using List.all_eq_true.1 this x hx
  · intro target rerun fizzles ch now hm
    simp [twoExecutes, open2, exec2, begun, started, exits, sent, returns] at hm
    rcases hm with ⟨_, _, _, rfl, _⟩ | ⟨_, _, _, rfl, _⟩ <;> rfl

/-- Non-trivial case of `total_exact`: session 2 reuses `a`; nothing was done in it before, there is one task to run, and there are two. -/
example : after killedThenResumed (fun w => (w.running.map (fun r => (r.completed0.length, r.cfg.g.n))) == some (0, 1) && w.tasks.n == 2 &&
    decide (LogEntry.backref ⟨"a"⟩ ∈ w.log)) = true := by decide +kernel

/-- `a` has ended with 0 when Ctrl-C is pressed; `drain` handles the report. Then `execute` is called again and `b` is run. -/
def interrupted : List Act :=
  open2 ++ [exec2] ++ begun ++ started 0 ++ [.trk (.sendFinished ⟨0, .code 0, [], none⟩), .trk .ctrlC, .trk .joinDone, .trk (.drain [] ⟨2, 0⟩), .finish,
    .exec none true 1 ⟨[0, 1], [1, 0], [0], ["a"]⟩ 0] ++ begun ++ started 0 ++ exits 0 0 []

/-- **C182 (violated).** That no number is shown twice in a session does not hold if a report was left to `drain`: `[1/2] a`, and after Ctrl-C and another `execute` `[1/1] b`. -/
theorem repeated_violated : ∃ w', Runs World.init interrupted w' ∧ OneSession interrupted ∧
    printed quiet World.init interrupted = [.progress 1 2 "a", .progress 1 1 "b"] := by
  obtain ⟨w', h1, _⟩ := runs_of_after (as := interrupted) (p := fun _ => true) (by decide +kernel)
  refine ⟨w', h1, ?_, by decide +kernel⟩
  intro keep hm
  simp [interrupted, open2, exec2, begun, started, exits] at hm

/-- Session 2: `a` is reused, `b` is run; then `c` is added and `execute` is called again. -/
def resumed : List Act :=
  killedThenResumed ++ exits 0 0 [] ++ returns ++ [.add (job "c") [], .exec none true 1 ⟨[0, 1, 2], [2, 1, 0], [0], []⟩ 0] ++ begun ++ started 0 ++ exits 0 0 []

/-- **C182 (violated).** That the total is the number of tasks, and that successes are counted one by one: in the first `execute` of a session that reuses results it is not and they
are not: with two tasks `[1/1] b`, then with three `[3/3] c`; there is no `[2/...]`. (The first line is from the session before.) -/
theorem total_violated : ∃ w', Runs World.init resumed w' ∧ w'.tasks.n = 3 ∧
    printed quiet World.init resumed = [.progress 1 2 "a", .progress 1 1 "b", .progress 3 3 "c"] := by
  obtain ⟨w', h1, h2⟩ := runs_of_after (as := resumed) (p := fun w => w.tasks.n == 3) (by decide +kernel)
  exact ⟨w', h1, by simpa using h2, by decide +kernel⟩

end Verif.Props.Numbers
