import Verif.Proof.Roots

/-!
# C144: storage roots over histories

`add_task` takes the number of a storage root and does not look whether there is such a root; the number is written to the log with the Ready entry.
It is looked up when a task with a recorded success is added again.
-/

namespace Verif.Props.Roots
open Verif Verif.World Spec

variable {w w' : World} {as bs : List Act} {m : Nat}

/-- C144: exactly when Python's `add_task` panics, in every history: at 2^32 - 1 tasks, or if the key has succeeded and the number of the root
it was given then is not below the number of roots of this session. -/
theorem add_panics_iff (h : Reachable w) (hs : w.sess.isSome = true) (hrun : w.running = none) (cmd : Cmd) (deps : List Nat) :
    (∃ msg, step w (.add cmd deps) = .panic msg) ↔
      (2 ^ 32 - 1 ≤ w.tasks.n ∧ cmd.cmdline ≠ [] ∧ ∀ c ∈ w.tasks.nodes, c.key ≠ cmd.key) ∨
      ∃ i, SucceededUnder w.log cmd.key i ∧ rootCount w.log ≤ i := by
  have hI := h.inv
  obtain ⟨as, hr⟩ := h
  have hR : RootInv (fun _ => True) (fun _ => True) w := by
    refine rootInv_runs hr winv_init (rootInv_init _ _) ?_
    intro a _
    cases a <;> trivial
  cases hse : w.sess with
  | none => rw [hse] at hs; cases hs
  | some s =>
    have hrn : s.run = none := by simpa [World.running, hse] using hrun
    have hS := hI.sess s hse
    have hp := logfileRuncount_panics hS.cons hS.log.norerun (hR.head s hse) cmd.key
    have hlog : w.log = s.g.logfile.entries := by unfold World.log; simp [hse, hrn]
    have htm : tooMany s.g cmd = true ↔ (2 ^ 32 - 1 ≤ w.tasks.n ∧ cmd.cmdline ≠ [] ∧ ∀ c ∈ w.tasks.nodes, c.key ≠ cmd.key) := by
      have hg := TaskGraph.good_of_reachable hS.reach
      have hkey : (s.g.keyToId cmd.key).isNone = true ↔ ∀ c ∈ s.g.deps.nodes, c.key ≠ cmd.key := by
        cases hk : s.g.keyToId cmd.key with
        | none =>
          simp only [Option.isNone_none, true_iff]
          intro c hc he
          obtain ⟨i, hi⟩ := List.getElem?_of_mem hc
          have := (hg.index cmd.key i).2 (by simp [ExecGraph.taskKeys, hi, he])
          rw [hk] at this; cases this
        | some i =>
          simp only [Option.isNone_some, Bool.false_eq_true, false_iff]
          intro hall
          have := (hg.index cmd.key i).1 hk
          simp only [ExecGraph.taskKeys, List.getElem?_map, Option.map_eq_some_iff] at this
          obtain ⟨c, hc, hck⟩ := this
          exact hall c (List.mem_of_getElem? hc) hck
      have ht : w.tasks = s.g.deps := by unfold World.tasks; simp [hse]
      rw [ht, ← hkey]
      unfold tooMany
      simp only [Bool.and_eq_true, Bool.not_eq_true', decide_eq_true_eq, List.isEmpty_eq_false_iff, ne_eq, ge_iff_le]
      constructor
      · rintro ⟨⟨a, b⟩, c⟩; exact ⟨c, b, a⟩
      · rintro ⟨c, b, a⟩; exact ⟨⟨a, b⟩, c⟩
    rw [← htm, hlog, ← hp]
    unfold step
    simp only [hse, hrn, Option.isSome_none, Bool.false_eq_true, if_false]
    cases ht : tooMany s.g cmd with
    | true => simp
    | false =>
      simp only [Bool.false_eq_true, if_false, false_or]
      unfold pyAddTask
      cases hl : logfileRuncount s.g.logfile cmd.key with
      | ok x => simp [Res.bind]
      | err e => simp [Res.bind]
      | panic e => simp [Res.bind]

/-- C144: if every session has at least `m` storage roots and every task is given one of the first `m`, `add_task` never panics
(below 2^32 - 1 tasks), whatever else happens in the history. -/
theorem add_no_panic_partial (hr : Runs init as w) (hf : ∀ a ∈ as, a.fits m) (hn : w.tasks.n < 2 ^ 32 - 1) (cmd : Cmd) (deps : List Nat)
    (msg : String) : step w (.add cmd deps) ≠ .panic msg := by
  intro hp
  have hreach : Reachable w := ⟨as, hr⟩
  have hR : RootInv (fun i => i < m) (fun n => m ≤ n) w := by
    refine rootInv_runs hr winv_init (rootInv_init _ _) ?_
    intro a ha
    have := hf a ha
    cases a <;> first | trivial | exact this
  have hs : w.sess.isSome = true := by
    cases hse : w.sess with
    | none => rw [step, hse] at hp; cases hp
    | some s => rfl
  have hrun : w.running = none := by
    cases hse : w.sess with
    | none => rw [step, hse] at hp; cases hp
    | some s =>
      cases hrn : s.run with
      | none => simp [World.running, hse, hrn]
      | some r => rw [step, hse] at hp; simp [hrn] at hp
  rcases (add_panics_iff hreach hs hrun cmd deps).1 ⟨msg, hp⟩ with h | ⟨i, h1, h2⟩
  · omega
  · obtain ⟨pre, r, post, f, e, _, hi, _⟩ := h1
    have hr1 : r.storageRoot < m := hR.log (.ready r) (by rw [e]; simp)
    have h3 : m ≤ rootCount w.log := by
      cases hse : w.sess with
      | none => rw [hse] at hs; cases hs
      | some s =>
        have hrn : s.run = none := by simpa [World.running, hse] using hrun
        have hlog : w.log = s.g.logfile.entries := by unfold World.log; simp [hse, hrn]
        obtain ⟨h0, hh0⟩ := hR.some s hse
        obtain ⟨y, hy⟩ := Log.lastHeader_some hh0
        unfold rootCount
        rw [hlog, hy]
        exact hR.log (.header y) (by rw [hlog]; exact Log.lastHeader_mem hy)
    omega

/-- C144: once such a success is in the file, it cannot be got rid of: in all later sessions, whatever happened in between, adding the task
panics, unless the session has more than `i` roots. -/
theorem poisoned (h : Reachable w) (hs : w.sess = none) {k : String} {i : Nat} (hp : SucceededUnder w.log k i) (hr : Runs w bs w')
    (hs' : w'.sess.isSome = true) (hrun : w'.running = none) (hroots : rootCount w'.log ≤ i) (cmd : Cmd) (hk : cmd.key = k) (deps : List Nat) :
    ∃ msg, step w' (.add cmd deps) = .panic msg := by
  have h' : Reachable w' := by
    obtain ⟨as, ha⟩ := h
    refine ⟨as ++ bs, ?_⟩
    clear hp hs hs' hrun hroots
    generalize init = w0 at ha
    induction ha with
    | nil => exact hr
    | cons hs _ ih => exact .cons hs (ih hr)
  refine (add_panics_iff h' hs' hrun cmd deps).2 (.inr ⟨i, ?_, hroots⟩)
  rw [hk]
  have hpre : w.log <+: w'.log := by
    have := (runs_grow hr h.inv).2
    unfold World.durable at this
    simp only [hs] at this
    have hl : w.log = w.file := by unfold World.log; simp [hs]
    rw [hl]
    cases hse : w'.sess with
    | none => rw [hse] at hs'; cases hs'
    | some s => rw [hse] at this; exact this.trans (List.take_prefix _ _)
  obtain ⟨x, hx⟩ := hpre
  obtain ⟨pre, r, post, f, e, h1, h2, h3, h4, h5, h6⟩ := hp
  refine ⟨pre, r, post ++ x, f, by rw [← hx, e]; simp, h1, h2, ?_, by simp [h4], h5, h6⟩
  intro r' hr'
  rcases List.mem_append.1 hr' with hr2 | hr2
  · exact h3 r' hr2
  · obtain ⟨p1, p2, rfl⟩ := List.append_of_mem h4
    have := (h'.inv.log.norerun) (pre ++ .ready r :: p1) f (p2 ++ x) (by rw [← hx, e]; simp) h6 (.ready r')
      (List.mem_append_right _ hr2)
    intro hk'
    simp [about, hk', h5] at this

/-! ### concrete cases -/

/-- A task that is given storage root number `i`. -/
def jobAt (key : String) (i : Nat) : Cmd := { World.job key with storageRoot := i }

/-- A session with one root, in which `a` succeeds; it was given root number `i`. -/
def session (i : Nat) : List Act :=
  [.open "/d" ["/r"] "k" World.info, .add (jobAt "a" i) [], .exec none true 1 ⟨[0], [0], [0], []⟩ 0] ++ World.begun ++ World.started 0 ++
  World.exits 0 0 [] ++ World.returns

/-- Non-trivial case of `add_no_panic_partial`: `a` has succeeded under root 0 of 1, and is added again in the next session. -/
example : after (session 0 ++ [.stop 4, .open "/d" ["/r"] "k" World.info, .add (jobAt "a" 0) []])
      (fun w => decide (w.tasks.n = 1) && decide (w.log.length = 5)) = true ∧
    ∀ a ∈ session 0 ++ [.stop 4, .open "/d" ["/r"] "k" World.info, .add (jobAt "a" 0) []], a.fits 1 := by
  refine ⟨by decide +kernel, ?_⟩
  simp [session, World.begun, World.started, World.exits, World.returns, Act.fits, jobAt, World.job]

/-- C144, the violation: `add_task` accepts a root number that does not exist, and `execute` runs the task and reports success; but
the file is then such that the task can be added in no later session with so few roots. -/
theorem no_such_root_violated : ∃ as w, Runs init as w ∧ w.sess = none ∧ SucceededUnder w.log "a" 1 ∧
    (∀ a ∈ as, ∀ d roots k h, a = .open d roots k h → roots.length = 1) ∧
    ∀ bs w', Runs w bs w' → w'.sess.isSome = true → w'.running = none → rootCount w'.log ≤ 1 → ∀ cmd deps, cmd.key = "a" →
      ∃ msg, step w' (.add cmd deps) = .panic msg := by
  obtain ⟨w, h1, h2⟩ := runs_of_after (as := session 1 ++ [.stop 4]) (p := fun w => w.sess.isNone &&
    decide (w.log.drop 1 = [.ready ⟨⟨0, 0⟩, "a", 0, "a", 1⟩, .started ⟨⟨0, 0⟩, "a", "h", 1, ""⟩, .finished ⟨⟨1, 0⟩, "a", 0, []⟩])) (by decide +kernel)
  simp only [Bool.and_eq_true, Option.isNone_iff_eq_none, decide_eq_true_eq] at h2
  have hsu : SucceededUnder w.log "a" 1 := by
    have e := List.take_append_drop 1 w.log
    rw [h2.2] at e
    exact ⟨_, _, _, ⟨⟨1, 0⟩, "a", 0, []⟩, e.symm, rfl, rfl, by simp, by simp, rfl, rfl⟩
  refine ⟨_, w, h1, h2.1, hsu, ?_, ?_⟩
  · simp [session, World.begun, World.started, World.exits, World.returns]
    rintro _ _ _ _ rfl rfl rfl rfl
    rfl
  · intro bs w' hr hs' hrun hroots cmd deps hk
    exact poisoned ⟨_, h1⟩ h2.1 hsu hr hs' hrun hroots cmd hk deps

/-- The second session of the violation can be reached, and `add_task` does panic there. -/
example : after (session 1 ++ [.stop 4, .open "/d" ["/r"] "k" World.info])
    (fun w => match step w (.add (jobAt "a" 0) []) with | .panic m => m == "Unable to find storage root" | _ => false) = true := by decide +kernel

/-- C144, the violation: even in the session itself adding the task a second time, which ought to return its id, panics. -/
theorem add_again_violated : ∃ w, Reachable w ∧ w.running = none ∧ (w.tasks.nodes.map (·.key)) = ["a"] ∧ w.result = some (0, ["a"]) ∧
    ∃ msg, step w (.add (jobAt "a" 1) []) = .panic msg := by
  obtain ⟨w, h1, h2⟩ := runs_of_after (as := session 1) (p := fun w => w.running.isNone && decide (w.tasks.nodes.map (·.key) = ["a"]) &&
    decide (w.result = some (0, ["a"])) && match step w (.add (jobAt "a" 1) []) with | .panic _ => true | _ => false) (by decide +kernel)
  simp only [Bool.and_eq_true, Option.isNone_iff_eq_none, decide_eq_true_eq] at h2
  obtain ⟨⟨⟨a1, a2⟩, a3⟩, a4⟩ := h2
  refine ⟨w, ⟨_, h1⟩, a1, a2, a3, ?_⟩
  split at a4
  · rename_i m hm; exact ⟨m, hm⟩
  · cases a4

end Verif.Props.Roots
