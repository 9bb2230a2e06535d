import Verif.Proof.Hooks
import Verif.Props.Abort

/-!
# Postambles have the last word
-/

namespace Verif.Props.Hooks
open Verif Verif.Hooks
open Verif.World (SuccessLogged attempts)

variable {objs : Nat → PyObj} {s s' : State}

/-- **C165.** In every history, over any number of sessions and `execute` calls that were broken off, the finishes recorded in the log are, in order, among those to
which the postamble has not objected; each was asked about separately. -/
theorem recorded_were_granted (h : Reachable objs s) : List.Sublist (recorded s.w.log) (granted s.asked) := h.inv.log

/-- **C165.** A task is not recorded as successful if each time its postamble was told of a success it objected. -/
theorem no_success_against_veto (h : Reachable objs s) {k : String}
    (hq : ∀ q ∈ s.asked, q.key = k → q.success = true → q.answer.ok = false) : ¬ SuccessLogged s.w.log k := by
  rintro ⟨f, h1, h2, h3⟩
  have hm : (f.key, true) ∈ recorded s.w.log := List.mem_filterMap.2 ⟨_, h1, by simp [h3]⟩
  have hg := (recorded_were_granted h).subset hm
  unfold granted at hg
  obtain ⟨q, h4, h5⟩ := List.mem_map.1 hg
  obtain ⟨h6, h7⟩ := List.mem_filter.1 h4
  simp only [Prod.mk.injEq] at h5
  have := hq q h6 (h5.1.trans h2) h5.2
  simp [this] at h7

/-- **C165.** What is passed as postamble must be a capsule named `Execgraph::Capsule-v3`; no finish of a task with another object is ever recorded. -/
theorem only_capsules {as : List Act} (hr : Runs objs init as s) {k : String}
    (hp : ∀ cmd deps, Act.world (.add cmd deps) ∈ as → cmd.key = k →
      ∃ o, cmd.postamble = some o ∧ ¬ ((objs o).capsule = true ∧ (objs o).name = "Execgraph::Capsule-v3")) :
    ∀ f, LogEntry.finished f ∈ s.w.log → f.key ≠ k := by
  intro f h1 h2
  have hk := kinv_runs hr hinv_init (k := k) (G := fun p => ∃ o, p = some o ∧ (objs o).valid = false) kinv_init (by
    intro cmd deps hm hc
    obtain ⟨o, k1, k2⟩ := hp cmd deps hm hc
    refine ⟨o, k1, ?_⟩
    simp only [PyObj.valid, Bool.and_eq_false_imp, beq_eq_false_iff_ne]
    exact fun e e' => k2 ⟨e, e'⟩)
  have hm : (f.key, decide (f.status = 0)) ∈ recorded s.w.log := List.mem_filterMap.2 ⟨_, h1, rfl⟩
  have hg := (recorded_were_granted ⟨as, hr⟩).subset hm
  unfold granted at hg
  obtain ⟨q, h4, h5⟩ := List.mem_map.1 hg
  obtain ⟨h6, h7⟩ := List.mem_filter.1 h4
  simp only [Prod.mk.injEq] at h5
  obtain ⟨p, ⟨o, rfl, ho⟩, hf⟩ := hk.asked q h6 (h5.1.trans h2)
  rcases hf with ⟨e, _⟩ | ⟨o', e, hf⟩
  · cases e
  · cases e
    rw [ho] at hf
    simp only [Bool.false_eq_true, if_false] at hf
    rw [hf] at h7
    cases h7

/-- **C165.** A postamble is really consulted: if a task with key `k` always comes with a capsule of the right name, then each recorded finish of it was reported to the
capsule's function, which returned 0. -/
theorem consulted {as : List Act} (hr : Runs objs init as s) {k : String}
    (hp : ∀ cmd deps, Act.world (.add cmd deps) ∈ as → cmd.key = k →
      ∃ o, cmd.postamble = some o ∧ (objs o).capsule = true ∧ (objs o).name = "Execgraph::Capsule-v3") :
    List.Sublist ((recorded s.w.log).filter (fun x => x.1 == k))
      ((s.asked.filter (fun q => q.key == k && q.answer == .code 0)).map (fun q => (q.key, q.success))) := by
  have hk := kinv_runs hr hinv_init (k := k) (G := fun p => ∃ o, p = some o ∧ (objs o).valid = true) kinv_init (by
    intro cmd deps hm hc
    obtain ⟨o, k1, k2, k3⟩ := hp cmd deps hm hc
    exact ⟨o, k1, by simp [PyObj.valid, k2, k3]⟩)
  have h := (recorded_were_granted ⟨as, hr⟩).filter (fun x => x.1 == k)
  have e : (granted s.asked).filter (fun x => x.1 == k) =
      ((s.asked.filter (fun q => q.key == k && q.answer == .code 0)).map (fun q => (q.key, q.success))) := by
    unfold granted
    rw [List.filter_map, List.filter_filter]
    congr 1
    apply List.filter_congr
    intro q hq
    by_cases hqk : q.key = k
    · obtain ⟨p, ⟨o, rfl, ho⟩, hf⟩ := hk.asked q hq hqk
      rcases hf with ⟨e, _⟩ | ⟨o', e, hf⟩
      · cases e
      · cases e
        rw [ho] at hf
        simp only [if_true] at hf
        obtain ⟨i, hi⟩ := hf
        simp [hqk, hi, Answer.ok]
    · have hb : (q.key == k) = false := by simpa using hqk
      simp [hb]
  rw [e] at h
  exact h

/-- **C165.** What a postamble is told: the task is one of the running `execute`, the run count is the one last announced for it in the log, the number is that of
the tasks of this `execute`. -/
theorem told_rightly (h : Reachable objs s) {a : Act} (hs : step objs s a = .ok s') {q : Ask} (hq : q ∈ s'.asked.drop s.asked.length) :
    ∃ r, s.w.running = some r ∧ q.ntasks = r.cfg.g.n ∧ announced q.key s.w.log = some q.runcount := by
  cases a with
  | world a =>
    have : s'.asked = s.asked := by
      cases a with
      | trk b => simp [step] at hs
      | _ =>
        simp only [step] at hs
        obtain ⟨w, hw, hs⟩ := Res.bind_ok.1 hs
        simp only [Res.ok.injEq] at hs
        subst hs
        rfl
    rw [this] at hq
    simp at hq
  | trk a is k =>
    obtain ⟨se, r, st, hse, hrun, hst, hd, hasked, _⟩ := trk_cases hs
    have hR := (h.inv.inv.sess se hse).run r hrun
    rw [hasked, List.drop_left] at hq
    obtain ⟨x, hx, i, rfl⟩ := mem_asks hq
    refine ⟨r, by simp [World.World.running, hse, hrun], rfl, ?_⟩
    have hlog : s.w.log = r.st.lf.entries := by simp [World.World.log, hse, hrun]
    rw [hlog]
    exact run_announced hR.good hR.reach (called_made hR.good hR.reach hd hst hx)

/-- **C165.** A postamble that objects ends the `execute` at once: nothing runs any more, the session remains, no further postamble has been called. Otherwise the action goes through as without
postambles. -/
theorem objection_ends_execute {a : Act} (hs : step objs s a = .ok s') :
    ((∃ q ∈ s'.asked.drop s.asked.length, q.answer.ok = false) → s'.w.running = none ∧ s'.w.sess.isSome ∧
      (∀ q ∈ (s'.asked.drop s.asked.length).dropLast, q.answer.ok = true)) ∧
    ((∀ q ∈ s'.asked.drop s.asked.length, q.answer.ok = true) → ∃ b, World.step s.w b = .ok s'.w) := by
  cases a with
  | world a =>
    have : s'.asked = s.asked ∧ World.step s.w a = .ok s'.w := by
      cases a with
      | trk b => simp [step] at hs
      | _ =>
        simp only [step] at hs
        obtain ⟨w, hw, hs⟩ := Res.bind_ok.1 hs
        simp only [Res.ok.injEq] at hs
        subst hs
        exact ⟨rfl, hw⟩
    refine ⟨?_, fun _ => ⟨a, this.2⟩⟩
    rintro ⟨q, hq, _⟩
    rw [this.1] at hq
    simp at hq
  | trk a is k =>
    obtain ⟨se, r, st, hse, hrun, hst, hd, hasked, hc⟩ := trk_cases hs
    rw [hasked, List.drop_left]
    rcases hc with ⟨hall, hw, _⟩ | ⟨hall, _, _, lf, e, _⟩
    · refine ⟨?_, fun _ => ⟨_, hw⟩⟩
      rintro ⟨q, hq, hn⟩
      have := List.all_eq_true.1 hall q hq
      rw [hn] at this
      cases this
    · refine ⟨fun _ => ⟨by simp [e, World.World.running], by simp [e], fun q hq => asks_last hq⟩, fun hok => ?_⟩
      have := List.all_eq_true.2 hok
      rw [hall] at this
      cases this

/-- **C165.** All that is true of histories with panicking `execute` calls (C142) is true here. -/
theorem like_panics (h : Reachable objs s) : Abort.Reachable s.w := by
  obtain ⟨as, hr⟩ := h
  obtain ⟨bs, hb⟩ := runs_abort hr
  exact ⟨bs, hb⟩

/-- Postamble 0 is a good one, 1 has another name. -/
def someObjs : Nat → PyObj
  | 0 => ⟨true, "Execgraph::Capsule-v3"⟩
  | _ => ⟨true, "Execgraph::Capsule-v2"⟩

def withAnswers (l : List World.Act) (is : List Int) : List Act :=
  l.map (fun a => match a with | .trk a => .trk a is 0 | a => .world a)

/-- Tasks `a` and `b` without dependencies, `a` with postamble `p`; both are started. -/
def twoStarted (p : Nat) : List World.Act :=
  [.open "/d" ["/r"] "k" World.info, .add { World.job "a" with postamble := some p } [], .add (World.job "b") [],
    .exec none true 1 ⟨[0, 1], [1, 0], [0, 1], []⟩ 0, .trk (.begin [0, 1] ⟨0, 0⟩), .trk .sendNext, .trk (.sendDone ⟨0, 0⟩)] ++
  World.started 0 ++ World.started 1

/-- `a` succeeds, its postamble returns 3. -/
def objects (p : Nat) : List Act :=
  withAnswers (twoStarted p ++ World.exits 0 0 []) [3]

/-- `execute` is called again; now the postamble returns 0, and `b` fails. -/
def objectsOnce : List Act :=
  objects 0 ++ withAnswers ([.exec none true 1 ⟨[0, 1], [1, 0], [0, 1], []⟩ 0, .trk (.begin [0, 1] ⟨0, 0⟩), .trk .sendNext, .trk (.sendDone ⟨0, 0⟩)] ++
    World.started 0 ++ World.started 1 ++ World.exits 0 0 [] ++ World.exits 1 1 []) [0]

/-- Non-trivial case: the second time the success of `a` is recorded; the calls and their results. -/
example : after someObjs objectsOnce (fun s =>
    recorded s.w.log == [("a", true), ("b", false)] &&
    s.asked == [⟨"a", true, 0, 2, .code 3⟩, ⟨"a", true, 0, 2, .code 0⟩, ⟨"b", false, 0, 2, .absent⟩]) = true := by decide +kernel

/-- Non-trivial case: the wrong name. -/
example : after someObjs (objects 1) (fun s => s.w.running.isNone && s.w.sess.isSome && recorded s.w.log == [] &&
    s.asked == [⟨"a", true, 0, 2, .invalid⟩]) = true := by decide +kernel

/-- Non-trivial case in `drain`: both tasks have ended, `b` with a postamble; after ctrl-c the postamble objects when `drain` closes `b`; what was closed before is recorded. -/
example : after someObjs (withAnswers (twoStarted 0 ++ [.trk (.sendFinished ⟨1, .code 0, [], none⟩), .trk (.sendFinished ⟨0, .code 0, [], none⟩), .trk .ctrlC,
      .trk .joinDone]) [] ++ [.trk (.drain [] ⟨2, 0⟩) [7, 1] 1]) (fun s => s.w.running.isNone && s.w.sess.isSome && recorded s.w.log == [("b", true)] &&
    s.asked == [⟨"b", true, 0, 2, .absent⟩, ⟨"a", true, 0, 2, .code 1⟩]) = true := by decide +kernel

/-- **C165 (violated: an objection concerns only its task).** `b` was running, its process belongs to no `execute` any more, and the next `execute` starts it
a second time under the same run count, as it does with `a`, which had succeeded. -/
theorem only_the_task_violated : ∃ s, Reachable someObjs s ∧ attempts "a" s.w.log = [0, 0] ∧ attempts "b" s.w.log = [0, 0] ∧
    (∀ q ∈ s.asked, q.key = "b" → q.answer = .absent) ∧ ∃ q ∈ s.asked, q.key = "a" ∧ q.success = true ∧ q.answer = .code 3 := by
  obtain ⟨s, h1, h2⟩ := runs_of_after (objs := someObjs) (as := objectsOnce) (p := fun s =>
    decide (attempts "a" s.w.log = [0, 0]) && decide (attempts "b" s.w.log = [0, 0]) &&
    decide (s.asked = [⟨"a", true, 0, 2, .code 3⟩, ⟨"a", true, 0, 2, .code 0⟩, ⟨"b", false, 0, 2, .absent⟩])) (by decide +kernel)
  simp only [Bool.and_eq_true, decide_eq_true_eq] at h2
  refine ⟨s, ⟨_, h1⟩, h2.1.1, h2.1.2, ?_, ?_⟩
  · rw [h2.2]
    intro q hq hk
    simp only [List.mem_cons, List.not_mem_nil, or_false] at hq
    rcases hq with rfl | rfl | rfl <;> simp at hk ⊢
  · rw [h2.2]
    exact ⟨_, List.mem_cons_self, rfl, rfl, rfl⟩

end Verif.Props.Hooks
