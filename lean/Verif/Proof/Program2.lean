import Verif.Proof.Program
import Verif.Proof.Complete
import Verif.Proof.Terminate2
import Verif.Props.Outcome

/-!
# Runs in which nothing goes wrong around the programs: what is reported is what the programs do
-/

namespace Verif.Tracker
open Verif

variable {c : Cfg} {lf : LogFile} {now : Int} {s s' : State} {b : Behaviour}

/-- Nothing in the run asks the server to stop. -/
structure Calm (as : List Act) (s : State) : Prop where
  no : NoShutdown as
  soft : s.soft = false
  quiet : Quiet s
  tok : ended s.pc = false → s.token = none

theorem calm (hg : Good c) {as : List Act} (hr : Runs c (init c lf now) as s)
    (h1 : ∀ a ∈ as, a ≠ .trigger ∧ a ≠ .ctrlC ∧ ∀ k, a ≠ .cancel k)
    (h2 : quickFailures c [] (init c lf now) as < c.fizzlesAllowed) : Calm as s := by
  revert h1 h2
  refine Runs.snocInd (P := fun as s => (∀ a ∈ as, a ≠ .trigger ∧ a ≠ .ctrlC ∧ ∀ k, a ≠ .cancel k) →
    quickFailures c [] (init c lf now) as < c.fizzlesAllowed → Calm as s) ?_ ?_ hr
  · intro _ _
    exact ⟨by simp [NoShutdown], rfl, Quiet.init c lf now, fun _ => rfl⟩
  · intro as s a s' hr ih hd hs h1 h2
    obtain ⟨t', ht⟩ := quickFailures_snoc (a := a) hr []
    obtain ⟨i1, i3, i4, i5⟩ := ih (fun x hx => h1 x (by simp [hx])) (by omega)
    obtain ⟨a1, a2, a3⟩ := h1 a (by simp)
    have hr' := hr.snoc hd hs
    have hst : a ≠ .seeTrigger := by
      rintro rfl
      simp only [Tracker.step, i4.trig, if_true] at hs
      split at hs <;> cases hs
    have hsh : a ≠ .seeHard := by
      rintro rfl
      simp only [Tracker.step] at hs
      split at hs
      · cases hs
      · rename_i hp
        have hp : s.pc = .idle := by simpa using hp
        rw [i5 (by rw [hp]; rfl)] at hs
        simp at hs
    have hno : NoShutdown (as ++ [a]) := by
      intro x hx
      rcases List.mem_append.1 hx with hx | hx
      · exact i1 x hx
      · rw [List.mem_singleton] at hx; subst hx
        exact ⟨hst, hsh, a2⟩
    have hsoft : s'.soft = false := by
      by_contra hne
      have := ((soft_exact hg hr' (fun h => (hno _ h).1 rfl)).1 (by simpa using hne)).2
      omega
    refine ⟨hno, hsoft, ?_, ?_⟩
    · exact i4.step (Reachable.inv hg ⟨as, hr⟩).1 hs a1 (fun k e => absurd e (a3 k))
    · intro he
      rcases token_step hs a3 with h | h | h
      · rw [h]
        refine i5 ?_
        by_contra hne
        have := (step_ended hs (by simpa using hne)).1
        rw [he] at this; cases this
      · rw [he] at h; cases h
      · rw [hsoft] at h; cases h

/-- With faithful reports and few failures the limit of quick failures is not reached. -/
theorem quick_few (hg : Good c) {as : List Act} (hr : Runs c (init c lf now) as s) (hf : Faithful b as)
    (hfew : Family.FewFailures c b) : quickFailures c [] (init c lf now) as < c.fizzlesAllowed := by
  have hre : Reachable c lf now s := ⟨as, hr⟩
  have h1 := quick_le_failures hr
  have hst : ∀ x ∈ s.processed, x.2 = b.status x.1 := by
    intro x hx
    obtain ⟨e, h1, h2, h3⟩ := processed_from hr x hx
    rw [← h2, ← h3]
    exact (hf e h1).1
  have hdue : ∀ x ∈ s.processed, Due c b x.1 := by
    intro x hx
    refine ⟨(Props.Tracker.order_topological hg hre).2.2.1 _ hx, fun u hu => ?_⟩
    have := hre.made_reach hg (hre.obtained_made hg (hre.closed_obtained hg (st := x.2) (List.mem_append_left _ hx))) hu
    exact (hst _ this).symm
  have h2 := hfew ((s.processed.filter (fun x => decide (x.2 ≠ .code 0))).map (·.1)) ?_ ?_
  · unfold failures at h1
    rw [List.length_map, ← List.countP_eq_length_filter] at h2
    omega
  · exact List.Nodup.sublist (List.Sublist.map _ List.filter_sublist) (Props.Tracker.order_topological hg hre).1
  · intro v hv
    obtain ⟨x, hx, rfl⟩ := List.mem_map.1 hv
    obtain ⟨hx, hne⟩ := List.mem_filter.1 hx
    refine ⟨hdue x hx, ?_⟩
    rw [← hst x hx]
    exact of_decide_eq_true hne

end Verif.Tracker

namespace Verif.Sys
open Verif Verif.Tracker

variable {c : Cfg} {lf : LogFile} {now : Int} {s s' : State} {b : Behaviour}

/-- Does something go wrong around the programs? -/
def troubled : Act → Bool
  | .server .trigger | .server .ctrlC | .server (.cancel _) | .loopDie _ | .loopSpawn _ false => true
  | _ => false

/-- A loop that has nothing to report but what the task does. -/
def Honest (b : Behaviour) : Loop → Prop
  | .failing _ | .failed _ | .cancelled _ => False
  | .ended v code vs => b.status v = .code code ∧ b.values v = vs
  | _ => True

theorem honest_set {ls : List Loop} {i : Nat} {l' : Loop} (h : ∀ l ∈ ls, Honest b l) (h' : Honest b l') : ∀ l ∈ ls.set i l', Honest b l := by
  intro l hl
  rcases List.mem_or_eq_of_mem_set hl with hl | rfl
  · exact h l hl
  · exact h'

theorem honest_step {a : Act} (hloc : isLocal a = true) (h : ∀ l ∈ s.loops, Honest b l) (ha : troubled a = false)
    (ho : ∀ x ∈ outputs s a, b.status x.1 = .code x.2.1 ∧ b.values x.1 = x.2.2)
    (ht : ∀ t, s.tr.token ≠ some (.afterTime t)) (hs : step c s a = .ok s') :
    (∀ l ∈ s'.loops, Honest b l) ∧ (Faithful b (trackerAct c s a)) ∧
    (∀ b ∈ trackerAct c s a, b ≠ .trigger ∧ b ≠ .ctrlC ∧ ∀ k, b ≠ .cancel k) := by
  cases a with
  | server x =>
    simp only [step] at hs
    split at hs
    · rename_i hsa
      obtain ⟨t, ht, rfl⟩ := trk_ok.1 hs
      refine ⟨h, ?_, ?_⟩
      · intro e he
        simp only [trackerAct, List.mem_singleton] at he
        subst he
        simp [serverAct] at hsa
      · intro y hy
        simp only [trackerAct, List.mem_singleton] at hy
        subst hy
        cases y <;> simp_all [troubled]
    · cases hs
  | joinDone =>
    simp only [step] at hs
    split at hs
    · obtain ⟨t, ht, rfl⟩ := trk_ok.1 hs
      exact ⟨h, by simp [trackerAct, Faithful], by simp [trackerAct]⟩
    · cases hs
  | loopRecv i =>
    have e1 : Faithful b (trackerAct c s (.loopRecv i)) := by
      intro e he; simp only [trackerAct] at he; split at he <;> simp at he
    have e2 : ∀ b ∈ trackerAct c s (.loopRecv i), b ≠ .trigger ∧ b ≠ .ctrlC ∧ ∀ k, b ≠ .cancel k := by
      intro b hb; simp only [trackerAct] at hb; split at hb <;> simp at hb; subst hb; simp
    refine ⟨?_, e1, e2⟩
    simp only [step] at hs
    repeat' split at hs
    · obtain ⟨t, ht, rfl⟩ := trk_ok.1 hs
      exact honest_set h trivial
    · simp only [Res.ok.injEq] at hs; subst hs
      exact honest_set h trivial
    · cases hs
  | loopClosed i k =>
    refine ⟨?_, by simp [trackerAct, Faithful], by simp [trackerAct]⟩
    simp only [step] at hs
    repeat' split at hs
    · obtain ⟨t, ht, rfl⟩ := trk_ok.1 hs
      exact honest_set h trivial
    · cases hs
    · cases hs
  | loopGot i k =>
    refine ⟨?_, by simp [trackerAct, Faithful], by simp [trackerAct]⟩
    simp only [step] at hs
    repeat' split at hs
    · obtain ⟨t, ht, rfl⟩ := trk_ok.1 hs
      exact honest_set h trivial
    · cases hs
    · cases hs
  | loopSpawn i ok =>
    refine ⟨?_, by simp [trackerAct, Faithful], by simp [trackerAct]⟩
    have hok : ok = true := by cases ok <;> simp_all [troubled]
    subst hok
    simp only [step] at hs
    split at hs
    · split at hs
      · simp only [Res.ok.injEq] at hs; subst hs
        rw [if_pos trivial]
        exact honest_set h trivial
      · cases hs
    · cases hs
  | loopDie i => simp [troubled] at ha
  | loopStarted i host pid =>
    have hnf : ∀ v, s.loops[i]? ≠ some (.failing v) := fun v hv => h _ (List.mem_of_getElem? hv)
    refine ⟨?_, ?_, ?_⟩
    · simp only [step] at hs
      split at hs
      · obtain ⟨t, ht, rfl⟩ := trk_ok.1 hs
        exact honest_set h trivial
      · rename_i v hv; exact absurd hv (hnf v)
      · cases hs
    · intro e he; simp only [trackerAct] at he; split at he <;> simp at he
    · intro b hb
      simp only [trackerAct] at hb
      split at hb <;> simp at hb <;> (subst hb; simp)
  | loopSoft i =>
    simp only [step] at hs
    split at hs
    · rename_i t _ htk; exact absurd htk (ht t)
    · cases hs
  | loopHard i =>
    refine ⟨?_, by simp [trackerAct, Faithful], by simp [trackerAct]⟩
    simp only [step] at hs
    repeat' split at hs
    · simp only [Res.ok.injEq] at hs; subst hs
      exact honest_set h trivial
    · cases hs
  | loopOutput i code values =>
    refine ⟨?_, by simp [trackerAct, Faithful], by simp [trackerAct]⟩
    simp only [step] at hs
    split at hs
    · rename_i v x hv
      simp only [Res.ok.injEq] at hs; subst hs
      have := ho (v, code, values) (by simp [outputs, hv])
      exact honest_set h this
    · cases hs
  | loopReport i =>
    have hnf : ∀ v, s.loops[i]? ≠ some (.failed v) := fun v hv => h _ (List.mem_of_getElem? hv)
    have hnc : ∀ v, s.loops[i]? ≠ some (.cancelled v) := fun v hv => h _ (List.mem_of_getElem? hv)
    have hz : ∀ v code vs, s.loops[i]? = some (.ended v code vs) → b.status v = .code code ∧ b.values v = vs :=
      fun v code vs hv => h _ (List.mem_of_getElem? hv)
    refine ⟨?_, ?_, ?_⟩
    · simp only [step] at hs
      split at hs
      · rename_i v hv; exact absurd hv (hnf v)
      · rename_i v hv; exact absurd hv (hnc v)
      · obtain ⟨t, ht, rfl⟩ := trk_ok.1 hs
        exact honest_set h trivial
      · cases hs
    · intro e he
      simp only [trackerAct] at he
      split at he
      · rename_i v hv; exact absurd hv (hnf v)
      · rename_i v hv; exact absurd hv (hnc v)
      · rename_i v code vs hv
        simp only [List.mem_singleton, Tracker.Act.sendFinished.injEq] at he
        subst he
        obtain ⟨h1, h2⟩ := hz v code vs hv
        exact ⟨h1.symm, h2.symm⟩
      · cases he
    · intro b hb
      simp only [trackerAct] at hb
      split at hb <;> simp at hb <;> (subst hb; simp)
  | _ => simp [isLocal] at hloc

/-- The run of the scheduler inside a run in which nothing goes wrong around the programs. -/
theorem honest_runs (hg : Good c.tr) (hl : c.remote = false) (hfew : Family.FewFailures c.tr b) {as : List Act}
    (hr : Runs c (init c lf now) as s) (ha : ∀ a ∈ as, troubled a = false)
    (ho : ∀ x ∈ collect outputs c (init c lf now) as, b.status x.1 = .code x.2.1 ∧ b.values x.1 = x.2.2) :
    (∀ l ∈ s.loops, Honest b l) ∧ Faithful b (toTracker c (init c lf now) as) ∧
    (∀ b ∈ toTracker c (init c lf now) as, b ≠ .trigger ∧ b ≠ .ctrlC ∧ ∀ k, b ≠ .cancel k) := by
  revert ha ho
  refine Runs.snocInd (P := fun as s => (∀ a ∈ as, troubled a = false) →
    (∀ x ∈ collect outputs c (init c lf now) as, b.status x.1 = .code x.2.1 ∧ b.values x.1 = x.2.2) → (∀ l ∈ s.loops, Honest b l) ∧
    Faithful b (toTracker c (init c lf now) as) ∧
    (∀ b ∈ toTracker c (init c lf now) as, b ≠ .trigger ∧ b ≠ .ctrlC ∧ ∀ k, b ≠ .cancel k)) ?_ ?_ hr
  · intro _ _
    refine ⟨?_, by simp [toTracker, collect, Faithful], by simp [toTracker, collect]⟩
    intro l hl
    simp only [init] at hl
    split at hl
    · cases hl
    · rw [List.eq_of_mem_replicate hl]; trivial
  · intro as s a s' hr ih hp hs ha ho
    rw [collect_snoc hr] at ho
    obtain ⟨i1, i2, i3⟩ := ih (fun x hx => ha x (by simp [hx])) (fun x hx => ho x (List.mem_append_left _ hx))
    have hq := quick_few hg (hr.toInit hg) i2 hfew
    have hpe := Tracker.calm hg (hr.toInit hg) i3 hq
    have htok : ∀ t, s.tr.token ≠ some (.afterTime t) := by
      intro t e
      have := hpe.quiet.tok t e
      rw [hpe.soft] at this; cases this
    obtain ⟨f1, f2, f3⟩ := honest_step (local_of_noServer ((NoServer.init hl).runs hr) hs) i1 (ha a (by simp))
      (fun x hx => ho x (List.mem_append_right _ hx)) htok hs
    unfold toTracker at i2 i3 ⊢
    rw [collect_snoc hr]
    refine ⟨f1, fun e he => ?_, fun b hb => ?_⟩
    · rcases List.mem_append.1 he with he | he
      · exact i2 e he
      · exact f2 e he
    · rcases List.mem_append.1 hb with hb | hb
      · exact i3 b hb
      · exact f3 b hb

theorem honest_peace (hg : Good c.tr) (hl : c.remote = false) (hfew : Family.FewFailures c.tr b) {as : List Act}
    (hr : Runs c (init c lf now) as s) (ha : ∀ a ∈ as, troubled a = false)
    (ho : ∀ x ∈ collect outputs c (init c lf now) as, b.status x.1 = .code x.2.1 ∧ b.values x.1 = x.2.2) :
    Faithful b (toTracker c (init c lf now) as) ∧ NoShutdown (toTracker c (init c lf now) as) ∧
      quickFailures c.tr [] (Tracker.init c.tr lf now) (toTracker c (init c lf now) as) < c.tr.fizzlesAllowed := by
  obtain ⟨_, h2, h3⟩ := honest_runs hg hl hfew hr ha ho
  have hq := quick_few hg (hr.toInit hg) h2 hfew
  exact ⟨h2, (Tracker.calm hg (hr.toInit hg) h3 hq).no, hq⟩

end Verif.Sys

namespace Verif.Family
open Verif Verif.Tracker
open Verif.Tracker hiding Act Cfg State Runs init step replay after runs_of_replay runs_of_after

variable {P : Type} {c : Cfg P} {lf : LogFile} {now : Int} {s s' : State P} {as : List Act}

/-- An end that is reported belongs to a run of the pipes and processes of the task which has come to its end. -/
theorem output_ended (hr : Runs c (init c lf now) as s) {v : Nat} {code : Int} {values : List (List (String × String))}
    (h : (v, code, values) ∈ Sys.collect Sys.outputs c.sys (Sys.init c.sys lf now) (sysActs as)) :
    ∃ i hist st pst bytes, Did c (init c lf now) as i v hist ∧
      ChildIo.Runs (childCfg c i v) (ChildIo.init (childCfg c i v)) hist st ∧ st.stage = .ended pst bytes ∧
      Fd3.code pst = .code code ∧ values = Fd3.fd3Values ⟨(bytes .val).toArray⟩ := by
  revert h
  refine Runs.snocInd (Q := fun as s => (v, code, values) ∈ Sys.collect Sys.outputs c.sys (Sys.init c.sys lf now) (sysActs as) →
    ∃ i hist st pst bytes, Did c (init c lf now) as i v hist ∧
      ChildIo.Runs (childCfg c i v) (ChildIo.init (childCfg c i v)) hist st ∧ st.stage = .ended pst bytes ∧
      Fd3.code pst = .code code ∧ values = Fd3.fd3Values ⟨(bytes .val).toArray⟩) ?_ ?_ hr
  · intro h; cases h
  · intro as s a s' hr ih _ hs h
    have old : (v, code, values) ∈ Sys.collect Sys.outputs c.sys (Sys.init c.sys lf now) (sysActs as) →
        ∃ i hist st pst bytes, Did c (init c lf now) (as ++ [a]) i v hist ∧
          ChildIo.Runs (childCfg c i v) (ChildIo.init (childCfg c i v)) hist st ∧ st.stage = .ended pst bytes ∧
          Fd3.code pst = .code code ∧ values = Fd3.fd3Values ⟨(bytes .val).toArray⟩ := by
      intro h
      obtain ⟨i, hist, st, pst, bytes, ⟨pre, mid, post, s1, e, h2⟩, h1⟩ := ih h
      exact ⟨i, hist, st, pst, bytes, ⟨pre, mid, post ++ [a], s1, by rw [e]; simp, h2⟩, h1⟩
    rw [sysActs_append] at h
    cases a with
    | kid i b => simp only [sysActs, List.append_nil] at h; exact old h
    | sys b =>
      have hc : Sys.collect Sys.outputs c.sys (Sys.init c.sys lf now) (sysActs as ++ [b]) =
          Sys.collect Sys.outputs c.sys (Sys.init c.sys lf now) (sysActs as) ++ Sys.outputs s.sys b := Sys.collect_snoc (Runs.sys hr)
      rw [show sysActs [Act.sys b] = [b] from rfl, hc] at h
      rcases List.mem_append.1 h with h | h
      · exact old h
      · cases b with
        | loopOutput i co va =>
          simp only [Sys.outputs] at h
          split at h
          · rename_i w x hl
            simp only [List.mem_singleton, Prod.mk.injEq] at h
            obtain ⟨rfl, rfl, rfl⟩ := h
            have hs : withKid c s (.loopOutput i code values) i .finish (reports code values) = .ok s' := hs
            obtain ⟨k, st, t, h1, h2, h3, _, rfl⟩ := withKid_ok.1 hs
            have hl2 := (tied hr).2 i _ hl
            rw [h1] at hl2
            obtain ⟨st0, hist, e, h4, h5, _⟩ := hl2
            cases e
            have hrun := h5.snoc h2
            unfold reports at h3
            simp only at h3
            split at h3
            · rename_i pst bytes hst
              have h3 := of_decide_eq_true h3
              simp only [ChildIo.report, Fd3.toEvent, Tracker.Fin.mk.injEq, true_and, and_true] at h3
              refine ⟨i, hist ++ [.finish], st, pst, bytes, ?_, hrun, hst, h3.1, h3.2.symm⟩
              have := (h4.snoc (a := .sys (.loopOutput i code values)) rfl).did []
              simpa [kidAct] using this
            · cases h3
          · cases h
        | _ => cases h

/-- In a run without trouble every end that is reported is that of the program. -/
theorem outputs_honest (hg : Good c.sys.tr) {code : Nat → Nat} {bytes : Nat → List UInt8} (hp : Programs c code bytes)
    (hr : Runs c (init c lf now) as s) (ha : ∀ a ∈ as, trouble a = false) :
    ∀ x ∈ Sys.collect Sys.outputs c.sys (Sys.init c.sys lf now) (sysActs as),
      (behaviour code bytes).status x.1 = .code x.2.1 ∧ (behaviour code bytes).values x.1 = x.2.2 := by
  rintro ⟨v, co, va⟩ hx
  obtain ⟨i, hist, st, pst, bs, h1, h2, h3, h4, h5⟩ := output_ended hr hx
  have hk : ∀ a ∈ as, isKill a = false := by
    intro a hm
    have := ha a hm
    cases a with
    | sys y => rfl
    | kid i y => cases y <;> first | rfl | cases this
  have hv : v < c.sys.tr.g.n := by
    obtain ⟨pre, mid, post, s1, _, h2, h3, _⟩ := h1
    exact got_lt hg (Runs.sys h2) h3
  have hgv : ChildIo.Gives (childCfg c i v) .val (bytes v) (code v) := by
    have := hp v hv
    unfold ChildIo.Gives at this ⊢
    simpa [childCfg] using this
  obtain ⟨e1, e2⟩ := (ChildIo.on_track (c := childCfg c i v) (by simp [childCfg]) hgv h2 (did_kill h1 hk)).2 pst bs h3
  subst e1
  simp only [Fd3.code, ExitStatus.code.injEq] at h4
  simp only [behaviour, ExitStatus.code.injEq]
  exact ⟨h4, by rw [h5, e2]⟩

theorem not_troubled (ha : ∀ a ∈ as, trouble a = false) : ∀ b ∈ sysActs as, Sys.troubled b = false := by
  intro b hb
  have ht := ha _ (mem_sysActs hb)
  cases b with
  | loopSpawn i ok => cases ok <;> first | rfl | cases ht
  | server y => cases y <;> first | rfl | cases ht
  | loopDie i => cases ht
  | _ => rfl

end Verif.Family
