import Verif.Spec.Terminate
import Verif.Proof.Measure
import Verif.Proof.System4

/-!
# The end of `execute`: the potential of the whole system (local loops only)
-/

namespace Verif.Tracker
open Verif

variable {c : Cfg} {s s' : State}

theorem pot_runs (hg : Good c) {lf : LogFile} {now : Int} {as : List Act} (h : Runs c s as s') (hr : Reachable c lf now s) :
    pot c s' + (as.map pays).sum ≤ pot c s + (as.map adds).sum := by
  induction h with
  | nil s => exact Nat.le_refl _
  | cons hd hs h ih =>
    have h1 := pot_step hg hr hd hs
    have h2 := ih (hr.later (.cons hd hs (.nil _)))
    simp only [List.map_cons, List.sum_cons]
    omega

end Verif.Tracker

namespace Verif.Sys
open Verif Verif.Tracker

variable {c : Cfg} {lf : LogFile} {now : Int} {s s' : State}

/-- What a local loop has still to do with its task. -/
def loopCost : Loop → Nat
  | .exited | .killed _ | .dead _ => 0
  | .inRecv => 1
  | .top => 2
  | .cancelled _ => 3
  | .ended _ _ _ | .failed _ => 5
  | .running _ _ => 6
  | .failing _ => 7
  | .spawned _ _ => 8
  | .got _ => 9

/-- What is left to do. -/
def left (c : Cfg) (s : State) : Nat := pot c.tr s.tr + (s.loops.map loopCost).sum

theorem cost_set {l : List Loop} {i : Nat} {a b : Loop} (h : l[i]? = some a) :
    ((l.set i b).map loopCost).sum + loopCost a = (l.map loopCost).sum + loopCost b := by
  induction l generalizing i with
  | nil => simp at h
  | cons x l ih =>
    cases i with
    | zero =>
      simp only [List.getElem?_cons_zero, Option.some.injEq] at h
      subst h
      simp only [List.set_cons_zero, List.map_cons, List.sum_cons]
      omega
    | succ i =>
      simp only [List.getElem?_cons_succ] at h
      have := ih h
      simp only [List.set_cons_succ, List.map_cons, List.sum_cons]
      omega

/-- Without a provisioner there is no HTTP server. -/
structure NoServer (s : State) : Prop where
  reaper : s.reaper = .stopped
  handlers : s.handlers = []
  conns : s.conns = []
  forgotten : s.forgotten = []

theorem NoServer.step (h : NoServer s) {a : Act} (hs : Sys.step c s a = .ok s') : NoServer s' := by
  obtain ⟨h1, h2, h3, h4⟩ := h
  cases a with
  | server a =>
    simp only [Sys.step] at hs
    split at hs
    · obtain ⟨t, _, rfl⟩ := trk_ok.1 hs; exact ⟨h1, h2, h3, h4⟩
    · cases hs
  | joinDone =>
    simp only [Sys.step] at hs
    split at hs
    · obtain ⟨t, _, rfl⟩ := trk_ok.1 hs; exact ⟨h1, h2, h3, h4⟩
    · cases hs
  | loopRecv i =>
    simp only [Sys.step] at hs
    repeat' split at hs
    · obtain ⟨t, _, rfl⟩ := trk_ok.1 hs; exact ⟨h1, h2, h3, h4⟩
    · cases hs; exact ⟨h1, h2, h3, h4⟩
    · cases hs
  | loopClosed i k =>
    simp only [Sys.step] at hs
    repeat' split at hs
    · obtain ⟨t, _, rfl⟩ := trk_ok.1 hs; exact ⟨h1, h2, h3, h4⟩
    · cases hs
    · cases hs
  | loopGot i k =>
    simp only [Sys.step] at hs
    repeat' split at hs
    · obtain ⟨t, _, rfl⟩ := trk_ok.1 hs; exact ⟨h1, h2, h3, h4⟩
    · cases hs
    · cases hs
  | loopSpawn i ok =>
    simp only [Sys.step] at hs
    repeat' split at hs
    all_goals first | (cases hs; done) | (simp only [Res.ok.injEq] at hs; subst hs; exact ⟨h1, h2, h3, h4⟩)
  | loopDie i =>
    simp only [Sys.step] at hs
    split at hs
    · simp only [Res.ok.injEq] at hs; subst hs
      unfold setLoop
      split <;> exact ⟨h1, h2, h3, h4⟩
    · cases hs
  | loopStarted i host pid =>
    simp only [Sys.step] at hs
    split at hs
    · obtain ⟨t, _, rfl⟩ := trk_ok.1 hs; exact ⟨h1, h2, h3, h4⟩
    · obtain ⟨t, _, rfl⟩ := trk_ok.1 hs; exact ⟨h1, h2, h3, h4⟩
    · cases hs
  | loopSoft i =>
    simp only [Sys.step] at hs
    repeat' split at hs
    all_goals first | (cases hs; done) | (simp only [Res.ok.injEq] at hs; subst hs; exact ⟨h1, h2, h3, h4⟩)
  | loopHard i =>
    simp only [Sys.step] at hs
    repeat' split at hs
    all_goals first | (cases hs; done) | (simp only [Res.ok.injEq] at hs; subst hs; exact ⟨h1, h2, h3, h4⟩)
  | loopOutput i code values =>
    simp only [Sys.step] at hs
    repeat' split at hs
    all_goals first | (cases hs; done) | (simp only [Res.ok.injEq] at hs; subst hs; exact ⟨h1, h2, h3, h4⟩)
  | loopReport i =>
    simp only [Sys.step] at hs
    split at hs
    · obtain ⟨t, _, rfl⟩ := trk_ok.1 hs; exact ⟨h1, h2, h3, h4⟩
    · obtain ⟨t, _, rfl⟩ := trk_ok.1 hs; exact ⟨h1, h2, h3, h4⟩
    · obtain ⟨t, _, rfl⟩ := trk_ok.1 hs; exact ⟨h1, h2, h3, h4⟩
    · cases hs
  | request r => simp [Sys.step, h1] at hs
  | reapTick => simp [Sys.step, h1] at hs
  | reapRemove => simp [Sys.step, h1] at hs
  | reapCheck o => simp [Sys.step, h1] at hs
  | reapSend => simp [Sys.step, h1] at hs
  | reapStop => simp [Sys.step, h1] at hs
  | hRecv h => simp [Sys.step, h2] at hs
  | hLeave h k t => simp [Sys.step, h2] at hs
  | hDrop h k => simp [Sys.step, h2] at hs
  | hGot h k => simp [Sys.step, h2] at hs
  | hTimer h t => simp [Sys.step, h2] at hs
  | hDie h => simp [Sys.step, h2] at hs
  | hInsert h => simp [Sys.step, h2] at hs
  | hCancel h => simp [Sys.step, h2] at hs
  | hReport h => simp [Sys.step, h2] at hs
  | hFlag h => simp [Sys.step, h2] at hs

theorem NoServer.init (hl : c.remote = false) : NoServer (Sys.init c lf now) := by
  refine ⟨?_, rfl, rfl, rfl⟩
  simp [Sys.init, hl]

theorem NoServer.runs (h : NoServer s) {as : List Act} (hr : Runs c s as s') : NoServer s' := by
  induction hr with
  | nil => exact h
  | cons _ hs _ ih => exact ih (h.step hs)

/-- Is the action one of the server task or of a local loop? -/
def isLocal : Act → Bool
  | .server _ | .joinDone | .loopRecv _ | .loopClosed _ _ | .loopGot _ _ | .loopSpawn _ _ | .loopDie _ | .loopStarted _ _ _
  | .loopSoft _ | .loopHard _ | .loopOutput _ _ _ | .loopReport _ => true
  | _ => false

/-- Every action of the server task and of the local loops does its part. -/
theorem left_local (hg : Good c.tr) (hi : Inv c lf now s) {a : Act} (hloc : isLocal a = true) (hp : polite c s a = true)
    (hs : step c s a = .ok s') : left c s' + (internal a).toNat ≤ left c s + (isTrigger a).toNat := by
  have hrun := (hi.step hg hp hs).1
  have hpot := pot_runs hg hrun hi.reach
  cases a with
  | server a =>
    simp only [step] at hs
    split at hs
    · rename_i ha
      obtain ⟨t, ht, rfl⟩ := trk_ok.1 hs
      simp only [trackerAct, List.map_cons, List.map_nil, List.sum_cons, List.sum_nil, Nat.add_zero, id] at hpot
      have : (internal (.server a)).toNat ≤ pays a := by cases a <;> simp_all [internal, pays, serverAct]
      have : adds a ≤ (isTrigger (.server a)).toNat := by cases a <;> simp_all [isTrigger, adds, serverAct]
      simp only [left, id]
      omega
    · cases hs
  | joinDone =>
    simp only [step] at hs
    split at hs
    · obtain ⟨t, ht, rfl⟩ := trk_ok.1 hs
      simp only [trackerAct, List.map_cons, List.map_nil, List.sum_cons, List.sum_nil, Nat.add_zero, id, pays, adds] at hpot
      simp only [left, id, internal, isTrigger, Bool.toNat_true, Bool.toNat_false]
      omega
    · cases hs
  | loopRecv i =>
    simp only [step] at hs
    split at hs
    · rename_i hli
      split at hs
      · rename_i hc
        obtain ⟨t, ht, rfl⟩ := trk_ok.1 hs
        have := cost_set (b := .inRecv) hli
        simp only [trackerAct, hc, List.map_cons, List.map_nil, List.sum_cons, List.sum_nil, Nat.add_zero, pays, adds, setLoop] at hpot
        simp only [left, setLoop, internal, isTrigger, Bool.toNat_true, Bool.toNat_false]
        simp only [loopCost] at this
        omega
      · simp only [Res.ok.injEq] at hs; subst hs
        have := cost_set (b := .exited) hli
        simp only [left, setLoop, internal, isTrigger, Bool.toNat_true, Bool.toNat_false]
        simp only [loopCost] at this
        omega
    · cases hs
  | loopClosed i k =>
    simp only [step] at hs
    split at hs
    · rename_i hli
      split at hs
      · obtain ⟨t, ht, rfl⟩ := trk_ok.1 hs
        have := cost_set (b := .exited) hli
        simp only [trackerAct, List.map_cons, List.map_nil, List.sum_cons, List.sum_nil, Nat.add_zero, pays, adds, setLoop] at hpot
        simp only [left, setLoop, internal, isTrigger, Bool.toNat_true, Bool.toNat_false]
        simp only [loopCost] at this
        omega
      · cases hs
    · cases hs
  | loopGot i k =>
    simp only [step] at hs
    split at hs
    · rename_i r it hli hk
      split at hs
      · obtain ⟨t, ht, rfl⟩ := trk_ok.1 hs
        have := cost_set (b := .got it.id) hli
        simp only [trackerAct, List.map_cons, List.map_nil, List.sum_cons, List.sum_nil, Nat.add_zero, pays, adds, setLoop] at hpot
        simp only [left, setLoop, internal, isTrigger, Bool.toNat_true, Bool.toNat_false]
        simp only [loopCost] at this
        omega
      · cases hs
    · cases hs
  | loopSpawn i ok =>
    simp only [step] at hs
    split at hs
    · rename_i v hli
      split at hs
      · simp only [Res.ok.injEq] at hs; subst hs
        have h5 := cost_set (b := .spawned v s.tr.now) hli
        have h6 := cost_set (b := .failing v) hli
        simp only [loopCost] at h5 h6
        cases ok
        all_goals
          simp only [left, setLoop, internal, isTrigger, Bool.toNat_true, Bool.toNat_false, if_true, Bool.false_eq_true, if_false]
          omega
      · cases hs
    · cases hs
  | loopDie i =>
    simp only [step] at hs
    split at hs
    · rename_i v hv
      obtain ⟨l, hli, hm⟩ := Option.bind_eq_some_iff.1 hv
      simp only [Res.ok.injEq] at hs; subst hs
      have h5 := cost_set (b := .dead v) hli
      have h6 : 1 ≤ loopCost l := by cases l <;> simp_all [loopCost, mayDie]
      have h7 : loopCost (.dead v) = 0 := rfl
      simp only [setLoop]
      split
      all_goals
        simp only [left, internal, isTrigger, Bool.toNat_true, Bool.toNat_false]
        omega
    · cases hs
  | loopStarted i host pid =>
    simp only [step] at hs
    split at hs
    · rename_i v st hli
      obtain ⟨t, ht, rfl⟩ := trk_ok.1 hs
      have := cost_set (b := .running v st) hli
      simp only [trackerAct, hli, List.map_cons, List.map_nil, List.sum_cons, List.sum_nil, Nat.add_zero, pays, adds, setLoop] at hpot
      simp only [left, setLoop, internal, isTrigger, Bool.toNat_true, Bool.toNat_false]
      simp only [loopCost] at this
      omega
    · rename_i v hli
      obtain ⟨t, ht, rfl⟩ := trk_ok.1 hs
      have := cost_set (b := .failed v) hli
      simp only [trackerAct, hli, List.map_cons, List.map_nil, List.sum_cons, List.sum_nil, Nat.add_zero, pays, adds, setLoop] at hpot
      simp only [left, setLoop, internal, isTrigger, Bool.toNat_true, Bool.toNat_false]
      simp only [loopCost] at this
      omega
    · cases hs
  | loopSoft i =>
    simp only [step] at hs
    split at hs
    · rename_i v st t hli _
      split at hs
      · simp only [Res.ok.injEq] at hs; subst hs
        have := cost_set (b := .cancelled v) hli
        simp only [left, setLoop, internal, isTrigger, Bool.toNat_true, Bool.toNat_false]
        simp only [loopCost] at this
        omega
      · cases hs
    · cases hs
  | loopHard i =>
    simp only [step] at hs
    split at hs
    · rename_i v st hli _
      simp only [Res.ok.injEq] at hs; subst hs
      have := cost_set (b := .killed v) hli
      simp only [left, setLoop, internal, isTrigger, Bool.toNat_true, Bool.toNat_false]
      simp only [loopCost] at this
      omega
    · cases hs
  | loopOutput i code values =>
    simp only [step] at hs
    split at hs
    · rename_i v st hli
      simp only [Res.ok.injEq] at hs; subst hs
      have := cost_set (b := .ended v code values) hli
      simp only [left, setLoop, internal, isTrigger, Bool.toNat_true, Bool.toNat_false]
      simp only [loopCost] at this
      omega
    · cases hs
  | loopReport i =>
    simp only [step] at hs
    split at hs
    · rename_i v hli
      obtain ⟨t, ht, rfl⟩ := trk_ok.1 hs
      have := cost_set (b := .top) hli
      simp only [trackerAct, hli, List.map_cons, List.map_nil, List.sum_cons, List.sum_nil, Nat.add_zero, pays, adds, setLoop] at hpot
      simp only [left, setLoop, internal, isTrigger, Bool.toNat_true, Bool.toNat_false]
      simp only [loopCost] at this
      omega
    · rename_i v hli
      obtain ⟨t, ht, rfl⟩ := trk_ok.1 hs
      have := cost_set (b := .exited) hli
      simp only [trackerAct, hli, List.map_cons, List.map_nil, List.sum_cons, List.sum_nil, Nat.add_zero, pays, adds, setLoop] at hpot
      simp only [left, setLoop, internal, isTrigger, Bool.toNat_true, Bool.toNat_false]
      simp only [loopCost] at this
      omega
    · rename_i v code values hli
      obtain ⟨t, ht, rfl⟩ := trk_ok.1 hs
      have := cost_set (b := .top) hli
      simp only [trackerAct, hli, List.map_cons, List.map_nil, List.sum_cons, List.sum_nil, Nat.add_zero, pays, adds, setLoop] at hpot
      simp only [left, setLoop, internal, isTrigger, Bool.toNat_true, Bool.toNat_false]
      simp only [loopCost] at this
      omega
    · cases hs
  | _ => simp [isLocal] at hloc

/-- Every action of the inside does its part. -/
theorem left_step (hg : Good c.tr) (hi : Inv c lf now s) (hn : NoServer s) {a : Act} (hp : polite c s a = true)
    (hs : step c s a = .ok s') : left c s' + (internal a).toNat ≤ left c s + (isTrigger a).toNat := by
  obtain ⟨h1, h2, h3, h4⟩ := hn
  cases hloc : isLocal a with
  | true => exact left_local hg hi hloc hp hs
  | false =>
    cases a with
    | request r => simp [step, h1] at hs
    | _ => simp_all [step, isLocal]

theorem left_runs (hg : Good c.tr) {as : List Act} (hr : Runs c s as s') : Inv c lf now s → NoServer s →
    left c s' + as.countP internal ≤ left c s + as.countP isTrigger := by
  induction hr with
  | nil s => intro _ _; simp
  | @cons s s1 s' a as hp hs _ ih =>
    intro hi hn
    have h1 := left_step hg hi hn hp hs
    obtain ⟨h2, h3⟩ := hi.step hg hp hs
    have h4 := ih ⟨hi.reach.later h2, h3⟩ (hn.step hs)
    simp only [List.countP_cons]
    have e1 : (if internal a = true then 1 else 0) = (internal a).toNat := by cases internal a <;> rfl
    have e2 : (if isTrigger a = true then 1 else 0) = (isTrigger a).toNat := by cases isTrigger a <;> rfl
    rw [e1, e2]
    omega

theorem left_init (c : Cfg) (lf : LogFile) (now : Int) : left c (init c lf now) ≤ 201 * c.tr.g.n + 2 * c.numParallel + 7 := by
  have h := pot_init c.tr lf now
  have hl : ((init c lf now).loops.map loopCost).sum ≤ 2 * c.numParallel + 2 := by
    simp only [init]
    split
    · simp
    · simp [loopCost]; omega
  have e : (init c lf now).tr = Tracker.init c.tr lf now := rfl
  simp only [left, e]
  omega

end Verif.Sys
