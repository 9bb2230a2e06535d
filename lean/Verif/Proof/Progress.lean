import Verif.Spec.Progress
import Verif.Proof.Terminate
import Verif.Proof.System2

/-!
# A potential that requests, pings and ticks do not raise
-/

namespace Verif.Sys
open Verif Verif.Tracker

variable {c : Cfg} {lf : LogFile} {now : Int} {s s' : State}

/-- What an HTTP handler has still to do with its task. -/
def hCost : Handler → Nat
  | .got _ _ => 7
  | .timed _ _ _ _ => 6
  | .ending _ _ _ _ => 4
  | .reporting _ _ _ _ => 3
  | _ => 0

/-- As a list of that length. -/
def hUnits (h : Handler) : List Nat := List.replicate (hCost h) 0

/-- What has still to be done with the task of a connection. -/
def cUnits (x : Nat × Conn) : List Nat := List.replicate (if x.2.begun then 4 else 5) 0

/-- What the reaper has still to report. -/
def rCost : Reaper → Nat
  | .stopped | .dead _ => 0
  | .idle => 1
  | .removing _ expired | .softRemoving _ expired | .sending expired => 1 + 3 * expired.length

/-- What is left to do, with remote runners. -/
def togo (c : Cfg) (s : State) : Nat :=
  left c s + (s.handlers.flatMap hUnits).count 0 + (s.conns.flatMap cUnits).count 0 + rCost s.reaper

theorem local_rest {a : Act} (ha : isLocal a = true) (hs : step c s a = .ok s') :
    s'.handlers = s.handlers ∧ s'.conns = s.conns ∧ s'.reaper = s.reaper ∧ s'.forgotten = s.forgotten ∧ s'.nextFlag = s.nextFlag := by
  cases a with
  | loopDie i =>
    simp only [step] at hs
    split at hs
    · simp only [Res.ok.injEq] at hs; subst hs
      unfold setLoop
      split <;> exact ⟨rfl, rfl, rfl, rfl, rfl⟩
    · cases hs
  | server a =>
    simp only [step] at hs
    split at hs
    · obtain ⟨t, _, rfl⟩ := trk_ok.1 hs; exact ⟨rfl, rfl, rfl, rfl, rfl⟩
    · cases hs
  | joinDone | loopRecv | loopClosed | loopGot | loopSpawn | loopStarted | loopSoft | loopHard | loopOutput | loopReport =>
    simp only [step] at hs
    repeat' split at hs
    all_goals first
      | (cases hs; done)
      | (simp only [Res.ok.injEq] at hs; subst hs; exact ⟨rfl, rfl, rfl, rfl, rfl⟩)
      | (obtain ⟨t, _, rfl⟩ := trk_ok.1 hs; exact ⟨rfl, rfl, rfl, rfl, rfl⟩)
  | _ => simp [isLocal] at ha

theorem count_rep (n : Nat) : (List.replicate n 0).count 0 = n := List.count_replicate_self

theorem cUnits_pos (x : Nat × Conn) : 4 ≤ (cUnits x).count 0 ∧ (cUnits x).count 0 ≤ 5 := by
  unfold cUnits
  rw [count_rep]
  split <;> omega

theorem drop_units {l : List (Nat × Conn)} (txn : Nat) (hn : (l.map (·.1)).Nodup) :
    ((dropKey txn l).flatMap cUnits).count 0 + 4 * ((l.lookup txn).map (·.node)).toList.length ≤ (l.flatMap cUnits).count 0 := by
  cases h : l.lookup txn with
  | none => rw [lookup_none_drop h]; simp
  | some conn =>
    have h1 := count_drop (f := cUnits) (v := 0) hn h
    have h2 := (cUnits_pos (txn, conn)).1
    simp
    omega

theorem modify_timer_units (txn : Nat) (k : TimeWheel.TimerID) (l : List (Nat × Conn)) :
    (modifyKey txn (fun x => { x with timer := k }) l).flatMap cUnits = l.flatMap cUnits := by
  induction l with
  | nil => rfl
  | cons x l ih =>
    simp only [modifyKey, List.map_cons, List.flatMap_cons]
    rw [show (l.map fun x => if x.1 = txn then (x.1, { x.2 with timer := k }) else x) = modifyKey txn (fun x => { x with timer := k }) l from rfl, ih]
    congr 1
    split <;> rfl

/-- A request does not raise the potential. -/
theorem togo_request (hg : Good c.tr) (hi : Inv c lf now s) {r : Request} (hp : polite c s (.request r) = true)
    (hs : step c s (.request r) = .ok s') : togo c s' ≤ togo c s := by
  have hrun := (hi.step hg hp hs).1
  have hpot := pot_runs hg hrun hi.reach
  have rep : ∀ x : Reply, togo c (reply x s) = togo c s := by
    intro x
    simp [togo, reply, left, hUnits, hCost]
  simp only [step] at hs
  split at hs
  · cases hs
  unfold takeRequest at hs
  split at hs
  · simp only [Res.ok.injEq] at hs; subst hs; rw [rep]; exact Nat.le_refl _
  · rename_i t ht
    split at hs
    · simp only [Res.ok.injEq] at hs; subst hs; rw [rep]; exact Nat.le_refl _
    · split at hs
      · simp only [Res.ok.injEq] at hs; subst hs; rw [rep]; exact Nat.le_refl _
      · rename_i hb0 hsec
        simp only [ne_eq, not_not] at hsec
        subst hsec
        split at hs
        · simp only [Res.ok.injEq] at hs; subst hs
          unfold startH
          repeat' split
          all_goals first
            | (rw [rep]; exact Nat.le_refl _)
            | simp [togo, left, hUnits, hCost]
        · rename_i txn host pid hb
          unfold begunH at hs
          split at hs
          · simp only [Res.ok.injEq] at hs; subst hs; rw [rep]; exact Nat.le_refl _
          · rename_i conn hc
            split at hs
            · rename_i j hj
              obtain ⟨t, _, rfl⟩ := trk_ok.1 hs
              have hpb : conn.begun = false := by
                simp only [polite, ht, hb, hc] at hp
                simpa using hp
              have h1 := count_modify (f := cUnits) (v := 0) (g := fun x => { x with begun := true }) hi.live.keys hc
              have h2 : (cUnits (txn, conn)).count 0 = 5 := by simp [cUnits, hpb]
              have h3 : (cUnits (txn, { conn with begun := true })).count 0 = 4 := by simp [cUnits]
              simp only [trackerAct, ht, hb, hj, hc, if_true, List.map_cons, List.map_nil, List.sum_cons, List.sum_nil, Nat.add_zero, pays, adds, reply] at hpot
              simp only [togo, left, reply, List.flatMap_append, List.count_append]
              simp only [h2, h3] at h1
              have h4 : ([Handler.done (some Reply.ok)].flatMap hUnits).count 0 = 0 := by simp [hUnits, hCost]
              omega
            · simp only [Res.ok.injEq] at hs; subst hs; rw [rep]; exact Nat.le_refl _
        · rename_i txn code values next hb
          simp only [Res.ok.injEq] at hs; subst hs
          unfold endH
          split
          · split
            · rw [rep]; exact Nat.le_refl _
            · rename_i conn hc
              have h1 := drop_units txn hi.live.keys
              rw [hc] at h1
              simp only [Option.map_some, Option.toList_some, List.length_singleton] at h1
              split
              · simp only [togo, left, reply, List.flatMap_append, List.count_append]
                have h4 : ([Handler.done (some Reply.notFound)].flatMap hUnits).count 0 = 0 := by simp [hUnits, hCost]
                omega
              · simp only [togo, left, List.flatMap_append, List.count_append]
                have h4 : ([Handler.ending conn code values next].flatMap hUnits).count 0 = 4 := by simp [hUnits, hCost]
                omega
          · rw [rep]; exact Nat.le_refl _
        · unfold pingH at hs
          split at hs
          · simp only [Res.ok.injEq] at hs; subst hs; rw [rep]; exact Nat.le_refl _
          · obtain ⟨q, _, hs⟩ := Res.bind_ok.1 hs
            simp only [Res.ok.injEq] at hs; subst hs
            simp only [togo, left, reply, List.flatMap_append, List.count_append]
            rw [modify_timer_units]
            have h4 : ([Handler.done (some Reply.ok)].flatMap hUnits).count 0 = 0 := by simp [hUnits, hCost]
            omega
        · simp only [Res.ok.injEq] at hs; subst hs
          simp [togo, left, markH, reply, hUnits, hCost]
        · cases hs

theorem hset (h : Nat) {x y : Handler} (hx : s.handlers[h]? = some x) :
    ((s.handlers.set h y).flatMap hUnits).count 0 + hCost x = (s.handlers.flatMap hUnits).count 0 + hCost y := by
  have := count_set (f := hUnits) (v := 0) (b := y) hx
  have e : ∀ z : Handler, (hUnits z).count 0 = hCost z := fun z => count_rep _
  simp only [e] at this
  omega

/-- No action raises the potential, but for requests for a soft shutdown; those that bring the tasks forward lower it. -/
theorem togo_step (hg : Good c.tr) (hi : Inv c lf now s) {a : Act} (hp : polite c s a = true)
    (hs : step c s a = .ok s') : togo c s' + (working s a).toNat ≤ togo c s + (isTrigger a).toNat := by
  have hrun := (hi.step hg hp hs).1
  have hpot := pot_runs hg hrun hi.reach
  cases hloc : isLocal a with
  | true =>
    have h1 := left_local hg hi hloc hp hs
    obtain ⟨h2, h3, h4, _, _⟩ := local_rest hloc hs
    have h5 : (working s a).toNat ≤ (internal a).toNat := by
      cases a with
      | server b => cases b <;> simp [working, internal]
      | _ => simp [isLocal] at hloc <;> simp [working, internal]
    simp only [togo, h2, h3, h4]
    omega
  | false =>
    cases a with
    | request r =>
      have := togo_request hg hi hp hs
      simp only [working, isTrigger, Bool.toNat_false]
      omega
    | hRecv h =>
      simp only [step] at hs
      split at hs
      · rename_i rt j hx
        split at hs
        · rename_i hc
          obtain ⟨t, _, rfl⟩ := trk_ok.1 hs
          have := hset h (y := .inRecv rt j) hx
          simp only [trackerAct, hx, hc, List.map_cons, List.map_nil, List.sum_cons, List.sum_nil, Nat.add_zero, pays, adds, setH] at hpot
          simp only [togo, left, setH, working, isTrigger, Bool.toNat_false]
          simp only [hCost] at this
          omega
        all_goals
          simp only [Res.ok.injEq] at hs; subst hs
          have h1 := hset h (y := .done (some .notFound)) hx
          have h2 := hset h (y := .done (some .gone)) hx
          simp only [hCost] at h1 h2
          simp only [togo, left, setH, working, isTrigger, Bool.toNat_false]
          omega
      · cases hs
    | hLeave h k tm =>
      simp only [step] at hs
      split at hs
      · rename_i rt j hx
        split at hs
        · simp only [Res.ok.injEq] at hs; subst hs
          have := hset h (y := .done (some (if tm = true then .tooMany else .gone))) hx
          simp only [togo, left, setH, working, isTrigger, Bool.toNat_false]
          simp only [hCost] at this
          omega
        · cases hs
      · rename_i rt j hx
        split at hs
        · obtain ⟨t, _, rfl⟩ := trk_ok.1 hs
          have := hset h (y := .done (some (if tm = true then .tooMany else .gone))) hx
          simp only [trackerAct, hx, List.map_cons, List.map_nil, List.sum_cons, List.sum_nil, Nat.add_zero, pays, adds, setH] at hpot
          simp only [togo, left, setH, working, isTrigger, Bool.toNat_false]
          simp only [hCost] at this
          omega
        · cases hs
      · cases hs
    | hDrop h k =>
      simp only [step] at hs
      split at hs
      · rename_i rt j hx
        simp only [Res.ok.injEq] at hs; subst hs
        have := hset h (y := .done none) hx
        simp only [togo, left, setH, working, isTrigger, Bool.toNat_false]
        simp only [hCost] at this
        omega
      · rename_i rt j hx
        split at hs
        · obtain ⟨t, _, rfl⟩ := trk_ok.1 hs
          have := hset h (y := .done none) hx
          simp only [trackerAct, hx, List.map_cons, List.map_nil, List.sum_cons, List.sum_nil, Nat.add_zero, pays, adds, setH] at hpot
          simp only [togo, left, setH, working, isTrigger, Bool.toNat_false]
          simp only [hCost] at this
          omega
        · cases hs
      · rename_i rt j hx
        simp only [Res.ok.injEq] at hs; subst hs
        have := hset h (y := .done none) hx
        simp only [togo, left, setH, working, isTrigger, Bool.toNat_false]
        simp only [hCost] at this
        omega
      · cases hs
    | hGot h k =>
      simp only [step] at hs
      split at hs
      · rename_i rt j r it hx hk
        split at hs
        · obtain ⟨t, _, rfl⟩ := trk_ok.1 hs
          have := hset h (y := .got it.id j) hx
          simp only [trackerAct, List.map_cons, List.map_nil, List.sum_cons, List.sum_nil, Nat.add_zero, pays, adds, setH] at hpot
          simp only [togo, left, setH, working, isTrigger, Bool.toNat_true, Bool.toNat_false]
          simp only [hCost] at this
          omega
        · cases hs
      · cases hs
    | hTimer h txn =>
      simp only [step] at hs
      split at hs
      · rename_i v j hx
        obtain ⟨q, _, hs⟩ := Res.bind_ok.1 hs
        simp only [Res.ok.injEq] at hs; subst hs
        have := hset h (y := .timed v j txn q.2) hx
        simp only [togo, left, setH, working, isTrigger, Bool.toNat_true, Bool.toNat_false]
        simp only [hCost] at this
        omega
      · cases hs
    | hDie h =>
      simp only [step] at hs
      split at hs
      · rename_i v j hx
        split at hs
        · simp only [Res.ok.injEq] at hs; subst hs
          have := hset h (y := .dead v) hx
          simp only [togo, left, setH, working, isTrigger, Bool.toNat_true, Bool.toNat_false]
          simp only [hCost] at this
          omega
        · cases hs
      · cases hs
    | hInsert h =>
      simp only [step] at hs
      split at hs
      · rename_i v j txn tm hx
        simp only [Res.ok.injEq] at hs; subst hs
        have h1 := hset h (y := .done (some (.task txn v))) hx
        have h2 := drop_units txn hi.live.keys
        have h3 : ([(txn, (⟨v, s.tr.now, tm, j, false⟩ : Conn))].flatMap cUnits).count 0 = 5 := by simp [cUnits]
        simp only [togo, left, setH, working, isTrigger, Bool.toNat_true, Bool.toNat_false, List.flatMap_append, List.count_append]
        simp only [hCost] at h1
        omega
      · cases hs
    | hCancel h =>
      simp only [step] at hs
      split at hs
      · rename_i cn cd vs nx hx
        simp only [Res.ok.injEq] at hs; subst hs
        have := hset h (y := .reporting cn cd vs nx) hx
        simp only [togo, left, setH, working, isTrigger, Bool.toNat_true, Bool.toNat_false]
        simp only [hCost] at this
        omega
      · cases hs
    | hReport h =>
      simp only [step] at hs
      split at hs
      · rename_i cn cd vs nx hx
        obtain ⟨t, _, rfl⟩ := trk_ok.1 hs
        have h1 : ∀ y, hCost y = 0 → ((s.handlers.set h y).flatMap hUnits).count 0 + 3 = (s.handlers.flatMap hUnits).count 0 := by
          intro y hy
          have := hset h (y := y) hx
          rw [hy] at this
          exact this
        simp only [trackerAct, hx, List.map_cons, List.map_nil, List.sum_cons, List.sum_nil, Nat.add_zero, pays, adds, setH] at hpot
        cases nx with
        | none =>
          have h2 := h1 (.done (some .ended)) rfl
          simp only [togo, left, setH, working, isTrigger, Bool.toNat_true, Bool.toNat_false]
          omega
        | some rt =>
          have h2 := h1 (.waiting s.nextFlag rt cn.jobid) rfl
          simp only [togo, left, setH, working, isTrigger, Bool.toNat_true, Bool.toNat_false]
          omega
      · cases hs
    | hFlag h =>
      simp only [step] at hs
      split at hs
      · rename_i f rt j hx
        split at hs
        · simp only [Res.ok.injEq] at hs; subst hs
          have := hset h (y := .toRecv rt j) hx
          simp only [togo, left, setH, working, isTrigger, Bool.toNat_false]
          simp only [hCost] at this
          omega
        · cases hs
      · cases hs
    | reapTick =>
      simp only [step] at hs
      split at hs
      · rename_i hr
        simp only [Res.ok.injEq] at hs; subst hs
        simp [togo, left, working, isTrigger, hr, rCost]
      · cases hs
    | reapRemove =>
      simp only [step] at hs
      split at hs
      · rename_i txn txns ex hr
        simp only [Res.ok.injEq] at hs; subst hs
        have := drop_units txn hi.live.keys
        simp only [togo, left, working, isTrigger, hr, rCost, List.length_append, Bool.toNat_false]
        omega
      · rename_i txn txns ex hr
        split at hs
        · rename_i conn hc
          simp only [Res.ok.injEq] at hs; subst hs
          have := drop_units txn hi.live.keys
          simp only [hc, Option.map_some, Option.toList_some, List.length_singleton] at this
          simp only [togo, left, working, isTrigger, hr, rCost, List.length_append, Bool.toNat_false, List.length_singleton]
          omega
        · simp only [Res.ok.injEq] at hs; subst hs
          simp only [togo, left, working, isTrigger, hr, rCost, Bool.toNat_false]
          omega
      · rename_i hr
        simp only [Res.ok.injEq] at hs; subst hs
        simp [togo, left, working, isTrigger, hr, rCost]
      · cases hs
    | reapCheck o =>
      simp only [step] at hs
      split at hs
      · rename_i ex hr
        split at hs
        · split at hs
          · simp only [Res.ok.injEq] at hs; subst hs
            simp [togo, left, working, isTrigger, hr, rCost]
          · cases hs
        · simp only [Res.ok.injEq] at hs; subst hs
          simp [togo, left, working, isTrigger, hr, rCost]
      · cases hs
    | reapSend =>
      simp only [step] at hs
      split at hs
      · rename_i v vs hr
        obtain ⟨t, _, rfl⟩ := trk_ok.1 hs
        simp only [trackerAct, hr, List.map_cons, List.map_nil, List.sum_cons, List.sum_nil, Nat.add_zero, pays, adds] at hpot
        simp only [togo, left, working, isTrigger, hr, rCost, List.length_cons, Bool.toNat_true, Bool.toNat_false]
        omega
      · rename_i hr
        simp only [Res.ok.injEq] at hs; subst hs
        simp [togo, left, working, isTrigger, hr, rCost]
      · cases hs
    | reapStop =>
      simp only [step] at hs
      split at hs
      · rename_i hr
        simp only [Res.ok.injEq] at hs; subst hs
        simp only [togo, left, working, isTrigger, hr.1, rCost, Bool.toNat_true, Bool.toNat_false]
        omega
      · cases hs
    | _ => simp [isLocal] at hloc

theorem togo_runs (hg : Good c.tr) {as : List Act} (hr : Runs c s as s') : Inv c lf now s →
    togo c s' + (collect workObs c s as).length ≤ togo c s + as.countP isTrigger := by
  induction hr with
  | nil s => intro _; simp [collect]
  | @cons s s1 s' a as hp hs _ ih =>
    intro hi
    have h1 := togo_step hg hi hp hs
    obtain ⟨h2, h3⟩ := hi.step hg hp hs
    have h4 := ih ⟨hi.reach.later h2, h3⟩
    simp only [collect, hs, List.length_append, List.countP_cons]
    have e1 : (workObs s a).length = (working s a).toNat := by unfold workObs; cases working s a <;> rfl
    have e2 : (if isTrigger a = true then 1 else 0) = (isTrigger a).toNat := by cases isTrigger a <;> rfl
    rw [e1, e2]
    omega

theorem togo_init (c : Cfg) (lf : LogFile) (now : Int) : togo c (init c lf now) ≤ 201 * c.tr.g.n + 2 * c.numParallel + 8 := by
  have h := left_init c lf now
  have h1 : (init c lf now).handlers = [] := rfl
  have h2 : (init c lf now).conns = [] := rfl
  have h3 : rCost (init c lf now).reaper ≤ 1 := by
    simp only [init]
    split <;> simp [rCost]
  simp only [togo, h1, h2, List.flatMap_nil, List.count_nil]
  omega

end Verif.Sys
