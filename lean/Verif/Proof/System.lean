import Verif.Spec.System
import Verif.Proof.TrackerRuns

/-! # Every run of the runners is a run of the tracker (helper lemmas for `Verif.Props.System`) -/

namespace Verif.Sys
open Verif Verif.Tracker
open scoped List

variable {c : Cfg} {lf : LogFile} {now : Int} {s s' : State}

/-- Tasks that were obtained and for which no start report was sent. -/
def unL : Loop → List Nat
  | .got v | .spawned v _ | .failing v => [v]
  | _ => []

def unH : Handler → List Nat
  | .got v _ | .timed v _ _ _ => [v]
  | _ => []

def unC (x : Nat × Conn) : List Nat := if x.2.begun then [] else [x.2.node]

def unstarted (s : State) : List Nat := s.loops.flatMap unL ++ s.handlers.flatMap unH ++ s.conns.flatMap unC

theorem count_set {α : Type} {f : α → List Nat} {v : Nat} : ∀ {l : List α} {i : Nat} {a b : α}, l[i]? = some a →
    ((l.set i b).flatMap f).count v + (f a).count v = (l.flatMap f).count v + (f b).count v
  | [], i, a, b, h => by simp at h
  | x :: l, 0, a, b, h => by
    simp only [List.getElem?_cons_zero, Option.some.injEq] at h
    subst h
    simp only [List.set_cons_zero, List.flatMap_cons, List.count_append]
    omega
  | x :: l, i + 1, a, b, h => by
    simp only [List.getElem?_cons_succ] at h
    have := count_set (f := f) (v := v) (b := b) h
    simp only [List.set_cons_succ, List.flatMap_cons, List.count_append]
    omega

theorem lookup_none_drop {l : List (Nat × Conn)} {txn : Nat} (h : l.lookup txn = none) : dropKey txn l = l := by
  unfold dropKey
  rw [List.filter_eq_self]
  intro x hx
  have := List.lookup_eq_none_iff.1 h x hx
  simp only [bne_iff_ne, ne_eq]
  intro e
  simp [e] at this

theorem count_drop {f : Nat × Conn → List Nat} {v txn : Nat} {conn : Conn} : ∀ {l : List (Nat × Conn)}, (l.map (·.1)).Nodup →
    l.lookup txn = some conn → (l.flatMap f).count v = ((dropKey txn l).flatMap f).count v + (f (txn, conn)).count v
  | [], _, h => by simp at h
  | x :: l, hn, h => by
    rw [List.map_cons, List.nodup_cons] at hn
    rw [List.lookup_cons] at h
    by_cases he : x.1 = txn
    · subst he
      have hxe : (x.1, x.2) = x := rfl
      simp only [beq_self_eq_true, Option.some.injEq] at h
      subst h
      have hd : dropKey x.1 (x :: l) = l := by
        unfold dropKey
        rw [List.filter_cons_of_neg (by simp)]
        rw [List.filter_eq_self]
        intro y hy
        simp only [bne_iff_ne, ne_eq]
        intro e
        exact hn.1 (List.mem_map.2 ⟨y, hy, e⟩)
      rw [hd, List.flatMap_cons, List.count_append, hxe]
      omega
    · have hb : (txn == x.1) = false := by simpa using fun e => he e.symm
      rw [hb] at h
      have ih := count_drop (f := f) (v := v) hn.2 h
      have hd : dropKey txn (x :: l) = x :: dropKey txn l := by
        unfold dropKey
        rw [List.filter_cons_of_pos (by simpa using he)]
      rw [hd, List.flatMap_cons, List.flatMap_cons, List.count_append, List.count_append]
      omega

theorem nodup_drop {l : List (Nat × Conn)} (txn : Nat) (h : (l.map (·.1)).Nodup) : ((dropKey txn l).map (·.1)).Nodup :=
  h.sublist (List.Sublist.map _ List.filter_sublist)

theorem not_mem_drop (l : List (Nat × Conn)) (txn : Nat) : txn ∉ (dropKey txn l).map (·.1) := by
  intro h
  obtain ⟨x, hx, rfl⟩ := List.mem_map.1 h
  have := (List.mem_filter.1 hx).2
  simp at this

theorem keys_modify (l : List (Nat × Conn)) (txn : Nat) (g : Conn → Conn) : (modifyKey txn g l).map (·.1) = l.map (·.1) := by
  unfold modifyKey
  rw [List.map_map]
  apply List.map_congr_left
  intro x _
  simp only [Function.comp]
  split <;> rfl

theorem count_modify {f : Nat × Conn → List Nat} {g : Conn → Conn} {v txn : Nat} {conn : Conn} : ∀ {l : List (Nat × Conn)},
    (l.map (·.1)).Nodup → l.lookup txn = some conn →
    ((modifyKey txn g l).flatMap f).count v + (f (txn, conn)).count v = (l.flatMap f).count v + (f (txn, g conn)).count v
  | [], _, h => by simp at h
  | x :: l, hn, h => by
    rw [List.map_cons, List.nodup_cons] at hn
    rw [List.lookup_cons] at h
    by_cases he : x.1 = txn
    · subst he
      have hxe : (x.1, x.2) = x := rfl
      simp only [beq_self_eq_true, Option.some.injEq] at h
      subst h
      have hd : modifyKey x.1 g (x :: l) = (x.1, g x.2) :: l := by
        unfold modifyKey
        rw [List.map_cons, if_pos rfl]
        congr 1
        conv => rhs; rw [← List.map_id l]
        apply List.map_congr_left
        intro y hy
        rw [if_neg]
        · rfl
        · intro e
          exact hn.1 (List.mem_map.2 ⟨y, hy, e⟩)
      rw [hd, List.flatMap_cons, List.flatMap_cons, List.count_append, List.count_append, hxe]
      omega
    · have hb : (txn == x.1) = false := by simpa using fun e => he e.symm
      rw [hb] at h
      have ih := count_modify (f := f) (g := g) (v := v) hn.2 h
      have hd : modifyKey txn g (x :: l) = x :: modifyKey txn g l := by
        unfold modifyKey
        rw [List.map_cons, if_neg he]
      rw [hd, List.flatMap_cons, List.flatMap_cons, List.count_append, List.count_append]
      omega

/-! ### What the tracker's own steps leave alone -/

/-- What a step of the server task leaves alone. -/
structure Calm (t t' : Tracker.State) : Prop where
  sent : t'.startedSent = t.startedSent
  obtained : t'.obtained = t.obtained
  preambles : t'.preambles = t.preambles
  held : t'.pc ≠ .done → t'.held = t.held
  lost : t'.pc ≠ .done → t'.lost = t.lost

theorem finishHalf_calm {tc : Tracker.Cfg} {t t' : Tracker.State} {x : SysTime} {e : Fin}
    (h : finishHalf tc x t e = .ok t') : Calm t t' := by
  obtain ⟨lf, ⟨_, rfl⟩ | ⟨_, rfl⟩⟩ := finishHalf_cases h <;> rw [finLogged_eq] <;>
    exact ⟨rfl, rfl, rfl, fun _ => rfl, fun _ => rfl⟩

theorem server_calm {tc : Tracker.Cfg} {t t' : Tracker.State} {a : Tracker.Act} (ha : serverAct a = true)
    (hs : Tracker.step tc t a = .ok t') : Calm t t' := by
  cases a with
  | begin order x =>
    simp only [Tracker.step] at hs
    split at hs
    · cases hs
    · split at hs
      · cases hs
      · split at hs
        · simp only [Res.ok.injEq] at hs; subst hs; exact ⟨rfl, rfl, rfl, fun _ => rfl, fun _ => rfl⟩
        · obtain ⟨_, _, _, _, rfl⟩ := addReady_ok hs; exact ⟨rfl, rfl, rfl, fun _ => rfl, fun _ => rfl⟩
  | sendDone x =>
    simp only [Tracker.step] at hs
    split at hs
    · split at hs
      · simp only [Res.ok.injEq] at hs; subst hs; exact ⟨rfl, rfl, rfl, fun _ => rfl, fun _ => rfl⟩
      · have := finishHalf_calm hs; exact ⟨this.1, this.2, this.3, this.4, this.5⟩
    · cases hs
  | recvStarted x =>
    simp only [Tracker.step] at hs
    split at hs
    · cases hs
    · split at hs
      · obtain ⟨s1, h1, h2⟩ := Res.bind_ok.1 hs
        obtain ⟨lf, _, rfl⟩ := writeLog_ok.1 h1
        split at h2
        · cases h2
        · simp only [Res.ok.injEq] at h2; subst h2; exact ⟨rfl, rfl, rfl, fun _ => rfl, fun _ => rfl⟩
      · cases hs
  | recvFinished order x =>
    simp only [Tracker.step] at hs
    split at hs
    · cases hs
    · split at hs
      · obtain ⟨sn, um, po, _, h | ⟨vs, _, _, h⟩⟩ := handleFinished_cases hs
        · have := finishHalf_calm h
          exact ⟨this.1, this.2, this.3, this.4, this.5⟩
        · obtain ⟨_, _, _, _, rfl⟩ := addReady_ok h
          exact ⟨rfl, rfl, rfl, fun _ => rfl, fun _ => rfl⟩
      · cases hs
  | drain order x =>
    simp only [Tracker.step] at hs
    split at hs
    · cases hs
    · obtain ⟨k, hp⟩ := Kept.drain hs
      exact ⟨k.startedSent, k.obtained, k.preambles, fun h => absurd hp h, fun h => absurd hp h⟩
  | tick d => simp only [Tracker.step, Res.ok.injEq] at hs; subst hs; exact ⟨rfl, rfl, rfl, fun _ => rfl, fun _ => rfl⟩
  | trigger => simp only [Tracker.step, Res.ok.injEq] at hs; subst hs; exact ⟨rfl, rfl, rfl, fun _ => rfl, fun _ => rfl⟩
  | cancel k => simp only [Tracker.step, Res.ok.injEq] at hs; subst hs; exact ⟨rfl, rfl, rfl, fun _ => rfl, fun _ => rfl⟩
  | joinDone => simp [serverAct] at ha
  | enter r => simp [serverAct] at ha
  | leave r => simp [serverAct] at ha
  | account r => simp [serverAct] at ha
  | sendStarted => simp [serverAct] at ha
  | sendFinished => simp [serverAct] at ha
  | lose => simp [serverAct] at ha
  | _ =>
    simp only [Tracker.step] at hs
    repeat' split at hs
    all_goals first
      | cases hs; done
      | (simp only [Res.ok.injEq] at hs; subst hs; exact ⟨rfl, rfl, rfl, fun _ => rfl, fun _ => rfl⟩)

theorem done_stays {tc : Tracker.Cfg} {t t' : Tracker.State} {a : Tracker.Act} (hs : Tracker.step tc t a = .ok t')
    (h : t.pc = .done) : t'.pc = .done := by
  cases a with
  | begin order x => simp [Tracker.step, h] at hs
  | sendDone x => simp [Tracker.step, h] at hs
  | sendNext => simp [Tracker.step, h] at hs
  | recvStarted x => simp [Tracker.step, h] at hs
  | recvFinished order x => simp [Tracker.step, h] at hs
  | drain order x => simp [Tracker.step, h] at hs
  | seeTrigger => simp [Tracker.step, h] at hs
  | seeHard => simp [Tracker.step, h] at hs
  | ctrlC => simp [Tracker.step, h] at hs
  | joinDone => simp [Tracker.step, h] at hs
  | tick d => simp only [Tracker.step, Res.ok.injEq] at hs; subst hs; exact h
  | trigger => simp only [Tracker.step, Res.ok.injEq] at hs; subst hs; exact h
  | cancel k => simp only [Tracker.step, Res.ok.injEq] at hs; subst hs; exact h
  | _ =>
    simp only [Tracker.step] at hs
    repeat' split at hs
    all_goals first
      | cases hs; done
      | (simp only [Res.ok.injEq] at hs; subst hs; exact h)

/-! ### The invariant -/

/-- While the tracker is not done every task a runner holds is somebody's (once); start reports are sent once. -/
structure Live (s : State) : Prop where
  own : s.tr.pc ≠ .done → ∀ v, s.tr.held.count v = (owned s).count v
  lost : s.tr.pc ≠ .done → s.tr.lost = []
  fresh : ∀ v, 0 < (unstarted s).count v → v ∉ s.tr.startedSent
  keys : (s.conns.map (·.1)).Nodup
  sent : ∀ v ∈ s.tr.startedSent, v ∈ s.tr.obtained.map (·.2)

structure Inv (c : Cfg) (lf : LogFile) (now : Int) (s : State) : Prop where
  reach : Tracker.Reachable c.tr lf now s.tr
  live : Live s

theorem unL_le (v : Nat) (l : Loop) : (unL l).count v ≤ (ownL l).count v := by
  cases l <;> simp [unL, ownL]

theorem unH_le (v : Nat) (l : Handler) : (unH l).count v ≤ (ownH l).count v := by
  cases l <;> simp [unH, ownH]

theorem count_flatMap_le {α : Type} {f g : α → List Nat} {v : Nat} (h : ∀ a, (f a).count v ≤ (g a).count v) :
    ∀ l : List α, (l.flatMap f).count v ≤ (l.flatMap g).count v
  | [] => by simp
  | x :: l => by
    have := count_flatMap_le h l
    have := h x
    simp only [List.flatMap_cons, List.count_append]
    omega

/-- The task of a connection, as a list. -/
def ownC (x : Nat × Conn) : List Nat := [x.2.node]

theorem map_node (l : List (Nat × Conn)) : l.map (·.2.node) = l.flatMap ownC := by
  induction l with
  | nil => rfl
  | cons x l ih => simp only [List.map_cons, List.flatMap_cons, ownC, ih, List.singleton_append]

theorem owned_count (s : State) (v : Nat) : (owned s).count v = (s.loops.flatMap ownL).count v +
    (s.handlers.flatMap ownH).count v + (s.conns.flatMap ownC).count v + (ownR s.reaper).count v + s.forgotten.count v := by
  unfold owned
  simp only [List.count_append, map_node]

theorem unstarted_count (s : State) (v : Nat) : (unstarted s).count v = (s.loops.flatMap unL).count v +
    (s.handlers.flatMap unH).count v + (s.conns.flatMap unC).count v := by
  unfold unstarted
  simp only [List.count_append]

theorem unstarted_le (s : State) (v : Nat) : (unstarted s).count v ≤ (owned s).count v := by
  rw [owned_count, unstarted_count]
  have h1 := count_flatMap_le (unL_le v) s.loops
  have h2 := count_flatMap_le (unH_le v) s.handlers
  have h3 : (s.conns.flatMap unC).count v ≤ (s.conns.flatMap ownC).count v := by
    apply count_flatMap_le
    intro x
    unfold unC ownC
    split
    · simp
    · exact Nat.le_refl _
  omega

theorem Live.held_nodup (hg : Good c.tr) (hr : Tracker.Reachable c.tr lf now s.tr) : s.tr.held.Nodup := by
  obtain ⟨hi, _⟩ := hr.inv hg
  have := (hi.core.place hg).uniq
  rw [List.append_assoc, List.append_assoc, List.nodup_append] at this
  exact this.1

theorem Live.keep (h : Live s) (h0 : s'.tr.pc ≠ .done → s.tr.pc ≠ .done) (h1 : s'.tr.pc ≠ .done → s'.tr.held = s.tr.held)
    (h2 : s'.tr.pc ≠ .done → s'.tr.lost = s.tr.lost)
    (h3 : s'.tr.startedSent = s.tr.startedSent) (h4 : s'.tr.obtained = s.tr.obtained)
    (ho : ∀ v, (owned s').count v = (owned s).count v) (hu : ∀ v, (unstarted s').count v ≤ (unstarted s).count v)
    (hk : (s'.conns.map (·.1)).Nodup) : Live s' := by
  refine ⟨fun hp v => ?_, fun hp => (h2 hp).trans (h.lost (h0 hp)), fun v hv => ?_, hk, ?_⟩
  · rw [h1 hp, ho, h.own (h0 hp)]
  · rw [h3]; exact h.fresh v (Nat.lt_of_lt_of_le hv (hu v))
  · rw [h3, h4]; exact h.sent

/-- A step without a tracker action. -/
theorem Inv.silent {as : List Tracker.Act} (h : Inv c lf now s) (hact : as = []) (h1 : s'.tr = s.tr)
    (hd : (s.conns.map (·.1)).Nodup → (∀ v, (owned s').count v = (owned s).count v) ∧
      (∀ v, (unstarted s').count v ≤ (unstarted s).count v) ∧ (s'.conns.map (·.1)).Nodup) :
    Tracker.Runs c.tr s.tr as s'.tr ∧ Live s' := by
  refine ⟨by rw [hact, h1]; exact .nil _, ?_⟩
  have hl := h.live
  obtain ⟨ho, hu, hk⟩ := hd hl.keys
  exact hl.keep (by rw [h1]; exact id) (by rw [h1]; exact fun _ => rfl) (by rw [h1]; exact fun _ => rfl) (by rw [h1]) (by rw [h1]) ho hu hk

theorem trk_ok {a : Tracker.Act} {f : State → State} :
    trk c s a f = .ok s' ↔ ∃ t, Tracker.step c.tr s.tr a = .ok t ∧ s' = f { s with tr := t } := by
  unfold trk
  rw [Res.bind_ok]
  constructor
  · rintro ⟨t, h1, h2⟩; cases h2; exact ⟨t, h1, rfl⟩
  · rintro ⟨t, h1, rfl⟩; exact ⟨t, h1, rfl⟩

/-- A step with a tracker action that concerns no task. -/
theorem Inv.calm {as : List Tracker.Act} (h : Inv c lf now s) {a : Tracker.Act} (hact : as = [a]) {t : Tracker.State} (hd : disciplined s.tr a = true)
    (hs : Tracker.step c.tr s.tr a = .ok t) (hc : Calm s.tr t) (h1 : s'.tr = t)
    (hd : (s.conns.map (·.1)).Nodup → (∀ v, (owned s').count v = (owned s).count v) ∧
      (∀ v, (unstarted s').count v ≤ (unstarted s).count v) ∧ (s'.conns.map (·.1)).Nodup) :
    Tracker.Runs c.tr s.tr as s'.tr ∧ Live s' := by
  subst h1
  refine ⟨by rw [hact]; exact .cons (by assumption) hs (.nil _), ?_⟩
  have hl := h.live
  obtain ⟨ho, hu, hk⟩ := hd hl.keys
  exact hl.keep (fun hp e => hp (done_stays hs e)) hc.held hc.lost hc.sent hc.obtained ho hu hk

theorem enter_calm {tc : Tracker.Cfg} {t t' : Tracker.State} {r : Nat} (h : Tracker.step tc t (.enter r) = .ok t') : Calm t t' := by
  simp only [Tracker.step] at h
  repeat' split at h
  all_goals first
    | cases h; done
    | (simp only [Res.ok.injEq] at h; subst h; exact ⟨rfl, rfl, rfl, fun _ => rfl, fun _ => rfl⟩)

theorem leave_calm {tc : Tracker.Cfg} {t t' : Tracker.State} {r : Nat} (h : Tracker.step tc t (.leave r) = .ok t') : Calm t t' := by
  simp only [Tracker.step] at h
  repeat' split at h
  all_goals first
    | cases h; done
    | (simp only [Res.ok.injEq] at h; subst h; exact ⟨rfl, rfl, rfl, fun _ => rfl, fun _ => rfl⟩)

theorem joinDone_calm {tc : Tracker.Cfg} {t t' : Tracker.State} (h : Tracker.step tc t .joinDone = .ok t') : Calm t t' := by
  simp only [Tracker.step] at h
  repeat' split at h
  all_goals first
    | cases h; done
    | (simp only [Res.ok.injEq] at h; subst h; exact ⟨rfl, rfl, rfl, fun _ => rfl, fun _ => rfl⟩)

theorem live_not_done {t : Tracker.State} (h : Tracker.live t ≠ false) : t.pc ≠ .done := by
  intro e; simp [Tracker.live, e] at h

/-- A step in which a start report for `v` is sent. -/
theorem Inv.started {as : List Tracker.Act} (hg : Good c.tr) (h : Inv c lf now s) {v : Nat} {host jobid : String} {pid : Nat} {t : Tracker.State}
    (hact : as = [.sendStarted v host pid jobid])
    (hs : Tracker.step c.tr s.tr (.sendStarted v host pid jobid) = .ok t) (h1 : s'.tr = t)
    (hv : (s.conns.map (·.1)).Nodup → 0 < (unstarted s).count v)
    (hd : (s.conns.map (·.1)).Nodup → (∀ w, (owned s').count w = (owned s).count w) ∧
      (∀ w, (unstarted s').count w + [v].count w = (unstarted s).count w) ∧ (s'.conns.map (·.1)).Nodup) :
    Tracker.Runs c.tr s.tr as s'.tr ∧ Live s' := by
  subst h1
  have hs0 := hs
  simp only [Tracker.step] at hs
  split at hs
  · cases hs
  · rename_i hlive
    simp only [Res.ok.injEq] at hs
    have hl := h.live
    have hnd0 := live_not_done hlive
    have hv := hv hl.keys
    have hheld : v ∈ s.tr.held := by
      rw [← List.count_pos_iff, hl.own hnd0]
      exact Nat.lt_of_lt_of_le hv (unstarted_le s v)
    have hns := hl.fresh v hv
    subst hact
    refine ⟨.cons ?_ hs0 (.nil _), ?_⟩
    · simp [disciplined, hheld, hns]
    · obtain ⟨ho, hu, hk⟩ := hd hl.keys
      have hnd := Live.held_nodup hg h.reach
      refine ⟨fun _ w => ?_, fun _ => ?_, fun w hw => ?_, hk, ?_⟩
      · rw [← hs, ho]; exact hl.own hnd0 w
      · rw [← hs]; exact hl.lost hnd0
      · rw [← hs]
        have hu' := hu w
        have hle := unstarted_le s w
        have hc1 := List.nodup_iff_count.1 hnd w
        rw [hl.own hnd0] at hc1
        show w ∉ s.tr.startedSent ++ [v]
        rw [List.mem_append, List.mem_singleton, not_or]
        refine ⟨hl.fresh w (by omega), ?_⟩
        rintro rfl
        rw [List.count_singleton_self] at hu'
        omega
      · rw [← hs]
        intro w hw
        rcases List.mem_append.1 (show w ∈ s.tr.startedSent ++ [v] from hw) with hw | hw
        · exact hl.sent w hw
        · rw [List.mem_singleton] at hw
          subst hw
          obtain ⟨r, hr⟩ := (h.reach.obtained_iff hg).2 (List.mem_append_left _ (List.mem_append_left _ (List.mem_append_left _ hheld)))
          exact List.mem_map.2 ⟨_, hr, rfl⟩

/-- A step in which a finish report is sent. -/
theorem Inv.finished {as : List Tracker.Act} (h : Inv c lf now s) {e : Fin} {t : Tracker.State} (hact : as = [.sendFinished e])
    (hs : Tracker.step c.tr s.tr (.sendFinished e) = .ok t) (h1 : s'.tr = t)
    (hd : (s.conns.map (·.1)).Nodup → (∀ w, (owned s').count w + [e.id].count w = (owned s).count w) ∧
      (∀ w, (unstarted s').count w ≤ (unstarted s).count w) ∧ (s'.conns.map (·.1)).Nodup) :
    Tracker.Runs c.tr s.tr as s'.tr ∧ Live s' := by
  subst h1
  have hs0 := hs
  simp only [Tracker.step] at hs
  split at hs
  · cases hs
  · rename_i hlive
    simp only [Res.ok.injEq] at hs
    have hl := h.live
    have hnd0 := live_not_done hlive
    obtain ⟨ho, hu, hk⟩ := hd hl.keys
    have hheld : e.id ∈ s.tr.held := by
      rw [← List.count_pos_iff, hl.own hnd0, ← ho, List.count_singleton_self]
      omega
    subst hact
    refine ⟨.cons ?_ hs0 (.nil _), ?_⟩
    · simp [disciplined, hheld]
    · refine ⟨fun _ w => ?_, fun _ => ?_, fun w hw => ?_, hk, ?_⟩
      · have h1 := ho w
        have h2 := hl.own hnd0 w
        rw [← hs]
        show (s.tr.held.erase e.id).count w = _
        rw [List.count_erase]
        rw [List.count_singleton] at h1
        split at h1 <;> split <;> simp_all <;> omega
      · rw [← hs]; exact hl.lost hnd0
      · rw [← hs]; exact hl.fresh w (Nat.lt_of_lt_of_le hw (hu w))
      · rw [← hs]; exact hl.sent

/-- A step in which `recv` returns a task. -/
theorem Inv.accounted {as : List Tracker.Act} (hg : Good c.tr) (h : Inv c lf now s) {k r : Nat} {it : Item} {t : Tracker.State}
    (hact : as = [.account k])
    (hk : s.tr.claimed[k]? = some (r, it)) (hs : Tracker.step c.tr s.tr (.account k) = .ok t) (h1 : s'.tr = t)
    (hd : (∀ w, (owned s').count w = (owned s).count w + [it.id].count w) ∧
      (∀ w, (unstarted s').count w ≤ (unstarted s).count w + [it.id].count w) ∧ s'.conns = s.conns) :
    Tracker.Runs c.tr s.tr as s'.tr ∧ Live s' := by
  subst h1
  have hrun : Tracker.Runs c.tr s.tr [.account k] s'.tr := .cons rfl hs (.nil _)
  subst hact
  refine ⟨hrun, ?_⟩
  have hl := h.live
  have hnd0 : s'.tr.pc ≠ .done → s.tr.pc ≠ .done := fun hp e => hp (done_stays hs e)
  have hr' := h.reach.later hrun
  have hnd := hr'.obtained_nodup hg
  simp only [Tracker.step, hk] at hs
  split at hs
  · cases hs
  · simp only [Res.ok.injEq] at hs
    obtain ⟨ho, hu, hc⟩ := hd
    rw [← hs] at hnd
    have hnd : ((s.tr.obtained ++ [(r, it.id)]).map (·.2)).Nodup := hnd
    rw [List.map_append, List.nodup_append] at hnd
    have hnew : it.id ∉ s.tr.obtained.map (·.2) := fun hm => hnd.2.2 _ hm it.id (by simp) rfl
    refine ⟨fun hp w => ?_, fun hp => ?_, fun w hw => ?_, hc ▸ hl.keys, ?_⟩
    · rw [ho, ← hs, ← hl.own (hnd0 hp)]; exact List.count_append
    · rw [← hs]; exact hl.lost (hnd0 hp)
    · rw [← hs]
      show w ∉ s.tr.startedSent
      have hu' := hu w
      by_cases hw' : w = it.id
      · subst hw'; exact fun hm => hnew (hl.sent _ hm)
      · apply hl.fresh
        have : [it.id].count w = 0 := by
          rw [List.count_eq_zero]; simpa using hw'
        omega
    · rw [← hs]
      intro w hw
      show w ∈ (s.tr.obtained ++ [(r, it.id)]).map (·.2)
      rw [List.map_append]
      exact List.mem_append_left _ (hl.sent w hw)

/-! ### Bookkeeping of the changes -/

theorem owned_setLoop {s1 : State} (h0 : owned s1 = owned s) {i : Nat} {a b : Loop} (h : s1.loops[i]? = some a) (v : Nat) :
    (owned (setLoop i b s1)).count v + (ownL a).count v = (owned s).count v + (ownL b).count v := by
  rw [← h0, owned_count, owned_count]
  have := count_set (f := ownL) (v := v) (b := b) h
  simp only [setLoop]
  omega

theorem unstarted_setLoop {s1 : State} (h0 : unstarted s1 = unstarted s) {i : Nat} {a b : Loop} (h : s1.loops[i]? = some a) (v : Nat) :
    (unstarted (setLoop i b s1)).count v + (unL a).count v = (unstarted s).count v + (unL b).count v := by
  rw [← h0, unstarted_count, unstarted_count]
  have := count_set (f := unL) (v := v) (b := b) h
  simp only [setLoop]
  omega

theorem owned_setH {s1 : State} (h0 : owned s1 = owned s) {i : Nat} {a b : Handler} (h : s1.handlers[i]? = some a) (v : Nat) :
    (owned (setH i b s1)).count v + (ownH a).count v = (owned s).count v + (ownH b).count v := by
  rw [← h0, owned_count, owned_count]
  have := count_set (f := ownH) (v := v) (b := b) h
  simp only [setH]
  omega

theorem unstarted_setH {s1 : State} (h0 : unstarted s1 = unstarted s) {i : Nat} {a b : Handler} (h : s1.handlers[i]? = some a) (v : Nat) :
    (unstarted (setH i b s1)).count v + (unH a).count v = (unstarted s).count v + (unH b).count v := by
  rw [← h0, unstarted_count, unstarted_count]
  have := count_set (f := unH) (v := v) (b := b) h
  simp only [setH]
  omega

theorem owned_reply (r : Reply) (s : State) : owned (reply r s) = owned s := by
  simp [owned, reply, ownH]

theorem unstarted_reply (r : Reply) (s : State) : unstarted (reply r s) = unstarted s := by
  simp [unstarted, reply, unH]

/-- A loop moves on, with a tracker action that concerns no task or none at all. -/
theorem loop_facts {s1 : State} (h1 : s1.loops = s.loops) (h2 : s1.handlers = s.handlers) (h3 : s1.conns = s.conns)
    (h4 : s1.reaper = s.reaper) (h5 : s1.forgotten = s.forgotten) {i : Nat} {a b : Loop} (h : s.loops[i]? = some a)
    (ho : ownL a = ownL b) (hu : ∀ v, (unL b).count v ≤ (unL a).count v) :
    (s.conns.map (·.1)).Nodup → (∀ v, (owned (setLoop i b s1)).count v = (owned s).count v) ∧
      (∀ v, (unstarted (setLoop i b s1)).count v ≤ (unstarted s).count v) ∧ ((setLoop i b s1).conns.map (·.1)).Nodup := by
  have e1 : owned s1 = owned s := by unfold owned; rw [h1, h2, h3, h4, h5]
  have e2 : unstarted s1 = unstarted s := by unfold unstarted; rw [h1, h2, h3]
  rw [← h1] at h
  intro hk
  refine ⟨fun v => ?_, fun v => ?_, ?_⟩
  · have := owned_setLoop e1 (b := b) h v
    rw [ho] at this
    omega
  · have := unstarted_setLoop e2 (b := b) h v
    have := hu v
    omega
  · show (s1.conns.map (·.1)).Nodup
    rw [h3]; exact hk

/-- A handler moves on, likewise. -/
theorem handler_facts {s1 : State} (h1 : s1.loops = s.loops) (h2 : s1.handlers = s.handlers) (h3 : s1.conns = s.conns)
    (h4 : s1.reaper = s.reaper) (h5 : s1.forgotten = s.forgotten) {i : Nat} {a b : Handler} (h : s.handlers[i]? = some a)
    (ho : ownH a = ownH b) (hu : ∀ v, (unH b).count v ≤ (unH a).count v) :
    (s.conns.map (·.1)).Nodup → (∀ v, (owned (setH i b s1)).count v = (owned s).count v) ∧
      (∀ v, (unstarted (setH i b s1)).count v ≤ (unstarted s).count v) ∧ ((setH i b s1).conns.map (·.1)).Nodup := by
  have e1 : owned s1 = owned s := by unfold owned; rw [h1, h2, h3, h4, h5]
  have e2 : unstarted s1 = unstarted s := by unfold unstarted; rw [h1, h2, h3]
  rw [← h2] at h
  intro hk
  refine ⟨fun v => ?_, fun v => ?_, ?_⟩
  · have := owned_setH e1 (b := b) h v
    rw [ho] at this
    omega
  · have := unstarted_setH e2 (b := b) h v
    have := hu v
    omega
  · show (s1.conns.map (·.1)).Nodup
    rw [h3]; exact hk

/-- Nothing changes for the tasks. -/
theorem same_facts (h1 : owned s' = owned s) (h2 : unstarted s' = unstarted s) (h3 : s'.conns.map (·.1) = s.conns.map (·.1)) :
    (s.conns.map (·.1)).Nodup → (∀ v, (owned s').count v = (owned s).count v) ∧
      (∀ v, (unstarted s').count v ≤ (unstarted s).count v) ∧ (s'.conns.map (·.1)).Nodup := by
  intro hk
  exact ⟨fun v => by rw [h1], fun v => by rw [h2]; exact Nat.le_refl _, h3 ▸ hk⟩

theorem polite_begun {r : Request} {txn : Nat} {host : String} {pid : Nat} {conn : Conn} {t : String}
    (hp : polite c s (.request r) = true) (ha : r.auth = some t) (ht : t = c.secret) (hb : r.body = .begun txn host pid)
    (hl : s.conns.lookup txn = some conn) : conn.begun = false := by
  simp only [polite, ha, hb, hl, ht, bne_self_eq_false, Bool.false_or, Bool.not_eq_true'] at hp
  exact hp

theorem Inv.begun {as : List Tracker.Act} (hg : Good c.tr) (h : Inv c lf now s) {jobid : Option (Option String)} {txn : Nat} {host : String} {pid : Nat}
    (hact : as = (match s.conns.lookup txn, jobid with
      | some conn, some (some j) => [.sendStarted conn.node host pid j]
      | _, _ => []))
    (hb : ∀ conn, s.conns.lookup txn = some conn → conn.begun = false)
    (hs : begunH c s jobid txn host pid = .ok s') :
    Tracker.Runs c.tr s.tr as s'.tr ∧ Live s' := by
  unfold begunH at hs
  cases hl : s.conns.lookup txn with
  | none =>
    simp only [hl, Res.ok.injEq] at hs
    subst hs
    exact h.silent (by simp [trackerAct, *]) rfl (same_facts (owned_reply _ _) (unstarted_reply _ _) rfl)
  | some conn =>
    simp only [hl] at hs
    split at hs
    · rename_i j
      obtain ⟨t, ht, rfl⟩ := trk_ok.1 hs
      have hbf := hb conn hl
      have hun (hk : (s.conns.map (·.1)).Nodup) (w : Nat) :
          ((modifyKey txn (fun x => { x with begun := true }) s.conns).flatMap unC).count w + [conn.node].count w =
            (s.conns.flatMap unC).count w := by
        have := count_modify (f := unC) (g := fun x => { x with begun := true }) (v := w) hk hl
        rw [show unC (txn, conn) = [conn.node] by simp [unC, hbf], show unC (txn, { conn with begun := true }) = [] from rfl,
          List.count_nil] at this
        omega
      refine h.started hg (by simp [trackerAct, *]) ht rfl ?_ ?_
      · intro hk
        have := hun hk conn.node
        rw [List.count_singleton_self] at this
        rw [unstarted_count]
        omega
      · intro hk
        refine ⟨fun w => ?_, fun w => ?_, ?_⟩
        · rw [owned_reply, owned_count, owned_count]
          have := count_modify (f := ownC) (g := fun x => { x with begun := true }) (v := w) hk hl
          simp only [ownC] at this
          simp only [ownC]
          omega
        · rw [unstarted_reply, unstarted_count, unstarted_count]
          have := hun hk w
          dsimp only
          omega
        · simp only [reply]
          rw [keys_modify]; exact hk
    · simp only [Res.ok.injEq] at hs
      subst hs
      exact h.silent (by rw [hact, hl]; split <;> simp_all) rfl (same_facts (owned_reply _ _) (unstarted_reply _ _) rfl)

theorem Inv.finishReq (h : Inv c lf now s) {jobid : Option (Option String)} {txn : Nat} {code : Int}
    {values : List (List (String × String))} {next : Option Nat} :
    Tracker.Runs c.tr s.tr [] (endH s jobid txn code values next).tr ∧
      Live (endH s jobid txn code values next) := by
  unfold endH
  split
  · rename_i j
    cases hl : s.conns.lookup txn with
    | none => exact h.silent rfl rfl (same_facts (owned_reply _ _) (unstarted_reply _ _) rfl)
    | some conn =>
      simp only
      split
      · refine h.silent rfl rfl (fun hk => ⟨fun v => ?_, fun v => ?_, nodup_drop txn hk⟩)
        · rw [owned_reply, owned_count, owned_count]
          have := count_drop (f := ownC) (v := v) hk hl
          simp only [ownC] at this ⊢
          rw [List.count_append]
          omega
        · rw [unstarted_reply, unstarted_count, unstarted_count]
          have := count_drop (f := unC) (v := v) hk hl
          dsimp only
          omega
      · refine h.silent rfl rfl (fun hk => ⟨fun v => ?_, fun v => ?_, nodup_drop txn hk⟩)
        · rw [owned_count, owned_count]
          have := count_drop (f := ownC) (v := v) hk hl
          simp only [ownC, List.flatMap_append, List.count_append, List.flatMap_cons, List.flatMap_nil, ownH, List.append_nil] at this ⊢
          omega
        · rw [unstarted_count, unstarted_count]
          have := count_drop (f := unC) (v := v) hk hl
          simp only [List.flatMap_append, List.count_append, List.flatMap_cons, List.flatMap_nil, unH, List.append_nil,
            List.count_nil]
          omega
  · exact h.silent rfl rfl (same_facts (owned_reply _ _) (unstarted_reply _ _) rfl)

theorem conns_modify_same {f : Nat × Conn → List Nat} {g : Conn → Conn} (hf : ∀ k x, f (k, g x) = f (k, x)) (txn : Nat) :
    ∀ l : List (Nat × Conn), (modifyKey txn g l).flatMap f = l.flatMap f
  | [] => rfl
  | x :: l => by
    have ih := conns_modify_same hf txn l
    unfold modifyKey at ih ⊢
    rw [List.map_cons, List.flatMap_cons, List.flatMap_cons, ih]
    congr 1
    split
    · exact hf x.1 x.2
    · rfl

theorem Inv.request (hg : Good c.tr) (h : Inv c lf now s) {r : Request} (hp : polite c s (.request r) = true)
    (hs : takeRequest c s r = .ok s') :
    Tracker.Runs c.tr s.tr (trackerAct c s (.request r)) s'.tr ∧ Live s' := by
  have hrep : ∀ x, trackerAct c s (.request r) = [] → s' = reply x s → Tracker.Runs c.tr s.tr (trackerAct c s (.request r)) s'.tr ∧ Live s' := by
    rintro x hx rfl
    exact h.silent hx rfl (same_facts (owned_reply _ _) (unstarted_reply _ _) rfl)
  unfold takeRequest at hs
  cases ha : r.auth with
  | none => simp only [ha, Res.ok.injEq] at hs; exact hrep _ (by simp [trackerAct, *]) hs.symm
  | some t =>
    by_cases ht : t = c.secret
    · cases hb : r.body with
      | bad => simp only [ha, hb, Res.ok.injEq] at hs; exact hrep _ (by simp [trackerAct, *]) hs.symm
      | start rt =>
        simp only [ha, hb, ht, ne_eq, not_true_eq_false, if_false, Res.ok.injEq] at hs
        subst hs
        unfold startH
        split
        · split
          · exact h.silent (by simp [trackerAct, *]) rfl (same_facts (owned_reply _ _) (unstarted_reply _ _) rfl)
          · refine h.silent (by simp [trackerAct, *]) rfl (same_facts ?_ ?_ rfl)
            · simp [owned, ownH]
            · simp [unstarted, unH]
        · exact h.silent (by simp [trackerAct, *]) rfl (same_facts (owned_reply _ _) (unstarted_reply _ _) rfl)
      | begun txn host pid =>
        simp only [ha, hb, ht, ne_eq, not_true_eq_false, if_false] at hs
        refine h.begun hg ?_ (fun conn hl => polite_begun hp ha ht hb hl) hs
        cases hl : s.conns.lookup txn <;> rcases hj : r.jobid with _ | _ | j <;> simp [trackerAct, ha, hb, ht, hl, hj]
      | finish txn code values next =>
        simp only [ha, hb, ht, ne_eq, not_true_eq_false, if_false, Res.ok.injEq] at hs
        subst hs
        rw [show trackerAct c s (.request r) = [] by simp [trackerAct, *]]
        exact h.finishReq
      | ping txn =>
        simp only [ha, hb, ht, ne_eq, not_true_eq_false, if_false] at hs
        unfold pingH at hs
        cases hl : s.conns.lookup txn with
        | none => simp only [hl, Res.ok.injEq] at hs; exact hrep _ (by simp [trackerAct, *]) hs.symm
        | some conn =>
          simp only [hl] at hs
          obtain ⟨x, hx, hs⟩ := Res.bind_ok.1 hs
          simp only [Res.ok.injEq] at hs
          subst hs
          refine h.silent (by simp [trackerAct, *]) rfl (same_facts ?_ ?_ ?_)
          · rw [owned_reply]
            simp only [owned, map_node]
            rw [conns_modify_same (by intros; rfl)]
          · rw [unstarted_reply]
            simp only [unstarted]
            rw [conns_modify_same (by intros; rfl)]
          · simp only [reply]; exact keys_modify _ _ _
      | mark js =>
        simp only [ha, hb, ht, ne_eq, not_true_eq_false, if_false, Res.ok.injEq] at hs
        subst hs
        exact h.silent (by simp [trackerAct, *]) rfl (same_facts (owned_reply _ _) (unstarted_reply _ _) rfl)
    · cases hb : r.body <;> simp only [ha, hb, ne_eq, ht, not_false_eq_true, if_true, Res.ok.injEq] at hs <;>
        exact hrep _ (by simp only [trackerAct, ha, hb] <;> rcases r.jobid with _ | _ | j <;> simp [ht]) hs.symm

theorem count_take {f : Nat × Conn → List Nat} {v txn : Nat} {l : List (Nat × Conn)} (hn : (l.map (·.1)).Nodup) :
    (l.flatMap f).count v = ((dropKey txn l).flatMap f).count v +
      (match l.lookup txn with | some conn => f (txn, conn) | none => []).count v := by
  cases hl : l.lookup txn with
  | none => rw [lookup_none_drop hl]; simp
  | some conn => exact count_drop hn hl

theorem Inv.reap (h : Inv c lf now s) (hs : step c s .reapRemove = .ok s') :
    Tracker.Runs c.tr s.tr [] s'.tr ∧ Live s' := by
  simp only [step] at hs
  cases hr : s.reaper with
  | removing txns expired =>
    cases txns with
    | nil => simp [hr] at hs
    | cons txn txns =>
      simp only [hr, Res.ok.injEq] at hs
      subst hs
      refine h.silent rfl rfl (fun hk => ⟨fun v => ?_, fun v => ?_, nodup_drop txn hk⟩)
      · rw [owned_count, owned_count]
        have := count_take (f := ownC) (v := v) (txn := txn) hk
        simp only [hr, ownR, List.count_append]
        cases hl : s.conns.lookup txn <;> simp only [hl, ownC, Option.map_none, Option.map_some, Option.toList] at this ⊢ <;> omega
      · rw [unstarted_count, unstarted_count]
        have := count_take (f := unC) (v := v) (txn := txn) hk
        dsimp only
        omega
  | softRemoving txns expired =>
    cases txns with
    | nil =>
      simp only [hr, Res.ok.injEq] at hs
      subst hs
      refine h.silent rfl rfl (same_facts ?_ rfl rfl)
      simp [owned, hr, ownR]
    | cons txn txns =>
      simp only [hr] at hs
      cases hl : s.conns.lookup txn with
      | none =>
        simp only [hl, Res.ok.injEq] at hs
        subst hs
        refine h.silent rfl rfl (same_facts ?_ rfl rfl)
        simp [owned, hr, ownR]
      | some conn =>
        simp only [hl, Res.ok.injEq] at hs
        subst hs
        refine h.silent rfl rfl (fun hk => ⟨fun v => ?_, fun v => ?_, nodup_drop txn hk⟩)
        · rw [owned_count, owned_count]
          have := count_drop (f := ownC) (v := v) hk hl
          simp only [hr, ownR, List.count_append, ownC] at this ⊢
          omega
        · rw [unstarted_count, unstarted_count]
          have := count_drop (f := unC) (v := v) hk hl
          dsimp only
          omega
  | _ => simp [hr] at hs

theorem Inv.insert (h : Inv c lf now s) {i v txn : Nat} {jobid : String} {timer : TimeWheel.TimerID}
    (hi : s.handlers[i]? = some (.timed v jobid txn timer)) (hs : step c s (.hInsert i) = .ok s') :
    Tracker.Runs c.tr s.tr [] s'.tr ∧ Live s' := by
  simp only [step, hi, Res.ok.injEq] at hs
  subst hs
  refine h.silent rfl rfl (fun hk => ⟨fun w => ?_, fun w => ?_, ?_⟩)
  · rw [owned_count, owned_count]
    have h1 := count_take (f := ownC) (v := w) (txn := txn) hk
    have h2 := count_set (f := ownH) (v := w) (b := .done (some (.task txn v))) hi
    simp only [setH, List.flatMap_append, List.count_append, List.flatMap_cons, List.flatMap_nil, List.append_nil, ownH,
      List.count_nil] at h2 ⊢
    cases hl : s.conns.lookup txn <;>
      simp only [hl, ownC, Option.map_none, Option.map_some, Option.toList, List.count_nil] at h1 ⊢ <;> omega
  · rw [unstarted_count, unstarted_count]
    have h1 := count_take (f := unC) (v := w) (txn := txn) hk
    have h2 := count_set (f := unH) (v := w) (b := .done (some (.task txn v))) hi
    simp only [setH, List.flatMap_append, List.count_append, List.flatMap_cons, List.flatMap_nil, List.append_nil, unH,
      List.count_nil] at h2 ⊢
    rw [show unC (txn, (⟨v, s.tr.now, timer, jobid, false⟩ : Conn)) = [v] from rfl]
    omega
  · simp only [setH, List.map_append, List.map_cons, List.map_nil]
    rw [List.nodup_append]
    refine ⟨nodup_drop txn hk, by simp, ?_⟩
    intro a ha b hb e
    rw [List.mem_singleton] at hb
    subst hb; subst e
    exact not_mem_drop _ _ ha

theorem Inv.step (hg : Good c.tr) (h : Inv c lf now s) {a : Act} (hp : polite c s a = true)
    (hs : Sys.step c s a = .ok s') :
    Tracker.Runs c.tr s.tr (trackerAct c s a) s'.tr ∧ Live s' := by
  cases a with
  | server a =>
    simp only [Sys.step] at hs
    split at hs
    · rename_i ha
      obtain ⟨t, ht, rfl⟩ := trk_ok.1 hs
      refine h.calm (by simp [trackerAct, *]) ?_ ht (server_calm ha ht) rfl (same_facts rfl rfl rfl)
      cases a <;> simp_all [serverAct, disciplined]
    · cases hs
  | joinDone =>
    simp only [Sys.step] at hs
    split at hs
    · obtain ⟨t, ht, rfl⟩ := trk_ok.1 hs
      exact h.calm (by simp [trackerAct, *]) rfl ht (joinDone_calm ht) rfl (same_facts rfl rfl rfl)
    · cases hs
  | loopRecv i =>
    simp only [Sys.step] at hs
    split at hs
    · rename_i hi
      split at hs
      · obtain ⟨t, ht, rfl⟩ := trk_ok.1 hs
        exact h.calm (by simp [trackerAct, *]) rfl ht (enter_calm ht) rfl (loop_facts rfl rfl rfl rfl rfl hi rfl (fun _ => Nat.le_refl _))
      · simp only [Res.ok.injEq] at hs
        subst hs
        exact h.silent (by simp [trackerAct, *]) rfl (loop_facts rfl rfl rfl rfl rfl hi rfl (fun _ => Nat.le_refl _))
    · cases hs
  | loopClosed i k =>
    simp only [Sys.step] at hs
    split at hs
    · rename_i hi
      split at hs
      · obtain ⟨t, ht, rfl⟩ := trk_ok.1 hs
        exact h.calm (by simp [trackerAct, *]) rfl ht (leave_calm ht) rfl (loop_facts rfl rfl rfl rfl rfl hi rfl (fun _ => Nat.le_refl _))
      · cases hs
    · cases hs
  | loopGot i k =>
    simp only [Sys.step] at hs
    split at hs
    · rename_i r it hi hk
      split at hs
      · obtain ⟨t, ht, rfl⟩ := trk_ok.1 hs
        refine h.accounted hg (by simp [trackerAct, *]) hk ht rfl ⟨fun w => ?_, fun w => ?_, rfl⟩
        · have := owned_setLoop (s := s) (s1 := { s with tr := t }) rfl (b := .got it.id) hi w
          simp only [ownL, List.count_nil] at this
          omega
        · have := unstarted_setLoop (s := s) (s1 := { s with tr := t }) rfl (b := .got it.id) hi w
          simp only [unL, List.count_nil] at this
          omega
      · cases hs
    · cases hs
  | loopSpawn i ok =>
    simp only [Sys.step] at hs
    split at hs
    · rename_i v hi
      split at hs
      · simp only [Res.ok.injEq] at hs
        subst hs
        cases ok <;> exact h.silent (by simp [trackerAct, *]) rfl (loop_facts rfl rfl rfl rfl rfl hi rfl (fun _ => Nat.le_refl _))
      · cases hs
    · cases hs
  | loopDie i =>
    simp only [Sys.step] at hs
    split at hs
    · rename_i v hv
      simp only [Res.ok.injEq] at hs
      subst hs
      obtain ⟨l, hi, hm⟩ := Option.bind_eq_some_iff.1 hv
      refine h.silent (by simp [trackerAct]) (by simp only [setLoop]; split <;> rfl)
        (loop_facts (by split <;> rfl) (by split <;> rfl) (by split <;> rfl) (by split <;> rfl) (by split <;> rfl) hi ?_
          (fun _ => by simp [unL]))
      cases l <;> simp only [mayDie] at hm <;> first | (cases hm; done) | (split at hm <;> cases hm <;> rfl)
    · cases hs
  | loopStarted i host pid =>
    simp only [Sys.step] at hs
    split at hs
    · rename_i v start hi
      obtain ⟨t, ht, rfl⟩ := trk_ok.1 hs
      have key (w : Nat) := unstarted_setLoop (s := s) (s1 := { s with tr := t }) rfl (b := .running v start) hi w
      simp only [unL, List.count_nil] at key
      refine h.started hg (by simp [trackerAct, *]) ht rfl (fun _ => ?_) (fun hk => ⟨fun w => ?_, fun w => ?_, hk⟩)
      · have := key v; rw [List.count_singleton_self] at this; omega
      · have := owned_setLoop (s := s) (s1 := { s with tr := t }) rfl (b := .running v start) hi w
        simp only [ownL] at this
        omega
      · have := key w; omega
    · rename_i v hi
      obtain ⟨t, ht, rfl⟩ := trk_ok.1 hs
      have key (w : Nat) := unstarted_setLoop (s := s) (s1 := { s with tr := t }) rfl (b := .failed v) hi w
      simp only [unL, List.count_nil] at key
      refine h.started hg (by simp [trackerAct, *]) ht rfl (fun _ => ?_) (fun hk => ⟨fun w => ?_, fun w => ?_, hk⟩)
      · have := key v; rw [List.count_singleton_self] at this; omega
      · have := owned_setLoop (s := s) (s1 := { s with tr := t }) rfl (b := .failed v) hi w
        simp only [ownL] at this
        omega
      · have := key w; omega
    · cases hs
  | loopSoft i =>
    simp only [Sys.step] at hs
    split at hs
    · rename_i hi _
      split at hs
      · simp only [Res.ok.injEq] at hs
        subst hs
        exact h.silent (by simp [trackerAct, *]) rfl (loop_facts rfl rfl rfl rfl rfl hi rfl (fun _ => Nat.le_refl _))
      · cases hs
    · cases hs
  | loopHard i =>
    simp only [Sys.step] at hs
    split at hs
    · rename_i hi _
      simp only [Res.ok.injEq] at hs
      subst hs
      exact h.silent (by simp [trackerAct, *]) rfl (loop_facts rfl rfl rfl rfl rfl hi rfl (fun _ => Nat.le_refl _))
    · cases hs
  | loopOutput i code values =>
    simp only [Sys.step] at hs
    split at hs
    · rename_i hi
      simp only [Res.ok.injEq] at hs
      subst hs
      exact h.silent (by simp [trackerAct, *]) rfl (loop_facts rfl rfl rfl rfl rfl hi rfl (fun _ => Nat.le_refl _))
    · cases hs
  | loopReport i =>
    have main : ∀ (v : Nat) (e : Fin) (l l' : Loop) (t : Tracker.State), e.id = v → s.loops[i]? = some l → ownL l = [v] → unL l = [] →
        ownL l' = [] → unL l' = [] → Tracker.step c.tr s.tr (.sendFinished e) = .ok t →
        Tracker.Runs c.tr s.tr [.sendFinished e] (setLoop i l' { s with tr := t }).tr ∧
          Live (setLoop i l' { s with tr := t }) := by
      intro v e l l' t he hi h1 h2 h3 h4 ht
      refine h.finished rfl ht rfl (fun hk => ⟨fun w => ?_, fun w => ?_, hk⟩)
      · have := owned_setLoop (s := s) (s1 := { s with tr := t }) rfl (b := l') hi w
        rw [h1, h3, List.count_nil] at this
        rw [he]
        omega
      · have := unstarted_setLoop (s := s) (s1 := { s with tr := t }) rfl (b := l') hi w
        rw [h2, h4] at this
        omega
    simp only [Sys.step] at hs
    split at hs
    · rename_i v hi
      obtain ⟨t, ht, rfl⟩ := trk_ok.1 hs
      simp only [trackerAct, hi]
      exact main v _ _ _ t rfl hi rfl rfl rfl rfl ht
    · rename_i v hi
      obtain ⟨t, ht, rfl⟩ := trk_ok.1 hs
      simp only [trackerAct, hi]
      exact main v _ _ _ t rfl hi rfl rfl rfl rfl ht
    · rename_i v code values hi
      obtain ⟨t, ht, rfl⟩ := trk_ok.1 hs
      simp only [trackerAct, hi]
      exact main v _ _ _ t rfl hi rfl rfl rfl rfl ht
    · cases hs
  | request r =>
    simp only [Sys.step] at hs
    split at hs
    · cases hs
    · exact h.request hg hp hs
  | hRecv i =>
    simp only [Sys.step] at hs
    split at hs
    · rename_i hi
      split at hs
      · obtain ⟨t, ht, rfl⟩ := trk_ok.1 hs
        exact h.calm (by simp [trackerAct, *]) rfl ht (enter_calm ht) rfl (handler_facts rfl rfl rfl rfl rfl hi rfl (fun _ => Nat.le_refl _))
      · simp only [Res.ok.injEq] at hs
        subst hs
        exact h.silent (by simp [trackerAct, *]) rfl (handler_facts rfl rfl rfl rfl rfl hi rfl (fun _ => Nat.le_refl _))
      · simp only [Res.ok.injEq] at hs
        subst hs
        exact h.silent (by simp [trackerAct, *]) rfl (handler_facts rfl rfl rfl rfl rfl hi rfl (fun _ => Nat.le_refl _))
    · cases hs
  | hLeave i k timeout =>
    simp only [Sys.step] at hs
    split at hs
    · rename_i hi
      split at hs
      · simp only [Res.ok.injEq] at hs
        subst hs
        exact h.silent (by simp [trackerAct, *]) rfl (handler_facts rfl rfl rfl rfl rfl hi rfl (fun _ => Nat.le_refl _))
      · cases hs
    · rename_i hi
      split at hs
      · obtain ⟨t, ht, rfl⟩ := trk_ok.1 hs
        exact h.calm (by simp [trackerAct, *]) rfl ht (leave_calm ht) rfl (handler_facts rfl rfl rfl rfl rfl hi rfl (fun _ => Nat.le_refl _))
      · cases hs
    · cases hs
  | hDrop i k =>
    simp only [Sys.step] at hs
    split at hs
    · rename_i hi
      simp only [Res.ok.injEq] at hs
      subst hs
      exact h.silent (by simp [trackerAct, *]) rfl (handler_facts rfl rfl rfl rfl rfl hi rfl (fun _ => Nat.le_refl _))
    · rename_i hi
      split at hs
      · obtain ⟨t, ht, rfl⟩ := trk_ok.1 hs
        exact h.calm (by simp [trackerAct, *]) rfl ht (leave_calm ht) rfl (handler_facts rfl rfl rfl rfl rfl hi rfl (fun _ => Nat.le_refl _))
      · cases hs
    · rename_i hi
      simp only [Res.ok.injEq] at hs
      subst hs
      exact h.silent (by simp [trackerAct, *]) rfl (handler_facts rfl rfl rfl rfl rfl hi rfl (fun _ => Nat.le_refl _))
    · cases hs
  | hGot i k =>
    simp only [Sys.step] at hs
    split at hs
    · rename_i rt jobid r it hi hk
      split at hs
      · obtain ⟨t, ht, rfl⟩ := trk_ok.1 hs
        refine h.accounted hg (by simp [trackerAct, *]) hk ht rfl ⟨fun w => ?_, fun w => ?_, rfl⟩
        · have := owned_setH (s := s) (s1 := { s with tr := t }) rfl (b := .got it.id jobid) hi w
          simp only [ownH, List.count_nil] at this
          omega
        · have := unstarted_setH (s := s) (s1 := { s with tr := t }) rfl (b := .got it.id jobid) hi w
          simp only [unH, List.count_nil] at this
          omega
      · cases hs
    · cases hs
  | hTimer i txn =>
    simp only [Sys.step] at hs
    split at hs
    · rename_i v jobid hi
      obtain ⟨x, _, hs⟩ := Res.bind_ok.1 hs
      simp only [Res.ok.injEq] at hs
      subst hs
      exact h.silent (by simp [trackerAct, *]) rfl (handler_facts rfl rfl rfl rfl rfl hi rfl (fun _ => Nat.le_refl _))
    · cases hs
  | hDie i =>
    simp only [Sys.step] at hs
    split at hs
    · rename_i v jobid hi
      split at hs
      · simp only [Res.ok.injEq] at hs
        subst hs
        exact h.silent (by simp [trackerAct, *]) rfl (handler_facts rfl rfl rfl rfl rfl hi rfl (fun _ => by simp [unH]))
      · cases hs
    · cases hs
  | hInsert i =>
    have hs0 := hs
    simp only [Sys.step] at hs
    split at hs
    · rename_i v jobid txn timer hi
      exact h.insert hi hs0
    · cases hs
  | hCancel i =>
    simp only [Sys.step] at hs
    split at hs
    · rename_i hi
      simp only [Res.ok.injEq] at hs
      subst hs
      exact h.silent (by simp [trackerAct, *]) rfl (handler_facts rfl rfl rfl rfl rfl hi rfl (fun _ => Nat.le_refl _))
    · cases hs
  | hReport i =>
    simp only [Sys.step] at hs
    split at hs
    · rename_i conn code values next hi
      obtain ⟨t, ht, rfl⟩ := trk_ok.1 hs
      refine h.finished (by simp [trackerAct, *]) ht rfl (fun hk => ⟨fun w => ?_, fun w => ?_, hk⟩)
      · cases next with
        | none =>
          have := owned_setH (s := s) (s1 := { s with tr := t, nextFlag := s.nextFlag + 1 }) rfl (b := .done (some .ended)) hi w
          simp only [ownH, List.count_nil] at this
          simp only
          omega
        | some rt =>
          have := owned_setH (s := s) (s1 := { s with tr := t, nextFlag := s.nextFlag + 1 }) rfl (b := .waiting s.nextFlag rt conn.jobid) hi w
          simp only [ownH, List.count_nil] at this
          simp only
          omega
      · cases next with
        | none =>
          have := unstarted_setH (s := s) (s1 := { s with tr := t, nextFlag := s.nextFlag + 1 }) rfl (b := .done (some .ended)) hi w
          simp only [unH, List.count_nil] at this
          simp only
          omega
        | some rt =>
          have := unstarted_setH (s := s) (s1 := { s with tr := t, nextFlag := s.nextFlag + 1 }) rfl (b := .waiting s.nextFlag rt conn.jobid) hi w
          simp only [unH, List.count_nil] at this
          simp only
          omega
    · cases hs
  | hFlag i =>
    simp only [Sys.step] at hs
    split at hs
    · rename_i hi
      split at hs
      · simp only [Res.ok.injEq] at hs
        subst hs
        exact h.silent (by simp [trackerAct, *]) rfl (handler_facts rfl rfl rfl rfl rfl hi rfl (fun _ => Nat.le_refl _))
      · cases hs
    · cases hs
  | reapTick =>
    simp only [Sys.step] at hs
    split at hs
    · rename_i hr
      simp only [Res.ok.injEq] at hs
      subst hs
      exact h.silent (by simp [trackerAct, *]) rfl (same_facts (by simp [owned, hr, ownR]) rfl rfl)
    · cases hs
  | reapRemove => exact h.reap hs
  | reapCheck order =>
    simp only [Sys.step] at hs
    split at hs
    · rename_i expired hr
      split at hs
      · split at hs
        · simp only [Res.ok.injEq] at hs
          subst hs
          exact h.silent (by simp [trackerAct, *]) rfl (same_facts (by simp [owned, hr, ownR]) rfl rfl)
        · cases hs
      · simp only [Res.ok.injEq] at hs
        subst hs
        exact h.silent (by simp [trackerAct, *]) rfl (same_facts (by simp [owned, hr, ownR]) rfl rfl)
    · cases hs
  | reapSend =>
    simp only [Sys.step] at hs
    split at hs
    · rename_i v vs hr
      obtain ⟨t, ht, rfl⟩ := trk_ok.1 hs
      refine h.finished (by simp [trackerAct, *]) ht rfl (fun hk => ⟨fun w => ?_, fun w => Nat.le_refl _, hk⟩)
      rw [owned_count, owned_count, hr]
      simp only [ownR]
      have : (v :: vs).count w = [v].count w + vs.count w := by rw [← List.singleton_append, List.count_append]
      omega
    · rename_i hr
      simp only [Res.ok.injEq] at hs
      subst hs
      exact h.silent (by simp [trackerAct, *]) rfl (same_facts (by simp [owned, hr, ownR]) rfl rfl)
    · cases hs
  | reapStop =>
    simp only [Sys.step] at hs
    split at hs
    · rename_i hr
      simp only [Res.ok.injEq] at hs
      subst hs
      exact h.silent (by simp [trackerAct, *]) rfl (same_facts (by simp [owned, hr.1, ownR]) rfl rfl)
    · cases hs

theorem Inv.init (c : Cfg) (lf : LogFile) (now : Int) : Inv c lf now (Sys.init c lf now) := by
  have hloops : ∀ f : Loop → List Nat, f .top = [] → (Sys.init c lf now).loops.flatMap f = [] := by
    intro f hf
    simp only [Sys.init]
    split
    · rfl
    · simp [List.flatMap_replicate, hf]
  refine ⟨⟨[], .nil _⟩, ⟨fun _ v => ?_, fun _ => rfl, fun v hv => ?_, List.nodup_nil, fun v hv => ?_⟩⟩
  · rw [owned_count, hloops ownL rfl]
    simp only [Sys.init]
    split <;> simp [Tracker.init, ownR]
  · rw [unstarted_count, hloops unL rfl] at hv
    simp [Sys.init] at hv
  · simp [Sys.init, Tracker.init] at hv

theorem Runs.inv (hg : Good c.tr) {as : List Act} (h : Inv c lf now s) (hr : Runs c s as s') :
    Inv c lf now s' ∧ Tracker.Runs c.tr s.tr (toTracker c s as) s'.tr := by
  induction hr with
  | nil s => exact ⟨h, .nil _⟩
  | cons hp hs _ ih =>
    obtain ⟨h1, h2⟩ := h.step hg hp hs
    obtain ⟨i1, i2⟩ := ih ⟨h.reach.later h1, h2⟩
    refine ⟨i1, ?_⟩
    simp only [toTracker, collect, hs]
    exact h1.append i2

theorem Reachable.inv (hg : Good c.tr) (hr : Reachable c lf now s) : Inv c lf now s := by
  obtain ⟨as, hr⟩ := hr
  exact (Runs.inv hg (Inv.init c lf now) hr).1

end Verif.Sys
