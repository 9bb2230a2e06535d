import Verif.Proof.Stuck
import Verif.Proof.Terminate

/-!
# The whole system with local loops only never stops by itself
-/

namespace Verif.Sys
open Verif Verif.Tracker

variable {c : Cfg} {lf : LogFile} {now : Int} {s s' : State}

theorem count_range' (n r : Nat) : (List.range n).count r = if r < n then 1 else 0 := by
  rw [(List.nodup_range (n := n)).count (a := r)]
  simp [List.mem_range]

/-- Is loop `i`, being at `l`, inside `recv` as a receiver of type `r`? -/
def ind (c : Cfg) (r i : Nat) (l : Option Loop) : Nat := if l = some .inRecv ∧ loopType c i = r then 1 else 0

/-- Number of loops inside `recv` as receivers of type `r`. -/
def receivers (c : Cfg) (r : Nat) (ls : List Loop) : Nat := ((List.range ls.length).map (fun i => ind c r i ls[i]?)).sum

theorem receivers_set (r : Nat) {ls : List Loop} {i : Nat} {l l' : Loop} (h : ls[i]? = some l) :
    receivers c r (ls.set i l') + ind c r i (some l) = receivers c r ls + ind c r i (some l') := by
  have hlt := (List.getElem?_eq_some_iff.1 h).1
  have h1 := sum_update (fun j => ind c r j ls[j]?) i (ind c r i (some l')) (List.range ls.length)
  rw [count_range', if_pos hlt] at h1
  simp only [Nat.one_mul, h] at h1
  have e : (fun j => ind c r j (ls.set i l')[j]?) = (fun j => if j = i then ind c r i (some l') else ind c r j ls[j]?) := by
    funext j
    by_cases hj : j = i
    · subst hj; simp [List.getElem?_set_self hlt]
    · simp [hj, List.getElem?_set_ne (Ne.symm hj)]
  simp only [receivers, List.length_set, e]
  exact h1

theorem sum_pos {α : Type} (f : α → Nat) (l : List α) : 0 < (l.map f).sum ↔ ∃ x ∈ l, 0 < f x := by
  induction l with
  | nil => simp
  | cons x l ih =>
    simp only [List.map_cons, List.sum_cons, List.mem_cons, exists_eq_or_imp, ← ih]
    omega

theorem receivers_pos {r : Nat} {ls : List Loop} : 0 < receivers c r ls ↔ ∃ i, ls[i]? = some .inRecv ∧ loopType c i = r := by
  unfold receivers
  rw [sum_pos]
  constructor
  · rintro ⟨i, _, hi⟩
    unfold ind at hi
    split at hi
    · exact ⟨i, by assumption⟩
    · omega
  · rintro ⟨i, hi, hr⟩
    have hlt := (List.getElem?_eq_some_iff.1 hi).1
    refine ⟨i, List.mem_range.2 hlt, ?_⟩
    unfold ind
    rw [if_pos ⟨hi, hr⟩]
    omega

/-- The runner type with which an HTTP handler is inside `recv`. -/
def hTypes : Handler → List Nat
  | .inRecv rt _ => [rt]
  | _ => []

/-- Where the local loops can be. -/
structure LoopsOk (c : Cfg) (s : State) : Prop where
  len : s.loops.length = if c.numParallel = 0 then 0 else c.numParallel + 1
  recv : ∀ r, receivers c r s.loops + (s.handlers.flatMap hTypes).count r = (inside s.tr).count r
  out : ∀ l ∈ s.loops, (l = .exited ∨ ∃ v, l = .cancelled v) → s.tr.readyOpen = false
  killed : ∀ v, .killed v ∈ s.loops → s.tr.token = some .hard
  alive : ∀ v, .dead v ∉ s.loops

theorem LoopsOk.set (h : LoopsOk c s) {i : Nat} {l l' : Loop} (hl : s.loops[i]? = some l) (hs : s'.loops = s.loops.set i l')
    (hh : s'.handlers = s.handlers) (hin : ∀ r, (inside s'.tr).count r + ind c r i (some l) = (inside s.tr).count r + ind c r i (some l'))
    (ho : s.tr.readyOpen = false → s'.tr.readyOpen = false) (ht : s.tr.token = some .hard → s'.tr.token = some .hard)
    (h1 : (l' = .exited ∨ ∃ v, l' = .cancelled v) → s'.tr.readyOpen = false)
    (h2 : ∀ v, l' = .killed v → s'.tr.token = some .hard) (h3 : ∀ v, l' ≠ .dead v) : LoopsOk c s' := by
  refine ⟨?_, ?_, ?_, ?_, ?_⟩
  · rw [hs, List.length_set]; exact h.len
  · intro r
    rw [hs, hh]
    have e1 := receivers_set (c := c) r (l' := l') hl
    have e2 := h.recv r
    have e3 := hin r
    omega
  · intro x hx hc
    rw [hs] at hx
    rcases List.mem_or_eq_of_mem_set hx with hx | rfl
    · exact ho (h.out x hx hc)
    · exact h1 hc
  · intro v hx
    rw [hs] at hx
    rcases List.mem_or_eq_of_mem_set hx with hx | hx
    · exact ht (h.killed v hx)
    · exact h2 v hx.symm
  · intro v hx
    rw [hs] at hx
    rcases List.mem_or_eq_of_mem_set hx with hx | hx
    · exact h.alive v hx
    · exact h3 v hx.symm

theorem LoopsOk.same (h : LoopsOk c s) (hs : s'.loops = s.loops)
    (hh : ∀ r, (s'.handlers.flatMap hTypes).count r = (s.handlers.flatMap hTypes).count r) (hin : ∀ r, (inside s'.tr).count r = (inside s.tr).count r)
    (ho : s.tr.readyOpen = false → s'.tr.readyOpen = false) (ht : s.tr.token = some .hard → s'.tr.token = some .hard) :
    LoopsOk c s' := by
  refine ⟨hs ▸ h.len, ?_, ?_, ?_, ?_⟩
  · intro r; rw [hs, hin, hh]; exact h.recv r
  · intro l hl hc; rw [hs] at hl; exact ho (h.out l hl hc)
  · intro v hv; rw [hs] at hv; exact ht (h.killed v hv)
  · intro v hv; rw [hs] at hv; exact h.alive v hv

theorem LoopsOk.move (h : LoopsOk c s) (hs : s'.loops = s.loops) {i : Nat} {x y : Handler} (hx : s.handlers[i]? = some x)
    (hh : s'.handlers = s.handlers.set i y)
    (hin : ∀ r, (inside s'.tr).count r + (hTypes x).count r = (inside s.tr).count r + (hTypes y).count r)
    (ho : s.tr.readyOpen = false → s'.tr.readyOpen = false) (ht : s.tr.token = some .hard → s'.tr.token = some .hard) :
    LoopsOk c s' := by
  refine ⟨hs ▸ h.len, ?_, ?_, ?_, ?_⟩
  · intro r
    rw [hs, hh]
    have h1 := count_set (f := hTypes) (v := r) (b := y) hx
    have h2 := h.recv r
    have h3 := hin r
    omega
  · intro l hl hc; rw [hs] at hl; exact ho (h.out l hl hc)
  · intro v hv; rw [hs] at hv; exact ht (h.killed v hv)
  · intro v hv; rw [hs] at hv; exact h.alive v hv

theorem ind_other {r i : Nat} {l : Loop} (h : l ≠ .inRecv) : ind c r i (some l) = 0 := by
  unfold ind
  rw [if_neg]
  rintro ⟨h1, _⟩
  exact h (Option.some.inj h1)

theorem ind_inRecv (r i : Nat) : ind c r i (some .inRecv) = [loopType c i].count r := by
  simp only [ind, true_and, List.count_singleton, beq_iff_eq]

theorem recvCheck_local {t : Tracker.State} {i : Nat} {e : RecvErr} (h : recvCheck t (loopType c i) = .error e) : t.readyOpen = false := by
  have : loopType c i < 64 := by unfold loopType; split <;> omega
  unfold recvCheck at h
  rw [if_neg (by omega)] at h
  split at h
  · assumption
  · cases h

theorem takeRequest_inside {r : Request} (hs : takeRequest c s r = .ok s') :
    inside s'.tr = inside s.tr ∧ s'.tr.readyOpen = s.tr.readyOpen ∧ s'.tr.token = s.tr.token := by
  unfold takeRequest at hs
  split at hs
  · simp only [Res.ok.injEq] at hs; subst hs; exact ⟨rfl, rfl, rfl⟩
  · split at hs
    · simp only [Res.ok.injEq] at hs; subst hs; exact ⟨rfl, rfl, rfl⟩
    · split at hs
      · simp only [Res.ok.injEq] at hs; subst hs; exact ⟨rfl, rfl, rfl⟩
      · split at hs
        · simp only [Res.ok.injEq] at hs; subst hs
          unfold startH
          repeat' split
          all_goals exact ⟨rfl, rfl, rfl⟩
        · unfold begunH at hs
          repeat' split at hs
          · simp only [Res.ok.injEq] at hs; subst hs; exact ⟨rfl, rfl, rfl⟩
          · obtain ⟨t, ht, rfl⟩ := trk_ok.1 hs
            simp only [Tracker.step] at ht
            split at ht
            · cases ht
            · simp only [Res.ok.injEq] at ht; subst ht; exact ⟨rfl, rfl, rfl⟩
          · simp only [Res.ok.injEq] at hs; subst hs; exact ⟨rfl, rfl, rfl⟩
        · simp only [Res.ok.injEq] at hs; subst hs
          unfold endH
          repeat' split
          all_goals exact ⟨rfl, rfl, rfl⟩
        · unfold pingH at hs
          split at hs
          · simp only [Res.ok.injEq] at hs; subst hs; exact ⟨rfl, rfl, rfl⟩
          · obtain ⟨_, _, hs⟩ := Res.bind_ok.1 hs
            simp only [Res.ok.injEq] at hs; subst hs; exact ⟨rfl, rfl, rfl⟩
        · simp only [Res.ok.injEq] at hs; subst hs; exact ⟨rfl, rfl, rfl⟩
        · cases hs

theorem LoopsOk.step (hg : Good c.tr) (hi : Inv c lf now s) (hq : Quiet s.tr) (h : LoopsOk c s) {a : Act}
    (hs : Sys.step c s a = .ok s') (ha : isDie a = false) : LoopsOk c s' := by
  obtain ⟨hti, _⟩ := hi.reach.inv hg
  have close : ∀ {b t}, Tracker.step c.tr s.tr b = .ok t → s.tr.readyOpen = false → t.readyOpen = false :=
    fun hb ho => (step_closed hti ho hb).1
  have ins : ∀ {e t}, Tracker.step c.tr s.tr (.sendFinished e) = .ok t → inside t = inside s.tr := by
    intro e t ht
    simp only [Tracker.step] at ht
    split at ht
    · cases ht
    · simp only [Res.ok.injEq] at ht; subst ht; rfl
  have insL : ∀ {k q t}, Tracker.step c.tr s.tr (.leave k) = .ok t → s.tr.waiting[k]? = some q → ∀ r,
      (inside t).count r + [q].count r = (inside s.tr).count r := by
    intro k q t ht hk r
    simp only [Tracker.step] at ht
    split at ht
    · simp only [Res.ok.injEq] at ht; subst ht
      have := count_eraseIdx_id r hk
      simp only [inside_count]
      omega
    · cases ht
  cases a with
  | server a =>
    simp only [Sys.step] at hs
    split at hs
    · rename_i hsa
      obtain ⟨t, ht, rfl⟩ := trk_ok.1 hs
      exact h.same rfl (fun _ => rfl) (server_inside hsa ht) (close ht) (hard_stays ht)
    · cases hs
  | joinDone =>
    simp only [Sys.step] at hs
    split at hs
    · obtain ⟨t, ht, rfl⟩ := trk_ok.1 hs
      refine h.same rfl (fun _ => rfl) (fun r => ?_) (close ht) (hard_stays ht)
      simp only [Tracker.step] at ht
      repeat' split at ht
      all_goals first | (cases ht; done) | (simp only [Res.ok.injEq] at ht; subst ht; rfl)
    · cases hs
  | loopRecv i =>
    simp only [Sys.step] at hs
    split at hs
    · rename_i hli
      split at hs
      · obtain ⟨t, ht, rfl⟩ := trk_ok.1 hs
        refine h.set hli rfl rfl (fun r => ?_) (close ht) (hard_stays ht) (by simp) (by simp) (by simp)
        rw [ind_other (by simp), ind_inRecv]
        simp only [Tracker.step] at ht
        split at ht
        · cases ht
        · split at ht
          · simp only [Res.ok.injEq] at ht; subst ht
            simp only [setLoop, inside_count, List.count_append]
            omega
          · cases ht
      · rename_i e he
        simp only [Res.ok.injEq] at hs; subst hs
        refine h.set hli rfl rfl (fun r => ?_) (fun x => x) (fun x => x) (fun _ => recvCheck_local he) (by simp) (by simp)
        rw [ind_other (by simp), ind_other (by simp)]; rfl
    · cases hs
  | loopClosed i k =>
    simp only [Sys.step] at hs
    split at hs
    · rename_i hli
      split at hs
      · rename_i hk
        obtain ⟨t, ht, rfl⟩ := trk_ok.1 hs
        refine h.set hli rfl rfl (fun r => ?_) (close ht) (hard_stays ht) (fun _ => close ht hk.1) (by simp) (by simp)
        rw [ind_inRecv, ind_other (by simp)]
        simp only [Tracker.step] at ht
        split at ht
        · simp only [Res.ok.injEq] at ht; subst ht
          have := count_eraseIdx_id r hk.2
          simp only [setLoop, inside_count]
          omega
        · cases ht
      · cases hs
    · cases hs
  | loopGot i k =>
    simp only [Sys.step] at hs
    split at hs
    · rename_i r it hli hk
      split at hs
      · rename_i hr
        obtain ⟨t, ht, rfl⟩ := trk_ok.1 hs
        refine h.set hli rfl rfl (fun r => ?_) (close ht) (hard_stays ht) (by simp) (by simp) (by simp)
        rw [ind_inRecv, ind_other (by simp)]
        simp only [Tracker.step, hk] at ht
        split at ht
        · cases ht
        · simp only [Res.ok.injEq] at ht; subst ht
          have := count_eraseIdx (fun x : Nat × Item => x.1) r hk
          simp only [hr] at this
          simp only [setLoop, inside_count]
          omega
      · cases hs
    · cases hs
  | loopSpawn i ok =>
    simp only [Sys.step] at hs
    split at hs
    · rename_i v hli
      split at hs
      · simp only [Res.ok.injEq] at hs; subst hs
        refine h.set hli rfl rfl (fun r => ?_) (fun x => x) (fun x => x) ?_ ?_ ?_
        · rw [ind_other (by simp), ind_other (by split <;> simp)]; rfl
        · cases ok <;> simp
        · cases ok <;> simp
        · cases ok <;> simp
      · cases hs
    · cases hs
  | loopDie i => simp [isDie] at ha
  | loopStarted i host pid =>
    have ins : ∀ {v host pid j t}, Tracker.step c.tr s.tr (.sendStarted v host pid j) = .ok t → inside t = inside s.tr := by
      intro v host pid j t ht
      simp only [Tracker.step] at ht
      split at ht
      · cases ht
      · simp only [Res.ok.injEq] at ht; subst ht; rfl
    simp only [Sys.step] at hs
    split at hs
    · rename_i v st hli
      obtain ⟨t, ht, rfl⟩ := trk_ok.1 hs
      refine h.set hli rfl rfl (fun r => ?_) (close ht) (hard_stays ht) (by simp) (by simp) (by simp)
      rw [ind_other (by simp), ind_other (by simp)]
      simp only [setLoop, ins ht]
    · rename_i v hli
      obtain ⟨t, ht, rfl⟩ := trk_ok.1 hs
      refine h.set hli rfl rfl (fun r => ?_) (close ht) (hard_stays ht) (by simp) (by simp) (by simp)
      rw [ind_other (by simp), ind_other (by simp)]
      simp only [setLoop, ins ht]
    · cases hs
  | loopSoft i =>
    simp only [Sys.step] at hs
    split at hs
    · rename_i v st t hli htok
      split at hs
      · simp only [Res.ok.injEq] at hs; subst hs
        refine h.set hli rfl rfl (fun r => ?_) (fun x => x) (fun x => x) (fun _ => hti.shape.softClosed (hq.tok t htok)) (by simp) (by simp)
        rw [ind_other (by simp), ind_other (by simp)]; rfl
      · cases hs
    · cases hs
  | loopHard i =>
    simp only [Sys.step] at hs
    split at hs
    · rename_i v st hli htok
      simp only [Res.ok.injEq] at hs; subst hs
      refine h.set hli rfl rfl (fun r => ?_) (fun x => x) (fun x => x) (by simp) (fun _ _ => htok) (by simp)
      rw [ind_other (by simp), ind_other (by simp)]; rfl
    · cases hs
  | loopOutput i code values =>
    simp only [Sys.step] at hs
    split at hs
    · rename_i v st hli
      simp only [Res.ok.injEq] at hs; subst hs
      refine h.set hli rfl rfl (fun r => ?_) (fun x => x) (fun x => x) (by simp) (by simp) (by simp)
      rw [ind_other (by simp), ind_other (by simp)]; rfl
    · cases hs
  | loopReport i =>
    have ins : ∀ {e t}, Tracker.step c.tr s.tr (.sendFinished e) = .ok t → inside t = inside s.tr := by
      intro e t ht
      simp only [Tracker.step] at ht
      split at ht
      · cases ht
      · simp only [Res.ok.injEq] at ht; subst ht; rfl
    simp only [Sys.step] at hs
    split at hs
    · rename_i v hli
      obtain ⟨t, ht, rfl⟩ := trk_ok.1 hs
      refine h.set hli rfl rfl (fun r => ?_) (close ht) (hard_stays ht) (by simp) (by simp) (by simp)
      rw [ind_other (by simp), ind_other (by simp)]
      simp only [setLoop, ins ht]
    · rename_i v hli
      obtain ⟨t, ht, rfl⟩ := trk_ok.1 hs
      refine h.set hli rfl rfl (fun r => ?_) (close ht) (hard_stays ht)
        (fun _ => close ht (h.out _ (List.mem_of_getElem? hli) (.inr ⟨v, rfl⟩))) (by simp) (by simp)
      rw [ind_other (by simp), ind_other (by simp)]
      simp only [setLoop, ins ht]
    · rename_i v code values hli
      obtain ⟨t, ht, rfl⟩ := trk_ok.1 hs
      refine h.set hli rfl rfl (fun r => ?_) (close ht) (hard_stays ht) (by simp) (by simp) (by simp)
      rw [ind_other (by simp), ind_other (by simp)]
      simp only [setLoop, ins ht]
    · cases hs
  | request r =>
    simp only [Sys.step] at hs
    split at hs
    · cases hs
    have same : s'.loops = s.loops := takeRequest_loops hs
    obtain ⟨x, hx, hadd⟩ := takeRequest_handlers hs
    have ht : hTypes x = [] := by cases hadd <;> rfl
    obtain ⟨h1, h2, h3⟩ := takeRequest_inside hs
    refine h.same same (fun r => ?_) (fun r => by rw [h1]) (by rw [h2]; exact fun x => x) (by rw [h3]; exact fun x => x)
    rw [hx]; simp [ht]
  | hRecv i =>
    simp only [Sys.step] at hs
    split at hs
    · rename_i rt j hx
      split at hs
      · obtain ⟨t, ht, rfl⟩ := trk_ok.1 hs
        refine h.move rfl hx rfl (fun r => ?_) (close ht) (hard_stays ht)
        simp only [Tracker.step] at ht
        split at ht
        · cases ht
        · split at ht
          · simp only [Res.ok.injEq] at ht; subst ht
            simp only [setH, inside_count, List.count_append, hTypes, List.count_nil]
            omega
          · cases ht
      all_goals
        simp only [Res.ok.injEq] at hs; subst hs
        exact h.move rfl hx rfl (fun r => rfl) (fun x => x) (fun x => x)
    · cases hs
  | hLeave i k tm =>
    simp only [Sys.step] at hs
    split at hs
    · rename_i rt j hx
      split at hs
      · simp only [Res.ok.injEq] at hs; subst hs
        exact h.move rfl hx rfl (fun r => rfl) (fun x => x) (fun x => x)
      · cases hs
    · rename_i rt j hx
      split at hs
      · rename_i hk
        obtain ⟨t, ht, rfl⟩ := trk_ok.1 hs
        exact h.move rfl hx rfl (insL ht hk.1) (close ht) (hard_stays ht)
      · cases hs
    · cases hs
  | hDrop i k =>
    simp only [Sys.step] at hs
    split at hs
    · rename_i rt j hx
      simp only [Res.ok.injEq] at hs; subst hs
      exact h.move rfl hx rfl (fun r => rfl) (fun x => x) (fun x => x)
    · rename_i rt j hx
      split at hs
      · rename_i hk
        obtain ⟨t, ht, rfl⟩ := trk_ok.1 hs
        exact h.move rfl hx rfl (insL ht hk) (close ht) (hard_stays ht)
      · cases hs
    · rename_i f rt j hx
      simp only [Res.ok.injEq] at hs; subst hs
      exact h.move rfl hx rfl (fun r => rfl) (fun x => x) (fun x => x)
    · cases hs
  | hGot i k =>
    simp only [Sys.step] at hs
    split at hs
    · rename_i rt j r it hx hk
      split at hs
      · rename_i hr
        obtain ⟨t, ht, rfl⟩ := trk_ok.1 hs
        refine h.move rfl hx rfl (fun r => ?_) (close ht) (hard_stays ht)
        simp only [Tracker.step, hk] at ht
        split at ht
        · cases ht
        · simp only [Res.ok.injEq] at ht; subst ht
          have := count_eraseIdx (fun x : Nat × Item => x.1) r hk
          simp only [hr] at this
          simp only [setH, inside_count, hTypes, List.count_nil]
          omega
      · cases hs
    · cases hs
  | hTimer i txn =>
    simp only [Sys.step] at hs
    split at hs
    · rename_i v j hx
      obtain ⟨q, _, hs⟩ := Res.bind_ok.1 hs
      simp only [Res.ok.injEq] at hs; subst hs
      exact h.move rfl hx rfl (fun r => rfl) (fun x => x) (fun x => x)
    · cases hs
  | hDie i =>
    simp only [Sys.step] at hs
    split at hs
    · rename_i v j hx
      split at hs
      · simp only [Res.ok.injEq] at hs; subst hs
        exact h.move rfl hx rfl (fun r => rfl) (fun x => x) (fun x => x)
      · cases hs
    · cases hs
  | hInsert i =>
    simp only [Sys.step] at hs
    split at hs
    · rename_i v j txn tm hx
      simp only [Res.ok.injEq] at hs; subst hs
      exact h.move rfl hx rfl (fun r => rfl) (fun x => x) (fun x => x)
    · cases hs
  | hCancel i =>
    simp only [Sys.step] at hs
    split at hs
    · rename_i cn cd vs nx hx
      simp only [Res.ok.injEq] at hs; subst hs
      exact h.move rfl hx rfl (fun r => rfl) (fun x => x) (fun x => x)
    · cases hs
  | hReport i =>
    simp only [Sys.step] at hs
    split at hs
    · rename_i cn cd vs nx hx
      obtain ⟨t, ht, rfl⟩ := trk_ok.1 hs
      refine h.move rfl hx rfl (fun r => ?_) (close ht) (hard_stays ht)
      have e : hTypes (match nx with | some rt => .waiting s.nextFlag rt cn.jobid | none => .done (some .ended)) = [] := by
        cases nx <;> rfl
      cases nx <;> simp only [setH, ins ht, hTypes]
    · cases hs
  | hFlag i =>
    simp only [Sys.step] at hs
    split at hs
    · rename_i f rt j hx
      split at hs
      · simp only [Res.ok.injEq] at hs; subst hs
        exact h.move rfl hx rfl (fun r => rfl) (fun x => x) (fun x => x)
      · cases hs
    · cases hs
  | reapSend =>
    simp only [Sys.step] at hs
    split at hs
    · obtain ⟨t, ht, rfl⟩ := trk_ok.1 hs
      exact h.same rfl (fun _ => rfl) (fun r => by simp only [ins ht]) (close ht) (hard_stays ht)
    · simp only [Res.ok.injEq] at hs; subst hs
      exact h.same rfl (fun _ => rfl) (fun r => rfl) (fun x => x) (fun x => x)
    · cases hs
  | reapTick | reapRemove | reapCheck | reapStop =>
    simp only [Sys.step] at hs
    repeat' split at hs
    all_goals first
      | (cases hs; done)
      | (simp only [Res.ok.injEq] at hs; subst hs
         exact h.same rfl (fun _ => rfl) (fun r => rfl) (fun x => x) (fun x => x))

theorem LoopsOk.init (c : Cfg) (lf : LogFile) (now : Int) : LoopsOk c (Sys.init c lf now) := by
  have hall : ∀ l ∈ (Sys.init c lf now).loops, l = .top := by
    intro l hl
    simp only [Sys.init] at hl
    split at hl
    · cases hl
    · exact List.eq_of_mem_replicate hl
  refine ⟨?_, ?_, ?_, ?_, ?_⟩
  · simp only [Sys.init]; split <;> simp
  · intro r
    have : ¬ 0 < receivers c r (Sys.init c lf now).loops := by
      rw [receivers_pos]
      rintro ⟨i, hi, _⟩
      have := hall _ (List.mem_of_getElem? hi)
      cases this
    have e : (inside (Sys.init c lf now).tr).count r = 0 := by simp [inside, Sys.init, Tracker.init]
    have e2 : ((Sys.init c lf now).handlers.flatMap hTypes).count r = 0 := rfl
    omega
  · intro l hl hc
    rw [hall l hl] at hc
    simp at hc
  · intro v hv; have := hall _ hv; cases this
  · intro v hv; have := hall _ hv; cases this

/-- Everything together. -/
structure Calmly (c : Cfg) (lf : LogFile) (now : Int) (s : State) : Prop where
  inv : Inv c lf now s
  noServer : NoServer s
  quiet : Quiet s.tr
  loops : LoopsOk c s

theorem Quiet.sys (hg : Good c.tr) (hi : Inv c lf now s) (hq : Quiet s.tr) {a : Act} (hp : polite c s a = true)
    (hs : step c s a = .ok s') (ha : isTrigger a = false) : Quiet s'.tr := by
  have hrun := (hi.step hg hp hs).1
  have hact : ∀ b ∈ trackerAct c s a, b ≠ .trigger ∧ ∀ k, b = .cancel k → k = .hard := by
    intro b hb
    cases a with
    | server a =>
      simp only [trackerAct, List.mem_singleton] at hb
      subst hb
      simp only [step] at hs
      split at hs
      · rename_i hsa
        refine ⟨fun e => by subst e; simp [isTrigger] at ha, fun k e => ?_⟩
        subst e
        cases k <;> simp_all [serverAct]
      · cases hs
    | request r =>
      simp only [trackerAct] at hb
      repeat' split at hb
      all_goals first | (cases hb; done) | (simp only [List.mem_singleton] at hb; subst hb; simp)
    | _ =>
      simp only [trackerAct] at hb
      repeat' split at hb
      all_goals first | (cases hb; done) | (simp only [List.mem_singleton] at hb; subst hb; simp)
  have key : ∀ {as : List Tracker.Act} {t t' : Tracker.State}, Tracker.Runs c.tr t as t' → Tracker.Reachable c.tr lf now t →
      (∀ b ∈ as, b ≠ .trigger ∧ ∀ k, b = .cancel k → k = .hard) → Quiet t → Quiet t' := by
    intro as t t' hr
    induction hr with
    | nil => intro _ _ h; exact h
    | cons hd hs _ ih =>
      intro hre hall hq
      have h1 := hall _ (List.mem_cons_self ..)
      exact ih (hre.later (.cons hd hs (.nil _))) (fun b hb => hall b (List.mem_cons_of_mem _ hb))
        (hq.step (hre.inv hg).1 hs h1.1 h1.2)
  exact key hrun hi.reach hact hq

theorem Calmly.runs (hg : Good c.tr) (h : Calmly c lf now s) {as : List Act} (hr : Runs c s as s')
    (ha : ∀ a ∈ as, isTrigger a = false ∧ isDie a = false) : Calmly c lf now s' := by
  induction hr with
  | nil => exact h
  | cons hp hs _ ih =>
    have h1 := ha _ (List.mem_cons_self ..)
    obtain ⟨h2, h3⟩ := h.inv.step hg hp hs
    exact ih ⟨⟨h.inv.reach.later h2, h3⟩, h.noServer.step hs, Quiet.sys hg h.inv h.quiet hp hs h1.1,
      h.loops.step hg h.inv h.quiet hs h1.2⟩ (fun a hm => ha a (List.mem_cons_of_mem _ hm))

theorem Calmly.init (hl : c.remote = false) : Calmly c lf now (Sys.init c lf now) :=
  ⟨Inv.init c lf now, NoServer.init hl, Quiet.init c.tr lf now, LoopsOk.init c lf now⟩

end Verif.Sys
