import Verif.Proof.TrackerStep

/-!
# Every action of a well-behaved run preserves the invariant, and none panics
-/

namespace Verif.Tracker
open Verif
open scoped List

variable {c : Cfg} {rc0 : StrMap RuncountStatus} {s s' : State}

theorem inv_init (c : Cfg) (lf : LogFile) (now : Int) : Inv c lf.mem.runcounts (init c lf now) := by
  refine ⟨⟨?_, ?_, ?_, ?_, ?_⟩, ?_, ?_⟩
  · intro v; simp [init, takenIds, itemIds]
  · exact ⟨by simp [init], by simp [init], by simp [init], by simp [init, todoOf], by simp [init]⟩
  · refine ⟨by simp [init, owners], by simp [init, owners], by simp [init, owners], by simp [init, owners], ?_, ?_, ?_⟩
    · intro _ v _
      simp [init, okIds]
    · intro _ v; simp [init, failIds]
    · intro _ h; simp [init, begunOf] at h
  · exact ⟨by simp [init, owners], by simp [init], by simp [init], by simp [init, untakenIds, itemIds]⟩
  · exact ⟨by simp [init], by simp [init, begunOf], by simp [init], by simp [init]⟩
  · exact ⟨by simp [init], by simp [init, ended], by simp [init], by simp [init], by simp [init], by simp [init],
      by simp [init]⟩
  · exact ⟨by simp [init], by simp [init], by simp [init], by simp [init], by simp [init], by simp [init],
      by simp [init], by simp [init, curOf], by simp [init], by simp [init, owners], by simp [init], by simp [init]⟩

/-! ### client actions -/

theorem Core.sendFin {begun todo} (h : Core c s begun todo) {e : Fin} {h' l' : List Nat}
    (hp : s.held ++ s.lost ~ e.id :: (h' ++ l')) :
    Core c { s with chan := s.chan ++ [.finished e], held := h', lost := l' } begun todo := by
  refine ⟨?_, h.items, h.deps, ?_, h.cnt⟩
  · intro v
    have h1 := h.acct v
    have h2 := hp.count_eq v
    simp only [List.count_append, List.count_cons, finIds_append, finIds_fin, finIds_nil, List.count_nil] at h1 h2 ⊢
    omega
  · refine h.qs.perm (List.Perm.refl _) (List.Perm.refl _) ?_
    simp only [finIds_append, finIds_fin, finIds_nil]
    rw [← List.append_assoc]
    refine (List.Perm.append_right _ hp).trans ?_
    refine List.Perm.trans ?_ (List.perm_append_comm (l₁ := [e.id]))
    simp

theorem trS_sendFin {infl cur} (h : TrS c rc0 s infl cur) {e : Fin} {h' l' : List Nat}
    (hp : s.held ++ s.lost ~ e.id :: (h' ++ l')) :
    TrS c rc0 { s with chan := s.chan ++ [.finished e], held := h', lost := l' } infl cur :=
  Tr.sendFinished h hp

theorem Shape.popAny {pc soft ro waiting popped claimed processed} (h : Shape pc soft ro waiting popped claimed processed)
    {w' p' c'} (hl : pc ≠ .joined ∧ pc ≠ .done ∨ (w' = [] ∧ p' = [] ∧ c' = [])) :
    Shape pc soft ro w' p' c' processed := by
  refine ⟨h.softClosed, h.endClosed, h.closedIf, h.sendingOpen, ?_, h.curProc, h.newSoft⟩
  intro hx
  rcases hl with hl | hl
  · rcases hx with hx | hx
    · exact absurd hx hl.1
    · exact absurd hx hl.2
  · exact hl

theorem Shape.notEnd {pc soft ro waiting popped claimed processed} (h : Shape pc soft ro waiting popped claimed processed)
    (hne : waiting ≠ [] ∨ popped ≠ [] ∨ claimed ≠ []) : pc ≠ .joined ∧ pc ≠ .done := by
  constructor
  · intro e
    obtain ⟨h1, h2, h3⟩ := h.endEmpty (.inl e)
    rcases hne with k | k | k
    · exact k h1
    · exact k h2
    · exact k h3
  · intro e
    obtain ⟨h1, h2, h3⟩ := h.endEmpty (.inr e)
    rcases hne with k | k | k
    · exact k h1
    · exact k h2
    · exact k h3

theorem ne_nil_of_get {α : Type} {l : List α} {i : Nat} {x : α} (h : l[i]? = some x) : l ≠ [] := by
  intro e; subst e; simp at h

theorem inv_pop (h : Inv c rc0 s) {i j r : Nat} {it : Item} (hi : s.waiting[i]? = some r)
    (hj : (s.queues r)[j]? = some it) :
    Inv c rc0 { s with
      waiting := s.waiting.eraseIdx i
      queues := fun q => if q = r then (s.queues r).eraseIdx j else s.queues q
      popped := s.popped ++ [(r, it)] } :=
  ⟨⟨h.core.acct, h.core.items.pop hj, h.core.deps, h.core.qs, h.core.cnt⟩,
    h.shape.popAny (.inl (h.shape.notEnd (.inl (ne_nil_of_get hi)))), h.tr⟩

theorem inv_claimLost (h : Inv c rc0 s) {i r : Nat} {it : Item} (hi : s.popped[i]? = some (r, it)) {v : Nat}
    (hf : s.flags[it.flag]? = some ⟨v, true⟩) {w : List Nat} :
    Inv c rc0 { s with popped := s.popped.eraseIdx i, waiting := w } :=
  ⟨⟨h.core.acct, h.core.items.claimLost hi hf, h.core.deps, h.core.qs, h.core.cnt⟩,
    h.shape.popAny (.inl (h.shape.notEnd (.inr (.inl (ne_nil_of_get hi))))), h.tr⟩

theorem inv_claimWon (h : Inv c rc0 s) {i r : Nat} {it : Item} (hi : s.popped[i]? = some (r, it)) {v : Nat}
    (hf : s.flags[it.flag]? = some ⟨v, false⟩) :
    Inv c rc0 { s with
      popped := s.popped.eraseIdx i
      flags := s.flags.set it.flag ⟨v, true⟩
      claimed := s.claimed ++ [(r, it)] } := by
  have hv : v = it.id := by
    have := (h.core.items.poppedOk _ (List.mem_of_getElem? hi)).flag
    rw [hf] at this
    simpa using this
  subst hv
  have ho := owners_set (b' := true) hf
  obtain ⟨ht, hu⟩ := taken_set hf
  refine ⟨⟨?_, h.core.items.claimWon hi hf, ?_, ?_, ?_⟩, ?_, ?_⟩
  · intro w
    have h1 := h.core.acct w
    have h2 := ht.count_eq w
    simp only [itemIds, List.map_append, List.count_append, List.map_cons, List.map_nil, List.count_cons,
      List.count_nil] at h1 h2 ⊢
    omega
  · rw [ho]; exact h.core.deps
  · refine h.core.qs.perm (by rw [ho]) ?_ (List.Perm.refl _)
    refine (List.Perm.append_right _ hu).trans ?_
    simp only [itemIds, List.map_append, List.map_cons, List.map_nil]
    rw [← List.append_assoc]
    exact (List.perm_append_comm (l₁ := [it.id]))
  · have := h.core.cnt
    simpa using this
  · exact h.shape.popAny (.inl (h.shape.notEnd (.inr (.inl (ne_nil_of_get hi)))))
  · have := h.tr
    unfold TrS at this ⊢
    simp only [ho]
    exact this

theorem inv_account (hg : Good c) (h : Inv c rc0 s) {i r : Nat} {it : Item} (hi : s.claimed[i]? = some (r, it)) {sn : Snap}
    (hq : s.qs (cmdOf c.g it.id).affinity = some sn) {ob : List (Nat × Nat)} :
    Inv c rc0 { s with
      claimed := s.claimed.eraseIdx i
      qs := fun x => if x = (cmdOf c.g it.id).affinity then
        some ⟨(sn.numReady + (2 ^ 32 - 1)) % 2 ^ 32, sn.numInflight + 1⟩ else s.qs x
      held := s.held ++ [it.id]
      obtained := ob } := by
  have hp := perm_eraseIdx hi
  have hpm : itemIds s.claimed ~ it.id :: itemIds (s.claimed.eraseIdx i) := hp.map (fun x : Nat × Item => x.2.id)
  refine ⟨⟨?_, h.core.items.account i, h.core.deps, ?_, h.core.cnt⟩, ?_, ?_⟩
  · intro w
    have h1 := h.core.acct w
    have h2 := hpm.count_eq w
    simp only [List.count_append, List.count_cons, List.count_nil] at h1 h2 ⊢
    omega
  · have hl : (untakenIds s.flags ++ itemIds (s.claimed.eraseIdx i)).length + 1 < 2 ^ 32 := by
      have h1 := h.core.lens
      have h2 := h.core.len
      have h3 := hg.small
      have h4 := hpm.length_eq
      simp only [List.length_append, List.length_cons, itemIds, List.length_map] at h4 ⊢
      omega
    have h1 : Qs c.g s.qs (owners s.flags) (it.id :: (untakenIds s.flags ++ itemIds (s.claimed.eraseIdx i)))
        (s.held ++ s.lost ++ finIds s.chan) s.readyOpen := by
      refine h.core.qs.perm (List.Perm.refl _) ?_ (List.Perm.refl _)
      exact (List.Perm.append_left _ hpm).trans List.perm_middle
    refine (h1.account hq hl).perm (List.Perm.refl _) (List.Perm.refl _) ?_
    simp only [List.append_assoc, List.singleton_append]
    exact List.perm_middle.symm
  · exact h.shape.popAny (.inl (h.shape.notEnd (.inr (.inr (ne_nil_of_get hi)))))
  · have hn : it.id ∉ (s.held ++ s.lost) ++ finIds s.chan ++ (s.processed ++ s.drained).map (·.1) := by
      have h1 := h.core.all_nodup
      intro hm
      have h2 : it.id ∈ itemIds s.claimed := hpm.mem_iff.2 (by simp)
      simp only [List.append_assoc] at h1 hm
      rw [List.map_append] at hm
      rw [List.nodup_append] at h1
      exact h1.2.2 _ h2 _ hm rfl
    refine (Tr.account h.tr hn).congr (fun _ => Iff.rfl) (List.Perm.refl _) ?_ (fun _ => Iff.rfl)
    intro w
    simp only [List.mem_cons, List.mem_append, List.not_mem_nil]
    tauto

theorem inv_sendStarted (hg : Good c) (h : Inv c rc0 s) {id : Nat} (hh : id ∈ s.held) (hn : id ∉ s.startedSent)
    (ho : String) (p : Nat) (j : String) {pr : List Nat} :
    Inv c rc0 { s with
      chan := s.chan ++ [.started id ho p j]
      startedSent := s.startedSent ++ [id]
      preambles := pr } := by
  refine ⟨⟨?_, h.core.items, h.core.deps, ?_, h.core.cnt⟩, h.shape, ?_⟩
  · intro w; simpa using h.core.acct w
  · simpa using h.core.qs
  · exact Tr.sendStarted h.tr (h.core.place hg) (List.mem_append_left _ hh) hn ho p j

theorem inv_sendFinished (h : Inv c rc0 s) {e : Fin} (hh : e.id ∈ s.held) :
    Inv c rc0 { s with chan := s.chan ++ [.finished e], held := s.held.erase e.id } := by
  have hp : s.held ++ s.lost ~ e.id :: (s.held.erase e.id ++ s.lost) :=
    List.Perm.append_right _ (List.perm_cons_erase hh)
  exact ⟨h.core.sendFin hp, h.shape, trS_sendFin h.tr hp⟩

theorem inv_lose (h : Inv c rc0 s) {id : Nat} (hh : id ∈ s.held) :
    Inv c rc0 { s with held := s.held.erase id, lost := s.lost ++ [id] } := by
  have hp : s.held ++ s.lost ~ s.held.erase id ++ (s.lost ++ [id]) := by
    refine (List.Perm.append_right _ (List.perm_cons_erase hh)).trans ?_
    rw [← List.append_assoc]
    exact List.perm_append_comm (l₁ := [id])
  refine ⟨⟨?_, h.core.items, h.core.deps, ?_, h.core.cnt⟩, h.shape, ?_⟩
  · intro w
    have h1 := h.core.acct w
    have h2 := hp.count_eq w
    simp only [List.count_append] at h1 h2 ⊢
    omega
  · exact h.core.qs.perm (List.Perm.refl _) (List.Perm.refl _) (List.Perm.append_right _ hp)
  · exact Tr.congr h.tr (fun _ => Iff.rfl) (List.Perm.refl _) (fun _ => hp.mem_iff) (fun _ => Iff.rfl)

/-! ### server actions -/

theorem inv_leaveLoop (h : Inv c rc0 s) (hpc : s.pc = .idle) : Inv c rc0 (leaveLoop s) := by
  have h1 := h.core
  rw [hpc] at h1
  have h2 := h.tr
  rw [hpc] at h2
  refine ⟨⟨h1.acct, h1.items, h1.deps, (h1.qs.zero : _), h1.cnt⟩, ?_, h2⟩
  refine ⟨fun _ => rfl, fun _ => rfl, fun _ => .inr rfl, ?_, ?_, ?_, ?_⟩
  · intro t f hh; simp [leaveLoop, zeroReady] at hh
  · intro hh; simp [leaveLoop, zeroReady] at hh
  · intro t f hh; simp [leaveLoop, zeroReady] at hh
  · intro hh; simp [leaveLoop, zeroReady] at hh

theorem inv_seeTrigger (h : Inv c rc0 s) (hpc : s.pc = .idle) :
    Inv c rc0 (zeroReady { s with readyOpen := false, soft := true, trigger := false }) := by
  refine ⟨⟨h.core.acct, h.core.items, h.core.deps.toSoft, (h.core.qs.zero : _), h.core.cnt⟩, ?_, h.tr⟩
  refine ⟨fun _ => rfl, fun _ => rfl, fun _ => .inl rfl, ?_, h.shape.endEmpty, h.shape.curProc, ?_⟩
  · intro t f hh; simp [zeroReady, hpc] at hh
  · intro hh; simp [zeroReady, hpc] at hh

/-- Facts about the state before `background_serve`. -/
theorem Inv.atNew (h : Inv c rc0 s) (hpc : s.pc = .new) :
    s.flags = [] ∧ s.processed = [] ∧ s.drained = [] ∧ s.soft = false ∧ s.readyOpen = true ∧ s.nRoi = 0 ∧
    ∀ v, s.unmet v = (c.g.preds v).length := by
  have hb := h.core.deps.notBegun (by simp [hpc, begunOf])
  have hf : s.flags = [] := by simpa [owners] using hb.1
  have hs := h.shape.newSoft hpc
  have hroi := h.core.cnt.roi
  rw [hf] at hroi
  simp only [List.length_nil] at hroi
  refine ⟨hf, hb.2, List.eq_nil_of_length_eq_zero (by omega), hs, ?_, by omega, ?_⟩
  · cases hr : s.readyOpen with
    | true => rfl
    | false =>
      rcases h.shape.closedIf hr with h1 | h1
      · rw [hs] at h1; cases h1
      · simp [hpc, ended] at h1
  · intro v
    have hp : s.poisoned v = false := by
      by_contra hx
      simp only [Bool.not_eq_false] at hx
      obtain ⟨u, _, hu⟩ := (h.core.deps.poison hs v).1 hx
      rw [hb.2] at hu; simp [failIds] at hu
    have := h.core.deps.unmetEq hs v hp
    rw [hb.2] at this
    simpa [okIds] using this

theorem begin_deps (h : Inv c rc0 s) (hpc : s.pc = .new) {order : List Nat}
    (ho : order ~ (List.range c.g.n).filter (fun v => s.unmet v == 0)) :
    Deps c.g order [] s.unmet s.poisoned false true := by
  obtain ⟨h1, h2, h3, h4, h5, h6, h7⟩ := h.atNew hpc
  have hd := h.core.deps
  rw [h2, h4] at hd
  have hmem : ∀ v, v ∈ order ↔ v < c.g.n ∧ (c.g.preds v) = [] := by
    intro v
    rw [ho.mem_iff, List.mem_filter, List.mem_range, h7]
    simp
  refine ⟨fun v hv => ((hmem v).1 hv).1, ho.nodup_iff.2 (List.nodup_range.filter _), ?_, by simp, hd.unmetEq, hd.poison, ?_⟩
  · intro v hv u hu
    have := ((hmem v).1 hv).2
    have hm : u ∈ c.g.preds v := DiGraph.mem_preds.2 hu
    rw [this] at hm; simp at hm
  · intro _ _ v hv hall
    refine (hmem v).2 ⟨hv, ?_⟩
    apply List.eq_nil_iff_forall_not_mem.2
    intro u hu
    have := hall u (DiGraph.mem_preds.1 hu)
    simp [okIds] at this

theorem inv_begin (hg : Good c) (h : Inv c rc0 s) {order : List Nat} {t : SysTime}
    (hs : step c s (.begin order t) = .ok s') : Inv c rc0 s' := by
  simp only [step] at hs
  by_cases hpc : s.pc = .new
  · rw [if_neg (by simp [hpc])] at hs
    by_cases hperm : order.isPerm ((List.range c.g.n).filter (fun v => s.unmet v == 0)) = false
    · rw [if_pos hperm] at hs; cases hs
    · rw [if_neg hperm] at hs
      simp only [Bool.not_eq_false] at hperm
      have hperm := List.isPerm_iff.1 hperm
      have hd := begin_deps h hpc hperm
      obtain ⟨h1, h2, h3, h4, h5, h6, h7⟩ := h.atNew hpc
      have hc := h.core
      rw [hpc] at hc
      have ht := h.tr
      rw [hpc] at ht
      have hcore1 : ∀ o : List Nat, o = [] → o = order → Core c { s with nUnready := c.g.n } true [] := by
        intro o e1 e2
        refine ⟨hc.acct, hc.items, ?_, hc.qs, ?_⟩
        · subst e1; rw [← e2] at hd
          simp only [h1, h2, h4]; exact hd
        · exact ⟨hc.cnt.roi, fun _ => by simp [h1], hc.cnt.failed, hc.cnt.success⟩
      by_cases he : order.isEmpty = true
      · rw [if_pos he] at hs
        simp only [Res.ok.injEq] at hs
        subst hs
        have he' : order = [] := by simpa using he
        refine ⟨⟨hc.acct, hc.items, (hcore1 _ rfl he'.symm).deps, hc.qs, (hcore1 _ rfl he'.symm).cnt⟩, ?_, ht⟩
        refine ⟨h.shape.softClosed, by simp [ended], ?_, by simp, by simp, by simp, by simp⟩
        intro hh; simp only [h5] at hh; cases hh
      · rw [if_neg he] at hs
        obtain ⟨a1, a2, a3, a4, a5⟩ := addReady_ok hs
        simp only at a2 a3 a4 a5
        subst a5
        have hcore2 : Core c s false [] := hc
        refine ⟨?_, ?_, ?_⟩
        · have := core_addReady hg hcore2 (vs := order) (pr := s.processed) (um := s.unmet) (po := s.poisoned)
            (nu := c.g.n - order.length) (nr := s.nRoi + order.length)
            (lf := readyLog c.g t s.lf order) (pc := .sending (batches c.g (itemsFor c.g s.flags.length order)) none)
            (by rw [h1, h2, h4]; exact hd) (by rw [h2, h3, h1]; simp [h6]) (by rw [h1]; simp; omega) rfl
          exact ⟨this.acct, this.items, this.deps, this.qs, this.cnt⟩
        · refine ⟨by simp [h4], by simp [ended], ?_, fun _ _ _ => h5, by simp, by simp, by simp⟩
          intro hh; simp only [h5] at hh; cases hh
        · exact trS_addReady hg hcore2 ht (fun v hv => ⟨(a1 v hv).1, by simp [h1, owners]⟩) (t := t) rfl rfl rfl rfl rfl rfl rfl rfl
  · rw [if_pos hpc] at hs; cases hs

theorem inv_recvStarted (hg : Good c) (h : Inv c rc0 s) (hpc : s.pc = .idle) {id : Nat} {ho : String} {p : Nat}
    {j : String} {rest : List Event} (hch : s.chan = .started id ho p j :: rest) (t : SysTime) :
    ∃ s', step c s (.recvStarted t) = .ok s' ∧ Inv c rc0 s' := by
  have hp := h.core.place hg
  have ht := h.tr
  unfold TrS at ht
  rw [hpc] at ht
  have hcur : curOf Pc.idle = none := rfl
  rw [hcur] at ht
  rw [hch] at ht hp
  obtain ⟨h1, h2, h3⟩ := ht.recvStarted hp
  have hl : s.inflight.lookup id = none := by
    have : (s.inflight.lookup id).isSome = false := by rw [lookup_isSome]; simpa using h1
    simpa using this
  simp only [step, hpc, ne_eq, not_true, if_false, hch, writeLog, LogFile.write, LogMem.write, h2, Res.bind, hl,
    Option.isSome_none, Bool.false_eq_true]
  have hc := h.core
  have hsh := h.shape
  rw [hpc] at hc hsh
  refine ⟨_, rfl, ⟨?_, hc.items, hc.deps, ?_, hc.cnt⟩, hsh, h3⟩
  · intro w
    have := hc.acct w
    rw [hch] at this
    exact this
  · have := hc.qs
    rw [hch] at this
    exact this

/-! ### drain -/

/-- What `drain` leaves alone. -/
structure Frame (s s' : State) : Prop where
  soft : s'.soft = s.soft
  readyOpen : s'.readyOpen = s.readyOpen
  waiting : s'.waiting = s.waiting
  popped : s'.popped = s.popped
  claimed : s'.claimed = s.claimed
  processed : s'.processed = s.processed
  flags : s'.flags = s.flags
  pc : s'.pc = s.pc
  obtained : s'.obtained = s.obtained
  startedSent : s'.startedSent = s.startedSent
  token : s'.token = s.token
  preambles : s'.preambles = s.preambles

theorem Frame.refl (s : State) : Frame s s := ⟨rfl, rfl, rfl, rfl, rfl, rfl, rfl, rfl, rfl, rfl, rfl, rfl⟩
theorem Frame.trans {a b d : State} (h1 : Frame a b) (h2 : Frame b d) : Frame a d :=
  ⟨h2.1.trans h1.1, h2.2.trans h1.2, h2.3.trans h1.3, h2.4.trans h1.4, h2.5.trans h1.5, h2.6.trans h1.6,
    h2.7.trans h1.7, h2.8.trans h1.8, h2.9.trans h1.9, h2.10.trans h1.10, h2.11.trans h1.11, h2.12.trans h1.12⟩

theorem write2 {s : State} {t : SysTime} {e : Fin} {b : Bool} {lf : LogFile} {β : Type} {k : State → Res Unit β}
    (h : s.lf.writeAll (finEntries c t e b) = .ok lf) :
    ((if b = true then (.ok s : Out) else writeLog s (.started ⟨t, (cmdOf c.g e.id).key, "", 0, ""⟩)).bind (fun s =>
      (writeLog s (.finished ⟨t, (cmdOf c.g e.id).key, e.status.asI32, e.values⟩)).bind k)) = k { s with lf := lf } := by
  cases b with
  | true =>
    simp only [finEntries, if_true, List.nil_append, LogFile.writeAll] at h
    obtain ⟨lf1, h1, h2⟩ := Res.bind_ok.1 h
    simp only [Res.ok.injEq] at h2
    subst h2
    simp only [if_true, Res.bind, writeLog, h1]
  | false =>
    simp only [finEntries, Bool.false_eq_true, if_false, List.cons_append, List.nil_append, LogFile.writeAll] at h
    obtain ⟨lf1, h1, h2⟩ := Res.bind_ok.1 h
    obtain ⟨lf2, h3, h4⟩ := Res.bind_ok.1 h2
    simp only [Res.ok.injEq] at h4
    subst h4
    simp only [Bool.false_eq_true, if_false, Res.bind, writeLog, h1, h3]

/-- After booking a finish in `drain`, with the finish event removed from the channel. -/
theorem drain_fin (hg : Good c) (h : Core c s true []) {infl : List (Nat × Int)} (ht : TrS c rc0 s (infl.map (·.1)) none)
    {e : Fin} {rest : List Event} (hch : s.chan = .finished e :: rest) (t : SysTime) :
    ∃ sn lf, s.qs (cmdOf c.g e.id).affinity = some sn ∧ sn.numInflight ≠ 0 ∧ e.id < c.g.n ∧
      s.lf.writeAll (finEntries c t e (infl.lookup e.id).isSome) = .ok lf ∧
      lf.entries = s.lf.entries ++ finEntries c t e (infl.lookup e.id).isSome ∧
      Core c { booked c.g { s with chan := rest } e sn with lf := lf, drained := s.drained ++ [(e.id, e.status)] } true [] ∧
      TrS c rc0 { booked c.g { s with chan := rest } e sn with lf := lf, drained := s.drained ++ [(e.id, e.status)] }
        ((infl.filter (fun x => x.1 != e.id)).map (·.1)) none := by
  have hb : e.id ∈ s.held ++ s.lost ++ finIds s.chan := by rw [hch]; simp
  obtain ⟨sn, hq, hne⟩ := h.qs.busy_pos hb
  have hlt : e.id < c.g.n := h.deps.lt _ (h.qs.sub _ (List.mem_append_right _ hb))
  obtain ⟨p1, p2, p3, p4, p5, p6⟩ := booked_parts hg h ht hch hq true rfl rfl
  simp only [if_true] at p1 p2 p3 p4
  have hcore : Core c { booked c.g { s with chan := rest } e sn with drained := s.drained ++ [(e.id, e.status)] } true [] :=
    ⟨p1, h.items, h.deps, p2, p3⟩
  obtain ⟨lf, w1, w2, _, w4⟩ := logged hg (hcore.place hg) p4
    (List.mem_append_right _ (by simp)) t
  refine ⟨sn, lf, hq, hne, hlt, w1, w2, ⟨p1, h.items, h.deps, p2, p3⟩, ?_⟩
  exact w4 _ rfl rfl rfl rfl rfl rfl rfl rfl

theorem drainLoop_inv (hg : Good c) (t : SysTime) : ∀ (es : List Event) (s : State) (infl : List (Nat × Int)),
    s.chan = es → Core c s true [] → TrS c rc0 s (infl.map (·.1)) none →
    ∃ s' infl', drainLoop c t es infl s = .ok (s', infl') ∧ Core c s' true [] ∧ TrS c rc0 s' (infl'.map (·.1)) none ∧
      s'.chan = [] ∧ Frame s s' := by
  intro es
  induction es with
  | nil =>
    intro s infl hch hc ht
    refine ⟨{ s with chan := [] }, infl, rfl, ?_, ?_, rfl, ⟨rfl, rfl, rfl, rfl, rfl, rfl, rfl, rfl, rfl, rfl, rfl, rfl⟩⟩
    · have : { s with chan := [] } = s := by rw [← hch]
      rw [this]; exact hc
    · have : { s with chan := [] } = s := by rw [← hch]
      rw [this]; exact ht
  | cons ev es ih =>
    intro s infl hch hc ht
    cases ev with
    | started id ho p j =>
      have hp := hc.place hg
      unfold TrS at ht
      rw [hch] at ht hp
      obtain ⟨h1, h2, h3⟩ := ht.recvStarted hp
      have hl : infl.lookup id = none := by
        have : (infl.lookup id).isSome = false := by rw [lookup_isSome]; simpa using h1
        simpa using this
      simp only [drainLoop, writeLog, LogFile.write, LogMem.write, h2, Res.bind, hl, Option.isSome_none,
        Bool.false_eq_true, if_false]
      generalize hs1 : ({ s with
        chan := es
        lf := _ } : State) = s1
      have hc1 : Core c s1 true [] := by
        subst hs1
        refine ⟨?_, hc.items, hc.deps, ?_, hc.cnt⟩
        · intro w
          have := hc.acct w
          rw [hch] at this
          exact this
        · have := hc.qs
          rw [hch] at this
          exact this
      obtain ⟨s', infl', k1, k2, k3, k4, k5⟩ := ih s1 ((id, s.now) :: infl) (by rw [← hs1]) hc1 (by
        subst hs1; exact h3)
      refine ⟨s', infl', k1, k2, k3, k4, ?_⟩
      exact Frame.trans (by subst hs1; exact ⟨rfl, rfl, rfl, rfl, rfl, rfl, rfl, rfl, rfl, rfl, rfl, rfl⟩) k5
    | finished e =>
      obtain ⟨sn, lf, hq, hne, hlt, hw, _, k1, k2⟩ := drain_fin hg hc ht hch t
      simp only [drainLoop]
      rw [book1_total (s := { s with chan := es }) hlt hq hne]
      simp only [Res.bind]
      have hw' : (booked c.g { s with chan := es } e sn).lf.writeAll (finEntries c t e (infl.lookup e.id).isSome) = .ok lf :=
        hw
      have := write2 (k := fun s => drainLoop c t es (infl.filter (fun x => x.1 != e.id))
            { s with drained := s.drained ++ [(e.id, e.status)] }) hw'
      simp only [Res.bind] at this
      obtain ⟨s', infl', m1, m2, m3, m4, m5⟩ := ih _ _ rfl k1 k2
      refine ⟨s', infl', ?_, m2, m3, m4, ?_⟩
      · rw [← m1]; exact this
      · exact Frame.trans (by exact ⟨rfl, rfl, rfl, rfl, rfl, rfl, rfl, rfl, rfl, rfl, rfl, rfl⟩) m5

theorem erase_split {held lost : List Nat} {v : Nat} (h : v ∈ held ++ lost) :
    held ++ lost ~ v :: (held.erase v ++ if v ∈ held then lost else lost.erase v) := by
  by_cases hv : v ∈ held
  · rw [if_pos hv]
    exact List.Perm.append_right _ (List.perm_cons_erase hv)
  · rw [if_neg hv, List.erase_of_not_mem hv]
    have hl : v ∈ lost := (List.mem_append.1 h).resolve_left hv
    exact (List.Perm.append_left _ (List.perm_cons_erase hl)).trans List.perm_middle

theorem drainRest_inv (hg : Good c) (t : SysTime) : ∀ (vs : List Nat) (s : State),
    s.chan = [] → Core c s true [] → TrS c rc0 s vs none →
    ∃ s', drainRest c t vs s = .ok s' ∧ Core c s' true [] ∧ TrS c rc0 s' [] none ∧ s'.chan = [] ∧ Frame s s' ∧
      s'.inflight = s.inflight := by
  intro vs
  induction vs with
  | nil => intro s hch hc ht; exact ⟨s, rfl, hc, ht, hch, Frame.refl s, rfl⟩
  | cons v vs ih =>
    intro s hch hc ht
    have hop : v ∈ s.held ++ s.lost := by
      rcases ht.inflOpen v (by simp) with h1 | h1
      · rw [hch] at h1; simpa using h1
      · cases h1
    have hsp := erase_split hop
    have hb : v ∈ s.held ++ s.lost ++ finIds s.chan := List.mem_append_left _ hop
    obtain ⟨sn, hq, hne⟩ := hc.qs.busy_pos hb
    have hlt : v < c.g.n := hc.deps.lt _ (hc.qs.sub _ (List.mem_append_right _ hb))
    have hc1 := hc.sendFin (e := ⟨v, .disconnected, [], none⟩) hsp
    have ht1 := trS_sendFin (e := ⟨v, .disconnected, [], none⟩) ht hsp
    rw [hch] at hc1 ht1
    simp only [List.nil_append] at hc1 ht1
    have hlog := ht.logInfl v (by simp)
    obtain ⟨p1, p2, p3, p4, p5, p6⟩ := booked_parts (e := ⟨v, .disconnected, [], none⟩) hg hc1 ht1 rfl hq true rfl rfl
    simp only [if_true] at p1 p2 p3 p4
    unfold TrS at ht
    rw [hch] at ht
    have hp := hc.place hg
    rw [hch] at hp
    have hfin := ht.disconnect hp hsp .disconnected
    simp only [drainRest]
    rw [book1_total (e := ⟨v, .disconnected, [], none⟩) hlt hq hne]
    have hwr : (booked c.g s ⟨v, .disconnected, [], none⟩ sn).lf.mem.runcounts (cmdOf c.g v).key =
      some (.started (cmdOf c.g v).runcount (cmdOf c.g v).storageRoot) := hlog
    simp only [Res.bind, writeLog, LogFile.write, LogMem.write, hwr]
    generalize hs1 : ({ booked c.g s ⟨v, .disconnected, [], none⟩ sn with
      lf := _
      drained := _
      held := _
      lost := _ } : State) = s1
    have hch1 : s1.chan = [] := by subst hs1; exact hch
    have hc2 : Core c s1 true [] := by
      subst hs1
      refine ⟨?_, hc.items, hc.deps, ?_, p3⟩
      · simp only [booked, hch]
        exact p1
      · simp only [booked, hch]
        exact p2
    have ht2 : TrS c rc0 s1 vs none := by
      subst hs1
      unfold TrS
      simp only [booked, hch]
      rw [← List.append_assoc]
      exact hfin
    obtain ⟨s', m1, m2, m3, m4, m5, m6⟩ := ih s1 hch1 hc2 ht2
    refine ⟨s', m1, m2, m3, m4, Frame.trans (by subst hs1; exact ⟨rfl, rfl, rfl, rfl, rfl, rfl, rfl, rfl, rfl, rfl, rfl, rfl⟩) m5, ?_⟩
    rw [m6]; subst hs1; rfl

theorem inv_drain (hg : Good c) (h : Inv c rc0 s) (hpc : s.pc = .joined) (order : List Nat) (t : SysTime) :
    (∀ m, drain c t order s ≠ .panic m) ∧
    ∀ s', drain c t order s = .ok s' → Inv c rc0 s' ∧ s'.chan = [] ∧ s'.inflight = [] ∧ s'.pc = .done ∧
      s'.processed = s.processed ∧ s'.flags = s.flags ∧ s'.obtained = s.obtained := by
  have hc := h.core
  rw [hpc] at hc
  have ht := h.tr
  rw [hpc] at ht
  obtain ⟨s1, infl, k1, k2, k3, k4, k5⟩ := drainLoop_inv hg t s.chan s s.inflight rfl hc ht
  unfold drain
  rw [k1]
  simp only [Res.bind]
  by_cases hperm : order.isPerm (infl.map (·.1)) = false
  · rw [if_pos hperm]; simp
  · rw [if_neg hperm]
    simp only [Bool.not_eq_false] at hperm
    have hperm := List.isPerm_iff.1 hperm
    have k3' : TrS c rc0 { s1 with inflight := [] } order none :=
      Tr.congr k3 (fun _ => Iff.rfl) hperm.symm (fun _ => Iff.rfl) (fun _ => Iff.rfl)
    obtain ⟨s2, m1, m2, m3, m4, m5, m6⟩ := drainRest_inv hg t order { s1 with inflight := [] } k4
      ⟨k2.acct, k2.items, k2.deps, k2.qs, k2.cnt⟩ k3'
    rw [m1]
    refine ⟨by simp, ?_⟩
    intro s' hs
    simp only [Res.ok.injEq] at hs
    subst hs
    have hsh := h.shape
    have hfr : Frame s s2 := k5.trans (Frame.trans (b := { s1 with inflight := [] }) ⟨rfl, rfl, rfl, rfl, rfl, rfl, rfl, rfl, rfl, rfl, rfl, rfl⟩ m5)
    refine ⟨⟨⟨m2.acct, m2.items, m2.deps, m2.qs, m2.cnt⟩, ?_, ?_⟩, m4, m6, rfl, hfr.processed, hfr.flags, hfr.obtained⟩
    · simp only [hfr.soft, hfr.readyOpen, hfr.waiting, hfr.popped, hfr.claimed, hfr.processed]
      refine ⟨hsh.softClosed, fun _ => hsh.endClosed (by rw [hpc]; rfl), fun _ => .inr rfl, by simp,
        fun _ => hsh.endEmpty (.inl hpc), by simp, by simp⟩
    · simp only [m6]; exact m3

/-! ### all actions -/

theorem Inv.step (hg : Good c) (h : Inv c rc0 s) {a : Act} (hd : disciplined s a = true) (hs : step c s a = .ok s') :
    Inv c rc0 s' := by
  cases a with
  | tick d =>
    simp only [Tracker.step, Res.ok.injEq] at hs
    subst hs
    exact h.congr_clock rfl id
  | begin order t => exact inv_begin hg h hs
  | sendNext =>
    simp only [Tracker.step] at hs
    split at hs
    · rename_i i items todo fin hpc
      simp only [Res.ok.injEq] at hs
      subst hs
      have hc := h.core
      rw [hpc] at hc
      have ht := h.tr
      rw [hpc] at ht
      refine ⟨⟨hc.acct, hc.items.sendNext, hc.deps, hc.qs, hc.cnt⟩, ?_, ?_⟩
      · refine ⟨h.shape.softClosed, by simp [ended], ?_, fun _ _ _ => h.shape.sendingOpen _ _ hpc, by simp, ?_, by simp⟩
        · intro hh; simp only [h.shape.sendingOpen _ _ hpc] at hh; cases hh
        · intro t e hh
          simp only [Pc.sending.injEq] at hh
          exact h.shape.curProc _ e (by rw [hpc, hh.2])
      · cases fin <;> exact ht
    · cases hs
  | sendDone t =>
    simp only [Tracker.step] at hs
    split at hs
    · rename_i fin hpc
      have hc := h.core
      rw [hpc] at hc
      have ht := h.tr
      rw [hpc] at ht
      have ho := h.shape.sendingOpen _ _ hpc
      have hsf : s.soft = false := by
        by_contra hx
        simp only [Bool.not_eq_false] at hx
        have := h.shape.softClosed hx
        rw [ho] at this; cases this
      cases fin with
      | none =>
        simp only [Res.ok.injEq] at hs
        subst hs
        refine ⟨⟨hc.acct, hc.items, hc.deps, hc.qs, hc.cnt⟩, ?_, ht⟩
        refine ⟨h.shape.softClosed, by simp [ended], ?_, by simp, by simp, by simp, by simp⟩
        intro hh; simp only [ho] at hh; cases hh
      | some e =>
        simp only at hs
        refine inv_finishHalf (s := { s with counter := s.counter + 1 }) (e := e) hg
          ⟨⟨hc.acct, hc.items, hc.deps, hc.qs, hc.cnt⟩, ht, h.shape.curProc _ _ hpc, ?_⟩ hs
        simp [ho, hsf]
    · cases hs
  | recvStarted t =>
    by_cases hpc : s.pc = .idle
    · cases hch : s.chan with
      | nil => simp [Tracker.step, hpc, hch] at hs
      | cons ev rest =>
        cases ev with
        | started id ho p j =>
          obtain ⟨s1, h1, h2⟩ := inv_recvStarted hg h hpc hch t
          rw [h1] at hs
          simp only [Res.ok.injEq] at hs
          subst hs
          exact h2
        | finished e => simp [Tracker.step, hpc, hch] at hs
    · simp only [Tracker.step] at hs
      rw [if_pos hpc] at hs; cases hs
  | recvFinished order t =>
    by_cases hpc : s.pc = .idle
    · cases hch : s.chan with
      | nil => simp [Tracker.step, hpc, hch] at hs
      | cons ev rest =>
        cases ev with
        | started id ho p j => simp [Tracker.step, hpc, hch] at hs
        | finished e =>
          simp only [Tracker.step] at hs
          rw [if_neg (by simp [hpc]), hch] at hs
          simp only at hs
          exact inv_handleFinished hg h hpc hch hs
    · simp only [Tracker.step] at hs
      rw [if_pos hpc] at hs; cases hs
  | seeTrigger =>
    simp only [Tracker.step] at hs
    by_cases hpc : s.pc = .idle
    · rw [if_neg (by simp [hpc])] at hs
      split at hs
      · cases hs
      · simp only [Res.ok.injEq] at hs
        subst hs
        exact inv_seeTrigger h hpc
    · rw [if_pos hpc] at hs; cases hs
  | seeHard =>
    simp only [Tracker.step] at hs
    by_cases hpc : s.pc = .idle
    · rw [if_neg (by simp [hpc])] at hs
      split at hs
      · cases hs
      · simp only [Res.ok.injEq] at hs
        subst hs
        exact inv_leaveLoop h hpc
    · rw [if_pos hpc] at hs; cases hs
  | ctrlC =>
    simp only [Tracker.step] at hs
    by_cases hpc : s.pc = .idle
    · rw [if_neg (by simp [hpc])] at hs
      simp only [Res.ok.injEq] at hs
      subst hs
      exact inv_leaveLoop h hpc
    · rw [if_pos hpc] at hs; cases hs
  | joinDone =>
    simp only [Tracker.step] at hs
    by_cases hpc : s.pc = .joining
    · rw [if_neg (by simp [hpc])] at hs
      split at hs
      · rename_i he
        simp only [Res.ok.injEq] at hs
        subst hs
        simp only [Bool.and_eq_true, List.isEmpty_iff] at he
        have hc := h.core
        rw [hpc] at hc
        have ht := h.tr
        rw [hpc] at ht
        refine ⟨⟨hc.acct, hc.items, hc.deps, hc.qs, hc.cnt⟩, ?_, ht⟩
        refine ⟨h.shape.softClosed, fun _ => h.shape.endClosed (by rw [hpc]; rfl), fun _ => .inr rfl, by simp,
          fun _ => ⟨he.1.1, he.1.2, he.2⟩, by simp, by simp⟩
      · cases hs
    · rw [if_pos hpc] at hs; cases hs
  | drain order t =>
    simp only [Tracker.step] at hs
    by_cases hpc : s.pc = .joined
    · rw [if_neg (by simp [hpc])] at hs
      exact ((inv_drain hg h hpc order t).2 s' hs).1
    · rw [if_pos hpc] at hs; cases hs
  | enter r =>
    simp only [Tracker.step] at hs
    by_cases hl : live s = false
    · rw [if_pos hl] at hs; cases hs
    · rw [if_neg hl] at hs
      split at hs
      · simp only [Res.ok.injEq] at hs
        subst hs
        refine ⟨⟨h.core.acct, h.core.items, h.core.deps, h.core.qs, h.core.cnt⟩, ?_, h.tr⟩
        refine h.shape.popAny (.inl ?_)
        simpa [live] using hl
      · cases hs
  | leave i =>
    simp only [Tracker.step] at hs
    split at hs
    · simp only [Res.ok.injEq] at hs
      subst hs
      refine h.congr_clock rfl (fun e => by simp [e])
    · cases hs
  | pop i j =>
    simp only [Tracker.step] at hs
    split at hs
    · cases hs
    · rename_i r hi
      split at hs
      · cases hs
      · rename_i it hj
        split at hs
        · simp only [Res.ok.injEq] at hs
          subst hs
          exact inv_pop h hi hj
        · cases hs
  | claim i =>
    simp only [Tracker.step] at hs
    split at hs
    · cases hs
    · rename_i r it hi
      split at hs
      · cases hs
      · rename_i f hf
        obtain ⟨v, b⟩ := f
        cases b with
        | true =>
          simp only [if_true, Res.ok.injEq] at hs
          subst hs
          exact inv_claimLost h hi hf
        | false =>
          simp only [Bool.false_eq_true, if_false, Res.ok.injEq] at hs
          subst hs
          exact inv_claimWon h hi hf
  | account i =>
    simp only [Tracker.step] at hs
    split at hs
    · cases hs
    · rename_i r it hi
      split at hs
      · cases hs
      · rename_i sn hq
        simp only [Res.ok.injEq] at hs
        subst hs
        exact inv_account hg h hi hq
  | sendStarted id ho p j =>
    simp only [disciplined, Bool.and_eq_true, decide_eq_true_eq] at hd
    simp only [Tracker.step] at hs
    split at hs
    · cases hs
    · simp only [Res.ok.injEq] at hs
      subst hs
      exact inv_sendStarted hg h hd.1 hd.2 ho p j
  | sendFinished e =>
    simp only [disciplined, decide_eq_true_eq] at hd
    simp only [Tracker.step] at hs
    split at hs
    · cases hs
    · simp only [Res.ok.injEq] at hs
      subst hs
      exact inv_sendFinished h hd
  | lose id =>
    simp only [disciplined, decide_eq_true_eq] at hd
    simp only [Tracker.step] at hs
    split at hs
    · cases hs
    · simp only [Res.ok.injEq] at hs
      subst hs
      exact inv_lose h hd
  | trigger =>
    simp only [Tracker.step, Res.ok.injEq] at hs
    subst hs
    exact h.congr_clock rfl id
  | cancel k =>
    simp only [Tracker.step, Res.ok.injEq] at hs
    subst hs
    exact h.congr_clock rfl id

end Verif.Tracker
