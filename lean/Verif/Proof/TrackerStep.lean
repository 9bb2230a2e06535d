import Verif.Proof.TrackerInv2
import Verif.Spec.Tracker

/-!
# The invariant of the tracker is preserved by every action of a well-behaved run
-/

namespace Verif.Tracker
open Verif
open scoped List

/-- Has `background_serve` started? -/
def begunOf : Pc → Bool
  | .new => false
  | _ => true

/-- The task whose finish is processed but not yet logged. -/
def curOf : Pc → Option Nat
  | .sending _ (some e) => some e.id
  | _ => none

/-- Has the loop of `background_serve` been left? -/
def ended : Pc → Bool
  | .joining => true
  | .joined => true
  | .done => true
  | _ => false

structure Cnt (n made : Nat) (processed drained : List (Nat × ExitStatus)) (nRoi nUnready nFailed nSuccess : Nat)
    (begun : Bool) : Prop where
  roi : nRoi + processed.length + drained.length = made
  unready : begun = true → nUnready + made = n
  failed : nFailed = (processed ++ drained).countP (fun x => !x.2.isSuccess)
  success : nSuccess = (processed ++ drained).countP (fun x => x.2.isSuccess)

structure Shape (pc : Pc) (soft readyOpen : Bool) (waiting : List Nat) (popped claimed : List (Nat × Item))
    (processed : List (Nat × ExitStatus)) : Prop where
  softClosed : soft = true → readyOpen = false
  endClosed : ended pc = true → readyOpen = false
  closedIf : readyOpen = false → soft = true ∨ ended pc = true
  sendingOpen : ∀ t f, pc = .sending t f → readyOpen = true
  endEmpty : pc = .joined ∨ pc = .done → waiting = [] ∧ popped = [] ∧ claimed = []
  curProc : ∀ t e, pc = .sending t (some e) → (e.id, e.status) ∈ processed
  newSoft : pc = .new → soft = false

/-- The parts that do not depend on the program counter or the log. -/
structure Core (c : Cfg) (s : State) (begun : Bool) (todo : List (Nat × List Item)) : Prop where
  acct : Acct s.flags s.claimed s.held s.lost s.chan s.processed s.drained
  items : Items c.g s.flags s.queues s.popped s.claimed todo
  deps : Deps c.g (owners s.flags) s.processed s.unmet s.poisoned s.soft begun
  qs : Qs c.g s.qs (owners s.flags) (untakenIds s.flags ++ itemIds s.claimed) (s.held ++ s.lost ++ finIds s.chan)
    s.readyOpen
  cnt : Cnt c.g.n s.flags.length s.processed s.drained s.nRoi s.nUnready s.nFailed s.nSuccess begun

/-- The log part. -/
def TrS (c : Cfg) (rc0 : StrMap RuncountStatus) (s : State) (infl : List Nat) (cur : Option Nat) : Prop :=
  Tr c.g rc0 s.lf.mem.runcounts (owners s.flags) infl s.startedSent s.chan (s.held ++ s.lost) (s.processed ++ s.drained) cur

/-- The invariant. -/
structure Inv (c : Cfg) (rc0 : StrMap RuncountStatus) (s : State) : Prop where
  core : Core c s (begunOf s.pc) (todoOf s.pc)
  shape : Shape s.pc s.soft s.readyOpen s.waiting s.popped s.claimed s.processed
  tr : TrS c rc0 s (s.inflight.map (·.1)) (curOf s.pc)

theorem Good.keyInj {c : Cfg} (hg : Good c) {u v : Nat} (hu : u < c.g.n) (hv : v < c.g.n)
    (h : (cmdOf c.g u).key = (cmdOf c.g v).key) : u = v := by
  have h1 := node_of_lt hu
  have h2 := node_of_lt hv
  have hk := hg.keys
  have e1 : (c.g.nodes.map (·.key))[u]? = some (cmdOf c.g u).key := by simp [h1]
  have e2 : (c.g.nodes.map (·.key))[v]? = some (cmdOf c.g u).key := by simp [h2, h]
  have hl : u < (c.g.nodes.map (·.key)).length := (List.getElem?_eq_some_iff.1 e1).1
  exact (List.getElem?_inj hl hk).1 (e1.trans e2.symm)

section
variable {c : Cfg} {rc0 : StrMap RuncountStatus} {s : State} {begun : Bool} {todo : List (Nat × List Item)}

theorem Core.taken_nodup (h : Core c s begun todo) : (takenIds s.flags).Nodup :=
  h.deps.nodup.sublist (List.Sublist.map _ List.filter_sublist)

theorem Core.taken_sub (h : Core c s begun todo) {v : Nat} (hv : v ∈ takenIds s.flags) : v ∈ owners s.flags :=
  (List.Sublist.map _ List.filter_sublist).subset hv

theorem Core.all_nodup (h : Core c s begun todo) :
    (itemIds s.claimed ++ s.held ++ s.lost ++ finIds s.chan ++ s.processed.map (·.1) ++ s.drained.map (·.1)).Nodup :=
  h.acct.perm.nodup_iff.1 h.taken_nodup

theorem Core.place (hg : Good c) (h : Core c s begun todo) :
    Place c.g (owners s.flags) s.chan (s.held ++ s.lost) (s.processed ++ s.drained) := by
  have hsub : s.held ++ s.lost ++ finIds s.chan ++ (s.processed ++ s.drained).map (·.1) <+
      itemIds s.claimed ++ s.held ++ s.lost ++ finIds s.chan ++ s.processed.map (·.1) ++ s.drained.map (·.1) := by
    rw [List.map_append]
    simp only [List.append_assoc]
    exact List.sublist_append_right _ _
  refine ⟨fun v hv => h.taken_sub (h.acct.perm.mem_iff.2 (hsub.subset hv)), h.all_nodup.sublist hsub, ?_⟩
  intro u hu v hv
  exact hg.keyInj (h.deps.lt u hu) (h.deps.lt v hv)

theorem Core.len (h : Core c s begun todo) : s.flags.length ≤ c.g.n := by
  have h1 : (owners s.flags).length ≤ (List.range c.g.n).length :=
    h.deps.nodup.length_le_of_subset (fun v hv => List.mem_range.2 (h.deps.lt v hv))
  simpa [owners] using h1

theorem Core.lens (h : Core c s begun todo) :
    s.flags.length = (untakenIds s.flags).length + s.claimed.length + s.held.length + s.lost.length +
      (finIds s.chan).length + s.processed.length + s.drained.length := by
  have h1 := (owners_perm s.flags).length_eq
  have h2 := h.acct.perm.length_eq
  simp only [owners, List.length_map, List.length_append, itemIds] at h1 h2
  omega

theorem Inv.congr_clock (h : Inv c rc0 s) {s' : State} (e : s' = { s with
    now := s'.now, trigger := s'.trigger, token := s'.token, counter := s'.counter, flagsSet := s'.flagsSet,
    obtained := s'.obtained, preambles := s'.preambles, postambles := s'.postambles, nFizzled := s'.nFizzled,
    waiting := s'.waiting }) (hw : s.waiting = [] → s'.waiting = []) : Inv c rc0 s' := by
  rw [e]
  refine ⟨⟨h.core.acct, h.core.items, h.core.deps, h.core.qs, h.core.cnt⟩,
    ⟨h.shape.softClosed, h.shape.endClosed, h.shape.closedIf, h.shape.sendingOpen, ?_, h.shape.curProc, h.shape.newSoft⟩, h.tr⟩
  intro hx
  obtain ⟨h1, h2, h3⟩ := h.shape.endEmpty hx
  exact ⟨hw h1, h2, h3⟩

/-! ### making tasks ready -/

theorem core_addReady (hg : Good c) (h : Core c s begun []) {vs : List Nat} {pr : List (Nat × ExitStatus)}
    {um : Nat → Nat} {po : Nat → Bool} {nu nr : Nat}
    (hd : Deps c.g (owners s.flags ++ vs) pr um po s.soft true)
    (hc : nr + pr.length + s.drained.length = s.flags.length + vs.length) (hu : nu + s.flags.length + vs.length = c.g.n)
    (hpr : pr = s.processed) {lf : LogFile} {pc : Pc} :
    Core c { s with
      unmet := um
      poisoned := po
      nRoi := nr
      nUnready := nu
      lf := lf
      qs := vs.foldl (bumpQ c.g) s.qs
      flags := s.flags ++ vs.map (fun v => ⟨v, false⟩)
      pc := pc } true (batches c.g (itemsFor c.g s.flags.length vs)) := by
  subst hpr
  refine ⟨?_, h.items.addReady vs, ?_, ?_, ?_⟩
  · intro v
    simp only [takenIds_append, takenIds_fresh, List.append_nil]
    exact h.acct v
  · simpa [owners_fresh] using hd
  · have hl : (untakenIds s.flags ++ itemIds s.claimed).length + vs.length < 2 ^ 32 := by
      have h1 := h.lens
      have h2 := hg.small
      simp only [List.length_append, itemIds, List.length_map]
      omega
    have h1 := h.qs.bumpAll hl
    refine h1.perm (by simp [owners_fresh]) ?_ (List.Perm.refl _)
    simp only [untakenIds_append, untakenIds_fresh]
    simp only [List.append_assoc]
    exact List.Perm.append_left _ List.perm_append_comm
  · refine ⟨?_, ?_, h.cnt.failed, h.cnt.success⟩
    · simp only [List.length_append, List.length_map]; omega
    · intro _; simp only [List.length_append, List.length_map]; omega

theorem trS_addReady (hg : Good c) (h : Core c s begun todo) {infl : List Nat} {cur : Option Nat} (ht : TrS c rc0 s infl cur)
    {vs : List Nat} (hvs : ∀ v ∈ vs, v < c.g.n ∧ v ∉ owners s.flags) {t : SysTime} {s' : State}
    (hlf : s'.lf = readyLog c.g t s.lf vs) (hf : s'.flags = s.flags ++ vs.map (fun v => ⟨v, false⟩))
    (h1 : s'.startedSent = s.startedSent) (h2 : s'.chan = s.chan) (h3 : s'.held = s.held) (h4 : s'.lost = s.lost)
    (h5 : s'.processed = s.processed) (h6 : s'.drained = s.drained) :
    TrS c rc0 s' infl cur := by
  unfold TrS at ht ⊢
  have := ht.addReady (h.place hg) (vs := vs) (fun v hv => (hvs v hv).2) ?_
  · rw [hlf, hf, h1, h2, h3, h4, h5, h6, owners_append, owners_fresh]
    exact this
  · have hlt : ∀ v ∈ owners s.flags ++ vs, v < c.g.n := by
      intro v hv
      rcases List.mem_append.1 hv with hv | hv
      · exact h.deps.lt v hv
      · exact (hvs v hv).1
    intro u hu v hv
    exact hg.keyInj (hlt u hu) (hlt v hv)

/-- Parts that hold when a finish event has been booked, before it is logged. -/
structure Mid (c : Cfg) (rc0 : StrMap RuncountStatus) (s : State) (e : Fin) : Prop where
  core : Core c s true []
  tr : TrS c rc0 s (s.inflight.map (·.1)) (some e.id)
  proc : (e.id, e.status) ∈ s.processed
  soft : s.soft = true ↔ s.readyOpen = false

theorem asI32_eq (st : ExitStatus) : (st.asI32 == 0) = st.isSuccess := by
  cases st <;> simp [ExitStatus.asI32, ExitStatus.isSuccess] <;> rfl

/-- The effect of the entries for a finish event on the recorded states. -/
theorem finEntries_write {c : Cfg} {t : SysTime} {e : Fin} {lf : LogFile} {rcn sr : Nat} {b : Bool}
    (h : lf.mem.runcounts (cmdOf c.g e.id).key = if b then some (.started rcn sr) else some (.ready rcn sr)) :
    ∃ lf', lf.writeAll (finEntries c t e b) = .ok lf' ∧
      lf'.mem.runcounts = lf.mem.runcounts.set (cmdOf c.g e.id).key (.finished rcn sr e.status.isSuccess) ∧
      lf'.entries = lf.entries ++ finEntries c t e b := by
  cases b with
  | true =>
    simp only [if_true] at h
    simp only [finEntries, if_true, List.nil_append, LogFile.writeAll, LogFile.write, LogMem.write, h, Res.bind]
    exact ⟨_, rfl, by simp [asI32_eq], rfl⟩
  | false =>
    simp only [Bool.false_eq_true, if_false] at h
    simp only [finEntries, Bool.false_eq_true, if_false, List.cons_append, List.nil_append, LogFile.writeAll,
      LogFile.write, LogMem.write, h, Res.bind, StrMap.set, if_true]
    refine ⟨_, rfl, ?_, by simp⟩
    funext k
    simp only [asI32_eq, StrMap.set]
    split <;> rfl

theorem lookup_isSome {l : List (Nat × Int)} {v : Nat} : (l.lookup v).isSome = decide (v ∈ l.map (·.1)) := by
  induction l with
  | nil => rfl
  | cons x xs ih =>
    obtain ⟨a, b⟩ := x
    by_cases h : v = a
    · subst h; simp
    · have : (v == a) = false := by simpa using h
      rw [List.lookup_cons, this]
      simp [ih, h]

theorem map_filter_fst (l : List (Nat × Int)) (v : Nat) :
    (l.filter (fun x => x.1 != v)).map (·.1) = (l.map (·.1)).filter (fun x => x != v) := by
  rw [List.filter_map]; rfl

theorem closed_unique {l : List (Nat × ExitStatus)} (h : (l.map (·.1)).Nodup) {v : Nat} {a b : ExitStatus}
    (h1 : (v, a) ∈ l) (h2 : (v, b) ∈ l) : b = a := by
  induction l with
  | nil => simp at h1
  | cons x xs ih =>
    simp only [List.map_cons, List.nodup_cons, List.mem_map, Prod.exists] at h
    rcases List.mem_cons.1 h1 with e1 | m1
    · rcases List.mem_cons.1 h2 with e2 | m2
      · rw [← e1] at e2; simpa using e2
      · subst e1; exact absurd ⟨v, b, m2, rfl⟩ h.1
    · rcases List.mem_cons.1 h2 with e2 | m2
      · subst e2; exact absurd ⟨v, a, m1, rfl⟩ h.1
      · exact ih h.2 m1 m2

theorem logged {e : Fin} {infl : List (Nat × Int)} (hg : Good c) (hp : Place c.g (owners s.flags) s.chan
      (s.held ++ s.lost) (s.processed ++ s.drained)) (ht : TrS c rc0 s (infl.map (·.1)) (some e.id))
    (hcl : (e.id, e.status) ∈ s.processed ++ s.drained) (t : SysTime) :
    ∃ lf, s.lf.writeAll (finEntries c t e (infl.lookup e.id).isSome) = .ok lf ∧
      lf.entries = s.lf.entries ++ finEntries c t e (infl.lookup e.id).isSome ∧
      lf.mem.runcounts = s.lf.mem.runcounts.set (cmdOf c.g e.id).key
        (.finished (cmdOf c.g e.id).runcount (cmdOf c.g e.id).storageRoot e.status.isSuccess) ∧
      ∀ s' : State, s'.lf = lf → s'.flags = s.flags → s'.startedSent = s.startedSent → s'.chan = s.chan →
        s'.held = s.held → s'.lost = s.lost → s'.processed = s.processed → s'.drained = s.drained →
        TrS c rc0 s' ((infl.filter (fun x => x.1 != e.id)).map (·.1)) none := by
  have hm : e.id ∈ owners s.flags := hp.inMade _ (List.mem_append_right _ (List.mem_map.2 ⟨_, hcl, rfl⟩))
  have hst : s.lf.mem.runcounts (cmdOf c.g e.id).key =
      if (infl.lookup e.id).isSome then
        some (.started (cmdOf c.g e.id).runcount (cmdOf c.g e.id).storageRoot)
      else some (.ready (cmdOf c.g e.id).runcount (cmdOf c.g e.id).storageRoot) := by
    rw [lookup_isSome]
    by_cases hi : e.id ∈ infl.map (·.1)
    · rw [if_pos (by simpa using hi)]; exact ht.logInfl _ hi
    · rw [if_neg (by simpa using hi)]; exact ht.logReady _ hm hi (.inr rfl)
  obtain ⟨lf, h1, h2, h3⟩ := finEntries_write (t := t) hst
  refine ⟨lf, h1, h3, h2, ?_⟩
  intro s' e1 e2 e3 e4 e5 e6 e7 e8
  unfold TrS
  rw [e1, e2, e3, e4, e5, e6, e7, e8, h2]
  refine ht.finHalf hp hcl (fun st' hm' => ?_) (map_filter_fst _ _)
  have hnd := hp.uniq
  rw [List.nodup_append] at hnd
  exact closed_unique hnd.2.1 hcl hm'

theorem inv_finishHalf (hg : Good c) {e : Fin} (h : Mid c rc0 s e) {t : SysTime} {s' : State}
    (hs : finishHalf c t s e = .ok s') : Inv c rc0 s' := by
  obtain ⟨lf, hw, hexit, hstay⟩ := finishHalf_ok hs
  obtain ⟨lf', hw', _, _, htr⟩ := logged hg (h.core.place hg) h.tr (List.mem_append_left _ h.proc) t
  rw [hw] at hw'
  simp only [Res.ok.injEq] at hw'
  subst hw'
  have hcore : Core c (finLogged c s e lf) true [] ∧
      ((finLogged c s e lf).soft = true ↔ (finLogged c s e lf).readyOpen = false) ∧
      TrS c rc0 (finLogged c s e lf) ((finLogged c s e lf).inflight.map (·.1)) none := by
    unfold finLogged
    simp only
    split
    · refine ⟨⟨h.core.acct, h.core.items, h.core.deps.toSoft, h.core.qs.close, h.core.cnt⟩, by simp, ?_⟩
      exact htr _ rfl rfl rfl rfl rfl rfl rfl rfl
    · refine ⟨⟨h.core.acct, h.core.items, h.core.deps, h.core.qs, h.core.cnt⟩, h.soft, ?_⟩
      exact htr _ rfl rfl rfl rfl rfl rfl rfl rfl
  generalize finLogged c s e lf = s2 at hcore hexit hstay
  obtain ⟨k1, k2, k3⟩ := hcore
  by_cases hx : s2.nRoi = 0 ∨ s2.soft = true ∧ s2.inflight = []
  · rw [hexit hx]
    refine ⟨⟨k1.acct, k1.items, k1.deps, ?_, k1.cnt⟩, ?_, k3⟩
    · exact (k1.qs.zero : _)
    · refine ⟨fun _ => rfl, fun _ => rfl, fun _ => .inr rfl, ?_, ?_, ?_, ?_⟩
      · intro t f hh; simp [leaveLoop, zeroReady] at hh
      · intro hh; simp [leaveLoop, zeroReady] at hh
      · intro t f hh; simp [leaveLoop, zeroReady] at hh
      · intro hh; simp [leaveLoop, zeroReady] at hh
  · rw [hstay hx]
    refine ⟨⟨k1.acct, k1.items, k1.deps, k1.qs, k1.cnt⟩, ?_, k3⟩
    refine ⟨fun hh => k2.1 hh, by simp [ended], fun hh => .inl (k2.2 hh), ?_, ?_, ?_, ?_⟩
    · intro t f hh; simp at hh
    · intro hh; simp at hh
    · intro t f hh; simp at hh
    · intro hh; simp at hh

/-- Booking the finish event at the head of the channel. -/
theorem booked_parts (hg : Good c) (h : Core c s true []) {infl : List Nat} (ht : TrS c rc0 s infl none) {e : Fin}
    {rest : List Event} (hch : s.chan = .finished e :: rest) {sn : Snap}
    (hq : s.qs (cmdOf c.g e.id).affinity = some sn) (inDrain : Bool) {s0 s1 : State}
    (e0 : s0 = if inDrain then { s with chan := rest } else
      { s with chan := rest, processed := s.processed ++ [(e.id, e.status)] })
    (e1 : s1 = if inDrain then { booked c.g s0 e sn with drained := s.drained ++ [(e.id, e.status)] }
      else booked c.g s0 e sn) :
    Acct s1.flags s1.claimed s1.held s1.lost s1.chan s1.processed s1.drained ∧
    Qs c.g s1.qs (owners s1.flags) (untakenIds s1.flags ++ itemIds s1.claimed) (s1.held ++ s1.lost ++ finIds s1.chan)
      s1.readyOpen ∧
    Cnt c.g.n s1.flags.length s1.processed s1.drained s1.nRoi s1.nUnready s1.nFailed s1.nSuccess true ∧
    TrS c rc0 s1 infl (some e.id) ∧ e.id ∉ s.processed.map (·.1) ∧ e.id ∉ s.drained.map (·.1) := by
  have hlens := h.lens
  rw [hch] at hlens
  simp only [finIds_fin, List.length_cons] at hlens
  have hnd := h.all_nodup
  rw [hch] at hnd
  have hnp : e.id ∉ s.processed.map (·.1) := by
    intro hm
    rw [List.nodup_append, List.nodup_append] at hnd
    exact hnd.1.2.2 e.id (by simp) e.id hm rfl
  have hndr : e.id ∉ s.drained.map (·.1) := by
    intro hm
    rw [List.nodup_append] at hnd
    exact hnd.2.2 e.id (by simp) e.id hm rfl
  have hacct := h.acct
  rw [hch] at hacct
  have hqs := h.qs
  rw [hch] at hqs
  have hq' : Qs c.g (fun x => if x = (cmdOf c.g e.id).affinity then some { sn with numInflight := sn.numInflight - 1 }
      else s.qs x) (owners s.flags) (untakenIds s.flags ++ itemIds s.claimed) (s.held ++ s.lost ++ finIds rest)
      s.readyOpen := by
    refine Qs.fin (hqs.perm (List.Perm.refl _) (List.Perm.refl _) ?_) hq
    simp only [finIds_fin]
    exact List.perm_middle
  have hp := h.place hg
  unfold TrS at ht
  rw [hch] at ht hp
  have htr := ht.popFin hp
  have hroi := h.cnt.roi
  have hunr := h.cnt.unready rfl
  have hfail := h.cnt.failed
  have hsucc := h.cnt.success
  simp only [List.countP_append] at hfail hsucc
  cases inDrain with
  | false =>
    simp only [Bool.false_eq_true, if_false] at e0 e1
    subst e0 e1
    refine ⟨?_, hq', ?_, ?_, hnp, hndr⟩
    · intro v
      have := hacct v
      simp only [finIds_fin, List.count_cons, booked, List.map_append, List.count_append, List.map_cons, List.map_nil,
        List.count_nil] at this ⊢
      omega
    · refine ⟨?_, fun _ => hunr, ?_, ?_⟩
      · simp only [booked, List.length_append, List.length_cons, List.length_nil]; omega
      · simp only [booked, List.countP_append, List.countP_singleton]
        cases e.status.isSuccess <;> simp <;> omega
      · simp only [booked, List.countP_append, List.countP_singleton]
        cases e.status.isSuccess <;> simp <;> omega
    · refine htr.congr (fun _ => Iff.rfl) (List.Perm.refl _) (fun _ => Iff.rfl) ?_
      intro x
      simp only [booked, List.mem_append, List.mem_singleton]
      tauto
  | true =>
    simp only [if_true] at e0 e1
    subst e0 e1
    refine ⟨?_, hq', ?_, ?_, hnp, hndr⟩
    · intro v
      have := hacct v
      simp only [finIds_fin, List.count_cons, booked, List.map_append, List.count_append, List.map_cons, List.map_nil,
        List.count_nil] at this ⊢
      omega
    · refine ⟨?_, fun _ => hunr, ?_, ?_⟩
      · simp only [booked, List.length_append, List.length_cons, List.length_nil]; omega
      · simp only [booked, List.countP_append, List.countP_singleton]
        cases e.status.isSuccess <;> simp <;> omega
      · simp only [booked, List.countP_append, List.countP_singleton]
        cases e.status.isSuccess <;> simp <;> omega
    · refine htr.congr (fun _ => Iff.rfl) (List.Perm.refl _) (fun _ => Iff.rfl) ?_
      intro x
      simp only [booked, List.mem_append, List.mem_singleton]
      tauto

theorem inv_handleFinished (hg : Good c) (h : Inv c rc0 s) (hpc : s.pc = .idle) {e : Fin} {rest : List Event}
    (hch : s.chan = .finished e :: rest) {t : SysTime} {order : List Nat} {s' : State}
    (hs : handleFinished c t order { s with chan := rest } e = .ok s') : Inv c rc0 s' := by
  have hcore : Core c s true [] := by have := h.core; rw [hpc] at this; exact this
  have htr : TrS c rc0 s (s.inflight.map (·.1)) none := by have := h.tr; rw [hpc] at this; exact this
  have hshape := h.shape
  rw [hpc] at hshape
  unfold handleFinished at hs
  obtain ⟨s1, hb, hs⟩ := Res.bind_ok.1 hs
  obtain ⟨hlt, sn, hq, h0, es1⟩ := book1_ok hb
  simp only at hq
  obtain ⟨p1, p2, p3, p4, p5, _⟩ := booked_parts hg hcore htr hch hq false rfl es1
  have hproc : (e.id, e.status) ∈ s1.processed := by rw [es1]; simp [booked]
  have hinf : s1.inflight = s.inflight := by rw [es1]; rfl
  have hsoft1 : s1.soft = s.soft := by rw [es1]; rfl
  have hro1 : s1.readyOpen = s.readyOpen := by rw [es1]; rfl
  have hsr : s1.soft = true ↔ s1.readyOpen = false := by
    rw [hsoft1, hro1]
    exact ⟨hshape.softClosed, fun h1 => (hshape.closedIf h1).resolve_right (by simp [ended])⟩
  rw [← hinf] at p4
  have hitems : Items c.g s1.flags s1.queues s1.popped s1.claimed [] := by rw [es1]; exact hcore.items
  have hfl : s1.flags = s.flags := by rw [es1]; rfl
  have hpr : s1.processed = s.processed ++ [(e.id, e.status)] := by rw [es1]; rfl
  have hum : s1.unmet = s.unmet := by rw [es1]; rfl
  have hpo : s1.poisoned = s.poisoned := by rw [es1]; rfl
  have hdr : s1.drained = s.drained := by rw [es1]; rfl
  have hdeps := hcore.deps
  by_cases hsf : s1.soft = true
  · rw [if_pos hsf] at hs
    rw [if_neg (by simp [hsr.1 hsf])] at hs
    refine inv_finishHalf hg ⟨⟨p1, hitems, ?_, p2, p3⟩, p4, hproc, hsr⟩ hs
    rw [hfl, hpr, hum, hpo, hsf]
    rw [hsoft1] at hsf
    rw [hsf] at hdeps
    exact hdeps.finSoft rfl _
  · simp only [Bool.not_eq_true] at hsf
    rw [if_neg (by simp [hsf])] at hs
    have hsf' : s.soft = false := by rw [← hsoft1]; exact hsf
    rw [hsf'] at hdeps
    by_cases hperm : order.isPerm (c.g.succs e.id) = false
    · rw [if_pos hperm] at hs; cases hs
    · rw [if_neg hperm] at hs
      simp only [Bool.not_eq_false] at hperm
      have hperm := List.isPerm_iff.1 hperm
      obtain ⟨r, hr, hs⟩ := Res.bind_ok.1 hs
      have hndp : (s.processed.map (·.1)).Nodup := by
        have := hcore.all_nodup
        rw [List.nodup_append, List.nodup_append] at this
        exact this.1.2.1
      have hdeps' : Deps c.g (owners s.flags ++ r.2.2) (s.processed ++ [(e.id, e.status)]) r.1 r.2.1 false true ∧
          ∀ v ∈ r.2.2, v < c.g.n ∧ v ∉ owners s.flags := by
        rw [hum, hpo] at hr
        cases hst : e.status.isSuccess with
        | true =>
          rw [hst] at hr
          exact hdeps.finOk hg.wf hst p5 hndp hperm hr
        | false =>
          rw [hst] at hr
          obtain ⟨p, h1, h2⟩ := statusLoop_fail (o := order) (unmet := s.unmet) (poisoned := s.poisoned) (ready := [])
          rw [h1] at hr
          simp only [Res.ok.injEq] at hr
          subst hr
          simp only [List.append_nil, List.not_mem_nil, false_implies, implies_true, and_true]
          refine hdeps.finFail hst (fun v => ?_)
          rw [h2 v]; congr 1; rw [decide_eq_decide]; exact hperm.mem_iff
      obtain ⟨hd1, hd2⟩ := hdeps'
      by_cases hemp : r.2.2.isEmpty = true
      · rw [if_pos hemp] at hs
        have hemp' : r.2.2 = [] := by simpa using hemp
        refine inv_finishHalf (s := { s1 with unmet := r.1, poisoned := r.2.1 }) hg
          ⟨⟨p1, hitems, ?_, p2, p3⟩, p4, hproc, hsr⟩ hs
        rw [hemp', List.append_nil] at hd1
        simp only [hfl, hpr, hsf]
        exact hd1
      · rw [if_neg hemp] at hs
        obtain ⟨a1, a2, a3, a4, a5⟩ := addReady_ok hs
        simp only at a2 a3 a4 a5
        subst a5
        have hlen : s.flags.length + r.2.2.length ≤ c.g.n := by
          have h1 : (owners s.flags ++ r.2.2).length ≤ (List.range c.g.n).length :=
            hd1.nodup.length_le_of_subset (fun v hv => List.mem_range.2 (hd1.lt v hv))
          simpa [owners] using h1
        have hfl2 : s1.flags.length = s.flags.length := by rw [hfl]
        have hcore1 : Core c { s1 with soft := true } true [] := by
          refine ⟨p1, hitems, ?_, p2, p3⟩
          simp only [hfl, hpr]
          exact (hdeps.toSoft.finSoft rfl _ : Deps c.g _ _ _ _ true true) |> fun hh => by
            rw [hum, hpo]; exact hh
        have hunr := p3.unready rfl
        have hroi := p3.roi
        refine ⟨?_, ?_, ?_⟩
        · have := core_addReady (s := { s1 with soft := true }) hg hcore1 (vs := r.2.2) (pr := s1.processed)
            (um := r.1) (po := r.2.1) (nu := s1.nUnready - r.2.2.length) (nr := s1.nRoi + r.2.2.length)
            (lf := readyLog c.g t s1.lf r.2.2)
            (pc := .sending (batches c.g (itemsFor c.g s1.flags.length r.2.2)) (some e))
            (by simp only [hfl, hpr]; exact hd1.toSoft) (by simp only; omega) (by simp only; omega) rfl
          refine ⟨this.acct, this.items, ?_, this.qs, this.cnt⟩
          simp only [owners_append, owners_fresh, hfl, hpr, hsf]
          exact hd1
        · refine ⟨by simp [hsf], by simp [ended], fun hh => ?_, fun _ _ _ => a4, ?_, ?_, by simp⟩
          · simp only at hh; rw [a4] at hh; cases hh
          · intro hh; simp at hh
          · intro t' e' hh
            simp only [Pc.sending.injEq, Option.some.injEq] at hh
            rw [← hh.2]; exact hproc
        · exact trS_addReady hg hcore1 p4 (fun v hv => by simpa [hfl] using hd2 v hv) (t := t) rfl rfl rfl rfl rfl rfl rfl rfl

end
end Verif.Tracker
