import Verif.Proof.TrackerSafe
import Verif.Proof.LogFile

/-!
# Consequences of the tracker invariants in the vocabulary of the properties
-/

namespace Verif.Tracker
open Verif
open scoped List

variable {c : Cfg} {lf : LogFile} {now : Int} {s s' : State}

theorem isSuccess_iff {st : ExitStatus} : st.isSuccess = true ↔ st = .code 0 := by
  cases st <;> simp [ExitStatus.isSuccess]

theorem isSuccess_false_iff {st : ExitStatus} : st.isSuccess = false ↔ st ≠ .code 0 := by
  rw [← Bool.not_eq_true, isSuccess_iff]

theorem asI32_ne_zero {st : ExitStatus} : st.asI32 = 0 ↔ st = .code 0 := by
  cases st <;> simp [ExitStatus.asI32]

theorem mem_okIds_iff {p : List (Nat × ExitStatus)} {v : Nat} : v ∈ okIds p ↔ (v, ExitStatus.code 0) ∈ p := by
  rw [mem_okIds]
  constructor
  · rintro ⟨st, h1, h2⟩; rw [isSuccess_iff] at h2; subst h2; exact h1
  · intro h; exact ⟨_, h, rfl⟩

theorem mem_failIds_iff {p : List (Nat × ExitStatus)} {v : Nat} : v ∈ failIds p ↔ ∃ st, (v, st) ∈ p ∧ st ≠ .code 0 := by
  rw [mem_failIds]
  simp only [isSuccess_false_iff]

theorem LogOk.new_eq {cur : Option Nat} (h : LogOk c lf s cur) :
    lf.writeAll (newEntries lf s) = .ok s.lf ∧ s.lf.entries = lf.entries ++ newEntries lf s ∧
      NewOk c.g (newEntries lf s) (owners s.flags) (s.processed ++ s.drained) cur := by
  obtain ⟨new, h1, h2, h3⟩ := h
  have : newEntries lf s = new := by unfold newEntries; rw [h2]; simp
  rw [this]; exact ⟨h1, h2, h3⟩

section
variable (hg : Good c) (hr : Reachable c lf now s)
include hg hr

theorem Reachable.made_iff {v : Nat} : MadeReady c lf s v ↔ v ∈ owners s.flags := by
  obtain ⟨hi, hh⟩ := hr.inv hg
  obtain ⟨_, _, h3⟩ := hh.log.new_eq
  unfold MadeReady
  rw [h3.ready]
  constructor
  · rintro ⟨hv, hk⟩
    obtain ⟨w, hw, he⟩ := List.mem_map.1 hk
    have := hg.keyInj (hi.core.deps.lt w hw) hv he
    rw [← this]; exact hw
  · intro hv
    exact ⟨hi.core.deps.lt v hv, List.mem_map.2 ⟨v, hv, rfl⟩⟩

theorem Reachable.busy_made {v : Nat}
    (hv : v ∈ s.held ++ s.lost ++ finIds s.chan ++ (s.processed ++ s.drained).map (·.1)) : v ∈ owners s.flags := by
  obtain ⟨hi, _⟩ := hr.inv hg
  exact (hi.core.place hg).inMade v hv

theorem Reachable.obtained_iff {v : Nat} : Obtained s v ↔
    v ∈ s.held ++ s.lost ++ finIds s.chan ++ (s.processed ++ s.drained).map (·.1) := by
  obtain ⟨_, hh⟩ := hr.inv hg
  have h1 := hh.past.obt.mem_iff (a := v)
  rw [List.map_append, ← List.append_assoc, ← h1]
  simp [Obtained]

theorem Reachable.obtained_made {v : Nat} (h : Obtained s v) : v ∈ owners s.flags :=
  hr.busy_made hg ((hr.obtained_iff hg).1 h)

theorem Reachable.closed_nodup : ((closedTasks s).map (·.1)).Nodup := by
  obtain ⟨hi, _⟩ := hr.inv hg
  have := (hi.core.place hg).uniq
  rw [List.nodup_append] at this
  exact this.2.1

theorem Reachable.obtained_nodup : (s.obtained.map (·.2)).Nodup := by
  obtain ⟨hi, hh⟩ := hr.inv hg
  refine hh.past.obt.nodup_iff.2 ?_
  have := (hi.core.place hg).uniq
  rw [List.map_append, ← List.append_assoc] at this
  exact this

theorem Reachable.closed_obtained {v : Nat} {st : ExitStatus} (h : (v, st) ∈ closedTasks s) : Obtained s v :=
  (hr.obtained_iff hg).2 (List.mem_append_right _ (List.mem_map.2 ⟨_, h, rfl⟩))

/-- All transitive dependencies of a task made ready have succeeded. -/
theorem Reachable.made_deps {u v : Nat} (hv : v ∈ owners s.flags) (hd : c.g.Dep u v) : (u, ExitStatus.code 0) ∈ s.processed := by
  obtain ⟨hi, _⟩ := hr.inv hg
  exact mem_okIds_iff.1 (hi.core.deps.met v hv u hd)

theorem Reachable.made_reach {u v : Nat} (hv : v ∈ owners s.flags) (hd : c.g.Reach u v) :
    (u, ExitStatus.code 0) ∈ s.processed := by
  obtain ⟨k, hk⟩ := hd
  induction k generalizing v with
  | zero =>
    cases hk with
    | snoc h1 h2 => cases h1; exact hr.made_deps hg hv h2
  | succ k ih =>
    cases hk with
    | @snoc _ _ w _ h1 h2 =>
      have hw := hr.made_deps hg hv h2
      exact ih (hr.obtained_made hg (hr.closed_obtained hg (List.mem_append_left _ hw))) h1

end

/-! ### what the composite steps leave alone -/

theorem finishHalf_cases {t : SysTime} {e : Fin} (h : finishHalf c t s e = .ok s') :
    ∃ lf, (((finLogged c s e lf).nRoi = 0 ∨ (finLogged c s e lf).soft = true ∧ (finLogged c s e lf).inflight = []) ∧
        s' = leaveLoop (finLogged c s e lf)) ∨
      (¬ ((finLogged c s e lf).nRoi = 0 ∨ (finLogged c s e lf).soft = true ∧ (finLogged c s e lf).inflight = []) ∧
        s' = { finLogged c s e lf with pc := .idle }) := by
  obtain ⟨lf, _, h1, h2⟩ := finishHalf_ok h
  refine ⟨lf, ?_⟩
  by_cases hx : (finLogged c s e lf).nRoi = 0 ∨ (finLogged c s e lf).soft = true ∧ (finLogged c s e lf).inflight = []
  · exact .inl ⟨hx, h1 hx⟩
  · exact .inr ⟨hx, h2 hx⟩

theorem finLogged_eq (e : Fin) (lf : LogFile) : finLogged c s e lf = { s with
    flagsSet := s.flagsSet ++ e.flag.toList
    inflight := s.inflight.filter (fun x => x.1 != e.id)
    lf := lf
    token := (finLogged c s e lf).token
    readyOpen := if s.nFizzled ≥ c.fizzlesAllowed then false else s.readyOpen
    soft := if s.nFizzled ≥ c.fizzlesAllowed then true else s.soft } := by
  unfold finLogged
  simp only
  split <;> rfl

/-- A processed finish either goes to `finishHalf` or makes tasks ready. -/
theorem handleFinished_cases {t : SysTime} {order : List Nat} {e : Fin} (h : handleFinished c t order s e = .ok s') :
    ∃ sn um po, s.qs (cmdOf c.g e.id).affinity = some sn ∧
      ((finishHalf c t { booked c.g { s with processed := s.processed ++ [(e.id, e.status)] } e sn with
          unmet := um
          poisoned := po } e = .ok s') ∨
       ∃ vs, vs ≠ [] ∧ s.soft = false ∧
        addReady c t { booked c.g { s with processed := s.processed ++ [(e.id, e.status)] } e sn with
          unmet := um
          poisoned := po } vs (some e) = .ok s') := by
  unfold handleFinished at h
  obtain ⟨s1, h1, h⟩ := Res.bind_ok.1 h
  obtain ⟨_, sn, hq, _, e1⟩ := book1_ok h1
  subst e1
  refine ⟨sn, ?_⟩
  by_cases hs : (booked c.g { s with processed := s.processed ++ [(e.id, e.status)] } e sn).soft = true
  · rw [if_pos hs] at h
    split at h
    · cases h
    · exact ⟨s.unmet, s.poisoned, hq, .inl h⟩
  · rw [if_neg hs] at h
    split at h
    · cases h
    · obtain ⟨r, _, h⟩ := Res.bind_ok.1 h
      refine ⟨r.1, r.2.1, hq, ?_⟩
      split at h
      · exact .inl h
      · rename_i hne
        refine .inr ⟨r.2.2, by simpa using hne, by simpa [booked] using hs, h⟩

/-- What `drain` leaves alone. -/
structure Kept (s s' : State) : Prop where
  processed : s'.processed = s.processed
  readyOpen : s'.readyOpen = s.readyOpen
  unmet : s'.unmet = s.unmet
  poisoned : s'.poisoned = s.poisoned
  soft : s'.soft = s.soft
  nUnready : s'.nUnready = s.nUnready
  queues : s'.queues = s.queues
  flags : s'.flags = s.flags
  trigger : s'.trigger = s.trigger
  token : s'.token = s.token
  counter : s'.counter = s.counter
  now : s'.now = s.now
  waiting : s'.waiting = s.waiting
  popped : s'.popped = s.popped
  claimed : s'.claimed = s.claimed
  obtained : s'.obtained = s.obtained
  startedSent : s'.startedSent = s.startedSent
  flagsSet : s'.flagsSet = s.flagsSet
  preambles : s'.preambles = s.preambles

theorem Kept.refl (s : State) : Kept s s := by constructor <;> rfl

theorem Kept.trans {s1 s2 s3 : State} (h : Kept s1 s2) (h' : Kept s2 s3) : Kept s1 s3 := by
  constructor
  all_goals first
    | exact h'.processed.trans h.processed
    | exact h'.readyOpen.trans h.readyOpen
    | exact h'.unmet.trans h.unmet
    | exact h'.poisoned.trans h.poisoned
    | exact h'.soft.trans h.soft
    | exact h'.nUnready.trans h.nUnready
    | exact h'.queues.trans h.queues
    | exact h'.flags.trans h.flags
    | exact h'.trigger.trans h.trigger
    | exact h'.token.trans h.token
    | exact h'.counter.trans h.counter
    | exact h'.now.trans h.now
    | exact h'.waiting.trans h.waiting
    | exact h'.popped.trans h.popped
    | exact h'.claimed.trans h.claimed
    | exact h'.obtained.trans h.obtained
    | exact h'.startedSent.trans h.startedSent
    | exact h'.flagsSet.trans h.flagsSet
    | exact h'.preambles.trans h.preambles

theorem Kept.writeLog {e : LogEntry} (h : writeLog s e = .ok s') : Kept s s' := by
  obtain ⟨lf, _, rfl⟩ := writeLog_ok.1 h
  constructor <;> rfl

theorem Kept.book1 {g : DiGraph Cmd} {e : Fin} (h : book1 g s e = .ok s') : Kept s s' := by
  obtain ⟨_, sn, _, _, rfl⟩ := book1_ok h
  constructor <;> rfl

theorem Kept.drainLoop {t : SysTime} : ∀ {es : List Event} {infl : List (Nat × Int)} {s : State}
    {r : State × List (Nat × Int)}, drainLoop c t es infl s = .ok r → Kept s r.1 := by
  intro es
  induction es with
  | nil =>
    intro infl s r h
    simp only [Tracker.drainLoop, Res.ok.injEq] at h
    subst h
    constructor <;> rfl
  | cons ev es ih =>
    intro infl s r h
    cases ev with
    | started id ho p j =>
      simp only [Tracker.drainLoop] at h
      obtain ⟨s1, h1, h⟩ := Res.bind_ok.1 h
      split at h
      · cases h
      · exact Kept.trans (Kept.trans (s2 := { s with chan := es }) (by constructor <;> rfl) (Kept.writeLog h1)) (ih h)
    | finished e =>
      simp only [Tracker.drainLoop] at h
      obtain ⟨s1, h1, h⟩ := Res.bind_ok.1 h
      obtain ⟨s2, h2, h⟩ := Res.bind_ok.1 h
      obtain ⟨s3, h3, h⟩ := Res.bind_ok.1 h
      have k2 : Kept s1 s2 := by
        split at h2
        · simp only [Res.ok.injEq] at h2; subst h2; exact Kept.refl _
        · exact Kept.writeLog h2
      have k0 : Kept s { s with chan := es } := by constructor <;> rfl
      have k3 : Kept s3 { s3 with drained := s3.drained ++ [(e.id, e.status)] } := by constructor <;> rfl
      exact (((k0.trans (Kept.book1 h1)).trans k2).trans (Kept.writeLog h3)).trans (k3.trans (ih h))

theorem Kept.drainRest {t : SysTime} : ∀ {vs : List Nat} {s s' : State}, drainRest c t vs s = .ok s' → Kept s s' := by
  intro vs
  induction vs with
  | nil => intro s s' h; simp only [Tracker.drainRest, Res.ok.injEq] at h; subst h; exact Kept.refl _
  | cons v vs ih =>
    intro s s' h
    simp only [Tracker.drainRest] at h
    obtain ⟨s1, h1, h⟩ := Res.bind_ok.1 h
    obtain ⟨s2, h2, h⟩ := Res.bind_ok.1 h
    refine ((Kept.book1 h1).trans (Kept.writeLog h2)).trans (Kept.trans ?_ (ih h))
    constructor <;> rfl

theorem Kept.drain {t : SysTime} {order : List Nat} (h : drain c t order s = .ok s') : Kept s s' ∧ s'.pc = .done := by
  unfold Tracker.drain at h
  obtain ⟨r, h1, h⟩ := Res.bind_ok.1 h
  split at h
  · cases h
  · obtain ⟨s1, h2, h⟩ := Res.bind_ok.1 h
    simp only [Res.ok.injEq] at h
    subst h
    refine ⟨?_, rfl⟩
    refine ((Kept.drainLoop h1).trans (Kept.trans ?_ (Kept.drainRest h2))).trans ?_
    · constructor <;> rfl
    · constructor <;> rfl

/-! ### the ghost lists are observations -/

theorem finishHalf_ghosts {t : SysTime} {e : Fin} (h : finishHalf c t s e = .ok s') :
    s'.obtained = s.obtained ∧ s'.processed = s.processed := by
  obtain ⟨lf, ⟨_, rfl⟩ | ⟨_, rfl⟩⟩ := finishHalf_cases h <;> rw [finLogged_eq] <;> exact ⟨rfl, rfl⟩

theorem step_ghosts {a : Act} (hs : step c s a = .ok s') :
    s'.obtained = s.obtained ++ (obsOf s a).filterMap Obs.got? ∧
    s'.processed = s.processed ++ (obsOf s a).filterMap Obs.report? := by
  cases a with
  | begin order t =>
    simp only [step] at hs
    split at hs
    · cases hs
    · split at hs
      · cases hs
      · split at hs
        · simp only [Res.ok.injEq] at hs; subst hs; simp [obsOf]
        · obtain ⟨_, _, _, _, rfl⟩ := addReady_ok hs; simp [obsOf]
  | sendDone t =>
    simp only [step] at hs
    split at hs
    · split at hs
      · simp only [Res.ok.injEq] at hs; subst hs; simp [obsOf]
      · obtain ⟨h1, h2⟩ := finishHalf_ghosts hs; simp [obsOf, h1, h2]
    · cases hs
  | recvStarted t =>
    simp only [step] at hs
    split at hs
    · cases hs
    · split at hs
      · obtain ⟨s1, h1, h2⟩ := Res.bind_ok.1 hs
        obtain ⟨lf, _, rfl⟩ := writeLog_ok.1 h1
        split at h2
        · cases h2
        · simp only [Res.ok.injEq] at h2; subst h2; simp [obsOf]
      · cases hs
  | recvFinished order t =>
    simp only [step] at hs
    split at hs
    · cases hs
    · split at hs
      · rename_i e rest hch
        obtain ⟨sn, um, po, _, h | ⟨vs, _, _, h⟩⟩ := handleFinished_cases hs
        · obtain ⟨h1, h2⟩ := finishHalf_ghosts h
          simp [obsOf, hch, h1, h2, booked, Obs.got?, Obs.report?]
        · obtain ⟨_, _, _, _, rfl⟩ := addReady_ok h
          simp [obsOf, hch, booked, Obs.got?, Obs.report?]
      · cases hs
  | drain order t =>
    simp only [step] at hs
    split at hs
    · cases hs
    · have k := (Kept.drain hs).1
      simp [obsOf, k.obtained, k.processed]
  | account i =>
    simp only [step] at hs
    split at hs
    · cases hs
    · rename_i r it hi
      split at hs
      · cases hs
      · simp only [Res.ok.injEq] at hs; subst hs
        simp [obsOf, hi, Obs.got?, Obs.report?]
  | pop i j =>
    simp only [step] at hs
    split at hs
    · cases hs
    · split at hs
      · cases hs
      · split at hs
        · simp only [Res.ok.injEq] at hs; subst hs; simp [obsOf]
        · cases hs
  | claim i =>
    simp only [step] at hs
    split at hs
    · cases hs
    · split at hs
      · cases hs
      · split at hs
        all_goals simp only [Res.ok.injEq] at hs; subst hs; simp [obsOf]
  | sendNext =>
    simp only [step] at hs
    split at hs
    · simp only [Res.ok.injEq] at hs; subst hs; simp [obsOf]
    · cases hs
  | enter r =>
    simp only [step] at hs
    split at hs
    · cases hs
    · split at hs
      · simp only [Res.ok.injEq] at hs; subst hs; simp [obsOf]
      · cases hs
  | tick d => simp only [step, Res.ok.injEq] at hs; subst hs; simp [obsOf]
  | trigger => simp only [step, Res.ok.injEq] at hs; subst hs; simp [obsOf]
  | cancel k => simp only [step, Res.ok.injEq] at hs; subst hs; simp [obsOf]
  | _ =>
    simp only [step] at hs
    repeat' split at hs
    all_goals first
      | cases hs; done
      | (simp only [Res.ok.injEq] at hs; subst hs; simp [obsOf, leaveLoop, zeroReady])

end Verif.Tracker
