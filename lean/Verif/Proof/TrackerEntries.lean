import Verif.Spec.Entries
import Verif.Proof.TrackerGrow

/-!
# Where the entries, flags and counter values of an execute come from
-/

namespace Verif
namespace Tracker

variable {c : Cfg} {s s' : State}

/-- The entries `s'` has in addition to those of `s` satisfy `P`. -/
def Adds (P : LogEntry → Prop) (s s' : State) : Prop := ∃ new, s'.lf.entries = s.lf.entries ++ new ∧ ∀ e ∈ new, P e

variable {P : LogEntry → Prop}

theorem Adds.of_eq (h : s'.lf = s.lf) : Adds P s s' := ⟨[], by simp [h], by simp⟩

theorem Adds.trans {s1 s2 s3 : State} : Adds P s1 s2 → Adds P s2 s3 → Adds P s1 s3 := by
  rintro ⟨a, ha, pa⟩ ⟨b, hb, pb⟩
  refine ⟨a ++ b, by rw [hb, ha, List.append_assoc], fun e he => ?_⟩
  rcases List.mem_append.1 he with h | h
  · exact pa e h
  · exact pb e h

theorem Adds.from {s1 s2 s3 : State} (h : Adds P s2 s3) (e : s2.lf = s1.lf) : Adds P s1 s3 :=
  Adds.trans (.of_eq e) h

theorem Adds.writeLog {e : LogEntry} (h : writeLog s e = .ok s') (he : P e) : Adds P s s' := by
  obtain ⟨lf, h1, rfl⟩ := writeLog_ok.1 h
  obtain ⟨m, _, rfl⟩ := LogFile.write_ok.1 h1
  exact ⟨[e], rfl, by simpa using he⟩

/-- Origin of the entries, given whether there may be Ready entries (`R`), where events (`Q`) and started tasks (`T`) come from, and whether `drain` runs (`D`). -/
def From (c : Cfg) (R : Prop) (Q : Event → Prop) (T : Nat → Prop) (D : Prop) : LogEntry → Prop
  | .ready r => R ∧ ∃ (v : Nat) (cmd : Cmd), c.g.nodes[v]? = some cmd ∧ r.key = cmd.key ∧ r.runcount = cmd.runcount ∧
      r.storageRoot = cmd.storageRoot ∧ cmd.displayText = some r.command
  | .started x =>
    (∃ v h p j, Q (.started v h p j) ∧ x.key = keyOf c v ∧ x.host = h ∧ x.pid = p ∧ x.slurmJobid = j) ∨
    (∃ e, Q (.finished e) ∧ x.key = keyOf c e.id ∧ x.host = "" ∧ x.pid = 0 ∧ x.slurmJobid = "") ∨
    (D ∧ ∃ v, T v ∧ x.key = keyOf c v ∧ x.host = "host" ∧ x.pid = 0 ∧ x.slurmJobid = "")
  | .finished x =>
    (∃ e, Q (.finished e) ∧ x.key = keyOf c e.id ∧ x.status = e.status.asI32 ∧ x.values = e.values) ∨
    (D ∧ ∃ v, T v ∧ x.key = keyOf c v ∧ x.status = -1 ∧ x.values = [])
  | .header _ => False
  | .backref _ => False

variable {R : Prop} {Q : Event → Prop} {T : Nat → Prop} {D : Prop}

theorem Adds.addReady {t : SysTime} {vs : List Nat} {fin : Option Fin} (h : addReady c t s vs fin = .ok s') (hR : R) :
    Adds (From c R Q T D) s s' := by
  obtain ⟨hall, _, _, _, rfl⟩ := addReady_ok h
  refine ⟨vs.map (readyEntry c.g t), rfl, fun e he => ?_⟩
  obtain ⟨v, hv, rfl⟩ := List.mem_map.1 he
  obtain ⟨h1, h2⟩ := hall v hv
  refine ⟨hR, v, _, node_of_lt h1, rfl, rfl, rfl, ?_⟩
  cases hd : (cmdOf c.g v).displayText with
  | none => rw [hd] at h2; cases h2
  | some d => rfl

theorem Adds.finishHalf {t : SysTime} {e : Fin} (h : finishHalf c t s e = .ok s') (hq : Q (.finished e)) :
    Adds (From c R Q T D) s s' := by
  obtain ⟨lf, hw, h1, h2⟩ := finishHalf_ok h
  have he := (Props.Log.writeAll_entries _ _ _ hw).1
  have : s'.lf = lf := by
    by_cases hx : (finLogged c s e lf).nRoi = 0 ∨ (finLogged c s e lf).soft = true ∧ (finLogged c s e lf).inflight = []
    · rw [h1 hx, finLogged_eq]; rfl
    · rw [h2 hx, finLogged_eq]
  refine ⟨_, by rw [this, he], fun x hx => ?_⟩
  unfold finEntries at hx
  rcases List.mem_append.1 hx with hx | hx
  · split at hx
    · simp at hx
    · simp only [List.mem_singleton] at hx
      subst hx
      exact .inr (.inl ⟨e, hq, rfl, rfl, rfl, rfl⟩)
  · simp only [List.mem_singleton] at hx
    subst hx
    exact .inl ⟨e, hq, rfl, rfl, rfl⟩

theorem Adds.handleFinished {t : SysTime} {order : List Nat} {e : Fin} (h : handleFinished c t order s e = .ok s')
    (hq : Q (.finished e)) (hR : R) : Adds (From c R Q T D) s s' := by
  obtain ⟨sn, um, po, _, h | ⟨vs, _, _, h⟩⟩ := handleFinished_cases h
  · exact (Adds.finishHalf h hq).from rfl
  · exact (Adds.addReady h hR).from rfl

/-- What `drain` leaves alone. -/
structure DKept (s s' : State) : Prop where
  pc : s'.pc = s.pc
  flagsSet : s'.flagsSet = s.flagsSet
  counter : s'.counter = s.counter
  processed : s'.processed = s.processed
  token : s'.token = s.token

theorem DKept.refl (s : State) : DKept s s := ⟨rfl, rfl, rfl, rfl, rfl⟩
theorem DKept.trans {s1 s2 s3 : State} (h : DKept s1 s2) (k : DKept s2 s3) : DKept s1 s3 :=
  ⟨k.pc.trans h.pc, k.flagsSet.trans h.flagsSet, k.counter.trans h.counter, k.processed.trans h.processed,
    k.token.trans h.token⟩
theorem DKept.writeLog {e : LogEntry} (h : writeLog s e = .ok s') : DKept s s' := by
  obtain ⟨lf, _, rfl⟩ := writeLog_ok.1 h
  exact ⟨rfl, rfl, rfl, rfl, rfl⟩
theorem DKept.book1 {g : DiGraph Cmd} {e : Fin} (h : book1 g s e = .ok s') : DKept s s' := by
  obtain ⟨_, sn, _, _, rfl⟩ := book1_ok h
  exact ⟨rfl, rfl, rfl, rfl, rfl⟩

theorem Adds.drainLoop {t : SysTime} (R : Prop) (hQT : ∀ v h p j, Q (.started v h p j) → T v) (hD : D) :
    ∀ {es : List Event} {infl : List (Nat × Int)} {s : State}
    {r : State × List (Nat × Int)}, drainLoop c t es infl s = .ok r → (∀ ev ∈ es, Q ev) → (∀ x ∈ infl, T x.1) →
    Adds (From c R Q T D) s r.1 ∧ (∀ x ∈ r.2, T x.1) ∧ r.1.chan = [] ∧ DKept s r.1 := by
  intro es
  induction es with
  | nil =>
    intro infl s r h _ ht
    simp only [Tracker.drainLoop, Res.ok.injEq] at h
    subst h
    exact ⟨.of_eq rfl, ht, rfl, ⟨rfl, rfl, rfl, rfl, rfl⟩⟩
  | cons ev es ih =>
    intro infl s r h hq ht
    have hq' : ∀ ev ∈ es, Q ev := fun ev he => hq ev (List.mem_cons_of_mem _ he)
    have k0 : DKept s { s with chan := es } := ⟨rfl, rfl, rfl, rfl, rfl⟩
    cases ev with
    | started id ho p j =>
      simp only [Tracker.drainLoop] at h
      obtain ⟨s1, h1, h⟩ := Res.bind_ok.1 h
      have hT : T id := hQT id ho p j (hq _ (by simp))
      split at h
      · cases h
      · obtain ⟨k1, k2, k3, k4⟩ := ih h hq' (by
          intro x hx
          rcases List.mem_cons.1 hx with rfl | hx
          · exact hT
          · exact ht x hx)
        have ha : Adds (From c R Q T D) { s with chan := es } s1 :=
          Adds.writeLog h1 (.inr (.inr ⟨hD, id, hT, rfl, rfl, rfl, rfl⟩))
        exact ⟨(ha.from rfl).trans k1, k2, k3, (k0.trans (.writeLog h1)).trans k4⟩
    | finished e =>
      simp only [Tracker.drainLoop] at h
      obtain ⟨s1, h1, h⟩ := Res.bind_ok.1 h
      obtain ⟨s2, h2, h⟩ := Res.bind_ok.1 h
      obtain ⟨s3, h3, h⟩ := Res.bind_ok.1 h
      have hqe : Q (.finished e) := hq _ (by simp)
      have kb := DKept.book1 h1
      obtain ⟨_, sn, _, _, e1⟩ := book1_ok h1
      have a0 : Adds (From c R Q T D) s s1 := by rw [e1]; exact .of_eq rfl
      have a2 : Adds (From c R Q T D) s1 s2 ∧ DKept s1 s2 := by
        split at h2
        · simp only [Res.ok.injEq] at h2; subst h2; exact ⟨.of_eq rfl, .refl _⟩
        · exact ⟨.writeLog h2 (.inr (.inl ⟨e, hqe, rfl, rfl, rfl, rfl⟩)), .writeLog h2⟩
      have a3 : Adds (From c R Q T D) s2 s3 := .writeLog h3 (.inl ⟨e, hqe, rfl, rfl, rfl⟩)
      have k3 : DKept s3 { s3 with drained := s3.drained ++ [(e.id, e.status)] } := ⟨rfl, rfl, rfl, rfl, rfl⟩
      obtain ⟨j1, j2, j3, j4⟩ := ih h hq' (fun x hx => ht x (List.mem_filter.1 hx).1)
      exact ⟨((a0.trans a2.1).trans a3).trans (j1.from rfl), j2, j3,
        ((((k0.trans kb).trans a2.2).trans (.writeLog h3)).trans k3).trans j4⟩

theorem Adds.drainRest {t : SysTime} (R : Prop) (Q : Event → Prop) (hD : D) : ∀ {vs : List Nat} {s s' : State},
    drainRest c t vs s = .ok s' →
    (∀ v ∈ vs, T v) → Adds (From c R Q T D) s s' ∧ s'.chan = s.chan ∧ s'.inflight = s.inflight ∧ DKept s s' := by
  intro vs
  induction vs with
  | nil => intro s s' h _; simp only [Tracker.drainRest, Res.ok.injEq] at h; subst h; exact ⟨.of_eq rfl, rfl, rfl, .refl _⟩
  | cons v vs ih =>
    intro s s' h ht
    simp only [Tracker.drainRest] at h
    obtain ⟨s1, h1, h⟩ := Res.bind_ok.1 h
    obtain ⟨s2, h2, h⟩ := Res.bind_ok.1 h
    have kb := DKept.book1 h1
    have kw := DKept.writeLog h2
    obtain ⟨_, sn, _, _, e1⟩ := book1_ok h1
    obtain ⟨lf, _, e2⟩ := writeLog_ok.1 h2
    have k1 : Adds (From c R Q T D) s s1 := by rw [e1]; exact .of_eq rfl
    have k2 : Adds (From c R Q T D) s1 s2 := .writeLog h2 (.inr ⟨hD, v, ht v (by simp), rfl, rfl, rfl⟩)
    obtain ⟨j1, j2, j3, j4⟩ := ih h (fun w hw => ht w (List.mem_cons_of_mem _ hw))
    refine ⟨(k1.trans k2).trans (j1.from rfl), ?_, ?_, (kb.trans kw).trans (⟨j4.pc, j4.flagsSet, j4.counter, j4.processed, j4.token⟩)⟩
    · rw [j2, e2, e1]; rfl
    · rw [j3, e2, e1]; rfl

theorem Adds.drain {t : SysTime} {order : List Nat} (R : Prop) (h : drain c t order s = .ok s')
    (hQT : ∀ v h p j, Q (.started v h p j) → T v) (hD : D) (hq : ∀ ev ∈ s.chan, Q ev) (ht : ∀ x ∈ s.inflight, T x.1) :
    Adds (From c R Q T D) s s' ∧ s'.chan = [] ∧ s'.pc = .done ∧ s'.inflight = [] ∧ DKept s { s' with pc := s.pc } := by
  unfold Tracker.drain at h
  obtain ⟨r, h1, h⟩ := Res.bind_ok.1 h
  obtain ⟨k1, k2, k3, k4⟩ := Adds.drainLoop R hQT hD h1 hq ht
  split at h
  · cases h
  · rename_i hp
    obtain ⟨s1, h2, h⟩ := Res.bind_ok.1 h
    simp only [Res.ok.injEq] at h
    subst h
    have hperm : order.Perm (r.2.map (·.1)) := by simpa [List.isPerm_iff] using hp
    obtain ⟨j1, j2, j3, j4⟩ := Adds.drainRest R Q hD h2 (T := T) (by
      intro v hv
      obtain ⟨x, hx, rfl⟩ := List.mem_map.1 (hperm.mem_iff.1 hv)
      exact k2 x hx)
    have kk := k4.trans (⟨j4.pc, j4.flagsSet, j4.counter, j4.processed, j4.token⟩)
    refine ⟨(k1.trans (j1.from rfl)).trans (.of_eq rfl), ?_, rfl, j3, ⟨rfl, kk.flagsSet, kk.counter, kk.processed, kk.token⟩⟩
    show s1.chan = _; rw [j2]; exact k3

/-- Is the event waiting in the channel, or is the server in the middle of it? -/
def Pending (s : State) (ev : Event) : Prop :=
  ev ∈ s.chan ∨ ∃ todo e, s.pc = .sending todo (some e) ∧ ev = .finished e

/-- The report was sent. -/
def SentEv (as : List Act) : Event → Prop
  | .started v h p j => Act.sendStarted v h p j ∈ as
  | .finished e => Act.sendFinished e ∈ as

theorem origin_of_from {as : List Act} {e : LogEntry}
    (h : From c True (SentEv as) (ReportedStart as) (∃ a ∈ as, a.isDrain = true) e) : Origin c as e := by
  cases e with
  | ready r => exact h.2
  | started x => exact h
  | finished x => exact h
  | header x => exact h
  | backref x => exact h

theorem SentEv.mono {as bs : List Act} {ev : Event} (hsub : ∀ a ∈ as, a ∈ bs) (h : SentEv as ev) : SentEv bs ev := by
  cases ev with
  | started v h p j => exact hsub _ h
  | finished e => exact hsub _ h

theorem ReportedStart.mono {as bs : List Act} {v : Nat} (hsub : ∀ a ∈ as, a ∈ bs) (h : ReportedStart as v) :
    ReportedStart bs v := by
  obtain ⟨x, p, j, hm⟩ := h
  exact ⟨x, p, j, hsub _ hm⟩

theorem Origin.mono {as bs : List Act} {e : LogEntry} (hsub : ∀ a ∈ as, a ∈ bs) (h : Origin c as e) : Origin c bs e := by
  cases e with
  | ready r => exact h
  | started x =>
    rcases h with ⟨v, ho, p, j, h1, h2⟩ | ⟨e, h1, h2⟩ | ⟨⟨a, ha, hd⟩, v, h1, h2⟩
    · exact .inl ⟨v, ho, p, j, hsub _ h1, h2⟩
    · exact .inr (.inl ⟨e, hsub _ h1, h2⟩)
    · exact .inr (.inr ⟨⟨a, hsub _ ha, hd⟩, v, h1.mono hsub, h2⟩)
  | finished x =>
    rcases h with ⟨e, h1, h2⟩ | ⟨⟨a, ha, hd⟩, v, h1, h2⟩
    · exact .inl ⟨e, hsub _ h1, h2⟩
    · exact .inr ⟨⟨a, hsub _ ha, hd⟩, v, h1.mono hsub, h2⟩
  | header x => exact h
  | backref x => exact h

/-- The flag of a finish event. -/
def flag? : Event → Option Nat
  | .finished e => e.flag
  | .started _ _ _ _ => none

theorem flags_started (id : Nat) (h : String) (p : Nat) (j : String) (es : List Event) :
    (Event.started id h p j :: es).filterMap flag? = es.filterMap flag? := List.filterMap_cons_none rfl

theorem flags_finished (e : Fin) (es : List Event) :
    (Event.finished e :: es).filterMap flag? = e.flag.toList ++ es.filterMap flag? := by
  cases hf : e.flag with
  | none => rw [List.filterMap_cons_none (by exact hf)]; rfl
  | some f => rw [List.filterMap_cons_some (by exact hf)]; rfl

/-- The flag of the finish event the server is in the middle of. -/
def curFlag : Pc → List Nat
  | .sending _ (some e) => e.flag.toList
  | _ => []

/-- The flags of events not yet dealt with. -/
def waitingFlags (s : State) : List Nat := s.chan.filterMap flag? ++ curFlag s.pc

/-- The finish event the server is in the middle of. -/
def curFin : Pc → Option Fin
  | .sending _ f => f
  | _ => none

/-- Invariant of a run of actions `as`: where entries and events come from; what happened to the flags. -/
structure RInv (c : Cfg) (lf : LogFile) (as : List Act) (s : State) : Prop where
  entries : ∃ new, s.lf.entries = lf.entries ++ new ∧ ∀ e ∈ new, Origin c as e
  evs : ∀ ev ∈ s.chan, SentEv as ev
  cur : ∀ e, curFin s.pc = some e → SentEv as (.finished e) ∧ (e.id, e.status) ∈ s.processed
  infl : ∀ x ∈ s.inflight, ReportedStart as x.1
  flags : s.pc ≠ .done → (s.flagsSet ++ waitingFlags s).Perm (sentFlags as)
  set : ∀ f ∈ s.flagsSet, ∃ e, Act.sendFinished e ∈ as ∧ e.flag = some f ∧ (e.id, e.status) ∈ s.processed
  hard : s.pc = .joining ∨ s.pc = .joined ∨ s.pc = .done → s.token = some .hard

theorem rinv_init (lf : LogFile) (now : Int) : RInv c lf [] (Tracker.init c lf now) :=
  ⟨⟨[], by simp [Tracker.init], by simp⟩, by simp [Tracker.init], by simp [Tracker.init, curFin], by simp [Tracker.init],
    by simp [Tracker.init, waitingFlags, curFlag, sentFlags], by simp [Tracker.init], by simp [Tracker.init]⟩

theorem sentFlags_append (as bs : List Act) : sentFlags (as ++ bs) = sentFlags as ++ sentFlags bs := by
  simp [sentFlags, List.filterMap_append]

/-- An action that leaves log, events, place, processed list and flags alone. -/
theorem RInv.same {lf : LogFile} {as : List Act} {a : Act} (h : RInv c lf as s) (h1 : s'.lf = s.lf) (h2 : s'.chan = s.chan)
    (h3 : s'.pc = s.pc) (h4 : s'.processed = s.processed) (h5 : s'.inflight = s.inflight) (h6 : s'.flagsSet = s.flagsSet)
    (h7 : s.token = some .hard → s'.token = some .hard) (h8 : sentFlags [a] = []) : RInv c lf (as ++ [a]) s' := by
  have hsub : ∀ x ∈ as, x ∈ as ++ [a] := fun x hx => List.mem_append_left _ hx
  refine ⟨?_, ?_, ?_, ?_, ?_, ?_, ?_⟩
  · obtain ⟨new, e1, e2⟩ := h.entries
    exact ⟨new, by rw [h1, e1], fun e he => (e2 e he).mono hsub⟩
  · rw [h2]; exact fun ev hev => (h.evs ev hev).mono hsub
  · rw [h3, h4]; exact fun e he => ⟨(h.cur e he).1.mono hsub, (h.cur e he).2⟩
  · rw [h5]; exact fun x hx => (h.infl x hx).mono hsub
  · rw [h3, h6, sentFlags_append, h8, List.append_nil]
    unfold waitingFlags
    rw [h2, h3]
    exact h.flags
  · rw [h6, h4]
    intro f hf
    obtain ⟨e, e1, e2⟩ := h.set f hf
    exact ⟨e, hsub _ e1, e2⟩
  · rw [h3]; exact fun hp => h7 (h.hard hp)

theorem tokenCancel_hard (old : Option Cancel) : tokenCancel old .hard = some .hard := rfl
theorem tokenCancel_of_hard (k : Cancel) : tokenCancel (some .hard) k = some .hard := by cases k <;> rfl

theorem RInv.leave {lf : LogFile} {as : List Act} (h : RInv c lf as s) (hc : curFlag s.pc = []) (hd : s.pc ≠ .done) :
    RInv c lf as (leaveLoop s) := by
  refine ⟨h.entries, h.evs, ?_, h.infl, fun _ => ?_, h.set, fun _ => rfl⟩
  · intro e he; cases he
  · have := h.flags hd
    unfold waitingFlags at this ⊢
    rw [hc] at this
    exact this

theorem RInv.addReady {lf : LogFile} {as : List Act} {t : SysTime} {vs : List Nat} {fin : Option Fin}
    (hs : addReady c t s vs fin = .ok s')
    (h1 : ∃ new, s.lf.entries = lf.entries ++ new ∧ ∀ e ∈ new, Origin c as e) (h2 : ∀ ev ∈ s.chan, SentEv as ev)
    (h4 : ∀ x ∈ s.inflight, ReportedStart as x.1)
    (h6 : ∀ f ∈ s.flagsSet, ∃ e, Act.sendFinished e ∈ as ∧ e.flag = some f ∧ (e.id, e.status) ∈ s.processed)
    (hf : ∀ e, fin = some e → SentEv as (.finished e) ∧ (e.id, e.status) ∈ s.processed)
    (hp : (s.flagsSet ++ (s.chan.filterMap flag? ++ curFlag (.sending [] fin))).Perm (sentFlags as)) :
    RInv c lf as s' := by
  obtain ⟨new, n1, n2⟩ := Adds.addReady (Q := SentEv as) (T := ReportedStart as) (D := ∃ a ∈ as, a.isDrain = true)
    (R := True) hs trivial
  obtain ⟨_, _, _, _, rfl⟩ := addReady_ok hs
  refine ⟨?_, h2, hf, h4, fun _ => ?_, h6, by simp⟩
  · obtain ⟨old, o1, o2⟩ := h1
    refine ⟨old ++ new, by rw [n1, o1, List.append_assoc], fun e he => ?_⟩
    rcases List.mem_append.1 he with he | he
    · exact o2 e he
    · exact origin_of_from (n2 e he)
  · cases fin with
    | none => exact hp
    | some e => exact hp

/-- `finishHalf` of an event that is accounted for. `s` need not satisfy the invariant with its own place. -/
theorem RInv.finishHalf {lf : LogFile} {as : List Act} {t : SysTime} {e : Fin} (hs : finishHalf c t s e = .ok s')
    (h1 : ∃ new, s.lf.entries = lf.entries ++ new ∧ ∀ e ∈ new, Origin c as e) (h2 : ∀ ev ∈ s.chan, SentEv as ev)
    (h3 : SentEv as (.finished e) ∧ (e.id, e.status) ∈ s.processed) (h4 : ∀ x ∈ s.inflight, ReportedStart as x.1)
    (h5 : (s.flagsSet ++ (s.chan.filterMap flag? ++ e.flag.toList)).Perm (sentFlags as))
    (h6 : ∀ f ∈ s.flagsSet, ∃ e, Act.sendFinished e ∈ as ∧ e.flag = some f ∧ (e.id, e.status) ∈ s.processed) :
    RInv c lf as s' := by
  obtain ⟨new, n1, n2⟩ := Adds.finishHalf (Q := SentEv as) (T := ReportedStart as) (D := ∃ a ∈ as, a.isDrain = true)
    (R := True) hs h3.1
  have hent : ∃ new, s'.lf.entries = lf.entries ++ new ∧ ∀ e ∈ new, Origin c as e := by
    obtain ⟨old, o1, o2⟩ := h1
    refine ⟨old ++ new, by rw [n1, o1, List.append_assoc], fun e he => ?_⟩
    rcases List.mem_append.1 he with he | he
    · exact o2 e he
    · exact origin_of_from (n2 e he)
  obtain ⟨l, hw, k1, k2⟩ := finishHalf_ok hs
  have hset : ∀ f ∈ s.flagsSet ++ e.flag.toList, ∃ e, Act.sendFinished e ∈ as ∧ e.flag = some f ∧
      (e.id, e.status) ∈ s.processed := by
    intro f hf
    rcases List.mem_append.1 hf with hf | hf
    · exact h6 f hf
    · simp only [Option.mem_toList] at hf
      exact ⟨e, h3.1, hf, h3.2⟩
  have hperm : ((s.flagsSet ++ e.flag.toList) ++ (s.chan.filterMap flag? ++ [])).Perm (sentFlags as) := by
    refine List.Perm.trans ?_ h5
    rw [List.append_nil, List.append_assoc]
    exact List.Perm.append_left _ List.perm_append_comm
  by_cases hx : (finLogged c s e l).nRoi = 0 ∨ (finLogged c s e l).soft = true ∧ (finLogged c s e l).inflight = []
  · have := k1 hx
    rw [finLogged_eq] at this
    subst this
    exact ⟨hent, h2, fun e he => by simp [leaveLoop, zeroReady, curFin] at he, fun x hx => h4 x (List.mem_filter.1 hx).1,
      fun _ => hperm, hset, fun _ => rfl⟩
  · have := k2 hx
    rw [finLogged_eq] at this
    subst this
    exact ⟨hent, h2, fun e he => by simp [curFin] at he, fun x hx => h4 x (List.mem_filter.1 hx).1,
      fun _ => hperm, hset, fun hp => by simp at hp⟩

theorem RInv.step {lf : LogFile} {as : List Act} {a : Act} (h : RInv c lf as s) (hs : Tracker.step c s a = .ok s') :
    RInv c lf (as ++ [a]) s' := by
  have hsub : ∀ x ∈ as, x ∈ as ++ [a] := fun x hx => List.mem_append_left _ hx
  -- the invariant for the longer list, if the action sends nothing
  have grow : sentFlags [a] = [] → RInv c lf (as ++ [a]) s := fun h8 => h.same rfl rfl rfl rfl rfl rfl id h8
  cases a with
  | begin order t =>
    have g := grow rfl
    simp only [Tracker.step] at hs
    split at hs
    · cases hs
    · rename_i hpc
      have hpc : s.pc = .new := by simpa using hpc
      have hfl := g.flags (by rw [hpc]; simp)
      unfold waitingFlags at hfl
      rw [hpc] at hfl
      split at hs
      · cases hs
      · split at hs
        · simp only [Res.ok.injEq] at hs; subst hs
          exact ⟨g.entries, g.evs, fun e he => by simp [curFin] at he, g.infl, fun _ => hfl, g.set, by simp⟩
        · exact RInv.addReady (s := { s with nUnready := c.g.n }) hs g.entries g.evs g.infl g.set (by simp) hfl
  | sendNext =>
    have g := grow rfl
    simp only [Tracker.step] at hs
    split at hs
    · rename_i i items todo fin hpc
      simp only [Res.ok.injEq] at hs; subst hs
      have hfl := g.flags (by rw [hpc]; simp)
      have hcur := g.cur
      unfold waitingFlags at hfl
      rw [hpc] at hfl hcur
      refine ⟨g.entries, g.evs, hcur, g.infl, fun _ => ?_, g.set, by simp⟩
      cases fin <;> exact hfl
    · cases hs
  | sendDone t =>
    have g := grow rfl
    simp only [Tracker.step] at hs
    split at hs
    · rename_i fin hpc
      have hfl := g.flags (by rw [hpc]; simp)
      have hcur := g.cur
      unfold waitingFlags at hfl
      rw [hpc] at hfl hcur
      cases fin with
      | none =>
        simp only [Res.ok.injEq] at hs; subst hs
        exact ⟨g.entries, g.evs, fun e he => by simp [curFin] at he, g.infl, fun _ => hfl, g.set, by simp⟩
      | some e => exact RInv.finishHalf (s := { s with counter := s.counter + 1 }) hs g.entries g.evs (hcur e rfl) g.infl hfl g.set
    · cases hs
  | recvStarted t =>
    have g := grow rfl
    simp only [Tracker.step] at hs
    split at hs
    · cases hs
    · rename_i hpc
      have hpc : s.pc = .idle := by simpa using hpc
      have hfl := g.flags (by rw [hpc]; simp)
      unfold waitingFlags at hfl
      cases hch : s.chan with
      | nil => rw [hch] at hs; cases hs
      | cons ev rest =>
        rw [hch] at hs hfl
        have hevs := g.evs
        rw [hch] at hevs
        cases ev with
        | finished e => cases hs
        | started id ho p j =>
          simp only at hs
          obtain ⟨s1, h1, h2⟩ := Res.bind_ok.1 hs
          split at h2
          · cases h2
          · simp only [Res.ok.injEq] at h2; subst h2
            have hsent : SentEv (as ++ [Act.recvStarted t]) (.started id ho p j) := hevs _ (by simp)
            obtain ⟨new, n1, n2⟩ := Adds.writeLog (P := Origin c (as ++ [Act.recvStarted t])) h1
              (.inl ⟨id, ho, p, j, hsent, rfl, rfl, rfl, rfl⟩)
            obtain ⟨l, _, e1⟩ := writeLog_ok.1 h1
            refine ⟨?_, ?_, ?_, ?_, ?_, ?_, ?_⟩
            · obtain ⟨old, o1, o2⟩ := g.entries
              refine ⟨old ++ new, ?_, ?_⟩
              · show s1.lf.entries = _
                rw [n1, ← List.append_assoc, ← o1]
              · intro e he
                rcases List.mem_append.1 he with he | he
                · exact o2 e he
                · exact n2 e he
            · intro ev he
              rw [e1] at he
              exact hevs ev (List.mem_cons_of_mem _ he)
            · intro e he; rw [e1] at he; simp [hpc, curFin] at he
            · intro x hx
              rw [e1] at hx
              rcases List.mem_cons.1 hx with rfl | hx
              · exact ⟨ho, p, j, hsent⟩
              · exact g.infl x hx
            · intro _; rw [e1]; simpa [waitingFlags, hpc, flags_started, curFlag] using hfl
            · rw [e1]; exact g.set
            · rw [e1]; simp [hpc]
  | recvFinished order t =>
    have g := grow rfl
    simp only [Tracker.step] at hs
    split at hs
    · cases hs
    · rename_i hpc
      have hpc : s.pc = .idle := by simpa using hpc
      have hfl := g.flags (by rw [hpc]; simp)
      unfold waitingFlags at hfl
      cases hch : s.chan with
      | nil => rw [hch] at hs; cases hs
      | cons ev rest =>
        rw [hch] at hs hfl
        have hevs := g.evs
        rw [hch] at hevs
        cases ev with
        | started id ho p j => cases hs
        | finished e =>
          simp only at hs
          have hsent : SentEv (as ++ [Act.recvFinished order t]) (.finished e) := hevs _ (by simp)
          have hrest : ∀ ev ∈ rest, SentEv (as ++ [Act.recvFinished order t]) ev :=
            fun ev he => hevs ev (List.mem_cons_of_mem _ he)
          have hset : ∀ f ∈ s.flagsSet, ∃ e', Act.sendFinished e' ∈ as ++ [Act.recvFinished order t] ∧ e'.flag = some f ∧
              (e'.id, e'.status) ∈ s.processed ++ [(e.id, e.status)] := by
            intro f hf
            obtain ⟨e', k1, k2, k3⟩ := g.set f hf
            exact ⟨e', k1, k2, List.mem_append_left _ k3⟩
          have hperm : (s.flagsSet ++ (rest.filterMap flag? ++ e.flag.toList)).Perm
              (sentFlags (as ++ [Act.recvFinished order t])) := by
            refine List.Perm.trans ?_ hfl
            rw [hpc]
            refine List.Perm.append_left _ ?_
            simp only [curFlag, List.append_nil]
            rw [flags_finished]
            exact List.perm_append_comm
          obtain ⟨sn, um, po, _, hs | ⟨vs, _, _, hs⟩⟩ := handleFinished_cases hs
          · exact RInv.finishHalf hs g.entries hrest ⟨hsent, by simp [booked]⟩ g.infl hperm hset
          · exact RInv.addReady hs g.entries hrest g.infl hset
              (by intro e' he'; cases he'; exact ⟨hsent, by simp [booked]⟩) hperm
  | drain order t =>
    have g := grow rfl
    simp only [Tracker.step] at hs
    split at hs
    · cases hs
    · rename_i hpc
      have hpc : s.pc = .joined := by simpa using hpc
      obtain ⟨⟨new, n1, n2⟩, k2, k3, k4, k5⟩ := Adds.drain True (Q := SentEv (as ++ [Act.drain order t]))
        (T := ReportedStart (as ++ [Act.drain order t])) (D := ∃ a ∈ as ++ [Act.drain order t], a.isDrain = true) hs
        (fun v ho p j hh => ⟨ho, p, j, hh⟩) ⟨Act.drain order t, by simp, rfl⟩ g.evs g.infl
      refine ⟨?_, by simp [k2], by simp [k3, curFin], by simp [k4], fun hn => absurd k3 hn, ?_, fun _ => ?_⟩
      · obtain ⟨old, o1, o2⟩ := g.entries
        refine ⟨old ++ new, by rw [n1, o1, List.append_assoc], fun e he => ?_⟩
        rcases List.mem_append.1 he with he | he
        · exact o2 e he
        · exact origin_of_from (n2 e he)
      · have e1 : s'.flagsSet = s.flagsSet := k5.flagsSet
        have e2 : s'.processed = s.processed := k5.processed
        rw [e1, e2]; exact g.set
      · have e1 : s'.token = s.token := k5.token
        rw [e1]; exact g.hard (.inr (.inl hpc))
  | sendStarted id ho p j =>
    have g := grow rfl
    simp only [Tracker.step] at hs
    split at hs
    · cases hs
    · simp only [Res.ok.injEq] at hs; subst hs
      refine ⟨g.entries, ?_, g.cur, g.infl, fun hn => ?_, g.set, g.hard⟩
      · intro ev hev
        rcases List.mem_append.1 hev with hev | hev
        · exact g.evs ev hev
        · simp only [List.mem_singleton] at hev; subst hev; simp [SentEv]
      · have := g.flags hn
        unfold waitingFlags at this ⊢
        simpa [List.filterMap_append, flags_started] using this
  | sendFinished e =>
    simp only [Tracker.step] at hs
    split at hs
    · cases hs
    · simp only [Res.ok.injEq] at hs; subst hs
      refine ⟨?_, ?_, ?_, ?_, fun hn => ?_, ?_, h.hard⟩
      · obtain ⟨old, o1, o2⟩ := h.entries
        exact ⟨old, o1, fun e he => (o2 e he).mono hsub⟩
      · intro ev hev
        rcases List.mem_append.1 hev with hev | hev
        · exact (h.evs ev hev).mono hsub
        · simp only [List.mem_singleton] at hev; subst hev; simp [SentEv]
      · exact fun e he => ⟨(h.cur e he).1.mono hsub, (h.cur e he).2⟩
      · exact fun x hx => (h.infl x hx).mono hsub
      · have hp := h.flags hn
        unfold waitingFlags at hp ⊢
        rw [sentFlags_append]
        have e1 : sentFlags [Act.sendFinished e] = e.flag.toList := by
          unfold sentFlags
          cases hf : e.flag with
          | none => rw [List.filterMap_cons_none (by exact hf)]; rfl
          | some f => rw [List.filterMap_cons_some (by exact hf)]; rfl
        have e2 : List.filterMap flag? (s.chan ++ [Event.finished e]) = s.chan.filterMap flag? ++ e.flag.toList := by
          rw [List.filterMap_append, flags_finished]; simp
        rw [e1]
        simp only [e2]
        refine List.Perm.trans ?_ (hp.append_right _)
        rw [List.append_assoc, List.append_assoc, List.append_assoc]
        exact List.Perm.append_left _ (List.Perm.append_left _ List.perm_append_comm)
      · intro f hf
        obtain ⟨e', k1, k2, k3⟩ := h.set f hf
        exact ⟨e', hsub _ k1, k2, k3⟩
  | seeTrigger =>
    have g := grow rfl
    simp only [Tracker.step] at hs
    split at hs
    · cases hs
    · split at hs
      · cases hs
      · simp only [Res.ok.injEq] at hs; subst hs
        exact h.same rfl rfl rfl rfl rfl rfl id rfl
  | seeHard =>
    have g := grow rfl
    simp only [Tracker.step] at hs
    split at hs
    · cases hs
    · rename_i hpc
      have hpc : s.pc = .idle := by simpa using hpc
      split at hs
      · cases hs
      · simp only [Res.ok.injEq] at hs; subst hs
        exact g.leave (by rw [hpc]; rfl) (by rw [hpc]; simp)
  | ctrlC =>
    have g := grow rfl
    simp only [Tracker.step] at hs
    split at hs
    · cases hs
    · rename_i hpc
      have hpc : s.pc = .idle := by simpa using hpc
      simp only [Res.ok.injEq] at hs; subst hs
      exact g.leave (by rw [hpc]; rfl) (by rw [hpc]; simp)
  | joinDone =>
    have g := grow rfl
    simp only [Tracker.step] at hs
    split at hs
    · cases hs
    · rename_i hpc
      have hpc : s.pc = .joining := by simpa using hpc
      split at hs
      · simp only [Res.ok.injEq] at hs; subst hs
        have hfl := g.flags (by rw [hpc]; simp)
        unfold waitingFlags at hfl
        rw [hpc] at hfl
        exact ⟨g.entries, g.evs, fun e he => by simp [curFin] at he, g.infl, fun _ => hfl, g.set, fun _ => g.hard (.inl hpc)⟩
      · cases hs
  | cancel k =>
    simp only [Tracker.step, Res.ok.injEq] at hs
    subst hs
    refine h.same rfl rfl rfl rfl rfl rfl (fun ht => ?_) rfl
    show tokenCancel s.token k = _
    rw [ht, tokenCancel_of_hard]
  | _ =>
    simp only [Tracker.step] at hs
    repeat' split at hs
    all_goals first
      | (simp only [Res.ok.injEq] at hs; subst hs; exact h.same rfl rfl rfl rfl rfl rfl id rfl)
      | cases hs

theorem RInv.run {lf : LogFile} : ∀ {bs as : List Act} {s s' : State}, Runs c s bs s' → RInv c lf as s →
    RInv c lf (as ++ bs) s' := by
  intro bs
  induction bs with
  | nil => intro as s s' hr h; cases hr; simpa using h
  | cons a bs ih =>
    intro as s s' hr h
    cases hr with
    | cons _ hst hrest => simpa using ih hrest (h.step hst)

/-- 1 while batches are being sent. -/
def sendingNat : Pc → Nat
  | .sending _ _ => 1
  | _ => 0

theorem makesReady_false (h : Adds (From c False Q T D) s s') : makesReady s s' = false := by
  obtain ⟨new, e1, e2⟩ := h
  unfold makesReady
  rw [e1, List.drop_left]
  have : readyKeys new = [] := by
    unfold readyKeys
    rw [List.filterMap_eq_nil_iff]
    intro e he
    have := e2 e he
    cases e with
    | ready r => exact absurd this.1 id
    | _ => rfl
  rw [this]; rfl

theorem makesReady_addReady {t : SysTime} {vs : List Nat} {fin : Option Fin} (h : addReady c t s vs fin = .ok s')
    (hv : vs ≠ []) : makesReady s s' = true := by
  obtain ⟨_, _, _, _, rfl⟩ := addReady_ok h
  unfold makesReady
  have : (readyLog c.g t s.lf vs).entries = s.lf.entries ++ vs.map (readyEntry c.g t) := rfl
  simp only [this, List.drop_left]
  cases vs with
  | nil => exact absurd rfl hv
  | cons v vs => simp [readyKeys, readyEntry, readyKey?]

theorem counter_step {a : Act} (hs : Tracker.step c s a = .ok s') :
    s.counter + sendingNat s.pc + (makesReady s s').toNat = s'.counter + sendingNat s'.pc := by
  have hfin : ∀ {t : SysTime} {e : Fin} {s s' : State}, finishHalf c t s e = .ok s' → makesReady s s' = false ∧
      s'.counter = s.counter ∧ sendingNat s'.pc = 0 := by
    intro t e s s' h
    refine ⟨makesReady_false (T := fun _ => True) (D := True) (Q := fun _ => True) (Adds.finishHalf h trivial), ?_⟩
    obtain ⟨l, hw, k1, k2⟩ := finishHalf_ok h
    by_cases hx : (finLogged c s e l).nRoi = 0 ∨ (finLogged c s e l).soft = true ∧ (finLogged c s e l).inflight = []
    · rw [k1 hx, finLogged_eq]; exact ⟨rfl, rfl⟩
    · rw [k2 hx, finLogged_eq]; exact ⟨rfl, rfl⟩
  have hadd : ∀ {t : SysTime} {vs : List Nat} {fin : Option Fin} {s s' : State}, addReady c t s vs fin = .ok s' → vs ≠ [] →
      makesReady s s' = true ∧ s'.counter = s.counter ∧ sendingNat s'.pc = 1 := by
    intro t vs fin s s' h hv
    refine ⟨makesReady_addReady h hv, ?_⟩
    obtain ⟨_, _, _, _, rfl⟩ := addReady_ok h
    exact ⟨rfl, rfl⟩
  have hsame : ∀ {s s' : State}, s'.lf = s.lf → makesReady s s' = false := by
    intro s s' h
    unfold makesReady
    rw [h, List.drop_length]
    rfl
  have hrel : ∀ {s s1 s' : State}, s1.lf = s.lf → makesReady s s' = makesReady s1 s' := by
    intro s s1 s' h; unfold makesReady; rw [h]
  suffices hh : ∃ b n m, makesReady s s' = b ∧ s'.counter = n ∧ sendingNat s'.pc = m ∧
      s.counter + sendingNat s.pc + b.toNat = n + m by
    obtain ⟨b, n, m, h1, h2, h3, h4⟩ := hh
    rw [h1, h2, h3, h4]
  cases a with
  | begin order t =>
    simp only [Tracker.step] at hs
    split at hs
    · cases hs
    · rename_i hpc
      have hpc : s.pc = .new := by simpa using hpc
      split at hs
      · cases hs
      · split at hs
        · simp only [Res.ok.injEq] at hs; subst hs
          exact ⟨_, _, _, hsame rfl, rfl, rfl, by rw [hpc]; rfl⟩
        · rename_i ho
          obtain ⟨h1, h2, h3⟩ := hadd hs (by simpa using ho)
          exact ⟨_, _, _, (hrel (s1 := { s with nUnready := c.g.n }) rfl).trans h1, h2, h3, by rw [hpc]; rfl⟩
  | sendNext =>
    simp only [Tracker.step] at hs
    split at hs
    · rename_i hpc
      simp only [Res.ok.injEq] at hs; subst hs
      exact ⟨_, _, _, hsame rfl, rfl, rfl, by rw [hpc]; rfl⟩
    · cases hs
  | sendDone t =>
    simp only [Tracker.step] at hs
    split at hs
    · rename_i fin hpc
      cases fin with
      | none =>
        simp only [Res.ok.injEq] at hs; subst hs
        exact ⟨_, _, _, hsame rfl, rfl, rfl, by rw [hpc]; rfl⟩
      | some e =>
        obtain ⟨h1, h2, h3⟩ := hfin hs
        exact ⟨_, _, _, (hrel (s1 := { s with counter := s.counter + 1 }) rfl).trans h1, h2, h3, by rw [hpc]; rfl⟩
    · cases hs
  | recvStarted t =>
    simp only [Tracker.step] at hs
    split at hs
    · cases hs
    · rename_i hpc
      split at hs
      · obtain ⟨s1, h1, h2⟩ := Res.bind_ok.1 hs
        split at h2
        · cases h2
        · simp only [Res.ok.injEq] at h2; subst h2
          have := makesReady_false (Adds.from (Adds.writeLog (P := From c False (fun _ => True) (fun _ => True) True) h1
            (.inl ⟨_, _, _, _, trivial, rfl, rfl, rfl, rfl⟩)) (s1 := s) rfl)
          have hk := DKept.writeLog h1
          exact ⟨_, _, _, this, hk.counter, congrArg sendingNat hk.pc, rfl⟩
      · cases hs
  | recvFinished order t =>
    simp only [Tracker.step] at hs
    split at hs
    · cases hs
    · rename_i hpc
      have hpc : s.pc = .idle := by simpa using hpc
      split at hs
      · obtain ⟨sn, um, po, _, hs | ⟨vs, hv, _, hs⟩⟩ := handleFinished_cases hs
        · obtain ⟨h1, h2, h3⟩ := hfin hs
          exact ⟨_, _, _, (hrel (s := s) rfl).trans h1, h2, h3, by rw [hpc]; rfl⟩
        · obtain ⟨h1, h2, h3⟩ := hadd hs hv
          exact ⟨_, _, _, (hrel (s := s) rfl).trans h1, h2, h3, by rw [hpc]; rfl⟩
      · cases hs
  | drain order t =>
    simp only [Tracker.step] at hs
    split at hs
    · cases hs
    · rename_i hpc
      have hpc : s.pc = .joined := by simpa using hpc
      obtain ⟨k1, k2, k3, k4, k5⟩ := Adds.drain False (Q := fun _ => True) (T := fun _ => True) (D := True) hs
        (fun _ _ _ _ _ => trivial) trivial (fun _ _ => trivial) (fun _ _ => trivial)
      have e1 : s'.counter = s.counter := k5.counter
      exact ⟨_, _, _, makesReady_false k1, e1, congrArg sendingNat k3, by rw [hpc]; rfl⟩
  | seeHard =>
    simp only [Tracker.step] at hs
    split at hs
    · cases hs
    · rename_i hpc
      have hpc : s.pc = .idle := by simpa using hpc
      split at hs
      · cases hs
      · simp only [Res.ok.injEq] at hs; subst hs
        exact ⟨_, _, _, hsame rfl, rfl, rfl, by rw [hpc]; rfl⟩
  | ctrlC =>
    simp only [Tracker.step] at hs
    split at hs
    · cases hs
    · rename_i hpc
      have hpc : s.pc = .idle := by simpa using hpc
      simp only [Res.ok.injEq] at hs; subst hs
      exact ⟨_, _, _, hsame rfl, rfl, rfl, by rw [hpc]; rfl⟩
  | joinDone =>
    simp only [Tracker.step] at hs
    split at hs
    · cases hs
    · rename_i hpc
      have hpc : s.pc = .joining := by simpa using hpc
      split at hs
      · simp only [Res.ok.injEq] at hs; subst hs
        exact ⟨_, _, _, hsame rfl, rfl, rfl, by rw [hpc]; rfl⟩
      · cases hs
  | _ =>
    simp only [Tracker.step] at hs
    repeat' split at hs
    all_goals first
      | (simp only [Res.ok.injEq] at hs; subst hs; exact ⟨_, _, _, hsame rfl, rfl, rfl, rfl⟩)
      | cases hs

theorem counter_run : ∀ {as : List Act} {s s' : State}, Runs c s as s' →
    s.counter + sendingNat s.pc + readyBatches c s as = s'.counter + sendingNat s'.pc := by
  intro as
  induction as with
  | nil => intro s s' hr; cases hr; simp [readyBatches]
  | cons a as ih =>
    intro s s' hr
    cases hr with
    | cons _ hst hrest =>
      have h1 := counter_step hst
      have h2 := ih hrest
      simp only [readyBatches, hst]
      omega

end Tracker
end Verif
