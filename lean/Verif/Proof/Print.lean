import Verif.Spec.Print
import Verif.Proof.TrackerFacts
import Verif.Props.TrackerRuns

/-!
# Lemmas about what is printed
-/

namespace Verif.Print
open Verif Verif.Tracker

variable {c : Cfg} {off : Nat} {out : Nat → Captured}

theorem isSuccess_iff (st : ExitStatus) : st.isSuccess = true ↔ st = .code 0 := by
  cases st <;> simp [ExitStatus.isSuccess]

theorem outLines_eq (o : Captured) : outLines o = ([o.stdout, o.stderr].filter (· ≠ "")).map .output := by
  have h : ∀ x : String, x.isEmpty = true ↔ x = "" := fun x => String.isEmpty_iff
  unfold outLines
  by_cases h1 : o.stdout = "" <;> by_cases h2 : o.stderr = "" <;> simp [h, h1, h2]

/-- One printed report. -/
theorem printFin_eq {s : State} {v : Nat} {st : ExitStatus} {o : Captured} {q : Bool} {i : Nat} (hi : s.nFailed + s.nSuccess = i)
    (hq : ∀ k, st = .code k → q = fizzled s v) : printFin c off o s v st = shown c off i ⟨v, st, o, !s.soft, q⟩ := by
  unfold printFin shown
  simp only [outLines_eq, isSuccess_iff]
  congr 1
  · split
    · simp only [List.cons.injEq, Line.progress.injEq, and_true]; omega
    · cases hs : s.soft with
      | true => simp
      | false =>
        simp only [Bool.false_eq_true, if_false, Bool.not_false, if_true]
        cases st with
        | code k => rw [hq k rfl]; cases fizzled s v <;> rfl
        | _ => rfl
  · cases s.soft <;> simp

/-- The printed lines and the reports they show. -/
structure Seen (c : Cfg) (off : Nat) (out : Nat → Captured) (processed drained : List (Nat × ExitStatus)) (nF nS nFz : Nat) (soft : Bool) (ls : List Line)
    (rs : List Report) : Prop where
  reports : rs.map (fun r => (r.task, r.status)) = processed ++ drained
  lines : ls = rs.zipIdx.flatMap (fun p => shown c off p.2 p.1)
  count : nF + nS = rs.length
  order : rs.Pairwise (fun a b => b.full = true → a.full = true)
  soft : soft = false → ∀ r ∈ rs, r.full = true
  fizz : nFz = rs.countP (fun r => decide (r.status ≠ .code 0) && r.quick)
  outs : ∀ r ∈ rs, r.out = out r.task ∨ (r.status = .disconnected ∧ r.out = ⟨"", ""⟩ ∧ (r.task, r.status) ∈ drained)

/-- The parts of the state that printing looks at agree. -/
structure Agree (a b : State) : Prop where
  nS : a.nSuccess = b.nSuccess
  nF : a.nFailed = b.nFailed
  soft : a.soft = b.soft

theorem Agree.counted {a b b' : State} (h : Agree a b) {st : ExitStatus} (hS : b'.nSuccess = if st.isSuccess then b.nSuccess + 1 else b.nSuccess)
    (hF : b'.nFailed = if st.isSuccess then b.nFailed else b.nFailed + 1) (hs : b'.soft = b.soft) : Agree (counted a st) b' := by
  unfold Print.counted
  constructor
  · rw [hS, ← h.nS]; split <;> rfl
  · rw [hF, ← h.nF]; split <;> rfl
  · rw [hs, ← h.soft]; split <;> rfl

theorem Seen.add {p d p' d' : List (Nat × ExitStatus)} {nF nS nFz : Nat} {s : State} {ls : List Line} {rs : List Report}
    (h : Seen c off out p d nF nS nFz s.soft ls rs) (hF : nF = s.nFailed) (hS : nS = s.nSuccess) {v : Nat} {st : ExitStatus} {o : Captured} {q : Bool}
    (hq : ∀ k, st = .code k → q = fizzled s v)
    (hd : p' ++ d' = p ++ d ++ [(v, st)]) (hsub : ∀ x ∈ d, x ∈ d') (ho : o = out v ∨ (st = .disconnected ∧ o = ⟨"", ""⟩ ∧ (v, st) ∈ d')) :
    Seen c off out p' d' (if st.isSuccess then nF else nF + 1) (if st.isSuccess then nS + 1 else nS)
      (if !st.isSuccess && q then nFz + 1 else nFz) s.soft (ls ++ printFin c off o s v st) (rs ++ [⟨v, st, o, !s.soft, q⟩]) where
  reports := by rw [hd, List.map_append, h.reports]; rfl
  lines := by
    rw [h.lines, List.zipIdx_append, List.flatMap_append]
    congr 1
    simp only [List.zipIdx_cons, List.zipIdx_nil, List.flatMap_cons, List.flatMap_nil, List.append_nil]
    exact printFin_eq (by rw [← hF, ← hS, h.count]; omega) hq
  count := by have := h.count; rw [List.length_append, ← this]; simp only [List.length_cons, List.length_nil]; split <;> omega
  order := by
    rw [List.pairwise_append]
    refine ⟨h.order, List.pairwise_singleton _ _, ?_⟩
    intro a ha b hb hf
    rw [List.mem_singleton] at hb; subst hb
    exact h.soft (by simpa using hf) a ha
  soft hs r hr := by
    rcases List.mem_append.1 hr with hr | hr
    · exact h.soft hs r hr
    · rw [List.mem_singleton] at hr; subst hr; simp [hs]
  fizz := by
    rw [List.countP_append, ← h.fizz]
    have := isSuccess_iff st
    cases hb : st.isSuccess <;> cases q <;> simp_all
  outs r hr := by
    rcases List.mem_append.1 hr with hr | hr
    · rcases h.outs r hr with e | ⟨e1, e2, e3⟩
      · exact .inl e
      · exact .inr ⟨e1, e2, hsub _ e3⟩
    · rw [List.mem_singleton] at hr; subst hr; exact ho

theorem fizzled_counted (a : State) (st : ExitStatus) (v : Nat) : fizzled (counted a st) v = fizzled a v := by
  unfold counted; split <;> rfl

theorem drainLoop_seen {t : SysTime} : ∀ {es : List Event} {infl : List (Nat × Int)} {s : State} {r : State × List (Nat × Int)},
    drainLoop c t es infl s = .ok r → ∀ {sp : State} {ls : List Line} {rs : List Report}, Agree sp s → (∀ v, fizzled sp v = fizzled s v) →
    Seen c off out s.processed s.drained s.nFailed s.nSuccess s.nFizzled s.soft ls rs →
    ∃ (sp' : State) (xs : List Line) (rs' : List Report), Agree sp' r.1 ∧
      (∀ rest, printSeq c off sp ((finished es).map (fun e => (e.id, e.status, out e.id)) ++ rest) = xs ++ printSeq c off sp' rest) ∧
      Seen c off out r.1.processed r.1.drained r.1.nFailed r.1.nSuccess r.1.nFizzled r.1.soft (ls ++ xs) rs' := by
  intro es
  induction es with
  | nil =>
    intro infl s r h sp ls rs ha _ hp
    simp only [Tracker.drainLoop, Res.ok.injEq] at h
    subst h
    exact ⟨sp, [], rs, ⟨ha.nS, ha.nF, ha.soft⟩, fun rest => rfl, by simpa using hp⟩
  | cons ev es ih =>
    intro infl s r h sp ls rs ha hf hp
    cases ev with
    | started id ho p j =>
      simp only [Tracker.drainLoop] at h
      obtain ⟨s1, h1, h⟩ := Res.bind_ok.1 h
      obtain ⟨lf, _, rfl⟩ := writeLog_ok.1 h1
      split at h
      · cases h
      · exact ih h (sp := sp) ⟨ha.nS, ha.nF, ha.soft⟩ hf hp
    | finished e =>
      simp only [Tracker.drainLoop] at h
      obtain ⟨s1, h1, h⟩ := Res.bind_ok.1 h
      obtain ⟨s2, h2, h⟩ := Res.bind_ok.1 h
      obtain ⟨s3, h3, h⟩ := Res.bind_ok.1 h
      obtain ⟨_, sn, _, _, rfl⟩ := book1_ok h1
      have e2 : ∃ lf, s2 = { booked c.g { s with chan := es } e sn with lf := lf } := by
        split at h2
        · simp only [Res.ok.injEq] at h2; subst h2; exact ⟨_, rfl⟩
        · obtain ⟨lf, _, rfl⟩ := writeLog_ok.1 h2; exact ⟨lf, rfl⟩
      obtain ⟨lf2, rfl⟩ := e2
      obtain ⟨lf3, _, rfl⟩ := writeLog_ok.1 h3
      have hp1 := Seen.add (c := c) (s := sp) (by rw [ha.soft]; exact hp) ha.nF.symm ha.nS.symm (v := e.id) (st := e.status) (o := out e.id)
        (q := fizzled s e.id) (p' := s.processed) (d' := s.drained ++ [(e.id, e.status)]) (fun _ _ => (hf e.id).symm) (by simp) (fun x hx => by simp [hx]) (.inl rfl)
      obtain ⟨sp', xs, rs', i1, i2, i3⟩ := ih h (sp := counted sp e.status)
        (ha.counted rfl rfl rfl) (fun v => by rw [fizzled_counted, hf]; rfl) (by rw [ha.soft] at hp1; exact hp1)
      refine ⟨sp', printFin c off (out e.id) sp e.id e.status ++ xs, rs', i1, ?_, by rw [← List.append_assoc]; exact i3⟩
      intro rest
      simp only [finished, List.map_cons, List.cons_append, printSeq, List.append_assoc, i2]

theorem drainRest_seen {t : SysTime} : ∀ {vs : List Nat} {s s' : State},
    drainRest c t vs s = .ok s' → s.inflight = [] → ∀ {sp : State} {ls : List Line} {rs : List Report}, Agree sp s →
    Seen c off out s.processed s.drained s.nFailed s.nSuccess s.nFizzled s.soft ls rs →
    ∃ rs' : List Report, Seen c off out s'.processed s'.drained s'.nFailed s'.nSuccess s'.nFizzled s'.soft
      (ls ++ printSeq c off sp (vs.map (fun v => (v, .disconnected, ⟨"", ""⟩)))) rs' := by
  intro vs
  induction vs with
  | nil =>
    intro s s' h _ sp ls rs _ hp
    simp only [Tracker.drainRest, Res.ok.injEq] at h
    subst h
    exact ⟨rs, by simpa [printSeq] using hp⟩
  | cons v vs ih =>
    intro s s' h hin sp ls rs ha hp
    simp only [Tracker.drainRest] at h
    obtain ⟨s1, h1, h⟩ := Res.bind_ok.1 h
    obtain ⟨s2, h2, h⟩ := Res.bind_ok.1 h
    obtain ⟨_, sn, _, _, rfl⟩ := book1_ok h1
    obtain ⟨lf2, _, rfl⟩ := writeLog_ok.1 h2
    have hp1 := Seen.add (c := c) (s := sp) (by rw [ha.soft]; exact hp) ha.nF.symm ha.nS.symm (v := v) (st := .disconnected) (o := ⟨"", ""⟩)
      (q := fizzled s v) (p' := s.processed) (d' := s.drained ++ [(v, .disconnected)]) (fun _ h => by cases h) (by simp) (fun x hx => by simp [hx])
      (.inr ⟨rfl, rfl, by simp⟩)
    obtain ⟨rs', i1⟩ := ih h hin (sp := counted sp .disconnected) (ha.counted rfl rfl rfl) (by rw [ha.soft] at hp1; exact hp1)
    refine ⟨rs', ?_⟩
    simp only [List.map_cons, printSeq, ← List.append_assoc]
    exact i1

theorem drain_seen {t : SysTime} {order : List Nat} {s s' : State} (h : drain c t order s = .ok s') {ls : List Line} {rs : List Report}
    (hp : Seen c off out s.processed s.drained s.nFailed s.nSuccess s.nFizzled s.soft ls rs) :
    ∃ rs' : List Report, Seen c off out s'.processed s'.drained s'.nFailed s'.nSuccess s'.nFizzled s'.soft
      (ls ++ prints c off out s (.drain order t)) rs' := by
  unfold Tracker.drain at h
  obtain ⟨r, h1, h⟩ := Res.bind_ok.1 h
  split at h
  · cases h
  · obtain ⟨s1, h2, h⟩ := Res.bind_ok.1 h
    simp only [Res.ok.injEq] at h
    subst h
    obtain ⟨sp', xs, rs1, i1, i2, i3⟩ := drainLoop_seen h1 (sp := s) ⟨rfl, rfl, rfl⟩ (fun _ => rfl) hp
    obtain ⟨rs2, i4⟩ := drainRest_seen h2 rfl (sp := sp') ⟨i1.nS, i1.nF, i1.soft⟩ i3
    refine ⟨rs2, ?_⟩
    simp only [prints, i2, ← List.append_assoc]
    exact i4

/-- The parts of the state the printed lines depend on, when nothing is reported. -/
structure Quiet (s s' : State) : Prop where
  processed : s'.processed = s.processed
  drained : s'.drained = s.drained
  nF : s'.nFailed = s.nFailed
  nS : s'.nSuccess = s.nSuccess
  nFz : s'.nFizzled = s.nFizzled
  soft : s.soft = true → s'.soft = true

theorem Seen.quiet {s s' : State} {ls : List Line} {rs : List Report}
    (hp : Seen c off out s.processed s.drained s.nFailed s.nSuccess s.nFizzled s.soft ls rs) (q : Quiet s s') :
    Seen c off out s'.processed s'.drained s'.nFailed s'.nSuccess s'.nFizzled s'.soft ls rs := by
  obtain ⟨q1, q2, q3, q4, q5, q6⟩ := q
  rw [q1, q2, q3, q4, q5]
  refine ⟨hp.reports, hp.lines, hp.count, hp.order, fun h => hp.soft ?_, hp.fizz, hp.outs⟩
  cases hs : s.soft with
  | false => rfl
  | true => rw [q6 hs] at h; cases h

theorem finishHalf_quiet {t : SysTime} {e : Fin} {s s' : State} (h : finishHalf c t s e = .ok s') : Quiet s s' := by
  obtain ⟨lf, ⟨_, rfl⟩ | ⟨_, rfl⟩⟩ := finishHalf_cases h <;> rw [finLogged_eq] <;>
    exact ⟨rfl, rfl, rfl, rfl, rfl, fun h => by simp [leaveLoop, zeroReady, h]⟩

/-- `drain` is the last thing that happens. -/
theorem drained_nil {lf : LogFile} {now : Int} {as : List Act} {s : State} (hr : Runs c (init c lf now) as s) : s.pc ≠ .done → s.drained = [] := by
  refine Runs.snocInd (P := fun _ s => s.pc ≠ .done → s.drained = []) (fun _ => rfl) ?_ hr
  intro as s a s' _ ih _ hs hpc
  cases a with
  | drain order t =>
    simp only [step] at hs
    split at hs
    · cases hs
    · exact absurd (Kept.drain hs).2 hpc
  | begin order t =>
    simp only [step] at hs
    split at hs
    · cases hs
    · rename_i hn
      have hn : s.pc = .new := by simpa using hn
      have := ih (by rw [hn]; simp)
      split at hs
      · cases hs
      · split at hs
        · simp only [Res.ok.injEq] at hs; subst hs; exact this
        · obtain ⟨_, _, _, _, rfl⟩ := addReady_ok hs; exact this
  | sendDone t =>
    simp only [step] at hs
    split at hs
    · rename_i hn
      have := ih (by rw [hn]; simp)
      split at hs
      · simp only [Res.ok.injEq] at hs; subst hs; exact this
      · rw [(finishHalf_quiet hs).drained]; exact this
    · cases hs
  | recvStarted t =>
    simp only [step] at hs
    split at hs
    · cases hs
    · rename_i hn
      have hn : s.pc = .idle := by simpa using hn
      have := ih (by rw [hn]; simp)
      split at hs
      · obtain ⟨s1, h1, h2⟩ := Res.bind_ok.1 hs
        obtain ⟨lf, _, rfl⟩ := writeLog_ok.1 h1
        split at h2
        · cases h2
        · simp only [Res.ok.injEq] at h2; subst h2; exact this
      · cases hs
  | recvFinished order t =>
    simp only [step] at hs
    split at hs
    · cases hs
    · rename_i hn
      have hn : s.pc = .idle := by simpa using hn
      have := ih (by rw [hn]; simp)
      split at hs
      · obtain ⟨sn, um, po, _, h | ⟨vs, _, _, h⟩⟩ := handleFinished_cases hs
        · rw [(finishHalf_quiet h).drained]; exact this
        · obtain ⟨_, _, _, _, rfl⟩ := addReady_ok h; exact this
      · cases hs
  | tick d => simp only [step, Res.ok.injEq] at hs; subst hs; exact ih hpc
  | trigger => simp only [step, Res.ok.injEq] at hs; subst hs; exact ih hpc
  | cancel k => simp only [step, Res.ok.injEq] at hs; subst hs; exact ih hpc
  | _ =>
    simp only [step] at hs
    repeat' split at hs
    all_goals first
      | (cases hs; done)
      | (simp only [Res.ok.injEq] at hs; subst hs; exact ih hpc)
      | (simp only [Res.ok.injEq] at hs; subst hs; exact ih (by simp_all))

theorem step_seen {a : Act} {s s' : State} (hs : step c s a = .ok s') (hdr : s.pc ≠ .done → s.drained = []) {ls : List Line} {rs : List Report}
    (hp : Seen c off out s.processed s.drained s.nFailed s.nSuccess s.nFizzled s.soft ls rs) :
    ∃ rs' : List Report, Seen c off out s'.processed s'.drained s'.nFailed s'.nSuccess s'.nFizzled s'.soft (ls ++ prints c off out s a) rs' := by
  have quiet : prints c off out s a = [] → Quiet s s' → ∃ rs' : List Report,
      Seen c off out s'.processed s'.drained s'.nFailed s'.nSuccess s'.nFizzled s'.soft (ls ++ prints c off out s a) rs' := by
    intro h q
    exact ⟨rs, by rw [h, List.append_nil]; exact hp.quiet q⟩
  cases a with
  | drain order t =>
    simp only [step] at hs
    split at hs
    · cases hs
    · exact drain_seen hs hp
  | recvFinished order t =>
    simp only [step] at hs
    split at hs
    · cases hs
    · rename_i hn
      have hn : s.pc = .idle := by simpa using hn
      split at hs
      · rename_i e rest hch
        have hp1 := Seen.add (c := c) (s := s) hp rfl rfl (v := e.id) (st := e.status) (o := out e.id)
          (q := fizzled s e.id) (p' := s.processed ++ [(e.id, e.status)]) (d' := s.drained) (fun _ _ => rfl)
          (by rw [hdr (by rw [hn]; simp)]; simp) (fun x hx => hx) (.inl rfl)
        have hpr : prints c off out s (.recvFinished order t) = printFin c off (out e.id) s e.id e.status := by simp only [prints, hch]
        rw [hpr]
        obtain ⟨sn, um, po, _, h | ⟨vs, _, _, h⟩⟩ := handleFinished_cases hs
        · have := finishHalf_quiet h
          exact ⟨_, Seen.quiet (s := { booked c.g { s with processed := s.processed ++ [(e.id, e.status)] } e sn with
            unmet := um
            poisoned := po }) hp1 ⟨this.1, this.2, this.3, this.4, this.5, this.6⟩⟩
        · obtain ⟨_, _, _, _, rfl⟩ := addReady_ok h
          exact ⟨_, hp1⟩
      · cases hs
  | begin order t =>
    refine quiet rfl ?_
    simp only [step] at hs
    split at hs
    · cases hs
    · split at hs
      · cases hs
      · split at hs
        · simp only [Res.ok.injEq] at hs; subst hs; exact ⟨rfl, rfl, rfl, rfl, rfl, fun h => h⟩
        · obtain ⟨_, _, _, _, rfl⟩ := addReady_ok hs; exact ⟨rfl, rfl, rfl, rfl, rfl, fun h => h⟩
  | sendDone t =>
    refine quiet rfl ?_
    simp only [step] at hs
    split at hs
    · split at hs
      · simp only [Res.ok.injEq] at hs; subst hs; exact ⟨rfl, rfl, rfl, rfl, rfl, fun h => h⟩
      · have := finishHalf_quiet hs; exact ⟨this.1, this.2, this.3, this.4, this.5, this.6⟩
    · cases hs
  | recvStarted t =>
    refine quiet rfl ?_
    simp only [step] at hs
    split at hs
    · cases hs
    · split at hs
      · obtain ⟨s1, h1, h2⟩ := Res.bind_ok.1 hs
        obtain ⟨lf, _, rfl⟩ := writeLog_ok.1 h1
        split at h2
        · cases h2
        · simp only [Res.ok.injEq] at h2; subst h2; exact ⟨rfl, rfl, rfl, rfl, rfl, fun h => h⟩
      · cases hs
  | tick d => refine quiet rfl ?_; simp only [step, Res.ok.injEq] at hs; subst hs; exact ⟨rfl, rfl, rfl, rfl, rfl, fun h => h⟩
  | trigger => refine quiet rfl ?_; simp only [step, Res.ok.injEq] at hs; subst hs; exact ⟨rfl, rfl, rfl, rfl, rfl, fun h => h⟩
  | cancel k => refine quiet rfl ?_; simp only [step, Res.ok.injEq] at hs; subst hs; exact ⟨rfl, rfl, rfl, rfl, rfl, fun h => h⟩
  | _ =>
    refine quiet rfl ?_
    simp only [step] at hs
    repeat' split at hs
    all_goals first
      | (cases hs; done)
      | (simp only [Res.ok.injEq] at hs; subst hs; exact ⟨rfl, rfl, rfl, rfl, rfl, fun h => h⟩)
      | (simp only [Res.ok.injEq] at hs; subst hs; exact ⟨rfl, rfl, rfl, rfl, rfl, fun _ => rfl⟩)

theorem printed_snoc {s0 s : State} {as : List Act} {a : Act} (hr : Runs c s0 as s) :
    printed c off out s0 (as ++ [a]) = printed c off out s0 as ++ prints c off out s a := by
  induction hr with
  | nil s =>
    simp only [List.nil_append, printed]
    cases step c s a <;> simp
  | cons _ hs _ ih => simp only [List.cons_append, printed, hs, ih, List.append_assoc]

theorem runs_seen {lf : LogFile} {now : Int} {as : List Act} {s : State} (hr : Runs c (init c lf now) as s) (off : Nat) (out : Nat → Captured) :
    ∃ rs : List Report, Seen c off out s.processed s.drained s.nFailed s.nSuccess s.nFizzled s.soft (printed c off out (init c lf now) as) rs := by
  refine Runs.snocInd (P := fun as s => ∃ rs : List Report, Seen c off out s.processed s.drained s.nFailed s.nSuccess s.nFizzled s.soft
    (printed c off out (init c lf now) as) rs) ?_ ?_ hr
  · exact ⟨[], ⟨rfl, rfl, rfl, .nil, by simp, rfl, by simp⟩⟩
  · intro as s a s' hr ⟨rs, ih⟩ _ hs
    rw [printed_snoc hr]
    exact step_seen hs (drained_nil hr) ih

end Verif.Print
