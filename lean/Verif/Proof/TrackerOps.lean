import Verif.Model.Tracker
import Verif.Proof.GraphTheory
import Mathlib.Data.List.Perm.Subperm

/-!
# The pieces of the tracker, as explicit state changes
-/

namespace Verif
theorem Res.bind_ok {ε α β : Type} {r : Res ε α} {f : α → Res ε β} {b : β} :
    r.bind f = .ok b ↔ ∃ a, r = .ok a ∧ f a = .ok b := by
  cases r <;> simp [Res.bind]

theorem Res.bind_panic {ε α β : Type} {r : Res ε α} {f : α → Res ε β} {m : String} :
    r.bind f = .panic m ↔ r = .panic m ∨ ∃ a, r = .ok a ∧ f a = .panic m := by
  cases r <;> simp [Res.bind]

theorem LogFile.write_ok {lf lf' : LogFile} {e : LogEntry} :
    lf.write e = .ok lf' ↔ ∃ m, lf.mem.write e = .ok m ∧ lf' = { lf with mem := m, entries := lf.entries ++ [e] } := by
  simp only [LogFile.write, Res.bind_ok, Res.ok.injEq]
  constructor <;> rintro ⟨m, h, e⟩ <;> exact ⟨m, h, e.symm⟩

namespace Tracker

theorem writeLog_ok {s s' : State} {e : LogEntry} :
    writeLog s e = .ok s' ↔ ∃ lf, s.lf.write e = .ok lf ∧ s' = { s with lf := lf } := by
  unfold writeLog
  cases h : s.lf.write e <;> simp [eq_comm]

/-- Effect on the queue counters of making `v` ready. -/
def bumpQ (g : DiGraph Cmd) (qs : BitVec 64 → Option Snap) (v : Nat) : BitVec 64 → Option Snap :=
  fun a => if a = (cmdOf g v).affinity then
      some { (qs (cmdOf g v).affinity).getD ⟨0, 0⟩ with
        numReady := (((qs (cmdOf g v).affinity).getD ⟨0, 0⟩).numReady + 1) % 2 ^ 32 }
    else qs a

/-- The Ready entry of `v`, if it has a display text. -/
def readyEntry (g : DiGraph Cmd) (t : SysTime) (v : Nat) : LogEntry :=
  .ready ⟨t, (cmdOf g v).key, (cmdOf g v).runcount, ((cmdOf g v).displayText).getD "", (cmdOf g v).storageRoot⟩

theorem cmdOf_eq {g : DiGraph Cmd} {v : Nat} {cmd : Cmd} (h : g.nodes[v]? = some cmd) : cmdOf g v = cmd := by
  simp [cmdOf, h]

theorem lt_of_node {g : DiGraph Cmd} {v : Nat} {cmd : Cmd} (h : g.nodes[v]? = some cmd) : v < g.n := by
  exact (List.getElem?_eq_some_iff.1 h).1

theorem node_of_lt {g : DiGraph Cmd} {v : Nat} (h : v < g.n) : g.nodes[v]? = some (cmdOf g v) := by
  have h' : v < g.nodes.length := h
  simp [cmdOf, h']

theorem readyOne_ok {g : DiGraph Cmd} {t : SysTime} {s s' : State} {v : Nat} (h : readyOne g t s v = .ok s') :
    v < g.n ∧ ((cmdOf g v).displayText).isSome ∧ ∃ lf, s.lf.write (readyEntry g t v) = .ok lf ∧
      s' = { s with lf := lf, qs := bumpQ g s.qs v, flags := s.flags ++ [⟨v, false⟩] } := by
  unfold readyOne at h
  cases hn : g.nodes[v]? with
  | none => rw [hn] at h; simp at h
  | some cmd =>
    rw [hn] at h
    have hc := cmdOf_eq hn
    simp only at h
    cases hd : cmd.displayText with
    | none => rw [hd] at h; simp at h
    | some d =>
      rw [hd] at h
      simp only [Res.bind_ok] at h
      obtain ⟨s1, h1, h2⟩ := h
      obtain ⟨lf, h3, h4⟩ := writeLog_ok.1 h1
      refine ⟨lt_of_node hn, by rw [hc, hd]; rfl, lf, ?_, ?_⟩
      · simpa [readyEntry, hc, hd] using h3
      · simp only [Res.ok.injEq] at h2
        rw [← h2, h4]
        subst hc
        rfl

theorem ready_write (lf : LogFile) (r : ReadyEntry) :
    lf.write (.ready r) = .ok { lf with
      mem := { lf.mem with runcounts := lf.mem.runcounts.set r.key (.ready r.runcount r.storageRoot) }
      entries := lf.entries ++ [.ready r] } := rfl

/-- The log after writing the Ready entries of `vs`. -/
def readyLog (g : DiGraph Cmd) (t : SysTime) (lf : LogFile) (vs : List Nat) : LogFile where
  mem := { lf.mem with runcounts := vs.foldl (fun m v =>
    m.set (cmdOf g v).key (.ready (cmdOf g v).runcount (cmdOf g v).storageRoot)) lf.mem.runcounts }
  entries := lf.entries ++ vs.map (readyEntry g t)
  dir := lf.dir

theorem readyAll_ok {g : DiGraph Cmd} {t : SysTime} : ∀ {vs : List Nat} {s s' : State}, readyAll g t s vs = .ok s' →
    (∀ v ∈ vs, v < g.n ∧ ((cmdOf g v).displayText).isSome) ∧
    s' = { s with
      lf := readyLog g t s.lf vs
      qs := vs.foldl (bumpQ g) s.qs
      flags := s.flags ++ vs.map (fun v => ⟨v, false⟩) } := by
  intro vs
  induction vs with
  | nil => intro s s' h; simp only [readyAll, Res.ok.injEq] at h; subst h; simp [readyLog]
  | cons v vs ih =>
    intro s s' h
    simp only [readyAll, Res.bind_ok] at h
    obtain ⟨s1, h1, h2⟩ := h
    obtain ⟨hv, hd, lf, hlf, e1⟩ := readyOne_ok h1
    obtain ⟨hall, e2⟩ := ih h2
    refine ⟨fun w hw => ?_, ?_⟩
    · rcases List.mem_cons.1 hw with rfl | hw
      · exact ⟨hv, hd⟩
      · exact hall w hw
    · rw [e2, e1]
      simp only [readyEntry, ready_write, Res.ok.injEq] at hlf
      subst hlf
      simp [readyLog, readyEntry]

theorem readyOne_total {g : DiGraph Cmd} {t : SysTime} {s : State} {v : Nat} (hv : v < g.n)
    (hd : ((cmdOf g v).displayText).isSome) : ∃ s', readyOne g t s v = .ok s' := by
  unfold readyOne
  rw [node_of_lt hv]
  cases h : (cmdOf g v).displayText with
  | none => rw [h] at hd; simp at hd
  | some d => simp only [h, writeLog, ready_write, Res.bind]; exact ⟨_, rfl⟩

theorem readyAll_total {g : DiGraph Cmd} {t : SysTime} : ∀ {vs : List Nat} {s : State},
    (∀ v ∈ vs, v < g.n ∧ ((cmdOf g v).displayText).isSome) → ∃ s', readyAll g t s vs = .ok s' := by
  intro vs
  induction vs with
  | nil => intro s _; exact ⟨s, rfl⟩
  | cons v vs ih =>
    intro s h
    obtain ⟨s1, h1⟩ := readyOne_total (t := t) (s := s) (h v (by simp)).1 (h v (by simp)).2
    obtain ⟨s2, h2⟩ := ih (s := s1) (fun w hw => h w (by simp [hw]))
    exact ⟨s2, by simp [readyAll, h1, h2, Res.bind]⟩

theorem addReady_ok {c : Cfg} {t : SysTime} {s s' : State} {vs : List Nat} {fin : Option Fin}
    (h : addReady c t s vs fin = .ok s') :
    (∀ v ∈ vs, v < c.g.n ∧ ((cmdOf c.g v).displayText).isSome) ∧ s.nRoi + vs.length < 2 ^ 32 ∧
    vs.length ≤ s.nUnready ∧ s.readyOpen = true ∧
    s' = { s with
      nRoi := s.nRoi + vs.length
      nUnready := s.nUnready - vs.length
      lf := readyLog c.g t s.lf vs
      qs := vs.foldl (bumpQ c.g) s.qs
      flags := s.flags ++ vs.map (fun v => ⟨v, false⟩)
      pc := .sending (batches c.g (itemsFor c.g s.flags.length vs)) fin } := by
  unfold addReady at h
  by_cases h1 : s.nRoi + vs.length ≥ 2 ^ 32
  · rw [if_pos h1] at h; simp at h
  · rw [if_neg h1] at h
    by_cases h2 : s.nUnready < vs.length
    · rw [if_pos h2] at h; simp at h
    · rw [if_neg h2] at h
      simp only [Res.bind_ok] at h
      obtain ⟨s1, h3, h4⟩ := h
      obtain ⟨hall, e⟩ := readyAll_ok h3
      subst e
      simp only at h4
      by_cases h5 : s.readyOpen = false
      · rw [if_pos h5] at h4; simp at h4
      · rw [if_neg h5] at h4
        simp only [Res.ok.injEq] at h4
        exact ⟨hall, by omega, by omega, by simpa using h5, h4.symm⟩

theorem addReady_panic {c : Cfg} {t : SysTime} {s : State} {vs : List Nat} {fin : Option Fin}
    (hall : ∀ v ∈ vs, v < c.g.n ∧ ((cmdOf c.g v).displayText).isSome) (h1 : s.nRoi + vs.length < 2 ^ 32)
    (h2 : vs.length ≤ s.nUnready) (h3 : s.readyOpen = true) : ∃ s', addReady c t s vs fin = .ok s' := by
  unfold addReady
  rw [if_neg (by omega), if_neg (by omega)]
  obtain ⟨s1, h4⟩ := readyAll_total (t := t) (s := { s with
      nRoi := s.nRoi + vs.length
      nUnready := s.nUnready - vs.length }) hall
  have e := (readyAll_ok h4).2
  simp only [h4, Res.bind]
  subst e
  simp only [h3]
  exact ⟨_, rfl⟩

/-- The state after a successful `book1`. -/
def booked (g : DiGraph Cmd) (s : State) (e : Fin) (sn : Snap) : State :=
  let ok := e.status.isSuccess
  { s with
    postambles := s.postambles ++ [(e.id, ok)]
    nRoi := s.nRoi - 1
    qs := fun a => if a = (cmdOf g e.id).affinity then some { sn with numInflight := sn.numInflight - 1 } else s.qs a
    nSuccess := if ok then s.nSuccess + 1 else s.nSuccess
    nFailed := if ok then s.nFailed else s.nFailed + 1
    nFizzled := if !ok && fizzled s e.id then s.nFizzled + 1 else s.nFizzled }

theorem book1_ok {g : DiGraph Cmd} {s s' : State} {e : Fin} (h : book1 g s e = .ok s') :
    e.id < g.n ∧ ∃ sn, s.qs (cmdOf g e.id).affinity = some sn ∧ sn.numInflight ≠ 0 ∧ s' = booked g s e sn := by
  unfold book1 at h
  cases hn : g.nodes[e.id]? with
  | none => rw [hn] at h; simp at h
  | some cmd =>
    rw [hn] at h
    have hc := cmdOf_eq hn
    simp only at h
    cases hq : s.qs cmd.affinity with
    | none => rw [hq] at h; simp at h
    | some sn =>
      rw [hq] at h
      simp only at h
      by_cases h0 : sn.numInflight = 0
      · rw [if_pos h0] at h; simp at h
      · rw [if_neg h0] at h
        simp only [Res.ok.injEq] at h
        refine ⟨lt_of_node hn, sn, by rw [hc, hq], h0, ?_⟩
        rw [← h]
        subst hc
        rfl

theorem book1_total {g : DiGraph Cmd} {s : State} {e : Fin} {sn : Snap} (h1 : e.id < g.n)
    (h2 : s.qs (cmdOf g e.id).affinity = some sn) (h3 : sn.numInflight ≠ 0) :
    book1 g s e = .ok (booked g s e sn) := by
  unfold book1
  rw [node_of_lt h1]
  simp only [h2]
  rw [if_neg h3]
  rfl

/-! ### the loop over outgoing edges -/

theorem statusLoop_ok {o : List Nat} : ∀ {unmet : Nat → Nat} {poisoned : Nat → Bool} {ready : List Nat}
    {r : (Nat → Nat) × (Nat → Bool) × List Nat}, statusLoop true (unmet, poisoned, ready) o = .ok r →
    r.2.1 = poisoned ∧ (∀ v, poisoned v = false → o.count v ≤ unmet v ∧ r.1 v = unmet v - o.count v) ∧
    (∀ v, poisoned v = true → r.1 v = unmet v) ∧
    (∀ v, r.2.2.count v = ready.count v + if poisoned v = false ∧ v ∈ o ∧ o.count v = unmet v then 1 else 0) := by
  induction o with
  | nil =>
    intro unmet poisoned ready r h
    simp only [statusLoop, Res.ok.injEq] at h
    subst h
    simp
  | cons d ds ih =>
    intro unmet poisoned ready r h
    simp only [statusLoop, Res.bind_ok] at h
    obtain ⟨acc, h1, h2⟩ := h
    unfold statusStep at h1
    simp only [if_true] at h1
    by_cases hp : poisoned d = false
    · rw [if_pos hp] at h1
      by_cases h0 : unmet d = 0
      · rw [if_pos h0] at h1; simp at h1
      · rw [if_neg h0] at h1
        simp only [Res.ok.injEq] at h1
        subst h1
        obtain ⟨a1, a2, a3, a4⟩ := ih h2
        refine ⟨a1, fun v hv => ?_, fun v hv => ?_, fun v => ?_⟩
        · have := a2 v hv
          by_cases hvd : v = d
          · subst hvd
            simp only [if_true, List.count_cons_self] at this ⊢
            omega
          · simp only [if_neg hvd] at this
            rw [List.count_cons_of_ne (Ne.symm hvd)]
            exact this
        · have := a3 v hv
          have hvd : v ≠ d := fun e => by subst e; rw [hp] at hv; cases hv
          simpa [hvd] using this
        · rw [a4 v]
          by_cases hvd : v = d
          · subst hvd
            have hle := (a2 v hp).1
            simp only [if_true] at hle
            by_cases h1 : unmet v - 1 = 0
            · rw [if_pos h1, List.count_append, List.count_singleton_self]
              have hc0 : ds.count v = 0 := by omega
              have hnm : v ∉ ds := List.count_eq_zero.1 hc0
              rw [if_neg (fun h => hnm h.2.1), if_pos]
              refine ⟨hp, by simp, ?_⟩
              rw [List.count_cons_self]; omega
            · rw [if_neg h1]
              by_cases h2 : ds.count v = unmet v - 1
              · have hm : v ∈ ds := List.count_pos_iff.1 (by omega)
                rw [if_pos ⟨hp, hm, by simpa using h2⟩, if_pos]
                refine ⟨hp, by simp, ?_⟩
                rw [List.count_cons_self]; omega
              · rw [if_neg (fun h => h2 (by simpa using h.2.2)), if_neg]
                rintro ⟨_, _, h⟩
                rw [List.count_cons_self] at h; omega
          · have e1 : (if unmet d - 1 = 0 then ready ++ [d] else ready).count v = ready.count v := by
              split
              · rw [List.count_append, List.count_cons_of_ne (Ne.symm hvd)]; simp
              · rfl
            rw [e1, List.count_cons_of_ne (Ne.symm hvd)]
            simp [hvd]
    · rw [if_neg hp] at h1
      simp only [Res.ok.injEq] at h1
      subst h1
      obtain ⟨a1, a2, a3, a4⟩ := ih h2
      refine ⟨a1, fun v hv => ?_, a3, fun v => ?_⟩
      · have hvd : v ≠ d := fun e => hp (e ▸ hv)
        rw [List.count_cons_of_ne (Ne.symm hvd)]; exact a2 v hv
      · rw [a4 v]
        by_cases hvd : v = d
        · subst hvd; simp [hp]
        · rw [List.count_cons_of_ne (Ne.symm hvd)]; simp [hvd]

theorem statusLoop_total {o : List Nat} : ∀ {unmet : Nat → Nat} {poisoned : Nat → Bool} {ready : List Nat},
    (∀ v, poisoned v = false → o.count v ≤ unmet v) →
    ∃ r, statusLoop true (unmet, poisoned, ready) o = .ok r := by
  induction o with
  | nil => intro u p r _; exact ⟨_, rfl⟩
  | cons d ds ih =>
    intro unmet poisoned ready h
    simp only [statusLoop]
    unfold statusStep
    simp only [if_true]
    by_cases hp : poisoned d = false
    · have h1 := h d hp
      rw [List.count_cons_self] at h1
      rw [if_pos hp, if_neg (by omega)]
      simp only [Res.bind]
      apply ih
      intro v hv
      have h2 := h v hv
      by_cases hvd : v = d
      · subst hvd; simp only [if_true]; omega
      · rw [List.count_cons_of_ne (Ne.symm hvd)] at h2
        simpa [hvd] using h2
    · rw [if_neg hp]
      simp only [Res.bind]
      apply ih
      intro v hv
      have hvd : v ≠ d := fun e => hp (e ▸ hv)
      have h2 := h v hv
      rwa [List.count_cons_of_ne (Ne.symm hvd)] at h2

theorem statusLoop_fail {o : List Nat} : ∀ {unmet : Nat → Nat} {poisoned : Nat → Bool} {ready : List Nat},
    ∃ p, statusLoop false (unmet, poisoned, ready) o = .ok (unmet, p, ready) ∧
      ∀ v, p v = (poisoned v || decide (v ∈ o)) := by
  induction o with
  | nil => intro u p r; exact ⟨p, rfl, by simp⟩
  | cons d ds ih =>
    intro unmet poisoned ready
    obtain ⟨p, h1, h2⟩ := ih (unmet := unmet) (poisoned := fun v => if v = d then true else poisoned v) (ready := ready)
    refine ⟨p, ?_, fun v => ?_⟩
    · simp only [statusLoop, statusStep, Bool.false_eq_true, if_false, Res.bind]; exact h1
    · rw [h2 v]
      by_cases hvd : v = d <;> simp [hvd]

/-- The state when the finish event has been logged, before the exit check. -/
def finLogged (c : Cfg) (s : State) (e : Fin) (lf : LogFile) : State :=
  let s := { s with
    flagsSet := s.flagsSet ++ e.flag.toList
    inflight := s.inflight.filter (fun x => x.1 != e.id)
    lf := lf }
  if s.nFizzled ≥ c.fizzlesAllowed then
    { s with
      token := tokenCancel s.token (.afterTime (s.now - fizzledCutoff))
      readyOpen := false
      soft := true }
  else s

/-- The entries written for a finish event. -/
def finEntries (c : Cfg) (t : SysTime) (e : Fin) (started : Bool) : List LogEntry :=
  (if started then [] else [.started ⟨t, (cmdOf c.g e.id).key, "", 0, ""⟩]) ++
    [.finished ⟨t, (cmdOf c.g e.id).key, e.status.asI32, e.values⟩]

theorem filter_of_lookup_none {l : List (Nat × Int)} {v : Nat} (h : l.lookup v = none) :
    l.filter (fun x => x.1 != v) = l := by
  apply List.filter_eq_self.2
  intro x hx
  have := List.lookup_eq_none_iff.1 h x hx
  simp only [bne_iff_ne, ne_eq]
  intro h2
  simp [h2] at this

theorem finishHalf_ok {c : Cfg} {t : SysTime} {s s' : State} {e : Fin} (h : finishHalf c t s e = .ok s') :
    ∃ lf, s.lf.writeAll (finEntries c t e (s.inflight.lookup e.id).isSome) = .ok lf ∧
      ((finLogged c s e lf).nRoi = 0 ∨ ((finLogged c s e lf).soft = true ∧ (finLogged c s e lf).inflight = []) →
        s' = leaveLoop (finLogged c s e lf)) ∧
      (¬ ((finLogged c s e lf).nRoi = 0 ∨
          ((finLogged c s e lf).soft = true ∧ (finLogged c s e lf).inflight = [])) →
        s' = { finLogged c s e lf with pc := .idle }) := by
  unfold finishHalf at h
  obtain ⟨s1, h1, h⟩ := Res.bind_ok.1 h
  obtain ⟨s2, h2, h3⟩ := Res.bind_ok.1 h
  clear h
  obtain ⟨lf, hlf, e2⟩ := writeLog_ok.1 h2
  have hs1 : ∃ lf1, s1 = { s with
      flagsSet := s.flagsSet ++ e.flag.toList
      inflight := s.inflight.filter (fun x => x.1 != e.id)
      lf := lf1 } ∧ s.lf.writeAll (finEntries c t e (s.inflight.lookup e.id).isSome) = .ok lf := by
    cases hl : (s.inflight.lookup e.id) with
    | some x =>
      rw [hl] at h1
      simp only [Option.isSome_some, if_true, Res.ok.injEq] at h1
      refine ⟨s.lf, h1.symm, ?_⟩
      subst h1
      simp only at hlf
      simp [finEntries, LogFile.writeAll, hlf, Res.bind]
    | none =>
      rw [hl] at h1
      simp only [Option.isSome_none, Bool.false_eq_true, if_false] at h1
      obtain ⟨lf1, h4, h5⟩ := writeLog_ok.1 h1
      refine ⟨lf1, ?_, ?_⟩
      · rw [h5, filter_of_lookup_none hl]
      · subst h5
        simp only at h4 hlf
        simp [finEntries, LogFile.writeAll, h4, hlf, Res.bind]
  obtain ⟨lf1, e1, hw⟩ := hs1
  subst e1
  simp only at e2
  subst e2
  refine ⟨lf, hw, ?_, ?_⟩
  · intro hx
    rw [if_pos (by simpa [finLogged] using hx)] at h3
    simp only [Res.ok.injEq] at h3
    rw [← h3]; rfl
  · intro hx
    rw [if_neg (by simpa [finLogged] using hx)] at h3
    simp only [Res.ok.injEq] at h3
    rw [← h3]; rfl

theorem writeAll_snoc (lf : LogFile) (a b : List LogEntry) :
    lf.writeAll (a ++ b) = (lf.writeAll a).bind (fun lf => lf.writeAll b) := by
  induction a generalizing lf with
  | nil => rfl
  | cons x xs ih =>
    simp only [List.cons_append, LogFile.writeAll]
    cases h : lf.write x <;> simp [Res.bind, ih]

theorem finishHalf_total {c : Cfg} {t : SysTime} {s : State} {e : Fin}
    (h : ∃ lf, s.lf.writeAll (finEntries c t e (s.inflight.lookup e.id).isSome) = .ok lf) :
    ∃ s', finishHalf c t s e = .ok s' := by
  obtain ⟨lf, h⟩ := h
  unfold finishHalf
  have key : ∀ s2 : State, ∃ s', (if s2.nRoi = 0 ∨ (s2.soft = true ∧ s2.inflight = []) then Res.ok (leaveLoop s2)
    else (Res.ok { s2 with pc := .idle } : Out)) = .ok s' := by
      intro s2; split <;> exact ⟨_, rfl⟩
  cases hl : (s.inflight.lookup e.id) with
  | some x =>
    rw [hl] at h
    simp only [finEntries, Option.isSome_some, if_true, List.nil_append, LogFile.writeAll, Res.bind_ok] at h
    obtain ⟨lf1, h1, h2⟩ := h
    simp only [hl, Option.isSome_some, if_true, Res.bind, writeLog, h1]
    exact key _
  | none =>
    rw [hl] at h
    simp only [finEntries, Option.isSome_none, Bool.false_eq_true, if_false, List.cons_append, List.nil_append,
      LogFile.writeAll, Res.bind_ok] at h
    obtain ⟨lf1, h1, lf2, h2, h3⟩ := h
    simp only [hl, Option.isSome_none, Bool.false_eq_true, if_false, Res.bind, writeLog, h1, h2]
    exact key _

end Tracker
end Verif
