import Verif.Spec.Log

namespace Verif
open Spec

theorem history_snoc (k : String) (es : List LogEntry) (e : LogEntry) :
    history k (es ++ [e]) = if about k e = true then history k es ++ [e] else history k es := by
  unfold history
  rw [List.filter_append]
  split
  · rename_i h; simp [h]
  · rename_i h; simp [h]

theorem lastReady_snoc (l : List LogEntry) (e : LogEntry) :
    lastReady (l ++ [e]) = match e with | .ready r => some r | _ => lastReady l := by
  unfold lastReady
  cases e <;> simp [ready?]

theorem statusOf_snoc_other {k : String} {es : List LogEntry} {e : LogEntry} (h : about k e = false) :
    statusOf k (es ++ [e]) = statusOf k es := by
  unfold statusOf
  rw [history_snoc]
  simp [h]

theorem statusOf_snoc_ready (k : String) (es : List LogEntry) (r : ReadyEntry) (h : r.key = k) :
    statusOf k (es ++ [.ready r]) = some (.ready r.runcount r.storageRoot) := by
  unfold statusOf
  rw [history_snoc]
  simp [about, h, lastReady_snoc]

theorem statusOf_snoc_started (k : String) (es : List LogEntry) (s : StartedEntry) (h : s.key = k) :
    statusOf k (es ++ [.started s]) =
      (lastReady (history k es)).map (fun r => .started r.runcount r.storageRoot) := by
  unfold statusOf
  rw [history_snoc]
  simp only [about, h, beq_self_eq_true, if_true, List.getLast?_append, List.getLast?_singleton, Option.some_or,
    lastReady_snoc]
  cases lastReady (history k es) <;> rfl

theorem statusOf_snoc_finished (k : String) (es : List LogEntry) (f : FinishedEntry) (h : f.key = k) :
    statusOf k (es ++ [.finished f]) =
      (lastReady (history k es)).map (fun r => .finished r.runcount r.storageRoot (decide (f.status = 0))) := by
  unfold statusOf
  rw [history_snoc]
  simp only [about, h, beq_self_eq_true, if_true, List.getLast?_append, List.getLast?_singleton, Option.some_or,
    lastReady_snoc]
  cases lastReady (history k es) <;> rfl

theorem protocol_nil : Protocol [] := by
  intro k pre e post h
  simp [history] at h

theorem protocol_prefix {es es' : List LogEntry} (h : Protocol (es ++ es')) : Protocol es := by
  intro k pre e post he
  apply h k pre e (post ++ history k es')
  unfold history at *
  rw [List.filter_append, he]; simp

theorem protocol_snoc {es : List LogEntry} {e : LogEntry} :
    Protocol (es ++ [e]) ↔ Protocol es ∧ ∀ k, about k e = true →
      (isStarted e = true → ∃ p, (history k es).getLast? = some p ∧ isReady p = true) ∧
      (isFinished e = true → ∃ p, (history k es).getLast? = some p ∧ isStarted p = true) := by
  constructor
  · intro h
    refine ⟨protocol_prefix h, fun k hk => ?_⟩
    exact h k (history k es) e [] (by rw [history_snoc, if_pos hk])
  · rintro ⟨h1, h2⟩ k pre x post he
    rw [history_snoc] at he
    split at he
    · rename_i hk
      rcases List.eq_nil_or_concat post with rfl | ⟨post', y, rfl⟩
      · have he' : history k es ++ [e] = pre ++ [x] := he
        have := List.append_inj' he' rfl
        obtain ⟨rfl, hx⟩ := this
        simp only [List.cons.injEq, and_true] at hx
        subst hx
        exact h2 k hk
      · have he' : history k es ++ [e] = (pre ++ x :: post') ++ [y] := by simpa using he
        have := (List.append_inj' he' rfl).1
        exact h1 k pre x post' this
    · exact h1 k pre x post he

theorem headersOk_prefix {es es' : List LogEntry} (h : HeadersOk (es ++ es')) : HeadersOk es :=
  ⟨fun x hx => h.1 x (by simp [hx]), fun x y hx hy => h.2 x y (by simp [hx]) (by simp [hy])⟩

theorem lastHeader_snoc (l : List LogEntry) (e : LogEntry) :
    lastHeader (l ++ [e]) = match e with | .header h => some h | _ => lastHeader l := by
  unfold lastHeader
  cases e <;> simp

/-- What `loadLoop` knows after reading `es`. -/
structure LoadInv (es : List LogEntry) (st : LoadState) : Prop where
  status : ∀ k, st.mem.runcounts k = statusOf k es
  header : st.mem.header = lastHeader es
  keySome : ∀ w, st.workflowKey = some w ↔ ∃ h, LogEntry.header h ∈ es ∧ h.workflowKey = w
  headers : HeadersOk es
  protocol : Protocol es

theorem loadInv_init : LoadInv [] ⟨.empty, none⟩ :=
  ⟨fun k => rfl, rfl, by simp, ⟨by simp, by simp⟩, protocol_nil⟩

/-- The last relevant entry, from the status. -/
theorem last_of_status {k : String} {es : List LogEntry} (hp : Protocol es) :
    (∀ c r, statusOf k es = some (.ready c r) ↔
      ∃ x, (history k es).getLast? = some (.ready x) ∧ x.runcount = c ∧ x.storageRoot = r) ∧
    (∀ x, (history k es).getLast? = some (.started x) → ∃ r, lastReady (history k es) = some r) ∧
    (∀ x, (history k es).getLast? = some (.finished x) → ∃ r, lastReady (history k es) = some r) := by
  have hst : ∀ x l, history k es = l ++ [.started x] → ∃ r, lastReady (history k es) = some r := by
    intro x l hl
    obtain ⟨p, hp1, hp2⟩ := (hp k l (.started x) [] hl).1 rfl
    cases p with
    | ready r =>
      obtain ⟨l', rfl⟩ : ∃ l', l = l' ++ [.ready r] := by
        rcases List.eq_nil_or_concat l with rfl | ⟨l', y, rfl⟩
        · simp at hp1
        · simp at hp1; subst hp1; exact ⟨l', by simp⟩
      refine ⟨r, ?_⟩
      rw [hl, lastReady_snoc]
      simp only
      rw [lastReady_snoc]
    | _ => simp [isReady] at hp2
  refine ⟨?_, ?_, ?_⟩
  · intro c r
    unfold statusOf
    constructor
    · intro h
      split at h
      · rename_i x r' h1 h2
        refine ⟨x, h1, ?_⟩
        have : lastReady (history k es) = some x := by
          rcases List.eq_nil_or_concat (history k es) with hn | ⟨l', y, hl⟩
          · rw [hn] at h1; simp at h1
          · rw [hl] at h1
            simp at h1; subst h1
            rw [hl, List.concat_eq_append, lastReady_snoc]
        rw [this] at h2
        cases h2
        simpa using h
      · simp at h
      · simp at h
      · simp at h
    · rintro ⟨x, h1, rfl, rfl⟩
      have : lastReady (history k es) = some x := by
        rcases List.eq_nil_or_concat (history k es) with hn | ⟨l', y, hl⟩
        · rw [hn] at h1; simp at h1
        · rw [hl] at h1
          simp at h1; subst h1
          rw [hl, List.concat_eq_append, lastReady_snoc]
      rw [h1, this]
  · intro x hx
    rcases List.eq_nil_or_concat (history k es) with hn | ⟨l', y, hl⟩
    · rw [hn] at hx; simp at hx
    · rw [List.concat_eq_append] at hl
      have hy : y = .started x := by rw [hl] at hx; simpa using hx
      subst hy
      exact hst x l' hl
  · intro x hx
    rcases List.eq_nil_or_concat (history k es) with hn | ⟨l', y, hl⟩
    · rw [hn] at hx; simp at hx
    · rw [List.concat_eq_append] at hl
      have hy : y = .finished x := by rw [hl] at hx; simpa using hx
      subst hy
      obtain ⟨p, hp1, hp2⟩ := (hp k l' (.finished x) [] hl).2 rfl
      cases p with
      | started s =>
        obtain ⟨l2, rfl⟩ : ∃ l2, l' = l2 ++ [.started s] := by
          rcases List.eq_nil_or_concat l' with rfl | ⟨l2, y, rfl⟩
          · simp at hp1
          · simp at hp1; subst hp1; exact ⟨l2, by simp⟩
        obtain ⟨q, hq1, hq2⟩ := (hp k l2 (.started s) [.finished x] (by rw [hl]; simp)).1 rfl
        cases q with
        | ready r =>
          obtain ⟨l3, rfl⟩ : ∃ l3, l2 = l3 ++ [.ready r] := by
            rcases List.eq_nil_or_concat l2 with rfl | ⟨l3, y, rfl⟩
            · simp at hq1
            · simp at hq1; subst hq1; exact ⟨l3, by simp⟩
          refine ⟨r, ?_⟩
          rw [hl, lastReady_snoc]
          simp only
          rw [lastReady_snoc]
          simp only
          rw [lastReady_snoc]
        | _ => simp [isReady] at hq2
      | _ => simp [isStarted] at hp2

theorem history_last_about {k : String} {es : List LogEntry} {p : LogEntry}
    (h : (history k es).getLast? = some p) : about k p = true := by
  have := List.mem_of_getLast? h
  unfold history at this
  exact (List.mem_filter.1 this).2

/-- Status from the last entry. -/
theorem status_cases {k : String} {es : List LogEntry} (hp : Protocol es) :
    (history k es = [] ∧ statusOf k es = none) ∨
    (∃ x, (history k es).getLast? = some (.ready x) ∧ statusOf k es = some (.ready x.runcount x.storageRoot)) ∨
    (∃ x r, (history k es).getLast? = some (.started x) ∧ lastReady (history k es) = some r ∧
      statusOf k es = some (.started r.runcount r.storageRoot)) ∨
    (∃ x r, (history k es).getLast? = some (.finished x) ∧ lastReady (history k es) = some r ∧
      statusOf k es = some (.finished r.runcount r.storageRoot (decide (x.status = 0)))) := by
  obtain ⟨h1, h2, h3⟩ := last_of_status (k := k) hp
  cases hl : (history k es).getLast? with
  | none =>
    left
    rw [List.getLast?_eq_none_iff] at hl
    refine ⟨hl, ?_⟩
    unfold statusOf; rw [hl]; rfl
  | some e =>
    right
    have ha := history_last_about hl
    cases e with
    | ready x => left; exact ⟨x, rfl, (h1 _ _).2 ⟨x, hl, rfl, rfl⟩⟩
    | started x =>
      right; left
      obtain ⟨r, hr⟩ := h2 x hl
      refine ⟨x, r, rfl, hr, ?_⟩
      unfold statusOf; rw [hl, hr]
    | finished x =>
      right; right
      obtain ⟨r, hr⟩ := h3 x hl
      refine ⟨x, r, rfl, hr, ?_⟩
      unfold statusOf; rw [hl, hr]
    | header h => simp [about] at ha
    | backref b => simp [about] at ha

theorem loadInv_step {es : List LogEntry} {st st' : LoadState} (hi : LoadInv es st) (e : LogEntry)
    (h : loadStep st e = .ok st') : LoadInv (es ++ [e]) st' := by
  cases e with
  | header hd =>
    have hab : ∀ k, about k (.header hd) = false := fun _ => rfl
    have hstat : ∀ k, statusOf k (es ++ [.header hd]) = statusOf k es := fun k => statusOf_snoc_other (hab k)
    have hprot : Protocol (es ++ [.header hd]) := by
      rw [protocol_snoc]; exact ⟨hi.protocol, fun k hk => by simp [about] at hk⟩
    unfold loadStep at h
    simp only at h
    cases hw : st.workflowKey with
    | none =>
      rw [hw] at h
      simp only at h
      split at h
      · cases h
      · rename_i hv
        cases h
        have hnone : ∀ x, LogEntry.header x ∉ es := by
          intro x hx
          have := (hi.keySome x.workflowKey).2 ⟨x, hx, rfl⟩
          rw [hw] at this; cases this
        refine ⟨fun k => by rw [hstat]; exact hi.status k, by rw [lastHeader_snoc], ?_, ?_, hprot⟩
        · intro w
          simp only [Option.some.injEq, List.mem_append, List.mem_singleton, LogEntry.header.injEq]
          constructor
          · rintro rfl; exact ⟨hd, .inr rfl, rfl⟩
          · rintro ⟨x, hx | rfl, rfl⟩
            · exact absurd hx (hnone x)
            · rfl
        · refine ⟨?_, ?_⟩
          · intro x hx
            simp only [List.mem_append, List.mem_singleton, LogEntry.header.injEq] at hx
            rcases hx with hx | rfl
            · exact absurd hx (hnone x)
            · simpa [logfileVersion] using hv
          · intro x y hx hy
            simp only [List.mem_append, List.mem_singleton, LogEntry.header.injEq] at hx hy
            rcases hx with hx | rfl
            · exact absurd hx (hnone x)
            · rcases hy with hy | rfl
              · exact absurd hy (hnone y)
              · rfl
    | some w0 =>
      rw [hw] at h
      simp only at h
      split at h
      · cases h
      · rename_i hk
        split at h
        · cases h
        · rename_i hv
          cases h
          simp only [ne_eq, Decidable.not_not] at hk
          have hall : ∀ x, LogEntry.header x ∈ es → x.workflowKey = w0 := by
            intro x hx
            have := (hi.keySome x.workflowKey).2 ⟨x, hx, rfl⟩
            rw [hw] at this; exact (Option.some.inj this).symm
          refine ⟨fun k => by rw [hstat]; exact hi.status k, by rw [lastHeader_snoc], ?_, ?_, hprot⟩
          · intro w
            simp only [Option.some.injEq, List.mem_append, List.mem_singleton, LogEntry.header.injEq]
            constructor
            · rintro rfl; exact ⟨hd, .inr rfl, hk.symm⟩
            · rintro ⟨x, hx | rfl, rfl⟩
              · exact (hall x hx).symm
              · exact hk
          · refine ⟨?_, ?_⟩
            · intro x hx
              simp only [List.mem_append, List.mem_singleton, LogEntry.header.injEq] at hx
              rcases hx with hx | rfl
              · exact hi.headers.1 x hx
              · simpa [logfileVersion] using hv
            · intro x y hx hy
              have : ∀ z, LogEntry.header z ∈ es ++ [LogEntry.header hd] → z.workflowKey = w0 := by
                intro z hz
                simp only [List.mem_append, List.mem_singleton, LogEntry.header.injEq] at hz
                rcases hz with hz | rfl
                · exact hall z hz
                · exact hk.symm
              rw [this x hx, this y hy]
  | backref b =>
    have hab : ∀ k, about k (.backref b) = false := fun _ => rfl
    simp only [loadStep, Res.ok.injEq] at h
    subst h
    refine ⟨fun k => by rw [statusOf_snoc_other (hab k)]; exact hi.status k, by rw [lastHeader_snoc]; exact hi.header,
      ?_, ?_, ?_⟩
    · intro w; rw [hi.keySome w]; simp
    · refine ⟨fun x hx => hi.headers.1 x ?_, fun x y hx hy => hi.headers.2 x y ?_ ?_⟩ <;> simp_all
    · rw [protocol_snoc]; exact ⟨hi.protocol, fun k hk => by simp [about] at hk⟩
  | ready r =>
    simp only [loadStep, Res.ok.injEq] at h
    subst h
    refine ⟨fun k => ?_, by rw [lastHeader_snoc]; exact hi.header, ?_, ?_, ?_⟩
    · simp only [StrMap.set]
      split
      · rename_i hk; rw [statusOf_snoc_ready k es r hk.symm]
      · rename_i hk
        rw [statusOf_snoc_other (by simpa [about] using fun h => hk h.symm)]; exact hi.status k
    · intro w; rw [hi.keySome w]; simp
    · refine ⟨fun x hx => hi.headers.1 x ?_, fun x y hx hy => hi.headers.2 x y ?_ ?_⟩ <;> simp_all
    · rw [protocol_snoc]; exact ⟨hi.protocol, fun k hk => by simp [isStarted, isFinished]⟩
  | started s =>
    simp only [loadStep] at h
    split at h
    · cases h
    · rename_i c srt hst
      cases h
      rw [hi.status] at hst
      obtain ⟨x, hx1, hx2, hx3⟩ := ((last_of_status hi.protocol).1 c srt).1 hst
      have hlr : lastReady (history s.key es) = some x := by
        rcases List.eq_nil_or_concat (history s.key es) with hn | ⟨l', y, hl⟩
        · rw [hn] at hx1; simp at hx1
        · rw [hl] at hx1
          simp at hx1; subst hx1
          rw [hl, List.concat_eq_append, lastReady_snoc]
      refine ⟨fun k => ?_, by rw [lastHeader_snoc]; exact hi.header, ?_, ?_, ?_⟩
      · simp only [StrMap.set]
        split
        · rename_i hk
          subst hk
          rw [statusOf_snoc_started s.key es s rfl, hlr]
          simp [hx2, hx3]
        · rename_i hk
          rw [statusOf_snoc_other (by simpa [about] using fun h => hk h.symm)]; exact hi.status k
      · intro w; rw [hi.keySome w]; simp
      · refine ⟨fun x hx => hi.headers.1 x ?_, fun x y hx hy => hi.headers.2 x y ?_ ?_⟩ <;> simp_all
      · rw [protocol_snoc]
        refine ⟨hi.protocol, fun k hk => ⟨fun _ => ?_, by simp [isFinished]⟩⟩
        simp only [about, beq_iff_eq] at hk
        subst hk
        exact ⟨_, hx1, rfl⟩
    · cases h
  | finished f =>
    simp only [loadStep] at h
    split at h
    · cases h
    · rename_i c srt hst
      cases h
      rw [hi.status] at hst
      have hcase := status_cases (k := f.key) hi.protocol
      rw [hst] at hcase
      rcases hcase with ⟨_, h⟩ | ⟨x, _, h⟩ | ⟨x, r, hx1, hlr, h⟩ | ⟨x, r, _, _, h⟩
      · cases h
      · cases h
      · have hcr : c = r.runcount ∧ srt = r.storageRoot := by simpa using h
        obtain ⟨hc, hs⟩ := hcr
        subst hc hs
        refine ⟨fun k => ?_, by rw [lastHeader_snoc]; exact hi.header, ?_, ?_, ?_⟩
        · simp only [StrMap.set]
          split
          · rename_i hk
            subst hk
            rw [statusOf_snoc_finished f.key es f rfl, hlr]
            rfl
          · rename_i hk
            rw [statusOf_snoc_other (by simpa [about] using fun h => hk h.symm)]; exact hi.status k
        · intro w; rw [hi.keySome w]; simp
        · refine ⟨fun x hx => hi.headers.1 x ?_, fun x y hx hy => hi.headers.2 x y ?_ ?_⟩ <;> simp_all
        · rw [protocol_snoc]
          refine ⟨hi.protocol, fun k hk => ⟨by simp [isStarted], fun _ => ?_⟩⟩
          simp only [about, beq_iff_eq] at hk
          subst hk
          exact ⟨_, hx1, rfl⟩
      · cases h
    · cases h

theorem loadLoop_append (a b : List LogEntry) (st : LoadState) :
    loadLoop st (a ++ b) = (loadLoop st a).bind (fun st => loadLoop st b) := by
  induction a generalizing st with
  | nil => rfl
  | cons e a ih =>
    simp only [List.cons_append, loadLoop]
    cases loadStep st e with
    | ok st' => exact ih st'
    | err _ => rfl
    | panic _ => rfl

theorem loadInv_loop (es : List LogEntry) : ∀ (pre : List LogEntry) (st st' : LoadState), LoadInv pre st →
    loadLoop st es = .ok st' → LoadInv (pre ++ es) st' := by
  induction es with
  | nil => intro pre st st' hi h; simp only [loadLoop, Res.ok.injEq] at h; subst h; simpa using hi
  | cons e es ih =>
    intro pre st st' hi h
    simp only [loadLoop] at h
    cases hs : loadStep st e with
    | ok st1 =>
      rw [hs] at h
      have := ih (pre ++ [e]) st1 st' (loadInv_step hi e hs) h
      simpa using this
    | err x => rw [hs] at h; cases h
    | panic x => rw [hs] at h; cases h

/-- Progress of one step on well-formed input. -/
theorem loadStep_ok {es : List LogEntry} {st : LoadState} (hi : LoadInv es st) (e : LogEntry)
    (hp : Protocol (es ++ [e])) (hh : HeadersOk (es ++ [e])) : ∃ st', loadStep st e = .ok st' := by
  cases e with
  | header hd =>
    have hv : hd.version = 4 := hh.1 hd (by simp)
    unfold loadStep
    simp only
    cases hw : st.workflowKey with
    | none => simp [hv, logfileVersion]
    | some w0 =>
      obtain ⟨x, hx, hxw⟩ := (hi.keySome w0).1 hw
      have : w0 = hd.workflowKey := by rw [← hxw]; exact hh.2 x hd (by simp [hx]) (by simp)
      simp [hv, logfileVersion, this]
  | backref b => exact ⟨_, rfl⟩
  | ready r => exact ⟨_, rfl⟩
  | started s =>
    obtain ⟨p, hp1, hp2⟩ := ((protocol_snoc.1 hp).2 s.key (by simp [about])).1 rfl
    cases p with
    | ready x =>
      have := ((last_of_status hi.protocol).1 _ _).2 ⟨x, hp1, rfl, rfl⟩
      rw [← hi.status] at this
      simp only [loadStep, this]
      exact ⟨_, rfl⟩
    | _ => simp [isReady] at hp2
  | finished f =>
    obtain ⟨p, hp1, hp2⟩ := ((protocol_snoc.1 hp).2 f.key (by simp [about])).2 rfl
    cases p with
    | started x =>
      obtain ⟨r, hr⟩ := (last_of_status hi.protocol).2.1 x hp1
      have hst : st.mem.runcounts f.key = some (.started r.runcount r.storageRoot) := by
        rw [hi.status]; unfold statusOf; rw [hp1, hr]
      simp only [loadStep, hst]
      exact ⟨_, rfl⟩
    | _ => simp [isStarted] at hp2

theorem loadLoop_ok (es : List LogEntry) : ∀ (pre : List LogEntry) (st : LoadState), LoadInv pre st →
    Protocol (pre ++ es) → HeadersOk (pre ++ es) → ∃ st', loadLoop st es = .ok st' := by
  induction es with
  | nil => intro pre st _ _ _; exact ⟨st, rfl⟩
  | cons e es ih =>
    intro pre st hi hp hh
    have e1 : pre ++ e :: es = (pre ++ [e]) ++ es := by simp
    rw [e1] at hp hh
    obtain ⟨st1, h1⟩ := loadStep_ok hi e (protocol_prefix hp) (headersOk_prefix hh)
    obtain ⟨st2, h2⟩ := ih (pre ++ [e]) st1 (loadInv_step hi e h1) hp hh
    exact ⟨st2, by simp only [loadLoop, h1]; exact h2⟩

theorem loadStep_panic_protocol {es : List LogEntry} {st : LoadState} (hi : LoadInv es st) (e : LogEntry) {m : String}
    (h : loadStep st e = .panic m) : ¬ Protocol (es ++ [e]) := by
  intro hp
  cases e with
  | header hd =>
    unfold loadStep at h
    simp only at h
    split at h
    · split at h
      · cases h
      · split at h <;> cases h
    · split at h <;> cases h
  | backref b => cases h
  | ready r => cases h
  | started s =>
    obtain ⟨p, hp1, hp2⟩ := ((protocol_snoc.1 hp).2 s.key (by simp [about])).1 rfl
    cases p with
    | ready x =>
      have := ((last_of_status hi.protocol).1 _ _).2 ⟨x, hp1, rfl, rfl⟩
      rw [← hi.status] at this
      simp only [loadStep, this] at h
      cases h
    | _ => simp [isReady] at hp2
  | finished f =>
    obtain ⟨p, hp1, hp2⟩ := ((protocol_snoc.1 hp).2 f.key (by simp [about])).2 rfl
    cases p with
    | started x =>
      obtain ⟨r, hr⟩ := (last_of_status hi.protocol).2.1 x hp1
      have hst : st.mem.runcounts f.key = some (.started r.runcount r.storageRoot) := by
        rw [hi.status]; unfold statusOf; rw [hp1, hr]
      simp only [loadStep, hst] at h
      cases h
    | _ => simp [isStarted] at hp2

/-- `write` and the loader do the same to the memory part. -/
theorem write_of_loadStep {st st' : LoadState} {e : LogEntry} (h : loadStep st e = .ok st') :
    st.mem.write e = .ok st'.mem := by
  cases e with
  | header hd =>
    unfold loadStep at h
    simp only at h
    split at h
    · split at h
      · cases h
      · split at h
        · cases h
        · cases h; rfl
    · split at h
      · cases h
      · cases h; rfl
  | backref b => cases h; rfl
  | ready r => cases h; rfl
  | started s =>
    simp only [loadStep] at h
    simp only [LogMem.write]
    split at h
    · cases h
    · cases h; rfl
    · cases h
  | finished f =>
    simp only [loadStep] at h
    simp only [LogMem.write]
    split at h
    · cases h
    · cases h; rfl
    · cases h

theorem loadStep_of_write {st : LoadState} {m : LogMem} {e : LogEntry} (h : st.mem.write e = .ok m) :
    (∃ st', loadStep st e = .ok st' ∧ st'.mem = m) ∨
    ∃ x, loadStep st e = .err x := by
  cases hl : loadStep st e with
  | ok st' =>
    left
    have := write_of_loadStep hl
    rw [this] at h
    exact ⟨st', rfl, Res.ok.inj h⟩
  | err x => exact .inr ⟨x, rfl⟩
  | panic p =>
    exfalso
    cases e with
    | header hd =>
      unfold loadStep at hl
      simp only at hl
      split at hl
      · split at hl
        · cases hl
        · split at hl <;> cases hl
      · split at hl <;> cases hl
    | backref b => cases hl
    | ready r => cases hl
    | started s =>
      simp only [loadStep] at hl
      simp only [LogMem.write] at h
      split at h
      · cases h
      · rename_i h1; rw [h1] at hl; cases hl
      · cases h
    | finished f =>
      simp only [loadStep] at hl
      simp only [LogMem.write] at h
      split at h
      · cases h
      · rename_i h1; rw [h1] at hl; cases hl
      · cases h

theorem loadRuncounts_ok_iff {es : List LogEntry} {m : LogMem} :
    loadRuncounts es = .ok m ↔ ∃ st, loadLoop ⟨.empty, none⟩ es = .ok st ∧ st.mem = m := by
  unfold loadRuncounts
  cases h : loadLoop ⟨.empty, none⟩ es with
  | ok st => simp [Res.bind]
  | err x => simp [Res.bind]
  | panic x => simp [Res.bind]

theorem open_ok_iff {es : List LogEntry} {d : String} {lf : LogFile} :
    LogFile.open es d = .ok lf ↔ loadRuncounts es = .ok lf.mem ∧ lf.entries = es ∧ lf.dir = d := by
  unfold LogFile.open
  cases h : loadRuncounts es with
  | ok m =>
    simp only [Res.bind, Res.ok.injEq]
    constructor
    · rintro rfl; exact ⟨rfl, rfl, rfl⟩
    · rintro ⟨rfl, rfl, rfl⟩; rfl
  | err x => simp [Res.bind]
  | panic x => simp [Res.bind]


/-- One `write` on a file whose contents the memory agrees with. -/
theorem write_step (m : LogMem) (e : LogEntry) (pre : List LogEntry) (hm : ∀ k, m.runcounts k = statusOf k pre)
    (hp : Protocol pre) :
    (Protocol (pre ++ [e]) → ∃ m', m.write e = .ok m' ∧ ∀ k, m'.runcounts k = statusOf k (pre ++ [e])) ∧
    (¬ Protocol (pre ++ [e]) → (m.write e).isPanic = true) := by
  -- a loader state with the same memory and no header seen
  cases e with
  | header hd =>
    refine ⟨fun _ => ⟨_, rfl, fun k => ?_⟩, fun hn => ?_⟩
    · rw [statusOf_snoc_other rfl]; exact hm k
    · exact absurd (protocol_snoc.2 ⟨hp, fun k hk => by simp [about] at hk⟩) hn
  | backref b =>
    refine ⟨fun _ => ⟨_, rfl, fun k => ?_⟩, fun hn => ?_⟩
    · rw [statusOf_snoc_other rfl]; exact hm k
    · exact absurd (protocol_snoc.2 ⟨hp, fun k hk => by simp [about] at hk⟩) hn
  | ready r =>
    refine ⟨fun _ => ⟨_, rfl, fun k => ?_⟩, fun hn => ?_⟩
    · simp only [StrMap.set]
      split
      · rename_i hk; rw [statusOf_snoc_ready k pre r hk.symm]
      · rename_i hk
        rw [statusOf_snoc_other (by simpa [about] using fun h => hk h.symm)]; exact hm k
    · exact absurd (protocol_snoc.2 ⟨hp, fun k hk => by simp [isStarted, isFinished]⟩) hn
  | started s =>
    have hc := status_cases (k := s.key) hp
    rw [← hm] at hc
    have hprot : Protocol (pre ++ [.started s]) ↔
        ∃ p, (history s.key pre).getLast? = some p ∧ isReady p = true := by
      rw [protocol_snoc]
      constructor
      · intro h; exact (h.2 s.key (by simp [about])).1 rfl
      · intro h
        refine ⟨hp, fun k hk => ⟨fun _ => ?_, by simp [isFinished]⟩⟩
        simp only [about, beq_iff_eq] at hk; subst hk; exact h
    rw [hprot]
    rcases hc with ⟨h1, h2⟩ | ⟨x, h1, h2⟩ | ⟨x, r, h1, _, h2⟩ | ⟨x, r, h1, _, h2⟩
    · simp only [LogMem.write, h2, h1]
      simp [Res.isPanic]
    · simp only [LogMem.write, h2, h1]
      refine ⟨fun _ => ⟨_, rfl, fun k => ?_⟩, fun hn => absurd ⟨_, rfl, rfl⟩ hn⟩
      have hlr : lastReady (history s.key pre) = some x := by
        rcases List.eq_nil_or_concat (history s.key pre) with hn | ⟨l', y, hl⟩
        · rw [hn] at h1; simp at h1
        · rw [hl] at h1
          simp at h1; subst h1
          rw [hl, List.concat_eq_append, lastReady_snoc]
      simp only [StrMap.set]
      split
      · rename_i hk; subst hk
        rw [statusOf_snoc_started s.key pre s rfl, hlr]; rfl
      · rename_i hk
        rw [statusOf_snoc_other (by simpa [about] using fun h => hk h.symm)]; exact hm k
    · simp only [LogMem.write, h2, h1]
      simp [Res.isPanic, isReady]
    · simp only [LogMem.write, h2, h1]
      simp [Res.isPanic, isReady]
  | finished f =>
    have hc := status_cases (k := f.key) hp
    rw [← hm] at hc
    have hprot : Protocol (pre ++ [.finished f]) ↔
        ∃ p, (history f.key pre).getLast? = some p ∧ isStarted p = true := by
      rw [protocol_snoc]
      constructor
      · intro h; exact (h.2 f.key (by simp [about])).2 rfl
      · intro h
        refine ⟨hp, fun k hk => ⟨by simp [isStarted], fun _ => ?_⟩⟩
        simp only [about, beq_iff_eq] at hk; subst hk; exact h
    rw [hprot]
    rcases hc with ⟨h1, h2⟩ | ⟨x, h1, h2⟩ | ⟨x, r, h1, hlr, h2⟩ | ⟨x, r, h1, _, h2⟩
    · simp only [LogMem.write, h2, h1]
      simp [Res.isPanic]
    · simp only [LogMem.write, h2, h1]
      simp [Res.isPanic, isStarted]
    · simp only [LogMem.write, h2, h1]
      refine ⟨fun _ => ⟨_, rfl, fun k => ?_⟩, fun hn => absurd ⟨_, rfl, rfl⟩ hn⟩
      simp only [StrMap.set]
      split
      · rename_i hk; subst hk
        rw [statusOf_snoc_finished f.key pre f rfl, hlr]; rfl
      · rename_i hk
        rw [statusOf_snoc_other (by simpa [about] using fun h => hk h.symm)]; exact hm k
    · simp only [LogMem.write, h2, h1]
      simp [Res.isPanic, isStarted]

theorem writeAll_step : ∀ (new pre : List LogEntry) (lf : LogFile), (∀ k, lf.mem.runcounts k = statusOf k pre) →
    Protocol pre →
    (Protocol (pre ++ new) → ∃ lf', lf.writeAll new = .ok lf') ∧
    (¬ Protocol (pre ++ new) → (lf.writeAll new).isPanic = true) := by
  intro new
  induction new with
  | nil =>
    intro pre lf _ hp
    exact ⟨fun _ => ⟨lf, rfl⟩, fun hn => absurd (by simpa using hp) hn⟩
  | cons e new ih =>
    intro pre lf hm hp
    have e1 : pre ++ e :: new = (pre ++ [e]) ++ new := by simp
    rw [e1]
    obtain ⟨h1, h2⟩ := write_step lf.mem e pre hm hp
    by_cases hpe : Protocol (pre ++ [e])
    · obtain ⟨m', hm1, hm2⟩ := h1 hpe
      have := ih (pre ++ [e]) { lf with mem := m', entries := lf.entries ++ [e] } hm2 hpe
      simp only [LogFile.writeAll, LogFile.write, hm1, Res.bind]
      exact this
    · refine ⟨fun h => absurd (protocol_prefix h) hpe, fun _ => ?_⟩
      have h2 := h2 hpe
      cases hw : lf.mem.write e with
      | ok m => rw [hw] at h2; simp [Res.isPanic] at h2
      | err m => rw [hw] at h2; simp [Res.isPanic] at h2
      | panic m => simp [LogFile.writeAll, LogFile.write, hw, Res.bind, Res.isPanic]

/-- A log file object whose memory agrees with its file. -/
theorem Spec.Consistent.writeAll {lf lf' : LogFile} {new : List LogEntry} (h : Consistent lf) (hw : lf.writeAll new = .ok lf') :
    Consistent lf' := by
  induction new generalizing lf with
  | nil => simp only [LogFile.writeAll, Res.ok.injEq] at hw; subst hw; exact h
  | cons e new ih =>
    obtain ⟨h1, h2⟩ := write_step lf.mem e lf.entries h.status h.protocol
    by_cases hpe : Protocol (lf.entries ++ [e])
    · obtain ⟨m', hm1, hm2⟩ := h1 hpe
      simp only [LogFile.writeAll, LogFile.write, hm1, Res.bind] at hw
      exact ih ⟨hpe, hm2⟩ hw
    · have h2 := h2 hpe
      cases hm : lf.mem.write e with
      | ok m => rw [hm] at h2; simp [Res.isPanic] at h2
      | err m => rw [hm] at h2; simp [Res.isPanic] at h2
      | panic m => simp [LogFile.writeAll, LogFile.write, hm, Res.bind] at hw

theorem Spec.Consistent.open {es : List LogEntry} {dir : String} {lf : LogFile} (h : LogFile.open es dir = .ok lf) :
    Consistent lf := by
  obtain ⟨st, h1, h2⟩ := loadRuncounts_ok_iff.1 (open_ok_iff.1 h).1
  have hinv := loadInv_loop es [] _ st loadInv_init h1
  have he := (open_ok_iff.1 h).2.1
  exact ⟨by rw [he]; exact hinv.protocol, fun k => by rw [he, ← h2]; exact hinv.status k⟩

end Verif
