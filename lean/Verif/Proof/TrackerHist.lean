import Verif.Proof.TrackerStep2

/-!
# What a run has obtained, processed and logged so far
-/

namespace Verif.Tracker
open Verif
open scoped List

/-- `e` is a Started or Finished entry of key `k`. -/
def closerOf (k : String) : LogEntry → Bool
  | .started s => s.key == k
  | .finished f => f.key == k
  | _ => false

/-- The entries `new` written by this execute: Ready entries of the tasks made ready, Finished entries of the tasks
processed, each Started entry after the success entries of its dependencies. -/
structure NewOk (g : DiGraph Cmd) (new : List LogEntry) (made : List Nat) (closed : List (Nat × ExitStatus))
    (cur : Option Nat) : Prop where
  ready : readyKeys new = made.map (fun v => (cmdOf g v).key)
  fin : finList new = (closed.filter (fun x => decide (cur ≠ some x.1))).map (fun x => ((cmdOf g x.1).key, x.2.asI32))
  start : ∀ (i : Nat) (e : StartedEntry), new[i]? = some (.started e) → ∀ v u, g.Dep u v → (cmdOf g v).key = e.key →
    ∃ (j : Nat) (f : FinishedEntry), j < i ∧ new[j]? = some (.finished f) ∧ f.key = (cmdOf g u).key ∧ f.status = 0
  kind : ∀ e ∈ new, Spec.isReady e ∨ Spec.isStarted e ∨ Spec.isFinished e
  rdy : ∀ r, LogEntry.ready r ∈ new → ∃ v ∈ made, r.key = (cmdOf g v).key ∧ r.runcount = (cmdOf g v).runcount ∧
    r.storageRoot = (cmdOf g v).storageRoot
  after : ∀ (i : Nat) (e : LogEntry) (k : String), new[i]? = some e → closerOf k e = true →
    ∃ (j : Nat) (r : ReadyEntry), j < i ∧ new[j]? = some (.ready r) ∧ r.key = k

/-- The log is that of the start plus good entries. -/
def LogOk (c : Cfg) (lf0 : LogFile) (s : State) (cur : Option Nat) : Prop :=
  ∃ new, lf0.writeAll new = .ok s.lf ∧ s.lf.entries = lf0.entries ++ new ∧
    NewOk c.g new (owners s.flags) (s.processed ++ s.drained) cur

theorem asI32_zero {st : ExitStatus} (h : st.isSuccess = true) : st.asI32 = 0 := by
  have := asI32_eq st
  rw [h] at this
  simpa using this

section
variable {g : DiGraph Cmd} {new : List LogEntry} {made : List Nat} {closed : List (Nat × ExitStatus)} {cur : Option Nat}

theorem NewOk.mem_fin (h : NewOk g new made closed cur) {u : Nat} (hu : u ∈ okIds closed) (hc : cur ≠ some u) :
    ∃ (j : Nat) (f : FinishedEntry), new[j]? = some (.finished f) ∧ f.key = (cmdOf g u).key ∧ f.status = 0 := by
  obtain ⟨st, h1, h2⟩ := mem_okIds.1 hu
  have hm : ((cmdOf g u).key, (0 : Int)) ∈ finList new := by
    rw [h.fin]
    refine List.mem_map.2 ⟨(u, st), List.mem_filter.2 ⟨h1, by simpa using hc⟩, ?_⟩
    simp [asI32_zero h2]
  obtain ⟨e, h3, h4⟩ := List.mem_filterMap.1 hm
  obtain ⟨j, hj⟩ := List.getElem?_of_mem h3
  cases e with
  | finished f =>
    simp only [finOf?, Option.some.injEq, Prod.mk.injEq] at h4
    exact ⟨j, f, hj, h4.1, h4.2⟩
  | header _ => simp [finOf?] at h4
  | ready _ => simp [finOf?] at h4
  | started _ => simp [finOf?] at h4
  | backref _ => simp [finOf?] at h4

/-- Appending entries that contain no Started entry. -/
theorem start_append {new more : List LogEntry}
    (h : ∀ (i : Nat) (e : StartedEntry), new[i]? = some (.started e) → ∀ v u, g.Dep u v → (cmdOf g v).key = e.key →
      ∃ (j : Nat) (f : FinishedEntry), j < i ∧ new[j]? = some (.finished f) ∧ f.key = (cmdOf g u).key ∧ f.status = 0)
    (hm : ∀ e ∈ more, Spec.isStarted e = true → ∀ s, e = .started s → ∀ v u, g.Dep u v → (cmdOf g v).key = s.key →
      ∃ (j : Nat) (f : FinishedEntry), new[j]? = some (.finished f) ∧ f.key = (cmdOf g u).key ∧ f.status = 0) :
    ∀ (i : Nat) (e : StartedEntry), (new ++ more)[i]? = some (.started e) → ∀ v u, g.Dep u v → (cmdOf g v).key = e.key →
      ∃ (j : Nat) (f : FinishedEntry), j < i ∧ (new ++ more)[j]? = some (.finished f) ∧ f.key = (cmdOf g u).key ∧ f.status = 0 := by
  intro i e hi v u hd hk
  by_cases hlt : i < new.length
  · rw [List.getElem?_append_left hlt] at hi
    obtain ⟨j, f, h1, h2, h3, h4⟩ := h i e hi v u hd hk
    exact ⟨j, f, h1, by rw [List.getElem?_append_left (by omega)]; exact h2, h3, h4⟩
  · rw [List.getElem?_append_right (by omega)] at hi
    obtain ⟨j, f, h2, h3, h4⟩ := hm _ (List.mem_of_getElem? hi) rfl e rfl v u hd hk
    have hj := (List.getElem?_eq_some_iff.1 h2).1
    exact ⟨j, f, by omega, by rw [List.getElem?_append_left hj]; exact h2, h3, h4⟩

/-- Appending entries: the Started and Finished ones come after a Ready entry. -/
theorem after_append {new more : List LogEntry} {keys : List String} (hk : readyKeys new = keys)
    (h : ∀ (i : Nat) (e : LogEntry) (k : String), new[i]? = some e → closerOf k e = true →
      ∃ (j : Nat) (r : ReadyEntry), j < i ∧ new[j]? = some (.ready r) ∧ r.key = k)
    (hm : ∀ e ∈ more, ∀ k, closerOf k e = true → k ∈ keys) :
    ∀ (i : Nat) (e : LogEntry) (k : String), (new ++ more)[i]? = some e → closerOf k e = true →
      ∃ (j : Nat) (r : ReadyEntry), j < i ∧ (new ++ more)[j]? = some (.ready r) ∧ r.key = k := by
  intro i e k hi hc
  by_cases hlt : i < new.length
  · rw [List.getElem?_append_left hlt] at hi
    obtain ⟨j, f, h1, h2, h3⟩ := h i e k hi hc
    exact ⟨j, f, h1, by rw [List.getElem?_append_left (by omega)]; exact h2, h3⟩
  · rw [List.getElem?_append_right (by omega)] at hi
    have hmem := hm e (List.mem_of_getElem? hi) k hc
    rw [← hk] at hmem
    obtain ⟨x, hx, hxk⟩ := List.mem_filterMap.1 hmem
    cases x with
    | ready r =>
      simp only [readyKey?, Option.some.injEq] at hxk
      obtain ⟨j, hj⟩ := List.getElem?_of_mem hx
      have hjl := (List.getElem?_eq_some_iff.1 hj).1
      exact ⟨j, r, by omega, by rw [List.getElem?_append_left hjl]; exact hj, hxk⟩
    | header _ => simp [readyKey?] at hxk
    | started _ => simp [readyKey?] at hxk
    | finished _ => simp [readyKey?] at hxk
    | backref _ => simp [readyKey?] at hxk

theorem readyKeys_append (a b : List LogEntry) : readyKeys (a ++ b) = readyKeys a ++ readyKeys b :=
  List.filterMap_append
theorem finList_append (a b : List LogEntry) : finList (a ++ b) = finList a ++ finList b := List.filterMap_append

theorem NewOk.addReady (h : NewOk g new made closed cur) (t : SysTime) (vs : List Nat) :
    NewOk g (new ++ vs.map (readyEntry g t)) (made ++ vs) closed cur := by
  have h1 : readyKeys (vs.map (readyEntry g t)) = vs.map (fun v => (cmdOf g v).key) := by
    induction vs with
    | nil => rfl
    | cons v vs ih => simp only [readyKeys, List.map_cons] at ih ⊢; rw [List.filterMap_cons_some (f := readyKey?) (b := (cmdOf g v).key) rfl, ih]
  have h2 : finList (vs.map (readyEntry g t)) = [] := by
    rw [finList, List.filterMap_eq_nil_iff]
    intro e he
    obtain ⟨v, _, rfl⟩ := List.mem_map.1 he
    rfl
  refine ⟨?_, ?_, ?_, ?_, ?_, ?_⟩
  · rw [readyKeys_append, h.ready, h1, List.map_append]
  · rw [finList_append, h2, List.append_nil, h.fin]
  · apply start_append h.start
    intro e he hs
    obtain ⟨v, _, rfl⟩ := List.mem_map.1 he
    simp [readyEntry, Spec.isStarted] at hs
  · intro e he
    rcases List.mem_append.1 he with he | he
    · exact h.kind e he
    · obtain ⟨v, _, rfl⟩ := List.mem_map.1 he
      exact .inl rfl
  · intro r hr
    rcases List.mem_append.1 hr with hr | hr
    · obtain ⟨v, hv, h3⟩ := h.rdy r hr
      exact ⟨v, List.mem_append_left _ hv, h3⟩
    · obtain ⟨v, hv, h3⟩ := List.mem_map.1 hr
      simp only [readyEntry, LogEntry.ready.injEq] at h3
      subst h3
      exact ⟨v, List.mem_append_right _ hv, rfl, rfl, rfl⟩
  · refine after_append h.ready h.after ?_
    intro e he k hk
    obtain ⟨v, _, rfl⟩ := List.mem_map.1 he
    simp [readyEntry, closerOf] at hk

/-- Writing a Started entry. -/
theorem NewOk.started (h : NewOk g new made closed cur) {e : StartedEntry}
    (hd : ∀ v u, g.Dep u v → (cmdOf g v).key = e.key → u ∈ okIds closed ∧ cur ≠ some u)
    (hmk : ∃ v ∈ made, (cmdOf g v).key = e.key) :
    NewOk g (new ++ [.started e]) made closed cur := by
  refine ⟨?_, ?_, ?_, ?_, ?_, ?_⟩
  · rw [readyKeys_append, h.ready]; simp [readyKeys, readyKey?]
  · rw [finList_append, h.fin]; simp [finList, finOf?]
  · apply start_append h.start
    intro x hx _ s hs v u hdep hk
    simp only [List.mem_singleton] at hx
    subst hx
    simp only [LogEntry.started.injEq] at hs
    subst hs
    obtain ⟨h1, h2⟩ := hd v u hdep hk
    exact h.mem_fin h1 h2
  · intro x hx
    rcases List.mem_append.1 hx with hx | hx
    · exact h.kind x hx
    · simp only [List.mem_singleton] at hx; subst hx; exact .inr (.inl rfl)
  · intro r hr
    rcases List.mem_append.1 hr with hr | hr
    · exact h.rdy r hr
    · simp at hr
  · refine after_append h.ready h.after ?_
    intro x hx k hk
    simp only [List.mem_singleton] at hx
    subst hx
    simp only [closerOf, beq_iff_eq] at hk
    obtain ⟨v, hv, he⟩ := hmk
    exact List.mem_map.2 ⟨v, hv, he.trans hk⟩

/-- A finish is taken from the channel. -/
theorem NewOk.take (h : NewOk g new made closed none) {x : Nat × ExitStatus} (hx : x.1 ∉ closed.map (·.1)) :
    NewOk g new made (closed ++ [x]) (some x.1) := by
  refine ⟨h.ready, ?_, ?_, h.kind, h.rdy, h.after⟩
  · rw [h.fin]
    congr 1
    rw [List.filter_append]
    have h1 : closed.filter (fun y => decide (none ≠ some y.1)) = closed := by
      apply List.filter_eq_self.2; simp
    have h2 : closed.filter (fun y => decide (some x.1 ≠ some y.1)) = closed := by
      apply List.filter_eq_self.2
      intro y hy
      simp only [ne_eq, Option.some.injEq, decide_eq_true_eq]
      intro e; exact hx (List.mem_map.2 ⟨y, hy, e.symm⟩)
    rw [h1, h2]
    simp
  · exact h.start

/-- Its Finished entry is written. -/
theorem NewOk.finished {l : List (Nat × ExitStatus)} {v : Nat} {st : ExitStatus} (h : NewOk g new made (l ++ [(v, st)]) (some v))
    (hx : v ∉ l.map (·.1)) {f : FinishedEntry} (hk : f.key = (cmdOf g v).key) (hs : f.status = st.asI32)
    (hv : v ∈ made) : NewOk g (new ++ [.finished f]) made (l ++ [(v, st)]) none := by
  refine ⟨?_, ?_, ?_, ?_, ?_, ?_⟩
  · rw [readyKeys_append, h.ready]; simp [readyKeys, readyKey?]
  · rw [finList_append, h.fin, List.filter_append]
    have h2 : l.filter (fun y => decide (some v ≠ some y.1)) = l := by
      apply List.filter_eq_self.2
      intro y hy
      simp only [ne_eq, Option.some.injEq, decide_eq_true_eq]
      intro e; exact hx (List.mem_map.2 ⟨y, hy, e.symm⟩)
    rw [h2]
    simp [finList, finOf?, hk, hs]
  · apply start_append h.start
    intro x hx' hs'
    simp only [List.mem_singleton] at hx'
    subst hx'
    simp [Spec.isStarted] at hs'
  · intro x hx'
    rcases List.mem_append.1 hx' with hx' | hx'
    · exact h.kind x hx'
    · simp only [List.mem_singleton] at hx'; subst hx'; exact .inr (.inr rfl)
  · intro r hr
    rcases List.mem_append.1 hr with hr | hr
    · exact h.rdy r hr
    · simp at hr
  · refine after_append h.ready h.after ?_
    intro x hx' k hk'
    simp only [List.mem_singleton] at hx'
    subst hx'
    simp only [closerOf, beq_iff_eq] at hk'
    exact List.mem_map.2 ⟨v, hv, hk.symm.trans hk'⟩

theorem NewOk.finEntries {c : Cfg} {l : List (Nat × ExitStatus)} {e : Fin}
    (h : NewOk c.g new made (l ++ [(e.id, e.status)]) (some e.id)) (hx : e.id ∉ l.map (·.1)) (t : SysTime) (b : Bool)
    (hd : ∀ v u, c.g.Dep u v → (cmdOf c.g v).key = (cmdOf c.g e.id).key → u ∈ okIds l) (hm : e.id ∈ made) :
    NewOk c.g (new ++ finEntries c t e b) made (l ++ [(e.id, e.status)]) none := by
  have hsub : ∀ v u, c.g.Dep u v → (cmdOf c.g v).key = (cmdOf c.g e.id).key →
      u ∈ okIds (l ++ [(e.id, e.status)]) ∧ some e.id ≠ some u := by
    intro v u h1 h2
    have h3 := hd v u h1 h2
    refine ⟨by rw [okIds_snoc]; exact List.mem_append_left _ h3, ?_⟩
    intro h4
    simp only [Option.some.injEq] at h4
    obtain ⟨st, h5, _⟩ := mem_okIds.1 h3
    exact hx (List.mem_map.2 ⟨_, h5, h4.symm⟩)
  cases b with
  | true =>
    simp only [Tracker.finEntries, if_true, List.nil_append]
    exact h.finished hx rfl rfl hm
  | false =>
    simp only [Tracker.finEntries, Bool.false_eq_true, if_false]
    rw [← List.append_assoc]
    exact (h.started hsub ⟨_, hm, rfl⟩).finished hx rfl rfl hm
end

/-- The log after a Started entry of a task that was Ready. -/
def startedLog (lf : LogFile) (e : StartedEntry) (a b : Nat) : LogFile where
  mem := { lf.mem with runcounts := lf.mem.runcounts.set e.key (.started a b) }
  entries := lf.entries ++ [.started e]
  dir := lf.dir

theorem started_write {lf : LogFile} {e : StartedEntry} {a b : Nat} (h : lf.mem.runcounts e.key = some (.ready a b)) :
    lf.write (.started e) = .ok (startedLog lf e a b) := by
  simp only [LogFile.write, LogMem.write, h, Res.bind, startedLog]

/-- The log after a Finished entry of a task that was Started. -/
def finishedLog (lf : LogFile) (e : FinishedEntry) (a b : Nat) : LogFile where
  mem := { lf.mem with runcounts := lf.mem.runcounts.set e.key (.finished a b (e.status == 0)) }
  entries := lf.entries ++ [.finished e]
  dir := lf.dir

theorem finished_write {lf : LogFile} {e : FinishedEntry} {a b : Nat} (h : lf.mem.runcounts e.key = some (.started a b)) :
    lf.write (.finished e) = .ok (finishedLog lf e a b) := by
  simp only [LogFile.write, LogMem.write, h, Res.bind, finishedLog]

theorem readyLog_writeAll (g : DiGraph Cmd) (t : SysTime) : ∀ (vs : List Nat) (lf : LogFile),
    lf.writeAll (vs.map (readyEntry g t)) = .ok (readyLog g t lf vs) := by
  intro vs
  induction vs with
  | nil => intro lf; simp [LogFile.writeAll, readyLog]
  | cons v vs ih =>
    intro lf
    simp only [List.map_cons, LogFile.writeAll]
    rw [show lf.write (readyEntry g t v) = _ from ready_write lf _]
    simp only [Res.bind]
    rw [ih]
    simp [readyLog, readyEntry]

theorem writeAll_trans {lf0 lf1 lf2 : LogFile} {a b : List LogEntry} (h1 : lf0.writeAll a = .ok lf1)
    (h2 : lf1.writeAll b = .ok lf2) : lf0.writeAll (a ++ b) = .ok lf2 := by
  rw [writeAll_snoc, h1]; exact h2

/-- What has been obtained and processed. -/
structure Past (c : Cfg) (s : State) : Prop where
  obt : s.obtained.map (·.2) ~ s.held ++ s.lost ++ finIds s.chan ++ s.processed.map (·.1) ++ s.drained.map (·.1)
  aff : ∀ x ∈ s.obtained, (cmdOf c.g x.2).affinity.getLsbD x.1 = true
  topo : ∀ l x r, s.processed = l ++ x :: r → ∀ u, c.g.Dep u x.1 → u ∈ okIds l

structure Hist (c : Cfg) (lf0 : LogFile) (s : State) : Prop where
  past : Past c s
  log : LogOk c lf0 s (curOf s.pc)
  atDone : s.pc = .done → s.chan = [] ∧ s.inflight = []
  undrained : s.pc ≠ .done → s.drained = []
  curLast : ∀ t e, s.pc = .sending t (some e) → ∃ l, s.processed = l ++ [(e.id, e.status)]

theorem hist_init (c : Cfg) (lf : LogFile) (now : Int) : Hist c lf (init c lf now) := by
  refine ⟨⟨by simp [init], by simp [init], by simp [init]⟩, ⟨[], rfl, by simp [init], ?_⟩, by simp [init], by simp [init], by simp [init]⟩
  exact ⟨by simp [init, owners, readyKeys], by simp [init, finList], by simp, by simp, by simp, by simp⟩

variable {c : Cfg} {lf0 : LogFile} {s s' : State}

/-- The parts concerning the log only look at these fields. -/
theorem LogOk.congr {cur : Option Nat} (h : LogOk c lf0 s cur) (h1 : s'.lf = s.lf) (h2 : owners s'.flags = owners s.flags)
    (h3 : s'.processed = s.processed) (h4 : s'.drained = s.drained) : LogOk c lf0 s' cur := by
  obtain ⟨new, a, b, d⟩ := h
  exact ⟨new, by rw [h1]; exact a, by rw [h1]; exact b, by rw [h2, h3, h4]; exact d⟩

theorem topo_snoc {g : DiGraph Cmd} {p : List (Nat × ExitStatus)} {y : Nat × ExitStatus}
    (h : ∀ l x r, p = l ++ x :: r → ∀ u, g.Dep u x.1 → u ∈ okIds l) (hy : ∀ u, g.Dep u y.1 → u ∈ okIds p) :
    ∀ l x r, p ++ [y] = l ++ x :: r → ∀ u, g.Dep u x.1 → u ∈ okIds l := by
  intro l x r e u hu
  rcases List.eq_nil_or_concat r with hr | ⟨r', z, hr⟩
  · subst hr
    have e' := List.append_inj' e rfl
    obtain ⟨e1, e2⟩ := e'
    simp only [List.cons.injEq, and_true] at e2
    subst e1 e2
    exact hy u hu
  · subst hr
    rw [List.concat_eq_append, ← List.cons_append, ← List.append_assoc] at e
    have e' := List.append_inj' e rfl
    exact h l x r' e'.1 u hu

/-- `finishHalf` and the log. -/
theorem hist_finishHalf {rc0 : StrMap RuncountStatus} (hg : Good c) {e : Fin} (hm : Mid c rc0 s e) (hpast : Past c s)
    (hl : LogOk c lf0 s (some e.id)) (hlast : ∃ l, s.processed = l ++ [(e.id, e.status)]) (hdr : s.drained = [])
    {t : SysTime} (hs : finishHalf c t s e = .ok s') : Hist c lf0 s' := by
  obtain ⟨lf, hw, hexit, hstay⟩ := finishHalf_ok hs
  obtain ⟨l, hl'⟩ := hlast
  obtain ⟨lf', hw', hen, _, _⟩ := logged hg (hm.core.place hg) hm.tr (List.mem_append_left _ hm.proc) t
  rw [hw] at hw'
  simp only [Res.ok.injEq] at hw'
  subst hw'
  obtain ⟨new, n1, n2, n3⟩ := hl
  have hnd : (s.processed.map (·.1)).Nodup := by
    have := hm.core.all_nodup
    rw [List.nodup_append, List.nodup_append] at this
    exact this.1.2.1
  have hnot : e.id ∉ l.map (·.1) := by
    rw [hl', List.map_append, List.nodup_append] at hnd
    intro h1
    exact hnd.2.2 e.id h1 e.id (by simp) rfl
  have hlt : e.id < c.g.n :=
    hm.core.deps.lt _ ((hm.core.place hg).inMade _ (List.mem_append_right _ (List.mem_map.2 ⟨_, List.mem_append_left _ hm.proc, rfl⟩)))
  have hlog : LogOk c lf0 (finLogged c s e lf) none := by
    refine LogOk.congr (s := { s with lf := lf }) ?_ ?_ ?_ ?_ ?_
    · refine ⟨new ++ finEntries c t e (s.inflight.lookup e.id).isSome, writeAll_trans n1 hw, ?_, ?_⟩
      · simp only [hen, n2, List.append_assoc]
      · simp only [hdr, List.append_nil] at n3 ⊢
        rw [hl'] at n3 ⊢
        refine n3.finEntries hnot t _ ?_ ((hm.core.place hg).inMade _ (List.mem_append_right _ (List.mem_map.2 ⟨_, List.mem_append_left _ hm.proc, rfl⟩)))
        intro v u hd hk
        have hv : v = e.id := hg.keyInj (hg.wf _ hd).2 hlt hk
        subst hv
        exact hpast.topo l (e.id, e.status) [] hl' u hd
    all_goals (unfold finLogged; simp only; split <;> rfl)
  have hf : (finLogged c s e lf).obtained = s.obtained ∧ (finLogged c s e lf).held = s.held ∧
      (finLogged c s e lf).lost = s.lost ∧ (finLogged c s e lf).chan = s.chan ∧
      (finLogged c s e lf).processed = s.processed ∧ (finLogged c s e lf).drained = s.drained := by
    unfold finLogged; simp only; split <;> exact ⟨rfl, rfl, rfl, rfl, rfl, rfl⟩
  generalize finLogged c s e lf = s2 at hlog hexit hstay hf
  obtain ⟨f1, f2, f3, f4, f5, f6⟩ := hf
  have hpast2 : Past c s2 :=
    ⟨by rw [f1, f2, f3, f4, f5, f6]; exact hpast.obt, by rw [f1]; exact hpast.aff, by rw [f5]; exact hpast.topo⟩
  by_cases hx : s2.nRoi = 0 ∨ s2.soft = true ∧ s2.inflight = []
  · rw [hexit hx]
    refine ⟨⟨hpast2.obt, hpast2.aff, hpast2.topo⟩, hlog.congr rfl rfl rfl rfl, ?_, fun _ => by simp [leaveLoop, zeroReady, f6, hdr], ?_⟩
    · intro h; simp [leaveLoop, zeroReady] at h
    · intro _ _ h; simp [leaveLoop, zeroReady] at h
  · rw [hstay hx]
    refine ⟨⟨hpast2.obt, hpast2.aff, hpast2.topo⟩, hlog.congr rfl rfl rfl rfl, by simp, fun _ => by simp [f6, hdr], by simp⟩

theorem hist_handleFinished {rc0 : StrMap RuncountStatus} (hg : Good c) (h : Inv c rc0 s) (hh : Hist c lf0 s)
    (hpc : s.pc = .idle) {e : Fin} {rest : List Event} (hch : s.chan = .finished e :: rest) {t : SysTime} {order : List Nat}
    (hs : handleFinished c t order { s with chan := rest } e = .ok s') : Hist c lf0 s' := by
  have hcore : Core c s true [] := by have := h.core; rw [hpc] at this; exact this
  have htr : TrS c rc0 s (s.inflight.map (·.1)) none := by have := h.tr; rw [hpc] at this; exact this
  have hshape := h.shape
  rw [hpc] at hshape
  have hlog := hh.log
  rw [hpc] at hlog
  have hdr0 := hh.undrained (by rw [hpc]; simp)
  have hs0 := hs
  unfold handleFinished at hs
  obtain ⟨s1, hb, hs⟩ := Res.bind_ok.1 hs
  obtain ⟨hlt, sn, hq, h0, es1⟩ := book1_ok hb
  simp only at hq
  obtain ⟨p1, p2, p3, p4, p5, _⟩ := booked_parts hg hcore htr hch hq false rfl es1
  have hproc : (e.id, e.status) ∈ s1.processed := by rw [es1]; simp [booked]
  have hinf : s1.inflight = s.inflight := by rw [es1]; rfl
  have hsoft1 : s1.soft = s.soft := by rw [es1]; rfl
  have hro1 : s1.readyOpen = s.readyOpen := by rw [es1]; rfl
  have hsr : s1.soft = true ↔ s1.readyOpen = false := by
    rw [hsoft1, hro1]
    exact ⟨hshape.softClosed, fun h1 => (hshape.closedIf h1).resolve_right (by simp [ended])⟩
  rw [← hinf] at p4
  have hitems : Items c.g s1.flags s1.queues s1.popped s1.claimed [] := by rw [es1]; exact hcore.items
  have hfl : s1.flags = s.flags := by rw [es1]; rfl
  have hpr : s1.processed = s.processed ++ [(e.id, e.status)] := by rw [es1]; rfl
  have hum : s1.unmet = s.unmet := by rw [es1]; rfl
  have hpo : s1.poisoned = s.poisoned := by rw [es1]; rfl
  have hdr : s1.drained = s.drained := by rw [es1]; rfl
  have hlf : s1.lf = s.lf := by rw [es1]; rfl
  have hdeps := hcore.deps
  have hemade : e.id ∈ owners s.flags := by
    have hb : e.id ∈ s.held ++ s.lost ++ finIds s.chan := by rw [hch]; simp
    exact hcore.qs.sub _ (List.mem_append_right _ hb)
  have hpast1 : Past c s1 := by
    have ho := hh.past.obt
    rw [hch] at ho
    refine ⟨?_, ?_, ?_⟩
    · have e1 : s1.obtained = s.obtained ∧ s1.held = s.held ∧ s1.lost = s.lost ∧ s1.chan = rest := by
        rw [es1]; exact ⟨rfl, rfl, rfl, rfl⟩
      rw [e1.1, e1.2.1, e1.2.2.1, e1.2.2.2, hpr, hdr]
      refine ho.trans ?_
      rw [List.perm_iff_count]
      intro v
      simp only [finIds_fin, List.count_append, List.count_cons, List.map_append, List.map_cons, List.map_nil, List.count_nil]
      omega
    · have : s1.obtained = s.obtained := by rw [es1]; rfl
      rw [this]; exact hh.past.aff
    · rw [hpr]
      exact topo_snoc hh.past.topo (fun u hu => hdeps.met _ hemade u hu)
  have hlog1 : LogOk c lf0 s1 (some e.id) := by
    obtain ⟨new, n1, n2, n3⟩ := hlog
    refine ⟨new, by rw [hlf]; exact n1, by rw [hlf]; exact n2, ?_⟩
    rw [hfl, hpr, hdr, hdr0, List.append_nil]
    rw [hdr0, List.append_nil] at n3
    exact n3.take p5
  have hlast1 : ∃ l, s1.processed = l ++ [(e.id, e.status)] := ⟨_, hpr⟩
  have hdr1 : s1.drained = [] := by rw [hdr, hdr0]
  by_cases hsf : s1.soft = true
  · rw [if_pos hsf] at hs
    rw [if_neg (by simp [hsr.1 hsf])] at hs
    refine hist_finishHalf (rc0 := rc0) hg ⟨⟨p1, hitems, ?_, p2, p3⟩, p4, hproc, hsr⟩ hpast1 hlog1 hlast1 hdr1 hs
    rw [hfl, hpr, hum, hpo, hsf]
    rw [hsoft1] at hsf
    rw [hsf] at hdeps
    exact hdeps.finSoft rfl _
  · simp only [Bool.not_eq_true] at hsf
    rw [if_neg (by simp [hsf])] at hs
    have hsf' : s.soft = false := by rw [← hsoft1]; exact hsf
    rw [hsf'] at hdeps
    by_cases hperm : order.isPerm (c.g.succs e.id) = false
    · rw [if_pos hperm] at hs; cases hs
    · rw [if_neg hperm] at hs
      simp only [Bool.not_eq_false] at hperm
      have hperm := List.isPerm_iff.1 hperm
      obtain ⟨r, hr, hs⟩ := Res.bind_ok.1 hs
      have hndp : (s.processed.map (·.1)).Nodup := by
        have := hcore.all_nodup
        rw [List.nodup_append, List.nodup_append] at this
        exact this.1.2.1
      by_cases hemp : r.2.2.isEmpty = true
      · rw [if_pos hemp] at hs
        have hemp' : r.2.2 = [] := by simpa using hemp
        refine hist_finishHalf (s := { s1 with unmet := r.1, poisoned := r.2.1 }) (rc0 := rc0) hg
          ⟨⟨p1, hitems, ?_, p2, p3⟩, p4, hproc, hsr⟩ ⟨hpast1.obt, hpast1.aff, hpast1.topo⟩ (hlog1.congr rfl rfl rfl rfl)
          hlast1 hdr1 hs
        simp only [hfl, hpr, hsf]
        rw [hum, hpo] at hr
        cases hst : e.status.isSuccess with
        | true =>
          rw [hst] at hr
          have := (hdeps.finOk hg.wf hst p5 hndp hperm hr).1
          rwa [hemp', List.append_nil] at this
        | false =>
          rw [hst] at hr
          obtain ⟨p, h1, h2⟩ := statusLoop_fail (o := order) (unmet := s.unmet) (poisoned := s.poisoned) (ready := [])
          rw [h1] at hr
          simp only [Res.ok.injEq] at hr
          subst hr
          refine hdeps.finFail hst (fun v => ?_)
          simp only
          rw [h2 v]; congr 1; rw [decide_eq_decide]; exact hperm.mem_iff
      · rw [if_neg hemp] at hs
        obtain ⟨a1, a2, a3, a4, a5⟩ := addReady_ok hs
        simp only at a5
        subst a5
        refine ⟨⟨hpast1.obt, hpast1.aff, hpast1.topo⟩, ?_, by simp, fun _ => hdr1, ?_⟩
        · obtain ⟨new, n1, n2, n3⟩ := hlog1
          refine ⟨new ++ r.2.2.map (readyEntry c.g t), writeAll_trans n1 (readyLog_writeAll _ _ _ _), ?_, ?_⟩
          · simp only [readyLog, n2, List.append_assoc]
          · simp only [owners_append, owners_fresh]
            exact n3.addReady t _
        · intro _ e' hh'
          simp only [Pc.sending.injEq, Option.some.injEq] at hh'
          rw [← hh'.2]; exact hlast1

theorem drainLoop_hist {rc0 : StrMap RuncountStatus} (hg : Good c) (t : SysTime) :
    ∀ (es : List Event) (s : State) (infl : List (Nat × Int)),
    s.chan = es → Core c s true [] → TrS c rc0 s (infl.map (·.1)) none → Past c s → LogOk c lf0 s none →
    ∀ s' infl', drainLoop c t es infl s = .ok (s', infl') → Past c s' ∧ LogOk c lf0 s' none := by
  intro es
  induction es with
  | nil =>
    intro s infl hch hc ht hp hl s' infl' hs
    simp only [drainLoop, Res.ok.injEq, Prod.mk.injEq] at hs
    obtain ⟨hs, _⟩ := hs
    have : { s with chan := [] } = s := by rw [← hch]
    rw [this] at hs
    subst hs
    exact ⟨hp, hl⟩
  | cons ev es ih =>
    intro s infl hch hc ht hp hl s' infl' hs
    cases ev with
    | started id ho p j =>
      have hpl := hc.place hg
      have ht0 := ht
      unfold TrS at ht
      rw [hch] at ht hpl
      obtain ⟨h1, h2, h3⟩ := ht.recvStarted hpl
      have hl' : infl.lookup id = none := by
        have : (infl.lookup id).isSome = false := by rw [lookup_isSome]; simpa using h1
        simpa using this
      have hmade : id ∈ owners s.flags := by
        have := ht.startOpen id (by simp)
        exact hpl.inMade _ (List.mem_append_left _ this)
      have hlt := hc.deps.lt _ hmade
      have hwr : s.lf.write (.started ⟨t, (cmdOf c.g id).key, "host", 0, ""⟩) =
          .ok (startedLog s.lf ⟨t, (cmdOf c.g id).key, "host", 0, ""⟩ (cmdOf c.g id).runcount (cmdOf c.g id).storageRoot) :=
        started_write h2
      simp only [drainLoop, writeLog, hwr, Res.bind, hl', Option.isSome_none, Bool.false_eq_true, if_false] at hs
      refine ih _ _ rfl ?_ ?_ ?_ ?_ s' infl' hs
      · refine ⟨?_, hc.items, hc.deps, ?_, hc.cnt⟩
        · intro w
          have := hc.acct w
          rw [hch] at this
          exact this
        · have := hc.qs
          rw [hch] at this
          exact this
      · exact h3
      · have := hp.obt
        rw [hch] at this
        exact ⟨this, hp.aff, hp.topo⟩
      · obtain ⟨new, n1, n2, n3⟩ := hl
        refine ⟨new ++ [.started ⟨t, (cmdOf c.g id).key, "host", 0, ""⟩], writeAll_trans n1 ?_, ?_, ?_⟩
        · simp only [LogFile.writeAll, hwr, Res.bind]
        · simp only [n2, List.append_assoc, startedLog, finishedLog]
        · refine n3.started ?_ ⟨id, hmade, rfl⟩
          intro v u hd hk
          have hv : v = id := hg.keyInj (hg.wf _ hd).2 hlt hk
          subst hv
          have := hc.deps.met _ hmade u hd
          refine ⟨?_, by simp⟩
          obtain ⟨st, m1, m2⟩ := mem_okIds.1 this
          exact mem_okIds.2 ⟨st, List.mem_append_left _ m1, m2⟩
    | finished e =>
      obtain ⟨sn, lf, hq, hne, hlt, hw, hen, k1, k2⟩ := drain_fin hg hc ht hch t
      simp only [drainLoop] at hs
      rw [book1_total (s := { s with chan := es }) hlt hq hne] at hs
      simp only [Res.bind] at hs
      have hw' : (booked c.g { s with chan := es } e sn).lf.writeAll (finEntries c t e (infl.lookup e.id).isSome) = .ok lf :=
        hw
      have := write2 (k := fun s => drainLoop c t es (infl.filter (fun x => x.1 != e.id))
            { s with drained := s.drained ++ [(e.id, e.status)] }) hw'
      simp only [Res.bind] at this
      rw [this] at hs
      have hb : e.id ∈ s.held ++ s.lost ++ finIds s.chan := by rw [hch]; simp
      have hmade : e.id ∈ owners s.flags := hc.qs.sub _ (List.mem_append_right _ hb)
      refine ih _ _ rfl k1 k2 ?_ ?_ s' infl' hs
      · refine ⟨?_, hp.aff, hp.topo⟩
        have ho := hp.obt
        rw [hch] at ho
        refine ho.trans ?_
        rw [List.perm_iff_count]
        intro v
        simp only [finIds_fin, List.count_append, List.count_cons, List.map_append, List.map_cons, List.map_nil,
          List.count_nil, booked]
        omega
      · obtain ⟨new, n1, n2, n3⟩ := hl
        refine ⟨new ++ finEntries c t e (infl.lookup e.id).isSome, writeAll_trans n1 hw, ?_, ?_⟩
        · simp only [hen, n2, List.append_assoc]
        · have hnot : e.id ∉ (s.processed ++ s.drained).map (·.1) := by
            have hnd := hc.all_nodup
            rw [hch] at hnd
            rw [List.nodup_append, List.nodup_append] at hnd
            intro hm
            rw [List.map_append, List.mem_append] at hm
            rcases hm with hm | hm
            · exact hnd.1.2.2 e.id (by simp) e.id hm rfl
            · exact hnd.2.2 e.id (by simp) e.id hm rfl
          simp only [booked]
          rw [← List.append_assoc]
          refine (n3.take (x := (e.id, e.status)) hnot).finEntries hnot t _ ?_ hmade
          intro v u hd hk
          have hv : v = e.id := hg.keyInj (hg.wf _ hd).2 hlt hk
          subst hv
          obtain ⟨st, m1, m2⟩ := mem_okIds.1 (hc.deps.met _ hmade u hd)
          exact mem_okIds.2 ⟨st, List.mem_append_left _ m1, m2⟩

theorem drainRest_hist {rc0 : StrMap RuncountStatus} (hg : Good c) (t : SysTime) : ∀ (vs : List Nat) (s : State),
    s.chan = [] → Core c s true [] → TrS c rc0 s vs none → Past c s → LogOk c lf0 s none →
    ∀ s', drainRest c t vs s = .ok s' → Past c s' ∧ LogOk c lf0 s' none := by
  intro vs
  induction vs with
  | nil =>
    intro s hch hc ht hp hl s' hs
    simp only [drainRest, Res.ok.injEq] at hs
    subst hs
    exact ⟨hp, hl⟩
  | cons v vs ih =>
    intro s hch hc ht hpast hl s' hs
    have hop : v ∈ s.held ++ s.lost := by
      rcases ht.inflOpen v (by simp) with h1 | h1
      · rw [hch] at h1; simpa using h1
      · cases h1
    have hsp := erase_split hop
    have hb : v ∈ s.held ++ s.lost ++ finIds s.chan := List.mem_append_left _ hop
    obtain ⟨sn, hq, hne⟩ := hc.qs.busy_pos hb
    have hlt : v < c.g.n := hc.deps.lt _ (hc.qs.sub _ (List.mem_append_right _ hb))
    have hc1 := hc.sendFin (e := ⟨v, .disconnected, [], none⟩) hsp
    have ht1 := trS_sendFin (e := ⟨v, .disconnected, [], none⟩) ht hsp
    rw [hch] at hc1 ht1
    simp only [List.nil_append] at hc1 ht1
    have hlog := ht.logInfl v (by simp)
    obtain ⟨p1, p2, p3, p4, p5, p6⟩ := booked_parts (e := ⟨v, .disconnected, [], none⟩) hg hc1 ht1 rfl hq true rfl rfl
    simp only [if_true] at p1 p2 p3 p4
    unfold TrS at ht
    rw [hch] at ht
    have hp := hc.place hg
    rw [hch] at hp
    have hfin := ht.disconnect hp hsp .disconnected
    simp only [drainRest] at hs
    rw [book1_total (e := ⟨v, .disconnected, [], none⟩) hlt hq hne] at hs
    have hwr : s.lf.write (.finished ⟨t, (cmdOf c.g v).key, -1, []⟩) =
        .ok (finishedLog s.lf ⟨t, (cmdOf c.g v).key, -1, []⟩ (cmdOf c.g v).runcount (cmdOf c.g v).storageRoot) :=
      finished_write hlog
    have hwr' : (booked c.g s ⟨v, .disconnected, [], none⟩ sn).lf.write (.finished ⟨t, (cmdOf c.g v).key, -1, []⟩) = _ := hwr
    simp only [Res.bind, writeLog, hwr'] at hs
    refine ih _ ?_ ?_ ?_ ?_ ?_ s' hs
    · exact hch
    · refine ⟨?_, hc.items, hc.deps, ?_, p3⟩
      · simp only [booked, hch]
        exact p1
      · simp only [booked, hch]
        exact p2
    · unfold TrS
      simp only [booked, hch]
      rw [← List.append_assoc]
      exact hfin
    · refine ⟨?_, hpast.aff, hpast.topo⟩
      refine hpast.obt.trans ?_
      rw [List.perm_iff_count]
      intro w
      have h2 := hsp.count_eq w
      simp only [booked, hch, finIds_nil, List.count_append, List.count_cons, List.map_append, List.map_cons, List.map_nil,
        List.count_nil] at h2 ⊢
      omega
    · obtain ⟨new, n1, n2, n3⟩ := hl
      refine ⟨new ++ [.finished ⟨t, (cmdOf c.g v).key, -1, []⟩], writeAll_trans n1 ?_, ?_, ?_⟩
      · simp only [LogFile.writeAll, hwr, Res.bind]
      · simp only [n2, List.append_assoc, startedLog, finishedLog]
      · have hnot : v ∉ (s.processed ++ s.drained).map (·.1) := by
          have := hp.uniq
          rw [List.nodup_append] at this
          intro hm
          exact this.2.2 v (List.mem_append_left _ hop) v hm rfl
        simp only [booked]
        rw [← List.append_assoc]
        exact (n3.take (x := (v, .disconnected)) hnot).finished hnot rfl rfl (hp.inMade v (List.mem_append_left _ (List.mem_append_left _ hop)))

theorem hist_drain {rc0 : StrMap RuncountStatus} (hg : Good c) (h : Inv c rc0 s) (hh : Hist c lf0 s) (hpc : s.pc = .joined)
    {order : List Nat} {t : SysTime} (hs : drain c t order s = .ok s') : Hist c lf0 s' := by
  have hc := h.core
  rw [hpc] at hc
  have ht := h.tr
  rw [hpc] at ht
  have hl := hh.log
  rw [hpc] at hl
  have hfin := ((inv_drain hg h hpc order t).2 s' hs)
  obtain ⟨s1, infl, k1, k2, k3, k4, k5⟩ := drainLoop_inv hg t s.chan s s.inflight rfl hc ht
  obtain ⟨q1, q2⟩ := drainLoop_hist hg t s.chan s s.inflight rfl hc ht hh.past hl s1 infl k1
  unfold drain at hs
  rw [k1] at hs
  simp only [Res.bind] at hs
  by_cases hperm : order.isPerm (infl.map (·.1)) = false
  · rw [if_pos hperm] at hs; cases hs
  · rw [if_neg hperm] at hs
    simp only [Bool.not_eq_false] at hperm
    have hperm := List.isPerm_iff.1 hperm
    have k3' : TrS c rc0 { s1 with inflight := [] } order none :=
      Tr.congr k3 (fun _ => Iff.rfl) hperm.symm (fun _ => Iff.rfl) (fun _ => Iff.rfl)
    cases hdr : drainRest c t order { s1 with inflight := [] } with
    | err _ => rw [hdr] at hs; cases hs
    | panic _ => rw [hdr] at hs; cases hs
    | ok s2 =>
      rw [hdr] at hs
      simp only [Res.ok.injEq] at hs
      obtain ⟨r1, r2⟩ := drainRest_hist hg t order { s1 with inflight := [] } k4
        ⟨k2.acct, k2.items, k2.deps, k2.qs, k2.cnt⟩ k3' ⟨q1.obt, q1.aff, q1.topo⟩ (q2.congr rfl rfl rfl rfl) s2 hdr
      have h4 := hfin.2.1
      have h5 := hfin.2.2.1
      subst hs
      exact ⟨⟨r1.obt, r1.aff, r1.topo⟩, r2.congr rfl rfl rfl rfl, fun _ => ⟨h4, h5⟩, by simp, by simp⟩

theorem Hist.step {rc0 : StrMap RuncountStatus} (hg : Good c) (h : Inv c rc0 s) (hh : Hist c lf0 s) {a : Act}
    (hd : disciplined s a = true) (hs : step c s a = .ok s') : Hist c lf0 s' := by
  have easy : ∀ s2 : State, s2.obtained = s.obtained → s2.held = s.held → s2.lost = s.lost → s2.chan = s.chan →
      s2.processed = s.processed → s2.drained = s.drained → s2.lf = s.lf → owners s2.flags = owners s.flags →
      s2.inflight = s.inflight → s2.pc = s.pc → Hist c lf0 s2 := by
    intro s2 h1 h2 h3 h4 h5 h6 h7 h8 h9 h10
    refine ⟨⟨by rw [h1, h2, h3, h4, h5, h6]; exact hh.past.obt, by rw [h1]; exact hh.past.aff,
      by rw [h5]; exact hh.past.topo⟩, by rw [h10]; exact hh.log.congr h7 h8 h5 h6, ?_, ?_, ?_⟩
    · rw [h10, h4, h9]; exact hh.atDone
    · rw [h10, h6]; exact hh.undrained
    · rw [h10, h5]; exact hh.curLast
  -- server moves that only change the program counter to one without a current finish
  have move : ∀ s2 : State, s2.obtained = s.obtained → s2.held = s.held → s2.lost = s.lost → s2.chan = s.chan →
      s2.processed = s.processed → s2.drained = s.drained → s2.lf = s.lf → owners s2.flags = owners s.flags →
      curOf s.pc = none → s.pc ≠ .done → s2.pc ≠ .done → (∀ t e, s2.pc ≠ .sending t (some e)) → Hist c lf0 s2 := by
    intro s2 h1 h2 h3 h4 h5 h6 h7 h8 h9 h10 h11 h12
    have hc2 : curOf s2.pc = none := by
      cases hp : s2.pc with
      | sending t f =>
        cases f with
        | none => rfl
        | some e => exact absurd hp (h12 t e)
      | _ => rfl
    refine ⟨⟨by rw [h1, h2, h3, h4, h5, h6]; exact hh.past.obt, by rw [h1]; exact hh.past.aff,
      by rw [h5]; exact hh.past.topo⟩, ?_, fun hx => absurd hx h11, fun _ => by rw [h6]; exact hh.undrained h10,
      fun t e hx => absurd hx (h12 t e)⟩
    have := hh.log
    rw [h9] at this
    rw [hc2]
    exact this.congr h7 h8 h5 h6
  cases a with
  | tick d =>
    simp only [Tracker.step, Res.ok.injEq] at hs
    subst hs
    exact easy _ rfl rfl rfl rfl rfl rfl rfl rfl rfl rfl
  | begin order t =>
    simp only [Tracker.step] at hs
    by_cases hpc : s.pc = .new
    · rw [if_neg (by simp [hpc])] at hs
      split at hs
      · cases hs
      · split at hs
        · simp only [Res.ok.injEq] at hs
          subst hs
          exact move _ rfl rfl rfl rfl rfl rfl rfl rfl (by rw [hpc]; rfl) (by rw [hpc]; simp) (by simp) (by simp)
        · obtain ⟨a1, a2, a3, a4, a5⟩ := addReady_ok hs
          simp only at a5
          subst a5
          refine ⟨⟨hh.past.obt, hh.past.aff, hh.past.topo⟩, ?_, by simp, fun _ => hh.undrained (by rw [hpc]; simp), by simp⟩
          have hl := hh.log
          rw [hpc] at hl
          obtain ⟨new, n1, n2, n3⟩ := hl
          refine ⟨new ++ order.map (readyEntry c.g t), writeAll_trans n1 (readyLog_writeAll _ _ _ _), ?_, ?_⟩
          · simp only [readyLog, n2, List.append_assoc]
          · simp only [owners_append, owners_fresh]
            exact n3.addReady t _
    · rw [if_pos hpc] at hs; cases hs
  | sendNext =>
    simp only [Tracker.step] at hs
    split at hs
    · rename_i i items todo fin hpc
      simp only [Res.ok.injEq] at hs
      subst hs
      have hl := hh.log
      rw [hpc] at hl
      refine ⟨⟨hh.past.obt, hh.past.aff, hh.past.topo⟩, ?_, by simp, fun _ => hh.undrained (by rw [hpc]; simp), ?_⟩
      · cases fin <;> exact hl.congr rfl rfl rfl rfl
      · intro t e hx
        simp only [Pc.sending.injEq] at hx
        exact hh.curLast _ e (by rw [hpc, hx.2])
    · cases hs
  | sendDone t =>
    simp only [Tracker.step] at hs
    split at hs
    · rename_i fin hpc
      have hc := h.core
      rw [hpc] at hc
      have ht := h.tr
      rw [hpc] at ht
      have ho := h.shape.sendingOpen _ _ hpc
      have hsf : s.soft = false := by
        by_contra hx
        simp only [Bool.not_eq_false] at hx
        have := h.shape.softClosed hx
        rw [ho] at this; cases this
      cases fin with
      | none =>
        simp only [Res.ok.injEq] at hs
        subst hs
        exact move _ rfl rfl rfl rfl rfl rfl rfl rfl (by rw [hpc]; rfl) (by rw [hpc]; simp) (by simp) (by simp)
      | some e =>
        simp only at hs
        have hl := hh.log
        rw [hpc] at hl
        refine hist_finishHalf (s := { s with counter := s.counter + 1 }) (e := e) (rc0 := rc0) hg
          ⟨⟨hc.acct, hc.items, hc.deps, hc.qs, hc.cnt⟩, ht, h.shape.curProc _ _ hpc, ?_⟩
          ⟨hh.past.obt, hh.past.aff, hh.past.topo⟩ (hl.congr rfl rfl rfl rfl) (hh.curLast _ e hpc)
          (hh.undrained (by rw [hpc]; simp)) hs
        simp [ho, hsf]
    · cases hs
  | recvStarted t =>
    by_cases hpc : s.pc = .idle
    · cases hch : s.chan with
      | nil => simp [Tracker.step, hpc, hch] at hs
      | cons ev rest =>
        cases ev with
        | started id ho p j =>
          have hpl := h.core.place hg
          have ht := h.tr
          have hc := h.core
          have hl := hh.log
          rw [hpc] at hl hc
          unfold TrS at ht
          rw [hpc] at ht
          have hcur : curOf Pc.idle = none := rfl
          rw [hcur] at ht
          rw [hch] at ht hpl
          obtain ⟨h1, h2, h3⟩ := ht.recvStarted hpl
          have hl' : s.inflight.lookup id = none := by
            have : (s.inflight.lookup id).isSome = false := by rw [lookup_isSome]; simpa using h1
            simpa using this
          have hmade : id ∈ owners s.flags := by
            have := ht.startOpen id (by simp)
            exact hpl.inMade _ (List.mem_append_left _ this)
          have hlt := hc.deps.lt _ hmade
          have hwr : s.lf.write (.started ⟨t, (cmdOf c.g id).key, ho, p, j⟩) =
              .ok (startedLog s.lf ⟨t, (cmdOf c.g id).key, ho, p, j⟩ (cmdOf c.g id).runcount (cmdOf c.g id).storageRoot) :=
            started_write h2
          simp only [Tracker.step, hpc, ne_eq, not_true, if_false, hch, writeLog, hwr, Res.bind, hl',
            Option.isSome_none, Bool.false_eq_true, Res.ok.injEq] at hs
          subst hs
          refine ⟨⟨?_, hh.past.aff, hh.past.topo⟩, ?_, by simp, fun _ => hh.undrained (by rw [hpc]; simp), by simp⟩
          · have := hh.past.obt
            rw [hch] at this
            exact this
          · obtain ⟨new, n1, n2, n3⟩ := hl
            refine ⟨new ++ [.started ⟨t, (cmdOf c.g id).key, ho, p, j⟩], writeAll_trans n1 ?_, ?_, ?_⟩
            · simp only [LogFile.writeAll, hwr, Res.bind]
            · simp only [n2, List.append_assoc, startedLog, finishedLog]
            · refine n3.started ?_ ⟨id, hmade, rfl⟩
              intro v u hd hk
              have hv : v = id := hg.keyInj (hg.wf _ hd).2 hlt hk
              subst hv
              obtain ⟨st, m1, m2⟩ := mem_okIds.1 (hc.deps.met _ hmade u hd)
              exact ⟨mem_okIds.2 ⟨st, List.mem_append_left _ m1, m2⟩, by simp [curOf]⟩
        | finished e => simp [Tracker.step, hpc, hch] at hs
    · simp only [Tracker.step] at hs
      rw [if_pos hpc] at hs; cases hs
  | recvFinished order t =>
    by_cases hpc : s.pc = .idle
    · cases hch : s.chan with
      | nil => simp [Tracker.step, hpc, hch] at hs
      | cons ev rest =>
        cases ev with
        | started id ho p j => simp [Tracker.step, hpc, hch] at hs
        | finished e =>
          simp only [Tracker.step] at hs
          rw [if_neg (by simp [hpc]), hch] at hs
          simp only at hs
          exact hist_handleFinished hg h hh hpc hch hs
    · simp only [Tracker.step] at hs
      rw [if_pos hpc] at hs; cases hs
  | seeTrigger =>
    simp only [Tracker.step] at hs
    by_cases hpc : s.pc = .idle
    · rw [if_neg (by simp [hpc])] at hs
      split at hs
      · cases hs
      · simp only [Res.ok.injEq] at hs
        subst hs
        exact easy _ rfl rfl rfl rfl rfl rfl rfl rfl rfl rfl
    · rw [if_pos hpc] at hs; cases hs
  | seeHard =>
    simp only [Tracker.step] at hs
    by_cases hpc : s.pc = .idle
    · rw [if_neg (by simp [hpc])] at hs
      split at hs
      · cases hs
      · simp only [Res.ok.injEq] at hs
        subst hs
        exact move _ rfl rfl rfl rfl rfl rfl rfl rfl (by rw [hpc]; rfl) (by rw [hpc]; simp)
          (by simp [leaveLoop, zeroReady]) (by simp [leaveLoop, zeroReady])
    · rw [if_pos hpc] at hs; cases hs
  | ctrlC =>
    simp only [Tracker.step] at hs
    by_cases hpc : s.pc = .idle
    · rw [if_neg (by simp [hpc])] at hs
      simp only [Res.ok.injEq] at hs
      subst hs
      exact move _ rfl rfl rfl rfl rfl rfl rfl rfl (by rw [hpc]; rfl) (by rw [hpc]; simp)
        (by simp [leaveLoop, zeroReady]) (by simp [leaveLoop, zeroReady])
    · rw [if_pos hpc] at hs; cases hs
  | joinDone =>
    simp only [Tracker.step] at hs
    by_cases hpc : s.pc = .joining
    · rw [if_neg (by simp [hpc])] at hs
      split at hs
      · simp only [Res.ok.injEq] at hs
        subst hs
        exact move _ rfl rfl rfl rfl rfl rfl rfl rfl (by rw [hpc]; rfl) (by rw [hpc]; simp) (by simp) (by simp)
      · cases hs
    · rw [if_pos hpc] at hs; cases hs
  | drain order t =>
    simp only [Tracker.step] at hs
    by_cases hpc : s.pc = .joined
    · rw [if_neg (by simp [hpc])] at hs
      exact hist_drain hg h hh hpc hs
    · rw [if_pos hpc] at hs; cases hs
  | enter r =>
    simp only [Tracker.step] at hs
    split at hs
    · cases hs
    · split at hs
      · simp only [Res.ok.injEq] at hs
        subst hs
        exact easy _ rfl rfl rfl rfl rfl rfl rfl rfl rfl rfl
      · cases hs
  | leave i =>
    simp only [Tracker.step] at hs
    split at hs
    · simp only [Res.ok.injEq] at hs
      subst hs
      exact easy _ rfl rfl rfl rfl rfl rfl rfl rfl rfl rfl
    · cases hs
  | pop i j =>
    simp only [Tracker.step] at hs
    split at hs
    · cases hs
    · split at hs
      · cases hs
      · split at hs
        · simp only [Res.ok.injEq] at hs
          subst hs
          exact easy _ rfl rfl rfl rfl rfl rfl rfl rfl rfl rfl
        · cases hs
  | claim i =>
    simp only [Tracker.step] at hs
    split at hs
    · cases hs
    · rename_i r it hi
      split at hs
      · cases hs
      · rename_i f hf
        obtain ⟨v, b⟩ := f
        cases b with
        | true =>
          simp only [if_true, Res.ok.injEq] at hs
          subst hs
          exact easy _ rfl rfl rfl rfl rfl rfl rfl rfl rfl rfl
        | false =>
          simp only [Bool.false_eq_true, if_false, Res.ok.injEq] at hs
          subst hs
          exact easy _ rfl rfl rfl rfl rfl rfl rfl (owners_set hf) rfl rfl
  | account i =>
    simp only [Tracker.step] at hs
    split at hs
    · cases hs
    · rename_i r it hi
      split at hs
      · cases hs
      · rename_i sn hq
        simp only [Res.ok.injEq] at hs
        subst hs
        refine ⟨⟨?_, ?_, hh.past.topo⟩, hh.log.congr rfl rfl rfl rfl, hh.atDone, hh.undrained, hh.curLast⟩
        · have := hh.past.obt
          rw [List.perm_iff_count] at this ⊢
          intro v
          have h1 := this v
          simp only [List.map_append, List.count_append, List.map_cons, List.map_nil, List.count_cons, List.count_nil] at h1 ⊢
          omega
        · intro x hx
          rcases List.mem_append.1 hx with hx | hx
          · exact hh.past.aff x hx
          · simp only [List.mem_singleton] at hx
            subst hx
            exact (h.core.items.claimedOk _ (List.mem_of_getElem? hi)).bit
  | sendStarted id ho p j =>
    simp only [Tracker.step] at hs
    split at hs
    · cases hs
    · rename_i hl
      simp only [Res.ok.injEq] at hs
      subst hs
      refine ⟨⟨by simpa using hh.past.obt, hh.past.aff, hh.past.topo⟩, hh.log.congr rfl rfl rfl rfl, ?_, hh.undrained, hh.curLast⟩
      intro hx; simp [live] at hl; exact absurd hx hl.2
  | sendFinished e =>
    simp only [disciplined, decide_eq_true_eq] at hd
    simp only [Tracker.step] at hs
    split at hs
    · cases hs
    · rename_i hl
      simp only [Res.ok.injEq] at hs
      subst hs
      refine ⟨⟨?_, hh.past.aff, hh.past.topo⟩, hh.log.congr rfl rfl rfl rfl, ?_, hh.undrained, hh.curLast⟩
      · have := hh.past.obt
        rw [List.perm_iff_count] at this ⊢
        intro v
        have h1 := this v
        have h2 := (List.perm_cons_erase hd).count_eq v
        simp only [List.count_append, List.count_cons, finIds_append, finIds_fin, finIds_nil, List.count_nil] at h1 h2 ⊢
        omega
      · intro hx; simp [live] at hl; exact absurd hx hl.2
  | lose id =>
    simp only [disciplined, decide_eq_true_eq] at hd
    simp only [Tracker.step] at hs
    split at hs
    · cases hs
    · simp only [Res.ok.injEq] at hs
      subst hs
      refine ⟨⟨?_, hh.past.aff, hh.past.topo⟩, hh.log.congr rfl rfl rfl rfl, hh.atDone, hh.undrained, hh.curLast⟩
      have := hh.past.obt
      rw [List.perm_iff_count] at this ⊢
      intro v
      have h1 := this v
      have h2 := (List.perm_cons_erase hd).count_eq v
      simp only [List.count_append, List.count_cons, List.count_nil] at h1 h2 ⊢
      omega
  | trigger =>
    simp only [Tracker.step, Res.ok.injEq] at hs
    subst hs
    exact easy _ rfl rfl rfl rfl rfl rfl rfl rfl rfl rfl
  | cancel k =>
    simp only [Tracker.step, Res.ok.injEq] at hs
    subst hs
    exact easy _ rfl rfl rfl rfl rfl rfl rfl rfl rfl rfl

/-- Both invariants hold in every state of a run. -/
theorem Runs.inv {rc0 : StrMap RuncountStatus} {as : List Act} (hg : Good c) (hr : Runs c s as s') (h : Inv c rc0 s)
    (hh : Hist c lf0 s) : Inv c rc0 s' ∧ Hist c lf0 s' := by
  induction hr with
  | nil => exact ⟨h, hh⟩
  | cons hd hs _ ih => exact ih (h.step hg hd hs) (Hist.step hg h hh hd hs)

theorem Reachable.inv {lf : LogFile} {now : Int} (hg : Good c) (hr : Reachable c lf now s) :
    Inv c lf.mem.runcounts s ∧ Hist c lf s := by
  obtain ⟨as, hr⟩ := hr
  exact hr.inv hg (inv_init c lf now) (hist_init c lf now)

end Verif.Tracker
