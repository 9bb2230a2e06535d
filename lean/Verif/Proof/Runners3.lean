import Verif.Proof.Runners2

/-!
# Runs in which nothing goes wrong: every task of a runner is reported (proofs)
-/

namespace Verif.Cluster
open Verif
open Verif.Tracker (Good)

variable {c : Sys.Cfg} {lf : LogFile} {now : Int} {s s' : State} {as : List Act} {a : Act} {σ : Nat → State} {α : Nat → Act}

/-! ### reports have code 0 -/

/-- Where a runner is around whose tasks nothing has gone wrong. -/
def Tame : Remote.Phase → Prop
  | .gasping _ | .panicked | .stuck => False
  | .beginning _ p | .begun _ p => p.isSome = true
  | .finishing _ out => ∃ o, out = some o ∧ o.code = 0
  | _ => True

theorem tame_step {rc : Remote.Cfg} {st st' : Remote.State} {b : Remote.Act} (hs : Remote.step rc st b = .ok st')
    (h1 : Tame st.phase) (hb : fails b = false)
    (hsp : ∀ q, st.phase = .got q → ¬ (q.cmdline = [] ∨ q.inputFd = some 3)) :
    Tame st'.phase ∧ ∀ T code values n, .finish T code values n ∈ st'.trace → .finish T code values n ∈ st.trace ∨ code = 0 := by
  cases b <;> simp only [Remote.step] at hs <;> (try (cases hb; done)) <;> repeat' split at hs
  all_goals first
    | (cases hs; done)
    | (simp only [Res.ok.injEq] at hs; subst hs
       exact ⟨h1, fun _ _ _ _ h => .inl h⟩)
    | (simp only [Res.ok.injEq] at hs; subst hs
       simp_all [Remote.State.goto, Tame, fails]
       done)
    | skip
  · rename_i r out e
    simp only [Res.ok.injEq] at hs; subst hs
    rw [e] at h1
    obtain ⟨o, rfl, ho⟩ := h1
    refine ⟨trivial, ?_⟩
    intro T code values n h
    simp only [Remote.State.goto, Remote.endRequest, List.mem_append, List.mem_singleton, Remote.Obs.finish.injEq] at h
    rcases h with h | h
    · exact .inl h
    · exact .inr (h.2.1.trans ho)

/-- The task of a runner can be started. -/
theorem can_spawn (hg : Good c.tr) (hst : Sys.Startable c) (hr : Runs c (init c lf now) as s) (hf : Fresh c lf now as) {i : Nat} {r : Runner}
    (hi : s.runners[i]? = some r) {q : Remote.StartResp} (hq : r.st.phase = .got q) : ¬ (q.cmdline = [] ∨ q.inputFd = some 3) := by
  obtain ⟨x, T, v, hl, e⟩ := (hr.inv hf).gotTask hi hq
  have hv := Grid.task_lt hg hr hf hi (List.mem_of_getLast? hl)
  subst e
  have hm : Tracker.cmdOf c.tr.g v ∈ c.tr.g.nodes := by
    unfold Tracker.cmdOf
    unfold DiGraph.n at hv
    rw [List.getElem?_eq_getElem hv]
    exact List.getElem_mem hv
  have := hst _ hm
  simp only [resp]
  exact fun h => h.elim this.1 this.2

/-- Nothing goes wrong. -/
def Right (σ : Nat → State) (α : Nat → Act) : Prop := ∀ k, trouble (σ k) (α k) = false

theorem hears_fails {g : DiGraph Cmd} {p : Remote.Phase} {x : Option Sys.Reply} {b : Remote.Act} {got : List (Nat × Nat)}
    (h : hears g p x = some (b, got)) : fails b = false := by
  unfold hears at h
  repeat' split at h
  all_goals first
    | (cases h; done)
    | (simp only [Option.some.injEq, Prod.mk.injEq] at h; obtain ⟨rfl, _⟩ := h; rfl)

theorem right_fails (h : trouble s a = false) {i : Nat} {b : Remote.Act} (e : a = .runner i b) : fails b = false := by
  subst e
  cases b <;> first | rfl | exact h

theorem tame (hg : Good c.tr) (hst : Sys.Startable c) (h : InfRun c lf now σ α) (hf : AllFresh c lf now α) (hw : Right σ α) (k : Nat) :
    ∀ (i : Nat) (r : Runner), (σ k).runners[i]? = some r → Tame r.st.phase ∧ ∀ T code values n, .finish T code values n ∈ r.st.trace → code = 0 := by
  induction k with
  | zero => intro i r hi; rw [h.start] at hi; simp [init] at hi
  | succ k ih =>
    intro i r' hi
    rcases step_runner (h.next k) hi with hsame | ⟨cfg, rfl⟩ | ⟨r, b, ha, h0, hb, hs, e, _⟩ | ⟨r, b, x, n, got, ha, h0, hh, hs, e, _⟩
    · exact ih i r' hsame
    · exact ⟨trivial, fun T code values n h => by cases h⟩
    · obtain ⟨h1, h2⟩ := ih i r h0
      obtain ⟨h3, h4⟩ := tame_step hs h1 (right_fails (hw k) ha) (fun q hq => can_spawn hg hst (h.prefix k) (hf k) h0 hq)
      exact ⟨h3, fun T code values n hm => (h4 T code values n hm).elim (h2 T code values n) id⟩
    · obtain ⟨h1, h2⟩ := ih i r h0
      obtain ⟨h3, h4⟩ := tame_step hs h1 (hears_fails hh) (fun q hq => can_spawn hg hst (h.prefix k) (hf k) h0 hq)
      exact ⟨h3, fun T code values n hm => (h4 T code values n hm).elim (h2 T code values n) id⟩

/-- So for the server nothing goes wrong either. -/
theorem right_sys (hg : Good c.tr) (hst : Sys.Startable c) (h : InfRun c lf now σ α) (hf : AllFresh c lf now α) (hw : Right σ α) (k : Nat) :
    Sys.wrongAt (sysStates σ k) (sysActs σ α k) = false := by
  have hk := hw k
  unfold sysStates sysActs seen
  cases ha : α k with
  | server b => rw [ha] at hk; exact hk
  | other b => rw [ha] at hk; exact hk
  | arrive m =>
    simp only [sysAct]
    split
    · rename_i p hp
      show Sys.wrongAt _ (.request p.req) = false
      obtain ⟨r, o, h1, h2, h3⟩ := ((h.prefix k).inv (hf k)).sent m p hp
      unfold Sys.wrongAt
      split
      · rename_i x y T code values next e
        simp only [Sys.Act.request.injEq] at e
        obtain ⟨n, rfl⟩ := request_finish h3 (by rw [e])
        simp [(tame hg hst h hf hw k _ r h1).2 _ _ _ _ h2]
      · rename_i e; cases e
      · rfl
    · rfl
  | join _ | runner _ _ | answer _ | fail _ => rfl

/-! ### what the server makes of begun and finish reports -/

/-- A transaction that was taken out of the table does not come again. -/
theorem keys_out (hi : Inv c lf now as s) (hf : Fresh c lf now as) (hs : step c s a = .ok s') {x T v : Nat}
    (hx : s.sys.handlers[x]? = some (.done (some (.task T v)))) (hT : T ∉ s.sys.conns.map (·.1)) : T ∉ s'.sys.conns.map (·.1) := by
  rcases step_sys hs with ⟨_, e⟩ | ⟨b, _, hst⟩
  · rw [e]; exact hT
  · intro hm
    obtain ⟨y, hy, rfl⟩ := List.mem_map.1 hm
    cases Sys.cview hst y hy with
    | old z _ hz e _ _ _ => exact hT (by rw [e]; exact List.mem_map.2 ⟨z, hz, rfl⟩)
    | begun z _ _ _ hz e _ _ _ _ => exact hT (by rw [e]; exact List.mem_map.2 ⟨z, hz, rfl⟩)
    | new n _ tm _ hn =>
      have e : n = x := by
        refine unique_index (f := Sys.tokT) (x := y.1) ?_ hn hx (by simp [Sys.tokT, Sys.tok]) (by simp [Sys.tokT, Sys.tok])
        rw [Sys.tokT_drawn hi.run]
        exact List.nodup_iff_count.1 hf y.1
      subst e
      rw [hx] at hn
      cases hn

/-- The transaction a packet speaks of. -/
def about : Sys.Body → Option Nat
  | .begun T _ _ | .finish T _ _ _ => some T
  | _ => none

theorem packet_task (hi : Inv c lf now as s) {k : Nat} {p : Packet} (hk : s.packets[k]? = some p) {T : Nat} (hT : about p.req.body = some T) :
    ∃ x v : Nat, s.sys.handlers[x]? = some (.done (some (.task T v))) := by
  obtain ⟨r, o, h1, h2, h3⟩ := hi.sent k p hk
  obtain ⟨bs, hre⟩ := hi.reach _ _ h1
  have key : ∀ q : Remote.StartResp, .received q ∈ r.st.trace → q.txn = T → ∃ x v : Nat, s.sys.handlers[x]? = some (.done (some (.task T v))) := by
    intro q hq e
    obtain ⟨x, T', v, hx, e2⟩ := hi.recvTask h1 hq
    have : T' = T := by rw [e2, resp_txn] at e; exact e
    subst this
    exact ⟨x, v, (hi.tasks _ _ _ _ _ h1 hx).1⟩
  cases o <;> simp only [request] at h3 <;> (try (cases h3; done)) <;> (simp only [Option.some.injEq] at h3; rw [← h3] at hT)
  · cases hT
  · cases hT
    obtain ⟨q, p', e, _, hin⟩ := hre.begunOf h2
    exact key q (hin.subset (by simp)) e
  · cases hT
    obtain ⟨q, story, e, hst, hin⟩ := hre.finishOf h2
    exact key q (hin.subset (by cases hst <;> simp)) e

/-- What has become of reports that have arrived. -/
structure Arrived (s : State) : Prop where
  begun : ∀ (k : Nat) (p : Packet) (h T : Nat) (host : String) (pid : Nat), s.packets[k]? = some p → p.handler = some h →
    p.req.body = .begun T host pid → s.sys.handlers[h]? = some (.done (some .ok)) ∨
      s.sys.handlers[h]? = some (.done (some .notFound)) ∧ T ∉ s.sys.conns.map (·.1)
  fin : ∀ (k : Nat) (p : Packet) (T : Nat) (code : Int) (values : List (List (String × String))) (next : Option Nat), s.packets[k]? = some p →
    p.handler ≠ none → p.req.body = .finish T code values next → T ∉ s.sys.conns.map (·.1)

/-- Packets come from a runner's step, get their handler on arrival, and are otherwise as before. -/
theorem packet_from (hs : step c s a = .ok s') {k : Nat} {p' : Packet} (hk : s'.packets[k]? = some p') :
    s.packets[k]? = some p' ∨ p'.handler = none ∨
      ∃ p : Packet, a = .arrive k ∧ s.packets[k]? = some p ∧ p.handler = none ∧ p' = ⟨p.sender, p.req, some s.sys.handlers.length⟩ := by
  cases a with
  | server b =>
    simp only [step] at hs
    split at hs
    · cases hs
    · obtain ⟨t, _, e⟩ := Grid.bind_ok hs; cases e; exact .inl hk
  | other b =>
    simp only [step] at hs
    split at hs
    · obtain ⟨t, _, e⟩ := Grid.bind_ok hs; cases e; exact .inl hk
    · cases hs
  | join cfg => simp only [step, Res.ok.injEq] at hs; subst hs; exact .inl hk
  | runner i b =>
    simp only [step] at hs
    split at hs
    · split at hs
      · cases hs
      · obtain ⟨t, _, e⟩ := Grid.bind_ok hs; cases e
        rcases packets_cases hk with h | ⟨_, _, q, _, rfl⟩
        · exact .inl h
        · exact .inr (.inl rfl)
    · cases hs
  | arrive k' =>
    simp only [step] at hs
    split at hs
    · rename_i i q hk'
      obtain ⟨t, _, e⟩ := Grid.bind_ok hs; cases e
      rcases getElem?_set_cases hk with ⟨rfl, rfl, _⟩ | ⟨_, hk⟩
      · exact .inr (.inr ⟨_, rfl, hk', rfl, rfl⟩)
      · exact .inl hk
    · cases hs
  | answer i =>
    simp only [step] at hs
    repeat' split at hs
    all_goals first | cases hs | (left; rw [(hear_packets hs).1] at hk; exact hk)
  | fail i =>
    simp only [step] at hs
    repeat' split at hs
    all_goals first | cases hs | (left; rw [(hear_packets hs).1] at hk; exact hk)

theorem Inv.packetAuth (hi : Inv c lf now as s) {k : Nat} {p : Packet} (hk : s.packets[k]? = some p) :
    p.req.auth = some c.secret ∧ ∃ j, p.req.jobid = some (some j) := by
  obtain ⟨r, o, _, _, h3⟩ := hi.sent k p hk
  cases o <;> simp only [request] at h3 <;> first | (cases h3; done) | (simp only [Option.some.injEq] at h3; rw [← h3]; exact ⟨rfl, _, rfl⟩)

theorem Arrived.step (h : Arrived s) (hi : Inv c lf now as s) (hf : Fresh c lf now as) (hs : Cluster.step c s a = .ok s') : Arrived s' where
  begun := by
    intro k p' n T host pid hk hh hb
    rcases packet_from hs hk with h1 | h1 | ⟨p, rfl, h1, h2, rfl⟩
    · rcases h.begun k p' n T host pid h1 hh hb with h2 | ⟨h2, h3⟩
      · exact .inl (step_done hs h2)
      · obtain ⟨x, v, hx⟩ := packet_task hi h1 (T := T) (by rw [hb]; rfl)
        exact .inr ⟨step_done hs h2, keys_out hi hf hs hx h3⟩
    · rw [hh] at h1; cases h1
    · simp only [Option.some.injEq] at hh
      subst hh
      obtain ⟨ha, j, hj⟩ := hi.packetAuth h1
      obtain ⟨i, q, hd⟩ := p
      simp only at h2 hb ha hj
      subst h2
      simp only [Cluster.step, h1] at hs
      obtain ⟨t, h4, e⟩ := Grid.bind_ok hs
      cases e
      simp only [Sys.step] at h4
      split at h4
      · cases h4
      · simp only [Sys.takeRequest, ha, hb, ne_eq, not_true_eq_false, if_false, Sys.begunH] at h4
        split at h4
        · rename_i hl
          simp only [Res.ok.injEq] at h4; subst h4
          refine .inr ⟨by simp [Sys.reply], fun hm => ?_⟩
          obtain ⟨x, hx⟩ := Sys.lookup_some_of_mem (show T ∈ s.sys.conns.map (·.1) from hm)
          rw [hl] at hx; cases hx
        · rw [hj] at h4
          obtain ⟨t', _, rfl⟩ := Sys.trk_ok.1 h4
          exact .inl (by simp [Sys.reply])
  fin := by
    intro k p' T code values next hk hh hb
    rcases packet_from hs hk with h1 | h1 | ⟨p, rfl, h1, h2, rfl⟩
    · obtain ⟨x, v, hx⟩ := packet_task hi h1 (T := T) (by rw [hb]; rfl)
      exact keys_out hi hf hs hx (h.fin k p' T code values next h1 hh hb)
    · exact absurd h1 hh
    · obtain ⟨ha, j, hj⟩ := hi.packetAuth h1
      obtain ⟨i, q, hd⟩ := p
      simp only at h2 hb ha hj
      subst h2
      simp only [Cluster.step, h1] at hs
      obtain ⟨t, h4, e⟩ := Grid.bind_ok hs
      cases e
      simp only [Sys.step] at h4
      split at h4
      · cases h4
      · simp only [Sys.takeRequest, ha, hb, ne_eq, not_true_eq_false, if_false, Sys.endH, hj, Res.ok.injEq] at h4
        subst h4
        split
        · rename_i hl
          intro hm
          obtain ⟨x, hx⟩ := Sys.lookup_some_of_mem (show T ∈ s.sys.conns.map (·.1) from hm)
          rw [hl] at hx; cases hx
        · split <;> simp [Sys.dropKey, Sys.reply]

theorem Runs.arrived (hr : Runs c (Cluster.init c lf now) as s) (hf : Fresh c lf now as) : Arrived s := by
  refine Runs.snocInd (P := fun as s => Fresh c lf now as → Arrived s) (fun _ => ?_) ?_ hr hf
  · exact ⟨by intro k p h T host pid hk; simp [Cluster.init] at hk, by intro k p T code values next hk; simp [Cluster.init] at hk⟩
  · intro as s a s' hr ih hs hf
    have hf' := Fresh.prefix hr hf
    exact (ih hf').step (hr.inv hf') hf' hs

end Verif.Cluster
