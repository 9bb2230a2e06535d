import Verif.Proof.Cluster2
import Verif.Proof.System10

/-!
# Server and runners together: what reports mean, processes (proofs)
-/

namespace Verif.Cluster
open Verif

variable {c : Sys.Cfg} {lf : LogFile} {now : Int} {s s' : State} {as : List Act} {a : Act}

/-! ### what stays -/

theorem hear_packets {i : Nat} {r : Runner} {x : Nat} {y : Option Sys.Reply} (hs : hear c s i r x y = .ok s') :
    s'.packets = s.packets ∧ s'.sys = s.sys := by
  unfold hear at hs
  split at hs
  · rename_i b got _
    cases hst : Remote.step r.cfg.rem r.st b with
    | ok st => rw [hst] at hs; simp only [Res.bind, Res.ok.injEq] at hs; subst hs; exact ⟨rfl, rfl⟩
    | err x => rw [hst] at hs; cases hs
    | panic x => rw [hst] at hs; cases hs
  · cases hs

/-- A step takes at most one step of the server: the one `sysAct` says. -/
theorem step_sys (hs : step c s a = .ok s') :
    (sysAct s a = [] ∧ s'.sys = s.sys) ∨ ∃ b, sysAct s a = [b] ∧ Sys.step c s.sys b = .ok s'.sys := by
  cases a with
  | server b =>
    simp only [step] at hs
    split at hs
    · cases hs
    · cases hst : Sys.step c s.sys b with
      | ok t => rw [hst] at hs; simp only [Res.bind, Res.ok.injEq] at hs; subst hs; exact .inr ⟨b, rfl, hst⟩
      | err x => rw [hst] at hs; cases hs
      | panic x => rw [hst] at hs; cases hs
  | other r =>
    simp only [step] at hs
    split at hs
    · cases hst : Sys.step c s.sys (.request r) with
      | ok t => rw [hst] at hs; simp only [Res.bind, Res.ok.injEq] at hs; subst hs; exact .inr ⟨_, rfl, hst⟩
      | err x => rw [hst] at hs; cases hs
      | panic x => rw [hst] at hs; cases hs
    · cases hs
  | join cfg => simp only [step, Res.ok.injEq] at hs; subst hs; exact .inl ⟨rfl, rfl⟩
  | runner i b =>
    simp only [step] at hs
    split at hs
    · rename_i r _
      split at hs
      · cases hs
      · cases hst : Remote.step r.cfg.rem r.st b with
        | ok st => rw [hst] at hs; simp only [Res.bind, Res.ok.injEq] at hs; subst hs; exact .inl ⟨rfl, rfl⟩
        | err x => rw [hst] at hs; cases hs
        | panic x => rw [hst] at hs; cases hs
    · cases hs
  | arrive k =>
    simp only [step] at hs
    split at hs
    · rename_i i q hk
      cases hst : Sys.step c s.sys (.request q) with
      | ok t =>
        rw [hst] at hs; simp only [Res.bind, Res.ok.injEq] at hs; subst hs
        exact .inr ⟨_, by simp [sysAct, hk], hst⟩
      | err x => rw [hst] at hs; cases hs
      | panic x => rw [hst] at hs; cases hs
    · cases hs
  | answer i =>
    simp only [step] at hs
    repeat' split at hs
    all_goals first | cases hs; done | exact .inl ⟨rfl, (hear_packets hs).2⟩
  | fail i =>
    simp only [step] at hs
    repeat' split at hs
    all_goals first | cases hs; done | exact .inl ⟨rfl, (hear_packets hs).2⟩

/-- Packets stay, with sender and request. -/
theorem step_packets (hs : step c s a = .ok s') {k : Nat} {p : Packet} (hk : s.packets[k]? = some p) :
    ∃ p', s'.packets[k]? = some p' ∧ p'.sender = p.sender ∧ p'.req = p.req := by
  cases a with
  | server b =>
    simp only [step] at hs
    split at hs
    · cases hs
    · cases hst : Sys.step c s.sys b with
      | ok t => rw [hst] at hs; simp only [Res.bind, Res.ok.injEq] at hs; subst hs; exact ⟨p, hk, rfl, rfl⟩
      | err x => rw [hst] at hs; cases hs
      | panic x => rw [hst] at hs; cases hs
  | other r =>
    simp only [step] at hs
    split at hs
    · cases hst : Sys.step c s.sys (.request r) with
      | ok t => rw [hst] at hs; simp only [Res.bind, Res.ok.injEq] at hs; subst hs; exact ⟨p, hk, rfl, rfl⟩
      | err x => rw [hst] at hs; cases hs
      | panic x => rw [hst] at hs; cases hs
    · cases hs
  | join cfg => simp only [step, Res.ok.injEq] at hs; subst hs; exact ⟨p, hk, rfl, rfl⟩
  | runner i b =>
    simp only [step] at hs
    split at hs
    · rename_i r _
      split at hs
      · cases hs
      · cases hst : Remote.step r.cfg.rem r.st b with
        | ok st =>
          rw [hst] at hs; simp only [Res.bind, Res.ok.injEq] at hs; subst hs
          exact ⟨p, packets_keep hk, rfl, rfl⟩
        | err x => rw [hst] at hs; cases hs
        | panic x => rw [hst] at hs; cases hs
    · cases hs
  | arrive k' =>
    simp only [step] at hs
    split at hs
    · rename_i i q hk'
      cases hst : Sys.step c s.sys (.request q) with
      | ok t =>
        rw [hst] at hs; simp only [Res.bind, Res.ok.injEq] at hs; subst hs
        by_cases e : k' = k
        · subst e
          rw [hk] at hk'; cases hk'
          obtain ⟨hl, _⟩ := List.getElem?_eq_some_iff.1 hk
          exact ⟨_, List.getElem?_set_self hl, rfl, rfl⟩
        · exact ⟨p, by simp only; rw [List.getElem?_set_ne e]; exact hk, rfl, rfl⟩
      | err x => rw [hst] at hs; cases hs
      | panic x => rw [hst] at hs; cases hs
    · cases hs
  | answer i =>
    simp only [step] at hs
    repeat' split at hs
    all_goals first | cases hs; done | exact ⟨p, by rw [(hear_packets hs).1]; exact hk, rfl, rfl⟩
  | fail i =>
    simp only [step] at hs
    repeat' split at hs
    all_goals first | cases hs; done | exact ⟨p, by rw [(hear_packets hs).1]; exact hk, rfl, rfl⟩

theorem step_done (hs : step c s a = .ok s') {h : Nat} {y : Option Sys.Reply} (hh : s.sys.handlers[h]? = some (.done y)) :
    s'.sys.handlers[h]? = some (.done y) := by
  rcases step_sys hs with ⟨_, e⟩ | ⟨b, _, hb⟩
  · rw [e]; exact hh
  · exact Sys.done_keeps hb hh

/-! ### requests are sent by runners -/

/-- An authorized request that is none of those others may send was sent by a runner. -/
theorem sent_by_runner (hs : step c s a = .ok s') {q : Sys.Request} (hq : sysAct s a = [.request q]) (hh : harmless c q = false) :
    ∃ (k : Nat) (p : Packet), s'.packets[k]? = some p ∧ p.req = q := by
  cases a with
  | server b =>
    simp only [sysAct, List.cons.injEq, and_true] at hq
    subst hq
    simp [step, isRequest] at hs
  | other r =>
    simp only [sysAct, List.cons.injEq, and_true, Sys.Act.request.injEq] at hq
    subst hq
    simp [step, hh] at hs
  | arrive k =>
    simp only [sysAct] at hq
    split at hq
    · rename_i p hp
      simp only [List.cons.injEq, and_true, Sys.Act.request.injEq] at hq
      obtain ⟨p', h1, _, h2⟩ := step_packets hs hp
      exact ⟨k, p', h1, by rw [h2, hq]⟩
    · cases hq
  | join _ | runner _ _ | answer _ | fail _ => simp [sysAct] at hq

theorem served_collect {β : Type} {f : Sys.State → Sys.Act → List β} (hi : Inv c lf now as s) (hr : Runs c (init c lf now) as s)
    (hs : step c s a = .ok s') :
    Sys.collect f c (Sys.init c lf now) (served c lf now (as ++ [a])) =
      Sys.collect f c (Sys.init c lf now) (served c lf now as) ++ (sysAct s a).flatMap (f s.sys) := by
  rw [served_snoc hr, Sys.collect_append hi.run]
  rcases step_sys hs with ⟨e, _⟩ | ⟨b, e, hb⟩
  · rw [e]; rfl
  · rw [e]; simp [Sys.collect, hb]

/-- The runner, and the task it received as transaction `T`. -/
theorem Inv.sender (h : Inv c lf now as s) (hf : Fresh c lf now as) {k : Nat} {p : Packet} (hk : s.packets[k]? = some p) :
    ∃ (r : Runner) (o : Remote.Obs) (bs : List Remote.Act), s.runners[p.sender]? = some r ∧ o ∈ r.st.trace ∧ request c r.cfg o = some p.req ∧
      Remote.Reach r.cfg.rem bs r.st ∧
      ∀ (q : Remote.StartResp) (T v x : Nat), .received q ∈ r.st.trace → q.txn = T → s.sys.handlers[x]? = some (.done (some (.task T v))) → q = resp c.tr.g T v := by
  obtain ⟨r, o, hj, ho, hreq⟩ := h.sent k p hk
  obtain ⟨bs, hre⟩ := h.reach _ _ hj
  refine ⟨r, o, bs, hj, ho, hreq, hre, ?_⟩
  intro q T v x hq e hx
  obtain ⟨x', T', v', hx', e3⟩ := h.recvTask hj hq
  have : T' = T := by rw [e3, resp_txn] at e; exact e
  subst this
  have h1 := (h.tasks _ _ _ _ _ hj hx').1
  have ex := h.txn hf h1 hx
  subst ex
  rw [h1] at hx
  cases hx
  exact e3

/-! ### finish reports -/

theorem request_finish {r : RCfg} {o : Remote.Obs} {q : Sys.Request} (h : request c r o = some q) {T : Nat} {code : Int}
    {values : List (List (String × String))} {n : Option Nat} (hb : q.body = .finish T code values n) : ∃ b, o = .finish T code values b := by
  cases o <;> simp only [request, Option.some.injEq, reduceCtorEq] at h
  · subst h; cases hb
  · subst h; cases hb
  · subst h; simp only [Sys.Body.finish.injEq] at hb; exact ⟨_, by rw [hb.1, hb.2.1, hb.2.2.1]⟩

theorem end_origin (hr : Runs c (init c lf now) as s) (hf : Fresh c lf now as) :
    ∀ x ∈ Sys.collect (Sys.endRequests c) c (Sys.init c lf now) (served c lf now as),
      (∃ (k : Nat) (p : Packet) (n : Option Nat), s.packets[k]? = some p ∧ p.req.body = .finish x.1 x.2.2.1 x.2.2.2 n) ∧
      ∃ h : Nat, s.sys.handlers[h]? = some (.done (some (.task x.1 x.2.1))) := by
  refine Runs.snocInd (P := fun as s => Fresh c lf now as → ∀ x ∈ Sys.collect (Sys.endRequests c) c (Sys.init c lf now) (served c lf now as),
      (∃ (k : Nat) (p : Packet) (n : Option Nat), s.packets[k]? = some p ∧ p.req.body = .finish x.1 x.2.2.1 x.2.2.2 n) ∧
      ∃ h : Nat, s.sys.handlers[h]? = some (.done (some (.task x.1 x.2.1)))) ?_ ?_ hr hf
  · intro _ x hx; cases hx
  · intro as s a s' hr ih hs hf x hx
    have hf0 := hf.prefix hr
    have hi := hr.inv hf0
    rw [served_collect hi hr hs, List.mem_append] at hx
    rcases hx with hx | hx
    · obtain ⟨⟨k, p, n, h1, h2⟩, h, h3⟩ := ih hf0 x hx
      obtain ⟨p', h4, _, h5⟩ := step_packets hs h1
      exact ⟨⟨k, p', n, h4, by rw [h5]; exact h2⟩, h, step_done hs h3⟩
    · obtain ⟨b, hb, hx⟩ := List.mem_flatMap.1 hx
      obtain ⟨q, rfl⟩ : ∃ q, b = .request q := by
        cases b <;> first | exact ⟨_, rfl⟩ | (simp [Sys.endRequests] at hx)
      have hq : sysAct s a = [.request q] := by
        rcases step_sys hs with ⟨e, _⟩ | ⟨b', e, _⟩
        · rw [e] at hb; cases hb
        · rw [e, List.mem_singleton] at hb; rw [e, ← hb]
      simp only [Sys.endRequests] at hx
      split at hx
      · rename_i T code values n hbody
        split at hx
        · rename_i conn hl
          split at hx
          · rename_i hc
            rw [List.mem_singleton] at hx
            subst hx
            obtain ⟨k, p, h1, h2⟩ := sent_by_runner hs hq (by simp [harmless, hc.1, hbody])
            obtain ⟨h, h3⟩ := Sys.conns_done hi.run _ (Sys.mem_of_lookup hl)
            exact ⟨⟨k, p, n, h1, by rw [h2]; exact hbody⟩, h, step_done hs h3⟩
          · cases hx
        · cases hx
      · cases hx

/-- What a finish report of a remote runner means. -/
theorem end_true (hr : Runs c (init c lf now) as s) (hf : Fresh c lf now as) {T v : Nat} {code : Int} {values : List (List (String × String))}
    (hx : (T, v, code, values) ∈ Sys.collect (Sys.endRequests c) c (Sys.init c lf now) (served c lf now as)) :
    ∃ (i : Nat) (r : Runner) (story : List Remote.Obs), s.runners[i]? = some r ∧ Story (resp c.tr.g T v) code values story ∧
      story <:+: r.st.trace := by
  obtain ⟨⟨k, p, n, h1, h2⟩, h, h3⟩ := end_origin hr hf _ hx
  obtain ⟨r, o, bs, hj, ho, hreq, hre, hown⟩ := (hr.inv hf).sender hf h1
  obtain ⟨b, rfl⟩ := request_finish hreq h2
  obtain ⟨q, story, e, hst, hin⟩ := hre.finishOf ho
  have hq : Remote.Obs.received q ∈ r.st.trace := hin.subset (by cases hst <;> simp)
  have := hown q T v h hq e h3
  subst this
  exact ⟨_, r, story, hj, hst, hin⟩

/-! ### start reports -/

theorem begun_origin (hr : Runs c (init c lf now) as s) (hf : Fresh c lf now as) :
    ∀ x ∈ Sys.collect (Sys.begunRequests c) c (Sys.init c lf now) (served c lf now as),
      (∃ (k : Nat) (p : Packet), s.packets[k]? = some p ∧ p.req.body = .begun x.1 x.2.2.1 x.2.2.2.1 ∧ p.req.jobid = some (some x.2.2.2.2)) ∧
      ∃ h : Nat, s.sys.handlers[h]? = some (.done (some (.task x.1 x.2.1))) := by
  refine Runs.snocInd (P := fun as s => Fresh c lf now as → ∀ x ∈ Sys.collect (Sys.begunRequests c) c (Sys.init c lf now) (served c lf now as),
      (∃ (k : Nat) (p : Packet), s.packets[k]? = some p ∧ p.req.body = .begun x.1 x.2.2.1 x.2.2.2.1 ∧ p.req.jobid = some (some x.2.2.2.2)) ∧
      ∃ h : Nat, s.sys.handlers[h]? = some (.done (some (.task x.1 x.2.1)))) ?_ ?_ hr hf
  · intro _ x hx; cases hx
  · intro as s a s' hr ih hs hf x hx
    have hf0 := hf.prefix hr
    have hi := hr.inv hf0
    rw [served_collect hi hr hs, List.mem_append] at hx
    rcases hx with hx | hx
    · obtain ⟨⟨k, p, h1, h2, h2'⟩, h, h3⟩ := ih hf0 x hx
      obtain ⟨p', h4, _, h5⟩ := step_packets hs h1
      exact ⟨⟨k, p', h4, by rw [h5]; exact h2, by rw [h5]; exact h2'⟩, h, step_done hs h3⟩
    · obtain ⟨b, hb, hx⟩ := List.mem_flatMap.1 hx
      obtain ⟨q, rfl⟩ : ∃ q, b = .request q := by
        cases b <;> first | exact ⟨_, rfl⟩ | (simp [Sys.begunRequests] at hx)
      have hq : sysAct s a = [.request q] := by
        rcases step_sys hs with ⟨e, _⟩ | ⟨b', e, _⟩
        · rw [e] at hb; cases hb
        · rw [e, List.mem_singleton] at hb; rw [e, ← hb]
      simp only [Sys.begunRequests] at hx
      split at hx
      · rename_i t T host pid j ha hbody hj
        split at hx
        · rename_i ht
          split at hx
          · rename_i conn hl
            rw [List.mem_singleton] at hx
            subst hx ht
            obtain ⟨k, p, h1, h2⟩ := sent_by_runner hs hq (by simp [harmless, ha, hbody])
            obtain ⟨h, h3⟩ := Sys.conns_done hi.run _ (Sys.mem_of_lookup hl)
            exact ⟨⟨k, p, h1, by rw [h2]; exact hbody, by rw [h2]; exact hj⟩, h, step_done hs h3⟩
          · cases hx
        · cases hx
      · cases hx

/-- What a start report of a remote runner means. -/
theorem begun_true (hr : Runs c (init c lf now) as s) (hf : Fresh c lf now as) {T v : Nat} {host : String} {pid : Nat} {job : String}
    (hx : (T, v, host, pid, job) ∈ Sys.collect (Sys.begunRequests c) c (Sys.init c lf now) (served c lf now as)) :
    ∃ (i : Nat) (r : Runner) (p : Option Nat), s.runners[i]? = some r ∧ r.cfg.host = host ∧ r.cfg.job = job ∧ pid = p.getD 0 ∧
      [.received (resp c.tr.g T v), .spawn p, .begun T pid] <:+: r.st.trace := by
  obtain ⟨⟨k, p, h1, h2, h2'⟩, h, h3⟩ := begun_origin hr hf _ hx
  obtain ⟨r, o, bs, hj, ho, hreq, hre, hown⟩ := (hr.inv hf).sender hf h1
  obtain ⟨rfl, hhost⟩ := request_begun hreq h2
  obtain ⟨q, p', e, hp, hin⟩ := hre.begunOf ho
  have hq : Remote.Obs.received q ∈ r.st.trace := hin.subset (by simp)
  have := hown q T v h hq e h3
  subst this
  refine ⟨_, r, p', hj, hhost.symm, ?_, hp, hin⟩
  simp only [request, Option.some.injEq] at hreq
  rw [← hreq] at h2'
  simpa using h2'

end Verif.Cluster
