import Verif.Proof.Cluster6
import Verif.Proof.Fairly3
import Verif.Proof.Grid2
import Verif.Spec.Runners

/-!
# Jobs of runners and of connections (proofs)

A connection belongs to the runner that got the task: so the `/end` of a runner is never refused because of the job.
-/

namespace Verif.Sys
open Verif Verif.Tracker

variable {c : Cfg} {lf : LogFile} {now : Int} {s s' : State} {as : List Act} {a : Act}

/-- Where connections are dropped without a report. -/
theorem forgets (hs : step c s a = .ok s') : s'.forgotten = s.forgotten ∨
    (∃ r j T code values next conn, a = .request r ∧ r.auth = some c.secret ∧ r.body = .finish T code values next ∧ r.jobid = some (some j) ∧
      s.conns.lookup T = some conn ∧ conn.jobid ≠ j) ∨
    ∃ h v j T tm conn, a = .hInsert h ∧ s.handlers[h]? = some (.timed v j T tm) ∧ s.conns.lookup T = some conn := by
  cases a with
  | request r =>
    simp only [step] at hs
    split at hs
    · cases hs
    · unfold takeRequest at hs
      split at hs
      · simp only [Res.ok.injEq] at hs; subst hs; exact .inl rfl
      · rename_i t ht
        split at hs
        · simp only [Res.ok.injEq] at hs; subst hs; exact .inl rfl
        · split at hs
          · simp only [Res.ok.injEq] at hs; subst hs; exact .inl rfl
          · rename_i hsec
            split at hs
            · simp only [Res.ok.injEq] at hs; subst hs; left; unfold startH; repeat' split
              all_goals rfl
            · left
              unfold begunH at hs
              repeat' split at hs
              all_goals first
                | (simp only [Res.ok.injEq] at hs; subst hs; rfl)
                | (obtain ⟨t, _, rfl⟩ := trk_ok.1 hs; rfl)
            · rename_i T code values next hb
              simp only [Res.ok.injEq] at hs; subst hs
              unfold endH
              split
              · rename_i j hj
                split
                · exact .inl rfl
                · rename_i conn hl
                  split
                  · rename_i hne
                    refine .inr (.inl ⟨r, j, T, code, values, next, conn, rfl, ?_, hb, hj, hl, hne⟩)
                    rw [ht]; simp only [ne_eq, not_not] at hsec; rw [hsec]
                  · exact .inl rfl
              · exact .inl rfl
            · left
              unfold pingH at hs
              split at hs
              · simp only [Res.ok.injEq] at hs; subst hs; rfl
              · rename_i cn _
                cases hi : TimeWheel.insert (TimeWheel.cancel s.wheel cn.timer) pingTimeout ‹Nat› with
                | ok r => rw [hi] at hs; simp only [Res.bind, Res.ok.injEq] at hs; subst hs; rfl
                | err x => rw [hi] at hs; cases hs
                | panic x => rw [hi] at hs; cases hs
            · simp only [Res.ok.injEq] at hs; subst hs; exact .inl rfl
            · cases hs
  | hInsert h =>
    simp only [step] at hs
    split at hs
    · rename_i v j T tm hx
      simp only [Res.ok.injEq] at hs; subst hs
      cases hl : s.conns.lookup T with
      | none => left; simp [setH]
      | some cn => exact .inr (.inr ⟨h, v, j, T, tm, cn, rfl, hx, hl⟩)
    · cases hs
  | hTimer h txn =>
    simp only [step] at hs
    split at hs
    · cases hi : TimeWheel.insert s.wheel pingTimeout txn with
      | ok r => rw [hi] at hs; simp only [Res.bind, Res.ok.injEq] at hs; subst hs; exact .inl rfl
      | err x => rw [hi] at hs; cases hs
      | panic x => rw [hi] at hs; cases hs
    · cases hs
  | _ =>
    left
    simp only [step] at hs
    repeat' split at hs
    all_goals first
      | (cases hs; done)
      | (obtain ⟨t, _, rfl⟩ := trk_ok.1 hs; rfl)
      | (simp only [Res.ok.injEq] at hs; subst hs; rfl)

end Verif.Sys

namespace Verif.Cluster
open Verif

variable {c : Sys.Cfg} {lf : LogFile} {now : Int} {s s' : State} {as : List Act} {a : Act}

/-- The job a handler works for. -/
def jobOf : Sys.Handler → Option String
  | .toRecv _ j | .inRecv _ j | .got _ j | .timed _ j _ _ | .waiting _ _ j => some j
  | .ending conn _ _ _ | .reporting conn _ _ _ => some conn.jobid
  | _ => none

/-- Packets stay, with the handler they have got. -/
theorem step_packets2 (hs : step c s a = .ok s') {k : Nat} {p : Packet} (hk : s.packets[k]? = some p) :
    ∃ p', s'.packets[k]? = some p' ∧ p'.sender = p.sender ∧ p'.req = p.req ∧ ∀ h, p.handler = some h → p'.handler = some h := by
  have hlt : k < s.packets.length := (List.getElem?_eq_some_iff.1 hk).1
  cases a with
  | server b =>
    simp only [step] at hs
    split at hs
    · cases hs
    · obtain ⟨t, _, e⟩ := Grid.bind_ok hs; cases e; exact ⟨p, hk, rfl, rfl, fun _ h => h⟩
  | other b =>
    simp only [step] at hs
    split at hs
    · obtain ⟨t, _, e⟩ := Grid.bind_ok hs; cases e; exact ⟨p, hk, rfl, rfl, fun _ h => h⟩
    · cases hs
  | join cfg => simp only [step, Res.ok.injEq] at hs; subst hs; exact ⟨p, hk, rfl, rfl, fun _ h => h⟩
  | runner i b =>
    simp only [step] at hs
    split at hs
    · split at hs
      · cases hs
      · obtain ⟨t, _, e⟩ := Grid.bind_ok hs; cases e; exact ⟨p, packets_keep hk, rfl, rfl, fun _ h => h⟩
    · cases hs
  | arrive k' =>
    simp only [step] at hs
    split at hs
    · rename_i i q hk'
      obtain ⟨t, _, e⟩ := Grid.bind_ok hs; cases e
      by_cases e : k' = k
      · subst e
        rw [hk] at hk'
        cases hk'
        exact ⟨_, List.getElem?_set_self hlt, rfl, rfl, fun h e => by cases e⟩
      · exact ⟨p, by simp only [List.getElem?_set_ne e]; exact hk, rfl, rfl, fun _ h => h⟩
    · cases hs
  | answer i =>
    simp only [step] at hs
    repeat' split at hs
    all_goals first | cases hs | exact ⟨p, by rw [(hear_packets hs).1]; exact hk, rfl, rfl, fun _ h => h⟩
  | fail i =>
    simp only [step] at hs
    repeat' split at hs
    all_goals first | cases hs | exact ⟨p, by rw [(hear_packets hs).1]; exact hk, rfl, rfl, fun _ h => h⟩

theorem hMoves_job {sc : Sys.Cfg} {t : Sys.State} {h : Nat} {b : Sys.Act} {x x' : Sys.Handler} (hm : Sys.HMoves sc t h b x x') {j : String}
    (hj : jobOf x' = some j) : jobOf x = some j := by
  cases hm <;> first | exact hj | cases hj

structure Jobs (s : State) : Prop where
  handler : ∀ (h : Nat) (x : Sys.Handler) (j : String), s.sys.handlers[h]? = some x → jobOf x = some j →
    ∃ (k : Nat) (p : Packet), s.packets[k]? = some p ∧ p.handler = some h ∧ p.req.jobid = some (some j)
  conn : ∀ x ∈ s.sys.conns, ∃ (h k : Nat) (p : Packet), s.sys.handlers[h]? = some (.done (some (.task x.1 x.2.node))) ∧
    s.packets[k]? = some p ∧ p.handler = some h ∧ p.req.jobid = some (some x.2.jobid)
  task : ∀ (i : Nat) (r : Runner) (h T v : Nat), s.runners[i]? = some r → (h, T, v) ∈ r.tasks →
    ∃ (k : Nat) (p : Packet), s.packets[k]? = some p ∧ p.handler = some h ∧ p.sender = i

/-- The new handler of a request is that of a packet, unless it has no job. -/
theorem added (hs : step c s a = .ok s') {r : Sys.Request} {x : Sys.Handler} (ha : sysAct s a = [.request r])
    (hx : Sys.Adds c s.sys r x) {j : String} (hj : jobOf x = some j) :
    ∃ (k : Nat) (p : Packet), s'.packets[k]? = some p ∧ p.handler = some s.sys.handlers.length ∧ p.req.jobid = some (some j) := by
  have hb : r.auth = some c.secret ∧ r.jobid = some (some j) ∧ harmless c r = false := by
    cases hx with
    | done x hx => cases hj
    | start rt j h1 h2 h3 h4 => cases hj; exact ⟨h1, h3, by simp [harmless, h1, h4]⟩
    | ending T conn code values next h1 h2 h3 h4 => cases hj; exact ⟨h1, h3, by simp [harmless, h1, h4]⟩
  cases a with
  | server b =>
    simp only [sysAct, List.cons.injEq, and_true] at ha; subst ha
    simp [step, isRequest] at hs
  | other q =>
    simp only [sysAct, List.cons.injEq, and_true, Sys.Act.request.injEq] at ha; subst ha
    simp [step, hb.2.2] at hs
  | arrive k =>
    simp only [step] at hs
    split at hs
    · rename_i i q hk
      obtain ⟨t, _, e⟩ := Grid.bind_ok hs; cases e
      simp only [sysAct, hk, List.cons.injEq, and_true, Sys.Act.request.injEq] at ha; subst ha
      exact ⟨k, _, List.getElem?_set_self (List.getElem?_eq_some_iff.1 hk).1, rfl, hb.2.1⟩
    · cases hs
  | join _ | runner _ _ | answer _ | fail _ => simp [sysAct] at ha

theorem Jobs.step (h : Jobs s) (hi : Inv c lf now as s) (hs : Cluster.step c s a = .ok s') : Jobs s' where
  handler := by
    intro n x j hx hj
    have keep : (∃ (k : Nat) (p : Packet), s.packets[k]? = some p ∧ p.handler = some n ∧ p.req.jobid = some (some j)) →
        ∃ (k : Nat) (p : Packet), s'.packets[k]? = some p ∧ p.handler = some n ∧ p.req.jobid = some (some j) := by
      rintro ⟨k, p, h1, h2, h3⟩
      obtain ⟨p', h4, _, h5, h6⟩ := step_packets2 hs h1
      exact ⟨k, p', h4, h6 _ h2, by rw [h5]; exact h3⟩
    rcases step_sys hs with ⟨_, e⟩ | ⟨b, hb, hst⟩
    · rw [e] at hx; exact keep (h.handler n x j hx hj)
    · rcases Sys.step_handlers hst with e | ⟨r, y, rfl, e, hadd⟩ | ⟨m, y, y', hy, e, hm⟩
      · rw [e] at hx; exact keep (h.handler n x j hx hj)
      · rw [e] at hx
        by_cases hn : n < s.sys.handlers.length
        · rw [List.getElem?_append_left hn] at hx; exact keep (h.handler n x j hx hj)
        · rw [List.getElem?_append_right (by omega)] at hx
          obtain ⟨e1, e2⟩ : n - s.sys.handlers.length = 0 ∧ y = x := by
            cases hd : n - s.sys.handlers.length with
            | zero => rw [hd] at hx; simpa using hx
            | succ d => rw [hd] at hx; simp at hx
          subst e2
          have e3 : n = s.sys.handlers.length := by omega
          rw [e3]
          exact added hs hb hadd hj
      · rw [e] at hx
        rcases getElem?_set_cases hx with ⟨rfl, rfl, _⟩ | ⟨_, hx⟩
        · exact keep (h.handler n y j hy (hMoves_job hm hj))
        · exact keep (h.handler n x j hx hj)
  conn := by
    intro x hx
    have old : ∀ y ∈ s.sys.conns, x.1 = y.1 → x.2.node = y.2.node → x.2.jobid = y.2.jobid → 
        ∃ (h k : Nat) (p : Packet), s'.sys.handlers[h]? = some (.done (some (.task x.1 x.2.node))) ∧
          s'.packets[k]? = some p ∧ p.handler = some h ∧ p.req.jobid = some (some x.2.jobid) := by
      intro y hy e1 e2 e3
      obtain ⟨n, k, p, h1, h2, h3, h4⟩ := h.conn y hy
      obtain ⟨p', h5, _, h6, h7⟩ := step_packets2 hs h2
      exact ⟨n, k, p', by rw [e1, e2]; exact step_done hs h1, h5, h7 _ h3, by rw [h6, e3]; exact h4⟩
    rcases step_sys hs with ⟨_, e⟩ | ⟨b, hb, hst⟩
    · rw [e] at hx; exact old x hx rfl rfl rfl
    · have hcv := Sys.cview hst x hx
      cases hcv with
      | old y _ hy e1 e2 e3 _ => exact old y hy e1 e2 e3
      | begun y _ host pid hy e1 e2 e3 _ _ => exact old y hy e1 e2 e3
      | new n _ tm hf hn =>
        obtain ⟨k, p, h1, h2, h3⟩ := h.handler n _ x.2.jobid hn rfl
        obtain ⟨p', h5, _, h6, h7⟩ := step_packets2 hs h1
        refine ⟨n, k, p', ?_, h5, h7 _ h2, by rw [h6]; exact h3⟩
        simp only [Sys.step, hn, Res.ok.injEq] at hst
        rw [← hst]
        simp [Sys.setH, (List.getElem?_eq_some_iff.1 hn).1]
  task := by
    intro i r n T v hr hm
    have keep : (∃ (k : Nat) (p : Packet), s.packets[k]? = some p ∧ p.handler = some n ∧ p.sender = i) →
        ∃ (k : Nat) (p : Packet), s'.packets[k]? = some p ∧ p.handler = some n ∧ p.sender = i := by
      rintro ⟨k, p, h1, h2, h3⟩
      obtain ⟨p', h4, h5, _, h6⟩ := step_packets2 hs h1
      exact ⟨k, p', h4, h6 _ h2, by rw [h5]; exact h3⟩
    have hears : ∀ (i' : Nat) (r0 : Runner) (n' : Nat) (y : Option Sys.Reply), s.runners[i']? = some r0 →
        hear c s i' r0 n' y = .ok s' → (y = none ∨ ∃ (k : Nat) (p : Packet), s.packets[k]? = some p ∧ p.handler = some n' ∧ p.sender = i') →
        ∃ (k : Nat) (p : Packet), s'.packets[k]? = some p ∧ p.handler = some n ∧ p.sender = i := by
      intro i' r0 n' y hi' hh hor
      unfold hear at hh
      split at hh
      · rename_i b got hg
        obtain ⟨t, _, e⟩ := Grid.bind_ok hh; cases e
        rcases getElem?_set_cases hr with ⟨rfl, rfl, _⟩ | ⟨_, hr⟩
        · rcases List.mem_append.1 hm with hm | hm
          · exact keep (h.task _ r0 n T v hi' hm)
          · obtain ⟨z, hz, e⟩ := List.mem_map.1 hm
            cases e
            rcases hor with rfl | hor
            · exfalso
              unfold Cluster.hears at hg
              repeat' split at hg
              all_goals (first | (cases hg; done) | (simp only [Option.some.injEq, Prod.mk.injEq] at hg; obtain ⟨_, rfl⟩ := hg; first | (cases hz; done) | contradiction))
            · exact hor
        · exact keep (h.task i r n T v hr hm)
      · cases hh
    cases a with
    | answer i' =>
      simp only [Cluster.step] at hs
      split at hs
      · rename_i r0 hr0
        split at hs
        · rename_i n' hn'
          split at hs
          · obtain ⟨k, hk, hb⟩ := Option.bind_eq_some_iff.1 hn'
            obtain ⟨p, hp, hph⟩ := Option.bind_eq_some_iff.1 hb
            obtain ⟨p2, hp2, hse⟩ := hi.waits _ _ _ hr0 hk
            rw [hp] at hp2; cases hp2
            exact hears i' r0 n' _ hr0 hs (.inr ⟨k, p, hp, hph, hse⟩)
          · cases hs
        · cases hs
      · cases hs
    | fail i' =>
      simp only [Cluster.step] at hs
      split at hs
      · rename_i r0 hr0
        split at hs
        · exact hears i' r0 0 none hr0 hs (.inl rfl)
        · cases hs
      · cases hs
    | server b =>
      simp only [Cluster.step] at hs
      split at hs
      · cases hs
      · obtain ⟨t, _, e⟩ := Grid.bind_ok hs; cases e; exact keep (h.task i r n T v hr hm)
    | other b =>
      simp only [Cluster.step] at hs
      split at hs
      · obtain ⟨t, _, e⟩ := Grid.bind_ok hs; cases e; exact keep (h.task i r n T v hr hm)
      · cases hs
    | arrive k =>
      have hs0 := hs
      simp only [Cluster.step] at hs
      split at hs
      · obtain ⟨t, _, e⟩ := Grid.bind_ok hs; cases e; exact keep (h.task i r n T v hr hm)
      · cases hs
    | join cfg =>
      have hs0 := hs
      simp only [Cluster.step, Res.ok.injEq] at hs
      subst hs
      rcases getElem?_snoc_cases hr with h1 | ⟨_, rfl⟩
      · exact keep (h.task i r n T v h1 hm)
      · cases hm
    | runner i' b' =>
      rcases step_runner hs hr with hsame | ⟨cfg, rfl⟩ | ⟨r0, b, ha, h0, _, _, e, _⟩ | ⟨r0, b, x, h1, got, ha, h0, hh, _, e, _⟩
      · exact keep (h.task i r n T v hsame hm)
      · cases hm
      · rw [e] at hm; exact keep (h.task i r0 n T v h0 hm)
      · exact absurd rfl (ha _ _)

theorem Jobs.init (c : Sys.Cfg) (lf : LogFile) (now : Int) : Jobs (init c lf now) where
  handler := by intro h x j hx; simp [Cluster.init, Sys.init] at hx
  conn := by intro x hx; simp [Cluster.init, Sys.init] at hx
  task := by intro i r h T v hr; simp [Cluster.init] at hr

theorem Runs.jobs (hr : Runs c (Cluster.init c lf now) as s) (hf : Fresh c lf now as) : Jobs s := by
  refine Runs.snocInd (P := fun as s => Fresh c lf now as → Jobs s) (fun _ => .init c lf now) ?_ hr hf
  intro as s a s' hr ih hs hf
  have hf' := Fresh.prefix hr hf
  exact (ih hf').step (hr.inv hf') hs

/-- What a packet asks for comes from its sender's job. -/
theorem Inv.packetJob (hi : Inv c lf now as s) {k : Nat} {p : Packet} (hk : s.packets[k]? = some p) {r : Runner}
    (hr : s.runners[p.sender]? = some r) : p.req.jobid = some (some r.cfg.job) := by
  obtain ⟨r', o, h1, _, h2⟩ := hi.sent k p hk
  rw [hr] at h1; cases h1
  cases o <;> simp only [request] at h2 <;> first | cases h2 | (simp only [Option.some.injEq] at h2; rw [← h2])

/-- A handler with transaction `T` is the one the connection came from. -/
theorem lookup_handler (hi : Inv c lf now as s) (hj : Jobs s) (hf : Fresh c lf now as) {h T : Nat} {conn : Sys.Conn}
    (hl : s.sys.conns.lookup T = some conn) {x : Sys.Handler} (hx : s.sys.handlers[h]? = some x) (ht : T ∈ Sys.tokT x) :
    ∃ (k : Nat) (p : Packet), s.packets[k]? = some p ∧ p.handler = some h ∧ p.req.jobid = some (some conn.jobid) ∧
      x = .done (some (.task T conn.node)) := by
  obtain ⟨h', k, p, h1, h2, h3, h4⟩ := hj.conn _ (Sys.mem_of_lookup hl)
  have e : h = h' := by
    refine unique_index (f := Sys.tokT) (x := T) ?_ hx h1 ht (by simp [Sys.tokT, Sys.tok])
    rw [Sys.tokT_drawn hi.run]
    exact List.nodup_iff_count.1 hf T
  subst e
  rw [hx] at h1
  exact ⟨k, p, h2, h3, h4, Option.some.inj h1⟩

/-- The connection is that of the job of the runner that reports. -/
theorem report_job (hr : Runs c (Cluster.init c lf now) as s) (hf : Fresh c lf now as) {k : Nat} {p : Packet} (hk : s.packets[k]? = some p)
    {T : Nat} {code : Int} {values : List (List (String × String))} {next : Option Nat} (hb : p.req.body = .finish T code values next)
    {conn : Sys.Conn} (hl : s.sys.conns.lookup T = some conn) {r : Runner} (hr1 : s.runners[p.sender]? = some r) : conn.jobid = r.cfg.job := by
  have hi := hr.inv hf
  have hj := hr.jobs hf
  obtain ⟨r', o, hr2, ho, hrq⟩ := hi.sent k p hk
  rw [hr1] at hr2
  cases hr2
  obtain ⟨nx, rfl⟩ := request_finish hrq hb
  obtain ⟨bs, hre⟩ := hi.reach _ _ hr1
  obtain ⟨q, story, e, hst', hin⟩ := hre.finishOf ho
  have hq : Remote.Obs.received q ∈ r.st.trace := hin.subset (by cases hst' <;> simp)
  obtain ⟨x, T', v', hx, e3⟩ := hi.recvTask hr1 hq
  have e4 : T' = T := by rw [e3, resp_txn] at e; exact e
  subst e4
  have h6 := (hi.tasks _ _ _ _ _ hr1 hx).1
  obtain ⟨k2, p2, h7, h8, h9⟩ := hj.task _ _ _ _ _ hr1 hx
  obtain ⟨k3, p3, h10, h11, h12, _⟩ := lookup_handler hi hj hf hl h6 (by simp [Sys.tokT, Sys.tok])
  have e5 := hi.hinj _ _ _ _ _ h7 h10 h8 h11
  subst e5
  rw [h7] at h10
  cases h10
  rw [hi.packetJob h7 (by rw [h9]; exact hr1)] at h12
  simp only [Option.some.injEq] at h12
  exact h12.symm

/-- No connection is dropped without a report. -/
theorem never_forgets (hr : Runs c (Cluster.init c lf now) as s) (hf : Fresh c lf now as) : s.sys.forgotten = [] := by
  refine Runs.snocInd (P := fun as s => Fresh c lf now as → s.sys.forgotten = []) (fun _ => rfl) ?_ hr hf
  intro as s a s' hr ih hs hf
  have hf' := Fresh.prefix hr hf
  have h0 := ih hf'
  have hi := hr.inv hf'
  have hj := hr.jobs hf'
  rcases step_sys hs with ⟨_, e⟩ | ⟨b, hb, hst⟩
  · rw [e]; exact h0
  rcases Sys.forgets hst with e | ⟨q, j, T, code, values, next, conn, rfl, h1, h2, h3, h4, h5⟩ | ⟨h, v, j, T, tm, conn, rfl, h1, h2⟩
  · rw [e]; exact h0
  · exfalso
    obtain ⟨k, p, hk, rfl⟩ : ∃ (k : Nat) (p : Packet), s.packets[k]? = some p ∧ p.req = q := by
      cases a with
      | server b =>
        simp only [sysAct, List.cons.injEq, and_true] at hb; subst hb
        simp [step, isRequest] at hs
      | other q' =>
        simp only [sysAct, List.cons.injEq, and_true, Sys.Act.request.injEq] at hb; subst hb
        simp [step, harmless, h1, h2] at hs
      | arrive k =>
        simp only [sysAct] at hb
        split at hb
        · rename_i p hp
          simp only [List.cons.injEq, and_true, Sys.Act.request.injEq] at hb
          exact ⟨k, p, hp, hb⟩
        · cases hb
      | join _ | runner _ _ | answer _ | fail _ => simp [sysAct] at hb
    obtain ⟨r, o, hr1, _, _⟩ := hi.sent k p hk
    rw [hi.packetJob hk hr1] at h3
    simp only [Option.some.injEq] at h3
    rw [report_job hr hf' hk h2 h4 hr1] at h5
    exact h5 h3
  · exfalso
    obtain ⟨_, _, _, _, _, e⟩ := lookup_handler hi hj hf' h2 h1 (by simp [Sys.tokT, Sys.tok])
    cases e

end Verif.Cluster
