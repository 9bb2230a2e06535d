import Verif.Proof.Runners3

/-!
# Runs in which nothing goes wrong: every connection ends (proofs)
-/

namespace Verif.Cluster
open Verif
open Verif.Tracker (Good)

variable {c : Sys.Cfg} {lf : LogFile} {now : Int} {s s' : State} {as : List Act} {a : Act} {σ : Nat → State} {α : Nat → Act}

/-- The request a runner waits for is that of the place where it is. -/
def Fits : Remote.Phase → Sys.Body → Prop
  | .begun q _, b => ∃ host pid, b = .begun q.txn host pid
  | .ending q _, b => ∃ code values next, b = .finish q.txn code values next
  | .starting, b => ∃ rt, b = .start rt
  | _, _ => False

/-- One step of a runner. -/
theorem ready_step {rc : RCfg} {st st' : Remote.State} {b : Remote.Act} (hs : Remote.step rc.rem st b = .ok st') (ha : isAnswer b = false)
    (hl : st.lost = false) (hb : fails b = false) (hlo : b ≠ .lose)
    (hsp : ∀ q, st.phase = .got q → ¬ (q.cmdline = [] ∨ q.inputFd = some 3)) :
    st'.lost = false ∧ (∀ T, atTask st.phase = some T → atTask st'.phase = some T) ∧
    (((st'.trace.drop st.trace.length).filterMap (request c rc) = [] ∧
        (st'.phase = st.phase ∨ awaiting st.phase = false ∧ awaiting st'.phase = false)) ∨
      awaiting st.phase = false ∧ ∃ q, (st'.trace.drop st.trace.length).filterMap (request c rc) = [q] ∧ Fits st'.phase q.body) := by
  cases b <;> simp only [Remote.step] at hs <;> (try (cases ha; done)) <;> (try (cases hb; done)) <;> (try (exact absurd rfl hlo)) <;>
    repeat' split at hs
  all_goals first
    | (cases hs; done)
    | (simp only [Res.ok.injEq] at hs; subst hs
       simp_all [Remote.State.goto, atTask, awaiting, Fits, request, fails]
       done)
    | skip
  rename_i r out e
  simp only [Res.ok.injEq] at hs; subst hs
  refine ⟨hl, fun T h => by rw [e] at h; exact h, .inr ⟨by rw [e]; rfl, ?_⟩⟩
  cases out <;> simp [Remote.State.goto, Remote.endRequest, request, Fits]

/-- A runner gets an answer. -/
theorem heard_step {g : DiGraph Cmd} {rc : Remote.Cfg} {st st' : Remote.State} {b : Remote.Act} {x : Option Sys.Reply} {got : List (Nat × Nat)}
    (hh : hears g st.phase x = some (b, got)) (hs : Remote.step rc st b = .ok st') (hl : st.lost = false) (ht : Tame st.phase) :
    st'.lost = false ∧ awaiting st'.phase = false ∧
    (∀ T v, x = some (.task T v) → (∃ q p, st.phase = .begun q p) ∨ got = [(T, v)]) ∧
    (∀ T, atTask st.phase = some T → atTask st'.phase = some T ∨ (∃ q p, st.phase = .begun q p ∧ q.txn = T ∧ x ≠ some .ok) ∨
      ∃ q n, st.phase = .ending q n ∧ q.txn = T) ∧
    ∀ T v, (T, v) ∈ got → atTask st'.phase = some T := by
  unfold hears at hh
  repeat' split at hh
  all_goals first
    | (cases hh; done)
    | (simp only [Option.some.injEq, Prod.mk.injEq] at hh
       obtain ⟨rfl, rfl⟩ := hh
       simp only [Remote.step] at hs
       repeat' split at hs
       all_goals first
         | (cases hs; done)
         | (simp only [Res.ok.injEq] at hs; subst hs; simp_all [Remote.State.goto, atTask, awaiting, resp, Tame]))

structure Smooth (s : State) : Prop where
  ready : ∀ (i : Nat) (r : Runner), s.runners[i]? = some r → r.st.lost = false
  idle : ∀ (i : Nat) (r : Runner), s.runners[i]? = some r → awaiting r.st.phase = false → r.waits = none
  waits : ∀ (i : Nat) (r : Runner), s.runners[i]? = some r → awaiting r.st.phase = true → ∃ (m : Nat) (p : Packet), r.waits = some m ∧
    s.packets[m]? = some p ∧ p.sender = i ∧ Fits r.st.phase p.req.body
  told : ∀ (m : Nat) (p : Packet) (r : Runner), s.packets[m]? = some p → s.runners[p.sender]? = some r → r.waits = some m ∨
    ∃ (h : Nat) (y : Option Sys.Reply), p.handler = some h ∧ s.sys.handlers[h]? = some (.done y) ∧
      ∀ T v, y = some (.task T v) → (h, T, v) ∈ r.tasks
  past : ∀ (i : Nat) (r : Runner) (x T v : Nat), s.runners[i]? = some r → (x, T, v) ∈ r.tasks → atTask r.st.phase = some T ∨
    (∃ (m : Nat) (p : Packet) (code : Int) (values : List (List (String × String))) (next : Option Nat), s.packets[m]? = some p ∧
      p.req.body = .finish T code values next) ∨ T ∉ s.sys.conns.map (·.1)

/-- What is past stays so. -/
theorem past_stays (hi : Inv c lf now as s) (hf : Fresh c lf now as) (hs : step c s a = .ok s') {i : Nat} {r : Runner} {x T v : Nat}
    (h0 : s.runners[i]? = some r) (hx : (x, T, v) ∈ r.tasks)
    (h : (∃ (m : Nat) (p : Packet) (code : Int) (values : List (List (String × String))) (next : Option Nat), s.packets[m]? = some p ∧
      p.req.body = .finish T code values next) ∨ T ∉ s.sys.conns.map (·.1)) :
    (∃ (m : Nat) (p : Packet) (code : Int) (values : List (List (String × String))) (next : Option Nat), s'.packets[m]? = some p ∧
      p.req.body = .finish T code values next) ∨ T ∉ s'.sys.conns.map (·.1) := by
  rcases h with ⟨m, p, code, values, next, h1, h2⟩ | h
  · obtain ⟨p', h3, _, h4, _⟩ := step_packets2 hs h1
    exact .inl ⟨m, p', code, values, next, h3, by rw [h4]; exact h2⟩
  · exact .inr (keys_out hi hf hs (hi.tasks _ _ _ _ _ h0 hx).1 h)

/-- The runners do nothing. -/
theorem Smooth.still (h : Smooth s) (hi : Inv c lf now as s) (hf : Fresh c lf now as) (hs : step c s a = .ok s')
    (h1 : ∀ (i : Nat) (r : Runner), s.runners[i]? = some r → s'.runners[i]? = some r)
    (h2 : ∀ (i : Nat) (r : Runner), s'.runners[i]? = some r → s.runners[i]? = some r ∨ ∃ cfg, r = ⟨cfg, Remote.init cfg.rem, none, []⟩)
    (h3 : ∀ (k : Nat) (p' : Packet), s'.packets[k]? = some p' → ∃ p : Packet, s.packets[k]? = some p) : Smooth s' where
  ready := by
    intro i r hr
    rcases h2 i r hr with hr | ⟨cfg, rfl⟩
    · exact h.ready i r hr
    · rfl
  idle := by
    intro i r hr
    rcases h2 i r hr with hr | ⟨cfg, rfl⟩
    · exact h.idle i r hr
    · exact fun _ => rfl
  waits := by
    intro i r hr ha
    rcases h2 i r hr with hr | ⟨cfg, rfl⟩
    · obtain ⟨m, p, e1, e2, e3, e4⟩ := h.waits i r hr ha
      obtain ⟨p', e5, e6, e7, _⟩ := step_packets2 hs e2
      exact ⟨m, p', e1, e5, e6.trans e3, by rw [e7]; exact e4⟩
    · cases ha
  told := by
    intro m p' r hp hr
    obtain ⟨p, hp0⟩ := h3 m p' hp
    obtain ⟨p2, e1, e2, e3, e4⟩ := step_packets2 hs hp0
    rw [hp] at e1
    cases e1
    obtain ⟨r0, _, hr0, _, _⟩ := hi.sent m p hp0
    have := h1 _ _ hr0
    rw [← e2, hr] at this
    cases this
    rcases h.told m p r hp0 hr0 with e | ⟨n, y, e5, e6, e7⟩
    · exact .inl e
    · exact .inr ⟨n, y, e4 _ e5, step_done hs e6, e7⟩
  past := by
    intro i r x T v hr hx
    rcases h2 i r hr with hr | ⟨cfg, rfl⟩
    · rcases h.past i r x T v hr hx with e | e
      · exact .inl e
      · exact .inr (past_stays hi hf hs hr hx e)
    · cases hx

theorem Smooth.runner (h : Smooth s) (hi : Inv c lf now as s) (hf : Fresh c lf now as) {i : Nat} {b : Remote.Act}
    (hs : step c s (.runner i b) = .ok s') (hb : fails b = false) (hlo : b ≠ .lose)
    (hsp : ∀ (r : Runner) q, s.runners[i]? = some r → r.st.phase = .got q → ¬ (q.cmdline = [] ∨ q.inputFd = some 3)) : Smooth s' := by
  have hs0 := hs
  simp only [step] at hs
  split at hs
  · rename_i r0 h0
    split at hs
    · cases hs
    · rename_i hna
      obtain ⟨st, hst, e⟩ := Grid.bind_ok hs
      simp only [Res.ok.injEq] at e
      obtain ⟨k1, k2, k3⟩ := ready_step (c := c) hst (by simpa using hna) (h.ready i r0 h0) hb hlo (fun q hq => hsp r0 q h0 hq)
      generalize hnew : (st.trace.drop r0.st.trace.length).filterMap (request c r0.cfg) = new at e k3
      subst e
      have hlen : i < s.runners.length := (List.getElem?_eq_some_iff.1 h0).1
      refine ⟨?_, ?_, ?_, ?_, ?_⟩
      · intro j r hr
        rcases getElem?_set_cases hr with ⟨rfl, rfl, _⟩ | ⟨_, hr⟩
        · exact k1
        · exact h.ready j r hr
      · intro j r hr ha
        rcases getElem?_set_cases hr with ⟨rfl, rfl, _⟩ | ⟨_, hr⟩
        · simp only at ha ⊢
          rcases k3 with ⟨rfl, k3 | k3⟩ | ⟨k3, q, rfl, k4⟩
          · rw [if_pos rfl]; rw [k3] at ha; exact h.idle _ r0 h0 ha
          · rw [if_pos rfl]; exact h.idle _ r0 h0 k3.1
          · exfalso
            revert k4 ha
            cases st.phase <;> simp [Fits, awaiting]
        · exact h.idle j r hr ha
      · intro j r hr ha
        rcases getElem?_set_cases hr with ⟨rfl, rfl, _⟩ | ⟨_, hr⟩
        · simp only at ha ⊢
          rcases k3 with ⟨rfl, k3 | k3⟩ | ⟨k3, q, rfl, k4⟩
          · rw [k3] at ha
            obtain ⟨m, p, e1, e2, e3, e4⟩ := h.waits _ r0 h0 ha
            exact ⟨m, p, by rw [if_pos rfl]; exact e1, packets_keep e2, e3, by rw [k3]; exact e4⟩
          · rw [k3.2] at ha; cases ha
          · exact ⟨s.packets.length, ⟨_, q, none⟩, by simp, by simp, rfl, k4⟩
        · obtain ⟨m, p, e1, e2, e3, e4⟩ := h.waits j r hr ha
          exact ⟨m, p, e1, packets_keep e2, e3, e4⟩
      · intro m p r hp hr
        rcases packets_cases hp with hpo | ⟨hl, hu, q, hq, rfl⟩
        · rcases getElem?_set_cases hr with ⟨e, rfl, _⟩ | ⟨_, hr⟩
          · simp only
            rcases k3 with ⟨rfl, k3⟩ | ⟨k3, q, rfl, k4⟩
            · rw [if_pos rfl]
              exact h.told m p r0 hpo (by rw [e]; exact h0)
            · right
              rcases h.told m p r0 hpo (by rw [e]; exact h0) with e1 | e1
              · rw [h.idle _ r0 h0 k3] at e1; cases e1
              · exact e1
          · exact h.told m p r hpo hr
        · left
          simp only at hr
          rw [List.getElem?_set_self hlen] at hr
          cases hr
          simp only
          rcases k3 with ⟨rfl, _⟩ | ⟨_, q', rfl, _⟩
          · cases hq
          · simp only [List.length_singleton] at hu
            rw [if_neg (by simp)]
            congr 1
            omega
      · intro j r x T v hr hx
        rcases getElem?_set_cases hr with ⟨rfl, rfl, _⟩ | ⟨_, hr⟩
        · rcases h.past _ r0 x T v h0 hx with e | e
          · exact .inl (k2 T e)
          · exact .inr (past_stays hi hf hs0 h0 hx e)
        · rcases h.past j r x T v hr hx with e | e
          · exact .inl e
          · exact .inr (past_stays hi hf hs0 hr hx e)
  · cases hs

theorem Smooth.answer (h : Smooth s) (hA : Arrived s) {i : Nat}
    (hs : step c s (.answer i) = .ok s') (ht : ∀ (r : Runner), s.runners[i]? = some r → Tame r.st.phase) : Smooth s' := by
  have hs0 := hs
  simp only [step] at hs
  split at hs
  · rename_i r0 h0
    split at hs
    · rename_i n hn
      split at hs
      · rename_i y hy
        obtain ⟨m0, hw, hb⟩ := Option.bind_eq_some_iff.1 hn
        obtain ⟨p0, hp0, hph⟩ := Option.bind_eq_some_iff.1 hb
        have haw : awaiting r0.st.phase = true := by
          cases e : awaiting r0.st.phase with
          | true => rfl
          | false => rw [h.idle i r0 h0 e] at hw; cases hw
        obtain ⟨m1, p1, e1, e2, e3, e4⟩ := h.waits i r0 h0 haw
        rw [hw] at e1; cases e1
        rw [hp0] at e2; cases e2
        unfold hear at hs
        split at hs
        · rename_i b got hg
          obtain ⟨st, hst, e⟩ := Grid.bind_ok hs
          simp only [Res.ok.injEq] at e
          obtain ⟨k1, k2, k3, k4, k5⟩ := heard_step hg hst (h.ready i r0 h0) (ht r0 h0)
          have hbeg : ∀ q p, r0.st.phase = .begun q p → y = some .ok ∨ (y = some .notFound ∧ q.txn ∉ s.sys.conns.map (·.1)) := by
            intro q p e
            rw [e] at e4
            obtain ⟨host, pid, e4⟩ := e4
            rcases hA.begun m0 p0 n q.txn host pid hp0 hph e4 with h5 | ⟨h5, h6⟩
            · rw [hy] at h5; cases h5; exact .inl rfl
            · rw [hy] at h5; cases h5; exact .inr ⟨rfl, h6⟩
          subst e
          refine ⟨?_, ?_, ?_, ?_, ?_⟩
          · intro j r hr
            rcases getElem?_set_cases hr with ⟨rfl, rfl, _⟩ | ⟨_, hr⟩
            · exact k1
            · exact h.ready j r hr
          · intro j r hr ha
            rcases getElem?_set_cases hr with ⟨rfl, rfl, _⟩ | ⟨_, hr⟩
            · rfl
            · exact h.idle j r hr ha
          · intro j r hr ha
            rcases getElem?_set_cases hr with ⟨rfl, rfl, _⟩ | ⟨_, hr⟩
            · simp only at ha; rw [k2] at ha; cases ha
            · exact h.waits j r hr ha
          · intro m p r hp hr
            rcases getElem?_set_cases hr with ⟨e, rfl, _⟩ | ⟨_, hr⟩
            · right
              simp only
              by_cases em : m = m0
              · subst em
                rw [hp0] at hp; cases hp
                refine ⟨n, y, hph, hy, fun T v e5 => ?_⟩
                rcases k3 T v e5 with ⟨q, p, e6⟩ | e6
                · rcases hbeg q p e6 with e7 | ⟨e7, _⟩ <;> (rw [e5] at e7; cases e7)
                · rw [e6]; simp
              · rcases h.told m p r0 hp (by rw [e]; exact h0) with e1 | ⟨n', y', f1, f2, f3⟩
                · rw [hw] at e1; cases e1; exact absurd rfl em
                · exact ⟨n', y', f1, f2, fun T v e => List.mem_append_left _ (f3 T v e)⟩
            · exact h.told m p r hp hr
          · intro j r x T v hr hx
            rcases getElem?_set_cases hr with ⟨rfl, rfl, _⟩ | ⟨_, hr⟩
            · rcases List.mem_append.1 hx with hx | hx
              · rcases h.past _ r0 x T v h0 hx with e | e
                · rcases k4 T e with e5 | ⟨q, p, e6, e7, e8⟩ | ⟨q, asked, e6, e7⟩
                  · exact .inl e5
                  · right; right
                    rcases hbeg q p e6 with e9 | ⟨_, e9⟩
                    · exact absurd e9 e8
                    · rw [← e7]; exact e9
                  · right; left
                    rw [e6] at e4
                    obtain ⟨code, values, next, e4⟩ := e4
                    exact ⟨m0, p0, code, values, next, hp0, by rw [← e7]; exact e4⟩
                · exact .inr e
              · obtain ⟨z, hz, e⟩ := List.mem_map.1 hx
                cases e
                exact .inl (k5 T v hz)
            · exact h.past j r x T v hr hx
        · cases hs
      · cases hs
    · cases hs
  · cases hs

theorem smooth (hg : Good c.tr) (hst : Sys.Startable c) (h : InfRun c lf now σ α) (hf : AllFresh c lf now α) (hw : Right σ α) (k : Nat)
    (hh : (σ k).sys.tr.token ≠ some .hard) : Smooth (σ k) := by
  induction k with
  | zero =>
    rw [h.start]
    exact ⟨by intro i r hi; simp [init] at hi, by intro i r hi; simp [init] at hi, by intro i r hi; simp [init] at hi,
      by intro m p r hm; simp [init] at hm, by intro i r x T v hi; simp [init] at hi⟩
  | succ k ih =>
    have hr := h.prefix k
    have hi := hr.inv (hf k)
    have hn : (σ k).sys.tr.token ≠ some .hard := by
      intro e
      have h1 := (h.sys hf).next k
      exact hh (Sys.hard_lasts hg (Sys.Reachable.inv hg ⟨_, hi.run⟩) h1.1 h1.2 e)
    have hsm := ih hn
    have hs := h.next k
    have hwk := hw k
    cases ha : α k with
    | server b =>
      rw [ha] at hs
      have hs0 := hs
      simp only [step] at hs
      split at hs
      · cases hs
      · obtain ⟨t, _, e⟩ := Grid.bind_ok hs
        simp only [Res.ok.injEq] at e
        exact hsm.still hi (hf k) hs0 (by rw [← e]; exact fun _ _ x => x) (by rw [← e]; exact fun _ _ x => .inl x) (by rw [← e]; exact fun _ p x => ⟨p, x⟩)
    | other b =>
      rw [ha] at hs
      have hs0 := hs
      simp only [step] at hs
      split at hs
      · obtain ⟨t, _, e⟩ := Grid.bind_ok hs
        simp only [Res.ok.injEq] at e
        exact hsm.still hi (hf k) hs0 (by rw [← e]; exact fun _ _ x => x) (by rw [← e]; exact fun _ _ x => .inl x) (by rw [← e]; exact fun _ p x => ⟨p, x⟩)
      · cases hs
    | join cfg =>
      rw [ha] at hs
      have hs0 := hs
      simp only [step, Res.ok.injEq] at hs
      refine hsm.still hi (hf k) hs0 ?_ ?_ (by rw [← hs]; exact fun _ p x => ⟨p, x⟩)
      · intro i r hr; rw [← hs]; simp only
        rw [List.getElem?_append_left (List.getElem?_eq_some_iff.1 hr).1]; exact hr
      · intro i r hr; rw [← hs] at hr
        rcases getElem?_snoc_cases hr with h1 | ⟨_, rfl⟩
        · exact .inl h1
        · exact .inr ⟨cfg, rfl⟩
    | arrive m =>
      rw [ha] at hs
      have hs0 := hs
      simp only [step] at hs
      split at hs
      · rename_i i q hm
        obtain ⟨t, _, e⟩ := Grid.bind_ok hs
        simp only [Res.ok.injEq] at e
        refine hsm.still hi (hf k) hs0 (by rw [← e]; exact fun _ _ x => x) (by rw [← e]; exact fun _ _ x => .inl x) ?_
        intro k' p' hp
        rw [← e] at hp
        rcases getElem?_set_cases hp with ⟨rfl, rfl, _⟩ | ⟨_, hp⟩
        · exact ⟨_, hm⟩
        · exact ⟨_, hp⟩
      · cases hs
    | runner i b =>
      rw [ha] at hs hwk
      refine hsm.runner hi (hf k) hs (right_fails hwk rfl) ?_ (fun r q h0 hq => can_spawn hg hst hr (hf k) h0 hq)
      rintro rfl
      simp [trouble, hn] at hwk
    | answer i =>
      rw [ha] at hs
      exact hsm.answer (hr.arrived (hf k)) hs (fun r h0 => (tame hg hst h hf hw k i r h0).1)
    | fail i =>
      rw [ha] at hwk
      simp [trouble, hn] at hwk

theorem packet_stays (h : InfRun c lf now σ α) {k m : Nat} {p : Packet} (hm : (σ k).packets[m]? = some p) (d : Nat) :
    ∃ p', (σ (k + d)).packets[m]? = some p' ∧ p'.sender = p.sender ∧ p'.req = p.req ∧ ∀ h, p.handler = some h → p'.handler = some h := by
  induction d with
  | zero => exact ⟨p, hm, rfl, rfl, fun _ h => h⟩
  | succ d ih =>
    obtain ⟨p1, h1, h2, h3, h4⟩ := ih
    obtain ⟨p2, h5, h6, h7, h8⟩ := step_packets2 (h.next (k + d)) h1
    exact ⟨p2, h5, h6.trans h2, h7.trans h3, fun x hx => h8 x (h4 x hx)⟩

theorem done_later (h : InfRun c lf now σ α) {k n : Nat} {y : Option Sys.Reply} (hn : (σ k).sys.handlers[n]? = some (.done y)) (d : Nat) :
    (σ (k + d)).sys.handlers[n]? = some (.done y) := by
  induction d with
  | zero => exact hn
  | succ d ih => exact step_done (h.next (k + d)) ih

/-- Every connection ends. -/
theorem conns_end (hg : Good c.tr) (hst : Sys.Startable c) (h : InfRun c lf now σ α) (hf : AllFresh c lf now α) (hw : Right σ α)
    (hm : RunnersMove σ) (hra : RequestsArrive σ) (han : AnswersArrive σ) : Sys.ConnsEnd (sysStates σ) := by
  intro k T hT
  by_cases hno : ∃ j, k ≤ j ∧ (T ∉ (sysStates σ j).conns.map (·.1) ∨ (sysStates σ j).tr.token = some .hard)
  · exact hno
  exfalso
  have hall : ∀ j, k ≤ j → T ∈ (σ j).sys.conns.map (·.1) ∧ (σ j).sys.tr.token ≠ some .hard := by
    intro j hj
    constructor
    · by_cases h1 : T ∈ (σ j).sys.conns.map (·.1)
      · exact h1
      · exact absurd ⟨j, hj, .inl h1⟩ hno
    · intro h1; exact hno ⟨j, hj, .inr h1⟩
  have sm : ∀ j, k ≤ j → Smooth (σ j) := fun j hj => smooth hg hst h hf hw j (hall j hj).2
  obtain ⟨y, hy, rfl⟩ := List.mem_map.1 (hall k (Nat.le_refl _)).1
  obtain ⟨n, m, p, h1, h2, h3, h4⟩ := ((h.prefix k).jobs (hf k)).conn y hy
  obtain ⟨r, o, h5, _, _⟩ := ((h.prefix k).inv (hf k)).sent m p h2
  -- at some time the runner has been told
  obtain ⟨j, r1, hkj, h6, h7⟩ : ∃ (j : Nat) (r1 : Runner), k ≤ j ∧ (σ j).runners[p.sender]? = some r1 ∧ (n, y.1, y.2.node) ∈ r1.tasks := by
    have told : ∀ d (r1 : Runner), (σ (k + d)).runners[p.sender]? = some r1 → r1.waits ≠ some m → (n, y.1, y.2.node) ∈ r1.tasks := by
      intro d r1 hr1 hw1
      obtain ⟨p', e1, e2, _, e3⟩ := packet_stays h h2 d
      rcases (sm (k + d) (by omega)).told m p' r1 e1 (by rw [e2]; exact hr1) with e | ⟨n', z, e4, e5, e6⟩
      · exact absurd e hw1
      · rw [e3 n h3] at e4; cases e4
        rw [done_later h h1 d] at e5; cases e5
        exact e6 _ _ rfl
    by_cases hwt : r.waits = some m
    · obtain ⟨j, r1, e1, e2, e3⟩ := han k _ m n r p _ h5 hwt h2 h3 h1
      obtain ⟨d, rfl⟩ := Nat.exists_eq_add_of_le e1
      exact ⟨_, r1, e1, e2, told d r1 e2 e3⟩
    · exact ⟨k, r, Nat.le_refl _, h5, told 0 r h5 hwt⟩
  -- it gets rid of the task
  obtain ⟨j2, r2, hj2, h8, h9⟩ : ∃ (j2 : Nat) (r2 : Runner), j ≤ j2 ∧ (σ j2).runners[p.sender]? = some r2 ∧ atTask r2.st.phase ≠ some y.1 := by
    by_cases ht : atTask r1.st.phase = some y.1
    · exact gets_rid h hf hm 8 j r1 h6 ht (by omega)
    · exact ⟨j, r1, Nat.le_refl _, h6, ht⟩
  have h10 : (n, y.1, y.2.node) ∈ r2.tasks := by
    obtain ⟨d, rfl⟩ := Nat.exists_eq_add_of_le hj2
    exact tasks_stay h h6 h7 d r2 h8
  rcases (sm j2 (by omega)).past _ r2 n y.1 y.2.node h8 h10 with e | ⟨m2, p2, code, values, next, e1, e2⟩ | e
  · exact h9 e
  · obtain ⟨j3, hj3, ⟨p3, e3, e4⟩ | e3⟩ := hra j2 m2 p2 e1
    · obtain ⟨d, rfl⟩ := Nat.exists_eq_add_of_le hj3
      obtain ⟨p4, e5, _, e6, _⟩ := packet_stays h e1 d
      rw [e3] at e5; cases e5
      exact ((h.prefix _).arrived (hf _)).fin m2 p3 y.1 code values next e3 e4 (by rw [e6]; exact e2) (hall _ (by omega)).1
    · exact (hall _ (by omega)).2 e3
  · exact e (hall _ (by omega)).1

/-! ### concrete cases -/

theorem collect_prefix {β : Type} {f : State → Act → List β} {bs : List Act} : ∀ {as : List Act} {t : State},
    collect f c t as <+: collect f c t (as ++ bs) := by
  intro as
  induction as with
  | nil => intro t; exact List.nil_prefix
  | cons a as ih =>
    intro t
    simp only [List.cons_append, collect]
    refine (List.prefix_append_right_inj _).2 ?_
    split
    · exact ih
    · exact List.nil_prefix

/-- What does not occur in a finite run does not occur when it goes on with an idle clock. -/
theorem nowhere {β : Type} {f : State → Act → List β} (h : InfRun c lf now σ α) (h1 : ∀ k, as.length ≤ k → α k = .server (.server (.tick 0)))
    (h2 : ∀ k, k < as.length → as[k]? = some (α k)) (h0 : collect f c (init c lf now) as = []) (hf : ∀ s, f s (.server (.server (.tick 0))) = [])
    (k : Nat) : f (σ k) (α k) = [] := by
  by_cases hk : k < as.length
  · have e : as = (List.range (k + 1)).map α ++ as.drop (k + 1) := by
      refine List.ext_getElem? (fun i => ?_)
      by_cases hi : i < k + 1
      · rw [List.getElem?_append_left (by simpa using hi), h2 i (by omega)]; simp [hi]
      · rw [List.getElem?_append_right (by simpa using hi)]
        simp only [List.length_map, List.length_range, List.getElem?_drop]
        congr 1; omega
    have hp := collect_prefix (f := f) (c := c) (as := (List.range (k + 1)).map α) (bs := as.drop (k + 1)) (t := init c lf now)
    rw [← e, h0, List.range_succ, List.map_append, List.map_singleton, collect_snoc (h.prefix k)] at hp
    have := List.prefix_nil.1 hp
    simp only [List.append_eq_nil_iff] at this
    exact this.2
  · rw [h1 k (by omega)]; exact hf _

/-- A finite run at whose end all requests have arrived or do not matter any more, and nobody waits. -/
theorem arrive_at_end (h : InfRun c lf now σ α) (h1 : ∀ k, as.length ≤ k → σ k = s) (ht : s.sys.tr.token = some .hard)
    (hq : s.runners.all (fun r => r.waits.isNone) = true) : RequestsArrive σ ∧ AnswersArrive σ := by
  constructor
  · intro k m p _
    exact ⟨k + as.length, by omega, .inr (by rw [h1 _ (by omega)]; exact ht)⟩
  · intro k i m n r p y hi hw _ _ _
    obtain ⟨r', h4⟩ := runner_stays h hi as.length
    refine ⟨k + as.length, r', by omega, h4, ?_⟩
    rw [h1 _ (by omega)] at h4
    have := (List.all_eq_true.1 hq) r' (List.mem_of_getElem? h4)
    rw [Option.isNone_iff_eq_none.1 this]
    simp

end Verif.Cluster
