import Verif.Proof.Cluster4

/-!
# Server and runners together: answers (proofs)
-/

namespace Verif.Cluster
open Verif

variable {c : Sys.Cfg} {lf : LogFile} {now : Int} {s s' : State} {as : List Act} {a : Act}

/-- A handler that will not answer with a task. -/
inductive NoTask : Sys.Handler → Prop
  | done (y : Option Sys.Reply) : (∀ T v, y ≠ some (.task T v)) → NoTask (.done y)
  | ending (conn : Sys.Conn) (code : Int) (values : List (List (String × String))) : NoTask (.ending conn code values none)
  | reporting (conn : Sys.Conn) (code : Int) (values : List (List (String × String))) : NoTask (.reporting conn code values none)

theorem noTask_keeps {t t' : Sys.State} {b : Sys.Act} (hs : Sys.step c t b = .ok t') {h : Nat} {x : Sys.Handler}
    (hx : t.handlers[h]? = some x) (hn : NoTask x) : ∃ x', t'.handlers[h]? = some x' ∧ NoTask x' := by
  rcases Sys.step_handlers hs with e | ⟨r, y, _, e, _⟩ | ⟨h', y, y', hy, e, hm⟩
  · exact ⟨x, by rw [e]; exact hx, hn⟩
  · obtain ⟨hl, _⟩ := List.getElem?_eq_some_iff.1 hx
    exact ⟨x, by rw [e, List.getElem?_append_left hl]; exact hx, hn⟩
  · by_cases hh : h' = h
    · subst hh
      rw [hx] at hy; cases hy
      obtain ⟨hl, _⟩ := List.getElem?_eq_some_iff.1 hx
      refine ⟨y', by rw [e, List.getElem?_set_self hl], ?_⟩
      cases hn with
      | done y h => cases hm
      | ending conn code values => cases hm with | cancel => exact .reporting _ _ _
      | reporting conn code values => cases hm with | report => exact .done _ (by simp)
    · exact ⟨x, by rw [e, List.getElem?_set_ne hh]; exact hx, hn⟩

/-- Answers are as the requests. -/
structure Asks (s : State) : Prop where
  waits : ∀ (i : Nat) (r : Runner), s.runners[i]? = some r → awaiting r.st.phase = true → ∃ (k : Nat) (p : Packet), r.waits = some k ∧
    s.packets[k]? = some p ∧ p.sender = i ∧ ∀ q, r.st.phase = .ending q false → ∃ T code values, p.req.body = .finish T code values none
  handlers : ∀ (k : Nat) (p : Packet) (h T : Nat) (code : Int) (values : List (List (String × String))), s.packets[k]? = some p →
    p.handler = some h → p.req.body = .finish T code values none → ∃ x, s.sys.handlers[h]? = some x ∧ NoTask x

theorem step_await {rc : RCfg} {st st' : Remote.State} {b : Remote.Act} (hb : isAnswer b = false)
    (hs : Remote.step rc.rem st b = .ok st') (haw : awaiting st'.phase = true) :
    (st'.phase = st.phase ∧ st'.trace = st.trace) ∨
    ∃ q, (st'.trace.drop st.trace.length).filterMap (request c rc) = [q] ∧
      ∀ r, st'.phase = .ending r false → ∃ T code values, q.body = .finish T code values none := by
  cases b with
  | startReply r => cases hb
  | begunReply r => cases hb
  | endReply r => cases hb
  | gasped => cases hb
  | sendStart =>
    simp only [Remote.step] at hs
    split at hs
    · simp only [Res.ok.injEq] at hs; subst hs
      exact .inr ⟨_, by simp [Remote.State.goto, request]; rfl, by intro r h; cases h⟩
    · cases hs
  | sendBegun =>
    simp only [Remote.step] at hs
    split at hs
    · simp only [Res.ok.injEq] at hs; subst hs
      exact .inr ⟨_, by simp [Remote.State.goto, request]; rfl, by intro r h; cases h⟩
    · cases hs
  | slurm =>
    simp only [Remote.step] at hs
    split at hs
    · simp only [Res.ok.injEq] at hs; subst hs
      exact .inr ⟨_, by simp [Remote.State.goto, request]; rfl, by intro r h; cases h⟩
    · cases hs
  | sendEnd =>
    simp only [Remote.step] at hs
    split at hs
    · rename_i q0 out _
      simp only [Res.ok.injEq] at hs; subst hs
      cases out with
      | none =>
        refine .inr ⟨_, by simp [Remote.State.goto, Remote.endRequest, request]; rfl, ?_⟩
        intro r h
        simp only [Remote.State.goto, Remote.Phase.ending.injEq] at h
        rw [h.2]; exact ⟨_, _, _, rfl⟩
      | some o =>
        refine .inr ⟨_, by simp [Remote.State.goto, Remote.endRequest, request]; rfl, ?_⟩
        intro r h
        simp only [Remote.State.goto, Remote.Phase.ending.injEq] at h
        rw [h.2]; exact ⟨_, _, _, rfl⟩
    · cases hs
  | _ =>
    simp only [Remote.step] at hs
    repeat' split at hs
    all_goals first
      | (cases hs; done)
      | (simp only [Res.ok.injEq] at hs; subst hs
         first
         | exact .inl ⟨rfl, rfl⟩
         | (simp only [Remote.State.goto] at haw; repeat' split at haw
            all_goals cases haw))

/-- After an answer a runner does not wait. -/
theorem hears_not_awaiting {g : DiGraph Cmd} {st st' : Remote.State} {rc : Remote.Cfg} {x : Option Sys.Reply} {b : Remote.Act}
    {got : List (Nat × Nat)} (hh : hears g st.phase x = some (b, got)) (hs : Remote.step rc st b = .ok st') :
    awaiting st'.phase = false := by
  have main : b.casesOn (motive := fun _ => Prop) (fun _ => False) False False (fun _ => False) False (fun _ => True) (fun _ => False)
      (fun _ => False) False (fun _ => True) False (fun _ => False) False False True False False (fun _ => True) False := by
    unfold hears at hh
    repeat' split at hh
    all_goals first
      | (cases hh; done)
      | (simp only [Option.some.injEq, Prod.mk.injEq] at hh; obtain ⟨rfl, rfl⟩ := hh; trivial)
  cases b with
  | startReply r =>
    cases r <;> simp only [Remote.step] at hs <;> split at hs <;> first | (cases hs; done) | (simp only [Res.ok.injEq] at hs; subst hs; rfl)
  | begunReply r =>
    simp only [Remote.step] at hs
    repeat' split at hs
    all_goals first | (cases hs; done) | (simp only [Res.ok.injEq] at hs; subst hs; rfl)
  | endReply r =>
    simp only [Remote.step] at hs
    repeat' split at hs
    all_goals first | (cases hs; done) | (simp only [Res.ok.injEq] at hs; subst hs; rfl)
  | gasped =>
    simp only [Remote.step] at hs
    repeat' split at hs
    all_goals first | (cases hs; done) | (simp only [Res.ok.injEq] at hs; subst hs; rfl)
  | _ => exact absurd main id

theorem Asks.of_hear (h : Asks s) {i : Nat} {r : Runner} (hi : s.runners[i]? = some r) {x : Nat} {y : Option Sys.Reply}
    (hs : hear c s i r x y = .ok s') : Asks s' := by
  unfold hear at hs
  split at hs
  · rename_i b got hh
    cases hst : Remote.step r.cfg.rem r.st b with
    | ok st =>
      rw [hst] at hs; simp only [Res.bind, Res.ok.injEq] at hs; subst hs
      constructor
      · intro j r' hj haw
        rcases getElem?_set_cases hj with ⟨_, rfl, _⟩ | ⟨_, hj⟩
        · exfalso
          simp only at haw
          rw [hears_not_awaiting hh hst] at haw
          cases haw
        · exact h.waits j r' hj haw
      · exact h.handlers
    | err x => rw [hst] at hs; cases hs
    | panic x => rw [hst] at hs; cases hs
  · cases hs

theorem Asks.of_sys (h : Asks s) {b : Sys.Act} {t : Sys.State} (hs : Sys.step c s.sys b = .ok t) : Asks { s with sys := t } where
  waits := h.waits
  handlers := by
    intro k p x T code values hk hx hb
    obtain ⟨y, h1, h2⟩ := h.handlers k p x T code values hk hx hb
    exact noTask_keeps hs h1 h2

theorem Asks.step (h : Asks s) (hs : Cluster.step c s a = .ok s') : Asks s' := by
  cases a with
  | server b =>
    simp only [Cluster.step] at hs
    split at hs
    · cases hs
    · cases hst : Sys.step c s.sys b with
      | ok t => rw [hst] at hs; simp only [Res.bind, Res.ok.injEq] at hs; subst hs; exact h.of_sys hst
      | err x => rw [hst] at hs; cases hs
      | panic x => rw [hst] at hs; cases hs
  | other r =>
    simp only [Cluster.step] at hs
    split at hs
    · cases hst : Sys.step c s.sys (.request r) with
      | ok t => rw [hst] at hs; simp only [Res.bind, Res.ok.injEq] at hs; subst hs; exact h.of_sys hst
      | err x => rw [hst] at hs; cases hs
      | panic x => rw [hst] at hs; cases hs
    · cases hs
  | join cfg =>
    simp only [Cluster.step, Res.ok.injEq] at hs
    subst hs
    refine ⟨?_, h.handlers⟩
    intro j r' hj haw
    rcases getElem?_snoc_cases hj with hj | ⟨_, rfl⟩
    · exact h.waits j r' hj haw
    · cases haw
  | runner i b =>
    simp only [Cluster.step] at hs
    split at hs
    · rename_i r hri
      split at hs
      · cases hs
      · rename_i hna
        simp only [Bool.not_eq_true] at hna
        cases hst : Remote.step r.cfg.rem r.st b with
        | ok st =>
          rw [hst] at hs; simp only [Res.bind, Res.ok.injEq] at hs; subst hs
          constructor
          · intro j r' hj haw
            rcases getElem?_set_cases hj with ⟨rfl, rfl, _⟩ | ⟨_, hj⟩
            · rcases step_await (c := c) hna hst haw with ⟨e1, e2⟩ | ⟨q, e, hq⟩
              · have hd : List.drop r.st.trace.length st.trace = [] := by rw [e2]; exact List.drop_length
                obtain ⟨k, p, h1, h2, h3, h4⟩ := h.waits j r hri (by rw [← e1]; exact haw)
                refine ⟨k, p, by simp [hd, h1], packets_keep h2, h3, ?_⟩
                intro q hq
                exact h4 q (by rw [← e1]; exact hq)
              · refine ⟨s.packets.length, ⟨j, q, none⟩, by simp [e], by simp [e], rfl, ?_⟩
                intro q' hq'
                exact hq q' hq'
            · obtain ⟨k, p, h1, h2, h3, h4⟩ := h.waits j r' hj haw
              exact ⟨k, p, h1, packets_keep h2, h3, h4⟩
          · intro k p x T code values hk hx hb
            rcases packets_cases hk with hk | ⟨_, _, q, _, rfl⟩
            · exact h.handlers k p x T code values hk hx hb
            · cases hx
        | err x => rw [hst] at hs; cases hs
        | panic x => rw [hst] at hs; cases hs
    · cases hs
  | arrive k0 =>
    simp only [Cluster.step] at hs
    split at hs
    · rename_i i q hk0
      cases hst : Sys.step c s.sys (.request q) with
      | ok t =>
        rw [hst] at hs; simp only [Res.bind, Res.ok.injEq] at hs; subst hs
        have h' := h.of_sys hst
        constructor
        · intro j r hj haw
          obtain ⟨k, p, h1, h2, h3, h4⟩ := h.waits j r hj haw
          by_cases e : k0 = k
          · subst e
            rw [hk0] at h2; cases h2
            obtain ⟨hl, _⟩ := List.getElem?_eq_some_iff.1 hk0
            exact ⟨k0, _, h1, List.getElem?_set_self hl, h3, h4⟩
          · exact ⟨k, p, h1, by simp only; rw [List.getElem?_set_ne e]; exact h2, h3, h4⟩
        · intro k p x T code values hk hx hb
          rcases getElem?_set_cases hk with ⟨_, rfl, _⟩ | ⟨_, hk⟩
          · simp only [Option.some.injEq] at hx
            subst hx
            rcases Sys.step_handlers hst with e | ⟨r, y, e1, e, hadd⟩ | ⟨h', y, y', hy, e, hm⟩
            · have := Sys.handlers_request hst
              rw [e] at this; omega
            · cases e1
              refine ⟨y, by simp [e], ?_⟩
              cases hadd with
              | done y hy => exact .done _ (by intro T v e; cases e; exact hy _ _ rfl)
              | start rt j _ _ _ hbody => simp only at hb; rw [hbody] at hb; cases hb
              | ending T' conn code' values' next _ _ _ hbody =>
                simp only at hb; rw [hbody] at hb; cases hb; exact .ending _ _ _
            · have := Sys.handlers_request hst
              rw [e, List.length_set] at this; omega
          · exact h'.handlers k p x T code values hk hx hb
      | err x => rw [hst] at hs; cases hs
      | panic x => rw [hst] at hs; cases hs
    · cases hs
  | answer i =>
    simp only [Cluster.step] at hs
    repeat' split at hs
    all_goals first | (cases hs; done) | exact h.of_hear (by assumption) hs
  | fail i =>
    simp only [Cluster.step] at hs
    repeat' split at hs
    all_goals first | (cases hs; done) | exact h.of_hear (by assumption) hs

theorem Runs.asks (hr : Runs c (init c lf now) as s) : Asks s := by
  refine Runs.snocInd (P := fun _ s => Asks s) ?_ ?_ hr
  · exact ⟨by intro i r h; simp [init] at h, by intro k p _ _ _ _ h; simp [init] at h⟩
  · intro as s a s' _ ih hs; exact ih.step hs

theorem hear_ok {i : Nat} {r : Runner} {x : Nat} {y : Option Sys.Reply} (haw : awaiting r.st.phase = true)
    (hn : ∀ q, r.st.phase = .ending q false → ∀ T v, y ≠ some (.task T v)) : ∃ s', hear c s i r x y = .ok s' := by
  unfold hear hears
  split
  · rename_i b got hh
    split at hh
    · rename_i hp
      split at hh
      all_goals
        simp only [Option.some.injEq, Prod.mk.injEq] at hh
        obtain ⟨rfl, rfl⟩ := hh
        simp [Remote.step, hp, Res.bind]
    · rename_i q p hp
      simp only [Option.some.injEq, Prod.mk.injEq] at hh
      obtain ⟨rfl, rfl⟩ := hh
      simp only [Remote.step, hp]
      repeat' split
      all_goals simp [Res.bind]
    · rename_i q asked hp
      cases asked with
      | true =>
        split at hh
        all_goals
          simp only [Option.some.injEq, Prod.mk.injEq] at hh
          obtain ⟨rfl, rfl⟩ := hh
          simp [Remote.step, hp, Res.bind]
      | false =>
        split at hh
        · rename_i T v; exact absurd rfl (hn _ hp T v)
        all_goals
          simp only [Option.some.injEq, Prod.mk.injEq] at hh
          obtain ⟨rfl, rfl⟩ := hh
          simp [Remote.step, hp, Res.bind]
    · rename_i q hp
      simp only [Option.some.injEq, Prod.mk.injEq] at hh
      obtain ⟨rfl, rfl⟩ := hh
      simp [Remote.step, hp, Res.bind]
    · cases hh
  · rename_i hh
    exfalso
    cases hp : r.st.phase <;> rw [hp] at haw <;> first | (cases haw; done) | (rw [hp] at hh; simp only at hh; repeat' split at hh) <;> cases hh

end Verif.Cluster
