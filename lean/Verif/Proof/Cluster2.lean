import Verif.Proof.Cluster

/-!
# Server and runners together: steps of the runners (proofs)
-/

namespace Verif.Cluster
open Verif

variable {c : Sys.Cfg} {lf : LogFile} {now : Int} {s s' : State} {as : List Act} {a : Act}

/-- The packets after a runner has sent some. -/
theorem packets_cases {ps : List Packet} {new : List Sys.Request} {i k : Nat} {p : Packet}
    (h : (ps ++ new.map (fun q => (⟨i, q, none⟩ : Packet)))[k]? = some p) :
    ps[k]? = some p ∨ (ps.length ≤ k ∧ k < ps.length + new.length ∧ ∃ q ∈ new, p = ⟨i, q, none⟩) := by
  rw [List.getElem?_append] at h
  split at h
  · exact .inl h
  · rename_i hl
    right
    obtain ⟨hlt, _⟩ := List.getElem?_eq_some_iff.1 h
    have hm := List.mem_of_getElem? h
    obtain ⟨q, hq, e⟩ := List.mem_map.1 hm
    rw [List.length_map] at hlt
    exact ⟨by omega, by omega, q, hq, e.symm⟩

theorem packets_keep {ps qs : List Packet} {k : Nat} {p : Packet} (h : ps[k]? = some p) : (ps ++ qs)[k]? = some p := by
  obtain ⟨hl, _⟩ := List.getElem?_eq_some_iff.1 h
  rw [List.getElem?_append_left hl, h]

theorem Inv.runner (h : Inv c lf now as s) (hr : Runs c (init c lf now) as s) (hf : Fresh c lf now as) {i : Nat} {b : Remote.Act}
    (hs : step c s (.runner i b) = .ok s') : Inv c lf now (as ++ [.runner i b]) s' := by
  simp only [step] at hs
  split at hs
  · rename_i r hi
    split at hs
    · cases hs
    · rename_i hna
      simp only [Bool.not_eq_true] at hna
      cases hst : Remote.step r.cfg.rem r.st b with
      | ok st =>
        rw [hst] at hs
        obtain ⟨l, hl, hrl, hgot, hbl⟩ := Remote.step_obs hna hst
        have hdrop : st.trace.drop r.st.trace.length = l := by rw [hl, List.drop_left]
        simp only [Res.bind, hdrop, Res.ok.injEq] at hs
        obtain ⟨new, hnew⟩ : ∃ new, new = l.filterMap (request c r.cfg) := ⟨_, rfl⟩
        rw [← hnew] at hs
        subst hs
        obtain ⟨hil, _⟩ := List.getElem?_eq_some_iff.1 hi
        obtain ⟨w, hw⟩ : ∃ w, w = (if new = [] then r.waits else some s.packets.length) := ⟨_, rfl⟩
        rw [← hw]
        have hself : (s.runners.set i { r with st := st, waits := w })[i]? = some { r with st := st, waits := w } :=
          List.getElem?_set_self hil
        have newo : ∀ q ∈ new, ∃ o ∈ l, request c r.cfg o = some q := by
          intro q hq; rw [hnew] at hq; exact List.mem_filterMap.1 hq
        constructor
        · rw [served_snoc hr]; simpa [sysAct] using h.run
        · intro j r' hj
          rcases getElem?_set_cases hj with ⟨rfl, rfl, _⟩ | ⟨hne, hj⟩
          · obtain ⟨bs, hbs⟩ := h.reach j r hi
            exact ⟨bs ++ [b], hbs.snoc hst⟩
          · exact h.reach j r' hj
        · intro k p hk
          rcases packets_cases hk with hk | ⟨_, _, q, hq, rfl⟩
          · obtain ⟨r', o, h1, h2, h3⟩ := h.sent k p hk
            by_cases e : p.sender = i
            · rw [e, hi] at h1
              cases h1
              exact ⟨{ r with st := st, waits := w }, o, by rw [e]; exact hself,
                by simp only [hl]; exact List.mem_append_left _ h2, h3⟩
            · exact ⟨r', o, by simp only; rw [List.getElem?_set_ne (Ne.symm e)]; exact h1, h2, h3⟩
          · obtain ⟨o, ho, e⟩ := newo q hq
            exact ⟨_, o, hself, by simp only [hl]; exact List.mem_append_right _ ho, e⟩
        · intro k p x hk hx
          rcases packets_cases hk with hk | ⟨_, _, q, hq, rfl⟩
          · exact h.hlt k p x hk hx
          · cases hx
        · intro k1 k2 p1 p2 x h1 h2 e1 e2
          rcases packets_cases h1 with h1 | ⟨_, _, q, hq, rfl⟩
          · rcases packets_cases h2 with h2 | ⟨_, _, q, hq, rfl⟩
            · exact h.hinj k1 k2 p1 p2 x h1 h2 e1 e2
            · cases e2
          · cases e1
        · intro j r' k hj hwk
          rcases getElem?_set_cases hj with ⟨rfl, rfl, _⟩ | ⟨hne, hj⟩
          · simp only at hwk
            rw [hw] at hwk
            split at hwk
            · obtain ⟨p, hp, e⟩ := h.waits j r k hi hwk
              exact ⟨p, packets_keep hp, e⟩
            · rename_i hne
              simp only [Option.some.injEq] at hwk
              subst hwk
              cases hn : new with
              | nil => exact absurd hn hne
              | cons q qs => exact ⟨⟨j, q, none⟩, by simp, rfl⟩
          · obtain ⟨p, hp, e⟩ := h.waits j r' k hj hwk
            exact ⟨p, packets_keep hp, e⟩
        · intro j r' x T v hj hx
          have main : ∀ r0 : Runner, s.runners[j]? = some r0 → (x, T, v) ∈ r0.tasks →
              s.sys.handlers[x]? = some (.done (some (.task T v))) ∧ ∃ k p,
                (s.packets ++ new.map (fun q => (⟨i, q, none⟩ : Packet)))[k]? = some p ∧ p.handler = some x ∧
                ∀ (j : Nat) (r' : Runner), (s.runners.set i { r with st := st, waits := w })[j]? = some r' → r'.waits ≠ some k := by
            intro r0 h0 hx0
            obtain ⟨h1, k, p, h2, h3, h4⟩ := h.tasks j r0 x T v h0 hx0
            refine ⟨h1, k, p, packets_keep h2, h3, ?_⟩
            intro j2 r2 hj2
            rcases getElem?_set_cases hj2 with ⟨rfl, rfl, _⟩ | ⟨hne, hj2⟩
            · simp only
              rw [hw]
              split
              · exact h4 j2 r hi
              · obtain ⟨hkl, _⟩ := List.getElem?_eq_some_iff.1 h2
                intro e
                simp only [Option.some.injEq] at e
                omega
            · exact h4 j2 r2 hj2
          rcases getElem?_set_cases hj with ⟨rfl, rfl, _⟩ | ⟨hne, hj⟩
          · exact main r hi hx
          · exact main r' hj hx
        · simp only
          rw [Sys.flatMap_set_eq (f := Cluster.hs) (y := { r with st := st, waits := w }) hi rfl]
          exact h.nodup
        · intro j r' hj
          rcases getElem?_set_cases hj with ⟨rfl, rfl, _⟩ | ⟨hne, hj⟩
          · simp only [hl]
            rw [Remote.recvs_append, hrl, List.append_nil]
            exact h.recv j r hi
          · exact h.recv j r' hj
        · intro x hx hb
          obtain ⟨k, p, h1, h2, h3⟩ := h.begun x hx hb
          exact ⟨k, p, packets_keep h1, h2, h3⟩
        · have fresh : ∀ (q : Sys.Request) (T : Nat) (host : String) (n : Nat), q ∈ new → q.body = .begun T host n →
              new.length = 1 ∧ ∀ (k : Nat) (p : Packet) (host' : String) (n' : Nat), s.packets[k]? = some p → p.req.body = .begun T host' n' → False := by
            intro q T host n hq hb
            obtain ⟨o, ho, e⟩ := newo q hq
            obtain ⟨rfl, _⟩ := request_begun e hb
            obtain ⟨q0, p0, hph, e1, _, el⟩ := hbl _ _ ho
            refine ⟨by rw [hnew, el]; rfl, ?_⟩
            intro k p host' n' hk hb'
            subst e1
            exact h.notBegun hf hi hph hk hb'
          intro k1 k2 p1 p2 T g1 g2 n1 n2 h1 h2 e1 e2
          rcases packets_cases h1 with h1 | ⟨a1, b1, q1, hq1, rfl⟩
          · rcases packets_cases h2 with h2 | ⟨a2, b2, q2, hq2, rfl⟩
            · exact h.once k1 k2 p1 p2 T g1 g2 n1 n2 h1 h2 e1 e2
            · exact absurd ((fresh q2 T g2 n2 hq2 e2).2 k1 p1 g1 n1 h1 e1) id
          · rcases packets_cases h2 with h2 | ⟨a2, b2, q2, hq2, rfl⟩
            · exact absurd ((fresh q1 T g1 n1 hq1 e1).2 k2 p2 g2 n2 h2 e2) id
            · have := (fresh q1 T g1 n1 hq1 e1).1
              omega
      | err x => rw [hst] at hs; cases hs
      | panic x => rw [hst] at hs; cases hs
  · cases hs

/-- What an answer adds to the trace of a runner. -/
theorem hears_obs {g : DiGraph Cmd} {st st' : Remote.State} {rc : Remote.Cfg} {x : Option Sys.Reply} {b : Remote.Act} {got : List (Nat × Nat)}
    (hh : hears g st.phase x = some (b, got)) (hs : Remote.step rc st b = .ok st') :
    ∃ l, st'.trace = st.trace ++ l ∧ Remote.recvs l = got.map (fun y => resp g y.1 y.2) ∧
      (got = [] ∧ (∀ q, st'.phase ≠ .got q) ∨ ∃ T v, got = [(T, v)] ∧ x = some (.task T v) ∧ st'.phase = .got (resp g T v)) := by
  unfold hears at hh
  split at hh
  · rename_i hp
    split at hh
    · rename_i T v
      simp only [Option.some.injEq, Prod.mk.injEq] at hh
      obtain ⟨rfl, rfl⟩ := hh
      simp only [Remote.step, hp, Res.ok.injEq] at hs
      subst hs
      exact ⟨_, rfl, rfl, .inr ⟨T, v, rfl, rfl, rfl⟩⟩
    · simp only [Option.some.injEq, Prod.mk.injEq] at hh
      obtain ⟨rfl, rfl⟩ := hh
      simp only [Remote.step, hp, Res.ok.injEq] at hs
      subst hs
      exact ⟨_, rfl, rfl, .inl ⟨rfl, by intro q h; cases h⟩⟩
  · rename_i q0 p0 hp
    simp only [Option.some.injEq, Prod.mk.injEq] at hh
    obtain ⟨rfl, rfl⟩ := hh
    simp only [Remote.step, hp] at hs
    repeat' split at hs
    all_goals
      simp only [Res.ok.injEq] at hs
      subst hs
      exact ⟨_, rfl, rfl, .inl ⟨rfl, by intro q h; cases h⟩⟩
  · rename_i q0 p0 hp
    split at hh
    · rename_i T v
      simp only [Option.some.injEq, Prod.mk.injEq] at hh
      obtain ⟨rfl, rfl⟩ := hh
      simp only [Remote.step, hp] at hs
      split at hs
      · simp only [Res.ok.injEq] at hs
        subst hs
        exact ⟨_, rfl, rfl, .inr ⟨T, v, rfl, rfl, rfl⟩⟩
      · cases hs
    · simp only [Option.some.injEq, Prod.mk.injEq] at hh
      obtain ⟨rfl, rfl⟩ := hh
      simp only [Remote.step, hp, Res.ok.injEq] at hs
      subst hs
      exact ⟨_, rfl, rfl, .inl ⟨rfl, by intro q h; cases h⟩⟩
    · simp only [Option.some.injEq, Prod.mk.injEq] at hh
      obtain ⟨rfl, rfl⟩ := hh
      simp only [Remote.step, hp, Res.ok.injEq] at hs
      subst hs
      exact ⟨_, rfl, rfl, .inl ⟨rfl, by intro q h; cases h⟩⟩
  · rename_i q0 hp
    simp only [Option.some.injEq, Prod.mk.injEq] at hh
    obtain ⟨rfl, rfl⟩ := hh
    simp only [Remote.step, hp, Res.ok.injEq] at hs
    subst hs
    exact ⟨_, rfl, rfl, .inl ⟨rfl, by intro q h; cases h⟩⟩
  · cases hh

theorem Inv.hear (h : Inv c lf now as s) (hr : Runs c (init c lf now) as s) {i : Nat} {r : Runner} (hi : s.runners[i]? = some r)
    {x : Nat} {y : Option Sys.Reply} {k : Nat} (hk : r.waits = some k)
    (hx : y ≠ none → s.sys.handlers[x]? = some (.done y) ∧ ∃ p, s.packets[k]? = some p ∧ p.handler = some x)
    (ha : sysAct s a = []) (hs : Cluster.hear c s i r x y = .ok s') : Inv c lf now (as ++ [a]) s' := by
  unfold Cluster.hear at hs
  split at hs
  · rename_i b got hh
    cases hst : Remote.step r.cfg.rem r.st b with
    | ok st =>
      rw [hst] at hs
      simp only [Res.bind, Res.ok.injEq] at hs
      obtain ⟨l, hl, hrl, hgot⟩ := hears_obs hh hst
      obtain ⟨hil, _⟩ := List.getElem?_eq_some_iff.1 hi
      obtain ⟨r1, hr1⟩ : ∃ r1 : Runner, r1 = { r with st := st, waits := none, tasks := r.tasks ++ got.map (fun y => (x, y)) } := ⟨_, rfl⟩
      rw [← hr1] at hs
      subst hs
      have hself : (s.runners.set i r1)[i]? = some r1 := List.getElem?_set_self hil
      have nowait : ∀ (j : Nat) (r' : Runner), (s.runners.set i r1)[j]? = some r' → r'.waits ≠ some k := by
        intro j r' hj e
        rcases getElem?_set_cases hj with ⟨_, e2, _⟩ | ⟨hne, hj⟩
        · rw [e2, hr1] at e; cases e
        · obtain ⟨p, hp, e1⟩ := h.waits j r' k hj e
          obtain ⟨p', hp', e2⟩ := h.waits i r k hi hk
          rw [hp] at hp'; cases hp'
          rw [e1] at e2; exact hne e2
      have less : ∀ (k' : Nat), (∀ (j : Nat) (r' : Runner), s.runners[j]? = some r' → r'.waits ≠ some k') →
          ∀ (j : Nat) (r' : Runner), (s.runners.set i r1)[j]? = some r' → r'.waits ≠ some k' := by
        intro k' h4 j r' hj
        rcases getElem?_set_cases hj with ⟨_, e2, _⟩ | ⟨hne, hj⟩
        · rw [e2, hr1]; simp
        · exact h4 j r' hj
      constructor
      · rw [served_snoc hr, ha, List.append_nil]; exact h.run
      · intro j r' hj
        rcases getElem?_set_cases hj with ⟨_, e2, _⟩ | ⟨hne, hj⟩
        · obtain ⟨bs, hbs⟩ := h.reach i r hi
          rw [e2, hr1]
          exact ⟨bs ++ [b], hbs.snoc hst⟩
        · exact h.reach j r' hj
      · intro k' p hp
        obtain ⟨r', o, h1, h2, h3⟩ := h.sent k' p hp
        by_cases e : p.sender = i
        · rw [e, hi] at h1
          cases h1
          exact ⟨r1, o, by rw [e]; exact hself, by rw [hr1]; simp only [hl]; exact List.mem_append_left _ h2, by rw [hr1]; exact h3⟩
        · exact ⟨r', o, by simp only; rw [List.getElem?_set_ne (Ne.symm e)]; exact h1, h2, h3⟩
      · exact h.hlt
      · exact h.hinj
      · intro j r' k' hj hw
        rcases getElem?_set_cases hj with ⟨_, e2, _⟩ | ⟨hne, hj⟩
        · rw [e2, hr1] at hw; cases hw
        · exact h.waits j r' k' hj hw
      · intro j r' x' T v hj hx'
        rcases getElem?_set_cases hj with ⟨_, e2, _⟩ | ⟨hne, hj⟩
        · rw [e2, hr1] at hx'
          rcases List.mem_append.1 hx' with hx' | hx'
          · obtain ⟨h1, k', p, h2, h3, h4⟩ := h.tasks i r x' T v hi hx'
            exact ⟨h1, k', p, h2, h3, less k' h4⟩
          · obtain ⟨z, hz, e⟩ := List.mem_map.1 hx'
            simp only [Prod.mk.injEq] at e
            obtain ⟨rfl, rfl⟩ := e
            rcases hgot with ⟨rfl, _⟩ | ⟨T', v', rfl, rfl, _⟩
            · cases hz
            · simp only [List.mem_singleton, Prod.mk.injEq] at hz
              obtain ⟨rfl, rfl⟩ := hz
              obtain ⟨h1, p, h2, h3⟩ := hx (by simp)
              exact ⟨h1, k, p, h2, h3, nowait⟩
        · obtain ⟨h1, k', p, h2, h3, h4⟩ := h.tasks j r' x' T v hj hx'
          exact ⟨h1, k', p, h2, h3, less k' h4⟩
      · rw [List.nodup_iff_count]
        intro n
        have h1 := Sys.count_set (f := Cluster.hs) (v := n) (b := r1) hi
        have h2 := List.nodup_iff_count.1 h.nodup n
        rcases hgot with ⟨rfl, _⟩ | ⟨T', v', rfl, rfl, _⟩
        · have e : Cluster.hs r1 = Cluster.hs r := by rw [hr1]; simp [Cluster.hs]
          rw [e] at h1
          simp only
          omega
        · have e : Cluster.hs r1 = Cluster.hs r ++ [x] := by rw [hr1]; simp [Cluster.hs]
          rw [e, List.count_append] at h1
          by_cases hn : n = x
          · subst hn
            have h0 : (s.runners.flatMap Cluster.hs).count n = 0 := by
              rw [List.count_eq_zero]
              intro hm
              obtain ⟨r2, hr2, hm⟩ := List.mem_flatMap.1 hm
              obtain ⟨⟨n', T2, v2⟩, hm2, e2⟩ := List.mem_map.1 hm
              simp only at e2
              subst e2
              obtain ⟨j, hj⟩ := List.mem_iff_getElem?.1 hr2
              obtain ⟨_, k', p', h3, h4, h5⟩ := h.tasks j r2 n' T2 v2 hj hm2
              obtain ⟨_, p, h6, h7⟩ := hx (by simp)
              have := h.hinj k k' p p' n' h6 h3 h7 h4
              subst this
              exact h5 i r hi hk
            simp at h1
            simp only
            omega
          · rw [List.count_eq_zero_of_not_mem (l := [x]) (by simpa using hn)] at h1
            simp only
            omega
      · intro j r' hj
        rcases getElem?_set_cases hj with ⟨_, e2, _⟩ | ⟨hne, hj⟩
        · rw [e2, hr1]
          simp only [hl]
          rw [Remote.recvs_append, hrl, h.recv i r hi, List.map_append, List.map_map]
          rfl
        · exact h.recv j r' hj
      · exact h.begun
      · exact h.once
    | err x => rw [hst] at hs; cases hs
    | panic x => rw [hst] at hs; cases hs
  · cases hs

theorem Inv.answer (h : Inv c lf now as s) (hr : Runs c (init c lf now) as s) {i : Nat}
    (hs : step c s (.answer i) = .ok s') : Inv c lf now (as ++ [.answer i]) s' := by
  simp only [step] at hs
  split at hs
  · rename_i r hi
    split at hs
    · rename_i x hx
      split at hs
      · rename_i y hy
        cases hw : r.waits with
        | none => rw [hw] at hx; cases hx
        | some k =>
          rw [hw] at hx
          simp only [Option.bind_some] at hx
          cases hp : s.packets[k]? with
          | none => rw [hp] at hx; cases hx
          | some p =>
            rw [hp] at hx
            exact h.hear hr hi hw (fun _ => ⟨hy, p, hp, hx⟩) rfl hs
      · cases hs
    · cases hs
  · cases hs

theorem Inv.fail (h : Inv c lf now as s) (hr : Runs c (init c lf now) as s) {i : Nat}
    (hs : step c s (.fail i) = .ok s') : Inv c lf now (as ++ [.fail i]) s' := by
  simp only [step] at hs
  split at hs
  · rename_i r hi
    split at hs
    · rename_i hw
      obtain ⟨k, hw⟩ := Option.isSome_iff_exists.1 hw
      exact h.hear hr hi hw (fun e => absurd rfl e) rfl hs
    · cases hs
  · cases hs

theorem Inv.init (c : Sys.Cfg) (lf : LogFile) (now : Int) : Inv c lf now [] (init c lf now) where
  run := .nil _
  reach := by intro i r h; simp [Cluster.init] at h
  sent := by intro i r h; simp [Cluster.init] at h
  hlt := by intro i r _ h; simp [Cluster.init] at h
  hinj := by intro i _ _ _ _ h; simp [Cluster.init] at h
  waits := by intro i r _ h; simp [Cluster.init] at h
  tasks := by intro i r _ _ _ h; simp [Cluster.init] at h
  nodup := by simp [Cluster.init]
  recv := by intro i r h; simp [Cluster.init] at h
  begun := by intro i h; simp [Cluster.init, Sys.init] at h
  once := by intro i _ _ _ _ _ _ _ _ h; simp [Cluster.init] at h

theorem Inv.step (h : Inv c lf now as s) (hr : Runs c (Cluster.init c lf now) as s) (hf : Fresh c lf now as)
    (hs : Cluster.step c s a = .ok s') : Inv c lf now (as ++ [a]) s' := by
  cases a with
  | server b => exact h.server hr hs
  | other r => exact h.other hr hs
  | join cfg => exact h.join hr hs
  | runner i b => exact h.runner hr hf hs
  | arrive k => exact h.arrive hr hs
  | answer i => exact h.answer hr hs
  | fail i => exact h.fail hr hs

theorem Runs.inv (hr : Runs c (Cluster.init c lf now) as s) (hf : Fresh c lf now as) : Inv c lf now as s := by
  refine Runs.snocInd (P := fun as s => Fresh c lf now as → Inv c lf now as s) ?_ ?_ hr hf
  · exact fun _ => .init c lf now
  · intro as s a s' h1 h2 hs hf; exact (h2 (hf.prefix h1)).step h1 (hf.prefix h1) hs

end Verif.Cluster
