import Verif.Proof.Cluster3

/-!
# Server and runners together: processes; answers (proofs)
-/

namespace Verif.Cluster
open Verif

variable {c : Sys.Cfg} {lf : LogFile} {now : Int} {s s' : State} {as : List Act} {a : Act}

/-! ### processes -/

/-- The tasks of a runner, without the one it is about to start. -/
def begunTasks (r : Runner) : List Nat :=
  match r.st.phase with | .got _ => (r.tasks.map (·.2.2)).dropLast | _ => r.tasks.map (·.2.2)

/-- All tasks of a runner. -/
def allTasks (r : Runner) : List Nat := r.tasks.map (·.2.2)

theorem begunTasks_le (r : Runner) (v : Nat) : (begunTasks r).count v ≤ (allTasks r).count v := by
  unfold begunTasks allTasks
  split
  · exact (List.dropLast_sublist _).count_le _
  · exact Nat.le_refl _

theorem begunTasks_of_not_got {r : Runner} (h : ∀ q, r.st.phase ≠ .got q) : begunTasks r = allTasks r := by
  unfold begunTasks allTasks
  split
  · rename_i q e; exact absurd e (h q)
  · rfl

theorem begunTasks_set {i : Nat} {r r' : Runner} (hi : s.runners[i]? = some r) (v n : Nat)
    (h : (begunTasks r).count v + n ≤ (begunTasks r').count v) :
    (s.runners.flatMap begunTasks).count v + n ≤ ((s.runners.set i r').flatMap begunTasks).count v := by
  have := Sys.count_set (f := begunTasks) (v := v) (b := r') hi
  omega

theorem hear_begunTasks {i : Nat} {r : Runner} {x : Nat} {y : Option Sys.Reply} (hi : s.runners[i]? = some r)
    (hs : hear c s i r x y = .ok s') (v : Nat) :
    (s.runners.flatMap begunTasks).count v ≤ (s'.runners.flatMap begunTasks).count v := by
  unfold hear at hs
  split at hs
  · rename_i b got hh
    cases hst : Remote.step r.cfg.rem r.st b with
    | ok st =>
      rw [hst] at hs; simp only [Res.bind, Res.ok.injEq] at hs; subst hs
      obtain ⟨l, _, _, hgot⟩ := hears_obs hh hst
      refine begunTasks_set hi v 0 ?_
      have h1 := begunTasks_le r v
      rcases hgot with ⟨rfl, hp⟩ | ⟨T, w, rfl, _, hp⟩
      · rw [begunTasks_of_not_got (r := { r with st := st, waits := none, tasks := r.tasks ++ _ }) hp]
        simp only [List.map_nil, List.append_nil, Nat.add_zero]
        exact h1
      · have : begunTasks { r with st := st, waits := none, tasks := r.tasks ++ [(T, w)].map (fun y => (x, y)) } = allTasks r := by
          simp [begunTasks, allTasks, hp]
        rw [this]
        exact h1
    | err x => rw [hst] at hs; cases hs
    | panic x => rw [hst] at hs; cases hs
  · cases hs

theorem processes_le (hr : Runs c (init c lf now) as s) (hf : Fresh c lf now as) (v : Nat) :
    (collect processes c (init c lf now) as).count v ≤
      (Sys.collect Sys.loopStarts c (Sys.init c lf now) (served c lf now as)).count v + (s.runners.flatMap begunTasks).count v := by
  refine Runs.snocInd (P := fun as s => Fresh c lf now as → (collect processes c (init c lf now) as).count v ≤
      (Sys.collect Sys.loopStarts c (Sys.init c lf now) (served c lf now as)).count v + (s.runners.flatMap begunTasks).count v) ?_ ?_ hr hf
  · intro _; simp [collect]
  · intro as s a s' hr ih hs hf
    have hf0 := hf.prefix hr
    have hi := hr.inv hf0
    have ih := ih hf0
    rw [collect_snoc hr, served_collect hi hr hs, List.count_append, List.count_append]
    cases a with
    | server b =>
      have e1 : (processes s (.server b)).count v = ((sysAct s (.server b)).flatMap (Sys.loopStarts s.sys)).count v := by
        simp only [sysAct, List.flatMap_cons, List.flatMap_nil, List.append_nil]
        cases b with
        | loopSpawn i ok => cases ok <;> rfl
        | _ => rfl
      have e2 : s'.runners = s.runners := by
        simp only [step] at hs
        split at hs
        · cases hs
        · cases hst : Sys.step c s.sys b with
          | ok t => rw [hst] at hs; simp only [Res.bind, Res.ok.injEq] at hs; subst hs; rfl
          | err x => rw [hst] at hs; cases hs
          | panic x => rw [hst] at hs; cases hs
      rw [e1, e2]; omega
    | other r =>
      have e2 : s'.runners = s.runners := by
        simp only [step] at hs
        split at hs
        · cases hst : Sys.step c s.sys (.request r) with
          | ok t => rw [hst] at hs; simp only [Res.bind, Res.ok.injEq] at hs; subst hs; rfl
          | err x => rw [hst] at hs; cases hs
          | panic x => rw [hst] at hs; cases hs
        · cases hs
      rw [e2]; simp only [processes, List.count_nil]; omega
    | join cfg =>
      simp only [step, Res.ok.injEq] at hs
      subst hs
      simp only [processes, List.count_nil, List.flatMap_append, List.count_append]; omega
    | arrive k =>
      have e2 : s'.runners = s.runners := by
        simp only [step] at hs
        split at hs
        · rename_i i q hk
          cases hst : Sys.step c s.sys (.request q) with
          | ok t => rw [hst] at hs; simp only [Res.bind, Res.ok.injEq] at hs; subst hs; rfl
          | err x => rw [hst] at hs; cases hs
          | panic x => rw [hst] at hs; cases hs
        · cases hs
      rw [e2]; simp only [processes, List.count_nil]; omega
    | answer i =>
      simp only [step] at hs
      repeat' split at hs
      all_goals first
        | (cases hs; done)
        | (have := hear_begunTasks (by assumption) hs v; simp only [processes, List.count_nil]; omega)
    | fail i =>
      simp only [step] at hs
      repeat' split at hs
      all_goals first
        | (cases hs; done)
        | (have := hear_begunTasks (by assumption) hs v; simp only [processes, List.count_nil]; omega)
    | runner i b =>
      simp only [step] at hs
      split at hs
      · rename_i r hri
        split at hs
        · cases hs
        · rename_i hna
          simp only [Bool.not_eq_true] at hna
          cases hst : Remote.step r.cfg.rem r.st b with
          | ok st =>
            rw [hst] at hs; simp only [Res.bind, Res.ok.injEq] at hs; subst hs
            obtain ⟨l, hl, hrl, hgot, _⟩ := Remote.step_obs hna hst
            have main : (begunTasks r).count v + (processes s (.runner i b)).count v ≤
                (begunTasks { r with
                  st := st
                  waits := if List.filterMap (request c r.cfg) (List.drop r.st.trace.length st.trace) = [] then r.waits
                    else some s.packets.length }).count v := by
              by_cases hp : ∃ q, st.phase = .got q
              · obtain ⟨q, hp⟩ := hp
                have h1 := (hgot q hp).1
                have e1 : processes s (.runner i b) = [] := by
                  cases b with
                  | spawn p =>
                    simp only [Remote.step, h1] at hst
                    repeat' split at hst
                    all_goals first
                      | (cases hst; done)
                      | (simp only [Res.ok.injEq] at hst; subst hst; simp [Remote.State.goto] at hp; try (split at hp <;> cases hp))
                  | _ => rfl
                have e2 : ∀ w, begunTasks { r with st := st, waits := w } = begunTasks r := by
                  intro w; simp [begunTasks, hp, h1]
                rw [e1, e2]; simp
              · have e2 : ∀ w, begunTasks { r with st := st, waits := w } = allTasks r :=
                  fun w => begunTasks_of_not_got (r := { r with st := st, waits := w }) (fun q e => hp ⟨q, e⟩)
                rw [e2]
                cases b with
                | spawn p =>
                  cases p with
                  | none => simpa [processes] using begunTasks_le r v
                  | some p =>
                    simp only [processes, hri]
                    split
                    · rename_i q hq
                      split
                      · simpa using begunTasks_le r v
                      · simp only [begunTasks, hq, allTasks]
                        rcases List.eq_nil_or_concat r.tasks with e | ⟨l, x, e⟩
                        · rw [e]; simp
                        · rw [e]; simp
                    · simpa using begunTasks_le r v
                | _ => simpa [processes] using begunTasks_le r v
            have := begunTasks_set hri v _ main
            simp only
            omega
          | err x => rw [hst] at hs; cases hs
          | panic x => rw [hst] at hs; cases hs
      · cases hs

theorem length_le_one {l : List Nat} {x : Nat} (hn : l.Nodup) (h : ∀ y ∈ l, y = x) : l.length ≤ 1 := by
  match l with
  | [] => simp
  | [_] => simp
  | a :: b :: l =>
    have h1 := h a (by simp)
    have h2 := h b (by simp)
    simp [h1, h2] at hn

theorem tasks_le (hi : Inv c lf now as s) {v : Nat} (hle : (s.sys.handlers.flatMap Sys.tokV).count v ≤ 1) :
    (s.runners.flatMap allTasks).count v ≤ (s.sys.handlers.flatMap Sys.tokV).count v := by
  have hmem : ∀ (r : Runner), r ∈ s.runners → ∀ x ∈ r.tasks, s.sys.handlers[x.1]? = some (.done (some (.task x.2.1 x.2.2))) := by
    intro r hr x hx
    obtain ⟨j, hj⟩ := List.mem_iff_getElem?.1 hr
    exact (hi.tasks j r x.1 x.2.1 x.2.2 hj hx).1
  have e1 : s.runners.flatMap allTasks = (s.runners.flatMap (·.tasks)).map (·.2.2) := by
    rw [List.map_flatMap]; rfl
  have e2 : s.runners.flatMap hs = (s.runners.flatMap (·.tasks)).map (·.1) := by
    rw [List.map_flatMap]; rfl
  have hn := hi.nodup
  rw [e2] at hn
  rw [e1]
  have hall : ∀ x ∈ s.runners.flatMap (·.tasks), s.sys.handlers[x.1]? = some (.done (some (.task x.2.1 x.2.2))) := by
    intro x hx
    obtain ⟨r, hr, hx⟩ := List.mem_flatMap.1 hx
    exact hmem r hr x hx
  generalize s.runners.flatMap (·.tasks) = L at hn hall
  by_cases hv : v ∈ L.map (·.2.2)
  · obtain ⟨x0, hx0, e0⟩ := List.mem_map.1 hv
    have h0 := hall x0 hx0
    have hpos : 0 < (s.sys.handlers.flatMap Sys.tokV).count v := by
      rw [List.count_pos_iff]
      exact List.mem_flatMap.2 ⟨_, List.mem_of_getElem? h0, by simp [Sys.tokV, Sys.tok, e0]⟩
    have h1 : ((L.filter (fun x => x.2.2 == v)).map (·.1)).length ≤ 1 := by
      refine length_le_one (x := x0.1) (hn.sublist ((List.filter_sublist).map _)) ?_
      intro y hy
      obtain ⟨x, hx, rfl⟩ := List.mem_map.1 hy
      rw [List.mem_filter, beq_iff_eq] at hx
      exact unique_index (f := Sys.tokV) (x := v) hle (hall x hx.1) h0 (by simp [Sys.tokV, Sys.tok, hx.2]) (by simp [Sys.tokV, Sys.tok, e0])
    have h2 : (L.map (·.2.2)).count v = (L.filter (fun x => x.2.2 == v)).length := by
      rw [List.count, List.countP_map, List.countP_eq_length_filter]; rfl
    rw [List.length_map] at h1
    omega
  · rw [List.count_eq_zero_of_not_mem hv]; omega

theorem processes_count (hg : Tracker.Good c.tr) (hr : Runs c (init c lf now) as s) (hf : Fresh c lf now as) (v : Nat) :
    (collect processes c (init c lf now) as).count v ≤ 1 := by
  have hi := hr.inv hf
  have h1 := processes_le hr hf v
  have h2 := Sys.starts_le hg hi.run v
  have h3 := tasks_le hi (v := v) (by omega)
  have h4 : (s.runners.flatMap begunTasks).count v ≤ (s.runners.flatMap allTasks).count v := by
    generalize s.runners = L
    induction L with
    | nil => simp
    | cons r L ih =>
      simp only [List.flatMap_cons, List.count_append]
      have := begunTasks_le r v
      omega
  omega

/-- The task a runner is about to start is the one it received last. -/
theorem Inv.gotTask (h : Inv c lf now as s) {i : Nat} {r : Runner} (hi : s.runners[i]? = some r) {q : Remote.StartResp}
    (hp : r.st.phase = .got q) : ∃ x T v, r.tasks.getLast? = some (x, T, v) ∧ q = resp c.tr.g T v := by
  obtain ⟨bs, hre⟩ := h.reach i r hi
  obtain ⟨pre, e⟩ := hre.got hp
  have h1 := h.recv i r hi
  rw [e, Remote.recvs_append] at h1
  obtain ⟨l1, l2, el, _, m2⟩ := List.map_eq_append_iff.1 h1.symm
  cases l2 with
  | nil => simp [Remote.recvs] at m2
  | cons z l =>
    cases l with
    | nil =>
      simp [Remote.recvs] at m2
      exact ⟨z.1, z.2.1, z.2.2, by rw [el]; simp, m2.symm⟩
    | cons _ _ => simp [Remote.recvs] at m2

end Verif.Cluster
