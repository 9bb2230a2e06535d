import Verif.Proof.Grid
import Verif.Proof.Program2

/-!
# Reports of processes of loops and runners (proofs)
-/

namespace Verif.Grid
open Verif Verif.Tracker
open Verif.Tracker hiding Act Cfg State Runs init step replay after runs_of_replay runs_of_after

variable {P : Type} {c : Family.Cfg P} {lf : LogFile} {now : Int} {s s' : State P} {a : Act} {as : List Act}

/-- Runners receive tasks of the graph. -/
theorem task_lt {sc : Sys.Cfg} {bs : List Cluster.Act} {t : Cluster.State} (hg : Good sc.tr) (hr : Cluster.Runs sc (Cluster.init sc lf now) bs t)
    (hf : Cluster.Fresh sc lf now bs) {i : Nat} {r : Cluster.Runner} (hi : t.runners[i]? = some r) {x : Nat × Nat × Nat} (hx : x ∈ r.tasks) :
    x.2.2 < sc.tr.g.n := by
  have hv := hr.inv hf
  have h1 := (hv.tasks i r x.1 x.2.1 x.2.2 hi hx).1
  have h2 := Sys.starts_pre hv.run x.2.2
  have h3 := Sys.preCalls_balance hv.run x.2.2
  have hpos : 0 < (t.sys.handlers.flatMap Sys.tokV).count x.2.2 := by
    rw [List.count_pos_iff]
    exact List.mem_flatMap.2 ⟨_, List.mem_of_getElem? h1, by simp [Sys.tokV, Sys.tok]⟩
  have hre : Tracker.Reachable sc.tr lf now t.sys.tr := ⟨_, hv.run.toInit hg⟩
  refine (hre.inv hg).1.core.deps.lt _ (hre.obtained_made hg ?_)
  have : x.2.2 ∈ t.sys.tr.obtained.map (·.2) := by
    rw [← List.count_pos_iff]
    omega
  simpa [Obtained] using this

/-- What happened in the processes of a runner happened in the run. -/
theorem far_hist (hr : Runs c (init c lf now) as s) : ∀ i k, s.far i = some k → ∀ x ∈ k.hist, private_ x = true → Act.far i x ∈ as := by
  refine Runs.snocInd (Q := fun as s => ∀ i k, s.far i = some k → ∀ x ∈ k.hist, private_ x = true → Act.far i x ∈ as) ?_ ?_ hr
  · intro i k h; cases h
  · intro as s a s' hr ih hs i k hk x hx hp
    have does_hist : ∀ k0 k1 y, s.far i = some k0 → does c y k0 = some k1 → private_ y = false → x ∈ k1.hist → Act.far i x ∈ as ++ [a] := by
      intro k0 k1 y h0 h1 hy hm
      obtain ⟨_, d2, _⟩ := does_ok h1
      rw [d2] at hm
      rcases List.mem_append.1 hm with hm | hm
      · exact List.mem_append_left _ (ih i k0 h0 x hm hp)
      · simp only [List.mem_singleton] at hm
        rw [hm, hy] at hp; cases hp
    cases a with
    | near j b =>
      obtain ⟨_, _, _, h4⟩ := step_near hs
      rw [h4] at hk
      exact List.mem_append_left _ (ih i k hk x hx hp)
    | far j b =>
      obtain ⟨k0, k1, h1, h2, e⟩ := step_far hs
      subst e
      simp only at hk
      split at hk
      · rename_i e; subst e
        cases hk
        obtain ⟨_, d2, _⟩ := does_ok h2
        rw [d2] at hx
        rcases List.mem_append.1 hx with hm | hm
        · exact List.mem_append_left _ (ih i k0 h1 x hm hp)
        · simp only [List.mem_singleton] at hm
          rw [hm]; simp
      · exact List.mem_append_left _ (ih i k hk x hx hp)
    | cl b =>
      obtain ⟨_, _, h3⟩ := step_cl hs
      obtain ⟨f1, f2⟩ := far_who h3
      by_cases hw : who b = some i
      · obtain ⟨r, r', _, _, g3⟩ := f2 i hw
        rw [hk] at g3
        generalize r.tasks.getLast?.map (·.2.2) = v at g3
        generalize r.st.phase = p at g3
        generalize r'.st.phase = q at g3
        have keep : s.far i = some k → Act.far i x ∈ as ++ [Act.cl b] := fun h => List.mem_append_left _ (ih i k h x hx hp)
        have dropped : (s.far i).map drop = some k → Act.far i x ∈ as ++ [Act.cl b] := by
          intro h
          cases h0 : s.far i with
          | none => rw [h0] at h; cases h
          | some k0 =>
            rw [h0] at h; cases h
            exact List.mem_append_left _ (ih i k0 h0 x hx hp)
        have doing : ∀ y, private_ y = false → ((s.far i).bind (does c y)).map some = some (some k) → Act.far i x ∈ as ++ [Act.cl b] := by
          intro y hy h
          cases h0 : s.far i with
          | none => rw [h0] at h; cases h
          | some k0 =>
            rw [h0] at h
            simp only [Option.bind_some] at h
            cases h1 : does c y k0 with
            | none => rw [h1] at h; cases h
            | some k1 => rw [h1] at h; cases h; exact does_hist k0 k y h0 h1 hy hx
        unfold follow at g3
        split at g3
        · cases v with
          | none => cases g3
          | some v => cases g3; cases hx
        · cases v with
          | none => cases g3
          | some v => cases g3; cases hx
        · exact doing .fed rfl g3
        · cases h0 : s.far i with
          | none => rw [h0] at g3; cases g3
          | some k0 =>
            rw [h0] at g3
            simp only [Option.bind_some] at g3
            cases h1 : unread k0 with
            | none => rw [h1] at g3; cases g3
            | some k1 =>
              rw [h1] at g3; cases g3
              unfold unread at h1
              repeat' split at h1
              all_goals first
                | (cases h1; done)
                | (cases h1; exact List.mem_append_left _ (ih i k0 h0 x hx hp))
        · exact doing .started rfl g3
        · split at g3
          · rename_i k1 h1
            split at g3
            · cases g3
              exact doing .finish rfl (by rw [h1]; rfl)
            · cases g3
          · cases g3
        all_goals first
          | exact dropped (Option.some.inj g3)
          | exact keep (Option.some.inj g3)
      · rw [f1 i hw] at hk
        exact List.mem_append_left _ (ih i k hk x hx hp)

/-- Whoever reports the end of a process: a local loop, or a remote runner whose processes have come to their end. -/
theorem exits_ended (hr : Runs c (init c lf now) as s) (hf : Fresh c lf now as) {v : Nat} {code : Int} {values : List (List (String × String))}
    (hx : (v, code, values) ∈ Cluster.collect Cluster.exits c.sys (Cluster.init c.sys lf now) (clActs as)) :
    (v, code, values) ∈ Sys.collect Sys.outputs c.sys (Sys.init c.sys lf now) (Cluster.served c.sys lf now (clActs as)) ∨
    ∃ pre post s1 i k pst bytes r x, as = pre ++ post ∧ Runs c (init c lf now) pre s1 ∧ s1.far i = some k ∧ k.task = v ∧
      s1.runners[i]? = some r ∧ x ∈ r.tasks ∧ x.2.2 = v ∧
      ChildIo.Runs (farCfg c v) (ChildIo.init (farCfg c v)) k.hist k.st ∧
      k.st.stage = .ended pst bytes ∧ Fd3.code pst = .code code ∧ values = Fd3.fd3Values ⟨(bytes .val).toArray⟩ := by
  revert hf hx
  refine Runs.snocInd (Q := fun as _ => Fresh c lf now as →
    (v, code, values) ∈ Cluster.collect Cluster.exits c.sys (Cluster.init c.sys lf now) (clActs as) →
    (v, code, values) ∈ Sys.collect Sys.outputs c.sys (Sys.init c.sys lf now) (Cluster.served c.sys lf now (clActs as)) ∨
    ∃ pre post s1 i k pst bytes r x, as = pre ++ post ∧ Runs c (init c lf now) pre s1 ∧ s1.far i = some k ∧ k.task = v ∧
      s1.runners[i]? = some r ∧ x ∈ r.tasks ∧ x.2.2 = v ∧
      ChildIo.Runs (farCfg c v) (ChildIo.init (farCfg c v)) k.hist k.st ∧
      k.st.stage = .ended pst bytes ∧ Fd3.code pst = .code code ∧ values = Fd3.fd3Values ⟨(bytes .val).toArray⟩) ?_ ?_ hr
  · intro _ h; cases h
  · intro as s a s' hr ih hs hf hx
    have hf0 := hf.init_of hr
    have hc := hr.clusterInit
    have old : (v, code, values) ∈ Cluster.collect Cluster.exits c.sys (Cluster.init c.sys lf now) (clActs as) →
        (v, code, values) ∈ Sys.collect Sys.outputs c.sys (Sys.init c.sys lf now) (Cluster.served c.sys lf now (clActs (as ++ [a]))) ∨
        ∃ pre post s1 i k pst bytes r x, as ++ [a] = pre ++ post ∧ Runs c (init c lf now) pre s1 ∧ s1.far i = some k ∧ k.task = v ∧
          s1.runners[i]? = some r ∧ x ∈ r.tasks ∧ x.2.2 = v ∧
          ChildIo.Runs (farCfg c v) (ChildIo.init (farCfg c v)) k.hist k.st ∧
          k.st.stage = .ended pst bytes ∧ Fd3.code pst = .code code ∧ values = Fd3.fd3Values ⟨(bytes .val).toArray⟩ := by
      intro h
      rcases ih hf0 h with h | ⟨pre, post, s1, i, k, pst, bytes, r, x, e, h⟩
      · left
        rw [clActs_append]
        cases a with
        | near i b => simpa [clActs] using h
        | far i b => simpa [clActs] using h
        | cl b =>
          obtain ⟨h1, _, _⟩ := step_cl hs
          have := Cluster.served_collect (f := Sys.outputs) (hc.inv hf0) hc h1
          rw [show clActs [Act.cl b] = [b] from rfl, this]
          exact List.mem_append_left _ h
      · exact .inr ⟨pre, post ++ [a], s1, i, k, pst, bytes, r, x, by simp [e], h⟩
    rw [clActs_append] at hx
    cases a with
    | near i b => exact old (by simpa [clActs] using hx)
    | far i b => exact old (by simpa [clActs] using hx)
    | cl b =>
      obtain ⟨h1, _, _⟩ := step_cl hs
      rw [show clActs [Act.cl b] = [b] from rfl, Cluster.collect_snoc hc] at hx
      rcases List.mem_append.1 hx with hx | hx
      · exact old hx
      · cases b with
        | server y =>
          left
          have := Cluster.served_collect (f := Sys.outputs) (hc.inv hf0) hc h1
          rw [clActs_append, show clActs [Act.cl (.server y)] = [.server y] from rfl, this]
          refine List.mem_append_right _ ?_
          simp only [Cluster.sysAct, List.flatMap_cons, List.flatMap_nil, List.append_nil]
          cases y with
          | loopOutput i co va => exact hx
          | _ => cases hx
        | runner i y =>
          cases y with
          | output out =>
            right
            obtain ⟨k, pst, bytes, k1, k2, k3⟩ := far_output hr hs hx
            have hj : ∃ r x, s'.runners[i]? = some r ∧ x ∈ r.tasks ∧ x.2.2 = v := by
              obtain ⟨_, _, h3⟩ := step_cl hs
              obtain ⟨r, r', g1, g2, _⟩ := (far_who h3).2 i rfl
              have g1' : (Grid.cluster s).runners[i]? = some r := g1
              simp only [Cluster.exits, g1'] at hx
              split at hx
              · cases hgl : r.tasks.getLast? with
                | none => rw [hgl] at hx; cases hx
                | some y =>
                  rw [hgl] at hx
                  simp only [Option.map_some, Option.toList_some, List.mem_singleton, Prod.mk.injEq] at hx
                  have hm := List.mem_of_getLast? hgl
                  have hsub : ∀ z ∈ r.tasks, z ∈ r'.tasks := by
                    intro z hz
                    cases Cluster.step_runner h1 (j := i) (r' := r') g2 with
                    | same hsame => rw [g1'] at hsame; cases hsame; exact hz
                    | new cfg e =>
                      exfalso
                      simp only [Cluster.step, g1', Cluster.isAnswer] at h1
                      obtain ⟨u, hu, h⟩ := bind_ok h1
                      have hlt : i < s.runners.length := (List.getElem?_eq_some_iff.1 g1).1
                      rw [← (Res.ok.inj h)] at g2
                      simp only [Grid.cluster, List.getElem?_set_self hlt, Option.some.injEq] at g2
                      rw [e] at g2
                      have := congrArg (fun r => r.tasks) g2
                      simp only at this
                      rw [this] at hz; cases hz
                    | act r3 x _ hr3 _ _ ht _ => rw [g1'] at hr3; cases hr3; rw [ht]; exact hz
                    | hear r3 x y n got _ hr3 _ _ ht _ => rw [g1'] at hr3; cases hr3; rw [ht]; exact List.mem_append_left _ hz
                  exact ⟨r', y, g2, hsub y hm, hx.1.symm⟩
              · cases hx
            obtain ⟨r, x, j1, j2, j3⟩ := hj
            exact ⟨as ++ [_], [], s', i, k, pst, bytes, r, x, by simp, hr.snoc hs, k1, k2, j1, j2, j3, k3⟩
          | _ => cases hx
        | _ => cases hx

/-- The end of a process that is reported was one. -/
theorem exits_ran (hr : Runs c (init c lf now) as s) (hf : Fresh c lf now as) {v : Nat} {code : Int} {values : List (List (String × String))}
    (hx : (v, code, values) ∈ Cluster.collect Cluster.exits c.sys (Cluster.init c.sys lf now) (clActs as)) :
    ∃ st bytes, (RanNear c lf now as v st bytes ∨ RanFar c (init c lf now) as v st bytes) ∧ Fd3.code st = .code code ∧
      values = Fd3.fd3Values ⟨bytes.toArray⟩ := by
  rcases exits_ended hr hf hx with h | ⟨pre, post, s1, i, k, pst, bytes, r, x, e, h1, h2, h3, _, _, _, h4, h5, h6, h7⟩
  · obtain ⟨g1, g2⟩ := hr.family hf
    rw [← g2] at h
    obtain ⟨st, bytes, h1, h2⟩ := Family.output_ran g1 h
    exact ⟨st, bytes, .inl h1, h2⟩
  · obtain ⟨i1, _, i2, i3⟩ := h4.inv.ended pst bytes h5
    exact ⟨pst, _, .inr ⟨pre, post, s1, i, k, e, h1, h2, h3, h4, i1, rfl, i3 .val rfl⟩, h6, by rw [h7, i2 .val]⟩

/-- Without trouble it ends as its program says. -/
theorem ends_as (hg : Good c.sys.tr) {code : Nat → Nat} {bytes : Nat → List UInt8} (hp : Programs c code bytes)
    (hr : Runs c (init c lf now) as s) (hf : Fresh c lf now as) (ha : ∀ a ∈ as, trouble a = false) :
    Cluster.EndsAs (Family.behaviour code bytes) c.sys lf now (clActs as) := by
  rintro ⟨v, co, va⟩ hx
  have conv : ∀ (cc : ChildIo.Cfg P) v, cc.op = c.op v → cc.start = c.start v → cc.piped .val = true →
      cc.input = (farCfg c v).input → v < c.sys.tr.g.n → ChildIo.Gives cc .val (bytes v) (code v) := by
    intro cc v h1 h2 h3 h4 hv
    have := hp v hv
    unfold ChildIo.Gives at this ⊢
    rw [h1, h2, h3, h4]
    simpa [farCfg] using this
  rcases exits_ended hr hf hx with h | ⟨pre, post, s1, i, k, pst, bs, r, x, e, h1, h2, h3, j1, j2, j3, h4, h5, h6, h7⟩
  · obtain ⟨g1, g2⟩ := hr.family hf
    rw [← g2] at h
    obtain ⟨i, hist, st, pst, bs, h1, h2, h3, h4, h5⟩ := Family.output_ended g1 h
    have hk : ∀ a ∈ collect famAct c (init c lf now) as, Family.isKill a = false := by
      suffices ∀ (s : State P), ∀ a ∈ collect famAct c s as, Family.isKill a = false from this _
      clear hx h h1 g1 g2 hr hf
      induction as with
      | nil => intro s a h; cases h
      | cons b as ih =>
        intro s a hm
        simp only [collect, List.mem_append] at hm
        rcases hm with hm | hm
        · have hb := ha b (by simp)
          cases b with
          | cl y =>
            simp only [famAct, List.mem_map] at hm
            obtain ⟨z, _, rfl⟩ := hm
            rfl
          | near j y =>
            simp only [famAct, List.mem_singleton] at hm
            subst hm
            cases y <;> first | rfl | cases hb
          | far j y => cases hm
        · split at hm
          · exact ih (fun a h => ha a (List.mem_cons_of_mem _ h)) _ a hm
          · cases hm
    have hv : v < c.sys.tr.g.n := by
      obtain ⟨pre, mid, post, s1, _, h2, h3, _⟩ := h1
      exact Family.got_lt hg (Family.Runs.sys h2) h3
    obtain ⟨e1, e2⟩ := (ChildIo.on_track (c := Family.childCfg c i v) (by simp [Family.childCfg])
      (conv _ v rfl rfl (by simp [Family.childCfg]) rfl hv) h2 (Family.did_kill h1 hk)).2 pst bs h3
    subst e1
    simp only [Fd3.code, ExitStatus.code.injEq] at h4
    simp only [Family.behaviour, ExitStatus.code.injEq]
    exact ⟨h4, by rw [h5, e2]⟩
  · have hv : v < c.sys.tr.g.n := by
      subst e
      rw [← j3]
      exact task_lt hg h1.clusterInit (hf.init_of h1) j1 j2
    have hk : ∀ b ∈ k.hist, ChildIo.isKill b = false := by
      intro b hb
      cases hp : private_ b with
      | false => cases b <;> first | rfl | cases hp
      | true =>
        have hm := ha (.far i b) (by rw [e]; exact List.mem_append_left _ (far_hist h1 i k h2 b hb hp))
        cases b <;> first | rfl | cases hm
    obtain ⟨e1, e2⟩ := (ChildIo.on_track (c := farCfg c v) rfl (conv _ v rfl rfl rfl rfl hv) h4 hk).2 pst bs h5
    subst e1
    simp only [Fd3.code, ExitStatus.code.injEq] at h6
    simp only [Family.behaviour, ExitStatus.code.injEq]
    exact ⟨h6, by rw [h7, e2]⟩

/-! ### inputs nobody takes -/

theorem clear_hist (hr : Runs c (init c lf now) as s) {i : Nat} {k : Far P} (hk : s.far i = some k) (ha : ∀ x, Act.far i x ∈ as → ChildIo.isKill x = false) :
    ∀ b ∈ k.hist, ChildIo.isKill b = false := by
  intro b hb
  cases hp : private_ b with
  | false => cases b <;> first | rfl | cases hp
  | true => exact ha b (far_hist hr i k hk b hb hp)

theorem runner_next {sc : Sys.Cfg} {x y : Cluster.State} {b : Cluster.Act} (hs : Cluster.step sc x b = .ok y) {i : Nat} {r : Cluster.Runner}
    (hi : x.runners[i]? = some r) : ∃ r', y.runners[i]? = some r' ∧ (r' = r ∨ who b = some i ∧
      ((∃ z, Remote.step r.cfg.rem r.st z = .ok r'.st ∧ r'.tasks = r.tasks) ∨
        ∃ w z, Cluster.hears sc.tr.g r.st.phase w = some z)) := by
  have hlt : i < x.runners.length := (List.getElem?_eq_some_iff.1 hi).1
  cases b with
  | server a =>
    simp only [Cluster.step] at hs
    split at hs
    · cases hs
    · obtain ⟨u, _, h⟩ := bind_ok hs; cases h; exact ⟨r, hi, .inl rfl⟩
  | other a =>
    simp only [Cluster.step] at hs
    split at hs
    · obtain ⟨u, _, h⟩ := bind_ok hs; cases h; exact ⟨r, hi, .inl rfl⟩
    · cases hs
  | arrive k =>
    simp only [Cluster.step] at hs
    split at hs
    · obtain ⟨u, _, h⟩ := bind_ok hs; cases h; exact ⟨r, hi, .inl rfl⟩
    · cases hs
  | join cfg =>
    simp only [Cluster.step, Res.ok.injEq] at hs
    subst hs
    exact ⟨r, by simp only [List.getElem?_append_left hlt]; exact hi, .inl rfl⟩
  | runner j a =>
    simp only [Cluster.step] at hs
    split at hs
    · rename_i r1 hr1
      split at hs
      · cases hs
      · obtain ⟨u, hu, h⟩ := bind_ok hs
        cases h
        by_cases e : j = i
        · subst e
          rw [hi] at hr1; cases hr1
          exact ⟨_, List.getElem?_set_self hlt, .inr ⟨rfl, .inl ⟨a, hu, rfl⟩⟩⟩
        · exact ⟨r, by simp only [List.getElem?_set_ne e]; exact hi, .inl rfl⟩
    · cases hs
  | answer j =>
    simp only [Cluster.step] at hs
    split at hs
    · rename_i r1 hr1
      repeat' split at hs
      all_goals first
        | (cases hs; done)
        | (simp only [Cluster.hear] at hs
           split at hs
           · rename_i z got hh
             obtain ⟨u, hu, h⟩ := bind_ok hs
             cases h
             by_cases e : j = i
             · subst e
               rw [hi] at hr1; cases hr1
               exact ⟨_, List.getElem?_set_self hlt, .inr ⟨rfl, .inr ⟨_, _, hh⟩⟩⟩
             · exact ⟨r, by simp only [List.getElem?_set_ne e]; exact hi, .inl rfl⟩
           · cases hs)
    · cases hs
  | fail j =>
    simp only [Cluster.step] at hs
    split at hs
    · rename_i r1 hr1
      repeat' split at hs
      all_goals first
        | (cases hs; done)
        | (simp only [Cluster.hear] at hs
           split at hs
           · rename_i z got hh
             obtain ⟨u, hu, h⟩ := bind_ok hs
             cases h
             by_cases e : j = i
             · subst e
               rw [hi] at hr1; cases hr1
               exact ⟨_, List.getElem?_set_self hlt, .inr ⟨rfl, .inr ⟨_, _, hh⟩⟩⟩
             · exact ⟨r, by simp only [List.getElem?_set_ne e]; exact hi, .inl rfl⟩
           · cases hs)
    · cases hs

/-- A runner which writes an input that is never taken goes on so. -/
theorem stays_feeding {i v : Nat} (hp : ∀ hist st, ChildIo.Runs (farCfg c v) (ChildIo.init (farCfg c v)) hist st → (∀ b ∈ hist, ChildIo.isKill b = false) →
      ∃ b rest, st.stage = .feeding (b :: rest))
    (hr : Runs c (init c lf now) as s) (ha : ∀ x, Act.far i x ∈ as → ChildIo.isKill x = false) {r : Cluster.Runner} {q : Remote.StartResp} {pid : Nat}
    (hi : s.runners[i]? = some r) (hq : r.st.phase = .feeding q pid) (hv : r.tasks.getLast?.map (·.2.2) = some v)
    (hs : step c s a = .ok s') : ∃ r', s'.runners[i]? = some r' ∧ r'.st.phase = .feeding q pid ∧ r'.st.trace = r.st.trace ∧ r'.tasks = r.tasks := by
  obtain ⟨k, hk, e2, hrun⟩ := hr.far i r hi (by rw [hq]; rfl)
  rw [hv] at e2
  have e2 := Option.some.inj e2
  rw [← e2] at hrun
  have hno := clear_hist hr hk ha
  obtain ⟨b0, rest, hst⟩ := hp _ _ hrun hno
  have hlen : i < s.runners.length := (List.getElem?_eq_some_iff.1 hi).1
  cases a with
  | near j b => obtain ⟨_, h2, _, _⟩ := step_near hs; exact ⟨r, by rw [h2]; exact hi, hq, rfl, rfl⟩
  | far j b =>
    obtain ⟨k0, k1, _, _, e⟩ := step_far hs
    exact ⟨r, by rw [e]; exact hi, hq, rfl, rfl⟩
  | cl b =>
    obtain ⟨h1, _, h3⟩ := step_cl hs
    obtain ⟨r', hj, hor⟩ := runner_next h1 (i := i) (r := r) hi
    have hj : s'.runners[i]? = some r' := hj
    rcases hor with rfl | ⟨hw, ⟨x, hx, ht⟩ | ⟨w, z, hh⟩⟩
    · exact ⟨r', hj, hq, rfl, rfl⟩
    · obtain ⟨r1, r2, g1, g2, g3⟩ := (far_who h3).2 i hw
      rw [hi] at g1; cases g1
      have g2 : s'.runners[i]? = some r2 := g2
      rw [hj] at g2; cases g2
      cases x with
      | tick d => simp only [Remote.step, Res.ok.injEq] at hx; exact ⟨r', hj, by rw [← hx]; exact hq, by rw [← hx], ht⟩
      | usr1 => simp only [Remote.step, Res.ok.injEq] at hx; exact ⟨r', hj, by rw [← hx]; exact hq, by rw [← hx], ht⟩
      | lose => simp only [Remote.step, Res.ok.injEq] at hx; exact ⟨r', hj, by rw [← hx]; exact hq, by rw [← hx], ht⟩
      | childEnds p =>
        simp only [Remote.step] at hx
        split at hx
        · simp only [Res.ok.injEq] at hx; exact ⟨r', hj, by rw [← hx]; exact hq, by rw [← hx], ht⟩
        · cases hx
      | fed ok =>
        exfalso
        simp only [Remote.step, hq] at hx
        split at hx
        · simp only [Res.ok.injEq] at hx
          rw [hq, ← hx, hk] at g3
          simp only [Remote.State.goto, follow, Option.bind_some, does, ChildIo.step, hst] at g3
          cases g3
        · simp only [Res.ok.injEq] at hx
          rw [hq, ← hx, hk] at g3
          simp only [Remote.State.goto, follow, Option.bind_some, unread, hst] at g3
          split at g3
          · cases g3
          · rename_i hany
            obtain ⟨b2, rest2, h2⟩ := hp (k.hist ++ [.feed]) (ChildIo.killChild { k.st with stage := .panicked })
              (hrun.snoc (by simp only [ChildIo.step, hst]; rw [if_neg hany])) (by
                intro b hb
                rcases List.mem_append.1 hb with hb | hb
                · exact hno b hb
                · rw [List.mem_singleton.1 hb]; rfl)
            rw [(ChildIo.kill_stage _).1] at h2
            cases h2
      | startReply y => cases y <;> simp [Remote.step, hq] at hx
      | giveUp =>
        simp only [Remote.step, hq] at hx
        split at hx <;> cases hx
      | _ => simp [Remote.step, hq] at hx
    · rw [hq] at hh
      cases hh

theorem feeds_for_ever {i v : Nat} (hp : ∀ hist st, ChildIo.Runs (farCfg c v) (ChildIo.init (farCfg c v)) hist st → (∀ b ∈ hist, ChildIo.isKill b = false) →
      ∃ b rest, st.stage = .feeding (b :: rest))
    {bs : List Act} (hr : Runs c (init c lf now) as s) {r : Cluster.Runner} {q : Remote.StartResp} {pid : Nat}
    (hi : s.runners[i]? = some r) (hq : r.st.phase = .feeding q pid) (hv : r.tasks.getLast?.map (·.2.2) = some v)
    (hr' : Runs c s bs s') (ha : ∀ x, Act.far i x ∈ as ++ bs → ChildIo.isKill x = false) :
    ∃ r', s'.runners[i]? = some r' ∧ r'.st.phase = .feeding q pid ∧ r'.st.trace = r.st.trace := by
  suffices ∀ {bs : List Act} {s s' : State P}, Runs c s bs s' → ∀ as (r : Cluster.Runner), Runs c (init c lf now) as s → s.runners[i]? = some r →
      r.st.phase = .feeding q pid → r.tasks.getLast?.map (·.2.2) = some v → (∀ x, Act.far i x ∈ as ++ bs → ChildIo.isKill x = false) →
      ∃ r', s'.runners[i]? = some r' ∧ r'.st.phase = .feeding q pid ∧ r'.st.trace = r.st.trace from this hr' as r hr hi hq hv ha
  intro bs s s' hr'
  induction hr' with
  | nil => intro as r _ hi hq _ _; exact ⟨r, hi, hq, rfl⟩
  | @cons s s1 s' a bs hs _ ih =>
    intro as r hr hi hq hv ha
    obtain ⟨r1, k1, k2, k3, k4⟩ := stays_feeding hp hr (fun x hx => ha x (List.mem_append_left _ hx)) hi hq hv hs
    obtain ⟨r2, m1, m2, m3⟩ := ih (as ++ [a]) r1 (hr.snoc hs) k1 k2 (by rw [k4]; exact hv) (by simpa using ha)
    exact ⟨r2, m1, m2, m3.trans k3⟩

end Verif.Grid
