import Verif.Proof.Family4
import Verif.Props.ChildIo

/-!
# Local loops together with their processes: fair runs, exit codes, tasks that are never fed
-/

namespace Verif.Family
open Verif Verif.Tracker

variable {P : Type} {c : Cfg P} {lf : LogFile} {now : Int} {s s' : State P} {a : Act} {as : List Act}
variable {σ : Nat → State P} {α : Nat → Act}

theorem InfRun.prefix (h : InfRun c lf now σ α) (k : Nat) : Runs c (init c lf now) ((List.range k).map α) (σ k) := by
  induction k with
  | zero => rw [h.start]; exact .nil _
  | succ k ih =>
    rw [List.range_succ, List.map_append]
    exact ih.snoc (h.next k).1 (h.next k).2

theorem InfRun.acts {q : Act → Prop} (h : ∀ k, q (α k)) (k : Nat) : ∀ a ∈ (List.range k).map α, q a := by
  intro a hm
  obtain ⟨i, _, rfl⟩ := List.mem_map.1 hm
  exact h i

/-- In a fair run `execute` returns. -/
theorem fair_ends (hg : Good c.sys.tr) (hdisp : Displayable c.sys.tr) (hrun : Sys.LocallyRunnable c.sys)
    (hord : Ordered c.sys.tr) (hne : c.sys.tr.g.n ≠ 0) (hpar : c.sys.numParallel ≠ 0) (hl : c.sys.remote = false) (hcap : 1 ≤ c.cap)
    (hin : InputsRead c) {k b : Nat} {rank : Nat → P → Nat}
    (he : ∀ v, v < c.sys.tr.g.n → Ends (c.op v) k (rank v))
    (hb : ∀ v, v < c.sys.tr.g.n →
      2 * rank v (c.start v) + (2 * k + 3) * (((cmdOf c.sys.tr.g v).fdInput.map (·.2)).getD []).length + 8 ≤ b)
    (h : InfRun c lf now σ α) (hf : Fair c σ α) (ha : ∀ k, isTrigger (α k) = false ∧ isDie (α k) = false ∧ isKill (α k) = false) :
    ∃ k, (σ k).sys.tr.pc = .done := by
  refine Classical.byContradiction fun hno => ?_
  have hno : ∀ k, (σ k).sys.tr.pc ≠ .done := fun k hk => hno ⟨k, hk⟩
  have able : ∀ k, Able c (σ k) := by
    intro k
    rcases able_or_jammed hg hdisp hrun hord hne hpar hl hcap (h.prefix k)
      (InfRun.acts (q := fun a => isTrigger a = false ∧ isDie a = false) (fun k => ⟨(ha k).1, (ha k).2.1⟩) k) (hno k) with h1 | ⟨i, h1⟩
    · exact h1
    · exact absurd h1 (not_jammed hg hin (h.prefix k) (InfRun.acts (q := fun a => isKill a = false) (fun k => (ha k).2.2) k) i)
  have trig : ∀ k, ((List.range k).map α).countP isTrigger = 0 := by
    intro k
    rw [List.countP_eq_zero]
    intro a hm
    obtain ⟨i, _, rfl⟩ := List.mem_map.1 hm
    rw [(ha i).1]; simp
  have more : ∀ m, ∃ k, m ≤ ((List.range k).map α).countP internal := by
    intro m
    induction m with
    | zero => exact ⟨0, Nat.zero_le _⟩
    | succ m ih =>
      obtain ⟨k, hk⟩ := ih
      obtain ⟨j, hj, hi⟩ := hf k (able k)
      refine ⟨j + 1, ?_⟩
      obtain ⟨d, rfl⟩ := Nat.exists_eq_add_of_le hj
      rw [List.range_succ, List.map_append, List.countP_append, List.range_add, List.map_append, List.countP_append]
      simp only [List.map_cons, List.map_nil, List.countP_cons, List.countP_nil, hi, if_true]
      omega
  obtain ⟨m, hm⟩ := more ((b + 1) * (201 * c.sys.tr.g.n + 2 * c.sys.numParallel + 7 + 0) + 1)
  have := total_runs hg hl he hb (h.prefix m)
  rw [trig m] at this
  omega

theorem bound (n : Nat) (f : Nat → Nat) : ∃ b, ∀ v, v < n → f v ≤ b := by
  induction n with
  | zero => exact ⟨0, fun v h => absurd h (Nat.not_lt_zero v)⟩
  | succ n ih =>
    obtain ⟨b, hb⟩ := ih
    refine ⟨b + f n, fun v h => ?_⟩
    by_cases hv : v = n
    · subst hv; omega
    · have := hb v (by omega); omega

/-! ### exit codes -/

theorem did_kill {i v : Nat} {hist : List ChildIo.Act} {s0 : State P} (h : Did c s0 as i v hist)
    (ha : ∀ a ∈ as, isKill a = false) : ∀ b ∈ hist, ChildIo.isKill b = false := by
  obtain ⟨pre, mid, post, s1, rfl, h2, h3, h4, rfl⟩ := h
  refine since_kill (as := pre ++ .sys (.loopSpawn i true) :: mid) ⟨pre, mid, s1, rfl, h2, h3, h4, rfl⟩ fun a hm => ha a ?_
  simp only [List.mem_append, List.mem_cons] at hm ⊢
  rcases hm with h | h | h <;> simp [h]

theorem ends_zero {cc : ChildIo.Cfg P} (h0 : ∀ p code, cc.op p = .exit code → code = 0) :
    ∀ (hist : List ChildIo.Act) (st : ChildIo.State P), (∀ b ∈ hist, ChildIo.isKill b = false) →
    ∀ x ∈ ChildIo.childEnds cc st hist, x = .exited 0 := by
  intro hist
  induction hist with
  | nil => intro st _ x hx; cases hx
  | cons b hist ih =>
    intro st hk x hx
    simp only [ChildIo.childEnds] at hx
    rcases List.mem_append.1 hx with hx | hx
    · cases b with
      | kill i sig => exact absurd (hk _ List.mem_cons_self) (by simp [ChildIo.isKill])
      | run i =>
        simp only [ChildIo.childEnd] at hx
        split at hx
        · split at hx
          · rename_i he
            rw [h0 _ _ he] at hx
            exact List.mem_singleton.1 hx
          · cases hx
        · cases hx
      | _ => cases hx
    · split at hx
      · exact ih _ (fun b hb => hk b (List.mem_cons_of_mem _ hb)) x hx
      · cases hx

theorem mem_sysActs {b : Sys.Act} : ∀ {as : List Act}, b ∈ sysActs as → Act.sys b ∈ as := by
  intro as
  induction as with
  | nil => intro h; cases h
  | cons x as ih =>
    intro h
    cases x with
    | sys y =>
      rcases List.mem_cons.1 h with rfl | h
      · exact List.mem_cons_self
      · exact List.mem_cons_of_mem _ (ih h)
    | kid j y => exact List.mem_cons_of_mem _ (ih h)

theorem output_seen {sc : Sys.Cfg} : ∀ {bs : List Sys.Act} {t t' : Sys.State}, Sys.Runs sc t bs t' → ∀ {i code values},
    .loopOutput i code values ∈ bs → ∃ v, (v, code, values) ∈ Sys.collect Sys.outputs sc t bs := by
  intro bs
  induction bs with
  | nil => intro t t' _ i code values h; cases h
  | cons b bs ih =>
    intro t t' hr i code values hm
    cases hr with
    | cons hp hs hr =>
      simp only [Sys.collect, hs]
      rcases List.mem_cons.1 hm with rfl | hm
      · simp only [Sys.step] at hs
        split at hs
        · rename_i v x hl
          exact ⟨v, List.mem_append_left _ (by simp [Sys.outputs, hl])⟩
        · cases hs
      · obtain ⟨v, hv⟩ := ih hr hm
        exact ⟨v, List.mem_append_right _ hv⟩

theorem all_zero (hg : Good c.sys.tr) (h0 : ∀ v p code, v < c.sys.tr.g.n → c.op v p = .exit code → code = 0)
    (hr : Runs c (init c lf now) as s)
    (ha : ∀ a ∈ as, trouble a = false) : ∀ b ∈ sysActs as, Sys.wrong b = false := by
  intro b hb
  have hk : ∀ a ∈ as, isKill a = false := by
    intro a hm
    have := ha a hm
    cases a with
    | sys y => rfl
    | kid i y => cases y <;> first | rfl | cases this
  have ht := ha _ (mem_sysActs hb)
  cases b with
  | loopOutput i code values =>
    obtain ⟨v, hv⟩ := output_seen (Runs.sys hr) hb
    obtain ⟨st, bytes, ⟨j, hist, st', h1, h2, h3, _, _⟩, h5, _⟩ := output_ran hr hv
    have hvn : v < c.sys.tr.g.n := by
      obtain ⟨pre, mid, post, s1, _, h2, h3, _⟩ := h1
      exact got_lt hg (Runs.sys h2) h3
    have := ends_zero (cc := childCfg c j v) (fun p code => h0 v p code hvn) hist _ (did_kill h1 hk) st (by rw [h3]; simp)
    rw [this] at h5
    simp only [Fd3.code, ExitStatus.code.injEq] at h5
    simp [Sys.wrong, ← h5]
  | loopSpawn i ok => cases ok <;> first | rfl | cases ht
  | server y => cases y <;> first | rfl | cases ht
  | loopDie i => cases ht
  | _ => rfl

/-! ### a task that is never fed -/

/-- The loop of a task whose input is never taken stays where it is. -/
theorem stays_spawned {i v : Nat} {x : Int}
    (hp : ∀ hist st, ChildIo.Runs (childCfg c i v) (ChildIo.init (childCfg c i v)) hist st → (∀ b ∈ hist, ChildIo.isKill b = false) →
      ∃ b rest, st.stage = .feeding (b :: rest))
    (hr : Runs c (init c lf now) as s) (hk : ∀ a ∈ as, isKill a = false) (hl : s.sys.loops[i]? = some (.spawned v x))
    (hs : step c s a = .ok s') : s'.sys.loops[i]? = some (.spawned v x) := by
  obtain ⟨st, hist, hkid, hsince, hrun, _⟩ := (tied hr).2 i _ hl
  have hno := since_kill hsince hk
  obtain ⟨b, rest, hst⟩ := hp hist st hrun hno
  have move : ∀ (b' : Sys.Act) (t : Sys.State), Sys.step c.sys s.sys b' = .ok t → (∀ h p, b' ≠ .loopStarted i h p) → b' ≠ .loopDie i →
      t.loops[i]? = some (.spawned v x) := by
    intro b' t ht h1 h2
    rcases Sys.step_loops ht with ⟨e1, _⟩ | ⟨j, l, l', o, hj, e1, hm, _⟩
    · rw [e1]; exact hl
    · rw [e1, List.getElem?_set]
      split
      · rename_i hij
        subst hij
        rw [hl] at hj
        cases hj
        cases hm with
        | dieSpawned => exact absurd rfl h2
        | started _ _ host pid => exact absurd rfl (h1 host pid)
      · exact hl
  have hf := fstep hs
  cases hf with
  | spawn j w t hv ht => exact move _ t ht (fun _ _ => by simp) (by simp)
  | joint b' j y kd st' t hy hst' ht hor =>
    refine move b' t ht ?_ ?_
    · intro h p e
      subst e
      rcases hor with ⟨h', p', w, x', e, hb, _⟩ | ⟨e, _⟩ | ⟨e, _⟩ | ⟨_, _, e, _⟩
      · cases e
        subst hb
        rw [hkid] at hy; cases hy
        simp [ChildIo.step, hst] at hst'
      all_goals cases e
    · rcases hor with ⟨_, _, _, _, rfl, _⟩ | ⟨rfl, _⟩ | ⟨rfl, _⟩ | ⟨_, _, rfl, _⟩ <;> simp
  | die j w x' kd kd' t hv hy ht htask hpan hor =>
    by_cases hij : j = i
    · subst hij
      rw [hkid] at hy; cases hy
      rcases hor with ⟨h1, _⟩ | h1
      · rw [hst] at h1; cases h1
      · obtain ⟨b2, rest2, h2⟩ := hp (hist ++ [.feed]) kd'.st (hrun.snoc h1) (by
          intro b hb
          rcases List.mem_append.1 hb with hb | hb
          · exact hno b hb
          · rw [List.mem_singleton.1 hb]; rfl)
        simp [panicked, h2] at hpan
    · refine move _ t ht (fun _ _ => by simp) ?_
      simpa using hij
  | alone b' t ht hsp hka hdie =>
    refine move b' t ht ?_ ?_
    · intro h p e
      subst e
      rcases hka i with h0 | ⟨w, h0⟩
      · simp [kidAct] at h0
      · rw [hl] at h0; cases h0
    · intro e
      exact hdie i e v x hl
  | kid j b' y st' _ hy hst' _ => exact hl

/-- Once the process of a task whose input is never taken has been started, `execute` does not return. -/
theorem never_returns (hg : Good c.sys.tr) {i v : Nat}
    (hp : ∀ hist st, ChildIo.Runs (childCfg c i v) (ChildIo.init (childCfg c i v)) hist st → (∀ b ∈ hist, ChildIo.isKill b = false) →
      ∃ b rest, st.stage = .feeding (b :: rest))
    {x : Int} {bs : List Act} (hr : Runs c (init c lf now) as s) (hl : s.sys.loops[i]? = some (.spawned v x))
    (hr' : Runs c s bs s') (hk : ∀ a ∈ as ++ bs, isKill a = false) :
    s'.sys.loops[i]? = some (.spawned v x) ∧ s'.sys.tr.pc ≠ .done := by
  have h1 : s'.sys.loops[i]? = some (.spawned v x) := by
    have gen : ∀ {bs : List Act} {s s' : State P}, Runs c s bs s' → ∀ as, Runs c (init c lf now) as s →
        s.sys.loops[i]? = some (.spawned v x) → (∀ a ∈ as ++ bs, isKill a = false) → s'.sys.loops[i]? = some (.spawned v x) := by
      intro bs s s' hr'
      induction hr' with
      | nil => intro as _ h _; exact h
      | @cons s s1 s' a bs hpo hs _ ih =>
        intro as hr hl hk
        refine ih (as ++ [a]) (hr.snoc hpo hs) (stays_spawned hp hr (fun y hy => hk y (by simp [hy])) hl hs) ?_
        simpa using hk
    exact gen hr' as hr hl hk
  refine ⟨h1, fun hd => ?_⟩
  obtain ⟨h2, _⟩ := Sys.quit_when_joined hg (Runs.sys (hr.append hr')) (.inr hd)
  have := List.all_eq_true.1 h2 _ (List.mem_of_getElem? h1)
  simp at this

/-! ### there are fair runs -/

theorem right_enabled (h : ∃ a s', internal a = true ∧ isDie a = false ∧ step c s a = .ok s') :
    ∃ a s', internal a = true ∧ trouble a = false ∧ step c s a = .ok s' := by
  obtain ⟨a, s', h1, h2, h3⟩ := h
  by_cases hw : trouble a = false
  · exact ⟨a, s', h1, hw, h3⟩
  · cases a with
    | kid i b => cases b <;> simp_all [trouble, internal]
    | sys b =>
      cases b with
      | server b => cases b <;> simp_all [trouble, internal, Sys.internal]
      | loopDie i => simp [isDie, Sys.isDie] at h2
      | loopSpawn i ok =>
        cases ok with
        | true => simp [trouble] at hw
        | false =>
          obtain ⟨t, ht, _⟩ := alone_ok.1 (show alone c s (.loopSpawn i false) = .ok s' from h3)
          simp only [Sys.step] at ht
          split at ht
          · rename_i v hl
            split at ht
            · rename_i hsp
              have h4 : Sys.step c.sys s.sys (.loopSpawn i true) =
                  .ok (Sys.setLoop i (.spawned v s.sys.tr.now) { s.sys with preCalls := s.sys.preCalls ++ [v] }) := by
                simp only [Sys.step, hl, hsp, if_true]
              refine ⟨.sys (.loopSpawn i true), ⟨Sys.setLoop i (.spawned v s.sys.tr.now) { s.sys with preCalls := s.sys.preCalls ++ [v] },
                s.kids.set i (some ⟨v, ChildIo.init (childCfg c i v)⟩)⟩, rfl, rfl, ?_⟩
              simp only [step, hl]
              exact both_ok.2 ⟨_, h4, rfl⟩
            · cases ht
          · cases ht
      | _ => simp [trouble] at hw

theorem tick_enabled (c : Cfg P) (s : State P) : step c s (.sys (.server (.tick 1))) =
    .ok { s with sys := { s.sys with tr := { s.sys.tr with now := s.sys.tr.now + (1 : Nat) } } } := rfl

open Classical in
/-- Some possible action, one inside if there is one; the clock else. -/
noncomputable def pick (c : Cfg P) (s : State P) : Act × State P :=
  if h : ∃ x : Act × State P, internal x.1 = true ∧ trouble x.1 = false ∧ step c s x.1 = .ok x.2 then choose h
  else (.sys (.server (.tick 1)), { s with sys := { s.sys with tr := { s.sys.tr with now := s.sys.tr.now + (1 : Nat) } } })

theorem polite_internal (h : internal a = true) : polite c s a = true := by
  cases a with
  | sys b => exact Sys.polite_internal h
  | kid i b => rfl

theorem pick_ok (c : Cfg P) (s : State P) : polite c s (pick c s).1 = true ∧ step c s (pick c s).1 = .ok (pick c s).2 ∧
    trouble (pick c s).1 = false ∧
    ((∃ a s', internal a = true ∧ isDie a = false ∧ step c s a = .ok s') → internal (pick c s).1 = true) := by
  unfold pick
  split
  · rename_i h
    obtain ⟨h1, h2, h3⟩ := Classical.choose_spec h
    exact ⟨polite_internal h1, h3, h2, fun _ => h1⟩
  · rename_i h
    refine ⟨rfl, tick_enabled c s, rfl, fun h' => ?_⟩
    obtain ⟨a, s', h1, h2, h3⟩ := right_enabled h'
    exact absurd ⟨(a, s'), h1, h2, h3⟩ h

/-- The states of the run that always takes the picked action. -/
noncomputable def pickRun (c : Cfg P) (lf : LogFile) (now : Int) : Nat → State P
  | 0 => init c lf now
  | k + 1 => (pick c (pickRun c lf now k)).2

theorem exists_fair (c : Cfg P) (lf : LogFile) (now : Int) :
    ∃ σ α, InfRun c lf now σ α ∧ Fair c σ α ∧ ∀ k, trouble (α k) = false := by
  refine ⟨pickRun c lf now, fun k => (pick c (pickRun c lf now k)).1, ⟨rfl, fun k => ?_⟩, ?_, fun k => ?_⟩
  · obtain ⟨h1, h2, _⟩ := pick_ok c (pickRun c lf now k)
    exact ⟨h1, h2⟩
  · intro k hk
    exact ⟨k, Nat.le_refl _, (pick_ok c (pickRun c lf now k)).2.2.2 hk⟩
  · exact (pick_ok c (pickRun c lf now k)).2.2.1

end Verif.Family
