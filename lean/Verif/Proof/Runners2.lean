import Verif.Proof.Runners

/-!
# The actual runners end their connections (proofs)
-/

namespace Verif.Cluster
open Verif

variable {c : Sys.Cfg} {lf : LogFile} {now : Int} {s s' : State} {as : List Act} {a : Act} {σ : Nat → State} {α : Nat → Act}

theorem InfRun.prefix (h : InfRun c lf now σ α) (k : Nat) : Runs c (init c lf now) ((List.range k).map α) (σ k) := by
  induction k with
  | zero => rw [h.start]; exact .nil _
  | succ k ih =>
    rw [List.range_succ, List.map_append]
    exact ih.snoc (h.next k)

theorem idle_ok (c : Sys.Cfg) (t : Sys.State) : Sys.step c t (.server (.tick 0)) = .ok t := by
  simp [Sys.step, Sys.serverAct, Sys.trk, Tracker.step, Res.bind]

/-- The run as the server sees it is a run of the server. -/
theorem InfRun.sys (h : InfRun c lf now σ α) (hf : AllFresh c lf now α) : Sys.InfRun c lf now (sysStates σ) (sysActs σ α) where
  start := by unfold sysStates; rw [h.start]; rfl
  next := by
    intro k
    have hi := (h.prefix k).inv (hf k)
    unfold sysStates sysActs seen
    rcases step_sys (h.next k) with ⟨e, e2⟩ | ⟨b, e, e2⟩
    · rw [e, e2]; exact ⟨rfl, idle_ok c _⟩
    · rw [e]
      refine ⟨?_, e2⟩
      have hi2 := (h.prefix (k + 1)).inv (hf (k + 1))
      have hr := hi2.run
      rw [List.range_succ, List.map_append, List.map_singleton, served_snoc (h.prefix k), e] at hr
      show Sys.polite c (σ k).sys b = true
      cases b with
      | request q =>
        cases ha : α k with
        | server b => rw [ha] at e; simp only [sysAct, List.cons.injEq, and_true] at e; have hn := h.next k; rw [ha, e] at hn; simp [step, isRequest] at hn
        | other q' =>
          rw [ha] at e; simp only [sysAct, List.cons.injEq, and_true, Sys.Act.request.injEq] at e; subst e
          have hn := h.next k
          rw [ha] at hn
          simp only [step] at hn
          split at hn
          · rename_i hh
            unfold harmless at hh
            simp only [Sys.polite]
            split
            · rename_i t T host n e1 e2
              simp_all
            · rfl
          · cases hn
        | arrive m =>
          rw [ha] at e
          simp only [sysAct] at e
          split at e
          · rename_i p hp
            simp only [List.cons.injEq, and_true, Sys.Act.request.injEq] at e
            subst e
            have hn := h.next k
            rw [ha] at hn
            simp only [step] at hn
            split at hn
            · rename_i i q hk
              rw [hp] at hk; cases hk
              exact hi.polite hp rfl
            · cases hn
          · cases e
        | join _ | runner _ _ | answer _ | fail _ => rw [ha] at e; simp [sysAct] at e
      | _ => rfl

/-! ### runners and their tasks -/

theorem runner_stays (h : InfRun c lf now σ α) {i k : Nat} {r : Runner} (hi : (σ k).runners[i]? = some r) (d : Nat) :
    ∃ r', (σ (k + d)).runners[i]? = some r' := by
  induction d with
  | zero => exact ⟨r, hi⟩
  | succ d ih =>
    obtain ⟨r1, h1⟩ := ih
    obtain ⟨r2, h2, _⟩ := Grid.runner_next (h.next (k + d)) h1
    exact ⟨r2, h2⟩

/-- What a runner does with its task. -/
theorem remote_place {rc : Remote.Cfg} {st st' : Remote.State} {b : Remote.Act} (hs : Remote.step rc st b = .ok st') {T : Nat}
    (ht : atTask st'.phase = some T) (ha : isAnswer b = false) : atTask st.phase = some T ∧ place st.phase ≤ place st'.phase := by
  cases b <;> simp only [Remote.step] at hs <;> (try (cases ha; done)) <;> repeat' split at hs
  all_goals first
    | (cases hs; done)
    | (simp only [Res.ok.injEq] at hs; subst hs; simp_all [Remote.State.goto, atTask, place])

theorem heard_place {g : DiGraph Cmd} {rc : Remote.Cfg} {st st' : Remote.State} {b : Remote.Act} {x : Option Sys.Reply} {got : List (Nat × Nat)}
    (hh : hears g st.phase x = some (b, got)) (hs : Remote.step rc st b = .ok st') {T : Nat}
    (ht : atTask st'.phase = some T) : (∃ v, got = [(T, v)]) ∨ (atTask st.phase = some T ∧ place st.phase ≤ place st'.phase) := by
  unfold hears at hh
  repeat' split at hh
  all_goals first
    | (cases hh; done)
    | (simp only [Option.some.injEq, Prod.mk.injEq] at hh
       obtain ⟨rfl, rfl⟩ := hh
       simp only [Remote.step] at hs
       repeat' split at hs
       all_goals first
         | (cases hs; done)
         | (simp only [Res.ok.injEq] at hs; subst hs; simp_all [Remote.State.goto, atTask, place, resp]))

/-- Where a runner has its task from. -/
theorem task_from (hs : step c s a = .ok s') {i : Nat} {r' : Runner} (hi : s'.runners[i]? = some r') {T : Nat}
    (ht : atTask r'.st.phase = some T) : ∃ r, s.runners[i]? = some r ∧
      ((∃ h v, r'.tasks = r.tasks ++ [(h, T, v)]) ∨
        (r'.tasks = r.tasks ∨ ∃ l, r'.tasks = r.tasks ++ l) ∧ atTask r.st.phase = some T ∧ place r.st.phase ≤ place r'.st.phase) := by
  rcases step_runner hs hi with hsame | ⟨cfg, rfl⟩ | ⟨r0, b, ha, h0, hb, hst, e, _⟩ | ⟨r0, b, x, h1, got, ha, h0, hh, hst, e, _⟩
  · exact ⟨r', hsame, .inr ⟨.inl rfl, ht, Nat.le_refl _⟩⟩
  · cases ht
  · exact ⟨r0, h0, .inr ⟨.inl e, remote_place hst ht hb⟩⟩
  · rcases heard_place hh hst ht with ⟨v, rfl⟩ | h2
    · exact ⟨r0, h0, .inl ⟨h1, v, e⟩⟩
    · exact ⟨r0, h0, .inr ⟨.inr ⟨_, e⟩, h2⟩⟩

/-- A runner has received the task it has. -/
theorem Runs.received (hr : Runs c (init c lf now) as s) : ∀ (i : Nat) (r : Runner) (T : Nat), s.runners[i]? = some r →
    atTask r.st.phase = some T → ∃ x v, (x, T, v) ∈ r.tasks := by
  refine Runs.snocInd (P := fun _ s => ∀ (i : Nat) (r : Runner) (T : Nat), s.runners[i]? = some r →
    atTask r.st.phase = some T → ∃ x v, (x, T, v) ∈ r.tasks) ?_ ?_ hr
  · intro i r T hi; simp [init] at hi
  · intro as s a s' hr ih hs i r' T hi ht
    obtain ⟨r, h0, ⟨h, v, e⟩ | ⟨e, h1, _⟩⟩ := task_from hs hi ht
    · exact ⟨h, v, by rw [e]; simp⟩
    · obtain ⟨x, v, hx⟩ := ih i r T h0 h1
      refine ⟨x, v, ?_⟩
      rcases e with e | ⟨l, e⟩
      · rw [e]; exact hx
      · rw [e]; exact List.mem_append_left _ hx

/-- A task is received once only. -/
theorem not_again (hi2 : Inv c lf now as s') (hf : Fresh c lf now as) (hs : step c s a = .ok s') {i : Nat} {r r' : Runner}
    (h0 : s.runners[i]? = some r) (h1 : s'.runners[i]? = some r') {T x v : Nat} (hx : (x, T, v) ∈ r.tasks) (ht : atTask r'.st.phase = some T) :
    atTask r.st.phase = some T ∧ place r.st.phase ≤ place r'.st.phase := by
  obtain ⟨r1, h2, ⟨h, v', e⟩ | ⟨_, h3⟩⟩ := task_from hs h1 ht
  · exfalso
    rw [h0] at h2; cases h2
    have m1 : (x, T, v) ∈ r'.tasks := by rw [e]; exact List.mem_append_left _ hx
    have m2 : (h, T, v') ∈ r'.tasks := by rw [e]; simp
    have e2 := hi2.txn hf (hi2.tasks _ _ _ _ _ h1 m1).1 (hi2.tasks _ _ _ _ _ h1 m2).1
    subst e2
    have hn := hi2.hsNodup h1
    unfold Cluster.hs at hn
    rw [e, List.map_append, List.nodup_append] at hn
    exact hn.2.2 x (List.mem_map.2 ⟨_, hx, rfl⟩) x (by simp) rfl
  · rw [h0] at h2; cases h2; exact h3

theorem hear_grow {n : Nat} {r0 : Runner} {x : Nat} {y : Option Sys.Reply} (hn : s.runners[n]? = some r0) (hh : hear c s n r0 x y = .ok s')
    {i : Nat} {r r' : Runner} (h0 : s.runners[i]? = some r) (h1 : s'.runners[i]? = some r') {z : Nat × Nat × Nat} (hz : z ∈ r.tasks) :
    z ∈ r'.tasks := by
  unfold hear at hh
  split at hh
  · obtain ⟨t, _, e⟩ := Grid.bind_ok hh; cases e
    rcases getElem?_set_cases h1 with ⟨rfl, rfl, _⟩ | ⟨_, h1⟩
    · rw [h0] at hn; cases hn; exact List.mem_append_left _ hz
    · rw [h0] at h1; cases h1; exact hz
  · cases hh

theorem tasks_grow (hs : step c s a = .ok s') {i : Nat} {r r' : Runner}
    (h0 : s.runners[i]? = some r) (h1 : s'.runners[i]? = some r') {y : Nat × Nat × Nat} (hy : y ∈ r.tasks) : y ∈ r'.tasks := by
  cases a with
  | runner n b =>
    simp only [step] at hs
    split at hs
    · rename_i r0 hn
      split at hs
      · cases hs
      · obtain ⟨t, _, e⟩ := Grid.bind_ok hs; cases e
        rcases getElem?_set_cases h1 with ⟨rfl, rfl, _⟩ | ⟨_, h1⟩
        · rw [h0] at hn; cases hn; exact hy
        · rw [h0] at h1; cases h1; exact hy
    · cases hs
  | answer n =>
    simp only [step] at hs
    repeat' split at hs
    all_goals first | cases hs | exact hear_grow (by assumption) hs h0 h1 hy
  | fail n =>
    simp only [step] at hs
    repeat' split at hs
    all_goals first | cases hs | exact hear_grow (by assumption) hs h0 h1 hy
  | _ =>
    obtain ⟨r2, h3, e | ⟨hw, _⟩⟩ := Grid.runner_next hs h0
    · rw [h1] at h3; cases h3; rw [e]; exact hy
    · cases hw

/-! ### along an infinite run -/

theorem tasks_stay (h : InfRun c lf now σ α) {i k : Nat} {r : Runner} (hi : (σ k).runners[i]? = some r) {y : Nat × Nat × Nat} (hy : y ∈ r.tasks)
    (d : Nat) : ∀ r', (σ (k + d)).runners[i]? = some r' → y ∈ r'.tasks := by
  induction d with
  | zero => intro r' h'; rw [Nat.add_zero, hi] at h'; cases h'; exact hy
  | succ d ih =>
    intro r' h'
    obtain ⟨r1, h1⟩ := runner_stays h hi d
    exact tasks_grow (h.next (k + d)) h1 h' (ih r1 h1)

/-- Going back: who has a task later, and had received it, has it in between, at a place not further on. -/
theorem had_it (h : InfRun c lf now σ α) (hf : AllFresh c lf now α) {i k : Nat} {r : Runner} (hi : (σ k).runners[i]? = some r) {T x v : Nat}
    (hx : (x, T, v) ∈ r.tasks) (d : Nat) : ∀ r', (σ (k + d)).runners[i]? = some r' → atTask r'.st.phase = some T →
      atTask r.st.phase = some T ∧ place r.st.phase ≤ place r'.st.phase := by
  induction d with
  | zero => intro r' h' ht; rw [Nat.add_zero, hi] at h'; cases h'; exact ⟨ht, Nat.le_refl _⟩
  | succ d ih =>
    intro r' h' ht
    obtain ⟨r1, h1⟩ := runner_stays h hi d
    have h2 := not_again ((h.prefix (k + d + 1)).inv (hf _)) (hf (k + d + 1)) (h.next (k + d)) h1 h' (tasks_stay h hi hx d r1 h1) ht
    have h3 := ih r1 h1 h2.1
    exact ⟨h3.1, Nat.le_trans h3.2 h2.2⟩

theorem place_le (p : Remote.Phase) : place p ≤ 8 := by cases p <;> simp [place]

/-- A runner gets rid of its task. -/
theorem gets_rid (h : InfRun c lf now σ α) (hf : AllFresh c lf now α) (hm : RunnersMove σ) {T i : Nat} :
    ∀ (n k : Nat) (r : Runner), (σ k).runners[i]? = some r → atTask r.st.phase = some T → 8 ≤ place r.st.phase + n →
      ∃ j r', k ≤ j ∧ (σ j).runners[i]? = some r' ∧ atTask r'.st.phase ≠ some T := by
  intro n
  induction n with
  | zero =>
    intro k r hi ht hp
    obtain ⟨j, r', h1, h2, h3⟩ := hm k i r hi (by rw [ht]; simp)
    refine ⟨j, r', h1, h2, fun e => ?_⟩
    obtain ⟨x, v, hx⟩ := (h.prefix k).received i r T hi ht
    obtain ⟨d, rfl⟩ := Nat.exists_eq_add_of_le h1
    have h4 := (had_it h hf hi hx d r' h2 e).2
    have := place_le r'.st.phase
    omega
  | succ n ih =>
    intro k r hi ht hp
    obtain ⟨j, r', h1, h2, h3⟩ := hm k i r hi (by rw [ht]; simp)
    by_cases e : atTask r'.st.phase = some T
    · obtain ⟨x, v, hx⟩ := (h.prefix k).received i r T hi ht
      obtain ⟨d, rfl⟩ := Nat.exists_eq_add_of_le h1
      have h4 := (had_it h hf hi hx d r' h2 e).2
      obtain ⟨j', r'', h5, h6⟩ := ih (k + d) r' h2 e (by omega)
      exact ⟨j', r'', by omega, h6⟩
    · exact ⟨j, r', h1, h2, e⟩

/-- At some time nobody has the task any more. -/
theorem nobody_has (h : InfRun c lf now σ α) (hf : AllFresh c lf now α) (hm : RunnersMove σ) (k T : Nat) :
    ∃ j, k ≤ j ∧ ∀ m, j ≤ m → ∀ (i : Nat) (r : Runner), (σ m).runners[i]? = some r → atTask r.st.phase ≠ some T := by
  by_cases hn : ∃ m, k ≤ m ∧ ∃ (i : Nat) (r : Runner), (σ m).runners[i]? = some r ∧ atTask r.st.phase = some T
  · obtain ⟨m, hkm, i, r, hi, ht⟩ := hn
    obtain ⟨j, r', h1, h2, h3⟩ := gets_rid h hf hm 8 m r hi ht (by omega)
    refine ⟨j, by omega, fun m' hm' i' r2 hi2 ht2 => ?_⟩
    obtain ⟨x, v, hx⟩ := (h.prefix m).received i r T hi ht
    obtain ⟨x2, v2, hx2⟩ := (h.prefix m').received i' r2 T hi2 ht2
    obtain ⟨d, rfl⟩ := Nat.exists_eq_add_of_le h1
    have hx' := tasks_stay h hi hx d r' h2
    obtain ⟨d', rfl⟩ := Nat.exists_eq_add_of_le hm'
    obtain ⟨r3, h4⟩ := runner_stays h h2 d'
    have hx3 := tasks_stay h h2 hx' d' r3 h4
    have hinv := (h.prefix (m + d + d')).inv (hf _)
    have e := hinv.txn (hf _) (hinv.tasks _ _ _ _ _ hi2 hx2).1 (hinv.tasks _ _ _ _ _ h4 hx3).1
    subst e
    have e2 := hinv.owner hi2 h4 (List.mem_map.2 ⟨_, hx2, rfl⟩) (List.mem_map.2 ⟨_, hx3, rfl⟩)
    subst e2
    exact h3 (had_it h hf h2 hx' d' r2 hi2 ht2).1
  · refine ⟨k, Nat.le_refl _, fun m hkm i r hi ht => hn ⟨m, hkm, i, r, hi, ht⟩⟩

/-- The connections end or fall silent. -/
theorem conns_silent (h : InfRun c lf now σ α) (hf : AllFresh c lf now α) (hm : RunnersMove σ) (hp : PingsStop c σ α) :
    Sys.ConnsEndOrSilent c (sysStates σ) (sysActs σ α) := by
  intro k T hT
  obtain ⟨j, h1, h2⟩ := nobody_has h hf hm k T
  obtain ⟨j', h3, h4⟩ := hp j T h2
  refine ⟨j', by omega, .inr (.inr (fun m hm' => ?_))⟩
  obtain ⟨y, hy, rfl⟩ := List.mem_map.1 hT
  obtain ⟨n, hn⟩ := Sys.conns_done ((h.prefix k).inv (hf k)).run y hy
  have hdone : ∀ d, (σ (k + d)).sys.handlers[n]? = some (.done (some (.task y.1 y.2.node))) := by
    intro d
    induction d with
    | zero => exact hn
    | succ d ih => exact step_done (h.next (k + d)) ih
  obtain ⟨d, rfl⟩ : ∃ d, m = k + d := ⟨m - k, by omega⟩
  have hinv := (h.prefix (k + d)).inv (hf (k + d))
  unfold sysStates sysActs seen
  rcases step_sys (h.next (k + d)) with ⟨e, _⟩ | ⟨b, e, hst⟩
  · rw [e]; rfl
  · rw [e]
    show Sys.aliveObs c y.1 (σ (k + d)).sys b = []
    cases b with
    | request q =>
      simp only [Sys.aliveObs]
      split
      · rename_i hq
        exfalso
        cases ha : α (k + d) with
        | server b => rw [ha] at e; simp only [sysAct, List.cons.injEq, and_true] at e; have hn := h.next (k + d); rw [ha, e] at hn; simp [step, isRequest] at hn
        | other q' =>
          rw [ha] at e; simp only [sysAct, List.cons.injEq, and_true, Sys.Act.request.injEq] at e; subst e
          have h5 := h4 (k + d) hm'
          rw [ha] at h5
          obtain ⟨au, jo, bo⟩ := q'
          simp only at hq
          obtain ⟨rfl, rfl⟩ := hq
          simp [isPing] at h5
        | arrive m =>
          rw [ha] at e
          simp only [sysAct] at e
          split at e
          · rename_i p hp
            simp only [List.cons.injEq, and_true, Sys.Act.request.injEq] at e
            subst e
            obtain ⟨r, o, _, _, h6⟩ := hinv.sent _ _ hp
            cases o <;> simp only [request] at h6 <;> first | cases h6 | (simp only [Option.some.injEq] at h6; rw [← h6] at hq; cases hq.2)
          · cases e
        | join _ | runner _ _ | answer _ | fail _ => rw [ha] at e; simp [sysAct] at e
      · rfl
    | hInsert n' =>
      simp only [Sys.aliveObs]
      split
      · rename_i v j t tm hx
        split
        · rename_i e2
          exfalso
          have h5 : n' = n := by
            refine unique_index (f := Sys.tokT) (x := y.1) ?_ hx (hdone d) (by simp [Sys.tokT, Sys.tok, e2]) (by simp [Sys.tokT, Sys.tok])
            rw [Sys.tokT_drawn hinv.run]
            exact List.nodup_iff_count.1 (hf (k + d)) y.1
          subst h5
          rw [hdone d] at hx
          cases hx
        · rfl
      · rfl
    | _ => rfl

/-! ### nothing is lost -/

theorem no_dead {t t' : Sys.State} {b : Sys.Act} (hs : Sys.step c t b = .ok t') (hb : Sys.panics b = false)
    (hl : ∀ v, Sys.Loop.dead v ∉ t.loops) (hh : ∀ v, Sys.Handler.dead v ∉ t.handlers) :
    (∀ v, Sys.Loop.dead v ∉ t'.loops) ∧ ∀ v, Sys.Handler.dead v ∉ t'.handlers := by
  constructor
  · intro v hv
    rcases Sys.step_loops hs with ⟨e, _⟩ | ⟨i, l, l', o, hi, e, hm, _⟩
    · exact hl v (e ▸ hv)
    · rw [e] at hv
      rcases mem_set_iff hv with e2 | ⟨j, _, hj⟩
      · subst e2
        cases hm with
        | recv _ h3 => rcases h3 with h3 | h3 <;> cases h3
        | _ => cases hb
      · exact hl v (List.mem_of_getElem? hj)
  · intro v hv
    rcases Sys.step_handlers hs with e | ⟨r, y, rfl, e, hadd⟩ | ⟨m, y, y', hy, e, hm⟩
    · exact hh v (e ▸ hv)
    · rw [e] at hv
      rcases List.mem_append.1 hv with hv | hv
      · exact hh v hv
      · rw [List.mem_singleton] at hv; subst hv; cases hadd
    · rw [e] at hv
      rcases mem_set_iff hv with e2 | ⟨j, _, hj⟩
      · subst e2; cases hm; cases hb
      · exact hh v (List.mem_of_getElem? hj)

theorem intact (h : InfRun c lf now σ α) (hf : AllFresh c lf now α) (hn : NoPanic σ α) (k : Nat) : Sys.Intact (sysStates σ k) := by
  have hd : (∀ v, Sys.Loop.dead v ∉ (sysStates σ k).loops) ∧ ∀ v, Sys.Handler.dead v ∉ (sysStates σ k).handlers := by
    induction k with
    | zero => rw [(h.sys hf).start]; simp [Sys.init]
    | succ k ih => exact no_dead ((h.sys hf).next k).2 (hn.acts k) ih.1 ih.2
  exact ⟨hd.1, hd.2, hn.reaper k, never_forgets (h.prefix k) (hf k)⟩

/-! ### concrete cases -/

/-- A finite run goes on with an idle clock. -/
theorem extend (hr : Runs c s as s') : ∃ (σ : Nat → State) (α : Nat → Act), σ 0 = s ∧
    (∀ k, step c (σ k) (α k) = .ok (σ (k + 1))) ∧
    (∀ k, as.length ≤ k → σ k = s' ∧ α k = .server (.server (.tick 0))) ∧ (∀ k, k < as.length → as[k]? = some (α k)) := by
  induction hr with
  | nil s =>
    refine ⟨fun _ => s, fun _ => .server (.server (.tick 0)), rfl, fun k => ?_, fun k _ => ⟨rfl, rfl⟩, fun k hk => by simp at hk⟩
    simp [step, isRequest, idle_ok, Res.bind]
  | @cons s s1 s' a as hs _ ih =>
    obtain ⟨σ, α, h0, h1, h2, h3⟩ := ih
    refine ⟨fun k => match k with | 0 => s | k + 1 => σ k, fun k => match k with | 0 => a | k + 1 => α k, rfl, ?_, ?_, ?_⟩
    · intro k
      cases k with
      | zero => simp only [h0]; exact hs
      | succ k => exact h1 k
    · intro k hk
      cases k with
      | zero => simp at hk
      | succ k => exact h2 k (by simpa using hk)
    · intro k hk
      cases k with
      | zero => simp
      | succ k => simpa using h3 k (by simpa using hk)

/-- The whole run as the server sees it, moment by moment. -/
def view (c : Sys.Cfg) (s : State) (as : List Act) : List Sys.Act := collect (fun s a => [seen s a]) c s as

theorem InfRun.view (h : InfRun c lf now σ α) (k : Nat) : Cluster.view c (init c lf now) ((List.range k).map α) = (List.range k).map (sysActs σ α) := by
  induction k with
  | zero => rfl
  | succ k ih =>
    rw [List.range_succ, List.map_append, List.map_append, Cluster.view, List.map_singleton, collect_snoc (h.prefix k), ← Cluster.view, ih]
    rfl

theorem quiet_place {p : Remote.Phase} (h : atTask p = none) : place p = 0 := by cases p <;> first | rfl | cases h
theorem busy_place {p : Remote.Phase} (h : atTask p ≠ none) : place p ≠ 0 := by cases p <;> first | (simp [place]; done) | (exact absurd rfl h)

/-- A run at whose end everything has returned and no runner has a task goes on for ever in a fair way. -/
theorem exists_moving (hr : Runs c (init c lf now) as s) (hf : Fresh c lf now as) (ho : Sys.over s.sys = true) (hin : Sys.Intact s.sys)
    (htok : s.sys.tr.token = some .hard) (hq : s.runners.all (fun r => (atTask r.st.phase).isNone) = true) :
    ∃ σ α, InfRun c lf now σ α ∧ AllFresh c lf now α ∧ Sys.Justly c (sysStates σ) (sysActs σ α) ∧
      Sys.Strong c (sysStates σ) (sysActs σ α) (fun _ a => Sys.isReapTick a) ∧ Sys.Cooperative c (sysStates σ) (sysActs σ α) ∧
      RunnersMove σ ∧ PingsStop c σ α ∧ (∀ k, Sys.Intact (sysStates σ k)) ∧ (∀ k, as.length ≤ k → σ k = s) ∧
      Sys.InfRun c lf now (sysStates σ) (sysActs σ α) ∧ (∀ k, (view c (init c lf now) as).length ≤ k → sysActs σ α k = .server (.tick 0)) ∧
      (∀ k, k < (view c (init c lf now) as).length → (view c (init c lf now) as)[k]? = some (sysActs σ α k)) ∧
      (∀ k, as.length ≤ k → α k = .server (.server (.tick 0))) ∧ ∀ k, k < as.length → as[k]? = some (α k) := by
  obtain ⟨σ, α, h0, h1, h2, h3⟩ := extend hr
  have h : InfRun c lf now σ α := ⟨h0, h1⟩
  have has : (List.range as.length).map α = as := by
    refine List.ext_getElem? (fun k => ?_)
    by_cases hk : k < as.length
    · rw [h3 k hk]; simp [hk]
    · simp [hk]
  have hfr : AllFresh c lf now α := by
    have low : ∀ d k, k + d = as.length → Fresh c lf now ((List.range k).map α) := by
      intro d
      induction d with
      | zero => intro k hk; rw [Nat.add_zero] at hk; rw [hk, has]; exact hf
      | succ d ih =>
        intro k hk
        have := ih (k + 1) (by omega)
        rw [List.range_succ, List.map_append] at this
        exact Fresh.prefix (h.prefix k) this
    have high : ∀ d, Fresh c lf now ((List.range (as.length + d)).map α) := by
      intro d
      induction d with
      | zero => exact low 0 _ rfl
      | succ d ih =>
        rw [← Nat.add_assoc, List.range_succ, List.map_append, List.map_singleton, (h2 (as.length + d) (by omega)).2]
        unfold Fresh Sys.FreshTxns at *
        rw [served_snoc (h.prefix _), Sys.collect_append ((h.prefix _).inv ih).run]
        simpa [sysAct, Sys.collect, Sys.drawn, idle_ok] using ih
    intro k
    by_cases hk : k ≤ as.length
    · exact low (as.length - k) k (by omega)
    · obtain ⟨d, rfl⟩ := Nat.exists_eq_add_of_le (Nat.le_of_not_le hk); exact high d
  have hs := h.sys hfr
  have hview : view c (init c lf now) as = (List.range as.length).map (sysActs σ α) := by rw [← h.view, has]
  have hlen : (view c (init c lf now) as).length = as.length := by rw [hview]; simp
  have hend : sysStates σ as.length = s.sys := by unfold sysStates; rw [(h2 _ (Nat.le_refl _)).1]
  have hp := hs.prefix as.length
  rw [hend, ← hview] at hp
  obtain ⟨σ', α', e1, e2, e3, e4, _, e6, e7, e8, e9⟩ := Sys.exists_just hp ho hin htok
  have hα : α' = sysActs σ α := by
    funext k
    by_cases hk : k < as.length
    · have := e9 k (by rw [hlen]; exact hk)
      rw [hview] at this
      simpa [hk] using this.symm
    · rw [e8 k (by rw [hlen]; omega)]
      simp [sysActs, seen, (h2 k (by omega)).2, sysAct]
  have hσ : σ' = sysStates σ := by
    funext k
    induction k with
    | zero => rw [e1.start, hs.start]
    | succ k ih =>
      have x1 := (e1.next k).2
      have x2 := (hs.next k).2
      rw [hα, ih, x2] at x1
      exact (Res.ok.inj x1).symm
  subst hα hσ
  refine ⟨σ, α, h, hfr, e2, e3, e4, ?_, ?_, e6, fun k hk => (h2 k hk).1, hs, e8, e9, fun k hk => (h2 k hk).2, h3⟩
  · intro k i r hi ht
    obtain ⟨r', h4⟩ := runner_stays h hi as.length
    refine ⟨k + as.length, r', by omega, h4, ?_⟩
    rw [(h2 (k + as.length) (by omega)).1] at h4
    have := (List.all_eq_true.1 hq) r' (List.mem_of_getElem? h4)
    rw [quiet_place (by simpa using this)]
    exact Ne.symm (busy_place ht)
  · intro k T _
    exact ⟨k + as.length, by omega, fun i hi => by rw [(h2 i (by omega)).2]; rfl⟩

end Verif.Cluster
