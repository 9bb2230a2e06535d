import Verif.Proof.Cluster5
import Verif.Spec.Deploy
import Verif.Props.Reports

/-!
# Server and runners together: processes that ended (proofs)
-/

namespace Verif.Cluster
open Verif

variable {c : Sys.Cfg} {lf : LogFile} {now : Int} {s s' : State} {as : List Act} {a : Act}

theorem mem_more {β : Type} {f : State → Act → List β} (hr : Runs c s as s') {x : β} (hx : x ∈ collect f c s as) (bs : List Act) :
    x ∈ collect f c s (as ++ bs) := by
  rw [collect_append hr]; exact List.mem_append_left _ hx

/-- How a runner comes to be what it is after a step. -/
inductive RStep (c : Sys.Cfg) (s : State) (a : Act) (j : Nat) (r' : Runner) : Prop
  | same : s.runners[j]? = some r' → RStep c s a j r'
  | new (cfg : RCfg) : r' = ⟨cfg, Remote.init cfg.rem, none, []⟩ → RStep c s a j r'
  | act (r : Runner) (b : Remote.Act) : a = .runner j b → s.runners[j]? = some r → isAnswer b = false →
      Remote.step r.cfg.rem r.st b = .ok r'.st → r'.tasks = r.tasks → r'.cfg = r.cfg → RStep c s a j r'
  | hear (r : Runner) (b : Remote.Act) (x : Option Sys.Reply) (h : Nat) (got : List (Nat × Nat)) : (∀ i b, a ≠ .runner i b) →
      s.runners[j]? = some r →
      hears c.tr.g r.st.phase x = some (b, got) → Remote.step r.cfg.rem r.st b = .ok r'.st →
      r'.tasks = r.tasks ++ got.map (fun y => (h, y)) → r'.cfg = r.cfg → RStep c s a j r'

theorem hear_runner {i : Nat} {r : Runner} {x : Nat} {y : Option Sys.Reply} (ha : ∀ i b, a ≠ .runner i b) (hi : s.runners[i]? = some r)
    (hs : hear c s i r x y = .ok s') {j : Nat} {r' : Runner} (hj : s'.runners[j]? = some r') : RStep c s a j r' := by
  unfold hear at hs
  split at hs
  · rename_i b got hh
    cases hst : Remote.step r.cfg.rem r.st b with
    | ok st =>
      rw [hst] at hs; simp only [Res.bind, Res.ok.injEq] at hs; subst hs
      rcases getElem?_set_cases hj with ⟨rfl, rfl, _⟩ | ⟨_, hj⟩
      · exact .hear r b y x got ha hi hh hst rfl rfl
      · exact .same hj
    | err x => rw [hst] at hs; cases hs
    | panic x => rw [hst] at hs; cases hs
  · cases hs

theorem step_runner (hs : step c s a = .ok s') {j : Nat} {r' : Runner} (hj : s'.runners[j]? = some r') : RStep c s a j r' := by
  cases a with
  | server b =>
    simp only [step] at hs
    split at hs
    · cases hs
    · cases hst : Sys.step c s.sys b with
      | ok t => rw [hst] at hs; simp only [Res.bind, Res.ok.injEq] at hs; subst hs; exact .same hj
      | err x => rw [hst] at hs; cases hs
      | panic x => rw [hst] at hs; cases hs
  | other r =>
    simp only [step] at hs
    split at hs
    · cases hst : Sys.step c s.sys (.request r) with
      | ok t => rw [hst] at hs; simp only [Res.bind, Res.ok.injEq] at hs; subst hs; exact .same hj
      | err x => rw [hst] at hs; cases hs
      | panic x => rw [hst] at hs; cases hs
    · cases hs
  | join cfg =>
    simp only [step, Res.ok.injEq] at hs
    subst hs
    by_cases hl : j < s.runners.length
    · rw [List.getElem?_append_left hl] at hj; exact .same hj
    · rw [List.getElem?_append_right (by omega)] at hj
      have := List.mem_of_getElem? hj
      rw [List.mem_singleton] at this
      exact .new cfg this
  | runner i b =>
    simp only [step] at hs
    split at hs
    · rename_i r hr
      split at hs
      · cases hs
      · rename_i hna
        cases hst : Remote.step r.cfg.rem r.st b with
        | ok st =>
          rw [hst] at hs; simp only [Res.bind, Res.ok.injEq] at hs; subst hs
          rcases getElem?_set_cases hj with ⟨rfl, rfl, _⟩ | ⟨_, hj⟩
          · exact .act r b rfl hr (by simpa using hna) hst rfl rfl
          · exact .same hj
        | err x => rw [hst] at hs; cases hs
        | panic x => rw [hst] at hs; cases hs
    · cases hs
  | arrive k =>
    simp only [step] at hs
    split at hs
    · rename_i i q hk
      cases hst : Sys.step c s.sys (.request q) with
      | ok t => rw [hst] at hs; simp only [Res.bind, Res.ok.injEq] at hs; subst hs; exact .same hj
      | err x => rw [hst] at hs; cases hs
      | panic x => rw [hst] at hs; cases hs
    · cases hs
  | answer i =>
    simp only [step] at hs
    repeat' split at hs
    all_goals first | (cases hs; done) | exact hear_runner (by simp) (by assumption) hs hj
  | fail i =>
    simp only [step] at hs
    repeat' split at hs
    all_goals first | (cases hs; done) | exact hear_runner (by simp) (by assumption) hs hj

/-- Only one action shows the output of a process. -/
theorem output_obs {rc : Remote.Cfg} {st st' : Remote.State} {b : Remote.Act} (hs : Remote.step rc st b = .ok st') {l : List Remote.Obs}
    (hl : st'.trace = st.trace ++ l) {p : Nat} {out : Remote.Output} (ho : .output p out ∈ l) :
    b = .output out ∧ l = [.output p out] ∧ ∃ q late, st.phase = .waiting q p late := by
  cases b with
  | sendEnd =>
    simp only [Remote.step] at hs
    split at hs
    · rename_i r o hp
      simp only [Res.ok.injEq] at hs; subst hs
      have := List.append_cancel_left hl
      subst this
      cases o <;> simp [Remote.endRequest] at ho
    · cases hs
  | output o =>
    simp only [Remote.step] at hs
    repeat' split at hs
    all_goals first
      | (cases hs; done)
      | (simp only [Res.ok.injEq] at hs; subst hs
         have := List.append_cancel_left hl
         subst this
         simp only [List.mem_singleton, Remote.Obs.output.injEq] at ho
         obtain ⟨rfl, rfl⟩ := ho
         exact ⟨rfl, rfl, _, _, by assumption⟩)
  | startReply r =>
    cases r <;> simp only [Remote.step] at hs <;> split at hs <;>
      first
        | (cases hs; done)
        | (simp only [Res.ok.injEq] at hs; subst hs
           have := List.append_cancel_left hl
           subst this
           simp at ho)
  | _ =>
    simp only [Remote.step] at hs
    repeat' split at hs
    all_goals first
      | (cases hs; done)
      | (simp only [Res.ok.injEq] at hs; subst hs
         have := List.append_cancel_left hl
         subst this
         simp at ho
         done)
      | (simp only [Res.ok.injEq] at hs; subst hs
         have := List.self_eq_append_right.1 hl
         subst this
         simp at ho)

theorem hears_answer {g : DiGraph Cmd} {p : Remote.Phase} {x : Option Sys.Reply} {b : Remote.Act} {got : List (Nat × Nat)}
    (hh : hears g p x = some (b, got)) : isAnswer b = true := by
  unfold hears at hh
  repeat' split at hh
  all_goals first
    | (cases hh; done)
    | (simp only [Option.some.injEq, Prod.mk.injEq] at hh; obtain ⟨rfl, _⟩ := hh; rfl)

/-- Every output in a runner's trace was seen, for the task it had received last. -/
theorem outputs_seen (hr : Runs c (init c lf now) as s) (hf : Fresh c lf now as) :
    ∀ (j : Nat) (r : Runner), s.runners[j]? = some r → ∀ (X Y : List Remote.Obs) (p : Nat) (out : Remote.Output),
      r.st.trace = X ++ .output p out :: Y → ∀ (n : Nat) (y : Nat × Nat × Nat), (Remote.recvs X).length = n + 1 → r.tasks[n]? = some y →
      (y.2.2, out.code, out.values) ∈ collect exits c (init c lf now) as := by
  refine Runs.snocInd (P := fun as s => Fresh c lf now as →
    ∀ (j : Nat) (r : Runner), s.runners[j]? = some r → ∀ (X Y : List Remote.Obs) (p : Nat) (out : Remote.Output),
      r.st.trace = X ++ .output p out :: Y → ∀ (n : Nat) (y : Nat × Nat × Nat), (Remote.recvs X).length = n + 1 → r.tasks[n]? = some y →
      (y.2.2, out.code, out.values) ∈ collect exits c (init c lf now) as) ?_ ?_ hr hf
  · intro _ j r h; simp [init] at h
  · intro as s a s' hr ih hs hf j r' hj X Y p out ht n y hn hy
    have hf0 := hf.prefix hr
    have hi := hr.inv hf0
    have main : ∀ (r : Runner) (l : List Remote.Obs) (ts : List (Nat × Nat × Nat)), s.runners[j]? = some r → r'.st.trace = r.st.trace ++ l →
        r'.tasks = r.tasks ++ ts → (.output p out ∈ l → l = [.output p out] ∧ ts = [] ∧ a = .runner j (.output out) ∧
          ∃ q late, r.st.phase = .waiting q p late) →
        (y.2.2, out.code, out.values) ∈ collect exits c (init c lf now) (as ++ [a]) := by
      intro r l ts hr0 hl hts hout
      rw [hl] at ht
      have hlen : (Remote.recvs r.st.trace).length = r.tasks.length := by
        rw [hi.recv j r hr0]; simp
      rcases List.append_eq_append_iff.1 ht.symm with ⟨Y', e1, e2⟩ | ⟨X', e1, e2⟩
      · cases Y' with
        | nil =>
          simp only [List.append_nil] at e1
          simp only [List.nil_append] at e2
          obtain ⟨e3, e4, e5, q, late, hp⟩ := hout (by rw [← e2]; simp)
          subst e1
          rw [hlen] at hn
          rw [hts, e4, List.append_nil] at hy
          have hlast : r.tasks.getLast? = some y := by
            rw [List.getLast?_eq_getElem?, hn]; simpa using hy
          rw [collect_snoc hr, e5]
          refine List.mem_append_right _ ?_
          simp [exits, hr0, hp, hlast]
        | cons o Y' =>
          simp only [List.cons_append, List.cons.injEq] at e2
          obtain ⟨rfl, e2⟩ := e2
          have hle : n < r.tasks.length := by
            rw [← hlen, e1, Remote.recvs_append, List.length_append]; omega
          rw [hts, List.getElem?_append_left hle] at hy
          exact mem_more hr (ih hf0 j r hr0 X Y' p out e1 n y hn hy) _
      · obtain ⟨e3, e4, e5, q, late, hp⟩ := hout (by rw [e2]; simp)
        rw [e3] at e2
        cases X' with
        | cons o X' => simp at e2
        | nil =>
          simp only [List.append_nil] at e1
          subst e1
          rw [hlen] at hn
          rw [hts, e4, List.append_nil] at hy
          have hlast : r.tasks.getLast? = some y := by
            rw [List.getLast?_eq_getElem?, hn]; simpa using hy
          rw [collect_snoc hr, e5]
          refine List.mem_append_right _ ?_
          simp [exits, hr0, hp, hlast]
    cases step_runner hs hj with
    | same h => exact mem_more hr (ih hf0 j r' h X Y p out ht n y hn hy) _
    | new cfg h =>
      subst h
      simp [Remote.init] at ht
    | act r b ha h hna hst hts _ =>
      obtain ⟨l, hl, _, _, _⟩ := Remote.step_obs hna hst
      refine main r l [] h hl (by rw [hts]; simp) ?_
      intro ho
      obtain ⟨e1, e2, e3⟩ := output_obs hst hl ho
      exact ⟨e2, rfl, by rw [ha, e1], e3⟩
    | hear r b x k got ha h hh hst hts _ =>
      obtain ⟨l, hl, _, _⟩ := hears_obs hh hst
      refine main r l _ h hl hts ?_
      intro ho
      obtain ⟨e1, _⟩ := output_obs hst hl ho
      have := hears_answer hh
      rw [e1] at this
      cases this

/-- What the server sees of its own loops is seen. -/
theorem served_mem {β : Type} {f : Sys.State → Sys.Act → List β} {f' : State → Act → List β}
    (h : ∀ s b, f s.sys b ≠ [] → (∀ q, b ≠ .request q) ∧ f' s (.server b) = f s.sys b)
    (hr : Runs c (init c lf now) as s) (hf : Fresh c lf now as) :
    ∀ x ∈ Sys.collect f c (Sys.init c lf now) (served c lf now as), x ∈ collect f' c (init c lf now) as := by
  refine Runs.snocInd (P := fun as s => Fresh c lf now as →
    ∀ x ∈ Sys.collect f c (Sys.init c lf now) (served c lf now as), x ∈ collect f' c (init c lf now) as) ?_ ?_ hr hf
  · intro _ x hx; cases hx
  · intro as s a s' hr ih hs hf x hx
    have hf0 := hf.prefix hr
    rw [served_collect (hr.inv hf0) hr hs, List.mem_append] at hx
    rcases hx with hx | hx
    · exact mem_more hr (ih hf0 x hx) _
    · obtain ⟨b, hb, hx⟩ := List.mem_flatMap.1 hx
      obtain ⟨h1, h2⟩ := h s b (fun e => by rw [e] at hx; cases hx)
      have ha : a = .server b := by
        cases a with
        | server b' => simp only [sysAct, List.mem_singleton] at hb; rw [hb]
        | other r => simp only [sysAct, List.mem_singleton] at hb; exact absurd hb (h1 _)
        | arrive k =>
          simp only [sysAct] at hb
          split at hb
          · rw [List.mem_singleton] at hb; exact absurd hb (h1 _)
          · cases hb
        | _ => simp [sysAct] at hb
      subst ha
      rw [collect_snoc hr, h2]
      exact List.mem_append_right _ (by simpa [sysAct] using hx)

theorem outputs_exits (hr : Runs c (init c lf now) as s) (hf : Fresh c lf now as) :
    ∀ x ∈ Sys.collect Sys.outputs c (Sys.init c lf now) (served c lf now as), x ∈ collect exits c (init c lf now) as := by
  refine served_mem ?_ hr hf
  intro s b hb
  cases b with
  | loopOutput i code values => exact ⟨by simp, rfl⟩
  | _ => exact absurd rfl hb

theorem loopStarts_processes (hr : Runs c (init c lf now) as s) (hf : Fresh c lf now as) :
    ∀ x ∈ Sys.collect Sys.loopStarts c (Sys.init c lf now) (served c lf now as), x ∈ collect processes c (init c lf now) as := by
  refine served_mem ?_ hr hf
  intro s b hb
  cases b with
  | loopSpawn i ok =>
    cases ok with
    | true => exact ⟨by simp, rfl⟩
    | false => exact absurd rfl hb
  | _ => exact absurd rfl hb

theorem recvs_replicate (k p : Nat) : Remote.recvs (List.replicate k (.sigterm p)) = [] := by
  induction k with
  | zero => rfl
  | succ k ih => rw [List.replicate_succ]; exact ih

/-- A finish report of a remote runner: a process was seen to end so, could not be started, or the runner was told to stop. -/
theorem end_story (hr : Runs c (init c lf now) as s) (hf : Fresh c lf now as) {T v : Nat} {code : Int} {values : List (List (String × String))}
    (hx : (T, v, code, values) ∈ Sys.collect (Sys.endRequests c) c (Sys.init c lf now) (served c lf now as)) :
    (v, code, values) ∈ collect exits c (init c lf now) as ∨
    (∃ (i : Nat) (r : Runner), s.runners[i]? = some r ∧ .spawn none ∈ r.st.trace ∧ code = 13) ∨
    ∃ (i : Nat) (r : Runner) (p : Nat), s.runners[i]? = some r ∧ [.sigterm p, .finish T (-15) [] false] <:+: r.st.trace ∧ code = -15 := by
  obtain ⟨⟨k, p, n, h1, h2⟩, h, h3⟩ := end_origin hr hf _ hx
  have hi := hr.inv hf
  obtain ⟨r, o, bs, hj, ho, hreq, hre, hown⟩ := hi.sender hf h1
  obtain ⟨b, rfl⟩ := request_finish hreq h2
  obtain ⟨q, story, e, hst, hin⟩ := hre.finishOf ho
  have hq : Remote.Obs.received q ∈ r.st.trace := hin.subset (by cases hst <;> simp)
  cases hst with
  | failed => exact .inr (.inl ⟨_, r, hj, hin.subset (by simp), rfl⟩)
  | slurm pid k =>
    refine .inr (.inr ⟨_, r, pid, hj, List.IsInfix.trans ?_ hin, rfl⟩)
    have e' : q.txn = T := e
    rw [← e']
    exact ⟨[.received q, .spawn (some pid), .begun q.txn pid] ++ List.replicate k (.sigterm pid), [], by simp⟩
  | ran pid k out next =>
    obtain ⟨A, B, e2⟩ := hin
    have hrec := hi.recv _ _ hj
    have e3 : r.st.trace = (A ++ [.received q, .spawn (some pid), .begun q.txn pid] ++ List.replicate k (.sigterm pid)) ++
        .output pid out :: (.finish q.txn out.code out.values next :: B) := by
      rw [← e2]; simp
    have e4 : Remote.recvs (A ++ [.received q, .spawn (some pid), .begun q.txn pid] ++ List.replicate k (.sigterm pid)) = Remote.recvs A ++ [q] := by
      rw [Remote.recvs_append, Remote.recvs_append, recvs_replicate]; simp [Remote.recvs]
    have e5 : (Remote.recvs r.st.trace)[(Remote.recvs A).length]? = some q := by
      rw [e3, Remote.recvs_append, e4]; simp
    rw [hrec, List.getElem?_map] at e5
    cases hy : r.tasks[(Remote.recvs A).length]? with
    | none => rw [hy] at e5; cases e5
    | some y =>
      rw [hy, Option.map_some, Option.some.injEq] at e5
      have hmem := outputs_seen hr hf _ r hj _ _ pid out e3 _ y (by rw [e4]; simp) hy
      have eT : y.2.1 = T := by
        have e' : q.txn = T := e
        rw [← e', ← e5]; rfl
      obtain ⟨y1, y2, y3⟩ := y
      simp only at eT
      subst eT
      have h4 := (hi.tasks _ _ _ _ _ hj (List.mem_of_getElem? hy)).1
      have ex := hi.txn hf h4 h3
      subst ex
      rw [h4] at h3
      cases h3
      exact .inl hmem

/-- A finish report of a remote runner, with a code that is none of the runner's own: a process was seen to end so. -/
theorem end_exit (hr : Runs c (init c lf now) as s) (hf : Fresh c lf now as) {T v : Nat} {code : Int} {values : List (List (String × String))}
    (hx : (T, v, code, values) ∈ Sys.collect (Sys.endRequests c) c (Sys.init c lf now) (served c lf now as)) (h13 : code ≠ 13)
    (h15 : code ≠ -15) : (v, code, values) ∈ collect exits c (init c lf now) as := by
  rcases end_story hr hf hx with h | ⟨_, _, _, _, h⟩ | ⟨_, _, _, _, _, h⟩
  · exact h
  · exact absurd h h13
  · exact absurd h h15

/-- A finish report with a code that is nobody's own: a process of the task was seen to end so. -/
theorem finish_exit (hr : Runs c (init c lf now) as s) (hf : Fresh c lf now as) {e : Tracker.Fin} {code : Int}
    (he : .sendFinished e ∈ Sys.toTracker c (Sys.init c lf now) (served c lf now as)) (hc : e.status = .code code)
    (h1 : code ≠ -1) (h13 : code ≠ 13) (h15 : code ≠ -15) : (e.id, code, e.values) ∈ collect exits c (init c lf now) as := by
  rcases Props.System.finish_reports_true (hr.inv hf).run he with ⟨x, e1, h2⟩ | ⟨x, T, st, e1, h2, h3⟩ | ⟨e1, h2, h3⟩ | ⟨e1, _⟩ | ⟨e1, _⟩
  · rw [e1] at hc; cases hc; exact outputs_exits hr hf _ h2
  · rw [e1] at hc; cases hc; exact end_exit hr hf h2 h13 h15
  · rw [e1] at hc; cases hc; exact absurd rfl h1
  · rw [e1] at hc; cases hc
  · rw [e1] at hc; cases hc

/-! ### ends have starts -/

theorem running_starts {as : List Sys.Act} {s : Sys.State} (hr : Sys.Runs c (Sys.init c lf now) as s) :
    ∀ (i v : Nat) (st : Int), s.loops[i]? = some (.running v st) → v ∈ Sys.collect Sys.loopStarts c (Sys.init c lf now) as := by
  refine Sys.Runs.snocInd (P := fun as s => ∀ (i v : Nat) (st : Int), s.loops[i]? = some (.running v st) →
    v ∈ Sys.collect Sys.loopStarts c (Sys.init c lf now) as) ?_ ?_ hr
  · intro i v st h
    have : ∀ l ∈ (Sys.init c lf now).loops, l = .top := by
      intro l hl
      simp only [Sys.init] at hl
      split at hl <;> simp_all
    have := this _ (List.mem_of_getElem? h)
    cases this
  · intro as s a s' hr ih hpol hs i v st h
    rcases Sys.step_loops hs with ⟨e, _⟩ | ⟨k, l, l', o, hl, e, hm, _⟩
    · rw [e] at h; exact Sys.mem_more hr (ih i v st h) _
    · rw [e] at h
      by_cases hk : k = i
      · subst hk
        obtain ⟨hlt, _⟩ := List.getElem?_eq_some_iff.1 hl
        rw [List.getElem?_set_self hlt, Option.some.injEq] at h
        subst h
        cases hm with
        | recv l' h => rcases h with h | h <;> cases h
        | started => exact Sys.mem_more hr (Sys.spawned_starts hr _ _ _ hl) _
      · rw [List.getElem?_set_ne hk] at h
        exact Sys.mem_more hr (ih i v st h) _

/-- Phases in which the runner has started the process of the task it received last. -/
def hasChild : Remote.Phase → Bool
  | .feeding _ _ | .beginning _ (some _) | .begun _ (some _) | .waiting _ _ _ => true
  | _ => false

/-- A runner with a child process has spawned it in this step or had it before. -/
theorem child_step {rc : Remote.Cfg} {st st' : Remote.State} {b : Remote.Act} (hs : Remote.step rc st b = .ok st')
    (hc : hasChild st'.phase = true) :
    hasChild st.phase = true ∨ ∃ q p, st.phase = .got q ∧ b = .spawn (some p) ∧ ¬ (q.cmdline = [] ∨ q.inputFd = some 3) := by
  cases b with
  | spawn p =>
    simp only [Remote.step] at hs
    split at hs
    · rename_i q hq
      split at hs
      · simp only [Res.ok.injEq] at hs; subst hs; cases hc
      · rename_i hok
        split at hs
        · simp only [Res.ok.injEq] at hs; subst hs; cases hc
        · rename_i p
          exact .inr ⟨q, p, hq, rfl, hok⟩
    · cases hs
  | startReply r =>
    cases r <;> simp only [Remote.step] at hs <;> split at hs <;>
      first
        | (cases hs; done)
        | (simp only [Res.ok.injEq] at hs; subst hs; cases hc)
  | sendBegun =>
    simp only [Remote.step] at hs
    split at hs
    · rename_i r p hp
      simp only [Res.ok.injEq] at hs; subst hs
      cases p with
      | none => cases hc
      | some p => left; rw [hp]; rfl
    · cases hs
  | _ =>
    simp only [Remote.step] at hs
    repeat' split at hs
    all_goals first
      | (cases hs; done)
      | (simp only [Res.ok.injEq] at hs; subst hs; exact .inl hc)
      | (simp only [Res.ok.injEq] at hs; subst hs; cases hc; done)
      | (simp only [Res.ok.injEq] at hs; subst hs; rename_i hp; left; rw [hp]; first | rfl | exact hc)
      | (simp only [Res.ok.injEq] at hs; subst hs; left; simp_all [hasChild, Remote.State.goto])

theorem child_process (hr : Runs c (init c lf now) as s) (hf : Fresh c lf now as) :
    ∀ (j : Nat) (r : Runner), s.runners[j]? = some r → hasChild r.st.phase = true →
      ∃ x, r.tasks.getLast? = some x ∧ x.2.2 ∈ collect processes c (init c lf now) as := by
  refine Runs.snocInd (P := fun as s => Fresh c lf now as →
    ∀ (j : Nat) (r : Runner), s.runners[j]? = some r → hasChild r.st.phase = true →
      ∃ x, r.tasks.getLast? = some x ∧ x.2.2 ∈ collect processes c (init c lf now) as) ?_ ?_ hr hf
  · intro _ j r h; simp [init] at h
  · intro as s a s' hr ih hs hf j r' hj hc
    have hf0 := hf.prefix hr
    cases step_runner hs hj with
    | same h =>
      obtain ⟨x, h1, h2⟩ := ih hf0 j r' h hc
      exact ⟨x, h1, mem_more hr h2 _⟩
    | new cfg h => subst h; cases hc
    | act r b ha h hna hst hts _ =>
      rcases child_step hst hc with h1 | ⟨q, p, h1, rfl, h2⟩
      · obtain ⟨x, h2, h3⟩ := ih hf0 j r h h1
        exact ⟨x, by rw [hts]; exact h2, mem_more hr h3 _⟩
      · obtain ⟨x, T, v, h3, _⟩ := (hr.inv hf0).gotTask h h1
        refine ⟨(x, T, v), by rw [hts]; exact h3, ?_⟩
        rw [collect_snoc hr, ha]
        refine List.mem_append_right _ ?_
        simp [processes, h, h1, h2, h3]
    | hear r b x k got ha h hh hst hts _ =>
      rcases child_step hst hc with h1 | ⟨q, p, h1, rfl, h2⟩
      · obtain ⟨y, h2, h3⟩ := ih hf0 j r h h1
        have : got = [] := by
          revert hh hst hc
          unfold hears
          split
          all_goals (intro hh hst hc)
          all_goals simp_all [hasChild]
          all_goals (repeat' split at hh)
          all_goals simp_all [hasChild]
        subst this
        exact ⟨y, by rw [hts]; simpa using h2, mem_more hr h3 _⟩
      · have := hears_answer hh
        cases this

/-- A process that is seen to end was started. -/
theorem exit_process (hr : Runs c (init c lf now) as s) (hf : Fresh c lf now as) {x : Nat × Int × List (List (String × String))}
    (hx : x ∈ exits s a) : x.1 ∈ collect processes c (init c lf now) as := by
  unfold exits at hx
  split at hx
  · split at hx
    · rename_i v st hl
      rw [List.mem_singleton] at hx; subst hx
      exact loopStarts_processes hr hf _ (running_starts (hr.inv hf).run _ _ _ hl)
    · cases hx
  · split at hx
    · rename_i r hj
      split at hx
      · rename_i hp
        obtain ⟨y, h1, h2⟩ := child_process hr hf _ r hj (by rw [hp]; rfl)
        rw [h1] at hx
        simp only [Option.map_some, Option.toList_some, List.mem_singleton] at hx
        subst hx; exact h2
      · cases hx
    · cases hx
  · cases hx

theorem exits_processes (hr : Runs c (init c lf now) as s) (hf : Fresh c lf now as) {x : Nat × Int × List (List (String × String))}
    (hx : x ∈ collect exits c (init c lf now) as) : x.1 ∈ collect processes c (init c lf now) as := by
  revert hx
  refine Runs.snocInd (P := fun as s => Fresh c lf now as → x ∈ collect exits c (init c lf now) as →
    x.1 ∈ collect processes c (init c lf now) as) ?_ ?_ hr hf
  · intro _ h; cases h
  · intro as s a s' hr ih hs hf hx
    have hf0 := hf.prefix hr
    rw [collect_snoc hr] at hx
    rcases List.mem_append.1 hx with hx | hx
    · exact mem_more hr (ih hf0 hx) _
    · exact mem_more hr (exit_process hr hf0 hx) _

/-- A task whose process is started was obtained from the tracker. -/
theorem process_obtained (hr : Runs c (init c lf now) as s) (hf : Fresh c lf now as) {v : Nat} (hv : v ∈ processes s a) :
    Tracker.Obtained s.sys.tr v := by
  have hi := hr.inv hf
  have hb := Sys.preCalls_balance hi.run v
  have key : 0 < (s.sys.tr.obtained.map (·.2)).count v → Tracker.Obtained s.sys.tr v := by
    intro h
    obtain ⟨y, h1, h2⟩ := List.mem_map.1 (List.count_pos_iff.1 h)
    obtain ⟨y1, y2⟩ := y
    simp only at h2
    subst h2
    exact ⟨y1, h1⟩
  refine key ?_
  rw [← hb]
  unfold processes at hv
  split at hv
  · split at hv
    · rename_i w hl
      rw [List.mem_singleton] at hv; subst hv
      have : 0 < (s.sys.loops.flatMap Sys.earlyL).count v :=
        List.count_pos_iff.2 (List.mem_flatMap.2 ⟨_, List.mem_of_getElem? hl, by simp [Sys.earlyL]⟩)
      unfold Sys.early
      omega
    · cases hv
  · split at hv
    · rename_i r hj
      split at hv
      · rename_i q hp
        obtain ⟨x, T, w, h3, _⟩ := hi.gotTask hj hp
        split at hv
        · cases hv
        · rw [h3] at hv
          simp only [Option.map_some, Option.toList_some, List.mem_singleton] at hv
          subst hv
          have h4 := (hi.tasks _ r x T v hj (List.mem_of_getLast? h3)).1
          have h5 := Sys.starts_pre hi.run v
          have : 0 < (s.sys.handlers.flatMap Sys.tokV).count v :=
            List.count_pos_iff.2 (List.mem_flatMap.2 ⟨_, List.mem_of_getElem? h4, by simp [Sys.tokV, Sys.tok]⟩)
          omega
      · cases hv
    · cases hv
  · cases hv

/-- The same as seen later, and such a task is one of the graph. -/
theorem process_lt (hg : Tracker.Good c.tr) (hr : Runs c (init c lf now) as s) (hf : Fresh c lf now as) {v : Nat}
    (hv : v ∈ collect processes c (init c lf now) as) : v < c.tr.g.n := by
  revert hv
  refine Runs.snocInd (P := fun as s => Fresh c lf now as → v ∈ collect processes c (init c lf now) as → v < c.tr.g.n) ?_ ?_ hr hf
  · intro _ h; cases h
  · intro as s a s' hr ih hs hf hx
    have hf0 := hf.prefix hr
    rw [collect_snoc hr] at hx
    rcases List.mem_append.1 hx with hx | hx
    · exact ih hf0 hx
    · have ho := process_obtained hr hf0 hx
      have hre : Tracker.Reachable c.tr lf now s.sys.tr := ⟨_, (hr.inv hf0).run.toInit hg⟩
      exact ((hre.inv hg).1).core.deps.lt v (hre.obtained_made hg ho)

end Verif.Cluster
