import Verif.Proof.Cluster6
import Verif.Proof.Program2
import Verif.Props.Cluster
import Verif.Spec.Anywhere

/-!
# Tasks that do the same wherever they run (proofs)
-/

namespace Verif.Sys
open Verif Verif.Tracker

variable {c : Cfg} {lf : LogFile} {now : Int} {s s' : State} {b : Behaviour}

/-- One action tells the scheduler at most one thing. -/
theorem trackerAct_one (c : Cfg) (s : State) (a : Act) : trackerAct c s a = [] ∨ ∃ x, trackerAct c s a = [x] := by
  have h : (trackerAct c s a).length ≤ 1 := by
    cases a with
    | _ =>
      simp only [trackerAct]
      repeat' split
      all_goals simp
  match hx : trackerAct c s a, h with
  | [], _ => exact .inl rfl
  | [x], _ => exact .inr ⟨x, rfl⟩

/-- The run of the scheduler inside a run of the server in which nothing goes wrong around the processes. -/
theorem faithful_runs (hg : Good c.tr) (hfew : Family.FewFailures c.tr b) {as : List Act}
    (hr : Runs c (init c lf now) as s) (hfr : FreshTxns c (init c lf now) as) (hpr : Prompt c (init c lf now) as)
    (hsil : ∀ txn v, ¬ WasSilent c (init c lf now) as txn v 255)
    (hsp : collect failedSpawns c (init c lf now) as = [])
    (ho : ∀ x ∈ collect outputs c (init c lf now) as, b.status x.1 = .code x.2.1 ∧ b.values x.1 = x.2.2)
    (hen : ∀ x ∈ collect (endRequests c) c (init c lf now) as, b.status x.2.1 = .code x.2.2.1 ∧ b.values x.2.1 = x.2.2.2) :
    Faithful b (toTracker c (init c lf now) as) := by
  revert hfr hpr hsil hsp ho hen
  refine Runs.snocInd (P := fun as s => FreshTxns c (init c lf now) as → Prompt c (init c lf now) as →
    (∀ txn v, ¬ WasSilent c (init c lf now) as txn v 255) → collect failedSpawns c (init c lf now) as = [] →
    (∀ x ∈ collect outputs c (init c lf now) as, b.status x.1 = .code x.2.1 ∧ b.values x.1 = x.2.2) →
    (∀ x ∈ collect (endRequests c) c (init c lf now) as, b.status x.2.1 = .code x.2.2.1 ∧ b.values x.2.1 = x.2.2.2) →
    Faithful b (toTracker c (init c lf now) as)) ?_ ?_ hr
  · intro _ _ _ _ _ _ e he; cases he
  · intro as s a s' hr ih hp hs hfr hpr hsil hsp ho hen
    have hr' := hr.snoc hp hs
    have hprev : Faithful b (toTracker c (init c lf now) as) := by
      refine ih ?_ ?_ ?_ ?_ ?_ ?_
      · unfold FreshTxns at hfr ⊢
        rw [collect_snoc hr] at hfr
        exact (List.nodup_append.1 hfr).1
      · unfold Prompt at hpr ⊢
        rw [collect_snoc hr] at hpr
        exact (List.append_eq_nil_iff.1 hpr).1
      · intro txn v h; exact hsil txn v (h.more [a])
      · rw [collect_snoc hr] at hsp
        exact (List.append_eq_nil_iff.1 hsp).1
      · intro x hx; exact ho x (by rw [collect_snoc hr]; exact List.mem_append_left _ hx)
      · intro x hx; exact hen x (by rw [collect_snoc hr]; exact List.mem_append_left _ hx)
    intro e he
    have he' := he
    unfold toTracker at he'
    rw [collect_snoc hr] at he'
    rcases List.mem_append.1 he' with he' | he'
    · exact hprev e he'
    have hta : trackerAct c s a = [.sendFinished e] := by
      rcases trackerAct_one c s a with h | ⟨x, h⟩
      · rw [h] at he'; cases he'
      · rw [h, List.mem_singleton] at he'; rw [h, he']
    have hq : quickFailures c.tr [] (Tracker.init c.tr lf now) (toTracker c (init c lf now) (as ++ [a])) < c.tr.fizzlesAllowed := by
      have h0 := quick_few hg (hr.toInit hg) hprev hfew
      have e1 : toTracker c (init c lf now) (as ++ [a]) = toTracker c (init c lf now) as ++ [.sendFinished e] := by
        unfold toTracker
        rw [collect_snoc hr, hta]
      rw [e1]
      obtain ⟨t', ht⟩ := quickFailures_snoc (a := .sendFinished e) (hr.toInit hg) []
      rw [ht]
      simpa [quickAt] using h0
    rcases Props.System.finish_reports_true hr' he with ⟨code, h1, h2⟩ | ⟨code, txn, st, h1, h2, _⟩ | ⟨_, _, h3⟩ | ⟨h1, _, _⟩ | ⟨h1, _, h3⟩
    · obtain ⟨g1, g2⟩ := ho _ h2
      exact ⟨h1.trans g1.symm, g2.symm⟩
    · obtain ⟨g1, g2⟩ := hen _ h2
      exact ⟨h1.trans g1.symm, g2.symm⟩
    · rw [hsp] at h3; cases h3
    · exfalso
      have hobs : ∃ i, (i, LoopObs.finished e.id .cancelled) ∈ loopObs s a := by
        cases a with
        | server x =>
          have hsa : serverAct x = true := by
            simp only [step] at hs
            split at hs
            · assumption
            · cases hs
          simp only [trackerAct, List.cons.injEq, and_true] at hta
          subst hta
          simp [serverAct] at hsa
        | loopReport i =>
          refine ⟨i, ?_⟩
          simp only [trackerAct] at hta
          simp only [loopObs]
          split at hta <;> simp at hta <;> subst hta <;> simp_all
        | reapSend =>
          simp only [trackerAct] at hta
          split at hta <;> simp at hta
          subst hta; cases h1
        | hReport h =>
          simp only [trackerAct] at hta
          split at hta <;> simp at hta
          subst hta; cases h1
        | _ =>
          simp only [trackerAct] at hta
          repeat' split at hta
          all_goals simp at hta
      obtain ⟨i, hi⟩ := hobs
      exact Props.System.not_cancelled_without_failures hg hr' hq (by rw [collect_snoc hr]; exact List.mem_append_right _ hi)
    · exact absurd h3 (Props.System.pinging_not_disconnected_partial hg hr' hfr hpr hq (fun txn => hsil txn _))

end Verif.Sys

namespace Verif.Remote
open Verif

variable {c : Cfg} {s s' : State} {as : List Act} {a : Act}

/-- What a runner that is not told to stop shows: no attempt to start fails unless it does, and no report follows SIGTERM at once. -/
structure Sound (s : State) : Prop where
  pairs : ∀ p T code vs n, ¬ [Obs.sigterm p, .finish T code vs n] <:+: s.trace
  last : ∀ r p out, (s.phase = .begun r p ∨ s.phase = .finishing r out) → ∀ q, s.trace.getLast? ≠ some (.sigterm q)

theorem infix_snoc {α : Type} {x y o : α} {l : List α} (h : [x, y] <:+: l ++ [o]) : [x, y] <:+: l ∨ (l.getLast? = some x ∧ y = o) := by
  obtain ⟨A, B, e⟩ := h
  rcases List.eq_nil_or_concat B with rfl | ⟨B', z, rfl⟩
  · right
    rw [List.append_nil] at e
    have e' : (A ++ [x]) ++ [y] = l ++ [o] := by rw [← e]; simp
    obtain ⟨e1, e2⟩ := List.append_inj' e' rfl
    simp only [List.cons.injEq, and_true] at e2
    exact ⟨by rw [← e1]; simp, e2⟩
  · left
    have e' : (A ++ [x, y] ++ B') ++ [z] = l ++ [o] := by rw [← e]; simp
    obtain ⟨e1, _⟩ := List.append_inj' e' rfl
    exact ⟨A, B', e1⟩

theorem Sound.stay (h : Sound s) {ph : Phase} (hp : ∀ r p out, ph = .begun r p ∨ ph = .finishing r out → ∀ q, s.trace.getLast? ≠ some (.sigterm q))
    (ht : s'.trace = s.trace) (hph : s'.phase = ph) : Sound s' := by
  refine ⟨?_, ?_⟩
  · rw [ht]; exact h.pairs
  · rw [ht, hph]; exact hp

theorem Sound.add (h : Sound s) {o : Obs} (ho : ∀ p T code vs n, s.trace.getLast? = some (.sigterm p) → o ≠ .finish T code vs n)
    (hp : ∀ r p out, (s'.phase = .begun r p ∨ s'.phase = .finishing r out) → ∀ q, o ≠ .sigterm q) (ht : s'.trace = s.trace ++ [o]) : Sound s' := by
  refine ⟨?_, ?_⟩
  · rw [ht]
    intro p T code vs n hi
    rcases infix_snoc hi with hi | ⟨h1, h2⟩
    · exact h.pairs _ _ _ _ _ hi
    · exact ho _ _ _ _ _ h1 h2.symm
  · rw [ht]
    intro r p out hph q
    simp only [List.getLast?_append, List.getLast?_singleton, Option.some_or]
    intro e
    exact hp r p out hph q (Option.some.inj e)

theorem Sound.step (h : Sound s) (ha : a ≠ .slurm) (hs : step c s a = .ok s') : Sound s' := by
  cases a with
  | slurm => exact absurd rfl ha
  | tick d => simp only [Remote.step, Res.ok.injEq] at hs; subst hs; exact h.stay h.last rfl rfl
  | usr1 => simp only [Remote.step, Res.ok.injEq] at hs; subst hs; exact h.stay h.last rfl rfl
  | lose => simp only [Remote.step, Res.ok.injEq] at hs; subst hs; exact h.stay h.last rfl rfl
  | childEnds pid =>
    simp only [Remote.step] at hs
    split at hs
    · simp only [Res.ok.injEq] at hs; subst hs; exact h.stay h.last rfl rfl
    · cases hs
  | begunReply ok =>
    simp only [Remote.step] at hs
    repeat' split at hs
    all_goals first
      | (cases hs; done)
      | (simp only [Res.ok.injEq] at hs; subst hs
         refine h.stay (ph := _) ?_ (by simp [State.goto]) rfl
         intro r p out hph
         first
           | exact h.last _ _ out (.inl (by assumption))
           | (rcases hph with hph | hph <;> cases hph))
  | sendEnd =>
    simp only [Remote.step] at hs
    split at hs
    · rename_i r o hp
      simp only [Res.ok.injEq] at hs; subst hs
      refine h.add (o := endRequest c s r o) ?_ ?_ rfl
      · intro p T code vs n hl
        exact absurd hl (h.last r none o (.inr hp) p)
      · rintro _ _ _ (e | e) <;> cases e
    · cases hs
  | startReply x =>
    cases x <;> simp only [Remote.step] at hs <;> split at hs <;>
      first
        | (cases hs; done)
        | (simp only [Res.ok.injEq] at hs; subst hs
           first
             | (refine h.stay (ph := _) ?_ (List.append_nil _) rfl; rintro _ _ _ (e | e) <;> cases e)
             | (refine h.add (o := _) ?_ ?_ rfl; · simp
                · rintro _ _ _ (e | e) <;> cases e))
  | _ =>
    simp only [Remote.step] at hs
    repeat' split at hs
    all_goals first
      | (cases hs; done)
      | (simp only [Res.ok.injEq] at hs; subst hs
         first
           | (refine h.stay (ph := _) ?_ (List.append_nil _) rfl; rintro _ _ _ (e | e) <;> cases e)
           | (refine h.add (o := _) ?_ ?_ rfl; · simp
              · rintro _ _ _ (e | e) <;> first | (cases e; done) | simp))

/-- A runner that is not told to stop. -/
theorem Reach.sound (hr : Reach c as s) (ha : .slurm ∉ as) : Sound s := by
  induction hr with
  | init => exact ⟨by intro p T code vs n hi; simp [Remote.init] at hi, by intro r p out _ q; simp [Remote.init]⟩
  | snoc _ hs ih =>
    simp only [List.mem_append, List.mem_singleton, not_or] at ha
    exact (ih ha.1).step (fun e => ha.2 e.symm) hs

/-- A failure to start a process is only shown if it happens. -/
theorem Reach.spawned (hr : Reach c as s) (ha : .spawn none ∉ as) : .spawn none ∉ s.trace := by
  induction hr with
  | init => simp [Remote.init]
  | @snoc as s s' a _ hs ih =>
    simp only [List.mem_append, List.mem_singleton, not_or] at ha
    have ih := ih ha.1
    have ha := ha.2
    cases a with
    | spawn p =>
      cases p with
      | none => exact absurd rfl ha
      | some p =>
        simp only [Remote.step] at hs
        repeat' split at hs
        all_goals first
          | (cases hs; done)
          | (simp only [Res.ok.injEq] at hs; subst hs; simpa [State.goto] using ih)
    | startReply x =>
      cases x <;> simp only [Remote.step] at hs <;> split at hs <;>
        first
          | (cases hs; done)
          | (simp only [Res.ok.injEq] at hs; subst hs; simpa [State.goto] using ih)
    | sendEnd =>
      simp only [Remote.step] at hs
      split at hs
      · rename_i r o hp
        simp only [Res.ok.injEq] at hs; subst hs
        cases o <;> simpa [State.goto, endRequest] using ih
      · cases hs
    | _ =>
      simp only [Remote.step] at hs
      repeat' split at hs
      all_goals first
        | (cases hs; done)
        | (simp only [Res.ok.injEq] at hs; subst hs; simpa [State.goto] using ih)

end Verif.Remote

namespace Verif.Cluster
open Verif Verif.Tracker
open Verif.Tracker hiding Act Cfg State Runs init step replay after runs_of_replay runs_of_after

variable {c : Sys.Cfg} {lf : LogFile} {now : Int} {s s' : State} {as : List Act} {b : Behaviour}

/-- What a runner has done is part of the run. -/
theorem runner_reach (hr : Runs c (init c lf now) as s) : ∀ (j : Nat) (r : Runner), s.runners[j]? = some r →
    ∃ bs, Remote.Reach r.cfg.rem bs r.st ∧ ∀ b ∈ bs, isAnswer b = true ∨ Act.runner j b ∈ as := by
  refine Runs.snocInd (P := fun as s => ∀ (j : Nat) (r : Runner), s.runners[j]? = some r →
    ∃ bs, Remote.Reach r.cfg.rem bs r.st ∧ ∀ b ∈ bs, isAnswer b = true ∨ Act.runner j b ∈ as) ?_ ?_ hr
  · intro j r h; simp [init] at h
  · intro as s a s' hr ih hs j r' hj
    cases step_runner hs hj with
    | same h =>
      obtain ⟨bs, h1, h2⟩ := ih j r' h
      exact ⟨bs, h1, fun b hb => (h2 b hb).imp_right (List.mem_append_left _)⟩
    | new cfg h => subst h; exact ⟨[], .init, by simp⟩
    | act r b ha h hna hst _ hc =>
      obtain ⟨bs, h1, h2⟩ := ih j r h
      rw [hc]
      refine ⟨bs ++ [b], .snoc h1 hst, fun x hx => ?_⟩
      rcases List.mem_append.1 hx with hx | hx
      · exact (h2 x hx).imp_right (List.mem_append_left _)
      · rw [List.mem_singleton] at hx
        subst hx
        exact .inr (by rw [ha]; simp)
    | hear r b x k got ha h hh hst _ hc =>
      obtain ⟨bs, h1, h2⟩ := ih j r h
      rw [hc]
      refine ⟨bs ++ [b], .snoc h1 hst, fun x hx => ?_⟩
      rcases List.mem_append.1 hx with hx | hx
      · exact (h2 x hx).imp_right (List.mem_append_left _)
      · rw [List.mem_singleton] at hx
        subst hx
        exact .inl (hears_answer hh)

/-- Reports of remote runners, if nothing goes wrong around the processes. -/
theorem ends_exits (hr : Runs c (init c lf now) as s) (hf : Fresh c lf now as) (hd : ∀ a ∈ as, disturbed a = false)
    {x : Nat × Nat × Int × List (List (String × String))}
    (hx : x ∈ Sys.collect (Sys.endRequests c) c (Sys.init c lf now) (served c lf now as)) : x.2 ∈ collect exits c (init c lf now) as := by
  obtain ⟨T, v, code, values⟩ := x
  rcases end_story hr hf hx with h | ⟨i, r, h1, h2, _⟩ | ⟨i, r, p, h1, h2, _⟩
  · exact h
  · obtain ⟨bs, h3, h4⟩ := runner_reach hr i r h1
    refine absurd h2 (h3.spawned fun hb => ?_)
    rcases h4 _ hb with h | h
    · cases h
    · have := hd _ h; cases this
  · obtain ⟨bs, h3, h4⟩ := runner_reach hr i r h1
    refine absurd h2 ((h3.sound fun hb => ?_).pairs _ _ _ _ _)
    rcases h4 _ hb with h | h
    · cases h
    · have := hd _ h; cases this

theorem served_sub {a : Sys.Act} (ha : a ∈ served c lf now as) : Act.server a ∈ as ∨ ∃ q, a = .request q := by
  unfold served at ha
  suffices ∀ s, a ∈ collect sysAct c s as → Act.server a ∈ as ∨ ∃ q, a = .request q from this _ ha
  clear ha
  induction as with
  | nil => intro s h; cases h
  | cons x as ih =>
    intro s h
    simp only [collect, List.mem_append] at h
    rcases h with h | h
    · cases x with
      | server b => simp only [sysAct, List.mem_singleton] at h; subst h; exact .inl (by simp)
      | other r => simp only [sysAct, List.mem_singleton] at h; exact .inr ⟨_, h⟩
      | arrive k =>
        simp only [sysAct] at h
        split at h
        · rw [List.mem_singleton] at h; exact .inr ⟨_, h⟩
        · cases h
      | _ => simp [sysAct] at h
    · split at h
      · exact (ih _ h).imp_left (List.mem_cons_of_mem _)
      · cases h

/-- If nothing goes wrong around the processes, what the scheduler is told is what the tasks do. -/
theorem anywhere_peace (hg : Good c.tr) (hr : Runs c (init c lf now) as s) (hf : Fresh c lf now as) (hh : Heard c lf now as)
    (hd : ∀ a ∈ as, disturbed a = false) (hb : EndsAs b c lf now as) (hfew : Family.FewFailures c.tr b) :
    Faithful b (Sys.toTracker c (Sys.init c lf now) (served c lf now as)) ∧
    NoShutdown (Sys.toTracker c (Sys.init c lf now) (served c lf now as)) ∧
    quickFailures c.tr [] (Tracker.init c.tr lf now) (Sys.toTracker c (Sys.init c lf now) (served c lf now as)) < c.tr.fizzlesAllowed := by
  have hrs := (hr.inv hf).run
  have hno : ∀ a ∈ served c lf now as, a ≠ .server .trigger ∧ a ≠ .server .ctrlC ∧ (∀ k, a ≠ .server (.cancel k)) ∧ ∀ i, a ≠ .loopSpawn i false := by
    intro a ha
    rcases served_sub ha with h | ⟨q, rfl⟩
    · have := hd _ h
      refine ⟨?_, ?_, ?_, ?_⟩ <;> (intros; rintro rfl; cases this)
    · simp
  have h1 := Sys.faithful_runs hg hfew hrs hf hh.1 hh.2 ?_ (fun x hx => hb x (outputs_exits hr hf x hx)) (fun x hx => hb x.2 (ends_exits hr hf hd hx))
  · have hq := quick_few hg (hrs.toInit hg) h1 hfew
    refine ⟨h1, (Tracker.calm hg (hrs.toInit hg) ?_ hq).no, hq⟩
    have : ∀ (l : List Sys.Act) (t : Sys.State), (∀ a ∈ l, a ≠ .server .trigger ∧ a ≠ .server .ctrlC ∧ ∀ k, a ≠ .server (.cancel k)) →
        ∀ x ∈ Sys.toTracker c t l, x ≠ .trigger ∧ x ≠ .ctrlC ∧ ∀ k, x ≠ .cancel k := by
      intro l
      induction l with
      | nil => intro t _ x hx; cases hx
      | cons a l ih =>
        intro t hl x hx
        unfold Sys.toTracker at hx
        simp only [Sys.collect, List.mem_append] at hx
        rcases hx with hx | hx
        · obtain ⟨a1, a2, a3⟩ := hl a (by simp)
          cases a with
          | server y =>
            simp only [Sys.trackerAct, List.mem_singleton] at hx
            subst hx
            exact ⟨by rintro rfl; exact a1 rfl, by rintro rfl; exact a2 rfl, by rintro k rfl; exact a3 k rfl⟩
          | _ =>
            simp only [Sys.trackerAct] at hx
            repeat' split at hx
            all_goals first
              | (cases hx; done)
              | (rw [List.mem_singleton] at hx; subst hx; simp)
        · split at hx
          · exact ih _ (fun a ha => hl a (List.mem_cons_of_mem _ ha)) x hx
          · cases hx
    exact this _ _ (fun a ha => ⟨(hno a ha).1, (hno a ha).2.1, (hno a ha).2.2.1⟩)
  · have : ∀ (l : List Sys.Act) (t : Sys.State), (∀ a ∈ l, ∀ i, a ≠ .loopSpawn i false) → Sys.collect Sys.failedSpawns c t l = [] := by
      intro l
      induction l with
      | nil => intro t _; rfl
      | cons a l ih =>
        intro t hl
        simp only [Sys.collect, List.append_eq_nil_iff]
        refine ⟨?_, ?_⟩
        · cases a with
          | loopSpawn i ok =>
            cases ok with
            | false => exact absurd rfl (hl _ (by simp) i)
            | true => rfl
          | _ => rfl
        · split
          · exact ih _ (fun a ha => hl a (List.mem_cons_of_mem _ ha))
          · rfl
    exact this _ _ (fun a ha => (hno a ha).2.2.2)

end Verif.Cluster
