import Verif.Spec.ChildIo

/-!
# Input and output of local tasks (proofs)
-/

namespace Verif.ChildIo
open Verif Verif.Fd3

variable {P : Type} {c : Cfg P} {s s' : State P} {as : List Act} {a : Act}

theorem Runs.append {s1 s2 s3 : State P} {as bs : List Act} (h1 : Runs c s1 as s2) (h2 : Runs c s2 bs s3) :
    Runs c s1 (as ++ bs) s3 := by
  induction h1 with
  | nil => exact h2
  | cons hs _ ih => exact .cons hs (ih h2)

theorem Runs.snoc {s1 s2 s3 : State P} (h1 : Runs c s1 as s2) (hs : step c s2 a = .ok s3) : Runs c s1 (as ++ [a]) s3 :=
  h1.append (.cons hs (.nil _))

theorem Runs.snocInd {s0 : State P} {Q : List Act → State P → Prop} (h0 : Q [] s0)
    (hstep : ∀ as s a s', Runs c s0 as s → Q as s → step c s a = .ok s' → Q (as ++ [a]) s')
    {as : List Act} {s : State P} (hr : Runs c s0 as s) : Q as s := by
  have gen : ∀ {t : State P} {as : List Act} {s : State P}, Runs c t as s → ∀ bs, Runs c s0 bs t → Q bs t → Q (bs ++ as) s := by
    intro t as s h
    induction h with
    | nil => intro bs _ hq; simpa using hq
    | cons hs _ ih =>
      intro bs hb hq
      have := ih (bs ++ [_]) (hb.snoc hs) (hstep _ _ _ _ hb hq hs)
      simpa using this
  simpa using gen hr [] (.nil _) h0

theorem written_snoc {s0 : State P} (hr : Runs c s0 as s) (o : Out) :
    written c s0 o (as ++ [a]) = written c s0 o as ++ wrote c s o a := by
  induction hr with
  | nil s =>
    simp only [List.nil_append, written]
    cases step c s a <;> simp
  | cons hs _ ih => simp only [List.cons_append, written, hs, ih, List.append_assoc]

theorem childEnds_snoc {s0 : State P} (hr : Runs c s0 as s) :
    childEnds c s0 (as ++ [a]) = childEnds c s0 as ++ childEnd c s a := by
  induction hr with
  | nil s =>
    simp only [List.nil_append, childEnds]
    cases step c s a <;> simp
  | cons hs _ ih => simp only [List.cons_append, childEnds, hs, ih, List.append_assoc]

/-- What holds in every run. -/
structure Inv (c : Cfg P) (as : List Act) (s : State P) : Prop where
  /-- What was written is in the pipe or was read. -/
  bytes : ∀ o, reading s.stage = true → s.got o ++ s.buf o = written c (init c) o as
  /-- Behind the end of the file there is nothing, and nobody can write. -/
  eof : ∀ o, s.eof o = true → s.buf o = [] ∧ ∀ p ∈ s.procs, p.holds o = false
  /-- Only pipes are held. -/
  piped : ∀ p ∈ s.procs, ∀ o, p.holds o = true → c.piped o = true
  /-- What is not a pipe carries nothing. -/
  plain : ∀ o, c.piped o = false → written c (init c) o as = []
  /-- The child is there or has ended. -/
  one : s.procs.countP (·.child) + s.status.toList.length = 1
  /-- How it has ended. -/
  status : reading s.stage = true → s.status.toList = childEnds c (init c) as
  /-- The report. -/
  ended : ∀ st bytes, s.stage = .ended st bytes → childEnds c (init c) as = [st] ∧ s.status = some st ∧
    (∀ o, bytes o = written c (init c) o as) ∧ ∀ o, c.piped o = true → ∀ p ∈ s.procs, p.holds o = false

theorem Inv.init (c : Cfg P) : Inv c [] (ChildIo.init c) := by
  refine ⟨fun o _ => rfl, fun o h => by simp [ChildIo.init] at h, ?_, fun _ _ => rfl, rfl, fun _ => rfl, ?_⟩
  · intro p hp o h
    simp only [ChildIo.init, List.mem_singleton] at hp
    subst hp; exact h
  · intro st bytes h
    simp only [ChildIo.init] at h
    split at h <;> cases h

/-- The processes after a step: each has at most the descriptors of one before. -/
theorem procs_step (hs : step c s a = .ok s') : ∀ q ∈ s'.procs, ∃ p ∈ s.procs, (∀ o, q.holds o = true → p.holds o = true) ∧
    (q.input = true → p.input = true) := by
  have set : ∀ {i : Nat} {p q' : Proc P}, s.procs[i]? = some p → (∀ o, q'.holds o = true → p.holds o = true) →
      (q'.input = true → p.input = true) → ∀ q ∈ s.procs.set i q', ∃ p ∈ s.procs, (∀ o, q.holds o = true → p.holds o = true) ∧
      (q.input = true → p.input = true) := by
    intro i p q' hp h1 h2 q hq
    rcases List.mem_or_eq_of_mem_set hq with hq | rfl
    · exact ⟨q, hq, fun _ h => h, id⟩
    · exact ⟨p, List.mem_of_getElem? hp, h1, h2⟩
  have same : s'.procs = s.procs → ∀ q ∈ s'.procs, ∃ p ∈ s.procs, (∀ o, q.holds o = true → p.holds o = true) ∧
      (q.input = true → p.input = true) := by
    intro e q hq; rw [e] at hq; exact ⟨q, hq, fun _ h => h, id⟩
  have erase : ∀ i, ∀ q ∈ s.procs.eraseIdx i, ∃ p ∈ s.procs, (∀ o, q.holds o = true → p.holds o = true) ∧
      (q.input = true → p.input = true) :=
    fun i q hq => ⟨q, List.mem_of_mem_eraseIdx hq, fun _ h => h, id⟩
  have killed : ∀ st, ∀ q ∈ (killChild { s with stage := st }).procs, ∃ p ∈ s.procs, (∀ o, q.holds o = true → p.holds o = true) ∧
      (q.input = true → p.input = true) := by
    intro st q hq
    unfold killChild at hq
    split at hq
    · exact erase _ q hq
    · exact ⟨q, hq, fun _ h => h, id⟩
  cases a with
  | run i =>
    simp only [step] at hs
    split at hs
    · rename_i p hp
      simp only [runProc] at hs
      repeat' split at hs
      all_goals first
        | (cases hs; done)
        | (simp only [Res.ok.injEq] at hs; subst hs
           first
            | exact set hp (fun _ h => h) id
            | exact erase _
            | exact set hp (fun o h => by simp only at h; split at h <;> simp_all) id
            | exact set hp (fun o h => h) (fun h => by simp at h)
            | (intro q hq
               simp only [List.mem_append, List.mem_singleton] at hq
               rcases hq with hq | rfl
               · refine set hp ?_ ?_ q hq
                 · exact fun _ h => h
                 · exact id
               · exact ⟨p, List.mem_of_getElem? hp, fun _ h => h, id⟩))
    · cases hs
  | kill i sig =>
    simp only [step] at hs
    split at hs
    · simp only [Res.ok.injEq] at hs; subst hs; exact erase _
    · cases hs
  | _ =>
    simp only [step] at hs
    repeat' split at hs
    all_goals first
      | (cases hs; done)
      | (simp only [Res.ok.injEq] at hs; subst hs; first | exact same rfl | exact killed _)

theorem stage_run {i : Nat} (hs : step c s (.run i) = .ok s') : s'.stage = s.stage ∧ s'.got = s.got ∧ s'.eof = s.eof ∧ s'.reaped = s.reaped := by
  simp only [step] at hs
  split at hs
  · simp only [runProc] at hs
    repeat' split at hs
    all_goals first
      | (cases hs; done)
      | (simp only [Res.ok.injEq] at hs; subst hs; exact ⟨rfl, rfl, rfl, rfl⟩)
  · cases hs

/-- The parent's own actions write nothing and end no process of the task by themselves. -/
theorem wrote_parent (h : parent a = true) (o : Out) : wrote c s o a = [] ∧ childEnd c s a = [] := by
  cases a <;> simp_all [parent, wrote, childEnd]

theorem count_set {l : List (Proc P)} {i : Nat} {p q : Proc P} (h : l[i]? = some p) (hc : q.child = p.child) :
    (l.set i q).countP (·.child) = l.countP (·.child) := by
  induction l generalizing i with
  | nil => simp at h
  | cons x l ih =>
    cases i with
    | zero =>
      simp only [List.getElem?_cons_zero, Option.some.injEq] at h
      subst h
      simp only [List.set_cons_zero, List.countP_cons, hc]
    | succ i =>
      simp only [List.getElem?_cons_succ] at h
      simp only [List.set_cons_succ, List.countP_cons, ih h]

theorem count_erase {l : List (Proc P)} {i : Nat} {p : Proc P} (h : l[i]? = some p) :
    (l.eraseIdx i).countP (·.child) + p.child.toNat = l.countP (·.child) := by
  induction l generalizing i with
  | nil => simp at h
  | cons x l ih =>
    cases i with
    | zero =>
      simp only [List.getElem?_cons_zero, Option.some.injEq] at h
      subst h
      simp only [List.eraseIdx_cons_zero, List.countP_cons]
      cases x.child <;> simp
    | succ i =>
      simp only [List.getElem?_cons_succ] at h
      simp only [List.eraseIdx_cons_succ, List.countP_cons]
      have := ih h
      omega

theorem status_none {l : List (Proc P)} {o : Option ProcStatus} (h : l.countP (·.child) + o.toList.length = 1) (h0 : l.countP (·.child) ≠ 0) :
    o = none ∧ l.countP (·.child) = 1 := by
  cases o with
  | none => simp only [Option.toList, List.length_nil] at h; exact ⟨rfl, by omega⟩
  | some x => simp only [Option.toList, List.length_cons, List.length_nil] at h; omega

/-- Effect of the end of a process on who is there. -/
theorem one_end {i : Nat} {p : Proc P} {st : ProcStatus} (hp : s.procs[i]? = some p)
    (h : s.procs.countP (·.child) + s.status.toList.length = 1) :
    (endProc i p st s).procs.countP (·.child) + (endProc i p st s).status.toList.length = 1 ∧
    (endProc i p st s).status.toList = s.status.toList ++ (if p.child then [st] else []) := by
  have hc := count_erase hp
  unfold endProc
  cases hch : p.child with
  | false =>
    simp only [hch, Bool.toNat_false] at hc ⊢
    refine ⟨?_, by simp⟩
    rw [if_neg (by simp)]; omega
  | true =>
    simp only [hch, Bool.toNat_true] at hc ⊢
    obtain ⟨e1, e2⟩ := status_none h (by omega)
    rw [e1, if_pos trivial]
    refine ⟨?_, rfl⟩
    simp only [Option.toList, List.length_cons, List.length_nil]
    omega

theorem one_kill (h : s.procs.countP (·.child) + s.status.toList.length = 1) (x : Stage) :
    (killChild { s with stage := x }).procs.countP (·.child) + (killChild { s with stage := x }).status.toList.length = 1 := by
  unfold killChild
  split
  · rename_i i hi
    simp only at hi
    obtain ⟨hlt, hpi, _⟩ := List.findIdx?_eq_some_iff_getElem.1 hi
    have hc := count_erase (List.getElem?_eq_getElem hlt)
    rw [hpi, Bool.toNat_true] at hc
    obtain ⟨e1, e2⟩ := status_none h (by omega)
    simp only [Option.toList, List.length_cons, List.length_nil]
    omega
  · exact h

theorem kill_stage (s : State P) : (killChild s).stage = s.stage ∧ (killChild s).buf = s.buf ∧ (killChild s).got = s.got ∧
    (killChild s).eof = s.eof := by
  unfold killChild
  split <;> exact ⟨rfl, rfl, rfl, rfl⟩

theorem Inv.step (hr : Runs c (ChildIo.init c) as s) (h : Inv c as s) (hs : ChildIo.step c s a = .ok s') : Inv c (as ++ [a]) s' := by
  obtain ⟨h1, h2, h3, h4, h5, h6, h7⟩ := h
  have hpr := procs_step hs
  have piped' : ∀ p ∈ s'.procs, ∀ o, p.holds o = true → c.piped o = true := by
    intro q hq o ho
    obtain ⟨p, hp, hh, _⟩ := hpr q hq
    exact h3 p hp o (hh o ho)
  have free : ∀ o, (∀ p ∈ s.procs, p.holds o = false) → ∀ p ∈ s'.procs, p.holds o = false := by
    intro o ho q hq
    obtain ⟨p, hp, hh, _⟩ := hpr q hq
    cases hqo : q.holds o with
    | false => rfl
    | true => have := ho p hp; rw [hh o hqo] at this; cases this
  have plain' : ∀ o, c.piped o = false → written c (ChildIo.init c) o (as ++ [a]) = [] := by
    intro o ho
    rw [written_snoc hr, h4 o ho, List.nil_append]
    cases a <;> simp only [wrote]
    split
    · split
      · simp [ho]
      · rfl
    · rfl
  -- a process leaves bytes alone
  have quiet : s'.stage = s.stage → s'.got = s.got → s'.eof = s.eof → s'.buf = s.buf → (∀ o, wrote c s o a = []) →
      s'.procs.countP (·.child) + s'.status.toList.length = 1 →
      (reading s.stage = true → s'.status.toList = s.status.toList ++ childEnd c s a) →
      (∀ st bytes, s.stage = .ended st bytes → s'.status = s.status ∧ childEnd c s a = []) → Inv c (as ++ [a]) s' := by
    intro e1 e2 e3 e4 e5 e6 e7 e8
    refine ⟨?_, ?_, piped', plain', e6, ?_, ?_⟩
    · intro o hre
      rw [e1] at hre
      rw [written_snoc hr, e5, List.append_nil, e2, e4]; exact h1 o hre
    · intro o ho
      rw [e3] at ho
      rw [e4]
      exact ⟨(h2 o ho).1, free o (h2 o ho).2⟩
    · intro hre
      rw [e1] at hre
      rw [childEnds_snoc hr, e7 hre, h6 hre]
    · intro st bytes hst
      rw [e1] at hst
      obtain ⟨i1, i2, i3, i4⟩ := h7 st bytes hst
      obtain ⟨f1, f2⟩ := e8 st bytes hst
      refine ⟨by rw [childEnds_snoc hr, f2, List.append_nil]; exact i1, by rw [f1]; exact i2, ?_, ?_⟩
      · intro o; rw [written_snoc hr, e5, List.append_nil]; exact i3 o
      · intro o ho; exact free o (i4 o ho)
  have pw : parent a = true → (∀ o, written c (ChildIo.init c) o (as ++ [a]) = written c (ChildIo.init c) o as) ∧
      childEnds c (ChildIo.init c) (as ++ [a]) = childEnds c (ChildIo.init c) as := by
    intro hpa
    refine ⟨fun o => ?_, ?_⟩
    · rw [written_snoc hr, (wrote_parent hpa o).1, List.append_nil]
    · rw [childEnds_snoc hr, (wrote_parent hpa .out).2, List.append_nil]
  -- an action of the parent after which it is still reading
  have go : parent a = true → reading s.stage = true → reading s'.stage = true → s'.status = s.status → s'.procs = s.procs →
      (∀ o, s'.got o ++ s'.buf o = s.got o ++ s.buf o) →
      (∀ o, s'.eof o = true → s'.buf o = [] ∧ ∀ p ∈ s.procs, p.holds o = false) → Inv c (as ++ [a]) s' := by
    intro hpa e1 e2 e3 e4 e5 e6
    obtain ⟨w1, w2⟩ := pw hpa
    refine ⟨?_, ?_, piped', plain', by rw [e3, e4]; exact h5, ?_, ?_⟩
    · intro o _; rw [w1, e5]; exact h1 o e1
    · rw [e4]; exact e6
    · intro _; rw [w2, e3]; exact h6 e1
    · intro st bytes hst; rw [hst] at e2; cases e2
  -- the loop is left
  have leave : parent a = true → ∀ x, reading x = false → (∀ st bytes, x ≠ .ended st bytes) →
      s' = killChild { s with stage := x } → Inv c (as ++ [a]) s' := by
    intro hpa x hx hx2 e
    obtain ⟨k1, k2, k3, k4⟩ := kill_stage { s with stage := x }
    rw [← e] at k1 k2 k3 k4
    refine ⟨?_, ?_, piped', plain', by rw [e]; exact one_kill h5 x, ?_, ?_⟩
    · intro o hre; rw [k1] at hre; rw [hx] at hre; cases hre
    · intro o ho
      rw [k4] at ho
      rw [k2]
      exact ⟨(h2 o ho).1, free o (h2 o ho).2⟩
    · intro hre; rw [k1] at hre; rw [hx] at hre; cases hre
    · intro st bytes hst; rw [k1] at hst; exact absurd hst (hx2 st bytes)
  cases a with
  | feed =>
    simp only [ChildIo.step] at hs
    split at hs
    · rename_i b rest hst
      split at hs
      · split at hs
        · simp only [Res.ok.injEq] at hs; subst hs
          exact go rfl (by rw [hst]; rfl) rfl rfl rfl (fun _ => rfl) h2
        · cases hs
      · simp only [Res.ok.injEq] at hs
        exact leave rfl .panicked rfl (by simp) hs.symm
    · cases hs
  | fed =>
    simp only [ChildIo.step] at hs
    split at hs
    · rename_i hst
      simp only [Res.ok.injEq] at hs; subst hs
      exact go rfl (by rw [hst]; rfl) rfl rfl rfl (fun _ => rfl) h2
    · cases hs
  | started =>
    simp only [ChildIo.step] at hs
    split at hs
    · rename_i hst
      simp only [Res.ok.injEq] at hs; subst hs
      exact go rfl (by rw [hst]; rfl) rfl rfl rfl (fun _ => rfl) h2
    · cases hs
  | collect x =>
    simp only [ChildIo.step] at hs
    split at hs
    · rename_i b rest hst hb
      simp only [Res.ok.injEq] at hs; subst hs
      refine go rfl (by rw [hst]; rfl) (by simp only [hst]; rfl) rfl rfl (fun o => ?_) (fun o ho => ?_)
      · by_cases hx : o = x
        · subst hx; simp [hb]
        · simp [hx]
      · have := h2 o ho
        by_cases hx : o = x
        · subst hx; rw [hb] at this; simp at this
        · simpa [hx] using this
    · cases hs
  | eof x =>
    simp only [ChildIo.step] at hs
    split at hs
    · rename_i hst hb
      split at hs
      · rename_i hc
        simp only [Res.ok.injEq] at hs; subst hs
        refine go rfl (by rw [hst]; rfl) (by simp only [hst]; rfl) rfl rfl (fun o => rfl) (fun o ho => ?_)
        simp only [Bool.and_eq_true, Bool.not_eq_true', List.any_eq_false] at hc
        by_cases hx : o = x
        · subst hx
          exact ⟨hb, fun p hp => by simpa using hc.1.2 p hp⟩
        · simp only [hx, if_false] at ho
          exact h2 o ho
      · cases hs
    · cases hs
  | reap =>
    simp only [ChildIo.step] at hs
    split at hs
    · rename_i st hst hb
      split at hs
      · cases hs
      · simp only [Res.ok.injEq] at hs; subst hs
        exact go rfl (by rw [hst]; rfl) (by simp only [hst]; rfl) rfl rfl (fun o => rfl) h2
    · cases hs
  | finish =>
    simp only [ChildIo.step] at hs
    split at hs
    · rename_i st hst hb
      split at hs
      · rename_i hc
        simp only [Res.ok.injEq] at hs; subst hs
        have hre : reading s.stage = true := by rw [hst]; rfl
        obtain ⟨w1, w2⟩ := pw rfl
        simp only [Bool.and_eq_true, List.all_eq_true, Bool.or_eq_true, Bool.not_eq_true'] at hc
        have heof : ∀ o, c.piped o = true → s.eof o = true := by
          intro o ho
          rcases hc.2 o (by cases o <;> simp [outs]) with h | h
          · rw [ho] at h; cases h
          · exact h
        refine ⟨?_, h2, piped', plain', h5, ?_, ?_⟩
        · intro o h; cases h
        · intro h; cases h
        · intro st' bytes h
          cases h
          refine ⟨by rw [w2, ← h6 hre, hb]; rfl, hb, fun o => ?_, fun o ho => (h2 o (heof o ho)).2⟩
          rw [w1, ← h1 o hre]
          cases ho : c.piped o with
          | true => rw [(h2 o (heof o ho)).1, List.append_nil]
          | false =>
            have := h1 o hre
            rw [h4 o ho] at this
            simp only [List.append_eq_nil_iff] at this
            rw [this.2, List.append_nil]
      · cases hs
    · cases hs
  | cancel =>
    simp only [ChildIo.step] at hs
    split at hs
    · simp only [Res.ok.injEq] at hs
      exact leave rfl .cancelled rfl (by simp) hs.symm
    · cases hs
  | kill i sig =>
    simp only [ChildIo.step] at hs
    split at hs
    · rename_i p hp
      simp only [Res.ok.injEq] at hs; subst hs
      obtain ⟨o1, o2⟩ := one_end (st := .signaled sig) hp h5
      have hce : childEnd c s (.kill i sig) = if p.child then [.signaled sig] else [] := by simp only [childEnd, hp]
      refine quiet rfl rfl rfl rfl (fun _ => rfl) o1 (fun _ => by rw [o2, hce]) ?_
      intro st bytes hst
      obtain ⟨_, i2, _⟩ := h7 st bytes hst
      have hch : p.child = false := by
        cases hch : p.child with
        | false => rfl
        | true =>
          have hc := count_erase hp
          rw [hch, Bool.toNat_true] at hc
          have := (status_none h5 (by omega)).1
          rw [i2] at this; cases this
      rw [hce]
      simp [endProc, hch]
    · cases hs
  | run i =>
    obtain ⟨k1, k2, k3, _⟩ := stage_run hs
    simp only [ChildIo.step] at hs
    split at hs
    · rename_i p hp
      have nochild : ∀ st bytes, s.stage = .ended st bytes → p.child = false := by
        intro st bytes hst
        obtain ⟨_, i2, _⟩ := h7 st bytes hst
        cases hch : p.child with
        | false => rfl
        | true =>
          have hc := count_erase hp
          rw [hch, Bool.toNat_true] at hc
          have := (status_none h5 (by omega)).1
          rw [i2] at this; cases this
      have ce : (∀ code, c.op p.state ≠ .exit code) → childEnd c s (.run i) = [] := by
        intro hne
        simp only [childEnd, hp]
        split
        · rename_i code _ hx; exact absurd hx (hne code)
        · rfl
      have nw : (∀ x b n, c.op p.state ≠ .put x b n) → ∀ o, wrote c s o (.run i) = [] := by
        intro hne o
        simp only [wrote, hp]
      -- a step that only changes the state of the process
      have mv : ∀ {q : Proc P}, s'.procs = s.procs.set i q → q.child = p.child → s'.status = s.status → s'.buf = s.buf →
          (∀ o, wrote c s o (.run i) = []) → childEnd c s (.run i) = [] → Inv c (as ++ [.run i]) s' := by
        intro q e1 hq e2 e3 e4 e5
        refine quiet k1 k2 k3 e3 e4 (by rw [e1, count_set hp hq, e2]; exact h5) (fun _ => by rw [e2, e5, List.append_nil]) ?_
        intro st bytes hst
        exact ⟨e2, e5⟩
      simp only [runProc] at hs
      split at hs
      · rename_i o b next hop
        have hce := ce (by rw [hop]; simp)
        split at hs
        · rename_i hho
          simp only [Bool.and_eq_true] at hho
          split at hs
          · rename_i hre
            split at hs
            · simp only [Res.ok.injEq] at hs
              have hwr : ∀ x, wrote c s x (.run i) = if x = o then [b] else [] := by
                intro x
                simp only [wrote, hp, hop]
                by_cases hx : x = o
                · subst hx; simp [hho.1, hho.2, hre]
                · simp [hx, Ne.symm hx]
              subst hs
              refine ⟨?_, ?_, piped', plain', ?_, ?_, ?_⟩
              · intro x _
                rw [written_snoc hr, hwr, ← h1 x hre]
                by_cases hx : x = o
                · subst hx; simp [setProc]
                · simp [setProc, hx]
              · intro x hx
                have hx : s.eof x = true := hx
                by_cases he : x = o
                · subst he
                  have := (h2 x hx).2 p (List.mem_of_getElem? hp)
                  rw [hho.2] at this; cases this
                · refine ⟨?_, free x (h2 x hx).2⟩
                  simp [setProc, he, (h2 x hx).1]
              · simp only [setProc]
                rw [count_set (q := { p with state := next }) hp rfl]; exact h5
              · intro _
                rw [childEnds_snoc hr, hce, List.append_nil]; exact h6 hre
              · intro st bytes hst
                have hst : s.stage = .ended st bytes := hst
                rw [hst] at hre; cases hre
            · cases hs
          · rename_i hre
            simp only [Res.ok.injEq] at hs
            have hwr : ∀ x, wrote c s x (.run i) = [] := by
              intro x
              simp only [wrote, hp, hop]
              simp [hre]
            subst hs
            obtain ⟨o1, o2⟩ := one_end (st := .signaled 13) hp h5
            refine quiet rfl rfl rfl rfl hwr o1 (fun h => absurd h hre) ?_
            intro st bytes hst
            refine ⟨?_, hce⟩
            simp [endProc, nochild st bytes hst]
        · rename_i hho
          simp only [Res.ok.injEq] at hs; subst hs
          refine mv (q := { p with state := next }) rfl rfl rfl rfl (fun x => ?_) hce
          simp only [wrote, hp, hop]
          rw [if_neg]
          rintro ⟨rfl, h1, h2, _⟩
          simp [h1, h2] at hho
      · rename_i next hop
        have hce := ce (by rw [hop]; simp)
        have hnw := nw (by rw [hop]; simp)
        repeat' split at hs
        all_goals first
          | (cases hs; done)
          | (simp only [Res.ok.injEq] at hs; subst hs
             exact mv rfl rfl rfl rfl hnw hce)
      · rename_i hop
        simp only [Res.ok.injEq] at hs; subst hs
        exact mv rfl rfl rfl rfl (nw (by rw [hop]; simp)) (ce (by rw [hop]; simp))
      · rename_i hop
        simp only [Res.ok.injEq] at hs; subst hs
        exact mv rfl rfl rfl rfl (nw (by rw [hop]; simp)) (ce (by rw [hop]; simp))
      · rename_i next other hop
        simp only [Res.ok.injEq] at hs; subst hs
        have hce := ce (by rw [hop]; simp)
        refine quiet rfl rfl rfl rfl (nw (by rw [hop]; simp)) ?_ (fun _ => by rw [hce, List.append_nil]) (fun _ _ _ => ⟨rfl, hce⟩)
        simp only [List.countP_append, List.countP_cons, List.countP_nil]
        rw [count_set (q := { p with state := next }) hp rfl]
        exact h5
      · rename_i hop
        simp only [Res.ok.injEq] at hs; subst hs
        exact mv rfl rfl rfl rfl (nw (by rw [hop]; simp)) (ce (by rw [hop]; simp))
      · rename_i code hop
        simp only [Res.ok.injEq] at hs; subst hs
        obtain ⟨o1, o2⟩ := one_end (st := .exited code) hp h5
        have hce : childEnd c s (.run i) = if p.child then [.exited code] else [] := by
          simp only [childEnd, hp, hop]
          cases p.child <;> rfl
        refine quiet rfl rfl rfl rfl (nw (by rw [hop]; simp)) o1 (fun _ => by rw [o2, hce]) ?_
        intro st bytes hst
        rw [hce]
        simp [endProc, nochild st bytes hst]
    · cases hs

theorem Runs.inv (hr : Runs c (ChildIo.init c) as s) : Inv c as s :=
  Runs.snocInd (Q := fun as s => Inv c as s) (Inv.init c) (fun _ _ _ _ hr h hs => h.step hr hs) hr

end Verif.ChildIo
