import Verif.Proof.ChildIo

/-!
# Input and output of local tasks: who waits for whom
-/

namespace Verif.ChildIo
open Verif Verif.Fd3

variable {P : Type} {c : Cfg P} {s s' : State P} {as : List Act} {a : Act}

/-- Is some action possible that does not come from outside? -/
def Able (c : Cfg P) (s : State P) : Prop := ∃ a s', outside a = false ∧ step c s a = .ok s'

/-- A process in front of a full pipe. -/
def Full (c : Cfg P) (s : State P) (p : Proc P) : Prop :=
  ∃ o b next, c.op p.state = .put o b next ∧ c.piped o = true ∧ p.holds o = true ∧ c.cap ≤ (s.buf o).length

theorem run_able {i : Nat} {p : Proc P} (hp : s.procs[i]? = some p) (hf : ¬ Full c s p)
    (hg : ∀ next, c.op p.state = .get next → p.input = true → s.inBuf = [] → writing s.stage = false) : Able c s := by
  have key : ∃ s', runProc c s i p = .ok s' := by
    unfold runProc
    cases hop : c.op p.state with
    | put o b next =>
      simp only
      by_cases h1 : (c.piped o && p.holds o) = true
      · rw [if_pos h1]
        by_cases h2 : reading s.stage = true
        · rw [if_pos h2]
          by_cases h3 : (s.buf o).length < c.cap
          · rw [if_pos h3]; exact ⟨_, rfl⟩
          · simp only [Bool.and_eq_true] at h1
            exact absurd ⟨o, b, next, hop, h1.1, h1.2, by omega⟩ hf
        · rw [if_neg h2]; exact ⟨_, rfl⟩
      · rw [if_neg h1]; exact ⟨_, rfl⟩
    | get next =>
      simp only
      by_cases h1 : p.input = true
      · rw [if_pos h1]
        cases hb : s.inBuf with
        | cons b rest => exact ⟨_, rfl⟩
        | nil =>
          simp only
          rw [if_neg (by rw [hg next hop h1 hb]; simp)]; exact ⟨_, rfl⟩
      · rw [if_neg h1]; exact ⟨_, rfl⟩
    | close o next => exact ⟨_, rfl⟩
    | closeInput next => exact ⟨_, rfl⟩
    | fork next other => exact ⟨_, rfl⟩
    | work next => exact ⟨_, rfl⟩
    | exit code => exact ⟨_, rfl⟩
  obtain ⟨s', hs⟩ := key
  exact ⟨.run i, s', rfl, by simp only [step, hp]; exact hs⟩

/-- A full pipe can be read. -/
theorem collect_able {o : Out} (hst : s.stage = .waiting) (h : s.buf o ≠ []) : Able c s := by
  cases hb : s.buf o with
  | nil => exact absurd hb h
  | cons b rest => exact ⟨.collect o, _, rfl, by simp only [step, hst, hb]; rfl⟩

theorem waiting_able (hcap : 1 ≤ c.cap) (h : Inv c as s) (hst : s.stage = .waiting) : Able c s := by
  by_cases hb : ∃ o, s.buf o ≠ []
  · obtain ⟨o, ho⟩ := hb
    exact collect_able hst ho
  · have hb : ∀ o, s.buf o = [] := by
      intro o
      refine Classical.byContradiction fun hne => ?_
      exact hb ⟨o, hne⟩
    cases hp : s.procs with
    | cons p ps =>
      refine run_able (i := 0) (p := p) (by rw [hp]; rfl) ?_ ?_
      · rintro ⟨o, b, next, _, _, _, hle⟩
        rw [hb o] at hle
        simp only [List.length_nil] at hle
        omega
      · intro _ _ _ _; rw [hst]; rfl
    | nil =>
      have h1 := h.one
      rw [hp] at h1
      cases hs : s.status with
      | none => rw [hs] at h1; simp at h1
      | some st =>
        cases hre : s.reaped with
        | false => exact ⟨.reap, _, rfl, by simp only [step, hst, hs, hre]; rfl⟩
        | true =>
          by_cases he : ∃ o, c.piped o = true ∧ s.eof o = false
          · obtain ⟨o, h1, h2⟩ := he
            refine ⟨.eof o, { s with eof := fun x => if x = o then true else s.eof x }, rfl, ?_⟩
            simp only [step, hst, hb o]
            rw [if_pos (by rw [h1, h2, hp]; rfl)]
          · have he : outs.all (fun o => !(c.piped o) || s.eof o) = true := by
              rw [List.all_eq_true]
              intro o _
              cases h1 : c.piped o with
              | false => rfl
              | true =>
                cases h2 : s.eof o with
                | true => rfl
                | false => exact absurd ⟨o, h1, h2⟩ he
            exact ⟨.finish, _, rfl, by simp only [step, hst, hs, hre, he, Bool.and_self, if_true]; rfl⟩

/-- When nothing goes on any more. -/
theorem stuck_iff (hcap : 1 ≤ c.cap) (h : Inv c as s) (ho : over s.stage = false) :
    ¬ Able c s ↔ (∃ b rest, s.stage = .feeding (b :: rest)) ∧ s.procs.any (·.input) = true ∧ c.cap ≤ s.inBuf.length ∧
      ∀ p ∈ s.procs, Full c s p := by
  constructor
  · intro hna
    cases hst : s.stage with
    | ended st b => rw [hst] at ho; cases ho
    | cancelled => rw [hst] at ho; cases ho
    | panicked => rw [hst] at ho; cases ho
    | waiting => exact absurd (waiting_able hcap h hst) hna
    | starting => exact absurd ⟨.started, _, rfl, by simp only [step, hst]; rfl⟩ hna
    | feeding rest =>
      cases rest with
      | nil => exact absurd ⟨.fed, _, rfl, by simp only [step, hst]; rfl⟩ hna
      | cons b rest =>
        have hany : s.procs.any (·.input) = true := by
          refine Classical.byContradiction fun hne => ?_
          exact hna ⟨.feed, _, rfl, by simp only [step, hst]; rw [if_neg hne]⟩
        have hfull : c.cap ≤ s.inBuf.length := by
          refine Classical.byContradiction fun hne => ?_
          have hlt : s.inBuf.length < c.cap := by omega
          exact hna ⟨.feed, _, rfl, by simp only [step, hst]; rw [if_pos hany, if_pos hlt]⟩
        refine ⟨⟨b, rest, rfl⟩, hany, hfull, ?_⟩
        intro p hp
        refine Classical.byContradiction fun hf => ?_
        obtain ⟨i, hi⟩ := List.getElem?_of_mem hp
        refine hna (run_able hi hf ?_)
        intro _ _ _ hb
        rw [hb] at hfull
        simp only [List.length_nil] at hfull
        omega
  · rintro ⟨⟨b, rest, hst⟩, hany, hfull, hall⟩ ⟨a, s', hout, hs⟩
    cases a with
    | feed =>
      simp only [step, hst] at hs
      rw [if_pos hany, if_neg (by omega)] at hs
      cases hs
    | run i =>
      simp only [step] at hs
      split at hs
      · rename_i p hp
        obtain ⟨o, b', next, h1, h2, h3, h4⟩ := hall p (List.mem_of_getElem? hp)
        simp only [runProc, h1, h2, h3, Bool.and_self, if_true, hst, reading] at hs
        rw [if_neg (by omega)] at hs
        cases hs
      · cases hs
    | cancel => cases hout
    | kill i sig => cases hout
    | _ => simp [step, hst] at hs

/-- What is in the pipe to the child and what is still to be written are no more than the input. -/
theorem input_left (hr : Runs c (init c) as s) : ∀ rest, s.stage = .feeding rest →
    ∃ bytes, c.input = some bytes ∧ s.inBuf.length + rest.length ≤ bytes.length := by
  refine Runs.snocInd (Q := fun _ s => ∀ rest, s.stage = .feeding rest →
    ∃ bytes, c.input = some bytes ∧ s.inBuf.length + rest.length ≤ bytes.length) ?_ ?_ hr
  · intro rest h
    simp only [init] at h
    split at h
    · rename_i bytes hb
      simp only [Stage.feeding.injEq] at h
      exact ⟨bytes, hb, by rw [← h]; simp [init]⟩
    · cases h
  · intro as s a s' _ ih hs rest hst
    cases a with
    | feed =>
      simp only [step] at hs
      split at hs
      · rename_i b rest' hst'
        split at hs
        · split at hs
          · simp only [Res.ok.injEq] at hs; subst hs
            cases hst
            obtain ⟨bytes, h1, h2⟩ := ih _ hst'
            refine ⟨bytes, h1, ?_⟩
            simp only [List.length_cons] at h2
            simp only [List.length_append, List.length_cons, List.length_nil]
            omega
          · cases hs
        · simp only [Res.ok.injEq] at hs
          have := (kill_stage { s with stage := .panicked }).1
          rw [hs, hst] at this; cases this
      · cases hs
    | run i =>
      have e := (stage_run hs).1
      rw [e] at hst
      obtain ⟨bytes, h1, h2⟩ := ih rest hst
      refine ⟨bytes, h1, ?_⟩
      have : s'.inBuf.length ≤ s.inBuf.length := by
        simp only [step] at hs
        split at hs
        · simp only [runProc] at hs
          repeat' split at hs
          all_goals first
            | (cases hs; done)
            | (simp only [Res.ok.injEq] at hs; subst hs; exact Nat.le_refl _)
            | (rename_i b r hb; simp only [Res.ok.injEq] at hs; subst hs; rw [hb]; simp [setProc])
        · cases hs
      omega
    | kill i sig =>
      simp only [step] at hs
      split at hs
      · simp only [Res.ok.injEq] at hs; subst hs
        exact ih rest hst
      · cases hs
    | cancel =>
      simp only [step] at hs
      split at hs
      · simp only [Res.ok.injEq] at hs
        have := (kill_stage { s with stage := .cancelled }).1
        rw [hs, hst] at this; cases this
      · cases hs
    | _ =>
      simp only [step] at hs
      repeat' split at hs
      all_goals first
        | (cases hs; done)
        | (simp only [Res.ok.injEq] at hs; subst hs; first | (cases hst; done) | (exact ih rest hst) | (simp_all; done))

/-- An input that fits into the pipe blocks nobody. -/
theorem fits_able (hcap : 1 ≤ c.cap) (hfit : ∀ bytes, c.input = some bytes → bytes.length ≤ c.cap) (hr : Runs c (init c) as s)
    (ho : over s.stage = false) : Able c s := by
  refine Classical.byContradiction fun hna => ?_
  obtain ⟨⟨b, rest, hst⟩, _, hfull, _⟩ := (stuck_iff hcap hr.inv ho).1 hna
  obtain ⟨bytes, h1, h2⟩ := input_left hr _ hst
  have := hfit bytes h1
  simp only [List.length_cons] at h2
  omega

/-! ### the work of the parent -/

/-- How much the parent has still to do at a place. -/
def stageCost (s : State P) : Nat :=
  match s.stage with
  | .feeding rest => rest.length + 8
  | .starting => 7
  | .waiting => 6 - (s.eof .out).toNat - (s.eof .err).toNat - (s.eof .val).toNat - s.reaped.toNat
  | _ => 0

/-- How much is in the pipes. -/
def inPipes (s : State P) : Nat := (s.buf .out).length + (s.buf .err).length + (s.buf .val).length

/-- How much the parent has still to do. -/
def todo (s : State P) : Nat := if reading s.stage then stageCost s + inPipes s else 0

theorem todo_parent (hs : step c s a = .ok s') (ha : parent a = true) : todo s' < todo s := by
  cases a with
  | run i => cases ha
  | kill i sig => cases ha
  | feed =>
    simp only [step] at hs
    split at hs
    · rename_i b rest hst
      split at hs
      · split at hs
        · simp only [Res.ok.injEq] at hs; subst hs
          simp [todo, hst, reading, stageCost, inPipes]
        · cases hs
      · simp only [Res.ok.injEq] at hs
        have := (kill_stage { s with stage := .panicked }).1
        rw [hs] at this
        simp only [todo, this, hst, reading, stageCost]
        simp
        omega
    · cases hs
  | cancel =>
    simp only [step] at hs
    split at hs
    · rename_i hst
      simp only [Res.ok.injEq] at hs
      have := (kill_stage { s with stage := .cancelled }).1
      rw [hs] at this
      simp only [todo, this, hst, reading, stageCost]
      have h1 := Bool.toNat_le (s.eof .out)
      have h2 := Bool.toNat_le (s.eof .err)
      have h3 := Bool.toNat_le (s.eof .val)
      have h4 := Bool.toNat_le s.reaped
      simp only [if_true]
      simp
      omega
    · cases hs
  | fed =>
    simp only [step] at hs
    split at hs
    · rename_i hst
      simp only [Res.ok.injEq] at hs; subst hs
      simp [todo, hst, reading, stageCost, inPipes]
    · cases hs
  | started =>
    simp only [step] at hs
    split at hs
    · rename_i hst
      simp only [Res.ok.injEq] at hs; subst hs
      simp only [todo, hst, reading, stageCost, inPipes, if_true]
      omega
    · cases hs
  | collect o =>
    simp only [step] at hs
    split at hs
    · rename_i b rest hst hb
      simp only [Res.ok.injEq] at hs; subst hs
      simp only [todo, hst, reading, stageCost, if_true]
      refine Nat.add_lt_add_left ?_ _
      cases o <;> simp [inPipes, hb] <;> omega
    · cases hs
  | eof o =>
    simp only [step] at hs
    split at hs
    · rename_i hst hb
      split at hs
      · rename_i hc
        simp only [Res.ok.injEq] at hs; subst hs
        simp only [Bool.and_eq_true, Bool.not_eq_true'] at hc
        have h1 := Bool.toNat_le (s.eof .out)
        have h2 := Bool.toNat_le (s.eof .err)
        have h3 := Bool.toNat_le (s.eof .val)
        have h4 := Bool.toNat_le s.reaped
        have h5 := hc.2
        simp only [todo, hst, reading, stageCost, inPipes, if_true]
        cases o <;> simp [h5] <;> omega
      · cases hs
    · cases hs
  | reap =>
    simp only [step] at hs
    split at hs
    · rename_i st hst hb
      split at hs
      · cases hs
      · rename_i hre
        simp only [Res.ok.injEq] at hs; subst hs
        have hre : s.reaped = false := by simpa using hre
        have h1 := Bool.toNat_le (s.eof .out)
        have h2 := Bool.toNat_le (s.eof .err)
        have h3 := Bool.toNat_le (s.eof .val)
        simp only [todo, hst, reading, stageCost, inPipes, if_true, hre, Bool.toNat_true, Bool.toNat_false]
        omega
    · cases hs
  | finish =>
    simp only [step] at hs
    split at hs
    · rename_i st hst hb
      split at hs
      · simp only [Res.ok.injEq] at hs; subst hs
        have h1 := Bool.toNat_le (s.eof .out)
        have h2 := Bool.toNat_le (s.eof .err)
        have h3 := Bool.toNat_le (s.eof .val)
        have h4 := Bool.toNat_le s.reaped
        simp only [todo, hst, reading, stageCost, if_true]
        simp
        omega
      · cases hs
    · cases hs

/-- Number of bytes this action writes to the pipes. -/
def wroteN (c : Cfg P) (s : State P) (a : Act) : Nat :=
  (wrote c s .out a).length + (wrote c s .err a).length + (wrote c s .val a).length

theorem todo_other (hs : step c s a = .ok s') (ha : parent a = false) : todo s' ≤ todo s + wroteN c s a := by
  cases a with
  | kill i sig =>
    simp only [step] at hs
    split at hs
    · simp only [Res.ok.injEq] at hs; subst hs
      exact Nat.le_add_right ..
    · cases hs
  | run i =>
    have hs0 := hs
    simp only [step] at hs
    split at hs
    · rename_i p hp
      simp only [runProc] at hs
      split at hs
      · rename_i o b next hop
        split at hs
        · rename_i hho
          simp only [Bool.and_eq_true] at hho
          split at hs
          · rename_i hre
            split at hs
            · simp only [Res.ok.injEq] at hs; subst hs
              have hw : wroteN c s (.run i) = 1 := by
                unfold wroteN
                simp only [wrote, hp, hop]
                cases o <;> simp [hho.1, hho.2, hre]
              have hb : inPipes (setProc i { p with state := next } { s with buf := fun x => if x = o then s.buf o ++ [b] else s.buf x }) = inPipes s + 1 := by
                cases o <;> simp [inPipes, setProc] <;> omega
              have hst : stageCost (setProc i { p with state := next } { s with buf := fun x => if x = o then s.buf o ++ [b] else s.buf x }) = stageCost s := rfl
              unfold todo
              rw [hw, hb, hst]
              simp only [setProc, hre, if_true]
              omega
            · cases hs
          · simp only [Res.ok.injEq] at hs; subst hs; exact Nat.le_add_right ..
        · simp only [Res.ok.injEq] at hs; subst hs; exact Nat.le_add_right ..
      all_goals
        repeat' split at hs
        all_goals first
          | (cases hs; done)
          | (simp only [Res.ok.injEq] at hs; subst hs; exact Nat.le_add_right ..)
    · cases hs
  | _ => cases ha

/-- Number of bytes written to the pipes in a run. -/
def writtenN (c : Cfg P) (s : State P) (as : List Act) : Nat :=
  (written c s .out as).length + (written c s .err as).length + (written c s .val as).length

theorem todo_runs (hr : Runs c s as s') : as.countP parent + todo s' ≤ todo s + writtenN c s as := by
  induction hr with
  | nil => simp [writtenN, written]
  | @cons s s1 s' a as hs _ ih =>
    have e : writtenN c s (a :: as) = wroteN c s a + writtenN c s1 as := by
      simp only [writtenN, written, hs, wroteN, List.length_append]
      omega
    rw [e, List.countP_cons]
    cases ha : parent a with
    | true =>
      have := todo_parent hs ha
      simp only [if_true]; omega
    | false =>
      have := todo_other hs ha
      simp only [Bool.false_eq_true, if_false]; omega

theorem todo_init (c : Cfg P) : todo (init c) ≤ (c.input.getD []).length + 8 := by
  unfold todo
  cases hi : c.input <;> simp [init, hi, reading, stageCost, inPipes]

end Verif.ChildIo
