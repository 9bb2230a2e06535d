import Verif.Proof.Family3
import Verif.Proof.ChildIo3
import Verif.Proof.Terminate2

/-!
# Local loops together with their processes: when something can happen
-/

namespace Verif.Family
open Verif Verif.Tracker

variable {P : Type} {c : Cfg P} {lf : LogFile} {now : Int} {s s' : State P} {a : Act} {as : List Act}

/-- Something inside can happen, other than a panic of a loop. -/
def Able (c : Cfg P) (s : State P) : Prop := ∃ a s', internal a = true ∧ isDie a = false ∧ step c s a = .ok s'

theorem kid_ok {i : Nat} {k : Kid P} {b : ChildIo.Act} {st : ChildIo.State P} (hp : private_ b = true) (hk : kidOf s i = some k)
    (hst : ChildIo.step (childCfg c i k.task) k.st b = .ok st) (hn : st.stage ≠ .panicked) : ∃ s', step c s (.kid i b) = .ok s' := by
  have : panicked (⟨k.task, st⟩ : Kid P) = false := by
    unfold panicked
    cases h : st.stage <;> first | rfl | exact absurd h hn
  exact ⟨⟨s.sys, s.kids.set i (some ⟨k.task, st⟩)⟩, by simp only [step, if_pos hp, hk, hst, this, Bool.false_and, Bool.false_eq_true, if_false]⟩

theorem kid_internal {i : Nat} {b : ChildIo.Act} (h : ChildIo.outside b = false) : internal (.kid i b) = true := by
  cases b <;> first | rfl | cases h

/-- A process that runs: it, or the loop, can go on. -/
theorem running_able (hcap : 1 ≤ c.cap) (hr : Runs c (init c lf now) as s) {i v : Nat} {x : Int}
    (hl : s.sys.loops[i]? = some (.running v x)) : Able c s := by
  obtain ⟨st, hist, hk, _, hrun, hst⟩ := (tied hr).2 i _ hl
  have hst : st.stage = .waiting := hst
  obtain ⟨b, st', hb, hs⟩ := ChildIo.waiting_able (c := childCfg c i v) hcap hrun.inv hst
  by_cases hp : private_ b = true
  · have h1 : st'.stage ≠ .panicked := by
      intro hpan
      cases b with
      | feed => simp [ChildIo.step, hst] at hs
      | run j => rw [(ChildIo.stage_run hs).1, hst] at hpan; cases hpan
      | kill j sig => cases hb
      | started => cases hp
      | finish => cases hp
      | cancel => cases hp
      | fed => simp [ChildIo.step, hst] at hs
      | collect o =>
        simp only [ChildIo.step] at hs
        split at hs
        · cases hs; simp only [hst] at hpan; cases hpan
        · cases hs
      | eof o =>
        simp only [ChildIo.step] at hs
        split at hs
        · split at hs
          · cases hs; simp only [hst] at hpan; cases hpan
          · cases hs
        · cases hs
      | reap =>
        simp only [ChildIo.step] at hs
        split at hs
        · split at hs
          · cases hs
          · cases hs; simp only [hst] at hpan; cases hpan
        · cases hs
    obtain ⟨s', h2⟩ := kid_ok (c := c) (k := ⟨v, st⟩) hp hk hs h1
    exact ⟨.kid i b, s', kid_internal hb, rfl, h2⟩
  · cases b with
    | started => simp [ChildIo.step, hst] at hs
    | cancel => cases hb
    | finish =>
      have hend : ∃ q bytes, st'.stage = .ended q bytes := by
        simp only [ChildIo.step] at hs
        split at hs
        · split at hs
          · cases hs; exact ⟨_, _, rfl⟩
          · cases hs
        · cases hs
      obtain ⟨q, bytes, hq⟩ := hend
      have hcode : ∃ code, Fd3.code q = .code code := by cases q <;> exact ⟨_, rfl⟩
      obtain ⟨code, hc⟩ := hcode
      have hrep : ChildIo.report v q bytes = ⟨v, .code code, (ChildIo.report v q bytes).values, none⟩ := by
        rw [← hc]; rfl
      refine ⟨.sys (.loopOutput i code (ChildIo.report v q bytes).values), ⟨Sys.setLoop i (.ended v code (ChildIo.report v q bytes).values) s.sys, s.kids.set i (some ⟨v, st'⟩)⟩, rfl, rfl, ?_⟩
      show withKid c s _ i .finish _ = _
      refine withKid_ok.2 ⟨⟨v, st⟩, st', _, hk, hs, ?_, ?_, rfl⟩
      · simp only [reports, hq]
        exact decide_eq_true hrep
      · simp only [Sys.step, hl]
    | _ => exact absurd rfl hp

/-- While `execute` has not returned, something can happen, or a loop cannot get rid of the input of a task. -/
theorem able_or_jammed (hg : Good c.sys.tr) (hdisp : Displayable c.sys.tr) (hrun : Sys.LocallyRunnable c.sys)
    (hord : Ordered c.sys.tr) (hne : c.sys.tr.g.n ≠ 0) (hpar : c.sys.numParallel ≠ 0) (hl : c.sys.remote = false) (hcap : 1 ≤ c.cap)
    (hr : Runs c (init c lf now) as s) (ha : ∀ a ∈ as, isTrigger a = false ∧ isDie a = false) (hpc : s.sys.tr.pc ≠ .done) :
    Able c s ∨ ∃ i, Jammed c s i := by
  have hsa : ∀ a ∈ sysActs as, Sys.isTrigger a = false ∧ Sys.isDie a = false := by
    intro b hb
    have : ∀ as : List Act, b ∈ sysActs as → Act.sys b ∈ as := by
      intro as
      induction as with
      | nil => intro h; cases h
      | cons x as ih =>
        intro h
        cases x with
        | sys y =>
          rcases List.mem_cons.1 h with rfl | h
          · exact List.mem_cons_self
          · exact List.mem_cons_of_mem _ (ih h)
        | kid j y => exact List.mem_cons_of_mem _ (ih h)
    exact ha _ (this as hb)
  have hcalm := (Sys.Calmly.init (now := now) (lf := lf) hl).runs hg (Runs.sys hr) hsa
  rcases Sys.Calmly.able hg hdisp hrun hord hne hpar hcalm hpc with ⟨b, t, hb, ht⟩ | ⟨_, v, x, hm⟩
  · obtain ⟨hbi, hbd⟩ := Sys.internal_of_own hb
    have lift : step c s (.sys b) = alone c s b → Able c s := fun e =>
      ⟨.sys b, ⟨t, s.kids⟩, hbi, hbd, by rw [e]; exact alone_ok.2 ⟨t, ht, rfl⟩⟩
    have stop : ∀ i v x, s.sys.loops[i]? = some (.running v x) → ∀ b', (b' = .loopSoft i ∨ b' = .loopHard i) → b = b' → Able c s :=
      fun i v x h _ _ _ => running_able hcap hr h
    cases b with
    | loopOutput i code values => cases hb
    | loopDie i => cases hb
    | loopSpawn i ok =>
      cases ok with
      | false => exact .inl (lift rfl)
      | true =>
        left
        cases hi : s.sys.loops[i]? with
        | none => simp [Sys.step, hi] at ht
        | some l =>
          cases l with
          | got v =>
            refine ⟨.sys (.loopSpawn i true), ⟨t, s.kids.set i (some ⟨v, ChildIo.init (childCfg c i v)⟩)⟩, rfl, rfl, ?_⟩
            simp only [step, hi]
            exact both_ok.2 ⟨t, ht, rfl⟩
          | _ => simp [Sys.step, hi] at ht
    | loopSoft i =>
      left
      simp only [Sys.step] at ht
      split at ht
      · rename_i h1 h2; exact running_able hcap hr h1
      · cases ht
    | loopHard i =>
      left
      simp only [Sys.step] at ht
      split at ht
      · rename_i h1 h2; exact running_able hcap hr h1
      · cases ht
    | loopStarted i host pid =>
      cases hi : s.sys.loops[i]? with
      | none => simp [Sys.step, hi] at ht
      | some l =>
        cases l with
        | spawned v x =>
          obtain ⟨st, hist, hk, _, hrn, hst⟩ := (tied hr).2 i _ hi
          rcases hst with hw | hw
          · have hst : ∃ rest, st.stage = .feeding rest := by
              cases hx : st.stage <;> rw [hx] at hw <;> first | exact ⟨_, rfl⟩ | cases hw
            obtain ⟨rest, hst⟩ := hst
            cases rest with
            | nil =>
              left
              obtain ⟨s', h⟩ := kid_ok (c := c) (s := s) (k := ⟨v, st⟩) (b := .fed) (st := { st with stage := .starting }) rfl hk
                (by simp only [ChildIo.step, hst]) (by simp)
              exact ⟨_, s', rfl, rfl, h⟩
            | cons b rest =>
              by_cases hin : st.procs.any (·.input) = true
              · by_cases hab : ChildIo.Able (childCfg c i v) st
                · left
                  obtain ⟨b', st', hb', hs'⟩ := hab
                  have hpriv : private_ b' = true := by
                    cases b' <;> first | rfl | (simp [ChildIo.step, hst] at hs'; done) | cases hb'
                  have hnp : st'.stage ≠ .panicked := by
                    intro hp
                    cases b' with
                    | feed =>
                      simp only [ChildIo.step, hst, hin, if_true] at hs'
                      split at hs'
                      · cases hs'; cases hp
                      · cases hs'
                    | run j => rw [(ChildIo.stage_run hs').1, hst] at hp; cases hp
                    | kill j sig => cases hb'
                    | _ => simp [ChildIo.step, hst] at hs'
                  obtain ⟨s', h⟩ := kid_ok (c := c) (s := s) (k := ⟨v, st⟩) hpriv hk hs' hnp
                  exact ⟨_, s', kid_internal hb', rfl, h⟩
                · right
                  obtain ⟨_, _, h3, h4⟩ := (ChildIo.stuck_iff (c := childCfg c i v) hcap hrn.inv (by rw [hst]; rfl)).1 hab
                  exact ⟨i, v, x, st, b, rest, hi, hk, hst, .inr ⟨h3, h4⟩⟩
              · right
                refine ⟨i, v, x, st, b, rest, hi, hk, hst, .inl ?_⟩
                intro p hp
                cases hpi : p.input with
                | false => rfl
                | true => exact absurd (List.any_eq_true.2 ⟨p, hp, hpi⟩) hin
          · left
            refine ⟨.sys (.loopStarted i host pid), ⟨t, s.kids.set i (some ⟨v, { st with stage := .waiting }⟩)⟩, rfl, rfl, ?_⟩
            simp only [step, hi]
            exact withKid_ok.2 ⟨⟨v, st⟩, _, t, hk, by simp only [ChildIo.step, hw], rfl, ht, rfl⟩
        | failing v => exact .inl (lift (by simp only [step, hi]))
        | _ => simp [Sys.step, hi] at ht
    | _ => exact .inl (lift rfl)
  · obtain ⟨i, hi⟩ := List.getElem?_of_mem hm
    exact .inl (running_able hcap hr hi)

theorem since_kill {i v : Nat} {hist : List ChildIo.Act} {s0 : State P} (h : Since c s0 as i v hist)
    (ha : ∀ a ∈ as, isKill a = false) : ∀ b ∈ hist, ChildIo.isKill b = false := by
  obtain ⟨pre, mid, s1, rfl, _, _, _, rfl⟩ := h
  intro b hb
  obtain ⟨x, hx, hbx⟩ := List.mem_flatMap.1 hb
  have hk := ha x (by simp [hx])
  cases x with
  | kid j y =>
    simp only [kidAct] at hbx
    split at hbx
    · rw [List.mem_singleton.1 hbx]
      cases y <;> first | rfl | cases hk
    · simp at hbx
  | sys y =>
    cases y <;> simp only [kidAct] at hbx <;>
      first
        | (simp at hbx; done)
        | (split at hbx
           · rw [List.mem_singleton.1 hbx]; rfl
           · simp at hbx)

/-- Tasks which read an input that fits into the pipe are never in the way. -/
theorem not_jammed (hg : Good c.sys.tr)
    (hin : InputsRead c)
    (hr : Runs c (init c lf now) as s) (ha : ∀ a ∈ as, isKill a = false) (i : Nat) : ¬ Jammed c s i := by
  rintro ⟨v, x, st, b, rest, hi, hk, hst, hor⟩
  obtain ⟨st', hist, hk', hsince, hrn, _⟩ := (tied hr).2 i _ hi
  rw [hk] at hk'; cases hk'
  obtain ⟨bytes, hb, hlen⟩ := ChildIo.input_left hrn _ hst
  obtain ⟨d, hd⟩ : ∃ d, (cmdOf c.sys.tr.g v).fdInput = some (d, bytes) := by
    have : ((cmdOf c.sys.tr.g v).fdInput.map (·.2)) = some bytes := hb
    cases hf : (cmdOf c.sys.tr.g v).fdInput with
    | none => rw [hf] at this; cases this
    | some y => rw [hf] at this; simp only [Option.map_some, Option.some.injEq] at this; exact ⟨y.1, by rw [← this]⟩
  have hvn : v < c.sys.tr.g.n := by
    obtain ⟨pre, mid, s1, _, h2, h3, _⟩ := hsince
    exact got_lt hg (Runs.sys h2) h3
  obtain ⟨hfit, R, hR, hR0⟩ := hin v d bytes hvn hd
  have hR' : ChildIo.ReadsAll (childCfg c i v) R := hR
  rcases hor with hno | ⟨hfull, _⟩
  · obtain ⟨p, hp, _, hpi⟩ := (ChildIo.reader_stays hR' hR0 hrn (since_kill hsince ha)).2 (by rw [hst]; rfl)
    rw [hno p hp] at hpi; cases hpi
  · simp only [List.length_cons] at hlen
    omega

end Verif.Family
