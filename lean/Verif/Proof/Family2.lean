import Verif.Proof.Family

/-!
# Local loops together with their processes: reports, and the work to be done
-/

namespace Verif.Family
open Verif Verif.Tracker

variable {P : Type} {c : Cfg P} {lf : LogFile} {now : Int} {s s' : State P} {a : Act} {as : List Act}

/-! ### reports -/

theorem Did.more {s0 : State P} {i v : Nat} {hist : List ChildIo.Act} (h : Did c s0 as i v hist) (bs : List Act) :
    Did c s0 (as ++ bs) i v hist := by
  obtain ⟨pre, mid, post, s1, rfl, h2⟩ := h
  exact ⟨pre, mid, post ++ bs, s1, by simp, h2⟩

theorem Ran.more {s0 : State P} {v : Nat} {st : Fd3.ProcStatus} {bytes : List UInt8} (h : Ran c s0 as v st bytes) (bs : List Act) :
    Ran c s0 (as ++ bs) v st bytes := by
  obtain ⟨i, hist, s1, h1, h2⟩ := h
  exact ⟨i, hist, s1, h1.more bs, h2⟩

theorem collect_sys {β : Type} {f : Sys.State → Sys.Act → List β} (hr : Runs c (init c lf now) as s) (bs : List Sys.Act) :
    Sys.collect f c.sys (Sys.init c.sys lf now) (sysActs as ++ bs) =
      Sys.collect f c.sys (Sys.init c.sys lf now) (sysActs as) ++ Sys.collect f c.sys s.sys bs :=
  Sys.collect_append (Runs.sys hr)

/-- What the loop hands over as output is what the child and its descendants did. -/
theorem output_ran (hr : Runs c (init c lf now) as s) {v : Nat} {code : Int} {values : List (List (String × String))}
    (h : (v, code, values) ∈ Sys.collect Sys.outputs c.sys (Sys.init c.sys lf now) (sysActs as)) :
    ∃ st bytes, Ran c (init c lf now) as v st bytes ∧ Fd3.code st = .code code ∧ values = Fd3.fd3Values ⟨bytes.toArray⟩ := by
  revert h
  refine Runs.snocInd (Q := fun as s => (v, code, values) ∈ Sys.collect Sys.outputs c.sys (Sys.init c.sys lf now) (sysActs as) →
    ∃ st bytes, Ran c (init c lf now) as v st bytes ∧ Fd3.code st = .code code ∧ values = Fd3.fd3Values ⟨bytes.toArray⟩) ?_ ?_ hr
  · intro h; cases h
  · intro as s a s' hr ih _ hs h
    have old : (v, code, values) ∈ Sys.collect Sys.outputs c.sys (Sys.init c.sys lf now) (sysActs as) →
        ∃ st bytes, Ran c (init c lf now) (as ++ [a]) v st bytes ∧ Fd3.code st = .code code ∧
          values = Fd3.fd3Values ⟨bytes.toArray⟩ := by
      intro h
      obtain ⟨st, bytes, h1, h2⟩ := ih h
      exact ⟨st, bytes, h1.more _, h2⟩
    rw [sysActs_append] at h
    cases a with
    | kid i b => simp only [sysActs, List.append_nil] at h; exact old h
    | sys b =>
      have hc : Sys.collect Sys.outputs c.sys (Sys.init c.sys lf now) (sysActs as ++ [b]) =
          Sys.collect Sys.outputs c.sys (Sys.init c.sys lf now) (sysActs as) ++ Sys.outputs s.sys b := Sys.collect_snoc (Runs.sys hr)
      rw [show sysActs [Act.sys b] = [b] from rfl, hc] at h
      rcases List.mem_append.1 h with h | h
      · exact old h
      · cases b with
        | loopOutput i co va =>
          simp only [Sys.outputs] at h
          split at h
          · rename_i w x hl
            simp only [List.mem_singleton, Prod.mk.injEq] at h
            obtain ⟨rfl, rfl, rfl⟩ := h
            have hs : withKid c s (.loopOutput i code values) i .finish (reports code values) = .ok s' := hs
            obtain ⟨k, st, t, h1, h2, h3, _, rfl⟩ := withKid_ok.1 hs
            have hl2 := (tied hr).2 i _ hl
            rw [h1] at hl2
            obtain ⟨st0, hist, e, h4, h5, _⟩ := hl2
            cases e
            have hrun := h5.snoc h2
            unfold reports at h3
            simp only at h3
            split at h3
            · rename_i pst bytes hst
              obtain ⟨i1, _, i2, i3⟩ := hrun.inv.ended pst bytes hst
              have h3 := of_decide_eq_true h3
              simp only [ChildIo.report, Fd3.toEvent, Tracker.Fin.mk.injEq, true_and, and_true] at h3
              refine ⟨pst, _, ⟨i, hist ++ [.finish], st, ?_, hrun, i1, rfl, i3 .val ?_⟩, h3.1, ?_⟩
              · have := (h4.snoc (a := .sys (.loopOutput i code values)) rfl).did []
                simpa [kidAct] using this
              · simp [childCfg]
              · rw [← h3.2, i2 .val]
            · cases h3
          · cases h
        | _ => cases h

/-! ### the work of a family of processes -/

/-- What the processes have still to do. -/
def ranks (rank : P → Nat) (l : List (ChildIo.Proc P)) : Nat := (l.map (fun p => rank p.state)).sum

theorem ranks_set {rank : P → Nat} {l : List (ChildIo.Proc P)} {i : Nat} {p q : ChildIo.Proc P} (h : l[i]? = some p) :
    ranks rank (l.set i q) + rank p.state = ranks rank l + rank q.state := by
  unfold ranks
  induction l generalizing i with
  | nil => simp at h
  | cons x l ih =>
    cases i with
    | zero =>
      simp only [List.getElem?_cons_zero, Option.some.injEq] at h
      subst h
      simp only [List.set_cons_zero, List.map_cons, List.sum_cons]; omega
    | succ i =>
      simp only [List.getElem?_cons_succ] at h
      have := ih h
      simp only [List.set_cons_succ, List.map_cons, List.sum_cons]; omega

theorem ranks_erase {rank : P → Nat} {l : List (ChildIo.Proc P)} {i : Nat} {p : ChildIo.Proc P} (h : l[i]? = some p) :
    ranks rank (l.eraseIdx i) + rank p.state = ranks rank l := by
  unfold ranks
  induction l generalizing i with
  | nil => simp at h
  | cons x l ih =>
    cases i with
    | zero =>
      simp only [List.getElem?_cons_zero, Option.some.injEq] at h
      subst h
      simp only [List.eraseIdx_cons_zero, List.map_cons, List.sum_cons]; omega
    | succ i =>
      simp only [List.getElem?_cons_succ] at h
      have := ih h
      simp only [List.eraseIdx_cons_succ, List.map_cons, List.sum_cons]; omega

theorem ranks_append {rank : P → Nat} (l r : List (ChildIo.Proc P)) : ranks rank (l ++ r) = ranks rank l + ranks rank r := by
  simp [ranks]

/-- Bytes of the input that are not yet read. -/
def unread (st : ChildIo.State P) : Nat :=
  st.inBuf.length + match st.stage with | .feeding rest => rest.length | _ => 0

/-- All there is to do for a task. -/
def work (k : Nat) (rank : P → Nat) (st : ChildIo.State P) : Nat :=
  2 * ranks rank st.procs + 2 * (k + 1) * unread st + ChildIo.todo st

theorem ranks_kill (rank : P → Nat) (st : ChildIo.State P) : ranks rank (ChildIo.killChild st).procs ≤ ranks rank st.procs ∧
    (ChildIo.killChild st).inBuf = st.inBuf := by
  unfold ChildIo.killChild
  split
  · rename_i i hi
    refine ⟨?_, rfl⟩
    have hlt : i < st.procs.length := (List.findIdx?_eq_some_iff_getElem.1 hi).1
    have := ranks_erase (rank := rank) (List.getElem?_eq_getElem hlt)
    simp only; omega
  · exact ⟨Nat.le_refl _, rfl⟩

theorem work_kill {k : Nat} {rank : P → Nat} {st : ChildIo.State P} {x : ChildIo.Stage} (hx : ChildIo.reading x = false) :
    work k rank (ChildIo.killChild { st with stage := x }) ≤ 2 * ranks rank st.procs + 2 * (k + 1) * unread st := by
  obtain ⟨h1, h2⟩ := ranks_kill rank { st with stage := x }
  have h3 := (ChildIo.kill_stage { st with stage := x }).1
  have h4 : ChildIo.todo (ChildIo.killChild { st with stage := x }) = 0 := by
    unfold ChildIo.todo; rw [h3, hx]; rfl
  have h5 : unread (ChildIo.killChild { st with stage := x }) ≤ unread st := by
    unfold unread
    rw [h2, h3]
    cases x <;> first | (cases hx; done) | simp
  unfold work
  rw [h4]
  have := Nat.mul_le_mul_left (2 * (k + 1)) h5
  simp only at h1
  omega

/-- Steps of the loop and of the processes make the work less. -/
theorem work_step {cc : ChildIo.Cfg P} {k : Nat} {rank : P → Nat} (he : Ends cc.op k rank) {st st' : ChildIo.State P} {b : ChildIo.Act}
    (hs : ChildIo.step cc st b = .ok st') : work k rank st' + (!ChildIo.isKill b).toNat ≤ work k rank st := by
  cases hp : ChildIo.parent b with
  | true =>
    have ht := ChildIo.todo_parent hs hp
    have hk : (!ChildIo.isKill b).toNat = 1 := by cases b <;> first | rfl | cases hp
    rw [hk]
    have main : ranks rank st'.procs ≤ ranks rank st.procs ∧ unread st' ≤ unread st → work k rank st' + 1 ≤ work k rank st := by
      rintro ⟨h1, h2⟩
      unfold work
      have := Nat.mul_le_mul_left (2 * (k + 1)) h2
      omega
    cases b with
    | run i => cases hp
    | kill i sig => cases hp
    | feed =>
      simp only [ChildIo.step] at hs
      split at hs
      · rename_i hst
        split at hs
        · split at hs
          · cases hs
            refine main ⟨Nat.le_refl _, ?_⟩
            unfold unread
            rw [hst]; simp; omega
          · cases hs
        · simp only [Res.ok.injEq] at hs
          have h1 := work_kill (k := k) (rank := rank) (st := st) (x := .panicked) rfl
          rw [hs] at h1
          have : 0 < ChildIo.todo st := by omega
          unfold work at h1 ⊢
          omega
      · cases hs
    | cancel =>
      simp only [ChildIo.step] at hs
      split at hs
      · simp only [Res.ok.injEq] at hs
        have h1 := work_kill (k := k) (rank := rank) (st := st) (x := .cancelled) rfl
        rw [hs] at h1
        have : 0 < ChildIo.todo st := by omega
        unfold work at h1 ⊢
        omega
      · cases hs
    | _ =>
      simp only [ChildIo.step] at hs
      repeat' split at hs
      all_goals first
        | (cases hs; done)
        | (cases hs; refine main ⟨Nat.le_refl _, ?_⟩; unfold unread; simp_all)
  | false =>
    have ht := ChildIo.todo_other hs hp
    cases b with
    | kill i sig =>
      have hw : ChildIo.wroteN cc st (.kill i sig) = 0 := rfl
      rw [hw] at ht
      simp only [ChildIo.step] at hs
      split at hs
      · rename_i p hpi
        cases hs
        have := ranks_erase (rank := rank) hpi
        have hu : unread (ChildIo.endProc i p (.signaled sig) st) = unread st := rfl
        have hr : (ChildIo.endProc i p (.signaled sig) st).procs = st.procs.eraseIdx i := rfl
        simp only [ChildIo.isKill, Bool.not_true, Bool.toNat_false]
        unfold work
        rw [hu, hr]
        omega
      · cases hs
    | run i =>
      simp only [ChildIo.isKill, Bool.not_false, Bool.toNat_true]
      have hw0 : ∀ p, st.procs[i]? = some p → (∀ o b n, cc.op p.state ≠ .put o b n) → ChildIo.wroteN cc st (.run i) = 0 := by
        intro p hpi hno
        simp only [ChildIo.wroteN, ChildIo.wrote, hpi]
        cases hop : cc.op p.state <;> first | rfl | exact absurd hop (hno _ _ _)
      have hw1 : ChildIo.wroteN cc st (.run i) ≤ 1 := by
        simp only [ChildIo.wroteN, ChildIo.wrote]
        cases hpi : st.procs[i]? with
        | none => simp
        | some p =>
          simp only
          cases hop : cc.op p.state with
          | put o b n => cases o <;> simp <;> split <;> simp
          | _ => simp
      simp only [ChildIo.step] at hs
      split at hs
      · rename_i p hpi
        have hp' := he p.state
        have set := fun q : ChildIo.Proc P => ranks_set (rank := rank) (q := q) hpi
        have del := ranks_erase (rank := rank) hpi
        simp only [ChildIo.runProc] at hs
        split at hs
        · rename_i o b n ho
          rw [ho] at hp'
          simp only at hp'
          have fin : ∀ st2 : ChildIo.State P, ranks rank st2.procs + 1 ≤ ranks rank st.procs → unread st2 = unread st →
              ChildIo.todo st2 ≤ ChildIo.todo st + ChildIo.wroteN cc st (.run i) → work k rank st2 + 1 ≤ work k rank st := by
            intro st2 h1 h2 h3
            unfold work; rw [h2]; omega
          have s1 := set { p with state := n }
          repeat' split at hs
          all_goals first
            | (cases hs; done)
            | (cases hs
               refine fin _ ?_ rfl ht
               simp only [ChildIo.setProc, ChildIo.endProc] at s1 ⊢
               omega)
        · rename_i n ho
          rw [ho] at hp'
          simp only at hp'
          have w := hw0 p hpi (by rw [ho]; intros; simp)
          rw [w] at ht
          split at hs
          · split at hs
            · rename_i b rest hb
              cases hs
              have s1 := set { p with state := n (some b) }
              have h2 := hp'.1 b
              have hu : unread st = unread (ChildIo.setProc i { p with state := n (some b) } { st with inBuf := rest }) + 1 := by
                simp only [unread, ChildIo.setProc, hb, List.length_cons]; omega
              unfold work
              rw [hu, Nat.mul_add (2 * (k + 1))]
              simp only [ChildIo.setProc] at s1 ht ⊢
              omega
            · split at hs
              · cases hs
              · cases hs
                have s1 := set { p with state := n none }
                have hu : unread (ChildIo.setProc i { p with state := n none } st) = unread st := rfl
                unfold work
                rw [hu]
                simp only [ChildIo.setProc] at s1 ht ⊢
                omega
          · cases hs
            have s1 := set { p with state := n none }
            have hu : unread (ChildIo.setProc i { p with state := n none } st) = unread st := rfl
            unfold work
            rw [hu]
            simp only [ChildIo.setProc] at s1 ht ⊢
            omega
        all_goals
          rename_i ho
          rw [ho] at hp'
          simp only at hp'
          have w := hw0 p hpi (by rw [ho]; intros; simp)
          rw [w] at ht
          cases hs
        · rename_i o n
          have s1 := set { p with state := n, holds := fun x => if x = o then false else p.holds x }
          unfold work unread
          simp only [ChildIo.setProc] at s1 ht ⊢
          omega
        · have s1 := set { p with state := ‹P›, input := false }
          unfold work unread
          simp only [ChildIo.setProc] at s1 ht ⊢
          omega
        · rename_i n o
          have s1 := set { p with state := n }
          unfold work unread
          simp only [ranks_append] at s1 ht ⊢
          have : ranks rank [{ p with state := o, child := false }] = rank o := by simp [ranks]
          rw [this]
          omega
        · have s1 := set { p with state := ‹P› }
          unfold work unread
          simp only [ChildIo.setProc] at s1 ht ⊢
          omega
        · unfold work unread
          simp only [ChildIo.endProc] at del ht ⊢
          omega
      · cases hs
    | _ => cases hp

end Verif.Family
