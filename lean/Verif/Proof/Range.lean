import Verif.Proof.TrackerFizzle
import Verif.Props.Tracker

/-!
# The counters of the tracker stay below the number of tasks (for C176)
-/

namespace Verif.Tracker

variable {c : Cfg} {lf : LogFile} {now : Int} {s s' : State}

/-- Quick failures are failures. -/
def Quick (s : State) : Prop := s.nFizzled ≤ s.nFailed

theorem booked_quick {g : DiGraph Cmd} {e : Fin} {sn : Snap} (h : Quick s) : Quick (booked g s e sn) := by
  unfold Quick booked at *
  simp only
  cases e.status.isSuccess <;> cases fizzled s e.id <;> simp <;> omega

theorem writeLog_quick {x : LogEntry} (h : Quick s) (hs : writeLog s x = .ok s') : Quick s' := by
  obtain ⟨lf, _, rfl⟩ := writeLog_ok.1 hs
  exact h

theorem book1_quick {g : DiGraph Cmd} {e : Fin} (h : Quick s) (hs : book1 g s e = .ok s') : Quick s' := by
  obtain ⟨_, sn, _, _, rfl⟩ := book1_ok hs
  exact booked_quick h

theorem finishHalf_quick {t : SysTime} {e : Fin} (h : Quick s) (hs : finishHalf c t s e = .ok s') : Quick s' := by
  obtain ⟨lf, ⟨_, rfl⟩ | ⟨_, rfl⟩⟩ := finishHalf_cases hs <;> rw [finLogged_eq] <;> exact h

theorem drainLoop_quick (t : SysTime) : ∀ (es : List Event) (infl : List (Nat × Int)) (s : State) (r : State × List (Nat × Int)),
    Quick s → drainLoop c t es infl s = .ok r → Quick r.1
  | [], infl, s, r, h, hs => by
    simp only [drainLoop, Res.ok.injEq] at hs; subst hs; exact h
  | .started id _ _ _ :: es, infl, s, r, h, hs => by
    simp only [drainLoop] at hs
    obtain ⟨s1, h1, h2⟩ := Res.bind_ok.1 hs
    have h3 : Quick s1 := writeLog_quick (s := { s with chan := es }) h h1
    split at h2
    · cases h2
    · exact drainLoop_quick t es _ _ r h3 h2
  | .finished e :: es, infl, s, r, h, hs => by
    simp only [drainLoop] at hs
    obtain ⟨s1, h1, h2⟩ := Res.bind_ok.1 hs
    obtain ⟨s2, h3, h4⟩ := Res.bind_ok.1 h2
    obtain ⟨s3, h5, h6⟩ := Res.bind_ok.1 h4
    have k1 : Quick s1 := book1_quick (s := { s with chan := es }) h h1
    have k2 : Quick s2 := by
      split at h3
      · simp only [Res.ok.injEq] at h3; subst h3; exact k1
      · exact writeLog_quick k1 h3
    have k3 : Quick s3 := writeLog_quick k2 h5
    exact drainLoop_quick t es _ _ r (by exact k3) h6

theorem drainRest_quick (t : SysTime) : ∀ (vs : List Nat) (s s' : State), Quick s → drainRest c t vs s = .ok s' → Quick s'
  | [], s, s', h, hs => by simp only [drainRest, Res.ok.injEq] at hs; subst hs; exact h
  | v :: vs, s, s', h, hs => by
    simp only [drainRest] at hs
    obtain ⟨s1, h1, h2⟩ := Res.bind_ok.1 hs
    obtain ⟨s2, h3, h4⟩ := Res.bind_ok.1 h2
    have k2 := writeLog_quick (book1_quick h h1) h3
    exact drainRest_quick t vs _ s' (by exact k2) h4

theorem step_quick {a : Act} (h : Quick s) (hs : step c s a = .ok s') : Quick s' := by
  cases a with
  | recvStarted t =>
    simp only [step] at hs
    split at hs
    · cases hs
    · split at hs
      · obtain ⟨s1, h1, h2⟩ := Res.bind_ok.1 hs
        obtain ⟨lf, _, rfl⟩ := writeLog_ok.1 h1
        split at h2
        · cases h2
        · simp only [Res.ok.injEq] at h2; subst h2; exact h
      · cases hs
  | recvFinished order t =>
    simp only [step] at hs
    split at hs
    · cases hs
    · split at hs
      · rename_i e rest hch
        obtain ⟨sn, um, po, _, h1 | ⟨vs, _, _, h1⟩⟩ := handleFinished_cases hs
        · have k := booked_quick (g := c.g) (e := e) (sn := sn) (s := { s with chan := rest, processed := s.processed ++ [(e.id, e.status)] }) h
          exact finishHalf_quick (by exact k) h1
        · obtain ⟨_, _, _, _, rfl⟩ := addReady_ok h1
          exact booked_quick (g := c.g) (e := e) (sn := sn) (s := { s with chan := rest, processed := s.processed ++ [(e.id, e.status)] }) h
      · cases hs
  | begin order t =>
    simp only [step] at hs
    split at hs
    · cases hs
    · split at hs
      · cases hs
      · split at hs
        · simp only [Res.ok.injEq] at hs; subst hs; exact h
        · obtain ⟨_, _, _, _, rfl⟩ := addReady_ok hs; exact h
  | sendDone t =>
    simp only [step] at hs
    split at hs
    · split at hs
      · simp only [Res.ok.injEq] at hs; subst hs; exact h
      · exact finishHalf_quick (by exact h) hs
    · cases hs
  | drain order t =>
    simp only [step] at hs
    split at hs
    · cases hs
    · unfold drain at hs
      obtain ⟨r, h1, h2⟩ := Res.bind_ok.1 hs
      have k1 := drainLoop_quick t _ _ _ r h h1
      split at h2
      · cases h2
      · obtain ⟨s2, h3, h4⟩ := Res.bind_ok.1 h2
        simp only [Res.ok.injEq] at h4; subst h4
        have k2 := drainRest_quick t _ _ s2 (by exact k1) h3
        exact k2
  | tick d => simp only [step, Res.ok.injEq] at hs; subst hs; exact h
  | trigger => simp only [step, Res.ok.injEq] at hs; subst hs; exact h
  | cancel k => simp only [step, Res.ok.injEq] at hs; subst hs; exact h
  | _ =>
    simp only [step] at hs
    repeat' split at hs
    all_goals first
      | (cases hs; done)
      | (simp only [Res.ok.injEq] at hs; subst hs; exact h)

theorem Reachable.quick (hr : Reachable c lf now s) : Quick s := by
  obtain ⟨as, hr⟩ := hr
  refine Runs.snocInd (P := fun _ s => Quick s) ?_ ?_ hr
  · exact Nat.le_refl 0
  · intro as s a s1 _ ih _ hs
    exact step_quick ih hs

end Verif.Tracker

namespace Verif
theorem countP_disjoint {α : Type} {l : List α} {p q : α → Bool} (h : ∀ x, p x = true → q x = true → False) :
    l.countP p + l.countP q ≤ l.length := by
  induction l with
  | nil => simp
  | cons a l ih =>
    simp only [List.countP_cons, List.length_cons]
    cases hp : p a with
    | false => cases q a <;> simp <;> omega
    | true =>
      have : q a = false := by
        cases hq : q a with
        | false => rfl
        | true => exact (h a hp hq).elim
      rw [this]; simp; omega

/-- A walk that ends in `v` is not longer than what is before `v` in a topological order. -/
theorem walk_le_position {α : Type} {g : DiGraph α} {order : List Nat} (ht : g.Topo order) {k u v : Nat} (h : g.Walk k u v) :
    ∀ a b, order = a ++ v :: b → k ≤ a.length := by
  induction h with
  | nil u => intro a b _; exact Nat.zero_le _
  | @snoc k u x w hw hd ih =>
    intro a b he
    obtain ⟨a1, a2, rfl⟩ := List.append_of_mem (ht.before a w b he x hd)
    have := ih a1 (a2 ++ w :: b) (by rw [he]; simp)
    simp only [List.length_append, List.length_cons]
    omega
end Verif
