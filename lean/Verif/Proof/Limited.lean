import Verif.Spec.Limited
import Verif.Proof.System2
import Verif.Proof.System4
import Verif.Proof.Gcra

/-!
# Launch rate of an `execute` (proof)
-/

namespace Verif.Limited
open Verif Verif.Tracker Verif.Sys

variable {c : Sys.Cfg}

theorem countP_set' {α : Type} (p : α → Bool) {y : α} : ∀ {l : List α} {i : Nat} {x : α}, l[i]? = some x →
    (l.set i y).countP p + (p x).toNat = l.countP p + (p y).toNat
  | [], _, _, h => by simp at h
  | z :: l, 0, x, h => by
    simp only [List.getElem?_cons_zero, Option.some.injEq] at h
    subst h
    simp only [List.set_cons_zero, List.countP_cons]
    cases p z <;> cases p y <;> simp
  | z :: l, i + 1, x, h => by
    simp only [List.getElem?_cons_succ] at h
    have := countP_set' p (y := y) h
    simp only [List.set_cons_succ, List.countP_cons]
    omega

/-- Nobody comes to wait for a task without a permit, and who is handed a task no longer waits. -/
theorem holding_step {s s' : Sys.State} {a : Sys.Act} (hs : Sys.step c s a = .ok s') :
    holding s' + (handsOut (.sys a)).toNat ≤ holding s + (asksPermit a).toNat := by
  have hl := step_loops hs
  have hh := step_handlers hs
  unfold holding
  have hL : (∃ i k, a = .loopGot i k) ∨ (s'.loops.countP loopHolds ≤ s.loops.countP loopHolds) ∨
      ∃ i, a = .loopRecv i ∧ s'.loops.countP loopHolds ≤ s.loops.countP loopHolds + 1 := by
    rcases hl with ⟨h, _⟩ | ⟨i, l, l', o, h1, h2, h3, _⟩
    · rw [h]; exact .inr (.inl (Nat.le_refl _))
    · have := countP_set' loopHolds (y := l') h1
      rw [h2]
      cases h3 <;> first
        | exact .inl ⟨_, _, rfl⟩
        | (refine .inr (.inr ⟨_, rfl, ?_⟩); rcases ‹_ = Loop.inRecv ∨ _› with rfl | rfl <;> simp only [loopHolds, Bool.toNat_true, Bool.toNat_false] at this <;> omega)
        | (refine .inr (.inl ?_); simp only [loopHolds, Bool.toNat_true, Bool.toNat_false] at this; omega)
  have hH : (∃ i k, a = .hGot i k) ∨ (s'.handlers.countP reqHolds ≤ s.handlers.countP reqHolds) ∨
      ∃ i, a = .hRecv i ∧ s'.handlers.countP reqHolds ≤ s.handlers.countP reqHolds + 1 := by
    rcases hh with h | ⟨r, x, _, h, h3⟩ | ⟨h, x, x', h1, h2, h3⟩
    · rw [h]; exact .inr (.inl (Nat.le_refl _))
    · rw [h]
      refine .inr (.inl ?_)
      cases h3 <;> simp [List.countP_append, reqHolds]
    · have := countP_set' reqHolds (y := x') h1
      rw [h2]
      cases h3 <;> first
        | exact .inl ⟨_, _, rfl⟩
        | (refine .inr (.inr ⟨_, rfl, ?_⟩); simp only [reqHolds, Bool.toNat_true, Bool.toNat_false] at this; omega)
        | (refine .inr (.inl ?_); simp only [reqHolds, Bool.toNat_true, Bool.toNat_false] at this; omega)
  rcases hL with ⟨i, k, rfl⟩ | hL | ⟨i, rfl, hL⟩
  · have e : s'.handlers = s.handlers := by
      rcases hh with h | ⟨r, x, h, _⟩ | ⟨h, x, x', _, _, h3⟩
      · exact h
      · cases h
      · cases h3
    rw [e]
    simp only [Sys.step] at hs
    split at hs
    · rename_i r it hi hk
      split at hs
      · obtain ⟨t, _, rfl⟩ := trk_ok.1 hs
        have := countP_set' loopHolds (y := Loop.got it.id) hi
        simp only [Bool.toNat_true, Bool.toNat_false, handsOut, asksPermit, setLoop, loopHolds] at this ⊢
        omega
      · cases hs
    · cases hs
  · rcases hH with ⟨i, k, rfl⟩ | hH | ⟨i, rfl, hH⟩
    · have e : s'.loops = s.loops := by
        rcases hl with ⟨h, _⟩ | ⟨j, l, l', o, _, _, h3, _⟩
        · exact h
        · cases h3
      rw [e]
      simp only [Sys.step] at hs
      split at hs
      · rename_i rt jobid r it hi hk
        split at hs
        · obtain ⟨t, _, rfl⟩ := trk_ok.1 hs
          have := countP_set' reqHolds (y := Handler.got it.id jobid) hi
          simp only [Bool.toNat_true, Bool.toNat_false, handsOut, asksPermit, setH, reqHolds] at this ⊢
          omega
        · cases hs
      · cases hs
    · have : handsOut (.sys a) = true → ∃ i k, a = .loopGot i k ∨ a = .hGot i k := by
        intro h
        unfold handsOut at h
        split at h <;> simp_all
      cases hb : handsOut (.sys a) with
      | false => simp only [Bool.toNat_false]; omega
      | true =>
        obtain ⟨i, k, rfl | rfl⟩ := this hb
        · simp only [Sys.step] at hs
          split at hs
          · rename_i r it hi hk
            split at hs
            · obtain ⟨t, _, rfl⟩ := trk_ok.1 hs
              have := countP_set' loopHolds (y := Loop.got it.id) hi
              simp only [Bool.toNat_true, Bool.toNat_false, asksPermit, setLoop, loopHolds] at this hH ⊢
              omega
            · cases hs
          · cases hs
        · simp only [Sys.step] at hs
          split at hs
          · rename_i rt jobid r it hi hk
            split at hs
            · obtain ⟨t, _, rfl⟩ := trk_ok.1 hs
              have := countP_set' reqHolds (y := Handler.got it.id jobid) hi
              simp only [Bool.toNat_true, Bool.toNat_false, asksPermit, setH, reqHolds] at this hL ⊢
              omega
            · cases hs
          · cases hs
    · simp only [handsOut, asksPermit, Bool.toNat_true, Bool.toNat_false]; omega
  · have e : s'.handlers = s.handlers := by
      rcases hh with h | ⟨r, x, h, _⟩ | ⟨h, x, x', _, _, h3⟩
      · exact h
      · cases h
      · cases h3
    rw [e]
    simp only [handsOut, asksPermit, Bool.toNat_true, Bool.toNat_false]
    omega

/-- Number of permits used. -/
def granted (as : List Act) : Nat := as.countP (fun a => match a with | .sys b => asksPermit b | _ => false)

theorem step_sys {s s' : State} {a : Sys.Act} (hs : step c s (.sys a) = .ok s') : Sys.step c s.sys a = .ok s'.sys := by
  simp only [step] at hs
  split at hs
  · split at hs
    · obtain ⟨y, h1, h2⟩ := Res.bind_ok.1 hs
      simp only [Res.ok.injEq] at h2; subst h2; exact h1
    · cases hs
  · obtain ⟨y, h1, h2⟩ := Res.bind_ok.1 hs
    simp only [Res.ok.injEq] at h2; subst h2; exact h1

theorem step_other {s s' : State} {a : Act} (ha : ∀ b, a ≠ .sys b) (hs : step c s a = .ok s') : s'.sys = s.sys := by
  cases a with
  | sys b => exact absurd rfl (ha b)
  | pass d => simp only [step, Res.ok.injEq] at hs; subst hs; rfl
  | refused =>
    simp only [step] at hs
    split at hs
    · simp only [Res.ok.injEq] at hs; subst hs; rfl
    · cases hs
  | setRate r => simp only [step, Res.ok.injEq] at hs; subst hs; rfl

theorem handed_le {s s' : State} {as : List Act} (hr : Runs c s as s') :
    holding s'.sys + handedOut as ≤ holding s.sys + granted as := by
  induction hr with
  | nil s => simp [handedOut, granted]
  | @cons s s1 s' a as _ hs _ ih =>
    simp only [handedOut, granted, List.countP_cons] at ih ⊢
    cases a with
    | sys b =>
      have := holding_step (step_sys hs)
      cases h1 : handsOut (.sys b) <;> cases h2 : asksPermit b <;>
        simp only [h1, h2, Bool.toNat_true, Bool.toNat_false, if_true, if_false, Bool.false_eq_true] at this ⊢ <;> omega
    | _ =>
      have := step_other (by simp) hs
      rw [this] at ih
      simp only [handsOut, Bool.false_eq_true, if_false]
      omega

/-- The permits used take their time. -/
theorem granted_le {T : Nat} (hT : T ≠ 0) {s s' : State} {as : List Act} (hr : Runs c s as s') (hu : Unchanged as) (ht : s.lim.tau = T)
    (h63 : s'.now < 2 ^ 63) :
    s'.lim.tau = T ∧ s.now ≤ s'.now ∧ (0 < granted as → max s.lim.tat s.now + granted as * T ≤ s'.now + Gcra.period) := by
  induction hr with
  | nil s => exact ⟨ht, Nat.le_refl _, by simp [granted]⟩
  | @cons s s1 s' a as _ hs hr ih =>
    have hu' : Unchanged as := fun r h => hu r (List.mem_cons_of_mem _ h)
    cases a with
    | pass d =>
      simp only [step, Res.ok.injEq] at hs; subst hs
      obtain ⟨h1, h2, h3⟩ := ih hu' ht h63
      refine ⟨h1, by simp only at h2; omega, fun h => ?_⟩
      have h4 := h3 h
      simp only [granted, List.countP_cons, Bool.false_eq_true, if_false, Nat.add_zero] at h4 ⊢
      omega
    | setRate r => exact absurd (List.mem_cons_self ..) (hu r)
    | refused =>
      simp only [step] at hs
      split at hs
      · simp only [Res.ok.injEq] at hs; subst hs
        obtain ⟨h1, h2, h3⟩ := ih hu' ht h63
        refine ⟨h1, h2, fun h => ?_⟩
        have h4 := h3 h
        have := @Gcra.computeRaw_mono s.now s.lim.tat s.lim.tau
        simp only [granted, List.countP_cons, Bool.false_eq_true, if_false, Nat.add_zero, compute] at h4 ⊢
        omega
      · cases hs
    | sys b =>
      simp only [step] at hs
      cases hb : asksPermit b with
      | false =>
        rw [hb] at hs
        simp only [Bool.false_eq_true, if_false] at hs
        obtain ⟨y, _, h2⟩ := Res.bind_ok.1 hs
        simp only [Res.ok.injEq] at h2; subst h2
        obtain ⟨h1, h2, h3⟩ := ih hu' ht h63
        refine ⟨h1, h2, fun h => ?_⟩
        have h4 := h3
        simp only [granted, List.countP_cons, hb, Bool.false_eq_true, if_false, Nat.add_zero] at h h4 ⊢
        exact h4 h
      | true =>
        rw [hb] at hs
        simp only [if_true] at hs
        split at hs
        · rename_i h0
          obtain ⟨y, _, h2⟩ := Res.bind_ok.1 hs
          simp only [Res.ok.injEq] at h2; subst h2
          obtain ⟨h1, h2, h3⟩ := ih hu' ht h63
          have hn : s.now < 2 ^ 63 := Nat.lt_of_le_of_lt h2 h63
          obtain ⟨g1, g2⟩ := @Gcra.computeRaw_grant s.now s.lim.tat s.lim.tau hn (by rw [ht]; exact hT) h0
          refine ⟨h1, h2, fun _ => ?_⟩
          rw [ht] at g1 g2
          simp only [compute, ht, g1] at h3
          simp only [granted, List.countP_cons, hb, if_true, Nat.add_mul, Nat.one_mul] at h3 ⊢
          by_cases hg : 0 < List.countP (fun a => match a with | .sys b => asksPermit b | _ => false) as
          · have := h3 hg
            have m1 := Nat.le_max_left (max s.lim.tat s.now + T) s.now
            omega
          · have e : List.countP (fun a => match a with | .sys b => asksPermit b | _ => false) as = 0 := by omega
            simp only at h2
            rw [e]; omega
        · cases hs

theorem tau_run {t rate : Nat} {s s' : State} {as : List Act} (hr : Runs c s as s') (h : s.lim.tau = Gcra.tauOf rate) :
    s'.lim.tau = Gcra.tauOf (inForce rate as) := by
  induction hr generalizing rate with
  | nil s => exact h
  | @cons s s1 s' a as _ hs _ ih =>
    cases a with
    | pass d => simp only [step, Res.ok.injEq] at hs; subst hs; exact ih h
    | setRate r => simp only [step, Res.ok.injEq] at hs; subst hs; exact ih (rate := r) rfl
    | refused =>
      simp only [step] at hs
      split at hs
      · simp only [Res.ok.injEq] at hs; subst hs; exact ih h
      · cases hs
    | sys b =>
      simp only [inForce]
      simp only [step] at hs
      split at hs
      · split at hs
        · obtain ⟨y, _, h2⟩ := Res.bind_ok.1 hs
          simp only [Res.ok.injEq] at h2; subst h2; exact ih h
        · cases hs
      · obtain ⟨y, _, h2⟩ := Res.bind_ok.1 hs
        simp only [Res.ok.injEq] at h2; subst h2; exact ih h

theorem tauOf_mul_le (rate : Nat) : Gcra.tauOf rate * rate ≤ Gcra.period := by
  unfold Gcra.tauOf
  split
  · omega
  · exact Nat.div_mul_le_self _ _

/-- The limiter is never more than a second ahead of the clock. -/
theorem ahead_run {s s' : State} {as : List Act} (hr : Runs c s as s') (h63 : s'.now < 2 ^ 63) (h : s.lim.tat ≤ s.now + Gcra.period) :
    s.now ≤ s'.now ∧ s'.lim.tat ≤ s'.now + Gcra.period := by
  induction hr with
  | nil s => exact ⟨Nat.le_refl _, h⟩
  | @cons s s1 s' a as _ hs hr ih =>
    have hnow : ∀ {s s' : State} {as : List Act}, Runs c s as s' → s.now ≤ s'.now := by
      intro s s' as hr
      induction hr with
      | nil s => exact Nat.le_refl _
      | @cons s s1 s' a as _ hs _ ih =>
        refine Nat.le_trans ?_ ih
        cases a with
        | pass d => simp only [step, Res.ok.injEq] at hs; subst hs; exact Nat.le_add_right _ _
        | setRate r => simp only [step, Res.ok.injEq] at hs; subst hs; exact Nat.le_refl _
        | refused =>
          simp only [step] at hs
          split at hs
          · simp only [Res.ok.injEq] at hs; subst hs; exact Nat.le_refl _
          · cases hs
        | sys b =>
          simp only [step] at hs
          split at hs
          · split at hs
            · obtain ⟨y, _, h2⟩ := Res.bind_ok.1 hs
              simp only [Res.ok.injEq] at h2; subst h2; exact Nat.le_refl _
            · cases hs
          · obtain ⟨y, _, h2⟩ := Res.bind_ok.1 hs
            simp only [Res.ok.injEq] at h2; subst h2; exact Nat.le_refl _
    have hle := hnow hr
    have key : s.now ≤ s1.now ∧ s1.lim.tat ≤ s1.now + Gcra.period := by
      cases a with
      | pass d => simp only [step, Res.ok.injEq] at hs; subst hs; exact ⟨Nat.le_add_right _ _, by simp only; omega⟩
      | setRate r =>
        simp only [step, Res.ok.injEq] at hs; subst hs
        have := tauOf_mul_le r
        exact ⟨Nat.le_refl _, by simp only [Gcra.mkNew]; omega⟩
      | refused =>
        simp only [step] at hs
        split at hs
        · simp only [Res.ok.injEq] at hs; subst hs
          exact ⟨Nat.le_refl _, Gcra.computeRaw_le (Nat.lt_of_le_of_lt hle h63) (Nat.le_refl _) h⟩
        · cases hs
      | sys b =>
        simp only [step] at hs
        split at hs
        · split at hs
          · obtain ⟨y, _, h2⟩ := Res.bind_ok.1 hs
            simp only [Res.ok.injEq] at h2; subst h2
            exact ⟨Nat.le_refl _, Gcra.computeRaw_le (Nat.lt_of_le_of_lt hle h63) (Nat.le_refl _) h⟩
          · cases hs
        · obtain ⟨y, _, h2⟩ := Res.bind_ok.1 hs
          simp only [Res.ok.injEq] at h2; subst h2; exact ⟨Nat.le_refl _, h⟩
    obtain ⟨h1, h2⟩ := ih h63 key.2
    exact ⟨Nat.le_trans key.1 h1, h2⟩

/-- The execute itself. -/
theorem Runs.toSys {s s' : State} {as : List Act} (hr : Runs c s as s') : Sys.Runs c s.sys (sysActs as) s'.sys := by
  induction hr with
  | nil s => exact .nil _
  | @cons s s1 s' a as hp hs _ ih =>
    cases a with
    | sys b => exact .cons (hp b rfl) (step_sys hs) ih
    | _ =>
      have := step_other (by simp) hs
      rw [this] at ih
      exact ih

end Verif.Limited
