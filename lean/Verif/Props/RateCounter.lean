import Verif.Proof.RateCounter

/-!
# The launch rate in the status (C123, C124)

`new tau now now'`: the counter made at `now` (with a clock read again at `now'`). `getRate (after (new tau now now') ts) t`: what a status
request at `t` says after tasks were handed out at the moments `ts`.
-/

namespace Verif.Props.RateCounter
open Verif.RateCounter Real

variable {tau now now' t : ℝ} {ts : List ℝ}

/-- C123: the rate is never negative. -/
theorem rate_nonneg (h : 0 < tau) (ts : List ℝ) (t : ℝ) : 0 ≤ getRate (after (new tau now now') ts) t := by
  have hl := lambda_nonneg (new tau now now') (by show 0 ≤ 1 / tau; positivity) (le_refl 0) ts
  unfold getRate
  simp only
  split
  · positivity
  · exact le_refl 0

/-- C123: what the rate is: each task counts with a weight that decays exponentially with the time since it was handed out, and the
sum is divided by the total weight of the time since the counter was made. -/
theorem rate_closed_form (h : 0 < tau) (ho : InOrder now' ts) (ht : last now' ts ≤ t) (hlt : now < t) :
    getRate (after (new tau now now') ts) t =
      (ts.map (fun x => exp (-(t - x) / tau) / tau)).sum / (1 - exp (-(t - now) / tau)) := by
  have hl := lambda_after (new tau now now') (ts := ts) ho
  rw [getRate_new, hl]
  have e0 : (new tau now now').tLast = now' := rfl
  have e1 : (new tau now now').lambda = 0 := rfl
  have e2 : (new tau now now').k = 1 / tau := rfl
  rw [e0, e1, e2, since_le hlt.le, since_le ht]
  have e3 : -(1 / tau) * (t - now) = -((t - now) / tau) := by ring
  have hpos : 0 < 1 - exp (-(1 / tau) * (t - now)) := by
    rw [e3]; exact one_sub_exp_pos (div_pos (by linarith) h)
  rw [if_pos hpos]
  congr 1
  · rw [mul_zero, zero_add, ← List.sum_map_mul_left]
    congr 1
    refine List.map_congr_left (fun x _ => ?_)
    have : exp (-(t - x) / tau) = exp (-(1 / tau) * (t - last now' ts)) * exp (-(1 / tau) * (last now' ts - x)) := by
      rw [← exp_add]; congr 1; ring
    rw [this]; ring
  · rw [e3]; congr 2; ring

/-- C123: with every task handed out the rate goes up by `1 / tau` at least. -/
theorem rate_up (h : 0 < tau) (ho : InOrder now' ts) (ht : last now' ts ≤ t) (hlt : now < t) :
    getRate (after (new tau now now') ts) t + 1 / tau ≤ getRate (after (new tau now now') (ts ++ [t])) t := by
  have hin : InOrder now' (ts ++ [t]) ∧ last now' (ts ++ [t]) = t := by
    clear hlt
    induction ts generalizing now' with
    | nil => exact ⟨⟨ht, trivial⟩, rfl⟩
    | cons x ts ih => exact ⟨⟨ho.1, (ih ho.2 ht).1⟩, (ih ho.2 ht).2⟩
  rw [rate_closed_form h ho ht hlt, rate_closed_form h hin.1 (by rw [hin.2]) hlt]
  have hpos : 0 < 1 - exp (-(t - now) / tau) := by
    rw [neg_div]; exact one_sub_exp_pos (div_pos (by linarith) h)
  rw [List.map_append, List.sum_append, add_div]
  simp only [List.map_cons, List.map_nil, List.sum_cons, List.sum_nil, sub_self, neg_zero, zero_div, exp_zero, add_zero]
  have : 1 / tau ≤ 1 / tau / (1 - exp (-(t - now) / tau)) := by
    rw [le_div_iff₀ hpos]
    have h1 : 0 < 1 / tau := by positivity
    nlinarith [exp_pos (-(t - now) / tau)]
  linarith

/-- C123: without new tasks the rate decays exponentially. -/
theorem rate_decays (h : 0 < tau) (ho : InOrder now' ts) (ht : last now' ts ≤ t) (hlt : now < t) {d : ℝ} (hd : 0 ≤ d) :
    getRate (after (new tau now now') ts) (t + d) ≤ exp (-d / tau) * getRate (after (new tau now now') ts) t := by
  rw [rate_closed_form h ho ht hlt, rate_closed_form h ho (by linarith) (by linarith)]
  have hpos : 0 < 1 - exp (-(t - now) / tau) := by
    rw [neg_div]; exact one_sub_exp_pos (div_pos (by linarith) h)
  have hle : 1 - exp (-(t - now) / tau) ≤ 1 - exp (-(t + d - now) / tau) := by
    have : exp (-(t + d - now) / tau) ≤ exp (-(t - now) / tau) := by
      rw [exp_le_exp]
      exact div_le_div_of_nonneg_right (by linarith) h.le
    linarith
  have e : (ts.map (fun x => exp (-(t + d - x) / tau) / tau)).sum = exp (-d / tau) * (ts.map (fun x => exp (-(t - x) / tau) / tau)).sum := by
    rw [← List.sum_map_mul_left]
    congr 1
    refine List.map_congr_left (fun x _ => ?_)
    have : exp (-(t + d - x) / tau) = exp (-d / tau) * exp (-(t - x) / tau) := by
      rw [← exp_add]; congr 1; ring
    rw [this]; ring
  rw [e, mul_div_assoc]
  refine mul_le_mul_of_nonneg_left ?_ (exp_pos _).le
  refine div_le_div_of_nonneg_left ?_ hpos hle
  refine List.sum_nonneg ?_
  intro y hy
  obtain ⟨x, _, rfl⟩ := List.mem_map.1 hy
  positivity

/-- C124: if tasks are handed out at intervals of at least `d` (the first one `d` after the counter was made), the rate is
at most `1 / d + 1 / tau`, at any time. -/
theorem rate_at_most (h : 0 < tau) {d : ℝ} (hd : 0 < d) (hg : Gaps (fun x => d ≤ x) now ts) (ht : last now ts ≤ t) :
    getRate (after (new tau now now) ts) t ≤ 1 / d + 1 / tau := by
  have ho : InOrder now ts := by
    revert hg
    clear ht
    induction ts generalizing now with
    | nil => intro _; trivial
    | cons x ts ih => intro hg; exact ⟨by have := hg.1; linarith, ih hg.2⟩
  have hk : 0 < (1 / tau : ℝ) := by positivity
  by_cases hlt : now < t
  · have hq : exp (-(d / tau)) < 1 := by
      rw [exp_lt_one_iff]; have : 0 < d / tau := by positivity
      linarith
    have hgap : Gaps (fun x => exp (-(1 / tau) * x) ≤ exp (-(d / tau))) now ts := by
      revert hg
      clear ht ho hlt
      induction ts generalizing now with
      | nil => intro _; trivial
      | cons x ts ih =>
        intro hg
        refine ⟨?_, ih hg.2⟩
        show exp (-(1 / tau) * (x - now)) ≤ exp (-(d / tau))
        rw [exp_le_exp]
        have h1 : d / tau ≤ (x - now) / tau := div_le_div_of_nonneg_right hg.1 h.le
        have h2 : -(1 / tau) * (x - now) = -((x - now) / tau) := by ring
        rw [h2]; linarith
    have hl := lambda_le (c := new tau now now) (q := exp (-(d / tau))) hk hq now (by simp [new]) (le_refl _) ho hgap
    have hpos : 0 < 1 - exp (-(1 / tau) * (t - now)) := by
      have e3 : -(1 / tau) * (t - now) = -((t - now) / tau) := by ring
      rw [e3]; exact one_sub_exp_pos (div_pos (by linarith) h)
    rw [getRate_new, since_le hlt.le, since_le ht, if_pos hpos, div_le_iff₀ hpos]
    have hl' : (after (new tau now now) ts).lambda ≤ 1 / tau * (1 - exp (-(1 / tau) * (last now ts - now))) / (1 - exp (-(d / tau))) := hl
    have hA : 1 / tau / (1 - exp (-(d / tau))) ≤ 1 / d + 1 / tau := by
      have hb := le_one_sub_exp (x := d / tau) (by positivity)
      have hb0 : 0 < d / tau / (1 + d / tau) := by positivity
      have : 1 / tau / (1 - exp (-(d / tau))) ≤ 1 / tau / (d / tau / (1 + d / tau)) :=
        div_le_div_of_nonneg_left hk.le hb0 hb
      have e2 : 1 / tau / (d / tau / (1 + d / tau)) = 1 / d + 1 / tau := by
        field_simp
      linarith
    have hx : exp (-(1 / tau) * (t - last now ts)) ≤ 1 := by
      rw [exp_le_one_iff]
      have : 0 ≤ (1 / tau) * (t - last now ts) := mul_nonneg hk.le (by linarith)
      linarith
    have hx0 := exp_pos (-(1 / tau) * (t - last now ts))
    have e4 : exp (-(1 / tau) * (t - now)) = exp (-(1 / tau) * (t - last now ts)) * exp (-(1 / tau) * (last now ts - now)) := by
      rw [← exp_add]; congr 1; ring
    have hB : exp (-(1 / tau) * (t - last now ts)) * (1 - exp (-(1 / tau) * (last now ts - now))) ≤ 1 - exp (-(1 / tau) * (t - now)) := by
      rw [e4]; nlinarith
    have hA0 : 0 ≤ 1 / tau / (1 - exp (-(d / tau))) := div_nonneg hk.le (by linarith)
    have hC : exp (-(1 / tau) * (t - last now ts)) * (after (new tau now now) ts).lambda ≤
        1 / tau / (1 - exp (-(d / tau))) * (1 - exp (-(1 / tau) * (t - now))) := by
      calc _ ≤ exp (-(1 / tau) * (t - last now ts)) * (1 / tau * (1 - exp (-(1 / tau) * (last now ts - now))) / (1 - exp (-(d / tau)))) :=
            mul_le_mul_of_nonneg_left hl' hx0.le
        _ = 1 / tau / (1 - exp (-(d / tau))) * (exp (-(1 / tau) * (t - last now ts)) * (1 - exp (-(1 / tau) * (last now ts - now)))) := by ring
        _ ≤ _ := mul_le_mul_of_nonneg_left hB hA0
    exact le_trans hC (mul_le_mul_of_nonneg_right hA hpos.le)
  · have : since t now = 0 := max_eq_right (by linarith)
    rw [getRate_new, this]
    simp only [mul_zero, exp_zero, sub_self, gt_iff_lt, lt_irrefl, if_false]
    positivity

/-- C124: if tasks are handed out at intervals of at most `d` (the first one at most `d` after the counter was made), the rate is
at least `1 / d` whenever a task has just been handed out. -/
theorem rate_at_least (h : 0 < tau) {d : ℝ} (hd : 0 < d) (ho : InOrder now ts) (hg : Gaps (fun x => x ≤ d) now ts) (hlt : now < last now ts) :
    1 / d ≤ getRate (after (new tau now now) ts) (last now ts) := by
  have hk : 0 < (1 / tau : ℝ) := by positivity
  have hq : exp (-(d / tau)) < 1 := by
    rw [exp_lt_one_iff]; have : 0 < d / tau := by positivity
    linarith
  have hgap : Gaps (fun x => exp (-(d / tau)) ≤ exp (-(1 / tau) * x)) now ts := by
    revert hg
    clear hlt ho
    induction ts generalizing now with
    | nil => intro _; trivial
    | cons x ts ih =>
      intro hg
      refine ⟨?_, ih hg.2⟩
      show exp (-(d / tau)) ≤ exp (-(1 / tau) * (x - now))
      rw [exp_le_exp]
      have h1 : (x - now) / tau ≤ d / tau := div_le_div_of_nonneg_right hg.1 h.le
      have h2 : -(1 / tau) * (x - now) = -((x - now) / tau) := by ring
      rw [h2]; linarith
  have hl := lambda_ge (c := new tau now now) (q := exp (-(d / tau))) hk hq now (by simp [new]) (le_refl _) ho hgap
  have hpos : 0 < 1 - exp (-(1 / tau) * (last now ts - now)) := by
    have e3 : -(1 / tau) * (last now ts - now) = -((last now ts - now) / tau) := by ring
    rw [e3]; exact one_sub_exp_pos (div_pos (by linarith) h)
  rw [getRate_new, since_le hlt.le, since_le (le_refl _), if_pos hpos, sub_self, mul_zero, exp_zero, one_mul, le_div_iff₀ hpos]
  have hl' : 1 / tau * (1 - exp (-(1 / tau) * (last now ts - now))) / (1 - exp (-(d / tau))) ≤ (after (new tau now now) ts).lambda := hl
  have hA : 1 / d ≤ 1 / tau / (1 - exp (-(d / tau))) := by
    rw [le_div_iff₀ (by linarith)]
    have hb := one_sub_exp_le (d / tau)
    have : 1 / d * (1 - exp (-(d / tau))) ≤ 1 / d * (d / tau) := mul_le_mul_of_nonneg_left hb (by positivity)
    have e2 : 1 / d * (d / tau) = 1 / tau := by field_simp
    linarith
  refine le_trans ?_ hl'
  have e5 : 1 / tau * (1 - exp (-(1 / tau) * (last now ts - now))) / (1 - exp (-(d / tau))) =
      1 / tau / (1 - exp (-(d / tau))) * (1 - exp (-(1 / tau) * (last now ts - now))) := by ring
  rw [e5]
  exact mul_le_mul_of_nonneg_right hA hpos.le

/-- Non-trivial case: one task per second with the decay time of the tracker (30 seconds, sync.rs:174): the rate is between 1 and 31/30. -/
example : (1 : ℝ) ≤ getRate (after (new 30 0 0) [1, 2, 3]) 3 ∧ getRate (after (new 30 0 0) [1, 2, 3]) 3 ≤ 1 + 1 / 30 := by
  have g : ∀ R : ℝ → Prop, R 1 → Gaps R 0 [1, 2, 3] := by
    intro R h
    refine ⟨?_, ?_, ?_, trivial⟩
    · rw [sub_zero]; exact h
    · have : (2 : ℝ) - 1 = 1 := by norm_num
      rw [this]; exact h
    · have : (3 : ℝ) - 2 = 1 := by norm_num
      rw [this]; exact h
  have h1 := rate_at_least (tau := 30) (now := 0) (ts := [1, 2, 3]) (d := 1) (by norm_num) (by norm_num)
    ⟨by norm_num, by norm_num, by norm_num, trivial⟩ (g _ (le_refl _)) (by norm_num [last])
  have h2 := rate_at_most (tau := 30) (now := 0) (ts := [1, 2, 3]) (t := 3) (d := 1) (by norm_num) (by norm_num) (g _ (le_refl _)) (le_refl _)
  norm_num at h1 h2
  exact ⟨h1, by norm_num; exact h2⟩

/-- C124: soon after the counter was made, the rate is the number of tasks per time, up to a factor of `exp (T / tau)`. -/
theorem young_rate (h : 0 < tau) (h0 : now ≤ now') (ho : InOrder now' ts) (ht : last now' ts ≤ t) (hlt : now < t) :
    ts.length / (t - now) * exp (-(t - now) / tau) ≤ getRate (after (new tau now now') ts) t ∧
    getRate (after (new tau now now') ts) t ≤ ts.length / (t - now) * exp ((t - now) / tau) := by
  rw [rate_closed_form h ho ht hlt]
  have hT : 0 < t - now := by linarith
  have hpos : 0 < 1 - exp (-(t - now) / tau) := by
    rw [neg_div]; exact one_sub_exp_pos (div_pos hT h)
  have hmem : ∀ x ∈ ts, now ≤ x ∧ x ≤ t := by
    revert ho ht h0
    generalize hn : now' = n
    clear hn
    induction ts generalizing n with
    | nil => intro _ _ _ x hx; cases hx
    | cons y ts ih =>
      intro h0 ho ht x hx
      have hy := inOrder_last ho.2
      rcases List.mem_cons.1 hx with rfl | hx
      · exact ⟨le_trans h0 ho.1, le_trans hy ht⟩
      · exact ih y (le_trans h0 ho.1) ho.2 ht x hx
  have hsum : ts.length * (exp (-(t - now) / tau) / tau) ≤ (ts.map (fun x => exp (-(t - x) / tau) / tau)).sum ∧
      (ts.map (fun x => exp (-(t - x) / tau) / tau)).sum ≤ ts.length * (1 / tau) := by
    revert hmem
    clear ho ht
    induction ts with
    | nil => intro _; simp
    | cons y ts ih =>
      intro hmem
      obtain ⟨i1, i2⟩ := ih (fun x hx => hmem x (List.mem_cons_of_mem _ hx))
      obtain ⟨y1, y2⟩ := hmem y (List.mem_cons_self ..)
      have a1 : exp (-(t - now) / tau) / tau ≤ exp (-(t - y) / tau) / tau := by
        refine div_le_div_of_nonneg_right ?_ h.le
        rw [exp_le_exp]
        exact div_le_div_of_nonneg_right (by linarith) h.le
      have a2 : exp (-(t - y) / tau) / tau ≤ 1 / tau := by
        refine div_le_div_of_nonneg_right ?_ h.le
        rw [exp_le_one_iff]
        exact div_nonpos_of_nonpos_of_nonneg (by linarith) h.le
      simp only [List.map_cons, List.sum_cons, List.length_cons, Nat.cast_add, Nat.cast_one]
      constructor <;> linarith
  have hup : 1 - exp (-(t - now) / tau) ≤ (t - now) / tau := by rw [neg_div]; exact one_sub_exp_le _
  have hlow : (t - now) / tau * exp (-(t - now) / tau) ≤ 1 - exp (-(t - now) / tau) := by
    have h1 := add_one_le_exp ((t - now) / tau)
    have h2 : exp ((t - now) / tau) * exp (-(t - now) / tau) = 1 := by rw [← exp_add, neg_div]; simp
    nlinarith [exp_pos (-(t - now) / tau)]
  have hp := exp_pos (-(t - now) / tau)
  have hn : (0 : ℝ) ≤ ts.length := Nat.cast_nonneg _
  constructor
  · rw [le_div_iff₀ hpos]
    refine le_trans ?_ hsum.1
    have : (ts.length : ℝ) / (t - now) * exp (-(t - now) / tau) * (1 - exp (-(t - now) / tau)) ≤
        ts.length / (t - now) * exp (-(t - now) / tau) * ((t - now) / tau) := mul_le_mul_of_nonneg_left hup (by positivity)
    have e : (ts.length : ℝ) / (t - now) * exp (-(t - now) / tau) * ((t - now) / tau) = ts.length * (exp (-(t - now) / tau) / tau) := by
      field_simp
    linarith
  · rw [div_le_iff₀ hpos]
    refine le_trans hsum.2 ?_
    have : (ts.length : ℝ) / (t - now) * exp ((t - now) / tau) * ((t - now) / tau * exp (-(t - now) / tau)) ≤
        ts.length / (t - now) * exp ((t - now) / tau) * (1 - exp (-(t - now) / tau)) := mul_le_mul_of_nonneg_left hlow (by positivity)
    have h2 : exp ((t - now) / tau) * exp (-(t - now) / tau) = 1 := by rw [← exp_add, neg_div]; simp
    have e : (ts.length : ℝ) / (t - now) * exp ((t - now) / tau) * ((t - now) / tau * exp (-(t - now) / tau)) =
        ts.length / (t - now) * ((t - now) / tau) * (exp ((t - now) / tau) * exp (-(t - now) / tau)) := by ring
    rw [h2, mul_one] at e
    have e' : (ts.length : ℝ) / (t - now) * ((t - now) / tau) = ts.length * (1 / tau) := by field_simp
    linarith

/-- Non-trivial case: five tasks in the first three seconds. -/
example : (5 : ℝ) / 3 * exp (-3 / 30) ≤ getRate (after (new 30 0 0) [1, 1, 2, 2.5, 3]) 3 := by
  have := (young_rate (tau := 30) (now := 0) (now' := 0) (t := 3) (ts := [1, 1, 2, 2.5, 3]) (by norm_num) (le_refl _)
    ⟨by norm_num, by norm_num, by norm_num, by norm_num, by norm_num, trivial⟩ (by norm_num [last]) (by norm_num)).1
  norm_num at this ⊢
  exact this

end Verif.Props.RateCounter
