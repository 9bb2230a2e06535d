import Verif.Spec.RateCounter
import Mathlib.Tactic.Linarith
import Mathlib.Tactic.FieldSimp
import Mathlib.Tactic.Ring
import Mathlib.Tactic.Positivity

/-!
# The rate counter: lemmas
-/

namespace Verif.RateCounter
open Real

theorem since_nonneg (a b : ℝ) : 0 ≤ since a b := le_max_right _ _

theorem since_le {a b : ℝ} (h : b ≤ a) : since a b = a - b := max_eq_left (by linarith)

@[simp] theorem after_nil (c : Counter) : after c [] = c := rfl
@[simp] theorem after_cons (c : Counter) (t : ℝ) (ts : List ℝ) : after c (t :: ts) = after (update c t) ts := rfl

theorem after_k (c : Counter) (ts : List ℝ) : (after c ts).k = c.k ∧ (after c ts).t0 = c.t0 := by
  induction ts generalizing c with
  | nil => exact ⟨rfl, rfl⟩
  | cons t ts ih => exact ih (update c t)

theorem after_last (c : Counter) (ts : List ℝ) : (after c ts).tLast = last c.tLast ts := by
  induction ts generalizing c with
  | nil => rfl
  | cons t ts ih => exact ih (update c t)

theorem inOrder_last {t : ℝ} {ts : List ℝ} (h : InOrder t ts) : t ≤ last t ts := by
  induction ts generalizing t with
  | nil => exact le_refl _
  | cons x ts ih => exact le_trans h.1 (ih h.2)

theorem lambda_nonneg (c : Counter) (hk : 0 ≤ c.k) (hl : 0 ≤ c.lambda) (ts : List ℝ) : 0 ≤ (after c ts).lambda := by
  induction ts generalizing c with
  | nil => exact hl
  | cons t ts ih =>
    refine ih (update c t) hk ?_
    show 0 ≤ c.k + exp (-c.k * since t c.tLast) * c.lambda
    positivity

theorem getRate_new (tau now now' : ℝ) (ts : List ℝ) (t : ℝ) : getRate (after (new tau now now') ts) t =
    if 1 - exp (-(1 / tau) * since t now) > 0 then
      exp (-(1 / tau) * since t (last now' ts)) * (after (new tau now now') ts).lambda / (1 - exp (-(1 / tau) * since t now))
    else 0 := by
  unfold getRate
  simp only
  rw [(after_k (new tau now now') ts).1, (after_k (new tau now now') ts).2, after_last]
  rfl

/-- The closed form of `lambda_last`. -/
theorem lambda_after (c : Counter) {ts : List ℝ} (h : InOrder c.tLast ts) :
    (after c ts).lambda = exp (-c.k * (last c.tLast ts - c.tLast)) * c.lambda +
      (ts.map (fun x => c.k * exp (-c.k * (last c.tLast ts - x)))).sum := by
  induction ts generalizing c with
  | nil => simp [last]
  | cons t ts ih =>
    have h1 := ih (update c t) h.2
    rw [after_cons, h1]
    show exp (-c.k * (last t ts - t)) * (c.k + exp (-c.k * since t c.tLast) * c.lambda) + _ = _
    rw [since_le h.1]
    simp only [last, List.map_cons, List.sum_cons]
    have e : exp (-c.k * (last t ts - c.tLast)) = exp (-c.k * (last t ts - t)) * exp (-c.k * (t - c.tLast)) := by
      rw [← exp_add]; ring_nf
    rw [e]
    show _ + (ts.map (fun x => c.k * exp (-c.k * (last t ts - x)))).sum = _
    ring

theorem one_sub_exp_pos {x : ℝ} (h : 0 < x) : 0 < 1 - exp (-x) := by
  have : exp (-x) < 1 := by rw [exp_lt_one_iff]; linarith
  linarith

theorem one_sub_exp_le (x : ℝ) : 1 - exp (-x) ≤ x := by
  have := add_one_le_exp (-x)
  linarith

theorem le_one_sub_exp {x : ℝ} (h : 0 ≤ x) : x / (1 + x) ≤ 1 - exp (-x) := by
  have h1 : exp (-x) ≤ 1 / (1 + x) := by
    rw [exp_neg, inv_eq_one_div]
    exact one_div_le_one_div_of_le (by linarith) (by have := add_one_le_exp x; linarith)
  have h2 : x / (1 + x) = 1 - 1 / (1 + x) := by field_simp; ring
  linarith

/-- With gaps no smaller than `d`. -/
theorem lambda_le {c : Counter} {q : ℝ} (hk : 0 < c.k) (hq : q < 1) (T : ℝ)
    (hl : c.lambda ≤ c.k * (1 - exp (-c.k * (c.tLast - T))) / (1 - q)) (ho : T ≤ c.tLast) {ts : List ℝ} (h : InOrder c.tLast ts)
    (hg : Gaps (fun d => exp (-c.k * d) ≤ q) c.tLast ts) :
    (after c ts).lambda ≤ c.k * (1 - exp (-c.k * (last c.tLast ts - T))) / (1 - q) := by
  induction ts generalizing c with
  | nil => exact hl
  | cons t ts ih =>
    refine ih (c := update c t) hk ?_ (le_trans ho h.1) h.2 hg.2
    show c.k + exp (-c.k * since t c.tLast) * c.lambda ≤ c.k * (1 - exp (-c.k * (t - T))) / (1 - q)
    rw [since_le h.1]
    have e : exp (-c.k * (t - T)) = exp (-c.k * (t - c.tLast)) * exp (-c.k * (c.tLast - T)) := by
      rw [← exp_add]; ring_nf
    have hp := exp_pos (-c.k * (t - c.tLast))
    have h1 := mul_le_mul_of_nonneg_left hl hp.le
    have hg1 : exp (-c.k * (t - c.tLast)) ≤ q := hg.1
    rw [e]
    have hq' : 0 < 1 - q := by linarith
    rw [le_div_iff₀ hq']
    have h2 : exp (-c.k * (t - c.tLast)) * (c.k * (1 - exp (-c.k * (c.tLast - T))) / (1 - q)) * (1 - q) =
        exp (-c.k * (t - c.tLast)) * (c.k * (1 - exp (-c.k * (c.tLast - T)))) := by field_simp
    have h3 := mul_le_mul_of_nonneg_right h1 hq'.le
    rw [h2] at h3
    nlinarith [mul_le_mul_of_nonneg_left hg1 hk.le]

/-- With gaps no larger than `d`. -/
theorem lambda_ge {c : Counter} {q : ℝ} (hk : 0 < c.k) (hq : q < 1) (T : ℝ)
    (hl : c.k * (1 - exp (-c.k * (c.tLast - T))) / (1 - q) ≤ c.lambda) (ho : T ≤ c.tLast) {ts : List ℝ} (h : InOrder c.tLast ts)
    (hg : Gaps (fun d => q ≤ exp (-c.k * d)) c.tLast ts) :
    c.k * (1 - exp (-c.k * (last c.tLast ts - T))) / (1 - q) ≤ (after c ts).lambda := by
  induction ts generalizing c with
  | nil => exact hl
  | cons t ts ih =>
    refine ih (c := update c t) hk ?_ (le_trans ho h.1) h.2 hg.2
    show c.k * (1 - exp (-c.k * (t - T))) / (1 - q) ≤ c.k + exp (-c.k * since t c.tLast) * c.lambda
    rw [since_le h.1]
    have e : exp (-c.k * (t - T)) = exp (-c.k * (t - c.tLast)) * exp (-c.k * (c.tLast - T)) := by
      rw [← exp_add]; ring_nf
    have hp := exp_pos (-c.k * (t - c.tLast))
    have h1 := mul_le_mul_of_nonneg_left hl hp.le
    have hg1 : q ≤ exp (-c.k * (t - c.tLast)) := hg.1
    rw [e]
    have hq' : 0 < 1 - q := by linarith
    rw [div_le_iff₀ hq']
    have h2 : exp (-c.k * (t - c.tLast)) * (c.k * (1 - exp (-c.k * (c.tLast - T))) / (1 - q)) * (1 - q) =
        exp (-c.k * (t - c.tLast)) * (c.k * (1 - exp (-c.k * (c.tLast - T)))) := by field_simp
    have h3 := mul_le_mul_of_nonneg_right h1 hq'.le
    rw [h2] at h3
    nlinarith [mul_le_mul_of_nonneg_left hg1 hk.le]

end Verif.RateCounter
