import Verif.Spec.Metered
import Verif.Spec.RateCounter
import Verif.Proof.Launches
import Verif.Props.Limited
import Verif.Props.RateCounter

/-!
# Exponentially weighted sums of launches under a rate limit
-/

namespace Verif.Metered
open Verif Verif.Sys Real

variable {c : Sys.Cfg} {lf : LogFile} {now : Int} {t rate : Nat}

/-- The moments of the launches along a run. -/
def moments (c : Sys.Cfg) : Limited.State → List Limited.Act → List Nat
  | _, [] => []
  | s, a :: as => (if Limited.handsOut a then [s.now] else []) ++
    (match Limited.step c s a with | .ok s1 => moments c s1 as | _ => [])

theorem step_lim {s s' : State} {a : Limited.Act} (h : step c s a = .ok s') :
    Limited.step c s.lim a = .ok s'.lim ∧ s'.ctr = ctrAfter s a := by
  unfold step at h
  obtain ⟨t, h1, h2⟩ := Res.bind_ok.1 h
  simp only [Res.ok.injEq] at h2; subst h2
  exact ⟨h1, rfl⟩

theorem Runs.lim {s s' : State} {as : List Limited.Act} (h : Runs c s as s') : Limited.Runs c s.lim as s'.lim := by
  induction h with
  | nil => exact .nil _
  | cons hd hs _ ih => exact .cons hd (step_lim hs).1 ih

theorem runs_of_lim {as : List Limited.Act} : ∀ {s : State} {l : Limited.State}, Limited.Runs c s.lim as l → ∃ r, Runs c s as ⟨l, r⟩ := by
  induction as with
  | nil => intro s t h; cases h; exact ⟨s.ctr, .nil _⟩
  | cons a as ih =>
    intro s t h
    cases h with
    | @cons _ t1 _ _ _ hd hs hr =>
      obtain ⟨r, h⟩ := ih (s := ⟨t1, ctrAfter s a⟩) hr
      exact ⟨r, .cons hd (by simp [step, hs, Res.bind]) h⟩

theorem ctr_eq {s : State} {a : Limited.Act} :
    ctrAfter s a = RateCounter.after s.ctr ((if Limited.handsOut a then [s.lim.now] else []).map secs) := by
  unfold ctrAfter
  split
  · rfl
  · rfl
  · rename_i h1 h2
    have : Limited.handsOut a = false := by
      unfold Limited.handsOut
      split
      · rename_i i k; exact absurd rfl (h1 i k)
      · rename_i i k; exact absurd rfl (h2 i k)
      · rfl
    simp [this, RateCounter.after]

theorem ctr_runs {s s' : State} {as : List Limited.Act} (h : Runs c s as s') :
    s'.ctr = RateCounter.after s.ctr ((moments c s.lim as).map secs) := by
  induction h with
  | nil => rfl
  | @cons s s1 s2 a as _ hs _ ih =>
    rw [ih, (step_lim hs).2, ctr_eq]
    simp only [moments, (step_lim hs).1, List.map_append, RateCounter.after, List.foldl_append]

theorem moments_length {s s' : Limited.State} {as : List Limited.Act} (h : Limited.Runs c s as s') :
    (moments c s as).length = Limited.handedOut as := by
  induction h with
  | nil => rfl
  | @cons s s1 s2 a as _ hs _ ih =>
    simp only [moments, hs, List.length_append, ih, Limited.handedOut, List.countP_cons]
    split <;> simp <;> omega

theorem now_step {s s' : Limited.State} {a : Limited.Act} (h : Limited.step c s a = .ok s') : s.now ≤ s'.now := by
  cases a with
  | sys b =>
    simp only [Limited.step] at h
    split at h
    · split at h
      · obtain ⟨y, _, h2⟩ := Res.bind_ok.1 h
        simp only [Res.ok.injEq] at h2; subst h2; exact Nat.le_refl _
      · cases h
    · obtain ⟨y, _, h2⟩ := Res.bind_ok.1 h
      simp only [Res.ok.injEq] at h2; subst h2; exact Nat.le_refl _
  | pass d => simp only [Limited.step, Res.ok.injEq] at h; subst h; exact Nat.le_add_right _ _
  | refused =>
    simp only [Limited.step] at h
    split at h
    · simp only [Res.ok.injEq] at h; subst h; exact Nat.le_refl _
    · cases h
  | setRate r => simp only [Limited.step, Res.ok.injEq] at h; subst h; exact Nat.le_refl _

theorem now_run {s s' : Limited.State} {as : List Limited.Act} (h : Limited.Runs c s as s') : s.now ≤ s'.now := by
  induction h with
  | nil => exact Nat.le_refl _
  | cons _ hs _ ih => exact Nat.le_trans (now_step hs) ih

theorem secs_mono {a b : Nat} (h : a ≤ b) : secs a ≤ secs b := by
  unfold secs
  have : (a : ℝ) ≤ (b : ℝ) := by exact_mod_cast h
  exact div_le_div_of_nonneg_right this (by norm_num)

theorem moments_inOrder {as : List Limited.Act} : ∀ {s s' : Limited.State} {t : ℝ}, Limited.Runs c s as s' → t ≤ secs s.now →
    RateCounter.InOrder t ((moments c s as).map secs) ∧ RateCounter.last t ((moments c s as).map secs) ≤ secs s'.now := by
  induction as with
  | nil => intro s s' t h ht; cases h; exact ⟨trivial, ht⟩
  | cons a as ih =>
    intro s s' t h ht
    cases h with
    | @cons _ s1 _ _ _ hdis hs hr =>
      have hn := now_step hs
      simp only [moments, hs, List.map_append, Launches.inOrder_append, Launches.last_append]
      obtain ⟨h1, h2⟩ := Launches.const_inOrder t (secs s.now) ht ((if Limited.handsOut a then [s.now] else []).map secs) (by
          intro x hx
          split at hx <;> simp at hx
          exact hx)
      obtain ⟨h3, h4⟩ := ih hr (le_trans h2 (secs_mono hn))
      exact ⟨⟨h1, h3⟩, h4⟩

/-- The last `m` launches, for every `m`, take at least `m * T - K`. -/
def Sparse (now K T : Nat) : List Nat → Prop
  | [] => True
  | x :: l => ((l.length + 1) * T ≤ now - x + K ∧ x ≤ now) ∧ Sparse now K T l

theorem Runs_append {s s1 s' : Limited.State} {as bs : List Limited.Act} (h : Limited.Runs c s as s1) (h' : Limited.Runs c s1 bs s') :
    Limited.Runs c s (as ++ bs) s' := by
  induction h with
  | nil => exact h'
  | cons h1 h2 _ ih => exact .cons h1 h2 (ih h')

theorem inForce_unchanged {as : List Limited.Act} (hu : Limited.Unchanged as) : Limited.inForce rate as = rate := by
  induction as with
  | nil => rfl
  | cons a as ih =>
    have h1 : Limited.Unchanged as := fun r h => hu r (List.mem_cons_of_mem _ h)
    cases a with
    | setRate r => exact absurd (List.mem_cons_self ..) (hu r)
    | _ => exact ih h1

theorem sparse_run {H : Nat} (hr : 0 < rate) {bs : List Limited.Act} : ∀ {as : List Limited.Act} {s s' : Limited.State},
    Limited.Runs c (Limited.init c lf now t rate) as s → Limited.Runs c s bs s' → Limited.Unchanged (as ++ bs) → s'.now < 2 ^ 63 →
    AtMostWait c (Limited.init c lf now t rate) (as ++ bs) H →
    Sparse s'.now (1000000000 + H * (1000000000 / rate)) (1000000000 / rate) (moments c s bs) := by
  induction bs with
  | nil => intro as s s' _ _ _ _ _; exact trivial
  | cons a bs ih =>
    intro as s s' h1 h2 hu h63 hH
    have h2' := h2
    cases h2 with
    | @cons _ s1 _ _ _ hp hs hrest =>
      have e : as ++ a :: bs = (as ++ [a]) ++ bs := by simp
      have := ih (Runs_append h1 (.cons hp hs (.nil _))) hrest (e ▸ hu) h63 (e ▸ hH)
      simp only [moments, hs]
      cases hh : Limited.handsOut a with
      | false => simpa using this
      | true =>
        refine ⟨⟨?_, now_run h2'⟩, this⟩
        have hu1 : Limited.Unchanged as := fun r h => hu r (by simp [h])
        have hu2 : Limited.Unchanged (a :: bs) := fun r h => hu r (List.mem_append_right _ h)
        have hf := inForce_unchanged (rate := rate) hu1
        have hw := Props.Limited.launches_window h1 h2' hu2 (by rw [hf]; exact hr) h63
        rw [hf] at hw
        have hl := moments_length hrest
        have hc : Limited.handedOut (a :: bs) = Limited.handedOut bs + 1 := by
          simp [Limited.handedOut, hh]
        have hb := Nat.mul_le_mul_right (1000000000 / rate) (hH as (a :: bs) s rfl h1)
        rw [hc] at hw
        show ((moments c s1 bs).length + 1) * (1000000000 / rate) ≤ s'.now - s.now + (1000000000 + H * (1000000000 / rate))
        rw [hl]
        omega

/-- `q + q^2 + ... + q^n`. -/
def powers (q : ℝ) : Nat → ℝ
  | 0 => 0
  | n + 1 => q ^ (n + 1) + powers q n

theorem weighted_le {nw K T : Nat} {l : List Nat} (h : Sparse nw K T l) :
    (l.map (fun x => exp (-(secs nw - secs x) / 30))).sum ≤ exp (secs K / 30) * powers (exp (-(secs T) / 30)) l.length := by
  induction l with
  | nil => simp [powers]
  | cons x l ih =>
    obtain ⟨⟨h1, h2⟩, h3⟩ := h
    have := ih h3
    simp only [List.map_cons, List.sum_cons, List.length_cons, powers, mul_add]
    have hk : exp (-(secs nw - secs x) / 30) ≤ exp (secs K / 30) * exp (-(secs T) / 30) ^ (l.length + 1) := by
      rw [← exp_nat_mul, ← exp_add, exp_le_exp]
      have h4 : ((l.length + 1 : Nat) : ℝ) * T ≤ (nw : ℝ) - x + K := by
        have : (((l.length + 1) * T : Nat) : ℝ) ≤ ((nw - x + K : Nat) : ℝ) := by exact_mod_cast h1
        rw [Nat.cast_mul, Nat.cast_add (nw - x), Nat.cast_sub h2] at this
        exact this
      unfold secs
      have e : (K : ℝ) / 1000000000 / 30 + ((l.length + 1 : Nat) : ℝ) * (-((T : ℝ) / 1000000000) / 30)
          - (-((nw : ℝ) / 1000000000 - (x : ℝ) / 1000000000) / 30)
          = ((nw : ℝ) - x + K - ((l.length + 1 : Nat) : ℝ) * T) / 30000000000 := by ring
      have : 0 ≤ ((nw : ℝ) - x + K - ((l.length + 1 : Nat) : ℝ) * T) / 30000000000 := div_nonneg (by linarith) (by norm_num)
      linarith
    linarith

theorem powers_le {x : ℝ} (n : Nat) : x * powers (exp (-x)) n ≤ 1 - exp (-x) ^ n := by
  induction n with
  | zero => simp [powers]
  | succ n ih =>
    have h1 : x + 1 ≤ exp x := add_one_le_exp x
    have h2 : 0 < exp (-x) ^ (n + 1) := pow_pos (exp_pos _) _
    have h3 : exp (-x) ^ n = exp (-x) ^ (n + 1) * exp x := by
      rw [pow_succ, mul_assoc, ← exp_add]; simp
    have h4 : x * exp (-x) ^ (n + 1) ≤ exp (-x) ^ n - exp (-x) ^ (n + 1) := by
      rw [h3]
      have := mul_le_mul_of_nonneg_left h1 (le_of_lt h2)
      linarith
    simp only [powers, mul_add]
    linarith

/-- The weighted sum of launches that are sparse, and not more than fit into the time since the start. -/
theorem weighted_rate {nw t K T : Nat} {l : List Nat} (hT : 0 < T) (h : Sparse nw K T l) (hn : l.length * T ≤ nw - t) (ht : t ≤ nw) :
    (l.map (fun x => exp (-(secs nw - secs x) / 30) / 30)).sum ≤ exp (secs K / 30) / secs T * (1 - exp (-(secs nw - secs t) / 30)) := by
  have h1 := weighted_le h
  have hs : 0 < secs T := by
    unfold secs
    have : (0 : ℝ) < T := by exact_mod_cast hT
    positivity
  have h2 := powers_le (x := secs T / 30) l.length
  rw [← neg_div] at h2
  have h3 : exp (-(secs nw - secs t) / 30) ≤ exp (-(secs T) / 30) ^ l.length := by
    rw [← exp_nat_mul, exp_le_exp]
    have h4 : (l.length : ℝ) * T ≤ (nw : ℝ) - t := by
      have : ((l.length * T : Nat) : ℝ) ≤ ((nw - t : Nat) : ℝ) := by exact_mod_cast hn
      rw [Nat.cast_mul, Nat.cast_sub ht] at this
      exact this
    unfold secs
    have e : (l.length : ℝ) * (-((T : ℝ) / 1000000000) / 30) - (-((nw : ℝ) / 1000000000 - (t : ℝ) / 1000000000) / 30)
        = ((nw : ℝ) - t - (l.length : ℝ) * T) / 30000000000 := by ring
    have : 0 ≤ ((nw : ℝ) - t - (l.length : ℝ) * T) / 30000000000 := div_nonneg (by linarith) (by norm_num)
    linarith
  have hdiv : (l.map (fun x => exp (-(secs nw - secs x) / 30) / 30)).sum = (l.map (fun x => exp (-(secs nw - secs x) / 30))).sum / 30 := by
    clear h h1 hn h2 h3
    induction l with
    | nil => simp
    | cons x l ih => simp only [List.map_cons, List.sum_cons, ih]; ring
  rw [hdiv]
  have hE : 0 < exp (secs K / 30) := exp_pos _
  have h5 : secs T / 30 * powers (exp (-(secs T) / 30)) l.length ≤ 1 - exp (-(secs nw - secs t) / 30) := by linarith
  have h6 : powers (exp (-(secs T) / 30)) l.length / 30 ≤ (1 - exp (-(secs nw - secs t) / 30)) / secs T := by
    rw [le_div_iff₀ hs]
    have e : powers (exp (-(secs T) / 30)) l.length / 30 * secs T = secs T / 30 * powers (exp (-(secs T) / 30)) l.length := by ring
    linarith
  have h7 := mul_le_mul_of_nonneg_left h6 (le_of_lt hE)
  have h8 : (l.map (fun x => exp (-(secs nw - secs x) / 30))).sum / 30 ≤ exp (secs K / 30) * (powers (exp (-(secs T) / 30)) l.length / 30) := by
    have := div_le_div_of_nonneg_right h1 (by norm_num : (0 : ℝ) ≤ 30)
    rw [mul_div_assoc] at this
    exact this
  have e : exp (secs K / 30) / secs T * (1 - exp (-(secs nw - secs t) / 30)) = exp (secs K / 30) * ((1 - exp (-(secs nw - secs t) / 30)) / secs T) := by ring
  rw [e]
  linarith

theorem sparse_weaken {now K T T' : Nat} (h : T' ≤ T) : ∀ {l : List Nat}, Sparse now K T l → Sparse now K T' l
  | [], _ => trivial
  | _ :: _, ⟨⟨h1, h2⟩, h3⟩ => ⟨⟨Nat.le_trans (Nat.mul_le_mul_left _ h) h1, h2⟩, sparse_weaken h h3⟩

end Verif.Metered
