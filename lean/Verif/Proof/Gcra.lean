import Verif.Model.Gcra

namespace Verif.Gcra

/-- Number of grants whose clock reading satisfies `p`. -/
abbrev cnt (p : Nat → Bool) (gs : List Nat) : Nat := (gs.filter p).length

theorem tauOf_le (rate : Nat) : tauOf rate ≤ period := by
  unfold tauOf; split
  · omega
  · exact Nat.div_le_self _ _

/-- What a granted `compute_raw` implies. -/
theorem computeRaw_grant {now tat tau : Nat} (hnow : now < 2 ^ 63) (ht : tau ≠ 0)
    (h : (computeRaw now tat tau 1).2 = 0) :
    (computeRaw now tat tau 1).1 = max tat now + tau ∧ max tat now + tau ≤ now + period := by
  have hp : period = 1000000000 := rfl
  have hm := Nat.le_max_right tat now
  unfold computeRaw subU64 at *
  rw [if_neg ht] at *
  simp only [Nat.mul_one] at *
  generalize max tat now = m at *
  by_cases h1 : period ≤ m + tau
  · rw [if_pos h1] at *
    by_cases h2 : m + tau - period > now
    · rw [if_pos h2] at h; simp only at h; omega
    · rw [if_neg h2]; exact ⟨rfl, by omega⟩
  · rw [if_neg h1] at *
    have h2 : m + tau + 2 ^ 64 - period > now := by omega
    rw [if_pos h2] at h; simp only at h; omega

theorem computeRaw_mono {now tat tau : Nat} : tat ≤ (computeRaw now tat tau 1).1 := by
  unfold computeRaw
  split
  · exact Nat.le_refl _
  · simp only
    have := Nat.le_max_left tat now
    split <;> simp only <;> omega

theorem setPc_same (pcs : Nat → Pc) (i : Nat) (p : Pc) : setPc pcs i p i = p := by simp [setPc]

/-- The caller's loaded `tau` (if any) is the current one, and nobody is inside `reset`. -/
def pcOk (tau : Nat) : Pc → Prop
  | .haveTau _ t => t = tau
  | .haveTat _ t _ => t = tau
  | .resetting _ => False
  | _ => True

/-- Invariant: `T` is the fixed tau; `base` a lower bound of the initial `tat`. -/
structure Inv (T base : Nat) (s : Sys) : Prop where
  tau : s.lim.tau = T
  pcs : ∀ i, pcOk T (s.pcs i)
  low : base + s.grants.length * T ≤ s.lim.tat
  win_low : ∀ a b, 0 < cnt (fun g => a ≤ g && g ≤ b) s.grants →
    a + cnt (fun g => a ≤ g && g ≤ b) s.grants * T ≤ s.lim.tat
  win : ∀ a b, 0 < cnt (fun g => a ≤ g && g ≤ b) s.grants →
    a + cnt (fun g => a ≤ g && g ≤ b) s.grants * T ≤ b + period
  all : ∀ b, 0 < cnt (fun g => g ≤ b) s.grants →
    base + cnt (fun g => g ≤ b) s.grants * T ≤ b + period

/-- Readings fit in 63 bits: `CLOCK_BOOTTIME` below 292 years. -/
def Act.sane : Act → Prop
  | .call _ now => now < 2 ^ 63
  | _ => True

def pcSane : Pc → Prop
  | .haveNow n => n < 2 ^ 63
  | .haveTau n _ => n < 2 ^ 63
  | .haveTat n _ _ => n < 2 ^ 63
  | _ => True

theorem pcs_set {P : Pc → Prop} {pcs : Nat → Pc} (h : ∀ i, P (pcs i)) {p : Pc} (hp : P p) (i : Nat) :
    ∀ j, P (setPc pcs i p j) := by
  intro j; unfold setPc; split
  · exact hp
  · exact h j

theorem step_sane {s : Sys} {a : Act} (ha : a.sane) (h : ∀ i, pcSane (s.pcs i)) :
    ∀ i, pcSane ((step s a).pcs i) := by
  cases a with
  | call i now =>
    simp only [step]; split
    · exact pcs_set h (by exact ha) i
    · exact h
  | loadTau i =>
    simp only [step]; split
    · rename_i now he; exact pcs_set h (by have := h i; rw [he] at this; exact this) i
    · exact h
  | loadTat i =>
    simp only [step]; split
    · rename_i now t he; exact pcs_set h (by have := h i; rw [he] at this; exact this) i
    · exact h
  | cas i =>
    simp only [step]; split
    · rename_i now t x he
      split
      · exact pcs_set h (by trivial) i
      · exact pcs_set h (by have := h i; rw [he] at this; exact this) i
    · exact h
  | resetTau i now rate =>
    simp only [step]; split
    · exact pcs_set h (by trivial) i
    · exact h
  | resetTat i =>
    simp only [step]; split
    · exact pcs_set h (by trivial) i
    · exact h

theorem cnt_cons (p : Nat → Bool) (g : Nat) (gs : List Nat) :
    cnt p (g :: gs) = (if p g then 1 else 0) + cnt p gs := by
  unfold cnt
  by_cases h : p g
  · simp [h]; omega
  · simp [h]

theorem cnt_le (p : Nat → Bool) (gs : List Nat) : cnt p gs ≤ gs.length := List.length_filter_le _ _

theorem inv_step {T base : Nat} (hT : T ≠ 0) {s : Sys} (hs : ∀ i, pcSane (s.pcs i)) (h : Inv T base s) {a : Act}
    (ha : a.isReset = false) : Inv T base (step s a) := by
  cases a with
  | call i now =>
    simp only [step]; split
    · exact { h with pcs := pcs_set h.pcs (by trivial) i }
    · exact h
  | loadTau i =>
    simp only [step]; split
    · exact { h with pcs := pcs_set h.pcs (by simpa [pcOk] using h.tau) i }
    · exact h
  | loadTat i =>
    simp only [step]; split
    · rename_i now t he
      exact { h with pcs := pcs_set h.pcs (by have := h.pcs i; rw [he] at this; exact this) i }
    · exact h
  | resetTau i now rate => simp [Act.isReset] at ha
  | resetTat i => simp [Act.isReset] at ha
  | cas i =>
    simp only [step]; split
    · rename_i now t x he
      have hx : t = T := by have := h.pcs i; rw [he] at this; exact this
      have hn : now < 2 ^ 63 := by have := hs i; rw [he] at this; exact this
      subst hx
      split
      · rename_i hcas
        have hmono := @computeRaw_mono now x t
        by_cases hg : (computeRaw now x t 1).2 = 0
        · simp only [hg, if_true]
          obtain ⟨h1, h2⟩ := computeRaw_grant hn hT hg
          have hmx := Nat.le_max_left x now
          have hmn := Nat.le_max_right x now
          refine ⟨h.tau, pcs_set h.pcs (by trivial) i, ?_, ?_, ?_, ?_⟩
          · have := h.low; simp only [List.length_cons, h1, Nat.add_mul, Nat.one_mul]; omega
          · intro a b hc
            simp only [cnt_cons] at hc ⊢
            have hw := h.win_low a b
            generalize cnt (fun g => a ≤ g && g ≤ b) s.grants = c at *
            simp only [h1]
            by_cases hin : (decide (a ≤ now) && decide (now ≤ b)) = true
            · have hin' : a ≤ now ∧ now ≤ b := by simpa using hin
              rw [if_pos hin] at *
              by_cases hc0 : 0 < c
              · have := hw hc0
                simp only [Nat.add_mul, Nat.one_mul]; omega
              · have : c = 0 := by omega
                subst this; simp only [Nat.add_zero, Nat.one_mul]; omega
            · rw [if_neg hin, Nat.zero_add] at *
              have := hw hc
              omega
          · intro a b hc
            simp only [cnt_cons] at hc ⊢
            have hw := h.win_low a b
            have hw2 := h.win a b
            generalize cnt (fun g => a ≤ g && g ≤ b) s.grants = c at *
            by_cases hin : (decide (a ≤ now) && decide (now ≤ b)) = true
            · have hin' : a ≤ now ∧ now ≤ b := by simpa using hin
              rw [if_pos hin] at *
              by_cases hc0 : 0 < c
              · have := hw hc0
                simp only [Nat.add_mul, Nat.one_mul]; omega
              · have : c = 0 := by omega
                subst this; simp only [Nat.add_zero, Nat.one_mul]; omega
            · rw [if_neg hin, Nat.zero_add] at *
              exact hw2 hc
          · intro b hc
            simp only [cnt_cons] at hc ⊢
            have hl := cnt_le (fun g => decide (g ≤ b)) s.grants
            have hlow := h.low
            have hw2 := h.all b
            have hmul : cnt (fun g => decide (g ≤ b)) s.grants * t ≤ s.grants.length * t :=
              Nat.mul_le_mul_right _ hl
            generalize cnt (fun g => decide (g ≤ b)) s.grants = c at *
            by_cases hin : (decide (now ≤ b)) = true
            · have hin' : now ≤ b := by simpa using hin
              rw [if_pos hin] at *
              simp only [Nat.add_mul, Nat.one_mul]; omega
            · rw [if_neg hin, Nat.zero_add] at *
              exact hw2 hc
        · simp only [hg, if_false]
          refine ⟨h.tau, pcs_set h.pcs (by trivial) i, ?_, ?_, h.win, h.all⟩
          · have := h.low; simp only; omega
          · intro a b hc; have := h.win_low a b hc; simp only; omega
      · rename_i hcas
        exact { h with pcs := pcs_set h.pcs (by trivial) i }
    · exact h

theorem inv_run {T base : Nat} (hT : T ≠ 0) (acts : List Act) : ∀ {s : Sys},
    (∀ i, pcSane (s.pcs i)) → Inv T base s → (∀ a ∈ acts, a.isReset = false ∧ a.sane) →
    Inv T base (run s acts) := by
  induction acts with
  | nil => intro s _ h _; exact h
  | cons a acts ih =>
    intro s hs h ha
    have h0 := ha a (by simp)
    exact ih (step_sane h0.2 hs) (inv_step hT hs h h0.1) (fun b hb => ha b (by simp [hb]))

theorem inv_init (now rate : Nat) : Inv (tauOf rate) (now + tauOf rate * rate) (init now rate) := by
  refine ⟨rfl, fun i => trivial, ?_, ?_, ?_, ?_⟩ <;> simp [init, mkNew, cnt]

end Verif.Gcra

namespace Verif.Gcra

/-! ### Waiting times -/

/-- `M` bounds all clock readings so far. -/
def pcBound (M : Nat) : Pc → Prop
  | .haveNow n => n ≤ M
  | .haveTau n _ => n ≤ M
  | .haveTat n _ t => n ≤ M ∧ t ≤ M + period
  | .resetting _ => False
  | .idle => True

theorem computeRaw_le {M now tat tau : Nat} (hn63 : now < 2 ^ 63) (hn : now ≤ M)
    (ht : tat ≤ M + period) : (computeRaw now tat tau 1).1 ≤ M + period := by
  by_cases h0 : tau = 0
  · simp [computeRaw, h0]; exact ht
  · by_cases hg : (computeRaw now tat tau 1).2 = 0
    · have := computeRaw_grant hn63 h0 hg; omega
    · unfold computeRaw at *
      rw [if_neg h0] at *
      simp only at *
      by_cases h2 : subU64 (max tat now + tau * 1) period > now
      · rw [if_pos h2]; simp only; omega
      · rw [if_neg h2] at hg; simp at hg

structure BInv (M : Nat) (s : Sys) : Prop where
  tat : s.lim.tat ≤ M + period
  pcs : ∀ i, pcBound M (s.pcs i)

theorem binv_step {M : Nat} {s : Sys} (hs : ∀ i, pcSane (s.pcs i)) (h : BInv M s) {a : Act}
    (ha : a.isReset = false) (hM : ∀ i n, a = .call i n → n ≤ M) : BInv M (step s a) := by
  cases a with
  | call i now =>
    simp only [step]; split
    · exact { h with pcs := pcs_set h.pcs (p := .haveNow now) (hM i now rfl) i }
    · exact h
  | loadTau i =>
    simp only [step]; split
    · rename_i now he
      exact { h with pcs := pcs_set h.pcs (by have := h.pcs i; rw [he] at this; exact this) i }
    · exact h
  | loadTat i =>
    simp only [step]; split
    · rename_i now t he
      exact { h with pcs := pcs_set h.pcs (by have := h.pcs i; rw [he] at this; exact ⟨this, h.tat⟩) i }
    · exact h
  | resetTau i now rate => simp [Act.isReset] at ha
  | resetTat i => simp [Act.isReset] at ha
  | cas i =>
    simp only [step]; split
    · rename_i now t x he
      have hb := h.pcs i; rw [he] at hb
      have hn := hs i; rw [he] at hn
      split
      · exact ⟨computeRaw_le hn hb.1 hb.2, pcs_set h.pcs (by trivial) i⟩
      · exact { h with pcs := pcs_set h.pcs (p := .haveNow now) hb.1 i }
    · exact h

theorem binv_run {M : Nat} (acts : List Act) : ∀ {s : Sys},
    (∀ i, pcSane (s.pcs i)) → BInv M s →
    (∀ a ∈ acts, a.isReset = false ∧ a.sane ∧ ∀ i n, a = .call i n → n ≤ M) →
    BInv M (run s acts) := by
  induction acts with
  | nil => intro s _ h _; exact h
  | cons a acts ih =>
    intro s hs h ha
    have h0 := ha a (by simp)
    exact ih (step_sane h0.2.1 hs) (binv_step hs h h0.1 h0.2.2) (fun b hb => ha b (by simp [hb]))

/-! ### Launches -/

structure RInv (T base : Nat) (s : Recv) : Prop where
  tau : s.lim.tau = T
  nowSane : s.now < 2 ^ 63
  count : s.waiting + s.launches.length = s.permits.length
  low : base + s.permits.length * T ≤ s.lim.tat
  high : 0 < s.permits.length → base + s.permits.length * T ≤ s.now + period

theorem rnow_mono (acts : List RAct) : ∀ s : Recv, s.now ≤ (rrun s acts).now := by
  induction acts with
  | nil => intro s; exact Nat.le_refl _
  | cons a acts ih =>
    intro s
    refine Nat.le_trans ?_ (ih (rstep s a))
    cases a <;> simp only [rstep]
    · omega
    · split <;> simp
    · simp
    · split <;> simp

theorem rinv_step {T base : Nat} (hT : T ≠ 0) {s : Recv} (h : RInv T base s) (a : RAct)
    (hn : (rstep s a).now < 2 ^ 63) : RInv T base (rstep s a) := by
  cases a with
  | tick d =>
    simp only [rstep] at *
    exact { h with nowSane := hn, high := fun hp => by have := h.high hp; simp only at *; omega }
  | ready k => exact { h with }
  | launch =>
    simp only [rstep] at *
    split
    · have := h.count
      exact { h with count := by simp only [List.length_cons]; omega }
    · exact h
  | permit =>
    have hmono := @computeRaw_mono s.now s.lim.tat s.lim.tau
    have hg := @computeRaw_grant s.now s.lim.tat s.lim.tau h.nowSane (by rw [h.tau]; exact hT)
    have hlow := h.low
    have hc := h.count
    have htau := h.tau
    simp only [rstep]
    split
    · rename_i h0
      obtain ⟨h1, h2⟩ := hg h0
      have hm := Nat.le_max_left s.lim.tat s.now
      refine ⟨h.tau, h.nowSane, ?_, ?_, ?_⟩
      · simp only [List.length_cons]; omega
      · simp only [List.length_cons, Nat.add_mul, Nat.one_mul, h1]; omega
      · intro _; simp only [List.length_cons, Nat.add_mul, Nat.one_mul]; omega
    · exact { h with low := by simp only; omega }

theorem rinv_run {T base : Nat} (hT : T ≠ 0) (acts : List RAct) : ∀ {s : Recv}, RInv T base s →
    (rrun s acts).now < 2 ^ 63 → RInv T base (rrun s acts) := by
  induction acts with
  | nil => intro s h _; exact h
  | cons a acts ih =>
    intro s h hn
    exact ih (rinv_step hT h a (Nat.lt_of_le_of_lt (rnow_mono acts (rstep s a)) hn)) hn

theorem rinv_init (now rate : Nat) (h : now < 2 ^ 63) :
    RInv (tauOf rate) (now + tauOf rate * rate) (rinit now rate) := by
  refine ⟨rfl, h, ?_, ?_, ?_⟩ <;> simp [rinit, mkNew]

/-- What happens from a state with `p0` permits, of which `w0` wait, `l0` launches, at time `n0`, on. -/
structure WInv (T n0 p0 w0 l0 : Nat) (s : Recv) : Prop where
  tau : s.lim.tau = T
  now : n0 ≤ s.now
  grow : p0 ≤ s.permits.length
  count : s.waiting + s.launches.length + p0 = w0 + l0 + s.permits.length
  low : p0 < s.permits.length → n0 + (s.permits.length - p0) * T ≤ s.lim.tat
  high : p0 < s.permits.length → n0 + (s.permits.length - p0) * T ≤ s.now + period

theorem winv_step {T n0 p0 w0 l0 : Nat} (hT : T ≠ 0) {s : Recv} (h : WInv T n0 p0 w0 l0 s) (a : RAct)
    (hn : (rstep s a).now < 2 ^ 63) : WInv T n0 p0 w0 l0 (rstep s a) := by
  cases a with
  | tick d =>
    simp only [rstep] at *
    exact { h with now := by have := h.now; simp only; omega, high := fun hp => by have := h.high hp; simp only at *; omega }
  | ready k => exact { h with }
  | launch =>
    simp only [rstep] at *
    split
    · have := h.count
      exact { h with count := by simp only [List.length_cons]; omega }
    · exact h
  | permit =>
    have hs : s.now < 2 ^ 63 := by
      refine Nat.lt_of_le_of_lt ?_ hn
      simp only [rstep]; split <;> simp
    have hmono := @computeRaw_mono s.now s.lim.tat s.lim.tau
    have hg := @computeRaw_grant s.now s.lim.tat s.lim.tau hs (by rw [h.tau]; exact hT)
    have hc := h.count
    have htau := h.tau
    have hnow := h.now
    have hgrow := h.grow
    simp only [rstep]
    split
    · rename_i h0
      obtain ⟨h1, h2⟩ := hg h0
      have hm := Nat.le_max_left s.lim.tat s.now
      have hm2 := Nat.le_max_right s.lim.tat s.now
      have e : s.permits.length + 1 - p0 = (s.permits.length - p0) + 1 := by omega
      have key : n0 + (s.permits.length - p0) * T ≤ max s.lim.tat s.now := by
        by_cases hp : p0 < s.permits.length
        · have := h.low hp; omega
        · have : s.permits.length - p0 = 0 := by omega
          rw [this]; omega
      refine ⟨h.tau, h.now, ?_, ?_, ?_, ?_⟩
      · simp only [List.length_cons]; omega
      · simp only [List.length_cons]; omega
      · intro _; simp only [List.length_cons, e, Nat.add_mul, Nat.one_mul, h1]; omega
      · intro _; simp only [List.length_cons, e, Nat.add_mul, Nat.one_mul]; omega
    · exact { h with low := fun hp => by have := h.low hp; simp only at *; omega }

theorem winv_run {T n0 p0 w0 l0 : Nat} (hT : T ≠ 0) (acts : List RAct) : ∀ {s : Recv}, WInv T n0 p0 w0 l0 s →
    (rrun s acts).now < 2 ^ 63 → WInv T n0 p0 w0 l0 (rrun s acts) := by
  induction acts with
  | nil => intro s h _; exact h
  | cons a acts ih =>
    intro s h hn
    exact ih (winv_step hT h a (Nat.lt_of_le_of_lt (rnow_mono acts (rstep s a)) hn)) hn

theorem rtau_run (acts : List RAct) : ∀ s : Recv, (rrun s acts).lim.tau = s.lim.tau := by
  induction acts with
  | nil => intro s; rfl
  | cons a acts ih =>
    intro s
    have : (rstep s a).lim.tau = s.lim.tau := by
      cases a <;> simp only [rstep]
      · split <;> rfl
      · split <;> rfl
    simp only [rrun, List.foldl_cons] at ih ⊢
    rw [ih, this]

/-- Schedule used in the hoarding witness: one permit per second, nobody launches. -/
def hoard : Nat → List RAct
  | 0 => []
  | k + 1 => .tick period :: .permit :: hoard k

theorem permit_granted {s : Recv} (h1 : s.lim.tau ≤ period) (h2 : s.lim.tat ≤ s.now)
    (h3 : period ≤ s.now) :
    rstep s .permit = { s with
      lim := { s.lim with tat := if s.lim.tau = 0 then s.lim.tat else s.now + s.lim.tau }
      waiting := s.waiting + 1
      permits := s.now :: s.permits } := by
  simp only [rstep, computeRaw]
  by_cases h0 : s.lim.tau = 0
  · simp [h0]
  · have hm : max s.lim.tat s.now = s.now := Nat.max_eq_right h2
    simp only [h0, if_false, hm, subU64, Nat.mul_one]
    have : period ≤ s.now + s.lim.tau := by omega
    simp only [this, if_true]
    have : ¬ (s.now + s.lim.tau - period > s.now) := by omega
    simp only [this, if_false, if_true]

theorem hoard_run (k : Nat) : ∀ s : Recv, s.lim.tau ≤ period → s.lim.tat ≤ s.now + period →
    (rrun s (hoard k)).waiting = s.waiting + k ∧ (rrun s (hoard k)).launches = s.launches ∧
      (rrun s (hoard k)).tasks = s.tasks := by
  induction k with
  | zero => intro s _ _; simp [hoard, rrun]
  | succ k ih =>
    intro s h1 h2
    obtain ⟨s1, hs1⟩ : ∃ s1, s1 = rstep s (.tick period) := ⟨_, rfl⟩
    have e1 : s1.lim.tau ≤ period := by rw [hs1]; exact h1
    have e2 : s1.lim.tat ≤ s1.now := by rw [hs1]; exact h2
    have e3 : period ≤ s1.now := by rw [hs1]; simp only [rstep]; omega
    have hp := permit_granted e1 e2 e3
    have := ih (rstep s1 .permit) (by rw [hp]; exact e1) (by
      rw [hp]
      by_cases h0 : s1.lim.tau = 0
      · simp only [h0, if_true]; omega
      · simp only [h0, if_false]; omega)
    simp only [hoard, rrun, List.foldl_cons] at *
    rw [← hs1, this.1, this.2.1, this.2.2, hp]
    simp only [hs1, rstep]
    refine ⟨by omega, trivial, trivial⟩

theorem launch_all (k : Nat) : ∀ s : Recv, k ≤ s.waiting → k ≤ s.tasks →
    (rrun s (List.replicate k .launch)).launches = List.replicate k s.now ++ s.launches ∧
    (rrun s (List.replicate k .launch)).now = s.now := by
  induction k with
  | zero => intro s _ _; simp [rrun]
  | succ k ih =>
    intro s h1 h2
    have hst : rstep s .launch = { s with
        waiting := s.waiting - 1
        tasks := s.tasks - 1
        launches := s.now :: s.launches } := by
      simp only [rstep]; rw [if_pos ⟨by omega, by omega⟩]
    have := ih (rstep s .launch) (by rw [hst]; simp only; omega) (by rw [hst]; simp only; omega)
    simp only [rrun, List.replicate_succ, List.foldl_cons] at *
    rw [this.1, this.2, hst]
    refine ⟨?_, rfl⟩
    simp only
    rw [← List.singleton_append, ← List.append_assoc, ← List.replicate_succ',
      List.replicate_succ, List.cons_append]

end Verif.Gcra
