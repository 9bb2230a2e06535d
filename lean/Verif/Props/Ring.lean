import Verif.Model.Ring

/-!
# C67: the reported average runtime

`pushes` are the recorded runtimes (nanoseconds), oldest first.
-/

namespace Verif.Props.Ring
open Verif.Ring

/-- The last `n` elements. -/
def lastN (n : Nat) (l : List Nat) : List Nat := l.drop (l.length - n)

/-- A runtime of less than 584554 years (2^64 ms / 1000). -/
def Sane (d : Nat) : Prop := d / 1000000 < 2 ^ 64 / 1000

theorem items_eq (cap : Nat) (hc : 0 < cap) (pushes : List Nat) :
    (pushes.foldl push ⟨cap, []⟩).items = lastN cap pushes ∧ (pushes.foldl push ⟨cap, []⟩).cap = cap := by
  -- induction on the list from the right
  have key : ∀ n, ∀ l : List Nat, l.length = n →
      (l.foldl push ⟨cap, []⟩).items = lastN cap l ∧ (l.foldl push ⟨cap, []⟩).cap = cap := by
    intro n
    induction n with
    | zero => intro l hl; have := List.length_eq_zero_iff.1 hl; subst this; simp [lastN]
    | succ n ih =>
      intro l hl
      have hne : l ≠ [] := by intro h; subst h; simp at hl
      obtain ⟨l', x, rfl⟩ : ∃ l' x, l = l' ++ [x] := ⟨l.dropLast, l.getLast hne, (List.dropLast_concat_getLast hne).symm⟩
      have hl' : l'.length = n := by simpa using hl
      obtain ⟨h1, h2⟩ := ih l' hl'
      rw [List.foldl_append]
      simp only [List.foldl_cons, List.foldl_nil, push, h2]
      rw [h1]
      have hlen : (lastN cap l').length = min n cap := by simp [lastN, hl']; omega
      split
      · rename_i hlt
        refine ⟨?_, rfl⟩
        simp only [lastN, List.length_append, List.length_cons, List.length_nil, hl']
        rw [hlen] at hlt
        have e1 : n - cap = 0 := by omega
        have e2 : n + 1 - cap = 0 := by omega
        simp [e1, e2]
      · rename_i hge
        refine ⟨?_, rfl⟩
        rw [hlen] at hge
        simp only [lastN, List.length_append, List.length_cons, List.length_nil, hl', List.tail_drop]
        have e1 : n - cap + 1 = n + 1 - cap := by omega
        rw [e1, List.drop_append_of_le_length (by omega)]
  exact key _ pushes rfl

theorem sumU64_eq (l : List Nat) (h : l.sum < 2 ^ 64) : sumU64 l = l.sum := by
  have key : ∀ (l : List Nat) (a : Nat), a + l.sum < 2 ^ 64 →
      l.foldl (fun a b => (a + b) % 2 ^ 64) a = a + l.sum := by
    intro l
    induction l with
    | nil => intro a _; simp
    | cons x r ih =>
      intro a h
      simp only [List.sum_cons] at h
      simp only [List.foldl_cons, List.sum_cons]
      rw [Nat.mod_eq_of_lt (by omega), ih _ (by omega)]
      omega
  have := key l 0 (by omega)
  simpa [sumU64] using this

theorem sum_le (l : List Nat) (b : Nat) (h : ∀ x ∈ l, x ≤ b) : l.sum ≤ l.length * b := by
  induction l with
  | nil => simp
  | cons x r ih =>
    have h1 := h x (by simp)
    have h2 := ih (fun y hy => h y (by simp [hy]))
    simp only [List.sum_cons, List.length_cons, Nat.add_mul]
    omega

theorem le_sum (l : List Nat) (b : Nat) (h : ∀ x ∈ l, b ≤ x) : l.length * b ≤ l.sum := by
  induction l with
  | nil => simp
  | cons x r ih =>
    have h1 := h x (by simp)
    have h2 := ih (fun y hy => h y (by simp [hy]))
    simp only [List.sum_cons, List.length_cons, Nat.add_mul]
    omega

/-- The exact value: the integer mean of the last `cap` runtimes in whole milliseconds. The code's claim that the sum does
not overflow is part of it: it holds whenever the runtimes are below 584554 years. -/
theorem mean_eq (cap : Nat) (h0 : 0 < cap) (h1 : cap ≤ 1000) (pushes : List Nat) (hs : ∀ d ∈ pushes, Sane d)
    (hne : pushes ≠ []) :
    mean (pushes.foldl push ⟨cap, []⟩)
      = .ok (((lastN cap pushes).map (· / 1000000)).sum / min cap pushes.length) := by
  have hi := (items_eq cap h0 pushes).1
  have hlen : (lastN cap pushes).length = min cap pushes.length := by simp [lastN]; omega
  have hpos : 0 < pushes.length := List.length_pos_iff.2 hne
  simp only [mean, hi, hlen]
  rw [if_pos (by omega), if_neg (by omega)]
  have hsub : ∀ d ∈ lastN cap pushes, Sane d := fun d hd => hs d (List.mem_of_mem_drop hd)
  have hmap : (lastN cap pushes).map millis = (lastN cap pushes).map (· / 1000000) := by
    apply List.map_congr_left
    intro d hd
    have := hsub d hd
    unfold Sane at this
    exact Nat.mod_eq_of_lt (by omega)
  rw [hmap, sumU64_eq]
  have hb := sum_le ((lastN cap pushes).map (· / 1000000)) (2 ^ 64 / 1000 - 1) (by
    intro x hx
    obtain ⟨d, hd, rfl⟩ := List.mem_map.1 hx
    have := hsub d hd
    unfold Sane at this
    omega)
  simp only [List.length_map, hlen] at hb
  have : min cap pushes.length * (2 ^ 64 / 1000 - 1) ≤ 1000 * (2 ^ 64 / 1000 - 1) := Nat.mul_le_mul_right _ (by omega)
  omega

/-- **C67.** With no sample the average is 0. Otherwise it lies between the smallest and the largest of the most recent
`cap` runtimes (in whole milliseconds): for all bounds `lo`, `hi` on those runtimes. -/
theorem mean_between (cap : Nat) (h0 : 0 < cap) (h1 : cap ≤ 1000) (pushes : List Nat) (hs : ∀ d ∈ pushes, Sane d) :
    (pushes = [] → mean (pushes.foldl push ⟨cap, []⟩) = .ok 0) ∧
    (pushes ≠ [] → ∃ m, mean (pushes.foldl push ⟨cap, []⟩) = .ok m ∧
      ∀ lo hi, (∀ d ∈ lastN cap pushes, lo ≤ d / 1000000 ∧ d / 1000000 ≤ hi) → lo ≤ m ∧ m ≤ hi) := by
  refine ⟨fun h => by subst h; rfl, fun hne => ⟨_, mean_eq cap h0 h1 pushes hs hne, fun lo hi hb => ?_⟩⟩
  have hlen : (lastN cap pushes).length = min cap pushes.length := by simp [lastN]; omega
  have hpos : 0 < pushes.length := List.length_pos_iff.2 hne
  have a := sum_le ((lastN cap pushes).map (· / 1000000)) hi (by
    intro x hx; obtain ⟨d, hd, rfl⟩ := List.mem_map.1 hx; exact (hb d hd).2)
  have b := le_sum ((lastN cap pushes).map (· / 1000000)) lo (by
    intro x hx; obtain ⟨d, hd, rfl⟩ := List.mem_map.1 hx; exact (hb d hd).1)
  simp only [List.length_map, hlen] at a b
  have hp : 0 < min cap pushes.length := by omega
  exact ⟨(Nat.le_div_iff_mul_le hp).2 (by rw [Nat.mul_comm]; exact b),
    Nat.div_le_of_le_mul a⟩

/-- **C67.** It depends on nothing older: two histories with the same last `cap` runtimes have the same average. -/
theorem mean_forgets (cap : Nat) (h0 : 0 < cap) (p q : List Nat) (h : lastN cap p = lastN cap q) :
    mean (p.foldl push ⟨cap, []⟩) = mean (q.foldl push ⟨cap, []⟩) := by
  unfold mean
  rw [(items_eq cap h0 p).1, (items_eq cap h0 q).1, h]

/-- The constructor succeeds exactly for the capacities 1 to 1000, with an empty buffer. -/
theorem new_iff (cap : Nat) (r : Ring) : mkNew cap = .ok r ↔ 0 < cap ∧ cap ≤ 1000 ∧ r = ⟨cap, []⟩ := by
  unfold mkNew
  split
  · split
    · simp; omega
    · simp only [Res.ok.injEq]
      constructor
      · rintro rfl; exact ⟨by omega, by omega, rfl⟩
      · rintro ⟨_, _, h⟩; exact h.symm
  · simp; omega

/-- The constructor used by the scheduler (capacity 100, sync.rs:143, 164) succeeds. -/
theorem new_100 : mkNew 100 = .ok ⟨100, []⟩ := by decide

example : mean ([9000000, 2000000, 3500000, 4999999].foldl push ⟨3, []⟩) = .ok 3 ∧
    lastN 3 [9000000, 2000000, 3500000, 4999999] = [2000000, 3500000, 4999999] := by decide
example : ∀ d ∈ [9000000, 2000000, 3500000, 4999999], Sane d := by simp only [Sane]; decide
example : lastN 2 [1, 2, 3] = lastN 2 [7, 7, 7, 2, 3] := by decide

end Verif.Props.Ring
