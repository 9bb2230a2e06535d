import Verif.Proof.Fairly2
import Verif.Proof.System6

/-!
# Silent connections end

With handlers that are prompt, and a reaper whose clock goes on, a connection that falls silent is removed: it is as good as one
that ends.
-/

namespace Verif.Sys
open Verif Verif.Tracker

variable {c : Cfg} {lf : LogFile} {now : Int} {s s' : State} {σ : Nat → State} {α : Nat → Act}

/-- What never happens is not collected. -/
theorem collect_nil {β : Type} {f : State → Act → List β} (hn : ∀ k, step c (σ k) (α k) = .ok (σ (k + 1))) (j : Nat)
    (hf : ∀ i, j ≤ i → f (σ i) (α i) = []) : ∀ k, collect f c (σ j) ((List.range k).map (fun i => α (j + i))) = [] := by
  intro k
  induction k generalizing j with
  | zero => rfl
  | succ k ih =>
    rw [List.range_succ_eq_map, List.map_cons, collect, Nat.add_zero, hf j (Nat.le_refl _), hn j, List.nil_append, List.map_map]
    have := ih (j + 1) (fun i hi => hf i (by omega))
    simp only [Function.comp_def]
    rw [← this]
    congr 2
    funext i
    congr 1
    omega

/-- What happens again and again happens any number of times. -/
theorem often (P : Act → Bool) (h : ∀ k, ∃ j, k ≤ j ∧ P (α j) = true) (j : Nat) :
    ∀ n, ∃ k, n ≤ ((List.range k).map (fun i => α (j + i))).countP P := by
  intro n
  induction n with
  | zero => exact ⟨0, Nat.zero_le _⟩
  | succ n ih =>
    obtain ⟨k, hk⟩ := ih
    obtain ⟨m, h1, h2⟩ := h (j + k)
    refine ⟨m - j + 1, ?_⟩
    have hmono : ∀ a b, a ≤ b → ((List.range a).map (fun i => α (j + i))).countP P ≤ ((List.range b).map (fun i => α (j + i))).countP P := by
      intro a b hab
      refine List.Sublist.countP_le ((List.range_sublist.2 hab).map _)
    have := hmono k (m - j) (by omega)
    rw [List.range_succ, List.map_append, List.countP_append]
    have : (List.map (fun i => α (j + i)) [m - j]).countP P = 1 := by
      simp only [List.map_cons, List.map_nil]
      rw [show j + (m - j) = m by omega, List.countP_cons, h2]
      rfl
    omega

variable (hg : Good c.tr) (hdisp : Displayable c.tr) (hst : Startable c)
include hg hdisp hst

/-- **The end, with silent connections.** -/
theorem just_ends_silent (hord : Ordered c.tr) (hne : c.tr.g.n ≠ 0) (h : InfRun c lf now σ α) (hj : Justly c σ α)
    (hclock : Strong c σ α (fun _ a => isReapTick a)) (hprompt : ∀ k, slowTick (σ k) (α k) = [])
    (hco : Cooperative c σ α) (ha : ∀ k, isTrigger (α k) = false ∧ isDie (α k) = false) (hin : ∀ k, Intact (σ k))
    (hends : ConnsEndOrSilent c σ α) : ∃ k, (σ k).tr.pc = .done := by
  refine just_core hg hdisp hst hord hne h hj hco ha hin (fun K txn hall hidle => ?_)
  have hstep := fun k => (h.next k).2
  have hidle : ∀ M, ∃ j, M ≤ j ∧ (σ j).reaper = .idle := by
    intro M
    obtain ⟨j, h1, h2⟩ := hidle (max M K)
    have h3 := Nat.le_max_left M K
    have h4 := Nat.le_max_right M K
    rcases h2 with h2 | h2
    · exact ⟨j, by omega, h2⟩
    · exfalso
      obtain ⟨_, h5, h6⟩ := hall j (by omega)
      rcases stopped_why hg (h.prefix j) h2 with h7 | h7
      · have := (NoServer.init (lf := lf) (now := now) h7).runs (h.prefix j)
        rw [this.conns] at h6
        cases h6
      · exact h5 h7
  obtain ⟨j, h1, h2⟩ := hends K txn (hall K (Nat.le_refl _)).2.2
  rcases h2 with h2 | h2 | h2
  · exact h2 (hall j h1).2.2
  · exact (hall j h1).2.1 h2
  have htick : ∀ k, ∃ j, k ≤ j ∧ isReapTick (α j) = true := by
    refine hclock (fun k => ?_)
    obtain ⟨j, h3, h4⟩ := hidle k
    exact ⟨j, h3, .reapTick, _, rfl, by simp only [step, h4]; rfl⟩
  obtain ⟨n, hn⟩ := often isReapTick htick j 255
  obtain ⟨m, h3, h4⟩ := hidle (j + n)
  have hr := h.prefix j
  have hb := h.from j (m - j)
  rw [show j + (m - j) = m by omega] at hb
  have hpr : Prompt c (init c lf now) ((List.range j).map α) := by
    have := collect_nil (c := c) (f := slowTick) hstep 0 (fun i _ => hprompt i) j
    rw [h.start] at this
    simpa [Prompt] using this
  obtain ⟨p, b, h5, _⟩ := WatchS.runs hg ⟨[], .nil _⟩ WatchS.init hr hpr
  obtain ⟨p2, b2, h6, h7⟩ := h5.runs hg ⟨_, hr⟩ hb (collect_nil hstep j (fun i _ => hprompt i) (m - j))
  have hcnt : 255 ≤ ((List.range (m - j)).map (fun i => α (j + i))).countP isReapTick :=
    Nat.le_trans hn (List.Sublist.countP_le ((List.range_sublist.2 (by omega)).map _))
  obtain ⟨x, hx, rfl⟩ := List.mem_map.1 (hall m (by omega)).2.2
  rcases h6.conn x hx with ⟨t, ht, _, _, e⟩ | ⟨_, e⟩
  · have := (h6.rel.left t ht).1
    rw [h7 _ (collect_nil hstep j h2 (m - j))] at e
    omega
  · rw [h4] at e; cases e

end Verif.Sys
