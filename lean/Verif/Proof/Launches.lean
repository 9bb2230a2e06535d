import Verif.Spec.Launches
import Verif.Spec.RateCounter
import Verif.Proof.Average

/-!
# The rate counter follows the trace
-/

namespace Verif.Launches
open Verif Verif.Tracker

variable {c : Cfg} {lf : LogFile} {now : Int}

theorem step_tr {s s' : State} {a : Act} (h : step c s a = .ok s') : Tracker.step c s.tr a = .ok s'.tr ∧ s'.ctr = ctrAfter s a := by
  unfold step at h
  obtain ⟨t, h1, h2⟩ := Res.bind_ok.1 h
  simp only [Res.ok.injEq] at h2; subst h2
  exact ⟨h1, rfl⟩

theorem Runs.tr {s s' : State} {as : List Act} (h : Runs c s as s') : Tracker.Runs c s.tr as s'.tr := by
  induction h with
  | nil => exact .nil _
  | cons hd hs _ ih => exact .cons hd (step_tr hs).1 ih

theorem runs_of_tr {as : List Act} : ∀ {s : State} {t : Tracker.State}, Tracker.Runs c s.tr as t → ∃ r, Runs c s as ⟨t, r⟩ := by
  induction as with
  | nil => intro s t h; cases h; exact ⟨s.ctr, .nil _⟩
  | cons a as ih =>
    intro s t h
    cases h with
    | @cons _ t1 _ _ _ hd hs hr =>
      obtain ⟨r, h⟩ := ih (s := ⟨t1, ctrAfter s a⟩) hr
      exact ⟨r, .cons hd (by simp [step, hs, Res.bind]) h⟩

theorem ctr_step {s s' : State} {a : Act} (h : step c s a = .ok s') :
    s'.ctr = RateCounter.after s.ctr ((((obsOf s.tr a).filterMap Obs.got?).map (fun x => (s.tr.now, x.2))).map (fun x => secs x.1)) := by
  obtain ⟨h1, h2⟩ := step_tr h
  rw [h2]
  cases a with
  | account i =>
    simp only [Tracker.step] at h1
    split at h1
    · cases h1
    · rename_i r it hc
      simp [ctrAfter, obsOf, hc, Obs.got?, RateCounter.after]
  | recvFinished o t =>
    simp only [ctrAfter, obsOf]
    split <;> rfl
  | _ => rfl

theorem ctr_runs {s s' : State} {as : List Act} (h : Runs c s as s') :
    s'.ctr = RateCounter.after s.ctr ((launches c s.tr as).map (fun x => secs x.1)) := by
  induction h with
  | nil => rfl
  | @cons s s1 s2 a as _ hs _ ih =>
    rw [ih, ctr_step hs]
    simp only [launches, (step_tr hs).1, List.map_append, RateCounter.after, List.foldl_append]

theorem launches_tasks {as : List Act} : ∀ {s s' : Tracker.State}, Tracker.Runs c s as s' →
    s'.obtained.map (·.2) = s.obtained.map (·.2) ++ (launches c s as).map (·.2) := by
  induction as with
  | nil => intro s s' h; cases h; simp [launches]
  | cons a as ih =>
    intro s s' h
    cases h with
    | @cons _ s1 _ _ _ hd hs hr =>
      rw [ih hr, (step_ghosts hs).1]
      simp only [launches, hs, List.map_append, List.append_assoc, List.map_map]
      congr 1

theorem secs_mono {a b : Int} (h : a ≤ b) : secs a ≤ secs b := by
  unfold secs
  have : (a : ℝ) ≤ (b : ℝ) := by exact_mod_cast h
  exact div_le_div_of_nonneg_right this (by norm_num)

theorem last_append (t : ℝ) (l r : List ℝ) : RateCounter.last t (l ++ r) = RateCounter.last (RateCounter.last t l) r := by
  induction l generalizing t with
  | nil => rfl
  | cons x l ih => exact ih x

theorem inOrder_append (t : ℝ) (l r : List ℝ) :
    RateCounter.InOrder t (l ++ r) ↔ RateCounter.InOrder t l ∧ RateCounter.InOrder (RateCounter.last t l) r := by
  induction l generalizing t with
  | nil => simp [RateCounter.InOrder, RateCounter.last]
  | cons x l ih => simp only [List.cons_append, RateCounter.InOrder, RateCounter.last, ih, and_assoc]

theorem const_inOrder (t u : ℝ) (h : t ≤ u) (l : List ℝ) (hl : ∀ x ∈ l, x = u) :
    RateCounter.InOrder t l ∧ RateCounter.last t l ≤ u := by
  induction l generalizing t with
  | nil => exact ⟨trivial, h⟩
  | cons x l ih =>
    have hx := hl x (by simp)
    subst hx
    obtain ⟨h1, h2⟩ := ih x (le_refl _) (fun y hy => hl y (by simp [hy]))
    exact ⟨⟨h, h1⟩, h2⟩

/-- The moments come in order, none after the present. -/
theorem launches_inOrder {as : List Act} : ∀ {s s' : Tracker.State} {t : ℝ}, Tracker.Runs c s as s' → s'.pc ≠ .done → t ≤ secs s.now →
    RateCounter.InOrder t ((launches c s as).map (fun x => secs x.1)) ∧
    RateCounter.last t ((launches c s as).map (fun x => secs x.1)) ≤ secs s'.now := by
  induction as with
  | nil => intro s s' t h _ ht; cases h; exact ⟨trivial, ht⟩
  | cons a as ih =>
    intro s s' t h hd ht
    cases h with
    | @cons _ s1 _ _ _ hdis hs hr =>
      have hn := Average.now_step hs (hr.notDone hd)
      simp only [launches, hs, List.map_append, inOrder_append, last_append]
      obtain ⟨h1, h2⟩ := const_inOrder t (secs s.now) ht
        ((((obsOf s a).filterMap Obs.got?).map (fun x => (s.now, x.2))).map (fun x => secs x.1)) (by
          intro x hx
          simp only [List.map_map, List.mem_map] at hx
          obtain ⟨y, _, rfl⟩ := hx
          rfl)
      obtain ⟨h3, h4⟩ := ih hr hd (le_trans h2 (secs_mono hn))
      exact ⟨⟨h1, h3⟩, h4⟩

end Verif.Launches
