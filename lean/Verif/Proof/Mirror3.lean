import Verif.Proof.Mirror2

/-!
# Lemmas about console and mirror file: histories of a process
-/

namespace Verif.Mirror
open Verif

/-- There is a writer exactly when there is a path. -/
def Proc.Coh (s : Proc) : Prop := s.cur.isSome = s.dual.file.isSome

theorem Filed.isSome {x y : Option Buf} {b : Bytes} {r : Io} (h : Filed x y b r) : y.isSome = x.isSome := by
  cases x with
  | none => rw [h.1]
  | some f => obtain ⟨f', _, h1, _⟩ := h; rw [h1]; rfl

/-- What one operation does to the files. -/
structure Moved (s s' : Proc) (o : Op) (r : Io) (p : String) : Prop where
  coh : s'.Coh
  eager : s'.dual.eager = s.dual.eager
  cur : s'.cur = match o with | .setPath (some q) => some q | _ => s.cur
  grow : s.disk p <+: s'.disk p
  sub : s.disk p <+: s.text p
  text : r.good = true → s'.text p = s.text p ++ routed p s.cur [o]
  part : (s'.text p).Sublist (s.text p ++ routed p s.cur [o])
  flush : o = .flush → r.good = true → s'.disk p = s'.text p

theorem Proc.disk_sub (s : Proc) (p : String) : s.disk p <+: s.text p := by
  unfold Proc.disk Proc.text
  split
  · split
    · exact List.prefix_append _ _
    · exact List.prefix_refl _
  · exact List.prefix_refl _

theorem writeInto {s : Proc} (hc : s.Coh) (d : Dual) (b : Bytes) (r : Io) (hF : Filed s.dual.file d.file b r) (p : String) :
    ({ s with dual := d } : Proc).Coh ∧ s.disk p <+: ({ s with dual := d } : Proc).disk p ∧
    (r.good = true → ({ s with dual := d } : Proc).text p = s.text p ++ (if s.cur = some p then b else [])) ∧
    ∃ t, t <+: (if s.cur = some p then b else []) ∧ ({ s with dual := d } : Proc).text p = s.text p ++ t := by
  have hi := hF.isSome
  refine ⟨by unfold Proc.Coh at *; simp only; rw [hi]; exact hc, ?_⟩
  unfold Proc.disk Proc.text
  simp only
  unfold Proc.Coh at hc
  cases hcur : s.cur with
  | none =>
    refine ⟨?_, ?_, [], ?_⟩ <;> simp
  | some q =>
    rw [hcur] at hc
    cases hf : s.dual.file with
    | none => rw [hf] at hc; cases hc
    | some f =>
      rw [hf] at hF
      obtain ⟨f', k, h1, h2, h3, h4, h5⟩ := hF
      rw [h1]
      simp only [Option.some.injEq]
      by_cases hq : q = p
      · simp only [hq, if_true]
        refine ⟨h2.grow, fun hg => ?_, b.take k, List.take_prefix _ _, h4⟩
        rw [h4, h5 hg, List.take_length]
      · simp only [if_neg hq]
        exact ⟨List.prefix_refl _, fun _ => by simp, [], by simp, by simp⟩

theorem Proc.close_spec {s : Proc} (hc : s.Coh) (p : String) :
    s.close.1.cur = none ∧ s.close.1.dual.file = none ∧ s.close.1.dual.eager = s.dual.eager ∧ s.disk p <+: (s.close.1.closed p).got ∧
    (s.close.1.closed p).got <+: s.text p ∧ (s.close.2.good = true → (s.close.1.closed p).got = s.text p) := by
  unfold Proc.Coh at hc
  unfold Proc.close Proc.disk Proc.text
  cases hcur : s.cur with
  | none =>
    rw [hcur] at hc
    cases hf : s.dual.file with
    | some f => rw [hf] at hc; cases hc
    | none =>
      simp only
      simp [hcur, hf]
  | some q =>
    rw [hcur] at hc
    cases hf : s.dual.file with
    | none => rw [hf] at hc; cases hc
    | some f =>
      simp only
      obtain ⟨j1, j2, j3, j4, j5, _⟩ := f.flush_spec
      refine ⟨trivial, trivial, trivial, ?_⟩
      by_cases hq : q = p
      · subst hq
        simp only [if_true]
        refine ⟨j5.grow, ?_, fun hg => ?_⟩
        · rw [← j1]; exact List.prefix_append _ _
        · rw [← j1]; simp [Buf.all, j2 hg]
      · have hq' : ¬ p = q := fun h => hq h.symm
        simp only [if_neg hq, if_neg hq']
        simp

theorem Proc.step_spec {s : Proc} (hc : s.Coh) (o : Op) (p : String) : Moved s (s.step o).1 o (s.step o).2 p := by
  cases o with
  | setPath q =>
    cases q with
    | none =>
      exact ⟨hc, rfl, rfl, List.prefix_refl _, s.disk_sub p, fun _ => by simp [Proc.step, routed],
        by simp [Proc.step, routed], by simp⟩
    | some q =>
      obtain ⟨c1, c2, c3, c4, c5, c6⟩ := Proc.close_spec hc p
      have hd : (s.step (.setPath (some q))).1.disk p = (s.close.1.closed p).got := by
        simp only [Proc.step, Proc.disk]
        split
        · rename_i h; rw [h]
        · rfl
      have ht : (s.step (.setPath (some q))).1.text p = (s.close.1.closed p).got := by
        simp only [Proc.step, Proc.text, Buf.all]
        split
        · rename_i h; rw [h]; simp
        · rfl
      refine ⟨rfl, c3, rfl, by rw [hd]; exact c4, s.disk_sub p, ?_, ?_, by simp⟩
      · intro hg; rw [ht, c6 hg]; simp [routed]
      · rw [ht]; simp only [routed, List.append_nil]; exact c5.sublist
  | raw ps =>
    have h := (rawlog_spec ps s.dual)
    obtain ⟨w1, w2, w3, t, w4, w5⟩ := writeInto hc (rawlog s.dual ps).1 ps.flatten (rawlog s.dual ps).2 h.2.2 p
    exact ⟨w1, h.2.1, rfl, w2, s.disk_sub p, fun hg => by rw [routed, routed, List.append_nil]; exact w3 hg,
      by rw [routed, routed, List.append_nil, show (s.step (.raw ps)).1.text p = _ from w5]; exact (List.Sublist.refl _).append w4.sublist, by simp⟩
  | flush =>
    have h := s.dual.flush_spec
    obtain ⟨w1, w2, w3, t, w4, w5⟩ := writeInto hc s.dual.flush.1 [] s.dual.flush.2 h.1 p
    have ht : t = [] := by
      have : t <+: [] := by simpa using w4
      exact List.prefix_nil.1 this
    subst ht
    refine ⟨w1, h.2.2.1, rfl, w2, s.disk_sub p, fun _ => by simp only [routed]; exact w5,
      by simp only [routed]; rw [show (s.step .flush).1.text p = _ from w5]; exact List.Sublist.refl _, ?_⟩
    intro _ hg
    have hp := (h.2.2.2.1 hg).2
    simp only [Proc.step, Proc.disk, Proc.text]
    split
    · rename_i f h1 h2
      split
      · simp [Buf.all, hp f h2]
      · rfl
    · rfl

theorem Proc.run_spec : ∀ (os : List Op) (s : Proc), s.Coh → ∀ p, (s.run os).1.Coh ∧ s.disk p <+: (s.run os).1.disk p ∧
    ((s.run os).1.text p).Sublist (s.text p ++ routed p s.cur os) ∧
    ((∀ r ∈ (s.run os).2, r.good = true) → (s.run os).1.text p = s.text p ++ routed p s.cur os) := by
  intro os
  induction os with
  | nil => intro s hc p; exact ⟨hc, List.prefix_refl _, by simp [Proc.run, routed], fun _ => by simp [Proc.run, routed]⟩
  | cons o os ih =>
    intro s hc p
    have h := Proc.step_spec hc o p
    obtain ⟨i1, i2, i4, i3⟩ := ih (s.step o).1 h.coh p
    have hr : routed p s.cur (o :: os) = routed p s.cur [o] ++ routed p (s.step o).1.cur os := by
      rw [h.cur]
      cases o with
      | setPath q => cases q <;> simp [routed]
      | raw ps => simp [routed]
      | flush => simp [routed]
    refine ⟨i1, h.grow.trans i2, ?_, ?_⟩
    · rw [hr, ← List.append_assoc]
      exact i4.trans (h.part.append (List.Sublist.refl _))
    · intro hg
      simp only [Proc.run, List.mem_cons, forall_eq_or_imp] at hg ⊢
      rw [i3 hg.2, h.text hg.1, List.append_assoc, hr]

end Verif.Mirror
