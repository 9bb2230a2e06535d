import Verif.Spec.LogIo
import Verif.Proof.Mirror

/-!
# Lemmas about failing writes to the log file
-/

namespace Verif.LogIo
open Verif Verif.Json Verif.Mirror

variable {cap : Nat}

theorem writeAll_spec (hc : 0 < cap) : ∀ (fuel : Nat) (f : Buf) (b : Bytes), b.length + f.fd.plan.length ≤ fuel →
    (writeAll cap fuel f b).2 ≠ .stuck ∧ Kept f (writeAll cap fuel f b).1 ∧
    ((writeAll cap fuel f b).2.good = true → (writeAll cap fuel f b).1.all = f.all ++ b) ∧
    ∃ t, t <+: b ∧ (writeAll cap fuel f b).1.all = f.all ++ t := by
  intro fuel
  induction fuel with
  | zero =>
    intro f b hb
    have : b = [] := List.length_eq_zero_iff.1 (by omega)
    subst this
    exact ⟨by simp [writeAll], Kept.refl _, by simp [writeAll], [], List.prefix_refl _, by simp [writeAll]⟩
  | succ fuel ih =>
    intro f b hb
    cases b with
    | nil => exact ⟨by simp [writeAll], Kept.refl _, by simp [writeAll], [], List.prefix_refl _, by simp [writeAll]⟩
    | cons x xs =>
      have w := Buf.write_spec hc f (x :: xs)
      simp only [writeAll]
      cases hw : f.write cap (x :: xs) with
      | mk g r =>
        rw [hw] at w
        have wp := w.kept.plan
        simp only at wp
        cases r with
        | ok n =>
          obtain ⟨a1, a2⟩ := w.ok n rfl
          cases n with
          | zero => exact ⟨by simp, w.kept, by simp [Io.good], [], List.nil_prefix, by simpa using a2⟩
          | succ n =>
            simp only at a2 ⊢
            obtain ⟨i1, i2, i3, t, i4, i5⟩ := ih g ((x :: xs).drop (n + 1)) (by rw [List.length_drop]; rw [List.length_cons] at hb a1 ⊢; omega)
            refine ⟨i1, w.kept.trans i2, ?_, (x :: xs).take (n + 1) ++ t, ?_, ?_⟩
            · intro hg; rw [i3 hg, a2, List.append_assoc, List.take_append_drop]
            · conv => rhs; rw [← List.take_append_drop (n + 1) (x :: xs)]
              exact List.prefix_append_right_inj _ |>.2 i4
            · rw [i5, a2, List.append_assoc]
        | intr =>
          simp only
          have wi := w.intr rfl
          simp only at wi
          obtain ⟨i1, i2, i3, t, i4, i5⟩ := ih g (x :: xs) (by omega)
          have hg := w.err rfl
          simp only at hg
          exact ⟨i1, w.kept.trans i2, fun h => by rw [i3 h, hg], t, i4, by rw [i5, hg]⟩
        | stuck => exact absurd rfl w.stuck
        | zero => exact ⟨by simp, w.kept, by simp [Io.good], [], List.nil_prefix, by simpa using w.err rfl⟩
        | fail => exact ⟨by simp, w.kept, by simp [Io.good], [], List.nil_prefix, by simpa using w.err rfl⟩

theorem pieces_spec (hc : 0 < cap) : ∀ (bs : List Bytes) (f : Buf),
    (pieces cap f bs).2 ≠ .stuck ∧ Kept f (pieces cap f bs).1 ∧
    ((pieces cap f bs).2.good = true → (pieces cap f bs).1.all = f.all ++ bs.flatten) ∧
    ∃ t, t <+: bs.flatten ∧ (pieces cap f bs).1.all = f.all ++ t := by
  intro bs
  induction bs with
  | nil => intro f; exact ⟨by simp [pieces], Kept.refl _, by simp [pieces], [], List.prefix_refl _, by simp [pieces]⟩
  | cons b bs ih =>
    intro f
    obtain ⟨w1, w2, w3, t, w4, w5⟩ := writeAll_spec hc (b.length + f.fd.plan.length) f b (Nat.le_refl _)
    simp only [pieces]
    cases hw : writeAll cap (b.length + f.fd.plan.length) f b with
    | mk g r =>
      rw [hw] at w1 w2 w3 w5
      simp only at w1 w2 w3 w5
      cases r with
      | ok n =>
        simp only
        obtain ⟨i1, i2, i3, u, i4, i5⟩ := ih g
        have e := w3 rfl
        refine ⟨i1, w2.trans i2, ?_, b ++ u, ?_, ?_⟩
        · intro hg; rw [i3 hg, e, List.flatten_cons, List.append_assoc]
        · rw [List.flatten_cons]; exact (List.prefix_append_right_inj _).2 i4
        · rw [i5, e, List.append_assoc]
      | _ =>
        refine ⟨w1, w2, by simp [Io.good], t, ?_, w5⟩
        rw [List.flatten_cons]; exact w4.trans (List.prefix_append _ _)

/-- What one operation does to the file. -/
theorem step_spec (hc : 0 < cap) {l l' : Log} {op : Op} {io : Io} (hw : op.whole) (h : step cap l op = .ok (l', io)) :
    io ≠ .stuck ∧ Kept l.f l'.f ∧ l'.lf.entries = l.lf.entries ++ op.entry.toList ∧
    (io.good = true → l'.f.all = l.f.all ++ fileOf op.entry.toList) ∧ (io.good = true → op = .flush → l'.f.pend = []) ∧
    ∃ t, t <+: fileOf op.entry.toList ∧ l'.f.all = l.f.all ++ t := by
  cases op with
  | flush =>
    simp only [step, Res.ok.injEq, Prod.mk.injEq] at h
    obtain ⟨rfl, rfl⟩ := h
    obtain ⟨i1, i2, i3, i4, i5, _⟩ := l.f.flush_spec
    exact ⟨i3, i5, by simp [Op.entry], fun _ => by simp [i1, Op.entry, fileOf], fun hg _ => i2 hg, [], List.nil_prefix, by simp [i1]⟩
  | write e ps =>
    simp only [step] at h
    cases hl : l.lf.write e with
    | ok lf =>
      rw [hl] at h
      simp only [Res.ok.injEq, Prod.mk.injEq] at h
      obtain ⟨rfl, rfl⟩ := h
      obtain ⟨i1, i2, i3, t, i4, i5⟩ := pieces_spec hc (ps ++ [[10]]) l.f
      have hf : (ps ++ [[10]]).flatten = fileOf [e] := by
        rw [List.flatten_append]; simp only [Op.whole] at hw; rw [hw]; simp [fileOf, lineBytes]
      rw [hf] at i3 i4
      refine ⟨i1, i2, ?_, i3, fun _ => by simp, t, i4, i5⟩
      simp only [LogFile.write] at hl
      cases hm : l.lf.mem.write e with
      | ok m => rw [hm] at hl; simp only [Res.bind, Res.ok.injEq] at hl; subst hl; rfl
      | err x => rw [hm] at hl; simp [Res.bind] at hl
      | panic x => rw [hm] at hl; simp [Res.bind] at hl
    | err x => rw [hl] at h; cases h
    | panic x => rw [hl] at h; cases h

theorem fileOf_append (a b : List LogEntry) : fileOf (a ++ b) = fileOf a ++ fileOf b := by simp [fileOf]

theorem entries_cons (x : Op × Io) (ops : List (Op × Io)) : entries (x :: ops) = x.1.entry.toList ++ entries ops := by
  unfold entries
  rw [List.filterMap_cons]
  cases x.1.entry <;> rfl

theorem entries_append (a b : List (Op × Io)) : entries (a ++ b) = entries a ++ entries b := by simp [entries]

theorem Runs.append {l l1 l2 : Log} {a b : List (Op × Io)} (h : Runs cap l a l1) (h' : Runs cap l1 b l2) : Runs cap l (a ++ b) l2 := by
  induction h with
  | nil => exact h'
  | cons hw hs _ ih => exact .cons hw hs (ih h')

theorem Runs.split {l l2 : Log} {a b : List (Op × Io)} (h : Runs cap l (a ++ b) l2) : ∃ l1, Runs cap l a l1 ∧ Runs cap l1 b l2 := by
  induction a generalizing l with
  | nil => exact ⟨l, .nil _, h⟩
  | cons x a ih =>
    cases h with
    | cons hw hs hr =>
      obtain ⟨l1, h1, h2⟩ := ih hr
      exact ⟨l1, .cons hw hs h1, h2⟩

theorem Runs.kept (hc : 0 < cap) {l l' : Log} {ops : List (Op × Io)} (h : Runs cap l ops l') : Kept l.f l'.f := by
  induction h with
  | nil => exact Kept.refl _
  | cons hw hs _ ih => exact (step_spec hc hw hs).2.1.trans ih

theorem Runs.entries (hc : 0 < cap) {l l' : Log} {ops : List (Op × Io)} (h : Runs cap l ops l') : l'.lf.entries = l.lf.entries ++ LogIo.entries ops := by
  induction h with
  | nil => simp [LogIo.entries]
  | cons hw hs _ ih => rw [ih, (step_spec hc hw hs).2.2.1, entries_cons, List.append_assoc]

theorem Runs.good (hc : 0 < cap) {l l' : Log} {ops : List (Op × Io)} (h : Runs cap l ops l') (hg : AllGood ops) :
    l'.f.all = l.f.all ++ fileOf (LogIo.entries ops) := by
  induction h with
  | nil => simp [LogIo.entries, fileOf]
  | cons hw hs _ ih =>
    rw [ih (fun x hx => hg x (List.mem_cons_of_mem _ hx)), (step_spec hc hw hs).2.2.2.1 (hg _ (List.mem_cons_self ..)), entries_cons, fileOf_append,
      List.append_assoc]

theorem AllGood.left {a b : List (Op × Io)} (h : AllGood (a ++ b)) : AllGood a := fun x hx => h x (List.mem_append_left _ hx)

/-- All but the last operation succeeded: a beginning of what was to be written. -/
theorem Runs.almost (hc : 0 < cap) {l l' : Log} {ops : List (Op × Io)} (h : Runs cap l ops l') (hg : AllGood ops.dropLast) :
    ∃ t, t <+: fileOf (LogIo.entries ops) ∧ l'.f.all = l.f.all ++ t := by
  rcases List.eq_nil_or_concat ops with rfl | ⟨ops, x, rfl⟩
  · cases h; exact ⟨[], List.nil_prefix, by simp⟩
  · rw [List.concat_eq_append] at h hg ⊢
    rw [List.dropLast_concat] at hg
    obtain ⟨l1, h1, h2⟩ := h.split
    cases h2 with
    | cons hw hs hr =>
      cases hr
      obtain ⟨_, _, _, _, _, t, h5, h6⟩ := step_spec hc hw hs
      refine ⟨fileOf (LogIo.entries ops) ++ t, ?_, by rw [h6, h1.good hc hg, List.append_assoc]⟩
      rw [entries_append, fileOf_append]
      refine (List.prefix_append_right_inj _).2 ?_
      rw [entries_cons, fileOf_append]
      exact h5.trans (List.prefix_append _ _)

theorem killed_prefix (l : Log) : l.killed <+: l.f.all := List.prefix_append _ _

theorem dropped_prefix (l : Log) : l.killed <+: l.dropped ∧ l.dropped <+: l.f.all := by
  obtain ⟨i1, _, _, _, i5, _⟩ := l.f.flush_spec
  exact ⟨i5.grow, by rw [← i1]; exact List.prefix_append _ _⟩

theorem writeAll_willing (hc : 0 < cap) : ∀ (fuel : Nat) (f : Buf) (b : Bytes), b.length + f.fd.plan.length ≤ fuel → Willing f.fd.plan →
    (writeAll cap fuel f b).2.good = true ∧ Willing (writeAll cap fuel f b).1.fd.plan := by
  intro fuel
  induction fuel with
  | zero =>
    intro f b hb h
    have : b = [] := List.length_eq_zero_iff.1 (by omega)
    subst this
    exact ⟨by simp [writeAll, Io.good], by simpa [writeAll] using h⟩
  | succ fuel ih =>
    intro f b hb h
    cases b with
    | nil => exact ⟨by simp [writeAll, Io.good], by simpa [writeAll] using h⟩
    | cons x xs =>
      have w := Buf.write_spec hc f (x :: xs)
      obtain ⟨h1, h2⟩ := write_willing (cap := cap) h (b := x :: xs) (by simp)
      simp only [writeAll]
      cases hw : f.write cap (x :: xs) with
      | mk g r =>
        rw [hw] at w h1 h2
        have wp := w.kept.plan
        simp only at wp h1 h2
        rcases h2 with rfl | ⟨n, rfl⟩
        · have wi := w.intr rfl
          simp only at wi ⊢
          exact ih g (x :: xs) (by omega) h1
        · have hn := (w.ok (n + 1) rfl).1
          simp only
          exact ih g _ (by rw [List.length_drop]; rw [List.length_cons] at hb hn ⊢; omega) h1

theorem pieces_willing (hc : 0 < cap) : ∀ (bs : List Bytes) (f : Buf), Willing f.fd.plan →
    (pieces cap f bs).2.good = true ∧ Willing (pieces cap f bs).1.fd.plan := by
  intro bs
  induction bs with
  | nil => intro f h; exact ⟨rfl, h⟩
  | cons b bs ih =>
    intro f h
    obtain ⟨h1, h2⟩ := writeAll_willing hc (b.length + f.fd.plan.length) f b (Nat.le_refl _) h
    simp only [pieces]
    cases hw : writeAll cap (b.length + f.fd.plan.length) f b with
    | mk g r =>
      rw [hw] at h1 h2
      cases r with
      | ok n => exact ih g h2
      | _ => simp [Io.good] at h1

theorem step_willing (hc : 0 < cap) {l l' : Log} {op : Op} {io : Io} (h : step cap l op = .ok (l', io)) (hp : Willing l.f.fd.plan) :
    io.good = true ∧ Willing l'.f.fd.plan := by
  cases op with
  | flush =>
    simp only [step, Res.ok.injEq, Prod.mk.injEq] at h
    obtain ⟨rfl, rfl⟩ := h
    obtain ⟨h1, h2⟩ := flushGo_willing l.f.fd.plan l.f.fd.got l.f.pend hp
    exact ⟨by simp only [Buf.flush, h1, Io.good], h2⟩
  | write e ps =>
    simp only [step] at h
    cases hl : l.lf.write e with
    | ok lf =>
      rw [hl] at h
      simp only [Res.ok.injEq, Prod.mk.injEq] at h
      obtain ⟨rfl, rfl⟩ := h
      exact pieces_willing hc _ _ hp
    | err x => rw [hl] at h; cases h
    | panic x => rw [hl] at h; cases h

end Verif.LogIo
