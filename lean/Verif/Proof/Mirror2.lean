import Verif.Proof.Mirror

/-!
# Lemmas about console and mirror file: whole texts
-/

namespace Verif.Mirror
open Verif

/-- What became of the file. -/
def Filed (x y : Option Buf) (b : Bytes) (r : Io) : Prop :=
  match x with
  | none => y = none ∧ (r.good = true → b = [])
  | some f => ∃ f' k, y = some f' ∧ Kept f f' ∧ k ≤ b.length ∧ f'.all = f.all ++ b.take k ∧ (r.good = true → k = b.length)

theorem Filed.same (x : Option Buf) (r : Io) : Filed x x [] r := by
  cases x with
  | none => exact ⟨rfl, fun _ => rfl⟩
  | some f => exact ⟨f, 0, rfl, Kept.refl f, by simp, by simp, fun _ => rfl⟩

theorem Filed.same' (f : Buf) (b : Bytes) {r : Io} (hr : r.good = false) : Filed (some f) (some f) b r :=
  ⟨f, 0, rfl, Kept.refl f, Nat.zero_le _, by simp, by simp [hr]⟩

theorem Dual.write_spec (d : Dual) (b : Bytes) :
    (d.write b).2 ≠ .stuck ∧ (d.write b).1.answers ≤ d.answers ∧ ((d.write b).2 = .intr → (d.write b).1.answers < d.answers) ∧
    (d.write b).1.eager = d.eager ∧
    (d.file = none → (d.write b).1.file = none ∧ ∀ n, (d.write b).2 = .ok n → n = 0) ∧
    ∀ f, d.file = some f → ∃ f', (d.write b).1.file = some f' ∧ Kept f f' ∧
      (∀ n, (d.write b).2 = .ok n → n ≤ b.length ∧ f'.all = f.all ++ b.take n) ∧ ((d.write b).2.good = false → f'.all = f.all) := by
  have ht := Buf.lineWrite_tame d.eager d.console b
  unfold Dual.write
  cases hc : d.console.lineWrite d.eager consoleCap b with
  | mk c r =>
    rw [hc] at ht
    have hpl : c.fd.plan.length ≤ d.console.fd.plan.length := ht.kept.plan
    have other : r.good = false → ∀ (hr : r ≠ .stuck), ((({ d with console := c } : Dual), r) : Dual × Io).2 ≠ .stuck ∧
        ({ d with console := c } : Dual).answers ≤ d.answers ∧ (r = .intr → ({ d with console := c } : Dual).answers < d.answers) ∧
        ({ d with console := c } : Dual).eager = d.eager ∧
        (d.file = none → ({ d with console := c } : Dual).file = none ∧ ∀ n, r = .ok n → n = 0) ∧
        ∀ f, d.file = some f → ∃ f', ({ d with console := c } : Dual).file = some f' ∧ Kept f f' ∧
          (∀ n, r = .ok n → n ≤ b.length ∧ f'.all = f.all ++ b.take n) ∧ (r.good = false → f'.all = f.all) := by
      intro hg hr
      refine ⟨hr, ?_, ?_, rfl, ?_, ?_⟩
      · simp only [Dual.answers]; omega
      · intro hi; have := ht.intr hi; simp only [Dual.answers]; simp only at this; omega
      · intro hf; exact ⟨hf, fun n hn => by subst hn; simp [Io.good] at hg⟩
      · intro f hf; exact ⟨f, hf, Kept.refl f, fun n hn => by subst hn; simp [Io.good] at hg, fun _ => rfl⟩
    cases r with
    | ok n =>
      simp only
      cases hf : d.file with
      | none =>
        refine ⟨by simp, ?_, by simp, rfl, fun _ => ⟨rfl, fun n hn => by simpa using hn.symm⟩, by simp⟩
        simp only [Dual.answers, hf]; omega
      | some f =>
        have hw := Buf.write_spec (cap := fileCap) (by decide) f b
        have hk := hw.kept.plan
        refine ⟨hw.stuck, ?_, ?_, rfl, by simp, ?_⟩
        · simp only [Dual.answers, hf]; omega
        · intro hi; have := hw.intr hi; simp only [Dual.answers, hf]; omega
        · intro f1 hf1
          simp only [Option.some.injEq] at hf1; subst hf1
          exact ⟨_, rfl, hw.kept, hw.ok, hw.err⟩
    | intr => exact other rfl (by simp)
    | zero => exact other rfl (by simp)
    | fail => exact other rfl (by simp)
    | stuck => exact absurd rfl ht.stuck

theorem writeAll_spec : ∀ (fuel : Nat) (d : Dual) (b : Bytes), b.length + d.answers ≤ fuel →
    (writeAll fuel d b).2 ≠ .stuck ∧ (writeAll fuel d b).1.answers ≤ d.answers ∧ (writeAll fuel d b).1.eager = d.eager ∧
    Filed d.file (writeAll fuel d b).1.file b (writeAll fuel d b).2 := by
  intro fuel
  induction fuel with
  | zero =>
    intro d b hb
    have : b = [] := List.length_eq_zero_iff.1 (by omega)
    subst this
    refine ⟨by simp [writeAll], by simp [writeAll], rfl, ?_⟩
    simp only [writeAll]
    exact Filed.same _ _
  | succ fuel ih =>
    intro d b hb
    cases b with
    | nil =>
      refine ⟨by simp [writeAll], by simp [writeAll], rfl, ?_⟩
      simp only [writeAll]
      exact Filed.same _ _
    | cons x xs =>
      obtain ⟨w1, w2, w3, w4, w5, w6⟩ := Dual.write_spec d (x :: xs)
      simp only [writeAll]
      cases hw : d.write (x :: xs) with
      | mk d1 r =>
        rw [hw] at w1 w2 w3 w4 w5 w6
        simp only at w1 w2 w3 w4 w5 w6
        cases r with
        | ok n =>
          cases n with
          | zero =>
            refine ⟨by simp, w2, w4, ?_⟩
            simp only [Filed]
            split
            · rename_i hf; exact ⟨(w5 hf).1, by simp [Io.good]⟩
            · rename_i f hf
              obtain ⟨f', a1, a2, a3, _⟩ := w6 f hf
              exact ⟨f', 0, a1, a2, Nat.zero_le _, (a3 0 rfl).2, by simp [Io.good]⟩
          | succ n =>
            simp only
            obtain ⟨i1, i2, i3, i4⟩ := ih d1 ((x :: xs).drop (n + 1)) (by
              simp only [List.length_drop, List.length_cons] at hb ⊢; omega)
            refine ⟨i1, by omega, by rw [i3, w4], ?_⟩
            simp only [Filed] at i4 ⊢
            split
            · rename_i hf
              have := (w5 hf).2 (n + 1) rfl
              omega
            · rename_i f hf
              obtain ⟨f', a1, a2, a3, _⟩ := w6 f hf
              obtain ⟨a4, a5⟩ := a3 (n + 1) rfl
              rw [a1] at i4
              obtain ⟨f'', k, b1, b2, b3, b4, b5⟩ := i4
              refine ⟨f'', n + 1 + k, b1, a2.trans b2, ?_, ?_, ?_⟩
              · simp only [List.length_drop] at b3; omega
              · rw [b4, a5, List.append_assoc, ← List.take_add]
              · intro hg; have := b5 hg; simp only [List.length_drop] at this; omega
        | intr =>
          simp only
          have := w3 rfl
          obtain ⟨i1, i2, i3, i4⟩ := ih d1 (x :: xs) (by omega)
          refine ⟨i1, by omega, by rw [i3, w4], ?_⟩
          simp only [Filed] at i4 ⊢
          split
          · rename_i hf
            rw [(w5 hf).1] at i4
            exact i4
          · rename_i f hf
            obtain ⟨f', a1, a2, _, a4⟩ := w6 f hf
            rw [a1] at i4
            obtain ⟨f'', k, b1, b2, b3, b4, b5⟩ := i4
            exact ⟨f'', k, b1, a2.trans b2, b3, by rw [b4, a4 rfl], b5⟩
        | zero =>
          refine ⟨by simp, w2, w4, ?_⟩
          simp only [Filed]
          split
          · rename_i hf; exact ⟨(w5 hf).1, by simp [Io.good]⟩
          · rename_i f hf
            obtain ⟨f', a1, a2, _, a4⟩ := w6 f hf
            exact ⟨f', 0, a1, a2, Nat.zero_le _, by rw [a4 rfl]; simp, by simp [Io.good]⟩
        | fail =>
          refine ⟨by simp, w2, w4, ?_⟩
          simp only [Filed]
          split
          · rename_i hf; exact ⟨(w5 hf).1, by simp [Io.good]⟩
          · rename_i f hf
            obtain ⟨f', a1, a2, _, a4⟩ := w6 f hf
            exact ⟨f', 0, a1, a2, Nat.zero_le _, by rw [a4 rfl]; simp, by simp [Io.good]⟩
        | stuck => exact absurd rfl w1

theorem rawlog_spec : ∀ (ps : List Bytes) (d : Dual), (rawlog d ps).2 ≠ .stuck ∧ (rawlog d ps).1.eager = d.eager ∧
    Filed d.file (rawlog d ps).1.file ps.flatten (rawlog d ps).2 := by
  intro ps
  induction ps with
  | nil =>
    intro d
    refine ⟨by simp [rawlog], rfl, ?_⟩
    simp only [rawlog]
    exact Filed.same _ _
  | cons b ps ih =>
    intro d
    obtain ⟨w1, w2, w3, w4⟩ := writeAll_spec (b.length + d.answers + 1) d b (by omega)
    simp only [rawlog]
    cases hw : writeAll (b.length + d.answers + 1) d b with
    | mk d1 r =>
      rw [hw] at w1 w3 w4
      simp only at w1 w3 w4
      have other : r.good = false → Filed d.file d1.file (b :: ps).flatten r := by
        intro hg
        simp only [Filed] at w4 ⊢
        split at w4
        · exact ⟨w4.1, by simp [hg]⟩
        · obtain ⟨f', k, b1, b2, b3, b4, b5⟩ := w4
          refine ⟨f', k, b1, b2, by simp; omega, ?_, by simp [hg]⟩
          rw [b4, List.flatten_cons, List.take_append_of_le_length b3]
      cases r with
      | ok n =>
        simp only
        obtain ⟨i1, i2, i3⟩ := ih d1
        refine ⟨i1, by rw [i2, w3], ?_⟩
        simp only [Filed] at i3 w4 ⊢
        cases hf : d.file with
        | none =>
          rw [hf] at w4
          obtain ⟨a1, a2⟩ := w4
          rw [a1] at i3
          exact ⟨i3.1, fun hg => by rw [List.flatten_cons, a2 rfl, i3.2 hg]; rfl⟩
        | some f =>
          rw [hf] at w4
          obtain ⟨f', k, b1, b2, b3, b4, b5⟩ := w4
          rw [b1] at i3
          obtain ⟨f'', k', c1, c2, c3, c4, c5⟩ := i3
          have hk := b5 rfl
          refine ⟨f'', k + k', c1, b2.trans c2, ?_, ?_, ?_⟩
          · simp only [List.flatten_cons, List.length_append]; omega
          · rw [c4, b4, hk, List.take_length, List.flatten_cons, List.append_assoc, List.take_length_add_append]
          · intro hg; have := c5 hg; simp only [List.flatten_cons, List.length_append]; omega
      | intr => exact ⟨by simp, w3, other rfl⟩
      | zero => exact ⟨by simp, w3, other rfl⟩
      | fail => exact ⟨by simp, w3, other rfl⟩
      | stuck => exact absurd rfl w1

theorem kept_nil (eager : Bool) : kept eager [] = [] := by simp [kept]

/-- Nothing goes wrong: one piece. -/
theorem writeAll_full : ∀ (b : Bytes) (d : Dual) (f : Buf) (fuel : Nat), d.console.fd.plan = [] → d.file = some f → f.fd.plan = [] →
    ∃ d' f', writeAll (b.length + fuel + 1) d b = (d', .ok 0) ∧ d'.eager = d.eager ∧ d'.console.fd.plan = [] ∧
      d'.console.all = d.console.all ++ kept d.eager b ∧ d'.file = some f' ∧ f'.fd.plan = [] := by
  intro b d f fuel hc hf hp
  cases b with
  | nil => exact ⟨d, f, by simp [writeAll], rfl, hc, by simp [kept_nil], hf, hp⟩
  | cons x xs =>
    obtain ⟨c', n, h1, h2, h3⟩ := Buf.lineWrite_full d.eager d.console (x :: xs) hc
    obtain ⟨f', g1, g2, g3⟩ := Buf.write_full (cap := fileCap) f (x :: xs) hp (by decide)
    have hw : d.write (x :: xs) = ({ d with console := c', file := some f' }, .ok (xs.length + 1)) := by
      simp only [Dual.write, h1, hf, g1, List.length_cons]
    refine ⟨{ d with console := c', file := some f' }, f', ?_, rfl, h2, h3, rfl, g2⟩
    simp only [writeAll, hw]
    have : (x :: xs).drop (xs.length + 1) = [] := by simp
    rw [this]
    cases (x :: xs).length + fuel <;> rfl

/-- Nothing goes wrong: both take everything. -/
theorem rawlog_full : ∀ (ps : List Bytes) (d : Dual) (f : Buf), d.console.fd.plan = [] → d.file = some f → f.fd.plan = [] →
    (rawlog d ps).2.good = true ∧ (rawlog d ps).1.console.fd.plan = [] ∧
    (rawlog d ps).1.console.all = d.console.all ++ ps.flatMap (kept d.eager) ∧ ∃ f', (rawlog d ps).1.file = some f' ∧ f'.fd.plan = [] := by
  intro ps
  induction ps with
  | nil => intro d f hc hf hp; exact ⟨rfl, hc, by simp [rawlog], f, hf, hp⟩
  | cons b ps ih =>
    intro d f hc hf hp
    obtain ⟨d', f', h1, h2, h3, h4, h5, h6⟩ := writeAll_full b d f d.answers hc hf hp
    obtain ⟨i1, i2, i3, i4⟩ := ih d' f' h3 h5 h6
    simp only [rawlog, h1]
    exact ⟨i1, i2, by rw [i3, h4, h2, List.flatMap_cons, List.append_assoc], i4⟩

theorem Dual.flush_spec (d : Dual) : Filed d.file d.flush.1.file [] d.flush.2 ∧ d.flush.2 ≠ .stuck ∧ d.flush.1.eager = d.eager ∧
    (d.flush.2.good = true → d.flush.1.console.pend = [] ∧ ∀ f, d.flush.1.file = some f → f.pend = []) ∧
    d.flush.1.console.all = d.console.all := by
  obtain ⟨i1, i2, i3, i4, i5, _⟩ := d.console.flush_spec
  unfold Dual.flush
  cases hc : d.console.flush with
  | mk c r =>
    rw [hc] at i1 i2 i3 i4
    simp only at i1 i2 i3 i4
    have same : ∀ (e : Io) (dd : Dual), dd.file = d.file → Filed d.file dd.file [] e := by
      intro e dd h
      rw [h]
      exact Filed.same _ _
    cases r with
    | ok n =>
      simp only
      cases hf : d.file with
      | none =>
        exact ⟨Filed.same _ _, by simp, rfl, fun _ => ⟨i2 rfl, fun f h => by cases h⟩, i1⟩
      | some f =>
        obtain ⟨j1, j2, j3, j4, j5, _⟩ := f.flush_spec
        refine ⟨?_, j3, rfl, fun hg => ⟨i2 rfl, fun f' h => ?_⟩, i1⟩
        · exact ⟨_, 0, rfl, j5, by simp, by simp [j1], fun _ => rfl⟩
        · simp only [Option.some.injEq] at h; subst h; exact j2 hg
    | intr => exact absurd rfl i4
    | stuck => exact absurd rfl i3
    | zero => exact ⟨same _ _ rfl, by simp, rfl, by simp [Io.good], i1⟩
    | fail => exact ⟨same _ _ rfl, by simp, rfl, by simp [Io.good], i1⟩

theorem Fd.write_willing {f : Fd} (h : Willing f.plan) (b : Bytes) :
    Willing (f.write b).1.plan ∧ ((f.write b).2 = .intr ∨ ∃ n, (f.write b).2 = .ok n) := by
  unfold Fd.write
  cases hp : f.plan with
  | nil => exact ⟨(fun a ha => by cases ha), .inr ⟨_, rfl⟩⟩
  | cons a p =>
    rw [hp] at h
    rcases h a (List.mem_cons_self ..) with rfl | ⟨n, rfl⟩
    · exact ⟨h.tail, .inl rfl⟩
    · exact ⟨h.tail, .inr ⟨_, rfl⟩⟩

theorem Buf.flush_willing {f : Buf} (h : Willing f.fd.plan) : f.flush = (f.flush.1, .ok 0) ∧ Willing f.flush.1.fd.plan := by
  obtain ⟨h1, h2⟩ := flushGo_willing f.fd.plan f.fd.got f.pend h
  exact ⟨by rw [← h1]; rfl, h2⟩

theorem Buf.lineWrite_willing (eager : Bool) {f : Buf} (h : Willing f.fd.plan) {b : Bytes} (hb : b ≠ []) :
    Willing (f.lineWrite eager consoleCap b).1.fd.plan ∧
    ((f.lineWrite eager consoleCap b).2 = .intr ∨ ∃ n, (f.lineWrite eager consoleCap b).2 = .ok n) := by
  have hfl := Buf.flush_willing h
  have wr : ∀ {g : Buf}, Willing g.fd.plan → Willing (g.write consoleCap b).1.fd.plan ∧
      ((g.write consoleCap b).2 = .intr ∨ ∃ n, (g.write consoleCap b).2 = .ok n) := by
    intro g hg
    obtain ⟨a1, a2 | ⟨n, a2⟩⟩ := write_willing (cap := consoleCap) hg hb
    · exact ⟨a1, .inl a2⟩
    · exact ⟨a1, .inr ⟨_, a2⟩⟩
  unfold Buf.lineWrite
  split
  · rw [hfl.1]
    simp only
    obtain ⟨w1, w2⟩ := Fd.write_willing hfl.2 (splitLast b).1
    cases hw : f.flush.1.fd.write (splitLast b).1 with
    | mk fd r =>
      rw [hw] at w1 w2
      simp only at w1 w2
      rcases w2 with rfl | ⟨n, rfl⟩
      · exact ⟨w1, .inl rfl⟩
      · simp only
        split
        · exact ⟨w1, .inr ⟨_, rfl⟩⟩
        · exact ⟨w1, .inr ⟨_, rfl⟩⟩
  · split
    · rw [hfl.1]
      exact wr hfl.2
    · exact wr h

/-- Neither output refuses. -/
def Dual.willing (d : Dual) : Prop := Willing d.console.fd.plan ∧ ∃ f, d.file = some f ∧ Willing f.fd.plan

theorem Dual.write_willing {d : Dual} (h : d.willing) {b : Bytes} (hb : b ≠ []) :
    (d.write b).1.willing ∧ ((d.write b).2 = .intr ∨ ∃ n, (d.write b).2 = .ok (n + 1)) := by
  obtain ⟨h1, f, h2, h3⟩ := h
  obtain ⟨c1, c2⟩ := Buf.lineWrite_willing d.eager h1 hb
  unfold Dual.write
  cases hc : d.console.lineWrite d.eager consoleCap b with
  | mk c r =>
    rw [hc] at c1 c2
    simp only at c1 c2
    rcases c2 with rfl | ⟨n, rfl⟩
    · exact ⟨⟨c1, f, h2, h3⟩, .inl rfl⟩
    · simp only [h2]
      obtain ⟨w1, w2⟩ := Mirror.write_willing (cap := fileCap) h3 hb
      exact ⟨⟨c1, _, rfl, w1⟩, w2⟩

theorem writeAll_willing : ∀ (fuel : Nat) (d : Dual) (b : Bytes), b.length + d.answers ≤ fuel → d.willing →
    (writeAll fuel d b).2.good = true ∧ (writeAll fuel d b).1.willing := by
  intro fuel
  induction fuel with
  | zero =>
    intro d b hb h
    have : b = [] := List.length_eq_zero_iff.1 (by omega)
    subst this
    exact ⟨by simp [writeAll, Io.good], by simpa [writeAll] using h⟩
  | succ fuel ih =>
    intro d b hb h
    cases b with
    | nil => exact ⟨by simp [writeAll, Io.good], by simpa [writeAll] using h⟩
    | cons x xs =>
      obtain ⟨w1, w2, w3, _, _, w6⟩ := Dual.write_spec d (x :: xs)
      obtain ⟨h1, h2⟩ := Dual.write_willing h (b := x :: xs) (by simp)
      simp only [writeAll]
      cases hw : d.write (x :: xs) with
      | mk g r =>
        rw [hw] at w2 w3 w6 h1 h2
        simp only at w2 w3 w6 h1 h2
        rcases h2 with rfl | ⟨n, rfl⟩
        · have wi := w3 rfl
          simp only
          exact ih g (x :: xs) (by omega) h1
        · obtain ⟨_, f, hf, _⟩ := h
          obtain ⟨_, _, _, w7, _⟩ := w6 f hf
          have hn := (w7 (n + 1) rfl).1
          simp only
          exact ih g _ (by rw [List.length_drop]; rw [List.length_cons] at hb hn ⊢; omega) h1

theorem rawlog_willing : ∀ (ps : List Bytes) (d : Dual), d.willing → (rawlog d ps).2.good = true := by
  intro ps
  induction ps with
  | nil => intro d h; rfl
  | cons b bs ih =>
    intro d h
    obtain ⟨h1, h2⟩ := writeAll_willing (b.length + d.answers + 1) d b (by omega) h
    simp only [rawlog]
    cases hw : writeAll (b.length + d.answers + 1) d b with
    | mk g r =>
      rw [hw] at h1 h2
      cases r with
      | ok n => exact ih g h2
      | _ => simp [Io.good] at h1

end Verif.Mirror
