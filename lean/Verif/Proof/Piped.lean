import Verif.Spec.Piped
import Verif.Proof.Mirror2

/-! # Lemmas about standard output that is not a terminal -/

namespace Verif.Mirror
open Verif

theorem lineRest_prefix (eager : Bool) (cap n : Nat) (ls tail : Bytes) (hn : n ≤ ls.length) :
    lineRest eager cap n ls tail <+: (ls ++ tail).drop n := by
  unfold lineRest
  split
  · have : n = ls.length := by omega
    subst this
    rw [List.drop_left]
    split
    · split
      · exact List.take_prefix _ _
      · exact List.nil_prefix
    · exact List.prefix_refl _
  · split
    · rw [List.drop_append_of_le_length hn]
      exact List.prefix_append _ _
    · simp only
      split
      · have h : (splitLast (((ls ++ tail).drop n).take cap)).1 <+: ((ls ++ tail).drop n).take cap := by
          unfold splitLast
          exact List.take_prefix _ _
        exact h.trans (List.take_prefix _ _)
      · exact List.take_prefix _ _

theorem prefix_take {b : Bytes} {m : Nat} {r : Bytes} (hm : m ≤ b.length) (h : r <+: b.drop m) :
    m + r.length ≤ b.length ∧ b.take m ++ r = b.take (m + r.length) := by
  obtain ⟨t, ht⟩ := h
  have hb : b = b.take m ++ (r ++ t) := by rw [ht, List.take_append_drop]
  have hl : (b.take m).length = m := by simp [hm]
  constructor
  · have := congrArg List.length hb
    simp only [List.length_append, hl] at this
    omega
  · rw [List.take_add, ← ht, List.take_left]

/-- The line writer takes a beginning of the text, as long as it says. -/
theorem Buf.lineWrite_wrote (eager : Bool) (f : Buf) (b : Bytes) :
    Wrote f (f.lineWrite eager consoleCap b).1 b (f.lineWrite eager consoleCap b).2 := by
  have ht := Buf.lineWrite_tame eager f b
  refine ⟨ht.kept, ?_, ?_, ht.intr, ht.stuck⟩
  all_goals
    clear ht
    obtain ⟨i1, i2, i3, i4, i5, _⟩ := f.flush_spec
    unfold Buf.lineWrite
  · intro k hk
    revert hk
    split
    · cases hf : f.flush with
      | mk g r =>
        rw [hf] at i1 i2
        cases r with
        | ok n =>
          have hp : g.pend = [] := i2 rfl
          simp only
          cases hg : g.fd.write (splitLast b).1 with
          | mk fd e =>
            cases e with
            | ok m =>
              obtain ⟨a1, a2, a3, _⟩ := Fd.write_ok hg
              simp only
              have hb := splitLast_append b
              split
              · rename_i hm
                subst hm
                intro hk
                cases hk
                refine ⟨Nat.zero_le _, ?_⟩
                simp only [Buf.all, a2, List.take_zero, List.append_nil]
                exact i1
              · intro hk
                simp only [Io.ok.injEq] at hk
                have hpre := lineRest_prefix eager consoleCap m (splitLast b).1 (splitLast b).2 a1
                rw [hb] at hpre
                have hlen : m ≤ b.length := by
                  have := congrArg List.length hb
                  simp only [List.length_append] at this
                  omega
                obtain ⟨q1, q2⟩ := prefix_take hlen hpre
                rw [← hk]
                refine ⟨q1, ?_⟩
                rw [← q2]
                have htk : (splitLast b).1.take m = b.take m := by
                  conv => rhs; rw [← hb]
                  rw [List.take_append_of_le_length a1]
                simp only [Buf.all] at i1 ⊢
                rw [a2, hp, htk, ← i1, hp]
                simp
            | _ => simp
        | _ => simp
    · split
      · cases hf : f.flush with
        | mk g r =>
          rw [hf] at i1 i2
          cases r with
          | ok n =>
            intro hk
            obtain ⟨w1, w2⟩ := (Buf.write_spec (cap := consoleCap) (by decide) g b).ok k hk
            exact ⟨w1, by rw [w2, i1]⟩
          | _ => simp
      · intro hk
        exact (Buf.write_spec (cap := consoleCap) (by decide) f b).ok k hk
  · intro hk
    revert hk
    split
    · cases hf : f.flush with
      | mk g r =>
        rw [hf] at i1 i2
        cases r with
        | ok n =>
          simp only
          cases hg : g.fd.write (splitLast b).1 with
          | mk fd e =>
            cases e with
            | ok m => simp only; split <;> simp [Io.good]
            | intr => obtain ⟨a1, _⟩ := Fd.write_err hg rfl; intro _; simp only [Buf.all] at i1 ⊢; rw [a1]; exact i1
            | zero => obtain ⟨a1, _⟩ := Fd.write_err hg rfl; intro _; simp only [Buf.all] at i1 ⊢; rw [a1]; exact i1
            | fail => obtain ⟨a1, _⟩ := Fd.write_err hg rfl; intro _; simp only [Buf.all] at i1 ⊢; rw [a1]; exact i1
            | stuck => obtain ⟨a1, _⟩ := Fd.write_err hg rfl; intro _; simp only [Buf.all] at i1 ⊢; rw [a1]; exact i1
        | _ => intro _; exact i1
    · split
      · cases hf : f.flush with
        | mk g r =>
          rw [hf] at i1 i2
          cases r with
          | ok n =>
            intro hk
            rw [(Buf.write_spec (cap := consoleCap) (by decide) g b).err hk]
            exact i1
          | _ => intro _; exact i1
      · intro hk
        exact (Buf.write_spec (cap := consoleCap) (by decide) f b).err hk

/-- A line writer whose file never refuses takes at least one byte or is interrupted. -/
theorem Buf.lineWrite_pos (eager : Bool) {f : Buf} (h : Willing f.fd.plan) {b : Bytes} (hb : b ≠ []) :
    (f.lineWrite eager consoleCap b).2 = .intr ∨ ∃ n, (f.lineWrite eager consoleCap b).2 = .ok (n + 1) := by
  have hfl := Buf.flush_willing h
  unfold Buf.lineWrite
  split
  · rename_i hnl
    rw [hfl.1]
    simp only
    have hne := splitLast_ne b hnl
    have hpos := List.length_pos_iff.2 hne
    have hw : (f.flush.1.fd.write (splitLast b).1).2 = .intr ∨ ∃ n, (f.flush.1.fd.write (splitLast b).1).2 = .ok (n + 1) := by
      unfold Fd.write
      cases hp : f.flush.1.fd.plan with
      | nil => exact .inr ⟨(splitLast b).1.length - 1, by simp only; congr 1; omega⟩
      | cons x p =>
        have hx := hfl.2
        rw [hp] at hx
        rcases hx x (List.mem_cons_self ..) with rfl | ⟨n, rfl⟩
        · exact .inl rfl
        · refine .inr ⟨((splitLast b).1.take (n + 1)).length - 1, ?_⟩
          simp only [List.length_take]
          congr 1
          omega
    cases hg : f.flush.1.fd.write (splitLast b).1 with
    | mk fd r =>
      rw [hg] at hw
      rcases hw with hw | ⟨n, hw⟩
      · simp only at hw
        subst hw
        exact .inl rfl
      · simp only at hw
        subst hw
        simp only [Nat.add_one_ne_zero, if_false]
        refine .inr ⟨n + (lineRest eager consoleCap (n + 1) (splitLast b).1 (splitLast b).2).length, ?_⟩
        congr 1
        omega
  · split
    · rw [hfl.1]
      exact (write_willing (cap := consoleCap) hfl.2 hb).2
    · exact (write_willing (cap := consoleCap) h hb).2

/-- What flushing the outer buffer does. -/
theorem drain_spec (eager : Bool) : ∀ (fuel : Nat) (b : Bytes) (c : Buf), b.length + c.fd.plan.length ≤ fuel →
    (drain eager fuel b c).1.all = c.all ++ b ∧ ((drain eager fuel b c).2.good = true → (drain eager fuel b c).1.outer = []) ∧
    (drain eager fuel b c).2 ≠ .stuck ∧ (drain eager fuel b c).2 ≠ .intr ∧ Kept c (drain eager fuel b c).1.inner ∧
    (Willing c.fd.plan → (drain eager fuel b c).2.good = true ∧ Willing (drain eager fuel b c).1.inner.fd.plan) := by
  intro fuel
  induction fuel with
  | zero =>
    intro b c h
    have : b = [] := List.length_eq_zero_iff.1 (by omega)
    subst this
    exact ⟨by simp [drain, Piped.all], fun _ => rfl, by simp [drain], by simp [drain], Kept.refl _, fun h => ⟨rfl, h⟩⟩
  | succ fuel ih =>
    intro b c h
    cases b with
    | nil => exact ⟨by simp [drain, Piped.all], fun _ => rfl, by simp [drain], by simp [drain], Kept.refl _, fun h => ⟨rfl, h⟩⟩
    | cons x xs =>
      have w := Buf.lineWrite_wrote eager c (x :: xs)
      have hpos : Willing c.fd.plan → _ := fun hw => Buf.lineWrite_pos eager hw (b := x :: xs) (by simp)
      have hwil : Willing c.fd.plan → _ := fun hw => (Buf.lineWrite_willing eager hw (b := x :: xs) (by simp)).1
      simp only [drain]
      cases hl : c.lineWrite eager consoleCap (x :: xs) with
      | mk g r =>
        rw [hl] at w hpos hwil
        simp only at w hpos hwil
        cases r with
        | ok n =>
          cases n with
          | zero =>
            have w2 := (w.ok 0 rfl).2
            simp only [List.take_zero, List.append_nil] at w2
            refine ⟨by simp [Piped.all, w2], by simp [Io.good], by simp, by simp, w.kept, fun hw => ?_⟩
            rcases hpos hw with h | ⟨n, h⟩ <;> cases h
          | succ n =>
            obtain ⟨w1, w2⟩ := w.ok (n + 1) rfl
            have hk := w.kept.plan
            simp only
            obtain ⟨j1, j2, j3, j4, j5, j6⟩ := ih ((x :: xs).drop (n + 1)) g (by rw [List.length_drop]; rw [List.length_cons] at h w1 ⊢; omega)
            refine ⟨?_, j2, j3, j4, w.kept.trans j5, fun hw => j6 (hwil hw)⟩
            rw [j1, w2, List.append_assoc, List.take_append_drop]
        | intr =>
          have wi := w.intr rfl
          have we := w.err rfl
          simp only
          obtain ⟨j1, j2, j3, j4, j5, j6⟩ := ih (x :: xs) g (by omega)
          exact ⟨by rw [j1, we], j2, j3, j4, w.kept.trans j5, fun hw => j6 (hwil hw)⟩
        | zero =>
          refine ⟨by simp [Piped.all, w.err rfl], by simp [Io.good], by simp, by simp, w.kept, fun hw => ?_⟩
          rcases hpos hw with h | ⟨n, h⟩ <;> cases h
        | fail =>
          refine ⟨by simp [Piped.all, w.err rfl], by simp [Io.good], by simp, by simp, w.kept, fun hw => ?_⟩
          rcases hpos hw with h | ⟨n, h⟩ <;> cases h
        | stuck => exact absurd rfl w.stuck

theorem Piped.drain_spec (eager : Bool) (p : Piped) :
    (p.drain eager).1.all = p.all ∧ ((p.drain eager).2.good = true → (p.drain eager).1.outer = []) ∧
    (p.drain eager).2 ≠ .stuck ∧ (p.drain eager).2 ≠ .intr ∧ Kept p.inner (p.drain eager).1.inner ∧
    (Willing p.inner.fd.plan → (p.drain eager).2.good = true ∧ Willing (p.drain eager).1.inner.fd.plan) :=
  Mirror.drain_spec eager _ p.outer p.inner (Nat.le_refl _)

/-- A short text: all of it is taken, or nothing. -/
theorem Piped.write_short (eager : Bool) (p : Piped) (b : Bytes) (hb : b.length < fileCap) :
    Kept p.inner (p.write eager b).1.inner ∧
    (((p.write eager b).2 = .ok b.length ∧ (p.write eager b).1.all = p.all ++ b) ∨
     (((p.write eager b).2 = .zero ∨ (p.write eager b).2 = .fail) ∧ (p.write eager b).1.all = p.all)) ∧
    (Willing p.inner.fd.plan → (p.write eager b).2 = .ok b.length ∧ Willing (p.write eager b).1.inner.fd.plan) := by
  have hput : ∀ q : Piped, q.put eager b = (⟨q.outer ++ b, q.inner⟩, .ok b.length) := by
    intro q
    unfold Piped.put
    rw [if_neg (by omega)]
  unfold Piped.write
  split
  · exact ⟨Kept.refl _, .inl ⟨rfl, by simp [Piped.all]⟩, fun h => ⟨rfl, h⟩⟩
  · split
    · obtain ⟨j1, j2, j3, j4, j5, j6⟩ := p.drain_spec eager
      cases hd : p.drain eager with
      | mk q r =>
        rw [hd] at j1 j2 j3 j4 j5 j6
        simp only at j1 j2 j3 j4 j5 j6
        cases r with
        | ok n =>
          simp only [hput]
          refine ⟨j5, .inl ⟨trivial, ?_⟩, fun h => ⟨trivial, (j6 h).2⟩⟩
          rw [← j1]
          simp [Piped.all]
        | intr => exact absurd rfl j4
        | stuck => exact absurd rfl j3
        | zero => exact ⟨j5, .inr ⟨.inl rfl, j1⟩, fun h => by have := (j6 h).1; cases this⟩
        | fail => exact ⟨j5, .inr ⟨.inr rfl, j1⟩, fun h => by have := (j6 h).1; cases this⟩
    · rw [hput]
      exact ⟨Kept.refl _, .inl ⟨rfl, by simp [Piped.all]⟩, fun h => ⟨rfl, h⟩⟩

/-- The same for a `BufWriter` on a file. -/
theorem Buf.write_short (f : Buf) (b : Bytes) (hb : b.length < fileCap) :
    (((f.write fileCap b).2 = .ok b.length ∧ (f.write fileCap b).1.all = f.all ++ b) ∨
     (((f.write fileCap b).2 = .zero ∨ (f.write fileCap b).2 = .fail) ∧ (f.write fileCap b).1.all = f.all)) ∧
    (Willing f.fd.plan → (f.write fileCap b).2 = .ok b.length ∧ Willing (f.write fileCap b).1.fd.plan) := by
  have hput : ∀ q : Buf, q.put fileCap b = (⟨q.fd, q.pend ++ b⟩, .ok b.length) := by
    intro q
    unfold Buf.put
    rw [if_neg (by omega)]
  unfold Buf.write
  split
  · exact ⟨.inl ⟨rfl, by simp [Buf.all]⟩, fun h => ⟨rfl, h⟩⟩
  · split
    · obtain ⟨j1, j2, j3, j4, j5, _⟩ := f.flush_spec
      have j6 : Willing f.fd.plan → _ := fun h => Buf.flush_willing h
      cases hd : f.flush with
      | mk q r =>
        rw [hd] at j1 j2 j3 j4 j6
        simp only at j1 j2 j3 j4 j6
        cases r with
        | ok n =>
          simp only [hput]
          refine ⟨.inl ⟨trivial, ?_⟩, fun h => ⟨trivial, (j6 h).2⟩⟩
          rw [← j1]
          simp [Buf.all]
        | intr => exact absurd rfl j4
        | stuck => exact absurd rfl j3
        | zero => exact ⟨.inr ⟨.inl rfl, j1⟩, fun h => by have := (j6 h).1; cases this⟩
        | fail => exact ⟨.inr ⟨.inr rfl, j1⟩, fun h => by have := (j6 h).1; cases this⟩
    · rw [hput]
      exact ⟨.inl ⟨rfl, by simp [Buf.all]⟩, fun h => ⟨rfl, h⟩⟩

theorem Kept.nil {f f' : Buf} (h : Kept f f') (hp : f.fd.plan = []) : f'.fd.plan = [] := by
  have := h.plan
  rw [hp] at this
  exact List.length_eq_zero_iff.1 (Nat.le_zero.1 this)

theorem willing_nil {f : Buf} (hp : f.fd.plan = []) : Willing f.fd.plan := by
  rw [hp]
  intro a ha
  cases ha

/-- One write when everything is taken: a long text loses what the line writer does not take. -/
theorem Piped.write_full (eager : Bool) (p : Piped) (b : Bytes) (hp : p.inner.fd.plan = []) :
    ∃ p' n, p.write eager b = (p', .ok n) ∧ p'.inner.fd.plan = [] ∧ p'.all = p.all ++ (if b.length < 8192 then b else kept eager b) := by
  by_cases hb : b.length < 8192
  · obtain ⟨h1, h2, h3⟩ := p.write_short eager b hb
    obtain ⟨h4, _⟩ := h3 (willing_nil hp)
    refine ⟨(p.write eager b).1, b.length, by rw [← h4], h1.nil hp, ?_⟩
    rw [if_pos hb]
    rcases h2 with ⟨_, h2⟩ | ⟨h2, _⟩
    · exact h2
    · rw [h4] at h2
      rcases h2 with h2 | h2 <;> cases h2
  · have hput : ∀ q : Piped, q.outer = [] → q.inner.fd.plan = [] →
        ∃ p' n, q.put eager b = (p', .ok n) ∧ p'.inner.fd.plan = [] ∧ p'.all = q.all ++ kept eager b := by
      intro q hq hqp
      obtain ⟨f', n, l1, l2, l3⟩ := Buf.lineWrite_full eager q.inner b hqp
      refine ⟨⟨q.outer, f'⟩, n, ?_, l2, ?_⟩
      · unfold Piped.put
        rw [if_pos (show b.length ≥ fileCap by unfold fileCap; omega), l1]
      · simp [Piped.all, hq, l3]
    rw [if_neg hb]
    unfold Piped.write
    rw [if_neg (show ¬ b.length < fileCap - p.outer.length by unfold fileCap; omega)]
    split
    · obtain ⟨j1, j2, j3, j4, j5, j6⟩ := p.drain_spec eager
      have hg := (j6 (willing_nil hp)).1
      cases hd : p.drain eager with
      | mk q r =>
        rw [hd] at j1 j2 j5 hg
        simp only at j1 j2 j5 hg
        cases r with
        | ok n =>
          obtain ⟨p', n, k1, k2, k3⟩ := hput q (j2 rfl) (j5.nil hp)
          exact ⟨p', n, k1, k2, by rw [k3, j1]⟩
        | _ => cases hg
    · rename_i hn
      have : p.outer = [] := List.length_eq_zero_iff.1 (by unfold fileCap at hn; omega)
      exact hput p this hp

theorem PDual.writeAll_full (b : Bytes) (d : PDual) (fuel : Nat) (hc : d.console.inner.fd.plan = []) (hp : d.file.fd.plan = []) :
    ∃ d', PDual.writeAll (fuel + 1) d b = (d', .ok 0) ∧ d'.eager = d.eager ∧ d'.console.inner.fd.plan = [] ∧
      d'.console.all = d.console.all ++ (if b.length < 8192 then b else kept d.eager b) ∧ d'.file.fd.plan = [] ∧ d'.file.all = d.file.all ++ b := by
  cases b with
  | nil => exact ⟨d, by simp [PDual.writeAll], rfl, hc, by simp, hp, by simp⟩
  | cons x xs =>
    obtain ⟨c', n, h1, h2, h3⟩ := d.console.write_full d.eager (x :: xs) hc
    obtain ⟨f', g1, g2, g3⟩ := Buf.write_full (cap := fileCap) d.file (x :: xs) hp (by decide)
    have hw : d.write (x :: xs) = (⟨d.eager, c', f'⟩, .ok (xs.length + 1)) := by
      simp only [PDual.write, h1, g1, List.length_cons]
    refine ⟨⟨d.eager, c', f'⟩, ?_, rfl, h2, h3, g2, g3⟩
    simp only [PDual.writeAll, hw]
    have : (x :: xs).drop (xs.length + 1) = [] := by simp
    rw [this]
    cases fuel <;> rfl

theorem PDual.rawlog_full : ∀ (ps : List Bytes) (d : PDual), d.console.inner.fd.plan = [] → d.file.fd.plan = [] →
    (d.rawlog ps).2.good = true ∧
    (d.rawlog ps).1.console.all = d.console.all ++ ps.flatMap (fun b => if b.length < 8192 then b else kept d.eager b) ∧
    (d.rawlog ps).1.file.all = d.file.all ++ ps.flatten := by
  intro ps
  induction ps with
  | nil => intro d _ _; exact ⟨rfl, by simp [PDual.rawlog], by simp [PDual.rawlog]⟩
  | cons b ps ih =>
    intro d hc hp
    obtain ⟨d', h1, h2, h3, h4, h5, h6⟩ := PDual.writeAll_full b d (b.length + d.console.inner.fd.plan.length + d.file.fd.plan.length) hc hp
    obtain ⟨i1, i2, i3⟩ := ih d' h3 h5
    simp only [PDual.rawlog, h1]
    exact ⟨i1, by rw [i2, h4, h2, List.flatMap_cons, List.append_assoc], by rw [i3, h6, List.flatten_cons, List.append_assoc]⟩

/-- One short piece, whatever the operating system answers. -/
theorem PDual.writeAll_short (b : Bytes) (d : PDual) (fuel : Nat) (hb : b.length < fileCap) :
    let r := PDual.writeAll (fuel + 1) d b
    (r.2.good = true ∧ r.1.console.all = d.console.all ++ b ∧ r.1.file.all = d.file.all ++ b ∨
      (r.2 = .zero ∨ r.2 = .fail) ∧ r.1.file.all = d.file.all ∧ (r.1.console.all = d.console.all ∨ r.1.console.all = d.console.all ++ b)) ∧
    (Willing d.console.inner.fd.plan → Willing d.file.fd.plan →
      r.2.good = true ∧ Willing r.1.console.inner.fd.plan ∧ Willing r.1.file.fd.plan) := by
  cases b with
  | nil => exact ⟨.inl ⟨rfl, by simp [PDual.writeAll], by simp [PDual.writeAll]⟩, fun h1 h2 => ⟨rfl, h1, h2⟩⟩
  | cons x xs =>
    obtain ⟨_, c2, c3⟩ := d.console.write_short d.eager (x :: xs) hb
    obtain ⟨f2, f3⟩ := d.file.write_short (x :: xs) hb
    have hdrop : (x :: xs).drop (xs.length + 1) = [] := by simp
    have hdone : ∀ (e : PDual), PDual.writeAll fuel e [] = (e, .ok 0) := by
      intro e
      cases fuel <;> rfl
    simp only [PDual.writeAll, PDual.write]
    cases hc : d.console.write d.eager (x :: xs) with
    | mk c r =>
      rw [hc] at c2 c3
      simp only at c2 c3
      cases r with
      | ok n =>
        have c4 : c.all = d.console.all ++ x :: xs := by
          rcases c2 with ⟨_, c2⟩ | ⟨c2, _⟩
          · exact c2
          · rcases c2 with c2 | c2 <;> cases c2
        simp only
        cases hf : d.file.write fileCap (x :: xs) with
        | mk f r =>
          rw [hf] at f2 f3
          simp only at f2 f3
          cases r with
          | ok m =>
            rcases f2 with ⟨f4, f5⟩ | ⟨f4, _⟩
            · simp only [Io.ok.injEq, List.length_cons] at f4
              subst f4
              simp only [hdrop, hdone]
              exact ⟨.inl ⟨rfl, c4, f5⟩, fun h1 h2 => ⟨rfl, (c3 h1).2, (f3 h2).2⟩⟩
            · rcases f4 with f4 | f4 <;> cases f4
          | intr =>
            rcases f2 with ⟨f4, _⟩ | ⟨f4, _⟩
            · cases f4
            · rcases f4 with f4 | f4 <;> cases f4
          | stuck =>
            rcases f2 with ⟨f4, _⟩ | ⟨f4, _⟩
            · cases f4
            · rcases f4 with f4 | f4 <;> cases f4
          | zero =>
            rcases f2 with ⟨f4, _⟩ | ⟨_, f5⟩
            · cases f4
            · exact ⟨.inr ⟨.inl rfl, f5, .inr c4⟩, fun _ h2 => by have := (f3 h2).1; cases this⟩
          | fail =>
            rcases f2 with ⟨f4, _⟩ | ⟨_, f5⟩
            · cases f4
            · exact ⟨.inr ⟨.inr rfl, f5, .inr c4⟩, fun _ h2 => by have := (f3 h2).1; cases this⟩
      | intr =>
        rcases c2 with ⟨c4, _⟩ | ⟨c4, _⟩
        · cases c4
        · rcases c4 with c4 | c4 <;> cases c4
      | stuck =>
        rcases c2 with ⟨c4, _⟩ | ⟨c4, _⟩
        · cases c4
        · rcases c4 with c4 | c4 <;> cases c4
      | zero =>
        rcases c2 with ⟨c4, _⟩ | ⟨_, c5⟩
        · cases c4
        · exact ⟨.inr ⟨.inl rfl, rfl, .inl c5⟩, fun h1 _ => by have := (c3 h1).1; cases this⟩
      | fail =>
        rcases c2 with ⟨c4, _⟩ | ⟨_, c5⟩
        · cases c4
        · exact ⟨.inr ⟨.inr rfl, rfl, .inl c5⟩, fun h1 _ => by have := (c3 h1).1; cases this⟩

/-- Any number of short pieces. -/
theorem PDual.rawlog_short : ∀ (ps : List Bytes) (d : PDual), (∀ b ∈ ps, b.length < fileCap) →
    ∃ k j, (d.rawlog ps).1.file.all = d.file.all ++ (ps.take k).flatten ∧ (d.rawlog ps).1.console.all = d.console.all ++ (ps.take j).flatten ∧
      (j = k ∨ j = k + 1) ∧ ((d.rawlog ps).2.good = true ∧ k = ps.length ∧ j = ps.length ∨ ((d.rawlog ps).2 = .zero ∨ (d.rawlog ps).2 = .fail) ∧ k < ps.length) ∧
      (Willing d.console.inner.fd.plan → Willing d.file.fd.plan → (d.rawlog ps).2.good = true) := by
  intro ps
  induction ps with
  | nil => intro d _; exact ⟨0, 0, by simp [PDual.rawlog], by simp [PDual.rawlog], .inl rfl, .inl ⟨rfl, rfl, rfl⟩, fun _ _ => rfl⟩
  | cons b ps ih =>
    intro d hs
    obtain ⟨h1, h2⟩ := PDual.writeAll_short b d (b.length + d.console.inner.fd.plan.length + d.file.fd.plan.length) (hs b (List.mem_cons_self ..))
    simp only [PDual.rawlog]
    cases hw : PDual.writeAll (b.length + d.console.inner.fd.plan.length + d.file.fd.plan.length + 1) d b with
    | mk e r =>
      rw [hw] at h1 h2
      simp only at h1 h2
      cases r with
      | ok n =>
        rcases h1 with ⟨_, h3, h4⟩ | ⟨h3, _⟩
        · obtain ⟨k, j, i1, i2, i3, i4, i5⟩ := ih e (fun b hb => hs b (List.mem_cons_of_mem _ hb))
          simp only
          refine ⟨k + 1, j + 1, ?_, ?_, ?_, ?_, fun a1 a2 => i5 (h2 a1 a2).2.1 (h2 a1 a2).2.2⟩
          · rw [i1, h4, List.take_succ_cons, List.flatten_cons, List.append_assoc]
          · rw [i2, h3, List.take_succ_cons, List.flatten_cons, List.append_assoc]
          · omega
          · rcases i4 with ⟨a, b, c⟩ | ⟨a, b⟩
            · exact .inl ⟨a, by simp [b], by simp [c]⟩
            · exact .inr ⟨a, by simp [b]⟩
        · rcases h3 with h3 | h3 <;> cases h3
      | _ =>
        rcases h1 with ⟨h3, _⟩ | ⟨h3, h4, h5⟩
        · cases h3
        · refine (Classical.em (e.console.all = d.console.all)).elim (fun h6 => ?_) (fun h6 => ?_)
          · exact ⟨0, 0, by simp [h4], by simp [h6], .inl rfl, .inr ⟨h3, by simp⟩, fun a1 a2 => (h2 a1 a2).1⟩
          · exact ⟨0, 1, by simp [h4], by simp [h5.resolve_left h6], .inr rfl, .inr ⟨h3, by simp⟩, fun a1 a2 => (h2 a1 a2).1⟩

theorem PDual.flush_spec (d : PDual) :
    d.flush.1.console.all = d.console.all ∧ d.flush.1.file.all = d.file.all ∧ d.console.seen <+: d.flush.1.console.seen ∧
    (d.flush.2.good = true → d.flush.1.console.seen = d.flush.1.console.all ∧ d.flush.1.file.fd.got = d.flush.1.file.all) ∧
    (Willing d.console.inner.fd.plan → Willing d.file.fd.plan → d.flush.2.good = true) := by
  obtain ⟨j1, j2, j3, j4, j5, j6⟩ := d.console.drain_spec d.eager
  obtain ⟨g1, g2, _, _, g5, _⟩ := d.file.flush_spec
  have g6 : Willing d.file.fd.plan → _ := fun h => Buf.flush_willing h
  unfold PDual.flush Piped.flush
  cases hd : d.console.drain d.eager with
  | mk q r =>
    rw [hd] at j1 j2 j5 j6
    simp only at j1 j2 j5 j6
    cases r with
    | ok n =>
      have ho : q.outer = [] := j2 rfl
      obtain ⟨i1, i2, _, _, i5, _⟩ := q.inner.flush_spec
      have i6 : Willing q.inner.fd.plan → _ := fun h => Buf.flush_willing h
      have hall : (⟨q.outer, q.inner.flush.1⟩ : Piped).all = d.console.all := by rw [← j1]; simp [Piped.all, i1]
      simp only
      cases hi : q.inner.flush with
      | mk c r =>
        rw [hi] at i1 i2 i5 i6 hall
        simp only at i1 i2 i5 i6 hall
        cases r with
        | ok m =>
          refine ⟨hall, g1, j5.grow.trans i5.grow, fun hg => ⟨?_, ?_⟩, fun _ h2 => by rw [(g6 h2).1]; rfl⟩
          · simp [Piped.seen, Piped.all, ho, Buf.all, i2 rfl]
          · simp [Buf.all, g2 hg]
        | _ => exact ⟨hall, rfl, j5.grow.trans i5.grow, fun hg => (by cases hg), fun h1 _ => by have := congrArg Prod.snd (i6 (j6 h1).2).1; cases this⟩
    | _ => exact ⟨j1, rfl, j5.grow, fun hg => (by cases hg), fun h1 _ => by have := (j6 h1).1; cases this⟩

end Verif.Mirror
