import Verif.Spec.Mirror

/-!
# Lemmas about console and mirror file
-/

namespace Verif.Mirror
open Verif

theorem Fd.write_ok {f f' : Fd} {b : Bytes} {n : Nat} (h : f.write b = (f', .ok n)) :
    n ≤ b.length ∧ f'.got = f.got ++ b.take n ∧ f'.plan.length ≤ f.plan.length ∧ (f.plan = [] → n = b.length ∧ f'.plan = []) := by
  unfold Fd.write at h
  split at h
  · rename_i hp; simp only [Prod.mk.injEq, Io.ok.injEq] at h; obtain ⟨rfl, rfl⟩ := h; simp
  · rename_i m p hp
    simp only [Prod.mk.injEq, Io.ok.injEq] at h; obtain ⟨rfl, rfl⟩ := h
    refine ⟨by simp; omega, ?_, by simp [hp], by simp [hp]⟩
    simp only [List.length_take]
    rcases Nat.le_total m b.length with hm | hm
    · rw [Nat.min_eq_left hm]
    · rw [Nat.min_eq_right hm, List.take_length, List.take_of_length_le hm]
  · simp at h
  · simp at h

/-- What an unsuccessful call leaves alone. -/
theorem Fd.write_err {f f' : Fd} {b : Bytes} {e : Io} (h : f.write b = (f', e)) (he : e.good = false) :
    f'.got = f.got ∧ f'.plan.length < f.plan.length ∧ e ≠ .stuck := by
  unfold Fd.write at h
  split at h <;> simp only [Prod.mk.injEq] at h <;> obtain ⟨rfl, rfl⟩ := h <;> simp_all [Io.good]

structure Kept (f f' : Buf) : Prop where
  grow : f.fd.got <+: f'.fd.got
  plan : f'.fd.plan.length ≤ f.fd.plan.length

theorem Kept.refl (f : Buf) : Kept f f := ⟨List.prefix_refl _, Nat.le_refl _⟩
theorem Kept.trans {a b c : Buf} (h : Kept a b) (h' : Kept b c) : Kept a c := ⟨h.grow.trans h'.grow, Nat.le_trans h'.plan h.plan⟩

theorem flushGo_spec : ∀ (plan : List Ans) (got pend : Bytes),
    (flushGo plan got pend).1.fd.got ++ (flushGo plan got pend).1.pend = got ++ pend ∧
    ((flushGo plan got pend).2.good = true → (flushGo plan got pend).1.pend = []) ∧
    (flushGo plan got pend).2 ≠ .stuck ∧ (flushGo plan got pend).2 ≠ .intr ∧
    got <+: (flushGo plan got pend).1.fd.got ∧ (flushGo plan got pend).1.fd.plan.length ≤ plan.length ∧
    (plan = [] → flushGo plan got pend = (⟨⟨got ++ pend, []⟩, []⟩, .ok 0)) := by
  intro plan
  induction plan with
  | nil => intro got pend; cases pend <;> simp [flushGo, Io.good]
  | cons a p ih =>
    intro got pend
    cases pend with
    | nil => cases a <;> simp [flushGo, Io.good]
    | cons x xs =>
      cases a with
      | took n =>
        cases n with
        | zero => simp [flushGo, Io.good]
        | succ n =>
          simp only [flushGo]
          obtain ⟨i1, i2, i3, i4, i5, i6, _⟩ := ih (got ++ (x :: xs).take (n + 1)) ((x :: xs).drop (n + 1))
          refine ⟨?_, i2, i3, i4, (List.prefix_append _ _).trans i5, by rw [List.length_cons]; omega, by simp⟩
          rw [i1, List.append_assoc, List.take_append_drop]
      | intr =>
        simp only [flushGo]
        obtain ⟨i1, i2, i3, i4, i5, i6, _⟩ := ih got (x :: xs)
        exact ⟨i1, i2, i3, i4, i5, by simp; omega, by simp⟩
      | fail => simp [flushGo, Io.good]

theorem Buf.flush_spec (f : Buf) : f.flush.1.all = f.all ∧ (f.flush.2.good = true → f.flush.1.pend = []) ∧ f.flush.2 ≠ .stuck ∧ f.flush.2 ≠ .intr ∧
    Kept f f.flush.1 ∧ (f.fd.plan = [] → f.flush = (⟨⟨f.all, []⟩, []⟩, .ok 0)) := by
  obtain ⟨i1, i2, i3, i4, i5, i6, i7⟩ := flushGo_spec f.fd.plan f.fd.got f.pend
  exact ⟨i1, i2, i3, i4, ⟨i5, i6⟩, i7⟩

/-- What a call of a buffered writer does. -/
structure Wrote (f f' : Buf) (b : Bytes) (r : Io) : Prop where
  kept : Kept f f'
  ok : ∀ n, r = .ok n → n ≤ b.length ∧ f'.all = f.all ++ b.take n
  err : r.good = false → f'.all = f.all
  intr : r = .intr → f'.fd.plan.length < f.fd.plan.length
  stuck : r ≠ .stuck

theorem Buf.put_spec {cap : Nat} {f : Buf} (b : Bytes) (h : f.pend = [] ∨ b.length < cap) : Wrote f (f.put cap b).1 b (f.put cap b).2 := by
  unfold Buf.put
  split
  · rename_i hb
    have hp : f.pend = [] := by rcases h with h | h; exact h; omega
    cases hw : f.fd.write b with
    | mk fd r =>
      cases hg : r.good with
      | true =>
        cases r with
        | ok n =>
          obtain ⟨a1, a2, a3, _⟩ := Fd.write_ok hw
          refine ⟨⟨by simp [a2], a3⟩, ?_, by simp [Io.good], by simp, by simp⟩
          intro m hm
          simp only [Io.ok.injEq] at hm; subst hm
          refine ⟨a1, ?_⟩
          simp [Buf.all, a2, hp]
        | _ => simp [Io.good] at hg
      | false =>
        obtain ⟨a1, a2, a3⟩ := Fd.write_err hw hg
        refine ⟨⟨by simp [a1], by simp; omega⟩, ?_, ?_, fun _ => a2, a3⟩
        · intro n hn; subst hn; simp [Io.good] at hg
        · intro _; simp [Buf.all, a1]
  · refine ⟨⟨List.prefix_refl _, Nat.le_refl _⟩, ?_, by simp [Io.good], by simp, by simp⟩
    intro m hm
    simp only [Io.ok.injEq] at hm; subst hm
    simp [Buf.all]

theorem Buf.write_spec {cap : Nat} (hc : 0 < cap) (f : Buf) (b : Bytes) : Wrote f (f.write cap b).1 b (f.write cap b).2 := by
  unfold Buf.write
  split
  · refine ⟨⟨List.prefix_refl _, Nat.le_refl _⟩, ?_, by simp [Io.good], by simp, by simp⟩
    intro m hm
    simp only [Io.ok.injEq] at hm; subst hm
    simp [Buf.all]
  · split
    · obtain ⟨i1, i2, i3, i4, i5, _⟩ := f.flush_spec
      cases hf : f.flush with
      | mk g r =>
        rw [hf] at i1 i2 i3 i4 i5
        cases r with
        | ok n =>
          have := Buf.put_spec (cap := cap) (f := g) b (.inl (i2 rfl))
          refine ⟨i5.trans this.kept, ?_, ?_, ?_, this.stuck⟩
          · intro m hm; obtain ⟨a, e⟩ := this.ok m hm; exact ⟨a, by rw [e, i1]⟩
          · intro he; rw [this.err he, i1]
          · intro he; have := this.intr he; have := i5.plan; simp only at *; omega
        | intr => exact absurd rfl i4
        | stuck => exact absurd rfl i3
        | zero => exact ⟨i5, by simp, fun _ => i1, by simp, by simp⟩
        | fail => exact ⟨i5, by simp, fun _ => i1, by simp, by simp⟩
    · rename_i h1 h2
      refine Buf.put_spec b ?_
      by_cases hp : f.pend = []
      · exact .inl hp
      · right
        have : 0 < f.pend.length := List.length_pos_iff.2 hp
        omega

theorem Buf.write_full {cap : Nat} (f : Buf) (b : Bytes) (hp : f.fd.plan = []) (hc : 0 < cap) :
    ∃ f', f.write cap b = (f', .ok b.length) ∧ f'.fd.plan = [] ∧ f'.all = f.all ++ b := by
  have hput : ∀ g : Buf, g.fd.plan = [] → (g.pend = [] ∨ b.length < cap) →
      ∃ f', g.put cap b = (f', .ok b.length) ∧ f'.fd.plan = [] ∧ f'.all = g.all ++ b := by
    intro g hg hb
    unfold Buf.put
    split
    · have : g.pend = [] := by rcases hb with h | h; exact h; omega
      refine ⟨⟨⟨g.fd.got ++ b, []⟩, g.pend⟩, by simp [Fd.write, hg], rfl, by simp [Buf.all, this]⟩
    · exact ⟨_, rfl, hg, by simp [Buf.all]⟩
  unfold Buf.write
  split
  · exact ⟨_, rfl, hp, by simp [Buf.all]⟩
  · split
    · rw [f.flush_spec.2.2.2.2.2 hp]
      obtain ⟨f', h1, h2, h3⟩ := hput ⟨⟨f.all, []⟩, []⟩ rfl (.inl rfl)
      exact ⟨f', h1, h2, by rw [h3]; simp [Buf.all]⟩
    · refine hput f hp ?_
      by_cases hpe : f.pend = []
      · exact .inl hpe
      · right
        have : 0 < f.pend.length := List.length_pos_iff.2 hpe
        omega

theorem splitLast_append (b : Bytes) : (splitLast b).1 ++ (splitLast b).2 = b := by
  unfold splitLast
  simp only
  have h : b.reverse.takeWhile (· != nl) <+: b.reverse := List.takeWhile_prefix _
  obtain ⟨t, ht⟩ := h
  have hb : b = t.reverse ++ (b.reverse.takeWhile (· != nl)).reverse := by
    rw [← List.reverse_append, ht, List.reverse_reverse]
  generalize (b.reverse.takeWhile (· != nl)).reverse = u at *
  subst hb
  simp

theorem splitLast_ne (b : Bytes) (h : nl ∈ b) : (splitLast b).1 ≠ [] := by
  intro he
  have := splitLast_append b
  rw [he, List.nil_append] at this
  rw [← this] at h
  unfold splitLast at h
  simp only [List.mem_reverse] at h
  have hm : ∀ x ∈ b.reverse.takeWhile (· != nl), (x != nl) = true := by
    intro x hx; exact (List.all_eq_true.1 List.all_takeWhile) x hx
  have := hm nl h
  simp at this

/-- The console never gets stuck and eats answers. -/
structure Tame (f f' : Buf) (r : Io) : Prop where
  kept : Kept f f'
  intr : r = .intr → f'.fd.plan.length < f.fd.plan.length
  stuck : r ≠ .stuck

theorem Wrote.tame {f f' : Buf} {b : Bytes} {r : Io} (h : Wrote f f' b r) : Tame f f' r := ⟨h.kept, h.intr, h.stuck⟩

theorem Tame.after {a b c : Buf} {r : Io} (k : Kept a b) (h : Tame b c r) : Tame a c r :=
  ⟨k.trans h.kept, fun hr => Nat.lt_of_lt_of_le (h.intr hr) k.plan, h.stuck⟩

theorem Buf.lineWrite_tame (eager : Bool) (f : Buf) (b : Bytes) :
    Tame f (f.lineWrite eager consoleCap b).1 (f.lineWrite eager consoleCap b).2 := by
  have hw : ∀ g : Buf, Tame g (g.write consoleCap b).1 (g.write consoleCap b).2 := fun g => (Buf.write_spec (by decide) g b).tame
  obtain ⟨i1, i2, i3, i4, i5, _⟩ := f.flush_spec
  unfold Buf.lineWrite
  split
  · cases hf : f.flush with
    | mk g r =>
      rw [hf] at i3 i4 i5
      cases r with
      | ok n =>
        simp only
        cases hg : g.fd.write (splitLast b).1 with
        | mk fd e =>
          cases e with
          | ok m =>
            obtain ⟨a1, a2, a3, _⟩ := Fd.write_ok hg
            simp only
            split
            · exact Tame.after i5 ⟨⟨by simp [a2], a3⟩, by simp, by simp⟩
            · exact Tame.after i5 ⟨⟨by simp [a2], a3⟩, by simp, by simp⟩
          | intr => obtain ⟨a1, a2, a3⟩ := Fd.write_err hg rfl; exact Tame.after i5 ⟨⟨by simp [a1], Nat.le_of_lt a2⟩, fun _ => a2, a3⟩
          | zero => obtain ⟨a1, a2, a3⟩ := Fd.write_err hg rfl; exact Tame.after i5 ⟨⟨by simp [a1], Nat.le_of_lt a2⟩, fun _ => a2, a3⟩
          | fail => obtain ⟨a1, a2, a3⟩ := Fd.write_err hg rfl; exact Tame.after i5 ⟨⟨by simp [a1], Nat.le_of_lt a2⟩, fun _ => a2, a3⟩
          | stuck => exact absurd rfl (Fd.write_err hg rfl).2.2
      | intr => exact absurd rfl i4
      | stuck => exact absurd rfl i3
      | zero => exact ⟨i5, by simp, by simp⟩
      | fail => exact ⟨i5, by simp, by simp⟩
  · split
    · cases hf : f.flush with
      | mk g r =>
        rw [hf] at i3 i4 i5
        cases r with
        | ok n => exact Tame.after i5 (hw g)
        | intr => exact absurd rfl i4
        | stuck => exact absurd rfl i3
        | zero => exact ⟨i5, by simp, by simp⟩
        | fail => exact ⟨i5, by simp, by simp⟩
    · exact hw f

/-- A terminal that takes everything. -/
theorem Buf.lineWrite_full (eager : Bool) (f : Buf) (b : Bytes) (hp : f.fd.plan = []) :
    ∃ f' n, f.lineWrite eager consoleCap b = (f', .ok n) ∧ f'.fd.plan = [] ∧ f'.all = f.all ++ kept eager b := by
  have hflush := f.flush_spec.2.2.2.2.2 hp
  have hk : nl ∉ b → kept eager b = b := by
    intro h; unfold kept; exact if_pos (.inl h)
  unfold Buf.lineWrite
  split
  · rename_i hnl
    rw [hflush]
    have hne : (splitLast b).1.length ≠ 0 := by
      have := splitLast_ne b hnl
      simpa using this
    simp only [Fd.write, hne, if_false]
    refine ⟨_, _, rfl, rfl, ?_⟩
    simp only [Buf.all, List.append_assoc, List.nil_append]
    congr 2
    unfold lineRest kept
    simp only [ge_iff_le, Nat.le_refl, if_true]
    have hap := splitLast_append b
    by_cases hl : (splitLast b).2.length < 1024
    · rw [if_neg (by simp only [consoleCap]; omega), if_pos (.inr hl), hap]
    · have hn : ¬ ((10 : UInt8) ∉ b ∨ ((b.reverse.takeWhile (· != 10)).reverse).length < 1024) := by
        rintro (h | h)
        · exact h hnl
        · exact hl h
      rw [if_pos (by simp only [consoleCap]; omega), if_neg hn]
      rfl
  · rename_i hnl
    rw [hk hnl]
    split
    · rw [hflush]
      obtain ⟨f', h1, h2, h3⟩ := Buf.write_full (cap := consoleCap) ⟨⟨f.all, []⟩, []⟩ b rfl (by decide)
      exact ⟨f', _, h1, h2, by rw [h3]; simp [Buf.all]⟩
    · obtain ⟨f', h1, h2, h3⟩ := Buf.write_full (cap := consoleCap) f b hp (by decide)
      exact ⟨f', _, h1, h2, h3⟩

theorem Willing.tail {a : Ans} {p : List Ans} (h : Willing (a :: p)) : Willing p := fun x hx => h x (List.mem_cons_of_mem _ hx)

theorem flushGo_willing : ∀ (plan : List Ans) (got pend : Bytes), Willing plan →
    (flushGo plan got pend).2 = .ok 0 ∧ Willing (flushGo plan got pend).1.fd.plan := by
  intro plan
  induction plan with
  | nil => intro got pend h; cases pend <;> exact ⟨rfl, h⟩
  | cons a p ih =>
    intro got pend h
    cases pend with
    | nil => cases a <;> exact ⟨by simp [flushGo], by simpa [flushGo] using h⟩
    | cons x xs =>
      rcases h a (List.mem_cons_self ..) with rfl | ⟨n, rfl⟩
      · simp only [flushGo]; exact ih _ _ h.tail
      · simp only [flushGo]; exact ih _ _ h.tail

theorem put_willing {cap : Nat} {f : Buf} (h : Willing f.fd.plan) {b : Bytes} (hb : b ≠ []) :
    Willing (f.put cap b).1.fd.plan ∧ ((f.put cap b).2 = .intr ∨ ∃ n, (f.put cap b).2 = .ok (n + 1)) := by
  have hpos := List.length_pos_iff.2 hb
  unfold Buf.put
  split
  · simp only [Fd.write]
    cases hp : f.fd.plan with
    | nil =>
      simp only
      exact ⟨(fun a ha => by cases ha), .inr ⟨b.length - 1, by congr 1; omega⟩⟩
    | cons a p =>
      rw [hp] at h
      rcases h a (List.mem_cons_self ..) with rfl | ⟨n, rfl⟩
      · exact ⟨h.tail, .inl rfl⟩
      · refine ⟨h.tail, .inr ⟨(b.take (n + 1)).length - 1, ?_⟩⟩
        simp only [List.length_take]
        congr 1
        omega
  · exact ⟨h, .inr ⟨b.length - 1, by simp only; congr 1; omega⟩⟩

theorem write_willing {cap : Nat} {f : Buf} (h : Willing f.fd.plan) {b : Bytes} (hb : b ≠ []) :
    Willing (f.write cap b).1.fd.plan ∧ ((f.write cap b).2 = .intr ∨ ∃ n, (f.write cap b).2 = .ok (n + 1)) := by
  have hpos := List.length_pos_iff.2 hb
  unfold Buf.write
  split
  · exact ⟨h, .inr ⟨b.length - 1, by simp only; congr 1; omega⟩⟩
  · split
    · obtain ⟨h1, h2⟩ := flushGo_willing f.fd.plan f.fd.got f.pend h
      have e : f.flush = (f.flush.1, .ok 0) := by rw [← h1]; rfl
      rw [e]
      exact put_willing h2 hb
    · exact put_willing h hb

end Verif.Mirror
