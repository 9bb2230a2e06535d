import Verif.Model.Lossy
import Verif.Spec.Lossy
import Verif.Proof.Json3

/-!
# Lemmas about `from_utf8_lossy`
-/

namespace Verif.Lossy
open Verif Verif.Json

theorem ofNat_eq {n : Nat} {b : UInt8} (h : n = b.toNat) : UInt8.ofNat n = b := by rw [h]; exact UInt8.ofNat_toNat

theorem toNat_of {n : Nat} (h : n < 256) : (UInt8.ofNat n).toNat = n := UInt8.toNat_ofNat_of_lt' (by simpa using h)

theorem char_lt (c : Char) : c.val.toNat < 0x110000 ∧ ¬ (0xD800 ≤ c.val.toNat ∧ c.val.toNat < 0xE000) := by
  rcases c.valid with h | h
  · have h : c.val.toNat < 0xD800 := h
    omega
  · have h1 : 0xDFFF < c.val.toNat := h.1
    have h2 : c.val.toNat < 0x110000 := h.2
    omega

theorem get_zero (x : UInt8) (t : List UInt8) : get (x :: t) 0 = x.toNat := rfl
theorem get_one (x y : UInt8) (t : List UInt8) : get (x :: y :: t) 1 = y.toNat := rfl
theorem get_two (x y z : UInt8) (t : List UInt8) : get (x :: y :: z :: t) 2 = z.toNat := rfl

/-- The characters, by their bytes. -/
theorem next_enc {c : Char} {b : UInt8} {u : List UInt8} (h : String.utf8EncodeChar c = b :: u) (t : List UInt8) :
    next b.toNat (u ++ t) = (true, u.length) := by
  obtain ⟨h1, h2⟩ := char_lt c
  unfold String.utf8EncodeChar at h
  simp only at h
  generalize c.val.toNat = v at *
  split at h
  · cases h
    have e1 := toNat_of (n := v) (by omega)
    simp only [next, width, e1]
    rw [if_pos (by rw [if_pos (by omega)])]
    rfl
  · split at h
    · cases h
      have e1 := toNat_of (n := v / 64 % 32 + 192) (by omega)
      have e2 := toNat_of (n := v % 64 + 128) (by omega)
      have hw : width (v / 64 % 32 + 192) = 2 := by
        unfold width; rw [if_neg (by omega), if_neg (by omega), if_pos (by omega)]
      have hc : cont (v % 64 + 128) = true := by simp [cont]; omega
      simp only [next, List.cons_append, List.nil_append, get_zero, e1, e2, hw, hc]
      rfl
    · split at h
      · cases h
        have e1 := toNat_of (n := v / 4096 % 16 + 224) (by omega)
        have e2 := toNat_of (n := v / 64 % 64 + 128) (by omega)
        have e3 := toNat_of (n := v % 64 + 128) (by omega)
        have hw : width (v / 4096 % 16 + 224) = 3 := by
          unfold width; rw [if_neg (by omega), if_neg (by omega), if_neg (by omega), if_pos (by omega)]
        have hc : cont (v % 64 + 128) = true := by simp [cont]; omega
        have hs : second (v / 4096 % 16 + 224) (v / 64 % 64 + 128) = true := by
          simp only [second, Bool.or_eq_true, Bool.and_eq_true, beq_iff_eq, decide_eq_true_eq]
          omega
        simp only [next, List.cons_append, List.nil_append, get_zero, get_one, e1, e2, e3, hw, hc, hs]
        rfl
      · cases h
        have e1 := toNat_of (n := v / 262144 % 8 + 240) (by omega)
        have e2 := toNat_of (n := v / 4096 % 64 + 128) (by omega)
        have e3 := toNat_of (n := v / 64 % 64 + 128) (by omega)
        have e4 := toNat_of (n := v % 64 + 128) (by omega)
        have hw : width (v / 262144 % 8 + 240) = 4 := by
          unfold width; rw [if_neg (by omega), if_neg (by omega), if_neg (by omega), if_neg (by omega), if_pos (by omega)]
        have hc : cont (v % 64 + 128) = true := by simp [cont]; omega
        have hc' : cont (v / 64 % 64 + 128) = true := by simp [cont]; omega
        have hs : second (v / 262144 % 8 + 240) (v / 4096 % 64 + 128) = true := by
          simp only [second, Bool.or_eq_true, Bool.and_eq_true, beq_iff_eq, decide_eq_true_eq]
          omega
        simp only [next, List.cons_append, List.nil_append, get_zero, get_one, get_two, e1, e2, e3, e4, hw, hc, hc', hs]
        rfl

theorem val_ofNat {v : Nat} (h : v < 0xD800 ∨ 0xDFFF < v ∧ v < 0x110000) : (Char.ofNat v).val.toNat = v := by
  have hv : v.isValidChar := h
  unfold Char.ofNat
  rw [dif_pos hv]
  show (UInt32.ofNatLT v _).toNat = v
  rfl

theorem width_cases (b : Nat) : width b = 0 ∨ width b = 1 ∨ width b = 2 ∨ width b = 3 ∨ width b = 4 := by
  unfold width
  repeat' split
  all_goals simp

theorem width_one {b : Nat} (h : width b = 1) : b < 0x80 := by
  unfold width at h
  split at h
  · assumption
  · repeat' split at h
    all_goals omega

theorem width_two {b : Nat} (h : width b = 2) : 0xC2 ≤ b ∧ b < 0xE0 := by
  unfold width at h
  repeat' split at h
  all_goals omega

theorem width_three {b : Nat} (h : width b = 3) : 0xE0 ≤ b ∧ b < 0xF0 := by
  unfold width at h
  repeat' split at h
  all_goals omega

theorem width_four {b : Nat} (h : width b = 4) : 0xF0 ≤ b ∧ b < 0xF5 := by
  unfold width at h
  repeat' split at h
  all_goals omega

theorem get_pos {t : List UInt8} {i : Nat} (h : 0 < get t i) : i < t.length := by
  unfold get at h
  refine Classical.byContradiction (fun hn => ?_)
  rw [List.getElem?_eq_none (by omega)] at h
  exact absurd h (by decide)

theorem cont_bounds {n : Nat} (h : cont n = true) : 0x80 ≤ n ∧ n < 0xC0 := by
  simp only [cont, beq_iff_eq] at h
  omega

theorem second_bounds {b c : Nat} (h : second b c = true) : 0x80 ≤ c ∧ c < 0xC0 := by
  simp only [second, Bool.or_eq_true, Bool.and_eq_true, beq_iff_eq, decide_eq_true_eq] at h
  omega

/-- Two bytes. -/
theorem enc_two {b x : UInt8} (hb : width b.toNat = 2) (hx : cont x.toNat = true) : ∃ c : Char, String.utf8EncodeChar c = [b, x] := by
  have h1 := width_two hb
  have h2 := cont_bounds hx
  refine ⟨Char.ofNat ((b.toNat - 0xC0) * 64 + (x.toNat - 0x80)), ?_⟩
  unfold String.utf8EncodeChar
  simp only
  rw [val_ofNat (by omega), if_neg (by omega), if_pos (by omega), ofNat_eq (b := b) (by omega), ofNat_eq (b := x) (by omega)]

theorem enc_three {b x y : UInt8} (hb : width b.toNat = 3) (hx : second b.toNat x.toNat = true) (hy : cont y.toNat = true) :
    ∃ c : Char, String.utf8EncodeChar c = [b, x, y] := by
  have h1 := width_three hb
  have h2 := second_bounds hx
  have h3 := cont_bounds hy
  have h4 : (b.toNat = 0xE0 → 0xA0 ≤ x.toNat) ∧ (b.toNat = 0xED → x.toNat < 0xA0) := by
    simp only [second, Bool.or_eq_true, Bool.and_eq_true, beq_iff_eq, decide_eq_true_eq] at hx
    omega
  refine ⟨Char.ofNat ((b.toNat - 0xE0) * 4096 + (x.toNat - 0x80) * 64 + (y.toNat - 0x80)), ?_⟩
  unfold String.utf8EncodeChar
  simp only
  rw [val_ofNat (by omega), if_neg (by omega), if_neg (by omega), if_pos (by omega), ofNat_eq (b := b) (by omega), ofNat_eq (b := x) (by omega),
    ofNat_eq (b := y) (by omega)]

theorem enc_four {b x y z : UInt8} (hb : width b.toNat = 4) (hx : second b.toNat x.toNat = true) (hy : cont y.toNat = true) (hz : cont z.toNat = true) :
    ∃ c : Char, String.utf8EncodeChar c = [b, x, y, z] := by
  have h1 := width_four hb
  have h2 := second_bounds hx
  have h3 := cont_bounds hy
  have h5 := cont_bounds hz
  have h4 : (b.toNat = 0xF0 → 0x90 ≤ x.toNat) ∧ (b.toNat = 0xF4 → x.toNat < 0x90) := by
    simp only [second, Bool.or_eq_true, Bool.and_eq_true, beq_iff_eq, decide_eq_true_eq] at hx
    omega
  refine ⟨Char.ofNat ((b.toNat - 0xF0) * 262144 + (x.toNat - 0x80) * 4096 + (y.toNat - 0x80) * 64 + (z.toNat - 0x80)), ?_⟩
  unfold String.utf8EncodeChar
  simp only
  rw [val_ofNat (by omega), if_neg (by omega), if_neg (by omega), if_neg (by omega), ofNat_eq (b := b) (by omega), ofNat_eq (b := x) (by omega),
    ofNat_eq (b := y) (by omega), ofNat_eq (b := z) (by omega)]

theorem enc_one {b : UInt8} (hb : b.toNat < 0x80) : ∃ c : Char, String.utf8EncodeChar c = [b] := by
  refine ⟨Char.ofNat b.toNat, ?_⟩
  unfold String.utf8EncodeChar
  simp only
  rw [val_ofNat (by omega), if_pos (by omega), ofNat_eq rfl]

/-- What the loop looked at: the bytes accepted and the one that did not fit. -/
inductive Saw (b : UInt8) (t : List UInt8) : Bool × Nat → Prop
  | one : b.toNat < 0x80 → Saw b t (true, 0)
  | two {x u} : t = x :: u → width b.toNat = 2 → cont x.toNat = true → Saw b t (true, 1)
  | three {x y u} : t = x :: y :: u → width b.toNat = 3 → second b.toNat x.toNat = true → cont y.toNat = true → Saw b t (true, 2)
  | four {x y z u} : t = x :: y :: z :: u → width b.toNat = 4 → second b.toNat x.toNat = true → cont y.toNat = true → cont z.toNat = true → Saw b t (true, 3)
  | alone : width b.toNat = 0 → Saw b t (false, 0)
  | two0 : width b.toNat = 2 → cont (get t 0) = false → Saw b t (false, 0)
  | more0 : width b.toNat = 3 ∨ width b.toNat = 4 → second b.toNat (get t 0) = false → Saw b t (false, 0)
  | more1 {x u} : t = x :: u → width b.toNat = 3 ∨ width b.toNat = 4 → second b.toNat x.toNat = true → cont (get u 0) = false → Saw b t (false, 1)
  | more2 {x y u} : t = x :: y :: u → width b.toNat = 4 → second b.toNat x.toNat = true → cont y.toNat = true → cont (get u 0) = false → Saw b t (false, 2)

theorem get_succ {x : UInt8} {t : List UInt8} {i : Nat} : get (x :: t) (i + 1) = get t i := rfl

theorem of_pos {t : List UInt8} (h : 0x80 ≤ get t 0) : ∃ x u, t = x :: u ∧ get t 0 = x.toNat := by
  cases t with
  | nil => exact absurd h (by decide)
  | cons x u => exact ⟨x, u, rfl, rfl⟩

theorem saw (b : UInt8) (t : List UInt8) : Saw b t (next b.toNat t) := by
  unfold next
  split
  · exact .one (width_one ‹_›)
  · split
    · split
      · rename_i hw hc
        obtain ⟨x, u, rfl, hx⟩ := of_pos (cont_bounds hc).1
        exact .two rfl hw (hx ▸ hc)
      · rename_i hw hc
        exact .two0 hw (by simpa using hc)
    · split
      · split
        · rename_i hw hs
          obtain ⟨x, u, rfl, hx⟩ := of_pos (second_bounds hs).1
          rw [hx] at hs
          split
          · rename_i hc
            rw [get_succ] at hc
            obtain ⟨y, u, rfl, hy⟩ := of_pos (cont_bounds hc).1
            exact .three rfl hw hs (hy ▸ hc)
          · rename_i hc
            exact .more1 rfl (.inl hw) hs (by simpa [get_succ] using hc)
        · rename_i hw hs
          exact .more0 (.inl hw) (by simpa using hs)
      · split
        · split
          · rename_i hw hs
            obtain ⟨x, u, rfl, hx⟩ := of_pos (second_bounds hs).1
            rw [hx] at hs
            split
            · rename_i hc
              rw [get_succ] at hc
              obtain ⟨y, u, rfl, hy⟩ := of_pos (cont_bounds hc).1
              rw [hy] at hc
              split
              · rename_i hd
                rw [get_succ, get_succ] at hd
                obtain ⟨z, u, rfl, hz⟩ := of_pos (cont_bounds hd).1
                exact .four rfl hw hs hc (hz ▸ hd)
              · rename_i hd
                exact .more2 rfl hw hs hc (by simpa [get_succ] using hd)
            · rename_i hc
              exact .more1 rfl (.inr hw) hs (by simpa [get_succ] using hc)
          · rename_i hw hs
            exact .more0 (.inr hw) (by simpa using hs)
        · rename_i h1 h2 h3 h4
          rcases width_cases b.toNat with h | h | h | h | h
          · exact .alone h
          · exact absurd h h1
          · exact absurd h h2
          · exact absurd h h3
          · exact absurd h h4

/-- What is accepted is a character. -/
theorem taken {b : UInt8} {t : List UInt8} {n : Nat} (h : next b.toNat t = (true, n)) : ∃ c : Char, String.utf8EncodeChar c = b :: t.take n := by
  have hs := h ▸ saw b t
  cases hs with
  | one hb => exact enc_one hb
  | two e hw hx => subst e; exact enc_two hw hx
  | three e hw hx hy => subst e; exact enc_three hw hx hy
  | four e hw hx hy hz => subst e; exact enc_four hw hx hy hz

theorem enc_cons (c : Char) : ∃ b u, String.utf8EncodeChar c = b :: u := by
  cases h : String.utf8EncodeChar c with
  | nil =>
    exfalso
    unfold String.utf8EncodeChar at h
    simp only at h
    repeat' split at h
    all_goals cases h
  | cons b u => exact ⟨b, u, rfl⟩

/-- A byte that does not fit is seen whatever follows. -/
theorem next_local {b : UInt8} {t t' : List UInt8} {n : Nat} (h : next b.toNat t = (false, n)) (ht : t.take (n + 1) = t'.take (n + 1)) :
    next b.toNat t' = (false, n) := by
  have hg : ∀ i, i ≤ n → get t' i = get t i := by
    intro i hi
    have := congrArg (fun l : List UInt8 => l[i]?) ht
    simp only [List.getElem?_take, if_pos (show i < n + 1 by omega)] at this
    unfold get
    rw [this]
  unfold next at h ⊢
  by_cases h1 : width b.toNat = 1
  · rw [if_pos h1] at h
    cases h
  rw [if_neg h1] at h ⊢
  rw [hg 0 (by omega)]
  by_cases h2 : width b.toNat = 2
  · rw [if_pos h2] at h ⊢
    exact h
  rw [if_neg h2] at h ⊢
  by_cases h3 : width b.toNat = 3
  · rw [if_pos h3] at h ⊢
    by_cases hs : second b.toNat (get t 0) = true
    · rw [if_pos hs] at h ⊢
      have hn : 1 ≤ n := by
        split at h <;> simp at h
        omega
      rw [hg 1 hn]
      exact h
    · rw [if_neg hs] at h ⊢
      exact h
  rw [if_neg h3] at h ⊢
  by_cases h4 : width b.toNat = 4
  · rw [if_pos h4] at h ⊢
    by_cases hs : second b.toNat (get t 0) = true
    · rw [if_pos hs] at h ⊢
      have hn : 1 ≤ n := by
        repeat' split at h
        all_goals simp at h
        all_goals omega
      rw [hg 1 hn]
      by_cases hc : cont (get t 1) = true
      · rw [if_pos hc] at h ⊢
        have hn : 2 ≤ n := by
          split at h <;> simp at h
          omega
        rw [hg 2 hn]
        exact h
      · rw [if_neg hc] at h ⊢
        exact h
    · rw [if_neg hs] at h ⊢
      exact h
  · rw [if_neg h4] at h ⊢
    exact h

theorem not_taken {b : UInt8} {t : List UInt8} {n : Nat} (h : next b.toNat t = (false, n)) : Broken (b :: t.take n) (t.drop n) := by
  refine ⟨?_, ?_, ?_⟩
  · rintro c ⟨r, hr⟩
    obtain ⟨d, u, hu⟩ := enc_cons c
    rw [hu, List.cons_append, List.cons_append, List.take_append_drop] at hr
    injection hr with hd hr
    subst hd hr
    rw [next_enc hu] at h
    cases h
  · have hs := h ▸ saw b t
    have h80 : (128 : UInt8).toNat = 128 := rfl
    cases hs with
    | alone _ => exact .inr rfl
    | two0 _ _ => exact .inr rfl
    | more0 _ _ => exact .inr rfl
    | more1 e hw hx _ =>
      subst e
      refine .inl ⟨?_, by simp⟩
      rcases hw with hw | hw
      · obtain ⟨c, hc⟩ := enc_three (y := 128) hw hx (by decide)
        exact ⟨c, by rw [hc]; exact ⟨[128], rfl⟩⟩
      · obtain ⟨c, hc⟩ := enc_four (y := 128) (z := 128) hw hx (by decide) (by decide)
        exact ⟨c, by rw [hc]; exact ⟨[128, 128], rfl⟩⟩
    | more2 e hw hx hy _ =>
      subst e
      refine .inl ⟨?_, by simp⟩
      obtain ⟨c, hc⟩ := enc_four (z := 128) hw hx hy (by decide)
      exact ⟨c, by rw [hc]; exact ⟨[128], rfl⟩⟩
  · rintro b' ⟨r, hr⟩ ⟨c, r', hc⟩
    rw [List.cons_append, List.take_append_drop] at hr
    refine Classical.byContradiction (fun hn => ?_)
    cases b' with
    | nil => simp at hn
    | cons d v =>
      injection hr with hd hr
      replace hr : v ++ r = t := hr
      subst hd
      have hv : n < v.length := by
        simp only [List.length_cons, List.length_take] at hn
        have : v.length ≤ t.length := by rw [← hr]; simp
        omega
      have := next_local h (t' := v ++ r') (by
        rw [← hr, List.take_append_of_le_length (by omega), List.take_append_of_le_length (by omega)])
      have h2 := next_enc (c := c) (b := d) (u := v ++ r') (by rw [← hc]; rfl) []
      rw [List.append_nil, this] at h2
      cases h2

theorem go_fuel : ∀ (f g : Nat) (bs : List UInt8), bs.length ≤ f → bs.length ≤ g → go f bs = go g bs := by
  intro f
  induction f with
  | zero =>
    intro g bs h1 _
    have : bs = [] := List.length_eq_zero_iff.1 (by omega)
    subst this
    cases g <;> rfl
  | succ f ih =>
    intro g bs h1 h2
    cases bs with
    | nil => cases g <;> rfl
    | cons b t =>
      cases g with
      | zero => simp at h2
      | succ g =>
        simp only [go]
        rw [ih g _ (by simp at *; omega) (by simp at *; omega)]

theorem lossy_nil : lossy [] = [] := rfl

theorem unutf8_enc (c : Char) : unutf8 (String.utf8EncodeChar c) = some [c] := by
  have := unutf8_utf8 [c]
  rwa [show utf8 [c] = String.utf8EncodeChar c by simp [utf8]] at this

theorem lossy_char (c : Char) (t : List UInt8) : lossy (String.utf8EncodeChar c ++ t) = c :: lossy t := by
  obtain ⟨b, u, h⟩ := enc_cons c
  unfold lossy
  rw [h]
  show go (u ++ t).length.succ (b :: (u ++ t)) = _
  simp only [go]
  rw [next_enc h]
  simp only [if_true, List.take_left', List.drop_left']
  rw [← h, unutf8_enc, go_fuel _ t.length _ (by simp) (by simp)]
  rfl

theorem lossy_broken {b : UInt8} {t : List UInt8} {n : Nat} (h : next b.toNat t = (false, n)) : lossy (b :: t) = '�' :: lossy (t.drop n) := by
  unfold lossy
  show go t.length.succ (b :: t) = _
  simp only [go]
  rw [h]
  simp only [if_false, Bool.false_eq_true]
  rw [go_fuel _ (t.drop n).length _ (by simp) (by simp)]
  rfl

theorem broken_unique {b b' t t' : List UInt8} (h : Broken b t) (h' : Broken b' t') (e : b ++ t = b' ++ t') : b = b' ∧ t = t' := by
  have hl : b.length = b'.length := by
    have k1 : b <+: b' ++ t' := ⟨t, e⟩
    have k2 : b' <+: b ++ t := ⟨t', e.symm⟩
    have p1 : 0 < b.length := by
      rcases h.piece with ⟨_, h⟩ | h
      · exact List.length_pos_iff.2 h
      · omega
    have p2 : 0 < b'.length := by
      rcases h'.piece with ⟨_, h⟩ | h
      · exact List.length_pos_iff.2 h
      · omega
    have q1 : b.length ≤ b'.length := by
      rcases h.piece with ⟨hb, _⟩ | hb
      · exact h'.longest b k1 hb
      · omega
    have q2 : b'.length ≤ b.length := by
      rcases h'.piece with ⟨hb, _⟩ | hb
      · exact h.longest b' k2 hb
      · omega
    omega
  exact List.append_inj e hl

theorem shown_lossy : ∀ (n : Nat) (bs : List UInt8), bs.length ≤ n → Shown bs (lossy bs) := by
  intro n
  induction n with
  | zero =>
    intro bs h
    have : bs = [] := List.length_eq_zero_iff.1 (by omega)
    subst this
    exact .nil
  | succ n ih =>
    intro bs h
    cases bs with
    | nil => exact .nil
    | cons b t =>
      rcases hn : next b.toNat t with ⟨ok, k⟩
      have hlen : (t.drop k).length ≤ n := by simp at *; omega
      have e : b :: t = (b :: t.take k) ++ t.drop k := by simp
      cases ok with
      | true =>
        obtain ⟨c, hc⟩ := taken hn
        rw [e, ← hc, lossy_char]
        exact .char (ih _ hlen)
      | false =>
        have hb := not_taken hn
        rw [lossy_broken hn]
        have := Shown.broken hb (ih _ hlen)
        rwa [← e] at this

theorem lossy_of_shown {bs : List UInt8} {cs : List Char} (h : Shown bs cs) : lossy bs = cs := by
  induction h with
  | nil => rfl
  | char _ ih => rw [lossy_char, ih]
  | broken hb _ ih =>
    rename_i b t s _
    cases b with
    | nil =>
      exfalso
      rcases hb.piece with ⟨_, h⟩ | h
      · exact h rfl
      · simp at h
    | cons d v =>
      rcases hn : next d.toNat (v ++ t) with ⟨ok, k⟩
      cases ok with
      | true =>
        exfalso
        obtain ⟨c, hc⟩ := taken hn
        refine hb.no_char c ⟨(v ++ t).drop k, ?_⟩
        rw [hc]
        simp
      | false =>
        have hb' := not_taken hn
        obtain ⟨_, h2⟩ := broken_unique hb hb' (by simp)
        rw [List.cons_append, lossy_broken hn, ← h2, ih]

/-- Bytes that are no ASCII are in characters of several bytes, or in none. -/
theorem broken_high {b : UInt8} {t : List UInt8} {n : Nat} (h : next b.toNat t = (false, n)) : ∀ x ∈ b :: t.take n, 128 ≤ x.toNat := by
  have hs := h ▸ saw b t
  have w0 : width b.toNat ≠ 1 → 128 ≤ b.toNat := by
    intro hw
    unfold width at hw
    split at hw
    · exact absurd rfl hw
    · omega
  intro x hx
  cases hs with
  | alone hw =>
    simp only [List.take_zero, List.mem_singleton] at hx
    subst hx
    exact w0 (by omega)
  | two0 hw _ =>
    simp only [List.take_zero, List.mem_singleton] at hx
    subst hx
    exact w0 (by omega)
  | more0 hw _ =>
    simp only [List.take_zero, List.mem_singleton] at hx
    subst hx
    exact w0 (by omega)
  | more1 e hw hx' _ =>
    subst e
    simp only [List.take_succ_cons, List.take_zero, List.mem_cons, List.not_mem_nil, or_false] at hx
    rcases hx with rfl | rfl
    · exact w0 (by omega)
    · exact (second_bounds hx').1
  | more2 e hw hx' hy _ =>
    subst e
    simp only [List.take_succ_cons, List.take_zero, List.mem_cons, List.not_mem_nil, or_false] at hx
    rcases hx with rfl | rfl | rfl
    · exact w0 (by omega)
    · exact (second_bounds hx').1
    · exact (cont_bounds hy).1

/-- Induction along the bytes. -/
theorem along {P : List UInt8 → Prop} (nil : P []) (char : ∀ c t, P t → P (String.utf8EncodeChar c ++ t))
    (broken : ∀ (b : UInt8) t n, next b.toNat t = (false, n) → P (t.drop n) → P (b :: t)) : ∀ bs, P bs := by
  have : ∀ (n : Nat) (bs : List UInt8), bs.length ≤ n → P bs := by
    intro n
    induction n with
    | zero =>
      intro bs h
      have : bs = [] := List.length_eq_zero_iff.1 (by omega)
      subst this
      exact nil
    | succ n ih =>
      intro bs h
      cases bs with
      | nil => exact nil
      | cons b t =>
        rcases hn : next b.toNat t with ⟨ok, k⟩
        have hlen : (t.drop k).length ≤ n := by simp at *; omega
        cases ok with
        | true =>
          obtain ⟨c, hc⟩ := taken hn
          have e : b :: t = (b :: t.take k) ++ t.drop k := by simp
          rw [e, ← hc]
          exact char c _ (ih _ hlen)
        | false => exact broken b t k hn (ih _ hlen)
  exact fun bs => this bs.length bs (Nat.le_refl _)

end Verif.Lossy
