import Verif.Model.Json

/-!
# JSON lines: printing and parsing
-/

namespace Verif.Json
open Verif

/-! ### Characters -/

theorem digit_toNat {n : Nat} (h : n < 10) : (digit n).toNat = 48 + n := by
  have : ∀ n < 10, (digit n).toNat = 48 + n := by decide
  exact this n h

theorem hexVal_hexDigit {n : Nat} (h : n < 16) : hexVal (hexDigit n) = some n := by
  have : ∀ n < 16, hexVal (hexDigit n) = some n := by decide
  exact this n h

theorem ofNat_toNat (c : Char) : Char.ofNat c.toNat = c := Char.ofNat_toNat c

/-! ### Strings -/

theorem stringGo_escape (c : Char) (cs : List Char) :
    stringGo .text (escape c ++ cs) = (stringGo .text cs).map (fun r => (c :: r.1, r.2)) := by
  unfold escape
  split
  · subst c; simp [stringGo, unescape]
  split
  · subst c; simp [stringGo, unescape]
  split
  · subst c; simp [stringGo, unescape]
  split
  · subst c; simp [stringGo, unescape]
  split
  · subst c; simp [stringGo, unescape]
  split
  · subst c; simp [stringGo, unescape]
  split
  · subst c; simp [stringGo, unescape]
  split
  · rename_i h
    have h0 : hexVal '0' = some 0 := by decide
    have hn : c.toNat / 16 * 16 + c.toNat % 16 = c.toNat := by omega
    have hu : unit c.toNat none = some (.inl c) := by
      unfold unit
      rw [if_neg (by omega), if_neg (by omega), ofNat_toNat]
    simp [stringGo, h0, hexVal_hexDigit (show c.toNat / 16 < 16 by omega), hexVal_hexDigit (show c.toNat % 16 < 16 by omega),
      hn, hu]
  · rename_i h1 h2 _ _ _ _ _ h3
    simp only [List.cons_append, List.nil_append, stringGo]
    rw [if_neg h1, if_neg h2, if_neg h3]

theorem stringGo_print (l r : List Char) : stringGo .text (l.flatMap escape ++ '"' :: r) = some (l, r) := by
  induction l with
  | nil => simp [stringGo]
  | cons c l ih => rw [List.flatMap_cons, List.append_assoc, stringGo_escape, ih]; rfl

theorem stringGo_ext {st : StrSt} {cs s r : List Char} (h : stringGo st cs = some (s, r)) (ys : List Char) :
    stringGo st (cs ++ ys) = some (s, r ++ ys) := by
  induction cs generalizing st s r with
  | nil => cases st <;> simp [stringGo] at h
  | cons c cs ih =>
    have hm : ∀ {x : Char} {s r}, (stringGo .text cs).map (fun r => (x :: r.1, r.2)) = some (s, r) →
        (stringGo .text (cs ++ ys)).map (fun r => (x :: r.1, r.2)) = some (s, r ++ ys) := by
      intro x s r hx
      obtain ⟨⟨a, b⟩, h1, h2⟩ := Option.map_eq_some_iff.1 hx
      simp only [Prod.mk.injEq] at h2
      rw [ih h1]
      simp [← h2.1, ← h2.2]
    cases st with
    | text =>
      simp only [List.cons_append, stringGo] at h ⊢
      split
      · rename_i hc
        rw [if_pos hc] at h
        simp only [Option.some.injEq, Prod.mk.injEq] at h
        simp [← h.1, ← h.2]
      · rename_i hc
        rw [if_neg hc] at h
        split
        · rename_i hb
          rw [if_pos hb] at h
          exact ih h
        · rename_i hb
          rw [if_neg hb] at h
          split
          · rename_i hl
            rw [if_pos hl] at h
            cases h
          · rename_i hl
            rw [if_neg hl] at h
            exact hm h
    | esc =>
      simp only [List.cons_append, stringGo] at h ⊢
      split
      · rename_i hc
        rw [if_pos hc] at h
        exact ih h
      · rename_i hc
        rw [if_neg hc] at h
        split at h
        · rename_i x hx
          exact hm h
        · cases h
    | hex k n hi =>
      simp only [List.cons_append, stringGo] at h ⊢
      split at h
      · split
        · rename_i hk
          rw [if_pos hk] at h
          exact ih h
        · rename_i hk
          rw [if_neg hk] at h
          split at h
          · exact hm h
          · exact ih h
          · cases h
      · cases h
    | pair1 hi =>
      simp only [List.cons_append, stringGo] at h ⊢
      split
      · rename_i hc
        rw [if_pos hc] at h
        exact ih h
      · rename_i hc
        rw [if_neg hc] at h
        cases h
    | pair2 hi =>
      simp only [List.cons_append, stringGo] at h ⊢
      split
      · rename_i hc
        rw [if_pos hc] at h
        exact ih h
      · rename_i hc
        rw [if_neg hc] at h
        cases h

/-! ### Numbers -/

theorem isDigit_digit {n : Nat} (h : n < 10) : isDigit (digit n) = true := by
  unfold isDigit
  rw [digit_toNat h]
  exact decide_eq_true (by omega)

theorem decimal_digits (n : Nat) : ∀ c ∈ decimal n, isDigit c = true := by
  induction n using Nat.strongRecOn with
  | _ n ih =>
    rw [decimal]
    split
    · rename_i h
      simp [isDigit_digit h]
    · intro c hc
      rcases List.mem_append.1 hc with hc | hc
      · exact ih _ (by omega) c hc
      · rw [List.mem_singleton.1 hc]
        exact isDigit_digit (by omega)

theorem decimal_ne_nil (n : Nat) : decimal n ≠ [] := by
  rw [decimal]
  split <;> simp

theorem ofDigits_decimal (n : Nat) : ofDigits (decimal n) = n := by
  induction n using Nat.strongRecOn with
  | _ n ih =>
    rw [decimal]
    split
    · rename_i h
      simp [ofDigits, digit_toNat h]
    · have := ih (n / 10) (by omega)
      unfold ofDigits at this ⊢
      rw [List.foldl_append, this]
      simp only [List.foldl_cons, List.foldl_nil, digit_toNat (show n % 10 < 10 by omega)]
      omega

theorem decimal_head (n : Nat) (hn : n ≠ 0) : (decimal n).head? ≠ some '0' := by
  induction n using Nat.strongRecOn with
  | _ n ih =>
    rw [decimal]
    split
    · rename_i h
      intro hh
      simp only [List.head?_cons, Option.some.injEq] at hh
      have := congrArg Char.toNat hh
      rw [digit_toNat h] at this
      have h0 : ('0' : Char).toNat = 48 := by decide
      omega
    · have := ih (n / 10) (by omega) (by omega)
      cases hd : decimal (n / 10) with
      | nil => exact absurd hd (decimal_ne_nil _)
      | cons a l => rw [hd] at this; simpa using this

theorem decimal_canonical (n : Nat) : ¬ ((decimal n).head? = some '0' ∧ (decimal n).length > 1) := by
  rintro ⟨h1, h2⟩
  by_cases hn : n = 0
  · subst hn
    rw [decimal] at h2
    simp at h2
  · exact decimal_head n hn h1

/-- What may follow a number. -/
def Stop (r : List Char) : Prop := ∀ c, r.head? = some c → isDigit c = false ∧ c ≠ '.' ∧ c ≠ 'e' ∧ c ≠ 'E'

theorem takeWhile_stop {p : Char → Bool} {l r : List Char} (hl : ∀ c ∈ l, p c = true) (hr : ∀ c, r.head? = some c → p c = false) :
    (l ++ r).takeWhile p = l ∧ (l ++ r).dropWhile p = r := by
  induction l with
  | nil =>
    cases r with
    | nil => simp
    | cons c r => simp [hr c rfl]
  | cons a l ih =>
    have := ih (fun c hc => hl c (List.mem_cons_of_mem _ hc))
    simp [hl a (by simp), this.1, this.2]

theorem digits1_decimal (n : Nat) {r : List Char} (hr : Stop r) : digits1 (decimal n ++ r) = some (decimal n, r) := by
  have h := takeWhile_stop (p := isDigit) (decimal_digits n) (fun c hc => (hr c hc).1)
  unfold digits1
  rw [h.1, h.2, if_neg (decimal_ne_nil n)]

theorem fraction_stop {r : List Char} (hr : Stop r) : fraction r = some (false, r) := by
  cases r with
  | nil => rfl
  | cons c r => simp [fraction, (hr c rfl).2.1]

theorem exponent_stop {r : List Char} (hr : Stop r) : exponent r = some (false, r) := by
  cases r with
  | nil => rfl
  | cons c r => simp [exponent, (hr c rfl).2.2.1, (hr c rfl).2.2.2]

theorem unsigned_decimal (neg : Bool) (n : Nat) (hn : neg = true → n ≠ 0) {r : List Char} (hr : Stop r) :
    unsigned neg (decimal n ++ r) = some (.int (if neg then -(n : Int) else n), r) := by
  unfold unsigned
  rw [digits1_decimal n hr]
  simp only [Option.bind_some]
  rw [if_neg (decimal_canonical n), fraction_stop hr]
  simp only [Option.bind_some]
  rw [exponent_stop hr]
  simp only [Option.map_some, ofDigits_decimal]
  cases neg
  · simp
  · have := hn rfl
    simp [this]

theorem head_decimal (n : Nat) : ∃ c t, decimal n = c :: t ∧ isDigit c = true := by
  cases h : decimal n with
  | nil => exact absurd h (decimal_ne_nil n)
  | cons c t => exact ⟨c, t, rfl, decimal_digits n c (by rw [h]; simp)⟩

theorem number_print (i : Int) {r : List Char} (hr : Stop r) : number (printInt i ++ r) = some (.int i, r) := by
  unfold printInt
  split
  · rename_i h
    simp only [List.cons_append, number, if_true]
    rw [unsigned_decimal true _ (by omega) hr]
    simp
    omega
  · rename_i h
    obtain ⟨c, t, e, hc⟩ := head_decimal i.natAbs
    have hne : c ≠ '-' := by rintro rfl; revert hc; decide
    have h2 := unsigned_decimal false i.natAbs (by simp) hr
    rw [e] at h2 ⊢
    simp only [List.cons_append, number] at h2 ⊢
    rw [if_neg hne, h2]
    simp
    omega

theorem digits1_ext {cs a r : List Char} (h : digits1 cs = some (a, r)) (hr : r ≠ []) (ys : List Char) :
    digits1 (cs ++ ys) = some (a, r ++ ys) := by
  unfold digits1 at h ⊢
  split at h
  · cases h
  · rename_i hn
    simp only [Option.some.injEq, Prod.mk.injEq] at h
    obtain ⟨h1, h2⟩ := h
    have hd : (cs ++ ys).dropWhile isDigit = cs.dropWhile isDigit ++ ys := by
      rw [List.dropWhile_append, if_neg]
      rw [h2]
      cases r
      · exact absurd rfl hr
      · simp
    have ht : (cs ++ ys).takeWhile isDigit = cs.takeWhile isDigit := by
      rw [List.takeWhile_append, if_neg]
      intro he
      have := List.takeWhile_append_dropWhile (p := isDigit) (l := cs)
      have hl := congrArg List.length this
      rw [List.length_append, he, h2] at hl
      cases r
      · exact hr rfl
      · simp at hl
    rw [hd, ht, if_neg hn, h1, h2]

theorem fraction_ext {cs r : List Char} {b : Bool} (h : fraction cs = some (b, r)) (hr : r ≠ []) (ys : List Char) :
    fraction (cs ++ ys) = some (b, r ++ ys) := by
  cases cs with
  | nil => simp [fraction] at h; exact absurd h.2 hr
  | cons c cs =>
    simp only [fraction, List.cons_append] at h ⊢
    split
    · rename_i hc
      rw [if_pos hc] at h
      obtain ⟨⟨x, y⟩, h1, h2⟩ := Option.map_eq_some_iff.1 h
      simp only [Prod.mk.injEq] at h2
      rw [digits1_ext h1 (by rw [h2.2]; exact hr)]
      simp [h2.1, h2.2]
    · rename_i hc
      rw [if_neg hc] at h
      simp only [Option.some.injEq, Prod.mk.injEq] at h
      rw [← h.1, ← h.2]
      rfl

theorem sign_ext {cs : List Char} (h : digits1 (sign cs) ≠ none) (ys : List Char) : sign (cs ++ ys) = sign cs ++ ys := by
  cases cs with
  | nil => exact absurd rfl h
  | cons c cs =>
    simp only [sign, List.cons_append]
    split <;> rfl

theorem exponent_ext {cs r : List Char} {b : Bool} (h : exponent cs = some (b, r)) (hr : r ≠ []) (ys : List Char) :
    exponent (cs ++ ys) = some (b, r ++ ys) := by
  cases cs with
  | nil => simp [exponent] at h; exact absurd h.2 hr
  | cons c cs =>
    simp only [exponent, List.cons_append] at h ⊢
    split
    · rename_i hc
      rw [if_pos hc] at h
      obtain ⟨⟨x, y⟩, h1, h2⟩ := Option.map_eq_some_iff.1 h
      simp only [Prod.mk.injEq] at h2
      rw [sign_ext (by rw [h1]; simp), digits1_ext h1 (by rw [h2.2]; exact hr)]
      simp [h2.1, h2.2]
    · rename_i hc
      rw [if_neg hc] at h
      simp only [Option.some.injEq, Prod.mk.injEq] at h
      rw [← h.1, ← h.2]
      rfl

theorem exponent_ne {cs r : List Char} {b : Bool} (h : exponent cs = some (b, r)) (hr : r ≠ []) : cs ≠ [] := by
  rintro rfl
  simp [exponent] at h
  exact hr h.2

theorem fraction_ne {cs r : List Char} {b : Bool} (h : fraction cs = some (b, r)) (hr : r ≠ []) : cs ≠ [] := by
  rintro rfl
  simp [fraction] at h
  exact hr h.2

theorem unsigned_ext {neg : Bool} {cs r : List Char} {v : Json} (h : unsigned neg cs = some (v, r)) (hr : r ≠ []) (ys : List Char) :
    unsigned neg (cs ++ ys) = some (v, r ++ ys) := by
  unfold unsigned at h
  obtain ⟨⟨d1, d2⟩, h1, h⟩ := Option.bind_eq_some_iff.1 h
  split at h
  · cases h
  rename_i hz
  obtain ⟨⟨f1, f2⟩, h2, h⟩ := Option.bind_eq_some_iff.1 h
  obtain ⟨⟨e1, e2⟩, h3, h⟩ := Option.map_eq_some_iff.1 h
  simp only [Prod.mk.injEq] at h
  obtain ⟨hv, rfl⟩ := h
  have hf := exponent_ne h3 hr
  have hd := fraction_ne h2 hf
  unfold unsigned
  rw [digits1_ext h1 hd]
  simp only [Option.bind_some]
  rw [if_neg hz, fraction_ext h2 hf]
  simp only [Option.bind_some]
  rw [exponent_ext h3 hr]
  simp only [Option.map_some, hv]

theorem number_ext {cs r : List Char} {v : Json} (h : number cs = some (v, r)) (hr : r ≠ []) (ys : List Char) :
    number (cs ++ ys) = some (v, r ++ ys) := by
  cases cs with
  | nil => cases h
  | cons c cs =>
    simp only [number, List.cons_append] at h ⊢
    split
    · rename_i hc
      rw [if_pos hc] at h
      exact unsigned_ext h hr ys
    · rename_i hc
      rw [if_neg hc] at h
      exact unsigned_ext h hr ys

/-! ### Values -/

theorem word_ext {w cs r : List Char} {v x : Json} (h : word w v cs = some (x, r)) (ys : List Char) :
    word w v (cs ++ ys) = some (x, r ++ ys) := by
  unfold word at h ⊢
  split at h
  · rename_i hp
    rw [List.isPrefixOf_iff_prefix] at hp
    obtain ⟨t, rfl⟩ := hp
    simp only [Option.some.injEq, Prod.mk.injEq, List.drop_left] at h
    rw [if_pos (List.isPrefixOf_iff_prefix.2 ⟨t ++ ys, by simp⟩), List.append_assoc, List.drop_left, h.1, h.2]
  · cases h

theorem skipWs_ext {cs : List Char} (h : skipWs cs ≠ []) (ys : List Char) : skipWs (cs ++ ys) = skipWs cs ++ ys := by
  unfold skipWs at h ⊢
  rw [List.dropWhile_append, if_neg]
  simpa using h

/-- Is it a number? -/
def isNum : Json → Bool
  | .int _ => true
  | .real => true
  | _ => false

mutual
theorem value_ext : ∀ (f : Nat) (cs : List Char) (v : Json) (r : List Char), value f cs = some (v, r) → r ≠ [] ∨ isNum v = false →
    ∀ ys, value f (cs ++ ys) = some (v, r ++ ys)
  | 0, cs, v, r, h, _, ys => by simp [value] at h
  | f + 1, cs, v, r, h, hr, ys => by
    rw [value] at h ⊢
    cases hs : skipWs cs with
    | nil => rw [hs] at h; cases h
    | cons c t =>
      rw [hs] at h
      rw [skipWs_ext (by rw [hs]; simp), hs]
      simp only [List.cons_append] at h ⊢
      by_cases h1 : c = '"'
      · rw [if_pos h1] at h ⊢
        obtain ⟨⟨a, b⟩, ha, hb⟩ := Option.map_eq_some_iff.1 h
        simp only [Prod.mk.injEq] at hb
        rw [stringGo_ext ha]
        simp [← hb.1, ← hb.2]
      rw [if_neg h1] at h ⊢
      by_cases h2 : c = '['
      · rw [if_pos h2] at h ⊢
        cases ht : skipWs t with
        | nil => rw [ht] at h; cases h
        | cons d u =>
          rw [ht] at h
          rw [skipWs_ext (by rw [ht]; simp), ht]
          simp only [List.cons_append] at h ⊢
          split
          · rename_i hd
            rw [if_pos hd] at h
            simp only [Option.some.injEq, Prod.mk.injEq] at h
            simp [← h.1, ← h.2]
          · rename_i hd
            rw [if_neg hd] at h
            obtain ⟨⟨a, b⟩, ha, hb⟩ := Option.map_eq_some_iff.1 h
            simp only [Prod.mk.injEq] at hb
            have := elems_ext f _ _ _ ha ys
            rw [List.cons_append] at this
            rw [this]
            simp [← hb.1, ← hb.2]
      rw [if_neg h2] at h ⊢
      by_cases h3 : c = '{'
      · rw [if_pos h3] at h ⊢
        cases ht : skipWs t with
        | nil => rw [ht] at h; cases h
        | cons d u =>
          rw [ht] at h
          rw [skipWs_ext (by rw [ht]; simp), ht]
          simp only [List.cons_append] at h ⊢
          split
          · rename_i hd
            rw [if_pos hd] at h
            simp only [Option.some.injEq, Prod.mk.injEq] at h
            simp [← h.1, ← h.2]
          · rename_i hd
            rw [if_neg hd] at h
            obtain ⟨⟨a, b⟩, ha, hb⟩ := Option.map_eq_some_iff.1 h
            simp only [Prod.mk.injEq] at hb
            have := fields_ext f _ _ _ ha ys
            rw [List.cons_append] at this
            rw [this]
            simp [← hb.1, ← hb.2]
      rw [if_neg h3] at h ⊢
      by_cases h4 : c = 'n'
      · rw [if_pos h4] at h ⊢
        exact word_ext h ys
      rw [if_neg h4] at h ⊢
      by_cases h5 : c = 't'
      · rw [if_pos h5] at h ⊢
        exact word_ext h ys
      rw [if_neg h5] at h ⊢
      by_cases h6 : c = 'f'
      · rw [if_pos h6] at h ⊢
        exact word_ext h ys
      rw [if_neg h6] at h ⊢
      refine number_ext h ?_ ys
      rcases hr with hr | hr
      · exact hr
      · exfalso
        have key : ∀ {neg cs v r}, unsigned neg cs = some (v, r) → isNum v = true := by
          intro neg cs v r hu
          unfold unsigned at hu
          obtain ⟨_, _, hu⟩ := Option.bind_eq_some_iff.1 hu
          split at hu
          · cases hu
          obtain ⟨_, _, hu⟩ := Option.bind_eq_some_iff.1 hu
          obtain ⟨_, _, hu⟩ := Option.map_eq_some_iff.1 hu
          simp only [Prod.mk.injEq] at hu
          rw [← hu.1]
          split <;> rfl
        rw [number] at h
        split at h
        · rw [key h] at hr; cases hr
        · rw [key h] at hr; cases hr
theorem elems_ext : ∀ (f : Nat) (cs : List Char) (l : List Json) (r : List Char), elems f cs = some (l, r) →
    ∀ ys, elems f (cs ++ ys) = some (l, r ++ ys)
  | 0, cs, v, r, h, ys => by simp [elems] at h
  | f + 1, cs, l, r, h, ys => by
    rw [elems] at h ⊢
    obtain ⟨⟨v, r1⟩, hv, h⟩ := Option.bind_eq_some_iff.1 h
    simp only at h
    cases hs : skipWs r1 with
    | nil => rw [hs] at h; cases h
    | cons c t =>
      have hne : r1 ≠ [] := by rintro rfl; simp [skipWs] at hs
      rw [value_ext f _ _ _ hv (.inl hne) ys]
      simp only [Option.bind_some]
      rw [hs] at h
      rw [skipWs_ext (by rw [hs]; simp), hs]
      simp only [List.cons_append] at h ⊢
      split
      · rename_i hc
        rw [if_pos hc] at h
        simp only [Option.some.injEq, Prod.mk.injEq] at h
        simp [← h.1, ← h.2]
      rename_i hc
      rw [if_neg hc] at h
      split
      · rename_i hd
        rw [if_pos hd] at h
        obtain ⟨⟨a, b⟩, ha, hb⟩ := Option.map_eq_some_iff.1 h
        simp only [Prod.mk.injEq] at hb
        rw [elems_ext f _ _ _ ha ys]
        simp [← hb.1, ← hb.2]
      · rename_i hd
        rw [if_neg hd] at h
        cases h
theorem fields_ext : ∀ (f : Nat) (cs : List Char) (l : List (String × Json)) (r : List Char), fields f cs = some (l, r) →
    ∀ ys, fields f (cs ++ ys) = some (l, r ++ ys)
  | 0, cs, v, r, h, ys => by simp [fields] at h
  | f + 1, cs, l, r, h, ys => by
    rw [fields] at h ⊢
    cases hq : skipWs cs with
    | nil => rw [hq] at h; cases h
    | cons q r0 =>
      rw [hq] at h
      rw [skipWs_ext (by rw [hq]; simp), hq]
      simp only [List.cons_append] at h ⊢
      by_cases hqq : q = '"'
      rotate_left
      · rw [if_neg hqq] at h
        cases h
      rw [if_pos hqq] at h ⊢
      obtain ⟨⟨k, r1⟩, hk, h⟩ := Option.bind_eq_some_iff.1 h
      rw [stringGo_ext hk]
      simp only [Option.bind_some] at h ⊢
      cases hc1 : skipWs r1 with
      | nil => rw [hc1] at h; cases h
      | cons col r2 =>
        rw [hc1] at h
        rw [skipWs_ext (by rw [hc1]; simp), hc1]
        simp only [List.cons_append] at h ⊢
        by_cases hcol : col = ':'
        rotate_left
        · rw [if_neg hcol] at h
          cases h
        rw [if_pos hcol] at h ⊢
        obtain ⟨⟨v, r3⟩, hv, h⟩ := Option.bind_eq_some_iff.1 h
        simp only at h
        cases hs : skipWs r3 with
        | nil => rw [hs] at h; cases h
        | cons c t =>
          have hne : r3 ≠ [] := by rintro rfl; simp [skipWs] at hs
          rw [value_ext f _ _ _ hv (.inl hne) ys]
          simp only [Option.bind_some]
          rw [hs] at h
          rw [skipWs_ext (by rw [hs]; simp), hs]
          simp only [List.cons_append] at h ⊢
          split
          · rename_i hc
            rw [if_pos hc] at h
            simp only [Option.some.injEq, Prod.mk.injEq] at h
            simp [← h.1, ← h.2]
          rename_i hc
          rw [if_neg hc] at h
          split
          · rename_i hd
            rw [if_pos hd] at h
            obtain ⟨⟨a, b⟩, ha, hb⟩ := Option.map_eq_some_iff.1 h
            simp only [Prod.mk.injEq] at hb
            rw [fields_ext f _ _ _ ha ys]
            simp [← hb.1, ← hb.2]
          · rename_i hd
            rw [if_neg hd] at h
            cases h
end

mutual
theorem value_mono : ∀ (f : Nat) (cs : List Char) (x : Json × List Char), value f cs = some x → value (f + 1) cs = some x
  | 0, cs, x, h => by simp [value] at h
  | f + 1, cs, x, h => by
    rw [value] at h ⊢
    cases hs : skipWs cs with
    | nil => rw [hs] at h; cases h
    | cons c t =>
      rw [hs] at h
      simp only at h ⊢
      by_cases h1 : c = '"'
      · rw [if_pos h1] at h ⊢
        exact h
      rw [if_neg h1] at h ⊢
      by_cases h2 : c = '['
      · rw [if_pos h2] at h ⊢
        cases ht : skipWs t with
        | nil => rw [ht] at h; cases h
        | cons d u =>
          rw [ht] at h
          simp only at h ⊢
          split
          · rename_i hd
            rw [if_pos hd] at h
            exact h
          · rename_i hd
            rw [if_neg hd] at h
            obtain ⟨a, ha, hb⟩ := Option.map_eq_some_iff.1 h
            rw [elems_mono f _ _ ha, Option.map_some, hb]
      rw [if_neg h2] at h ⊢
      by_cases h3 : c = '{'
      · rw [if_pos h3] at h ⊢
        cases ht : skipWs t with
        | nil => rw [ht] at h; cases h
        | cons d u =>
          rw [ht] at h
          simp only at h ⊢
          split
          · rename_i hd
            rw [if_pos hd] at h
            exact h
          · rename_i hd
            rw [if_neg hd] at h
            obtain ⟨a, ha, hb⟩ := Option.map_eq_some_iff.1 h
            rw [fields_mono f _ _ ha, Option.map_some, hb]
      rw [if_neg h3] at h ⊢
      exact h
theorem elems_mono : ∀ (f : Nat) (cs : List Char) (x : List Json × List Char), elems f cs = some x → elems (f + 1) cs = some x
  | 0, cs, x, h => by simp [elems] at h
  | f + 1, cs, x, h => by
    rw [elems] at h ⊢
    obtain ⟨v, hv, h⟩ := Option.bind_eq_some_iff.1 h
    rw [value_mono f _ _ hv]
    simp only [Option.bind_some]
    cases hs : skipWs v.2 with
    | nil => rw [hs] at h; cases h
    | cons c t =>
      rw [hs] at h
      simp only at h ⊢
      split
      · rename_i hc
        rw [if_pos hc] at h
        exact h
      rename_i hc
      rw [if_neg hc] at h
      split
      · rename_i hd
        rw [if_pos hd] at h
        obtain ⟨a, ha, hb⟩ := Option.map_eq_some_iff.1 h
        rw [elems_mono f _ _ ha, Option.map_some, hb]
      · rename_i hd
        rw [if_neg hd] at h
        cases h
theorem fields_mono : ∀ (f : Nat) (cs : List Char) (x : List (String × Json) × List Char), fields f cs = some x →
    fields (f + 1) cs = some x
  | 0, cs, x, h => by simp [fields] at h
  | f + 1, cs, x, h => by
    rw [fields] at h ⊢
    cases hq : skipWs cs with
    | nil => rw [hq] at h; cases h
    | cons q r0 =>
      rw [hq] at h
      simp only at h ⊢
      by_cases hqq : q = '"'
      rotate_left
      · rw [if_neg hqq] at h
        cases h
      rw [if_pos hqq] at h ⊢
      obtain ⟨k, hk, h⟩ := Option.bind_eq_some_iff.1 h
      rw [hk]
      simp only [Option.bind_some]
      cases hc1 : skipWs k.2 with
      | nil => rw [hc1] at h; cases h
      | cons col r2 =>
        rw [hc1] at h
        simp only at h ⊢
        by_cases hcol : col = ':'
        rotate_left
        · rw [if_neg hcol] at h
          cases h
        rw [if_pos hcol] at h ⊢
        obtain ⟨v, hv, h⟩ := Option.bind_eq_some_iff.1 h
        rw [value_mono f _ _ hv]
        simp only [Option.bind_some]
        cases hs : skipWs v.2 with
        | nil => rw [hs] at h; cases h
        | cons c t =>
          rw [hs] at h
          simp only at h ⊢
          split
          · rename_i hc
            rw [if_pos hc] at h
            exact h
          rename_i hc
          rw [if_neg hc] at h
          split
          · rename_i hd
            rw [if_pos hd] at h
            obtain ⟨a, ha, hb⟩ := Option.map_eq_some_iff.1 h
            rw [fields_mono f _ _ ha, Option.map_some, hb]
          · rename_i hd
            rw [if_neg hd] at h
            cases h
end

theorem value_more {f f' : Nat} (hf : f ≤ f') {cs : List Char} {x : Json × List Char} (h : value f cs = some x) :
    value f' cs = some x := by
  induction hf with
  | refl => exact h
  | step _ ih => exact value_mono _ _ _ ih

end Verif.Json
