import Verif.Proof.Json3

/-!
# The beginning of a line followed by another line is not JSON

A scanner that knows about nesting and strings only, and in addition that the first letters of the names of entries do not occur outside of strings.
-/

namespace Verif.Json
open Verif

/-- Where the scanner is: outside of strings, inside, after a backslash. -/
inductive Mode where
  | out
  | str
  | esc
deriving DecidableEq, Repr

/-- Characters that have a meaning to the scanner outside of strings. -/
def marks : List Char := ['{', '}', '[', ']', '"', 'H', 'R', 'S', 'F', 'B']

def scan : Nat → Mode → List Char → Option (Nat × Mode)
  | d, m, [] => some (d, m)
  | d, .out, c :: cs =>
    if c ∉ marks then scan d .out cs
    else if c = '{' ∨ c = '[' then scan (d + 1) .out cs
    else if c = '}' ∨ c = ']' then (if d = 0 then none else scan (d - 1) .out cs)
    else if c = '"' then scan d .str cs
    else none
  | d, .str, c :: cs => if c = '"' then scan d .out cs else if c = '\\' then scan d .esc cs else scan d .str cs
  | d, .esc, c :: cs => if c = '{' then none else scan d .str cs

theorem scan_append : ∀ (a b : List Char) (d : Nat) (m : Mode), scan d m (a ++ b) = (scan d m a).bind (fun x => scan x.1 x.2 b) := by
  intro a
  induction a with
  | nil => intro b d m; simp [scan]
  | cons c cs ih =>
    intro b d m
    cases m <;> simp only [List.cons_append, scan, ih] <;> repeat' split
    all_goals rfl

theorem scan_shift : ∀ (cs : List Char) (d : Nat) (m : Mode) (x : Nat × Mode), scan d m cs = some x → scan (d + 1) m cs = some (x.1 + 1, x.2) := by
  intro cs
  induction cs with
  | nil => intro d m x h; simp only [scan, Option.some.injEq] at h; subst h; rfl
  | cons c cs ih =>
    intro d m x h
    cases m with
    | out =>
      simp only [scan] at h ⊢
      split at h
      · rename_i h1; rw [if_pos h1]; exact ih _ _ _ h
      rename_i h1; rw [if_neg h1]
      split at h
      · rename_i h2; rw [if_pos h2]; exact ih _ _ _ h
      rename_i h2; rw [if_neg h2]
      split at h
      · rename_i h3; rw [if_pos h3]
        split at h
        · cases h
        · rename_i hd
          have := ih _ _ _ h
          rw [if_neg (by omega)]
          have e : d - 1 + 1 = d + 1 - 1 := by omega
          rw [← e]; exact this
      rename_i h3; rw [if_neg h3]
      split at h
      · rename_i h4; rw [if_pos h4]; exact ih _ _ _ h
      · cases h
    | str =>
      simp only [scan] at h ⊢
      repeat' split at h
      all_goals simp_all only [if_true, if_false, not_false_eq_true]
      all_goals exact ih _ _ _ h
    | esc =>
      simp only [scan] at h ⊢
      split at h
      · cases h
      · rename_i h1; rw [if_neg h1]; exact ih _ _ _ h

theorem scan_skip {c : Char} (h : c ∉ marks) (d : Nat) (cs : List Char) : scan d .out (c :: cs) = scan d .out cs := by
  simp only [scan, if_pos h]

theorem scan_skips {p : List Char} (h : ∀ c ∈ p, c ∉ marks) (d : Nat) (cs : List Char) : scan d .out (p ++ cs) = scan d .out cs := by
  induction p with
  | nil => rfl
  | cons c p ih => rw [List.cons_append, scan_skip (h c (List.mem_cons_self ..)), ih (fun c hc => h c (List.mem_cons_of_mem _ hc))]

theorem ws_plain {c : Char} (h : isWs c = true) : c ∉ marks := by
  simp only [isWs, Bool.or_eq_true, beq_iff_eq] at h
  rcases h with ((rfl | rfl) | rfl) | rfl <;> decide

theorem scan_skipWs (d : Nat) (cs : List Char) : scan d .out (skipWs cs) = scan d .out cs := by
  conv => rhs; rw [← List.takeWhile_append_dropWhile (p := isWs) (l := cs)]
  rw [scan_skips]
  · rfl
  · intro c hc; exact ws_plain ((List.all_eq_true.1 List.all_takeWhile) c hc)

theorem digit_plain {c : Char} (h : isDigit c = true) : c ∉ marks := by
  simp only [isDigit, decide_eq_true_eq] at h
  intro hm
  simp only [marks, List.mem_cons, List.not_mem_nil, or_false] at hm
  rcases hm with rfl | rfl | rfl | rfl | rfl | rfl | rfl | rfl | rfl | rfl <;> revert h <;> decide

/-- The mode in which the parser of strings is. -/
def StrSt.mode : StrSt → Mode
  | .text => .str
  | .esc => .esc
  | .hex _ _ _ => .str
  | .pair1 _ => .str
  | .pair2 _ => .esc

theorem scan_string : ∀ (cs : List Char) (st : StrSt) (s r : List Char), stringGo st cs = some (s, r) → ∀ d, scan d st.mode cs = scan d .out r := by
  intro cs
  induction cs with
  | nil => intro st s r h; cases st <;> simp [stringGo] at h
  | cons c cs ih =>
    intro st s r h d
    cases st with
    | text =>
      simp only [stringGo] at h
      simp only [StrSt.mode, scan]
      split at h
      · rename_i h1; rw [if_pos h1]; simp only [Option.some.injEq, Prod.mk.injEq] at h; rw [h.2]
      rename_i h1; rw [if_neg h1]
      split at h
      · rename_i h2; rw [if_pos h2]; exact ih .esc _ _ h d
      rename_i h2; rw [if_neg h2]
      split at h
      · cases h
      · obtain ⟨⟨a, b⟩, ha, hb⟩ := Option.map_eq_some_iff.1 h
        simp only [Prod.mk.injEq] at hb
        rw [← hb.2]
        exact ih .text _ _ ha d
    | esc =>
      simp only [stringGo] at h
      simp only [StrSt.mode, scan]
      split at h
      · rename_i h1; subst h1; rw [if_neg (by decide)]; exact ih (.hex 0 0 none) _ _ h d
      · split at h
        · rename_i x hx
          have : c ≠ '{' := by rintro rfl; cases hx
          rw [if_neg this]
          obtain ⟨⟨a, b⟩, ha, hb⟩ := Option.map_eq_some_iff.1 h
          simp only [Prod.mk.injEq] at hb
          rw [← hb.2]
          exact ih .text _ _ ha d
        · cases h
    | hex k n hi =>
      simp only [stringGo] at h
      simp only [StrSt.mode, scan]
      split at h
      · rename_i x hx
        have h1 : c ≠ '"' := by rintro rfl; cases hx
        have h2 : c ≠ '\\' := by rintro rfl; cases hx
        rw [if_neg h1, if_neg h2]
        split at h
        · exact ih (.hex _ _ _) _ _ h d
        · split at h
          · obtain ⟨⟨a, b⟩, ha, hb⟩ := Option.map_eq_some_iff.1 h
            simp only [Prod.mk.injEq] at hb
            rw [← hb.2]
            exact ih .text _ _ ha d
          · exact ih (.pair1 _) _ _ h d
          · cases h
      · cases h
    | pair1 hi =>
      simp only [stringGo] at h
      simp only [StrSt.mode, scan]
      split at h
      · rename_i h1; subst h1; rw [if_neg (by decide), if_pos rfl]; exact ih (.pair2 hi) _ _ h d
      · cases h
    | pair2 hi =>
      simp only [stringGo] at h
      simp only [StrSt.mode, scan]
      split at h
      · rename_i h1; subst h1; rw [if_neg (by decide)]; exact ih (.hex _ _ _) _ _ h d
      · cases h

theorem scan_digits1 {cs a r : List Char} (h : digits1 cs = some (a, r)) (d : Nat) : scan d .out cs = scan d .out r := by
  unfold digits1 at h
  split at h
  · cases h
  · simp only [Option.some.injEq, Prod.mk.injEq] at h
    rw [← h.2]
    conv => lhs; rw [← List.takeWhile_append_dropWhile (p := isDigit) (l := cs)]
    exact scan_skips (fun c hc => digit_plain ((List.all_eq_true.1 List.all_takeWhile) c hc)) _ _

theorem scan_fraction {cs r : List Char} {b : Bool} (h : fraction cs = some (b, r)) (d : Nat) : scan d .out cs = scan d .out r := by
  cases cs with
  | nil => simp only [fraction, Option.some.injEq, Prod.mk.injEq] at h; rw [h.2]
  | cons c cs =>
    simp only [fraction] at h
    split at h
    · rename_i hc
      obtain ⟨⟨x, y⟩, hx, hy⟩ := Option.map_eq_some_iff.1 h
      simp only [Prod.mk.injEq] at hy
      subst hc
      rw [scan_skip (by decide), scan_digits1 hx, hy.2]
    · simp only [Option.some.injEq, Prod.mk.injEq] at h; rw [h.2]

theorem scan_sign (cs : List Char) (d : Nat) : scan d .out (sign cs) = scan d .out cs := by
  cases cs with
  | nil => rfl
  | cons c cs =>
    simp only [sign]
    split
    · rename_i hc
      rw [scan_skip (c := c) (by rcases hc with rfl | rfl <;> decide)]
    · rfl

theorem scan_exponent {cs r : List Char} {b : Bool} (h : exponent cs = some (b, r)) (d : Nat) : scan d .out cs = scan d .out r := by
  cases cs with
  | nil => simp only [exponent, Option.some.injEq, Prod.mk.injEq] at h; rw [h.2]
  | cons c cs =>
    simp only [exponent] at h
    split at h
    · rename_i hc
      obtain ⟨⟨x, y⟩, hx, hy⟩ := Option.map_eq_some_iff.1 h
      simp only [Prod.mk.injEq] at hy
      rw [scan_skip (c := c) (by rcases hc with rfl | rfl <;> decide), ← scan_sign, scan_digits1 hx, hy.2]
    · simp only [Option.some.injEq, Prod.mk.injEq] at h; rw [h.2]

theorem scan_number {cs r : List Char} {v : Json} (h : number cs = some (v, r)) (d : Nat) : scan d .out cs = scan d .out r := by
  have key : ∀ {neg cs}, unsigned neg cs = some (v, r) → scan d .out cs = scan d .out r := by
    intro neg cs hu
    unfold unsigned at hu
    obtain ⟨⟨a, b⟩, h1, hu⟩ := Option.bind_eq_some_iff.1 hu
    simp only at hu
    split at hu
    · cases hu
    obtain ⟨⟨a2, b2⟩, h2, hu⟩ := Option.bind_eq_some_iff.1 hu
    obtain ⟨⟨a3, b3⟩, h3, hu⟩ := Option.map_eq_some_iff.1 hu
    simp only [Prod.mk.injEq] at hu
    rw [scan_digits1 h1, scan_fraction h2, scan_exponent h3, hu.2]
  cases cs with
  | nil => simp [number] at h
  | cons c cs =>
    simp only [number] at h
    split at h
    · rename_i hc; subst hc
      rw [scan_skip (by decide)]; exact key h
    · exact key h

theorem scan_word {w cs r : List Char} {v x : Json} (h : word w v cs = some (x, r)) (hw : ∀ c ∈ w, c ∉ marks) (d : Nat) :
    scan d .out cs = scan d .out r := by
  unfold word at h
  split at h
  · rename_i hp
    obtain ⟨t, rfl⟩ := List.isPrefixOf_iff_prefix.1 hp
    simp only [Option.some.injEq, Prod.mk.injEq, List.drop_left'] at h
    rw [scan_skips hw, ← h.2]
  · cases h

mutual
theorem scan_value : ∀ (f : Nat) (cs : List Char) (v : Json) (r : List Char), value f cs = some (v, r) → ∀ d, scan d .out cs = scan d .out r
  | 0, cs, v, r, h, d => by simp [value] at h
  | f + 1, cs, v, r, h, d => by
    rw [value] at h
    rw [← scan_skipWs]
    cases hs : skipWs cs with
    | nil => rw [hs] at h; cases h
    | cons c t =>
      rw [hs] at h
      simp only at h
      by_cases h1 : c = '"'
      · rw [if_pos h1] at h
        obtain ⟨⟨a, b⟩, ha, hb⟩ := Option.map_eq_some_iff.1 h
        simp only [Prod.mk.injEq] at hb
        subst h1
        rw [← hb.2, ← scan_string _ _ _ _ ha d]
        rfl
      rw [if_neg h1] at h
      by_cases h2 : c = '['
      · rw [if_pos h2] at h
        subst h2
        have e : scan d .out ('[' :: t) = scan (d + 1) .out (skipWs t) := by rw [scan_skipWs]; rfl
        rw [e]
        cases ht : skipWs t with
        | nil => rw [ht] at h; cases h
        | cons x u =>
          rw [ht] at h
          simp only at h
          split at h
          · rename_i hd; subst hd
            simp only [Option.some.injEq, Prod.mk.injEq] at h
            rw [← h.2]
            simp [scan, marks]
          · obtain ⟨⟨a, b⟩, ha, hb⟩ := Option.map_eq_some_iff.1 h
            simp only [Prod.mk.injEq] at hb
            rw [← hb.2]
            exact scan_elems f _ _ _ ha d
      rw [if_neg h2] at h
      by_cases h3 : c = '{'
      · rw [if_pos h3] at h
        subst h3
        have e : scan d .out ('{' :: t) = scan (d + 1) .out (skipWs t) := by rw [scan_skipWs]; rfl
        rw [e]
        cases ht : skipWs t with
        | nil => rw [ht] at h; cases h
        | cons x u =>
          rw [ht] at h
          simp only at h
          split at h
          · rename_i hd; subst hd
            simp only [Option.some.injEq, Prod.mk.injEq] at h
            rw [← h.2]
            simp [scan, marks]
          · obtain ⟨⟨a, b⟩, ha, hb⟩ := Option.map_eq_some_iff.1 h
            simp only [Prod.mk.injEq] at hb
            rw [← hb.2]
            exact scan_fields f _ _ _ ha d
      rw [if_neg h3] at h
      split at h
      · exact scan_word h (by decide) d
      split at h
      · exact scan_word h (by decide) d
      split at h
      · exact scan_word h (by decide) d
      exact scan_number h d
theorem scan_elems : ∀ (f : Nat) (cs : List Char) (l : List Json) (r : List Char), elems f cs = some (l, r) →
    ∀ d, scan (d + 1) .out cs = scan d .out r
  | 0, cs, v, r, h, d => by simp [elems] at h
  | f + 1, cs, l, r, h, d => by
    rw [elems] at h
    obtain ⟨⟨v, r1⟩, hv, h⟩ := Option.bind_eq_some_iff.1 h
    simp only at h
    rw [scan_value f _ _ _ hv, ← scan_skipWs]
    cases hs : skipWs r1 with
    | nil => rw [hs] at h; cases h
    | cons c t =>
      rw [hs] at h
      simp only at h
      split at h
      · rename_i hc; subst hc
        simp only [Option.some.injEq, Prod.mk.injEq] at h
        rw [← h.2]
        simp [scan, marks]
      split at h
      · rename_i hc; subst hc
        obtain ⟨⟨a, b⟩, ha, hb⟩ := Option.map_eq_some_iff.1 h
        simp only [Prod.mk.injEq] at hb
        rw [← hb.2, scan_skip (by decide)]
        exact scan_elems f _ _ _ ha d
      · cases h
theorem scan_fields : ∀ (f : Nat) (cs : List Char) (l : List (String × Json)) (r : List Char), fields f cs = some (l, r) →
    ∀ d, scan (d + 1) .out cs = scan d .out r
  | 0, cs, v, r, h, d => by simp [fields] at h
  | f + 1, cs, l, r, h, d => by
    rw [fields] at h
    rw [← scan_skipWs]
    cases hq : skipWs cs with
    | nil => rw [hq] at h; cases h
    | cons q r0 =>
      rw [hq] at h
      simp only at h
      split at h
      rotate_left
      · cases h
      rename_i hqq; subst hqq
      obtain ⟨⟨k, r1⟩, hk, h⟩ := Option.bind_eq_some_iff.1 h
      have e : scan (d + 1) .out ('"' :: r0) = scan (d + 1) .out (skipWs r1) := by
        rw [scan_skipWs, ← scan_string _ _ _ _ hk]; rfl
      rw [e]
      simp only at h
      cases hc1 : skipWs r1 with
      | nil => rw [hc1] at h; cases h
      | cons col r2 =>
        rw [hc1] at h
        simp only at h
        split at h
        rotate_left
        · cases h
        rename_i hcol; subst hcol
        obtain ⟨⟨v, r3⟩, hv, h⟩ := Option.bind_eq_some_iff.1 h
        simp only at h
        rw [scan_skip (by decide), scan_value f _ _ _ hv, ← scan_skipWs]
        cases hs : skipWs r3 with
        | nil => rw [hs] at h; cases h
        | cons c t =>
          rw [hs] at h
          simp only at h
          split at h
          · rename_i hc; subst hc
            simp only [Option.some.injEq, Prod.mk.injEq] at h
            rw [← h.2]
            simp [scan, marks]
          split at h
          · rename_i hc; subst hc
            obtain ⟨⟨a, b⟩, ha, hb⟩ := Option.map_eq_some_iff.1 h
            simp only [Prod.mk.injEq] at hb
            rw [← hb.2, scan_skip (by decide)]
            exact scan_fields f _ _ _ ha d
          · cases h
end

theorem scan_parse {cs : List Char} {v : Json} (h : parse cs = some v) : scan 0 .out cs = some (0, .out) := by
  unfold parse at h
  obtain ⟨⟨w, r⟩, hv, h⟩ := Option.bind_eq_some_iff.1 h
  simp only at h
  split at h
  · rename_i hr
    rw [scan_value _ _ _ _ hv, ← scan_skipWs, hr]; rfl
  · cases h

theorem scan_print {v : Json} (h : noReal v = true) (d : Nat) : scan d .out (print v) = some (d, .out) := by
  have := value_print _ h (print v).length [] stop_nil (Nat.le_refl _)
  rw [List.append_nil] at this
  rw [scan_value _ _ _ _ this]; rfl

theorem scan_quoted (s : String) (d : Nat) (r : List Char) : scan d .out (quoted s ++ r) = scan d .out r := by
  rw [quoted_cons]
  have := scan_string _ .text _ _ (stringGo_print s.toList r) d
  rw [← this]
  simp only [List.cons_append, List.append_assoc, List.nil_append]
  rfl

theorem scan_body : ∀ {l : List (String × Json)}, noRealFields l = true → scan 0 .out (commas (printFields l)) = some (0, .out) := by
  intro l
  induction l with
  | nil => intro _; rfl
  | cons kv l ih =>
    intro h
    obtain ⟨k, v⟩ := kv
    simp only [noRealFields, Bool.and_eq_true] at h
    have one : ∀ r, scan 0 .out (quoted k ++ ':' :: print v ++ r) = scan 0 .out r := by
      intro r
      rw [List.append_assoc, scan_quoted, List.cons_append, scan_skip (by decide), scan_append, scan_print h.1]
      rfl
    cases l with
    | nil =>
      have := one []
      simp only [List.append_nil] at this
      simp only [printFields, commas]
      rw [this]; rfl
    | cons kv2 l =>
      have i := ih h.2
      obtain ⟨k2, v2⟩ := kv2
      simp only [printFields] at i ⊢
      simp only [commas]
      rw [one, scan_skip (by decide)]
      exact i

/-- A beginning of an object, cut before its end, followed by an entry. -/
theorem parse_spliced {l : List (String × Json)} (h : noReal (.obj l) = true) {p q : List Char} (hp : print (.obj l) = p ++ q) (hp0 : p ≠ [])
    (hq : q ≠ []) (e : LogEntry) : parse (p ++ entryText e) = none := by
  cases hr : parse (p ++ entryText e) with
  | none => rfl
  | some v =>
    exfalso
    have hs := scan_parse hr
    cases p with
    | nil => exact hp0 rfl
    | cons c p =>
      rw [print] at hp
      simp only [List.cons_append, List.cons.injEq] at hp
      obtain ⟨rfl, hp⟩ := hp
      have hb : ∃ t, commas (printFields l) = p ++ t := by
        rcases List.eq_nil_or_concat q with rfl | ⟨q', x, rfl⟩
        · exact absurd rfl hq
        · rw [List.concat_eq_append, ← List.append_assoc] at hp
          exact ⟨q', (List.append_inj' hp rfl).1⟩
      obtain ⟨t, ht⟩ := hb
      have hn : noRealFields l = true := by simpa [noReal] using h
      have h0 := scan_body hn
      rw [ht, scan_append] at h0
      obtain ⟨⟨d, m⟩, h1, _⟩ := Option.bind_eq_some_iff.1 h0
      have h2 := scan_shift _ _ _ _ h1
      have e1 : scan 0 .out ('{' :: p ++ entryText e) = scan 1 .out (p ++ entryText e) := by
        simp [scan, marks]
      rw [e1, scan_append, h2] at hs
      simp only [Option.bind_some] at hs
      cases m with
      | out => rw [show entryText e = print (toJson e) from rfl, scan_print (toJson_plain e)] at hs; simp at hs
      | str =>
        have : ∃ x t, entryText e = '{' :: '"' :: x :: t ∧ x ∈ ['H', 'R', 'S', 'F', 'B'] := by
          cases e <;> exact ⟨_, _, rfl, by decide⟩
        obtain ⟨x, t, ht, hx⟩ := this
        rw [ht] at hs
        revert hs
        simp only [List.mem_cons, List.not_mem_nil, or_false] at hx
        rcases hx with rfl | rfl | rfl | rfl | rfl <;> simp [scan, marks]
      | esc =>
        have : ∃ t, entryText e = '{' :: t := by cases e <;> exact ⟨_, rfl⟩
        obtain ⟨t, ht⟩ := this
        rw [ht] at hs
        simp [scan] at hs

theorem fromStr_spliced {e e' : LogEntry} {p q : List Char} (h : entryText e = p ++ q) (hp : p ≠ []) (hq : q ≠ []) :
    fromStr (p ++ entryText e') = none := by
  obtain ⟨l, hl⟩ := toJson_obj e
  have hn := toJson_plain e
  rw [hl] at hn
  have : print (.obj l) = p ++ q := by rw [← hl]; exact h
  unfold fromStr
  rw [parse_spliced hn this hp hq]
  rfl

/-- Text that begins with an ASCII character, somewhere in a valid text. -/
theorem utf8_suffix {x : Char} {t : List Char} (hx : x.toNat < 128) : ∀ {cs : List Char} {b : List UInt8}, b ++ utf8 (x :: t) = utf8 cs →
    ∃ p, cs = p ++ x :: t ∧ b = utf8 p := by
  have hone : String.utf8EncodeChar x = [UInt8.ofNat x.toNat] := by
    have : x.val.toNat ≤ 0x7f := by have : x.val.toNat < 128 := hx; omega
    simp only [String.utf8EncodeChar]
    rw [if_pos this]
    rfl
  intro cs
  induction cs with
  | nil =>
    intro b h
    rw [utf8_cons, hone] at h
    simp [utf8] at h
  | cons c cs ih =>
    intro b h
    by_cases hb : b = []
    · subst hb
      rw [List.nil_append] at h
      exact ⟨[], (utf8_inj h).symm, rfl⟩
    · rw [utf8_cons c] at h
      rcases List.append_eq_append_iff.1 h with ⟨a, h1, h2⟩ | ⟨a, h1, h2⟩
      · -- the first character reaches beyond `b`
        cases a with
        | nil =>
          rw [List.nil_append] at h2
          rw [List.append_nil] at h1
          have := utf8_inj h2
          exact ⟨[c], by rw [this]; rfl, by simp [utf8, h1]⟩
        | cons y a =>
          rw [utf8_cons, hone] at h2
          simp only [List.cons_append, List.nil_append, List.cons.injEq] at h2
          have hy : y ∈ String.utf8EncodeChar c := by rw [h1]; simp
          have hyn : y.toNat = x.toNat := by
            rw [← h2.1]
            simp only [UInt8.toNat_ofNat']
            omega
          have hc := utf8_byte (b := y) (by omega) hy
          have hc1 : String.utf8EncodeChar c = [UInt8.ofNat c.toNat] := by
            have : c.val.toNat ≤ 0x7f := by have : c.val.toNat < 128 := by show c.toNat < 128; omega
                                            omega
            simp only [String.utf8EncodeChar]
            rw [if_pos this]
            rfl
          rw [hc1] at h1
          have := congrArg List.length h1
          simp only [List.length_append, List.length_cons, List.length_nil] at this
          have : b.length = 0 := by omega
          exact absurd (List.length_eq_zero_iff.1 this) hb
      · obtain ⟨p, hp1, hp2⟩ := ih h2.symm
        refine ⟨c :: p, by rw [hp1]; rfl, by rw [h1, hp2, utf8_cons]⟩

/-- The beginning of a line, followed by another line, is not an entry. -/
theorem spliced_not_entry {e e' : LogEntry} {m : Nat} (h0 : 0 < m) (hm : m < (utf8 (entryText e)).length) {cs : List Char}
    (h : unutf8 ((utf8 (entryText e)).take m ++ lineBytes e') = some cs) : fromStr (trimEnd cs) = none := by
  have hb := unutf8_some h
  have hl : ∃ t, entryText e' = '{' :: t := by cases e' <;> exact ⟨_, rfl⟩
  obtain ⟨t, ht⟩ := hl
  have hnl : lineBytes e' = utf8 ('{' :: (t ++ ['\n'])) := by
    rw [← List.cons_append, ← ht, utf8_append]; rfl
  rw [hnl] at hb
  obtain ⟨p, rfl, hp⟩ := utf8_suffix (by decide) hb
  have hcut : utf8 p ++ (utf8 (entryText e)).drop m = utf8 (entryText e) := by rw [← hp, List.take_append_drop]
  obtain ⟨q, hq, hd⟩ := utf8_prefix hcut
  have hpn : p ≠ [] := by
    rintro rfl
    have := congrArg List.length hp
    simp only [List.length_take, utf8, List.flatMap_nil, List.length_nil] at this
    have : (utf8 (entryText e)).length = 0 := by unfold utf8; omega
    omega
  have hqn : q ≠ [] := by
    rintro rfl
    have := congrArg List.length hd
    simp only [List.length_drop, utf8, List.flatMap_nil, List.length_nil] at this
    have : (utf8 (entryText e)).length ≤ m := by unfold utf8; omega
    omega
  have hvis : ∀ d ∈ p ++ entryText e', 32 ≤ d.toNat := by
    intro d hd
    rcases List.mem_append.1 hd with hd | hd
    · exact entryText_visible e d (by rw [hq]; exact List.mem_append_left _ hd)
    · exact entryText_visible e' d hd
  have : p ++ '{' :: (t ++ ['\n']) = (p ++ entryText e') ++ ['\n'] := by rw [ht]; simp
  rw [this, trimEnd_newline hvis]
  exact fromStr_spliced hq hpn hqn

end Verif.Json
