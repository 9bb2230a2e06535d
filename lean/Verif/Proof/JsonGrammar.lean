import Verif.Proof.Json2
import Verif.Spec.JsonGrammar

/-!
# The parser and the grammar: characters, strings
-/

namespace Verif.Json

theorem isWs_iff (c : Char) : isWs c = true ↔ c ∈ [' ', '\t', '\n', '\r'] := by
  simp only [isWs, Bool.or_eq_true, beq_iff_eq, List.mem_cons, List.not_mem_nil, or_false]
  grind

theorem skipWs_split (cs : List Char) : ∃ a, cs = a ++ skipWs cs ∧ Ws a := by
  induction cs with
  | nil => exact ⟨[], rfl, fun c hc => by cases hc⟩
  | cons c cs ih =>
    obtain ⟨a, h1, h2⟩ := ih
    cases hc : isWs c with
    | true =>
      refine ⟨c :: a, ?_, ?_⟩
      · have : skipWs (c :: cs) = skipWs cs := by simp [skipWs, hc]
        rw [this, List.cons_append, ← h1]
      · intro x hx
        rcases List.mem_cons.1 hx with rfl | hx
        · exact (isWs_iff x).1 hc
        · exact h2 x hx
    | false => exact ⟨[], by simp [skipWs, hc], fun x hx => by cases hx⟩

theorem skipWs_skip {a : List Char} (h : Ws a) (r : List Char) : skipWs (a ++ r) = skipWs r := by
  induction a with
  | nil => rfl
  | cons c a ih =>
    have h1 : isWs c = true := (isWs_iff c).2 (h c (by simp))
    have h2 := ih (fun x hx => h x (by simp [hx]))
    simpa [skipWs, List.dropWhile_cons, h1] using h2

theorem skipWs_all {a : List Char} (h : Ws a) : skipWs a = [] := by
  have := skipWs_skip h []; simpa [skipWs] using this

theorem ws_of_skip {a : List Char} (h : skipWs a = []) : Ws a := by
  obtain ⟨b, h1, h2⟩ := skipWs_split a
  rw [h, List.append_nil] at h1; rw [h1]; exact h2

theorem char_eq {c : Char} {m : Nat} (h : c.toNat = m) : c = Char.ofNat m := by rw [← h, Char.ofNat_toNat]

theorem hexVal_iff (c : Char) (n : Nat) : hexVal c = some n ↔ HexIs c n := by
  constructor
  · intro h
    obtain ⟨m, hm⟩ : ∃ m, c.toNat = m := ⟨_, rfl⟩
    have hc := char_eq hm
    simp only [hexVal, hm] at h
    split at h
    · rename_i hr
      cases h
      have : m = 48 ∨ m = 49 ∨ m = 50 ∨ m = 51 ∨ m = 52 ∨ m = 53 ∨ m = 54 ∨ m = 55 ∨ m = 56 ∨ m = 57 := by omega
      rcases this with rfl | rfl | rfl | rfl | rfl | rfl | rfl | rfl | rfl | rfl <;> subst hc <;> exact .inl (by decide)
    · split at h
      · rename_i hr
        cases h
        have : m = 97 ∨ m = 98 ∨ m = 99 ∨ m = 100 ∨ m = 101 ∨ m = 102 := by omega
        rcases this with rfl | rfl | rfl | rfl | rfl | rfl <;> subst hc <;> exact .inl (by decide)
      · split at h
        · rename_i hr
          cases h
          have : m = 65 ∨ m = 66 ∨ m = 67 ∨ m = 68 ∨ m = 69 ∨ m = 70 := by omega
          rcases this with rfl | rfl | rfl | rfl | rfl | rfl <;> subst hc <;> exact .inr (by decide)
        · cases h
  · intro h
    have hn : n < 16 := by
      rcases h with h | h
      · exact (List.getElem?_eq_some_iff.1 h).1
      · exact (List.getElem?_eq_some_iff.1 h).1
    have : n = 0 ∨ n = 1 ∨ n = 2 ∨ n = 3 ∨ n = 4 ∨ n = 5 ∨ n = 6 ∨ n = 7 ∨ n = 8 ∨ n = 9 ∨ n = 10 ∨ n = 11 ∨ n = 12 ∨ n = 13 ∨ n = 14 ∨ n = 15 := by
      omega
    rcases this with rfl | rfl | rfl | rfl | rfl | rfl | rfl | rfl | rfl | rfl | rfl | rfl | rfl | rfl | rfl | rfl <;>
      rcases h with h | h <;> (simp at h; subst h; decide)

theorem unescape_iff (e c : Char) : unescape e = some c ↔ (e, c) ∈ shortEscapes := by
  simp only [unescape, shortEscapes, List.mem_cons, Prod.mk.injEq, List.not_mem_nil, or_false]
  constructor
  · intro h
    (repeat' split at h) <;> simp only [Option.some.injEq, reduceCtorEq] at h <;> subst h <;> subst_vars <;> decide
  · rintro (⟨rfl, rfl⟩ | ⟨rfl, rfl⟩ | ⟨rfl, rfl⟩ | ⟨rfl, rfl⟩ | ⟨rfl, rfl⟩ | ⟨rfl, rfl⟩ | ⟨rfl, rfl⟩ | ⟨rfl, rfl⟩) <;> decide

/-- Four hexadecimal digits are read to their end. -/
theorem hex_run {h : List Char} {n : Nat} (hh : Hex4 h n) (hi : Option Nat) (rest : List Char) :
    stringGo (.hex 0 0 hi) (h ++ rest) = match unit n hi with
      | some (.inl x) => (stringGo .text rest).map (fun r => (x :: r.1, r.2))
      | some (.inr h) => stringGo (.pair1 h) rest
      | none => none := by
  obtain ⟨h1, h2, h3, h4⟩ := hh
  rename_i a b c d i j k l
  rw [← hexVal_iff] at h1 h2 h3 h4
  simp [stringGo, h1, h2, h3, h4]
  rfl

/-- What is read as four digits are such. -/
theorem hex_sound {hi : Option Nat} {cs : List Char} {x : List Char × List Char} (h : stringGo (.hex 0 0 hi) cs = some x) :
    ∃ g n rest, cs = g ++ rest ∧ Hex4 g n := by
  rcases cs with _ | ⟨a, _ | ⟨b, _ | ⟨c, _ | ⟨d, rest⟩⟩⟩⟩
  · simp [stringGo] at h
  · cases h1 : hexVal a <;> simp [stringGo, h1] at h
  · cases h1 : hexVal a <;> cases h2 : hexVal b <;> simp [stringGo, h1, h2] at h
  · cases h1 : hexVal a <;> cases h2 : hexVal b <;> cases h3 : hexVal c <;> simp [stringGo, h1, h2, h3] at h
  · simp only [stringGo] at h
    cases h1 : hexVal a with
    | none => simp [h1] at h
    | some i =>
      cases h2 : hexVal b with
      | none => simp [h1, h2] at h
      | some j =>
        cases h3 : hexVal c with
        | none => simp [h1, h2, h3] at h
        | some k =>
          cases h4 : hexVal d with
          | none => simp [h1, h2, h3, h4] at h
          | some l =>
            exact ⟨[a, b, c, d], _, rest, rfl, .mk ((hexVal_iff a i).1 h1) ((hexVal_iff b j).1 h2) ((hexVal_iff c k).1 h3) ((hexVal_iff d l).1 h4)⟩

theorem hex4_length {g : List Char} {n : Nat} (h : Hex4 g n) : g.length = 4 := by cases h; rfl

theorem stringGo_sound : ∀ (m : Nat) {cs s r : List Char}, cs.length ≤ m → stringGo .text cs = some (s, r) →
    ∃ t, cs = t ++ '"' :: r ∧ Chars t s := by
  intro m
  induction m with
  | zero => 
    intro cs s r hm h
    rcases cs with _ | ⟨c, cs⟩
    · simp [stringGo] at h
    · simp at hm
  | succ m ih =>
    intro cs s r hm h
    rcases cs with _ | ⟨c, cs⟩
    · simp [stringGo] at h
    · simp only [List.length_cons, Nat.add_le_add_iff_right] at hm
      simp only [stringGo] at h
      split at h
      · rename_i hc; subst hc; simp only [Option.some.injEq, Prod.mk.injEq] at h
        obtain ⟨rfl, rfl⟩ := h; exact ⟨[], rfl, .nil⟩
      · rename_i hq
        split at h
        · rename_i hc; subst hc
          rcases cs with _ | ⟨e, cs⟩
          · simp [stringGo] at h
          · simp only [List.length_cons] at hm
            simp only [stringGo] at h
            split at h
            · rename_i he; subst he
              obtain ⟨g, n, rest, rfl, hg⟩ := hex_sound h
              have hl := hex4_length hg
              simp only [List.length_append] at hm
              rw [hex_run hg] at h
              split at h
              · rename_i x hu
                simp only [unit] at hu
                split at hu
                · cases hu
                · split at hu
                  · cases hu
                  · rename_i h1 h2
                    cases hu
                    cases hs : stringGo .text rest with
                    | none => simp [hs] at h
                    | some y =>
                      simp only [hs, Option.map_some, Option.some.injEq, Prod.mk.injEq] at h
                      obtain ⟨rfl, rfl⟩ := h
                      obtain ⟨t, rfl, ht⟩ := ih (by omega) hs
                      exact ⟨'\\' :: 'u' :: (g ++ t), by simp, .code hg (by omega) ht⟩
              · rename_i hi hu
                simp only [unit] at hu
                split at hu
                · rename_i hb
                  cases hu
                  rcases rest with _ | ⟨b1, _ | ⟨b2, rest⟩⟩
                  · simp [stringGo] at h
                  · simp only [stringGo] at h; split at h <;> simp at h
                  · simp only [stringGo] at h
                    split at h
                    · rename_i e1; subst e1
                      split at h
                      · rename_i e2; subst e2
                        obtain ⟨g', n', rest', rfl, hg'⟩ := hex_sound h
                        have hl' := hex4_length hg'
                        simp only [List.length_cons, List.length_append] at hm
                        rw [hex_run hg'] at h
                        split at h
                        · rename_i x hu
                          simp only [unit] at hu
                          split at hu
                          · rename_i hb'
                            simp only [Option.some.injEq, Sum.inl.injEq] at hu
                            subst hu
                            cases hs : stringGo .text rest' with
                            | none => simp [hs] at h
                            | some y =>
                              simp only [hs, Option.map_some, Option.some.injEq, Prod.mk.injEq] at h
                              obtain ⟨rfl, rfl⟩ := h
                              obtain ⟨t, rfl, ht⟩ := ih (by omega) hs
                              exact ⟨'\\' :: 'u' :: (g ++ '\\' :: 'u' :: (g' ++ t)), by simp, .pair hg hb.1 hb.2 hg' hb'.1 hb'.2 ht⟩
                          · cases hu
                        · rename_i x hu
                          simp only [unit] at hu
                          split at hu
                          · simp at hu
                          · cases hu
                        · cases h
                      · cases h
                    · cases h
                · split at hu <;> cases hu
              · cases h
            · split at h
              · rename_i x hu
                cases hs : stringGo .text cs with
                | none => simp [hs] at h
                | some y =>
                  simp only [hs, Option.map_some, Option.some.injEq, Prod.mk.injEq] at h
                  obtain ⟨rfl, rfl⟩ := h
                  obtain ⟨t, rfl, ht⟩ := ih (by omega) hs
                  exact ⟨'\\' :: e :: t, rfl, .short ((unescape_iff e x).1 hu) ht⟩
              · cases h
        · rename_i hb
          split at h
          · cases h
          · rename_i h32
            cases hs : stringGo .text cs with
            | none => simp [hs] at h
            | some y =>
              simp only [hs, Option.map_some, Option.some.injEq, Prod.mk.injEq] at h
              obtain ⟨rfl, rfl⟩ := h
              obtain ⟨t, rfl, ht⟩ := ih hm hs
              exact ⟨c :: t, rfl, .plain hq hb (by omega) ht⟩

theorem stringGo_complete {t s : List Char} (h : Chars t s) (r : List Char) : stringGo .text (t ++ '"' :: r) = some (s, r) := by
  induction h with
  | nil => simp [stringGo]
  | plain h1 h2 h3 _ ih => simp only [List.cons_append, stringGo, if_neg h1, if_neg h2, if_neg (Nat.not_lt.2 h3), ih, Option.map_some]
  | short he _ ih =>
    rename_i e c t s _
    have h2 := (unescape_iff e c).2 he
    have hu : e ≠ 'u' := by rintro rfl; simp [unescape] at h2
    simp only [List.cons_append, stringGo, if_neg hu, h2, ih, Option.map_some]
    simp
  | code hg hn _ ih =>
    rename_i g t s n _
    simp only [List.cons_append, List.append_assoc, stringGo]
    rw [if_neg (by decide), if_pos trivial, if_pos trivial, hex_run hg]
    have : unit n none = some (.inl (Char.ofNat n)) := by
      simp only [unit]
      rw [if_neg (by omega), if_neg (by omega)]
    simp [this, ih]
  | pair hg h1 h2 hg' h3 h4 _ ih =>
    rename_i g l t s m n _
    simp only [List.cons_append, List.append_assoc, stringGo]
    rw [if_neg (by decide), if_pos trivial, if_pos trivial, hex_run hg]
    have e1 : unit m none = some (.inr m) := by simp only [unit]; rw [if_pos ⟨h1, h2⟩]
    have e2 : unit n (some m) = some (.inl (Char.ofNat (0x10000 + (m - 0xD800) * 1024 + (n - 0xDC00)))) := by
      simp only [unit]; rw [if_pos ⟨h3, h4⟩]
    simp only [e1, stringGo, if_true]
    rw [hex_run hg']
    simp [e2, ih]

end Verif.Json
