import Verif.Model.Names

/-!
# Names of attempts
-/

namespace Verif.Props.Names
open Verif Verif.Names

/-- `l` is `n` written with the digits of base `b` (at most 16), without leading zeros. -/
inductive Writes (b : Nat) : Nat → List Char → Prop
  | digit {n : Nat} : n < b → Writes b n [Nat.digitChar n]
  | more {n d : Nat} {l : List Char} : 0 < n → d < b → Writes b n l → Writes b (b * n + d) (l ++ [Nat.digitChar d])

theorem writes_toDigits {b : Nat} (hb : 1 < b) (n : Nat) : Writes b n (Nat.toDigits b n) := by
  induction n using Nat.strongRecOn with
  | ind n ih =>
    by_cases h : n < b
    · rw [Nat.toDigits_of_lt_base h]; exact .digit h
    · have hle : b ≤ n := Nat.le_of_not_lt h
      rw [Nat.toDigits_of_base_le hb hle]
      have hpos : 0 < n / b := Nat.div_pos hle (by omega)
      have := Writes.more (b := b) hpos (Nat.mod_lt n (by omega)) (ih (n / b) (Nat.div_lt_self (by omega) hb))
      rw [Nat.div_add_mod] at this
      exact this

theorem digitChar_inj {a b : Nat} (ha : a < 16) (hb : b < 16) (h : Nat.digitChar a = Nat.digitChar b) : a = b := by
  have aux : ∀ a < 16, ∀ b < 16, Nat.digitChar a = Nat.digitChar b → a = b := by decide
  exact aux a ha b hb h

theorem Writes.ne_nil {b n : Nat} {l : List Char} (h : Writes b n l) : l ≠ [] := by
  cases h <;> simp

theorem Writes.length_pos {b n : Nat} {l : List Char} (h : Writes b n l) : 0 < l.length := List.length_pos_iff.2 h.ne_nil

/-- Digits of two bases, the same text: the value in the greater base is at least that in the smaller. -/
theorem Writes.le {b b' : Nat} (hbb : b ≤ b') (hb' : b' ≤ 16) {n m : Nat} {l l' : List Char} (h : Writes b n l) :
    Writes b' m l' → l = l' → n ≤ m ∧ (b = b' → n = m) ∧ (b < b' → 1 < l.length → n < m) := by
  intro h' e
  induction h generalizing m l' with
  | @digit n hn =>
    cases h' with
    | @digit m hm =>
      simp only [List.cons.injEq, and_true] at e
      have := digitChar_inj (by omega) (by omega) e
      subst this
      simp
    | @more m d l hm hd hw =>
      have h1 := congrArg List.length e
      have h2 := hw.length_pos
      rw [List.length_append] at h1
      simp only [List.length_singleton] at h1
      omega
  | @more n d l hn hd hw ih =>
    cases h' with
    | @digit m hm =>
      have h1 := congrArg List.length e
      have h2 := hw.length_pos
      rw [List.length_append] at h1
      simp only [List.length_singleton] at h1
      omega
    | @more m d' l2 hm hd' hw' =>
      obtain ⟨e1, e2⟩ := List.append_inj' e rfl
      simp only [List.cons.injEq, and_true] at e2
      have := digitChar_inj (by omega) (by omega) e2
      subst this
      obtain ⟨h1, h2, h3⟩ := ih hw' e1
      have hmul : b * n ≤ b' * m := Nat.mul_le_mul hbb h1
      refine ⟨by omega, ?_, ?_⟩
      · intro hbe
        subst hbe
        rw [h2 rfl]
      · intro hlt _
        have : b * n < b' * m := Nat.lt_of_lt_of_le (Nat.mul_lt_mul_of_pos_right hlt hn) (Nat.mul_le_mul_left _ h1)
        omega

theorem toDigits_inj {b : Nat} (hb : 1 < b) (hb' : b ≤ 16) {n m : Nat} (h : Nat.toDigits b n = Nat.toDigits b m) : n = m :=
  ((writes_toDigits hb n).le (Nat.le_refl _) hb' (writes_toDigits hb m) h).2.1 rfl

/-- The digits do not contain a point. -/
theorem no_point {b n : Nat} (hb : b ≤ 16) {l : List Char} (h : Writes b n l) : '.' ∉ l := by
  have aux : ∀ d, d < 16 → Nat.digitChar d ≠ '.' := by decide
  induction h with
  | digit hn => simp [Ne.symm (aux _ (Nat.lt_of_lt_of_le hn hb))]
  | more _ hd _ ih => simp [ih, Ne.symm (aux _ (Nat.lt_of_lt_of_le hd hb))]

theorem last_point {a a' l l' : List Char} (hl : '.' ∉ l) (hl' : '.' ∉ l') (h : a ++ '.' :: l = a' ++ '.' :: l') : a = a' ∧ l = l' := by
  rcases List.append_eq_append_iff.1 h with ⟨x, h1, h2⟩ | ⟨x, h1, h2⟩
  · cases x with
    | nil => simp at h1 h2; exact ⟨h1.symm, h2⟩
    | cons c x => simp at h2; exact absurd (by rw [h2.2]; simp) hl
  · cases x with
    | nil => simp at h1 h2; exact ⟨h1, h2.symm⟩
    | cons c x => simp at h2; exact absurd (by rw [h2.2]; simp) hl'

theorem named_inj {b : Nat} (hb : 1 < b) (hb' : b ≤ 16) {k k' : String} {n n' : Nat}
    (h : k ++ "." ++ String.ofList (Nat.toDigits b n) = k' ++ "." ++ String.ofList (Nat.toDigits b n')) : k = k' ∧ n = n' := by
  have h1 := congrArg String.toList h
  simp only [String.toList_append, String.toList_ofList, List.append_assoc] at h1
  have := last_point (no_point hb' (writes_toDigits hb n)) (no_point hb' (writes_toDigits hb n')) h1
  exact ⟨String.toList_inj.1 this.1, toDigits_inj hb hb' this.2⟩

/-- **C166.** Different attempts, of the same task or of different ones, have different directory names, whatever characters the keys contain. -/
theorem names_distinct {k k' : String} {n n' : Nat} (h : dirName k n = dirName k' n') : k = k' ∧ n = n' :=
  named_inj (by decide) (by decide) h

/-- Does the path begin with a slash? -/
def Absolute (k : String) : Prop := ∃ r, k.toList = '/' :: r

theorem dirName_head {k : String} {n : Nat} (h : ¬ Absolute k) : (dirName k n).toList.head? ≠ some '/' := by
  simp only [dirName, String.toList_append, List.append_assoc]
  cases hk : k.toList with
  | nil => simp
  | cons c r =>
    simp only [List.cons_append, List.head?_cons, ne_eq, Option.some.injEq]
    intro e
    subst e
    exact h ⟨r, hk⟩

/-- **C166.** Below one root, different attempts have different directories if no key is an absolute path; the directory is below the root, with one slash between (none is added if the root ends with one). -/
theorem paths_distinct {root k k' : String} {n n' : Nat} (hk : ¬ Absolute k) (hk' : ¬ Absolute k') :
    (path ⟨root, k, n⟩ = path ⟨root, k', n'⟩ → k = k' ∧ n = n') ∧
    ((root = "" ∨ ∃ r, root.toList = r ++ ['/']) → path ⟨root, k, n⟩ = root ++ dirName k n) ∧
    ((root ≠ "" ∧ ¬ ∃ r, root.toList = r ++ ['/']) → path ⟨root, k, n⟩ = root ++ "/" ++ dirName k n) := by
  have h1 := dirName_head (n := n) hk
  have h2 := dirName_head (n := n') hk'
  simp only [path, join, h1, h2, if_false]
  have hlast : root.toList.getLast? = some '/' ↔ ∃ r, root.toList = r ++ ['/'] := List.getLast?_eq_some_iff
  rw [← hlast]
  refine ⟨fun h => names_distinct ?_, fun h => if_pos h, fun h => if_neg (fun e => e.elim h.1 h.2)⟩
  split at h
  · exact (String.append_right_inj _).1 h
  · exact (String.append_right_inj _).1 h

/-- Concrete case: attempt 12 of a task whose key looks like an attempt of another one. -/
example : path ⟨"/r", "a.1", 2⟩ = "/r/a.1.2" ∧ path ⟨"/r/", "a", 12⟩ = "/r/a.12" ∧ ¬ Absolute "a.1" := by
  refine ⟨by decide +kernel, by decide +kernel, ?_⟩
  rintro ⟨r, h⟩
  have : "a.1".toList = ['a', '.', '1'] := by decide +kernel
  rw [this] at h
  simp at h

/-- **C166 (violated for keys that are absolute paths).** Two tasks then can share a directory. -/
theorem absolute_keys_violated : ∃ root k k' n, k ≠ k' ∧ path ⟨root, k, n⟩ = path ⟨root, k', n⟩ :=
  ⟨"/r", "a", "/r/a", 0, by decide +kernel, by decide +kernel⟩

/-- **C166.** The line about a failure names the attempt by key and run count, written in hexadecimal; so it, too, tells attempts apart. -/
theorem failure_names (what key display : String) (n : Nat) :
    ∃ name, failureLine what key n display = "\x1b[1;31m" ++ what ++ ":\x1b[0m wrk/" ++ name ++ ": " ++ display ++ "\n" ∧
      name = key ++ "." ++ String.ofList (Nat.toDigits 16 n) ∧
      ∀ key' n', name = key' ++ "." ++ String.ofList (Nat.toDigits 16 n') → key = key' ∧ n = n' := by
  refine ⟨_, ?_, rfl, fun key' n' h => named_inj (by decide) (by decide) h⟩
  apply String.toList_inj.1
  simp [failureLine, Print.pieces, String.join]

/-- The name in the line about a failure. -/
def shownName (key : String) (n : Nat) : String := key ++ "." ++ String.ofList (Nat.toDigits 16 n)

/-- **C166.** The name shown for a failed attempt is the name of its directory exactly for the first ten attempts. -/
theorem shown_iff (key : String) (n : Nat) : shownName key n = dirName key n ↔ n < 10 := by
  constructor
  · intro h
    have h1 := congrArg String.toList h
    simp only [shownName, dirName, String.toList_append, String.toList_ofList, List.append_assoc, List.append_cancel_left_eq] at h1
    refine Classical.byContradiction (fun hn => ?_)
    have hw := (writes_toDigits (b := 10) (by decide) n).le (by decide) (by decide) (writes_toDigits (b := 16) (by decide) n) h1.symm
    have : ¬ (Nat.toDigits 10 n).length ≤ 1 := by
      rw [Nat.length_toDigits_le_iff (by decide) (by decide)]
      omega
    have := hw.2.2 (by decide) (by omega)
    omega
  · intro h
    simp [shownName, dirName, Nat.toDigits_of_lt_base h, Nat.toDigits_of_lt_base (show n < 16 by omega)]

/-- **C166 (violated: the name shown is that of the directory).** From the eleventh on, the directory name of every attempt is shown for a later attempt of the same task. -/
theorem misleading_violated (key : String) (n : Nat) (h : 10 ≤ n) : ∃ m, n < m ∧ shownName key m = dirName key n := by
  have aux : ∀ {n : Nat} {l : List Char}, Writes 10 n l → ∃ m, Writes 16 m l ∧ (0 < n → 0 < m) := by
    intro n l h
    induction h with
    | @digit n hn => exact ⟨n, .digit (by omega), id⟩
    | @more n d l hn hd hw ih =>
      obtain ⟨m, h1, h2⟩ := ih
      exact ⟨16 * m + d, .more (h2 hn) (by omega) h1, fun _ => by have := h2 hn; omega⟩
  have hw := writes_toDigits (b := 10) (by decide) n
  obtain ⟨m, hm, _⟩ := aux hw
  have hlen : ¬ (Nat.toDigits 10 n).length ≤ 1 := by
    rw [Nat.length_toDigits_le_iff (by decide) (by decide)]
    omega
  refine ⟨m, (hw.le (by decide) (by decide) hm rfl).2.2 (by decide) (by omega), ?_⟩
  have : Nat.toDigits 16 m = Nat.toDigits 10 n := by
    have aux2 : ∀ {m : Nat} {l : List Char}, Writes 16 m l → l = Nat.toDigits 16 m := by
      intro m l h
      induction h with
      | digit hn => rw [Nat.toDigits_of_lt_base hn]
      | @more n d l hn hd hw ih =>
        rw [ih, ← Nat.toDigits_append_toDigits (by decide) hn hd, Nat.toDigits_of_lt_base hd]
    exact (aux2 hm).symm
  simp [shownName, dirName, this]

/-- Concrete case: the line about attempt 16 names the directory of attempt 10. -/
example : shownName "a" 16 = dirName "a" 10 ∧ (failureLine "Failed" "a" 16 "x") = "\x1b[1;31mFailed:\x1b[0m wrk/a.10: x\n" := by decide +kernel

end Verif.Props.Names
