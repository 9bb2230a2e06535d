import Verif.Model.Display

/-!
# C51: how a command is displayed
-/

namespace Verif.Props.Display
open Verif

/-- A tab is shown as backslash-t. -/
def showChar (c : Char) : List Char := if c = '\t' then ['\\', 't'] else [c]

/-- `p` contains a backslash followed by a newline. -/
def HasEscapedNewline (p : List Char) : Prop := ['\\', '\n'] <:+: p

/-- The pieces with `sep` between them. -/
def joinWith (sep : List Char) : List (List Char) → List Char
  | [] => []
  | [p] => p
  | p :: q :: ps => p ++ sep ++ joinWith sep (q :: ps)

theorem escape_cons {c : Char} {r : List Char} (h1 : ¬ (c = '\\' ∧ ∃ r', r = '\n' :: r')) :
    escapeChars (c :: r) = showChar c ++ escapeChars r := by
  unfold showChar
  by_cases ht : c = '\t'
  · subst ht; simp [escapeChars]
  · rw [if_neg ht]
    rw [escapeChars.eq_3]
    · rfl
    · intro r' hc hr; exact h1 ⟨hc, r', hr⟩
    · exact ht

theorem escape_piece {p : List Char} (h : ¬ HasEscapedNewline p) (r : List Char) (hr : ∀ r', r ≠ '\n' :: r') :
    escapeChars (p ++ r) = p.flatMap showChar ++ escapeChars r := by
  induction p with
  | nil => rfl
  | cons c p ih =>
    rw [List.cons_append, escape_cons, ih (fun hx => h (hx.trans (List.suffix_cons c p).isInfix)), List.flatMap_cons, List.append_assoc]
    rintro ⟨rfl, r', hr'⟩
    cases p with
    | nil => exact hr r' hr'
    | cons d p =>
      simp only [List.cons_append, List.cons.injEq] at hr'
      refine h ⟨[], p, ?_⟩
      simp [hr'.1]

theorem escape_pieces {ps : List (List Char)} (h : ∀ p ∈ ps, ¬ HasEscapedNewline p) :
    escapeChars (joinWith ['\\', '\n'] ps) = joinWith [' '] (ps.map (·.flatMap showChar)) := by
  induction ps with
  | nil => rfl
  | cons p ps ih =>
    cases ps with
    | nil =>
      have := escape_piece (h p (by simp)) [] (by simp)
      simpa [joinWith, escapeChars] using this
    | cons q ps =>
      have ih := ih (fun x hx => h x (List.mem_cons_of_mem _ hx))
      simp only [joinWith, List.map_cons, List.append_assoc] at ih ⊢
      rw [escape_piece (h p (by simp)) _ (by simp)]
      congr 1
      simp only [List.cons_append, List.nil_append, escapeChars]
      rw [ih]

theorem joinWords_eq {ws : List String} :
    joinWords (ws.map .str) = some (joinWith [' '] (ws.map (·.toList))) := by
  induction ws with
  | nil => rfl
  | cons w ws ih =>
    cases ws with
    | nil => rfl
    | cons v ws =>
      simp only [List.map_cons, joinWords, joinWith] at ih ⊢
      rw [ih]
      simp

/-- **C51.** A command without explicit display text: take its words joined by blanks, cut this text at every
backslash-newline; the pieces joined by blanks are shown, with tabs as backslash-t. -/
theorem display_text {c : Cmd} (hd : c.display = none) {ws : List String} (hw : c.cmdline = ws.map .str)
    {ps : List (List Char)} (hp : joinWith [' '] (ws.map (·.toList)) = joinWith ['\\', '\n'] ps)
    (hn : ∀ p ∈ ps, ¬ HasEscapedNewline p) :
    c.displayText = some (String.ofList (joinWith [' '] (ps.map (·.flatMap showChar)))) := by
  simp only [Cmd.displayText, hd, hw, joinWords_eq, Option.map_some, hp, escape_pieces hn]

/-- Every text can be cut in this way, so `display_text` covers all commands in UTF-8. -/
theorem pieces_exist (t : List Char) : ∃ ps, t = joinWith ['\\', '\n'] ps ∧ ∀ p ∈ ps, ¬ HasEscapedNewline p := by
  suffices h : ∀ n (t : List Char), t.length ≤ n → ∃ p ps, t = joinWith ['\\', '\n'] (p :: ps) ∧ ∀ q ∈ p :: ps, ¬ HasEscapedNewline q by
    obtain ⟨p, ps, h1, h2⟩ := h t.length t (Nat.le_refl _)
    exact ⟨_, h1, h2⟩
  intro n
  induction n with
  | zero =>
    intro t ht
    have : t = [] := List.eq_nil_of_length_eq_zero (by omega)
    subst this
    refine ⟨[], [], rfl, ?_⟩
    intro q hq
    simp only [List.mem_singleton] at hq
    subst hq
    intro h
    have := h.length_le
    simp at this
  | succ n ih =>
    intro t ht
    cases t with
    | nil => exact ih [] (by simp)
    | cons c t =>
      by_cases hc : c = '\\' ∧ ∃ r', t = '\n' :: r'
      · obtain ⟨rfl, r, rfl⟩ := hc
        obtain ⟨p, ps, h1, h2⟩ := ih r (by simp only [List.length_cons] at ht; omega)
        refine ⟨[], p :: ps, by simp [joinWith, ← h1], ?_⟩
        intro q hq
        rcases List.mem_cons.1 hq with rfl | hq
        · intro h; have := h.length_le; simp at this
        · exact h2 q hq
      · obtain ⟨p, ps, h1, h2⟩ := ih t (by simp only [List.length_cons] at ht; omega)
        refine ⟨c :: p, ps, ?_, ?_⟩
        · rw [h1]
          cases ps <;> simp [joinWith]
        · intro q hq
          rcases List.mem_cons.1 hq with rfl | hq
          · intro h
            unfold HasEscapedNewline at h
            rw [List.infix_cons_iff] at h
            rcases h with h | h
            · rw [List.cons_prefix_cons] at h
              obtain ⟨hc1, ⟨s, hs⟩⟩ := h
              refine hc ⟨hc1.symm, ?_⟩
              rw [h1]
              cases ps with
              | nil => exact ⟨s, hs.symm⟩
              | cons q ps => exact ⟨s ++ ['\\', '\n'] ++ joinWith ['\\', '\n'] (q :: ps), by simp [joinWith, ← hs]⟩
            · exact h2 p (by simp) h
          · exact h2 q (List.mem_cons_of_mem _ hq)

theorem escape_clean (t : List Char) : '\t' ∉ escapeChars t ∧ ¬ HasEscapedNewline (escapeChars t) ∧
    ∀ r, escapeChars t = '\n' :: r → ∃ r', t = '\n' :: r' := by
  induction t using escapeChars.induct with
  | case1 r ih =>
    obtain ⟨h1, h2, h3⟩ := ih
    simp only [escapeChars]
    refine ⟨by simp [h1], ?_, ?_⟩
    · intro h
      unfold HasEscapedNewline at h
      rw [List.infix_cons_iff] at h
      rcases h with h | h
      · rw [List.cons_prefix_cons] at h; exact absurd h.1 (by decide)
      · exact h2 h
    · intro r' h; simp at h
  | case2 r ih =>
    obtain ⟨h1, h2, h3⟩ := ih
    simp only [escapeChars]
    refine ⟨by simp [h1], ?_, ?_⟩
    · intro h
      unfold HasEscapedNewline at h
      rw [List.infix_cons_iff] at h
      rcases h with h | h
      · rw [List.cons_prefix_cons, List.cons_prefix_cons] at h; exact absurd h.2.1 (by decide)
      · rw [List.infix_cons_iff] at h
        rcases h with h | h
        · rw [List.cons_prefix_cons] at h; exact absurd h.1 (by decide)
        · exact h2 h
    · intro r' h; simp at h
  | case3 c r hne ht ih =>
    obtain ⟨h1, h2, h3⟩ := ih
    have e : escapeChars (c :: r) = c :: escapeChars r := by
      rw [escapeChars.eq_3]
      · exact hne
      · exact ht
    rw [e]
    refine ⟨?_, ?_, ?_⟩
    · intro h
      rcases List.mem_cons.1 h with h | h
      · exact ht h.symm
      · exact h1 h
    · intro h
      unfold HasEscapedNewline at h
      rw [List.infix_cons_iff] at h
      rcases h with h | h
      · rw [List.cons_prefix_cons] at h
        obtain ⟨hc, s, hs⟩ := h
        obtain ⟨r', hr'⟩ := h3 _ hs.symm
        exact hne r' hc.symm hr'
      · exact h2 h
    · intro r' h
      simp only [List.cons.injEq] at h
      exact ⟨r, by rw [h.1]⟩
  | case4 => exact ⟨by simp [escapeChars], by intro h; have := h.length_le; simp [escapeChars] at this, by simp [escapeChars]⟩

/-- **C51.** The text made from the words contains no tab and no backslash-newline. -/
theorem display_clean {c : Cmd} (hd : c.display = none) {t : String} (ht : c.displayText = some t) :
    '\t' ∉ t.toList ∧ ¬ HasEscapedNewline t.toList := by
  simp only [Cmd.displayText, hd, Option.map_eq_some_iff] at ht
  obtain ⟨cs, _, rfl⟩ := ht
  rw [String.toList_ofList]
  obtain ⟨h1, h2, _⟩ := escape_clean cs
  exact ⟨h1, h2⟩

/-- **C51.** Explicit display text is shown verbatim. -/
theorem display_verbatim {c : Cmd} {t : String} (hd : c.display = some t) : c.displayText = some t := by
  simp [Cmd.displayText, hd]

/-- **C51.** The display panics exactly for a command without display text that has a word not in UTF-8. -/
theorem display_panics_iff {c : Cmd} : c.displayText = none ↔ c.display = none ∧ OsStr.notUtf8 ∈ c.cmdline := by
  have key : ∀ ws : List OsStr, joinWords ws = none ↔ OsStr.notUtf8 ∈ ws := by
    intro ws
    induction ws using joinWords.induct <;> simp_all [joinWords]
  unfold Cmd.displayText
  cases c.display with
  | some s => simp
  | none => simp [key]

/-- Non-trivial case: tab, backslash-newline, and two words. -/
example : (Cmd.displayText { cmdline := [.str "a\tb\\\n", .str "c"], key := "k", affinity := 1 }) = some "a\\tb  c" := by
  decide +kernel

/-- Non-trivial case: a newline without backslash is kept. -/
example : (Cmd.displayText { cmdline := [.str "a\nb"], key := "k", affinity := 1 }) = some "a\nb" := by decide +kernel

end Verif.Props.Display
