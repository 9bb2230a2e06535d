import Verif.Props.Fd3
import Verif.Spec.Shell

/-!
# The syntax of the lines a task writes to file descriptor 3 (C50)
-/

namespace Verif.Props.Shell
open Verif Verif.Fd3 Verif.Shell
open Verif.Props.Fd3 (get)

theorem single_ok {a : List Char} (h : '\'' ∉ a) (w r : List Char) : splitGo .single w (a ++ '\'' :: r) = splitGo .unquoted (w ++ a) r := by
  induction a generalizing w with
  | nil => simp [splitGo]
  | cons c a ih =>
    have hc : c ≠ '\'' := fun e => h (by simp [e])
    rw [List.cons_append, splitGo, if_neg hc, ih (fun hm => h (List.mem_cons_of_mem _ hm))]
    simp

theorem double_ok {a x : List Char} (h : Inside a x) (hn : '\n' ∉ a) (w r : List Char) :
    splitGo .double w (a ++ '"' :: r) = splitGo .unquoted (w ++ x) r := by
  induction h generalizing w with
  | nil => simp [splitGo]
  | char h1 h2 _ ih =>
    rw [List.cons_append, splitGo, if_neg h1, if_neg h2, ih (fun hm => hn (List.mem_cons_of_mem _ hm))]
    simp
  | @protect c s x hc _ ih =>
    have h1 : c ≠ '\n' := fun e => hn (by simp [e])
    rw [List.cons_append, splitGo, if_neg (by decide), if_pos rfl, List.cons_append, splitGo, if_neg h1,
      if_pos (by simp only [List.mem_cons, List.not_mem_nil, or_false] at hc; simpa [or_assoc] using hc), ih (fun hm => hn (by simp [hm]))]
    simp
  | @keep c s x hc _ ih =>
    have h1 : c ≠ '\n' := fun e => hn (by simp [e])
    rw [List.cons_append, splitGo, if_neg (by decide), if_pos rfl, List.cons_append, splitGo, if_neg h1,
      if_neg (by simp only [List.mem_cons, List.not_mem_nil, or_false] at hc; simpa [or_assoc] using hc), ih (fun hm => hn (by simp [hm]))]
    simp

theorem piece_ok {p x : List Char} (h : Piece p x) (hn : '\n' ∉ p) (w r : List Char) :
    splitGo .unquoted w (p ++ r) = splitGo .unquoted (w ++ x) r := by
  cases h with
  | @char c hc =>
    simp only [List.mem_cons, List.not_mem_nil, or_false, not_or] at hc
    have h1 : c ≠ '\n' := fun e => hn (by simp [e])
    rw [List.cons_append, splitGo, if_neg hc.1, if_neg hc.2.1, if_neg hc.2.2.1, if_neg (by simp [blank, hc, h1])]
    rfl
  | protect c =>
    have h1 : c ≠ '\n' := fun e => hn (by simp [e])
    rw [List.cons_append, splitGo, if_neg (by decide), if_neg (by decide), if_pos rfl, List.cons_append, splitGo, if_neg h1]
    rfl
  | single hq =>
    rw [List.append_assoc, List.cons_append, splitGo, if_pos rfl]
    exact single_ok hq w r
  | @double s x hi =>
    rw [List.append_assoc, List.cons_append, splitGo, if_neg (by decide), if_pos rfl]
    exact double_ok hi (fun hm => hn (by simp [hm])) w r

theorem start_word {c : Char} {s : List Char} (hc : c ∉ [' ', '\t', '#']) (hn : '\n' ∉ c :: s) :
    splitGo .delimiter [] (c :: s) = splitGo .unquoted [] (c :: s) := by
  simp only [List.mem_cons, List.not_mem_nil, or_false, not_or] at hc hn
  have h1 : blank c = false := by simp [blank, hc, Ne.symm hn.1]
  rw [splitGo, splitGo]
  by_cases k1 : c = '\''
  · rw [if_pos k1, if_pos k1]
  · rw [if_neg k1, if_neg k1]
    by_cases k2 : c = '"'
    · rw [if_pos k2, if_pos k2]
    · rw [if_neg k2, if_neg k2]
      by_cases k3 : c = '\\'
      · rw [if_pos k3, if_pos k3]
        cases s with
        | nil => rfl
        | cons d s =>
          have : d ≠ '\n' := fun e => hn.2 (by simp [e])
          rw [splitGo, splitGo, if_neg this, if_neg this]
      · rw [if_neg k3, if_neg k3, h1]
        simp [hc]

theorem reads_ok {b : Bool} {s : List Char} {ws : List (List Char)} (h : Reads b s ws) (hn : '\n' ∉ s) :
    (b = false → splitGo .delimiter [] s = some ws) ∧
    (b = true → ∀ w, ∃ v vs, ws = v :: vs ∧ splitGo .unquoted w s = some ((w ++ v) :: vs)) := by
  induction h with
  | nil => exact ⟨fun _ => rfl, nofun⟩
  | @blank c s ws hc _ ih =>
    refine ⟨fun _ => ?_, nofun⟩
    have := (ih (fun hm => hn (List.mem_cons_of_mem _ hm))).1 rfl
    rw [splitGo]
    rcases hc with rfl | rfl <;> simpa [blank] using this
  | comment s =>
    refine ⟨fun _ => ?_, nofun⟩
    rw [splitGo]
    simp only [Char.reduceEq, if_false, blank, Char.reduceBEq, Bool.or_self, Bool.false_eq_true, if_true]
    have : ∀ t : List Char, '\n' ∉ t → splitGo .comment [] t = some [] := by
      intro t
      induction t with
      | nil => intro _; rfl
      | cons c t ih =>
        intro h
        rw [splitGo, if_neg (fun e => h (by simp [e]))]
        exact ih (fun hm => h (List.mem_cons_of_mem _ hm))
    exact this s (fun hm => hn (List.mem_cons_of_mem _ hm))
  | word hc _ ih =>
    refine ⟨fun _ => ?_, nofun⟩
    obtain ⟨v, vs, e, h1⟩ := (ih hn).2 rfl []
    rw [start_word hc hn, h1, e]
    rfl
  | ends => exact ⟨nofun, fun _ w => ⟨[], [], rfl, by simp [splitGo]⟩⟩
  | @sep c s ws hc _ ih =>
    refine ⟨nofun, fun _ w => ⟨[], ws, rfl, ?_⟩⟩
    have := (ih (fun hm => hn (List.mem_cons_of_mem _ hm))).1 rfl
    rw [splitGo]
    rcases hc with rfl | rfl <;> simp [blank, this]
  | @piece p x s v ws hp _ ih =>
    refine ⟨nofun, fun _ w => ⟨x ++ v, ws, rfl, ?_⟩⟩
    obtain ⟨v', vs', e, h1⟩ := (ih (fun hm => hn (List.mem_append_right _ hm))).2 rfl (w ++ x)
    cases e
    rw [piece_ok hp (fun hm => hn (List.mem_append_left _ hm)), h1, List.append_assoc]
  | last => exact ⟨nofun, fun _ w => ⟨['\\'], [], rfl, by simp [splitGo]⟩⟩

theorem single_back {t w : List Char} {ws : List (List Char)} (h : splitGo .single w t = some ws) :
    ∃ a r, t = a ++ '\'' :: r ∧ '\'' ∉ a ∧ splitGo .unquoted (w ++ a) r = some ws := by
  induction t generalizing w with
  | nil => cases h
  | cons c t ih =>
    rw [splitGo] at h
    split at h
    · rename_i hc
      exact ⟨[], t, by simp [hc], by simp, by simpa using h⟩
    · rename_i hc
      obtain ⟨a, r, h1, h2, h3⟩ := ih h
      exact ⟨c :: a, r, by simp [h1], by simp [h2, Ne.symm hc], by simpa using h3⟩

theorem double_back : ∀ (t w : List Char) {ws : List (List Char)}, '\n' ∉ t → splitGo .double w t = some ws →
    ∃ a x r, t = a ++ '"' :: r ∧ Inside a x ∧ splitGo .unquoted (w ++ x) r = some ws
  | [], _, _, _, h => by cases h
  | [c], w, ws, hn, h => by
    rw [splitGo] at h
    split at h
    · rename_i hc
      exact ⟨[], [], [], by simp [hc], .nil, by simpa using h⟩
    · split at h <;> cases h
  | c :: d :: t, w, ws, hn, h => by
    rw [splitGo] at h
    split at h
    · rename_i hc
      exact ⟨[], [], d :: t, by simp [hc], .nil, by simpa using h⟩
    · rename_i hc
      split at h
      · rename_i hb
        subst hb
        have hd : d ≠ '\n' := fun e => hn (by simp [e])
        rw [splitGo, if_neg hd] at h
        split at h
        · rename_i he
          obtain ⟨a, x, r, h1, h2, h3⟩ := double_back t _ (fun hm => hn (by simp [hm])) h
          exact ⟨'\\' :: d :: a, d :: x, r, by simp [h1], .protect (by simpa [or_assoc] using he) h2, by simpa using h3⟩
        · rename_i he
          obtain ⟨a, x, r, h1, h2, h3⟩ := double_back t _ (fun hm => hn (by simp [hm])) h
          exact ⟨'\\' :: d :: a, '\\' :: d :: x, r, by simp [h1], .keep (by simpa [or_assoc] using he) h2, by simpa using h3⟩
      · rename_i hb
        obtain ⟨a, x, r, h1, h2, h3⟩ := double_back (d :: t) _ (fun hm => hn (List.mem_cons_of_mem _ hm)) h
        exact ⟨c :: a, c :: x, r, by simp [h1], .char hc hb h2, by simpa using h3⟩

theorem reads_back : ∀ (n : Nat) (s : List Char), s.length ≤ n → '\n' ∉ s →
    (∀ w ws, splitGo .unquoted w s = some ws → ∃ v vs, ws = (w ++ v) :: vs ∧ Reads true s (v :: vs)) ∧
    (∀ ws, splitGo .delimiter [] s = some ws → Reads false s ws) := by
  intro n
  induction n with
  | zero =>
    intro s hs _
    have : s = [] := List.length_eq_zero_iff.1 (by omega)
    subst this
    refine ⟨fun w ws h => ?_, fun ws h => ?_⟩
    · cases h; exact ⟨[], [], by simp, .ends⟩
    · cases h; exact .nil
  | succ n ih =>
    intro s hs hn
    have unq : ∀ w ws, splitGo .unquoted w s = some ws → ∃ v vs, ws = (w ++ v) :: vs ∧ Reads true s (v :: vs) := by
      intro w ws h
      cases s with
      | nil => cases h; exact ⟨[], [], by simp, .ends⟩
      | cons c t =>
        simp only [List.length_cons] at hs
        have hnt : '\n' ∉ t := fun hm => hn (List.mem_cons_of_mem _ hm)
        rw [splitGo] at h
        split at h
        · rename_i hc
          obtain ⟨a, r, h1, h2, h3⟩ := single_back h
          subst hc h1
          simp only [List.length_append, List.length_cons] at hs
          obtain ⟨v, vs, e, h4⟩ := (ih r (by omega) (fun hm => hnt (by simp [hm]))).1 _ _ h3
          refine ⟨a ++ v, vs, by simp [e], ?_⟩
          have := Reads.piece (.single h2) h4
          simpa using this
        · split at h
          · rename_i hc
            obtain ⟨a, x, r, h1, h2, h3⟩ := double_back t w hnt h
            subst hc h1
            simp only [List.length_append, List.length_cons] at hs
            obtain ⟨v, vs, e, h4⟩ := (ih r (by omega) (fun hm => hnt (by simp [hm]))).1 _ _ h3
            refine ⟨x ++ v, vs, by simp [e], ?_⟩
            have := Reads.piece (.double h2) h4
            simpa using this
          · split at h
            · rename_i hc
              subst hc
              cases t with
              | nil => cases h; exact ⟨['\\'], [], rfl, .last⟩
              | cons d t =>
                rw [splitGo, if_neg (fun e => hnt (by simp [e]))] at h
                simp only [List.length_cons] at hs
                obtain ⟨v, vs, e, h4⟩ := (ih t (by omega) (fun hm => hnt (by simp [hm]))).1 _ _ h
                refine ⟨d :: v, vs, by simp [e], ?_⟩
                have := Reads.piece (.protect d) h4
                simpa using this
            · rename_i k1 k2 k3
              split at h
              · rename_i hb
                have hb' : c = ' ' ∨ c = '\t' := by
                  simp only [blank, Bool.or_eq_true, beq_iff_eq] at hb
                  rcases hb with (hb | hb) | hb
                  · exact .inr hb
                  · exact .inl hb
                  · exact absurd (by simp [hb]) hn
                obtain ⟨vs, h1, h2⟩ := Option.map_eq_some_iff.1 h
                exact ⟨[], vs, by simp [← h2], .sep hb' ((ih t (by omega) hnt).2 _ h1)⟩
              · rename_i hb
                obtain ⟨v, vs, e, h4⟩ := (ih t (by omega) hnt).1 _ _ h
                refine ⟨c :: v, vs, by simp [e], ?_⟩
                simp only [blank, Bool.or_eq_true, beq_iff_eq, not_or] at hb
                have := Reads.piece (p := [c]) (x := [c]) (.char (by simp [k1, k2, k3, hb])) h4
                simpa using this
    refine ⟨unq, fun ws h => ?_⟩
    cases s with
    | nil => cases h; exact .nil
    | cons c t =>
      simp only [List.length_cons] at hs
      have hnt : '\n' ∉ t := fun hm => hn (List.mem_cons_of_mem _ hm)
      by_cases hb : c = ' ' ∨ c = '\t'
      · refine .blank hb ((ih t (by omega) hnt).2 _ ?_)
        rw [splitGo] at h
        rcases hb with rfl | rfl <;> simpa [blank] using h
      · by_cases hh : c = '#'
        · subst hh
          have := (reads_ok (.comment t) hn).1 rfl
          rw [this] at h
          cases h
          exact .comment t
        · have hc : c ∉ [' ', '\t', '#'] := by
            simp only [not_or] at hb
            simp [hb, hh]
          rw [start_word hc hn] at h
          obtain ⟨v, vs, e, h1⟩ := unq [] ws h
          rw [e]
          exact .word hc h1

/-- **C50 (syntax of a line).** A line is cut into words exactly as the rules of the shell say, and refused exactly if it has no
words by these rules. -/
theorem words_of_line {line : List Char} (hn : '\n' ∉ line) (ws : List (List Char)) : split line = some ws ↔ Reads false line ws :=
  ⟨(reads_back _ line (Nat.le_refl _) hn).2 ws, fun h => (reads_ok h hn).1 rfl⟩

/-- **C50 (value of a key).** A line without newline gives a map iff the rules of the shell give words `ws` for it; key `k` then has value
`v` iff `k=v` is a word of the line and no later word assigns to `k`. -/
theorem map_of_line {line : List Char} (hn : '\n' ∉ line) :
    (parseLine line = none ↔ ¬ ∃ ws, Reads false line ws) ∧
    ∀ ws, Reads false line ws → ∃ m, parseLine line = some m ∧ ∀ k v, get m k = some v ↔
      '=' ∉ k.toList ∧ ∃ pre post, ws = pre ++ (k.toList ++ '=' :: v.toList) :: post ∧
        ∀ w ∈ post, ∀ v', w ≠ k.toList ++ '=' :: v' := by
  refine ⟨?_, fun ws h => Props.Fd3.value_of_key ((words_of_line hn ws).2 h)⟩
  simp only [parseLine, Option.map_eq_none_iff]
  constructor
  · rintro h ⟨ws, hw⟩
    rw [(words_of_line hn ws).2 hw] at h
    cases h
  · intro h
    cases hs : split line with
    | none => rfl
    | some ws => exact absurd ⟨ws, (words_of_line hn ws).1 hs⟩ h

/-- Non-trivial case: double quotes with a protected and an unprotected backslash, a backslash outside, single quotes within a word. -/
example : Reads false "a=\"x\\\"y\\z\"\\ 'b c'  # no".toList ["a=x\"y\\z b c".toList] :=
  (words_of_line (by decide) _).1 (by decide +kernel)

/-- Non-trivial case: double quotes that are not closed. -/
example : ¬ ∃ ws, Reads false "a=1 \"b".toList ws := (map_of_line (by decide)).1.1 (by decide +kernel)

end Verif.Props.Shell
