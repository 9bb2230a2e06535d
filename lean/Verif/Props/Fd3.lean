import Verif.Model.Fd3
import Mathlib.Data.List.Induction

/-!
# C46, C50, C80: exit codes and the values a task writes to file descriptor 3
-/

namespace Verif.Props.Fd3
open Verif Verif.Fd3

/-! ## C46: exit codes -/

/-- **C46.** A process counts as successful iff it exited with code 0 (signal numbers are positive). -/
theorem success_iff_exit_zero {st : ProcStatus} (hs : st ≠ .signaled 0) : (code st).isSuccess = true ↔ st = .exited 0 := by
  cases st with
  | exited c => simp [code, Tracker.ExitStatus.isSuccess]
  | signaled n =>
    have : n ≠ 0 := fun h => hs (by rw [h])
    simp [code, Tracker.ExitStatus.isSuccess, this]

/-- **C46.** The number recorded is the exit code, or minus the number of the signal, or -10 for a cancelled task, or -1 for
a disconnected one; it is 0 exactly for success. -/
theorem recorded_number :
    (∀ c, (code (.exited c)).asI32 = c) ∧ (∀ n, (code (.signaled n)).asI32 = -(n : Int)) ∧
    Tracker.ExitStatus.cancelled.asI32 = -10 ∧ Tracker.ExitStatus.disconnected.asI32 = -1 ∧
    ∀ st : Tracker.ExitStatus, st.asI32 = 0 ↔ st.isSuccess = true := by
  refine ⟨fun _ => rfl, fun _ => rfl, rfl, rfl, ?_⟩
  intro st
  cases st <;> simp [Tracker.ExitStatus.asI32, Tracker.ExitStatus.isSuccess]

/-- **C46 (limit).** The number does not tell cancellation from death by signal 10, nor disconnection from death by signal 1. -/
theorem recorded_number_ambiguous : (code (.signaled 10)).asI32 = Tracker.ExitStatus.cancelled.asI32 ∧
    (code (.signaled 1)).asI32 = Tracker.ExitStatus.disconnected.asI32 := ⟨rfl, rfl⟩

/-- Non-trivial case: killed by signal 9. -/
example : (code (.signaled 9)).asI32 = -9 ∧ (code (.signaled 9)).isSuccess = false := by decide

/-! ## C50: lines -/

theorem linesGo_line {l : List Char} (h : '\n' ∉ l) (w r : List Char) :
    linesGo w (l ++ '\n' :: r) = chomp (w ++ l) :: linesGo [] r := by
  induction l generalizing w with
  | nil => simp [linesGo]
  | cons c l ih =>
    have hc : c ≠ '\n' := fun e => h (by simp [e])
    rw [List.cons_append, linesGo, if_neg hc, ih (fun hm => h (List.mem_cons_of_mem _ hm))]
    simp

theorem linesGo_last {l : List Char} (h : '\n' ∉ l) (w : List Char) :
    linesGo w l = if w ++ l = [] then [] else [w ++ l] := by
  induction l generalizing w with
  | nil => simp [linesGo]
  | cons c l ih =>
    have hc : c ≠ '\n' := fun e => h (by simp [e])
    rw [linesGo, if_neg hc, ih (fun hm => h (List.mem_cons_of_mem _ hm))]
    simp

/-- A line without the carriage return at its end, if any. -/
def withoutCR (l : List Char) : List Char := if l.getLast? = some '\r' then l.dropLast else l

/-- **C50.** The output is cut into lines at the newlines (a carriage return before the newline, and an empty line at the
end, do not count); each line is parsed for itself, and those that can not be parsed are left out. -/
theorem values_by_line {ls : List (List Char)} {last : List Char} (h : ∀ l ∈ ls, '\n' ∉ l) (hl : '\n' ∉ last) :
    valuesOf (ls.flatMap (fun l => l ++ ['\n']) ++ last) =
      (ls.map withoutCR ++ (if last = [] then [] else [last])).filterMap parseLine := by
  unfold valuesOf lines
  congr 1
  induction ls with
  | nil => simp [linesGo_last hl]
  | cons l ls ih =>
    simp only [List.flatMap_cons, List.append_assoc, List.map_cons, List.cons_append, List.nil_append]
    rw [linesGo_line (h l (by simp)), ih (fun x hx => h x (List.mem_cons_of_mem _ hx))]
    rfl

/-- Every text has this form. -/
theorem lines_exist (t : List Char) : ∃ (ls : List (List Char)) (last : List Char), t = ls.flatMap (fun l => l ++ ['\n']) ++ last ∧ (∀ l ∈ ls, '\n' ∉ l) ∧
    '\n' ∉ last := by
  induction t with
  | nil => exact ⟨[], [], rfl, by simp, by simp⟩
  | cons c t ih =>
    obtain ⟨ls, last, h1, h2, h3⟩ := ih
    by_cases hc : c = '\n'
    · refine ⟨[] :: ls, last, by simp [h1, hc], ?_, h3⟩
      intro l hl
      rcases List.mem_cons.1 hl with rfl | hl
      · simp
      · exact h2 l hl
    · cases ls with
      | nil => exact ⟨[], c :: last, by simp [h1], by simp, by simp [h3, Ne.symm hc]⟩
      | cons l ls =>
        refine ⟨(c :: l) :: ls, last, by simp [h1], ?_, h3⟩
        intro x hx
        rcases List.mem_cons.1 hx with rfl | hx
        · simp only [List.mem_cons, not_or]; exact ⟨Ne.symm hc, h2 l (by simp)⟩
        · exact h2 x (List.mem_cons_of_mem _ hx)

/-- **C50.** Output that is not UTF-8 gives no values; other output is parsed as text. -/
theorem values_utf8 : (∀ b : ByteArray, ¬ b.IsValidUTF8 → fd3Values b = []) ∧
    ∀ s : String, fd3Values s.toByteArray = valuesOf s.toList := by
  refine ⟨?_, ?_⟩
  · intro b hb
    simp [fd3Values, String.fromUTF8?, hb]
  · intro s
    have : s.toByteArray.IsValidUTF8 := s.isValidUTF8
    simp only [fd3Values, String.fromUTF8?, this, dif_pos]
    rfl

/-! ## C50: words of a line -/

/-- The value of a key in a map. -/
def get (m : List (String × String)) (k : String) : Option String := (m.find? (fun x => x.1 == k)).map (·.2)

theorem get_put (m : List (String × String)) (k v k' : String) : get (put m k v) k' = if k' = k then some v else get m k' := by
  unfold get put
  rw [List.find?_append, List.find?_filter]
  by_cases h : k' = k
  · subst h
    rw [if_pos rfl]
    have : m.find? (fun a => decide ((a.1 != k') = true ∧ (a.1 == k') = true)) = none := by
      rw [List.find?_eq_none]
      intro x _
      simp
    rw [this]
    simp
  · rw [if_neg h]
    have e : (fun a : String × String => decide ((a.1 != k) = true ∧ (a.1 == k') = true)) = fun a => a.1 == k' := by
      funext a
      by_cases ha : a.1 = k'
      · simp [ha, h]
      · simp [ha]
    rw [e]
    have : (k == k') = false := by simpa using Ne.symm h
    cases hf : m.find? (fun a => a.1 == k') <;> simp [this]

theorem get_foldl (kvs : List (List Char × List Char)) (m : List (String × String)) (k : String) :
    get (kvs.foldl (fun m kv => put m (String.ofList kv.1) (String.ofList kv.2)) m) k =
      match (kvs.reverse.find? (fun kv => String.ofList kv.1 == k)) with
      | some kv => some (String.ofList kv.2)
      | none => get m k := by
  induction kvs generalizing m with
  | nil => simp
  | cons kv kvs ih =>
    rw [List.foldl_cons, ih, List.reverse_cons, List.find?_append]
    cases hf : kvs.reverse.find? (fun kv => String.ofList kv.1 == k) with
    | some x => simp
    | none =>
      simp only [Option.none_or, List.find?_cons, List.find?_nil, get_put]
      by_cases h : k = String.ofList kv.1
      · simp [h]
      · have : (String.ofList kv.1 == k) = false := by simpa using Ne.symm h
        simp [this, h]

theorem assign_eq_some {w k v : List Char} : assign w = some (k, v) ↔ w = k ++ '=' :: v ∧ '=' ∉ k := by
  induction w generalizing k with
  | nil => simp [assign]
  | cons c w ih =>
    unfold assign
    by_cases hc : c = '='
    · subst hc
      rw [if_pos rfl]
      constructor
      · intro h
        simp only [Option.some.injEq, Prod.mk.injEq] at h
        obtain ⟨rfl, rfl⟩ := h
        simp
      · rintro ⟨h1, h2⟩
        cases k with
        | nil => simp at h1; simp [h1]
        | cons d k => simp at h1 h2; exact absurd h1.1 h2.1
    · rw [if_neg hc, Option.map_eq_some_iff]
      constructor
      · rintro ⟨⟨k', v'⟩, h1, h2⟩
        simp only [Prod.mk.injEq] at h2
        obtain ⟨rfl, rfl⟩ := h2
        obtain ⟨h3, h4⟩ := ih.1 h1
        refine ⟨by rw [h3]; rfl, ?_⟩
        simp only [List.mem_cons, not_or]
        exact ⟨Ne.symm hc, h4⟩
      · rintro ⟨h1, h2⟩
        cases k with
        | nil => simp at h1; exact absurd h1.1 hc
        | cons d k =>
          simp only [List.cons_append, List.cons.injEq] at h1
          obtain ⟨rfl, h1⟩ := h1
          exact ⟨(k, v), ih.2 ⟨h1, fun hm => h2 (List.mem_cons_of_mem _ hm)⟩, rfl⟩

/-- **C50.** In the map of a line with words `ws`, key `k` has value `v` iff `k=v` (`k` without `=`) is a word of the line
and no later word assigns to `k`. In particular words without `=` do not matter, and values may contain `=`. -/
theorem value_of_key {line : List Char} {ws : List (List Char)} (hs : split line = some ws) :
    ∃ m, parseLine line = some m ∧ ∀ k v, get m k = some v ↔
      '=' ∉ k.toList ∧ ∃ pre post, ws = pre ++ (k.toList ++ '=' :: v.toList) :: post ∧
        ∀ w ∈ post, ∀ v', w ≠ k.toList ++ '=' :: v' := by
  refine ⟨toMap (ws.filterMap assign), by simp [parseLine, hs], ?_⟩
  intro k v
  unfold toMap
  rw [get_foldl]
  have key : ∀ ws : List (List Char), (match ((ws.filterMap assign).reverse.find? (fun kv => String.ofList kv.1 == k)) with
      | some kv => some (String.ofList kv.2)
      | none => none) = some v ↔
      '=' ∉ k.toList ∧ ∃ pre post, ws = pre ++ (k.toList ++ '=' :: v.toList) :: post ∧
        ∀ w ∈ post, ∀ v', w ≠ k.toList ++ '=' :: v' := by
    intro ws
    induction ws using List.reverseRecOn with
    | nil => simp
    | append_singleton ws w ih =>
      rw [List.filterMap_append, List.reverse_append, List.find?_append]
      have noassign : (∀ v', '=' ∉ k.toList → w ≠ k.toList ++ '=' :: v') →
          (([w].filterMap assign).reverse.find? (fun kv => String.ofList kv.1 == k)) = none := by
        intro hno
        cases ha : assign w with
        | none => simp [ha]
        | some kv =>
          obtain ⟨a, b⟩ := kv
          have h1 := assign_eq_some.1 ha
          simp only [List.filterMap_cons, ha, List.filterMap_nil, List.reverse_singleton, List.find?_cons, List.find?_nil]
          have : (String.ofList a == k) = false := by
            rw [beq_eq_false_iff_ne]
            intro he
            have : a = k.toList := by rw [← he, String.toList_ofList]
            subst this
            exact hno b h1.2 h1.1
          rw [this]
      by_cases hw : '=' ∉ k.toList ∧ ∃ v', w = k.toList ++ '=' :: v'
      · obtain ⟨hk, v', hv'⟩ := hw
        have ha : assign w = some (k.toList, v') := assign_eq_some.2 ⟨hv', hk⟩
        simp only [List.filterMap_cons, ha, List.filterMap_nil, List.reverse_singleton, List.find?_cons, String.ofList_toList,
          beq_self_eq_true, Option.some_or, Option.some.injEq]
        constructor
        · intro h
          refine ⟨hk, ws, [], ?_, by simp⟩
          rw [hv', ← h, String.toList_ofList]
        · rintro ⟨_, pre, post, h1, h2⟩
          rcases List.eq_nil_or_concat post with rfl | ⟨post', x, rfl⟩
          · have := List.append_inj_right' h1 rfl
            simp only [List.cons.injEq, and_true] at this
            rw [hv'] at this
            have := List.append_cancel_left this
            simp only [List.cons.injEq, true_and] at this
            rw [this, String.ofList_toList]
          · rw [List.concat_eq_append, ← List.cons_append, ← List.append_assoc] at h1
            have := List.append_inj_right' h1 rfl
            simp only [List.cons.injEq, and_true] at this
            exact absurd (this ▸ hv') (h2 x (by simp) v')
      · have hno : ∀ v', '=' ∉ k.toList → w ≠ k.toList ++ '=' :: v' := fun v' hk he => hw ⟨hk, v', he⟩
        rw [noassign hno, Option.none_or, ih]
        constructor
        · rintro ⟨hk, pre, post, h1, h2⟩
          refine ⟨hk, pre, post ++ [w], by simp [h1], ?_⟩
          intro x hx v'
          rcases List.mem_append.1 hx with hx | hx
          · exact h2 x hx v'
          · simp only [List.mem_singleton] at hx; subst hx; exact hno v' hk
        · rintro ⟨hk, pre, post, h1, h2⟩
          rcases List.eq_nil_or_concat post with rfl | ⟨post', x, rfl⟩
          · have := List.append_inj_right' h1 rfl
            simp only [List.cons.injEq, and_true] at this
            exact absurd this (hno _ hk)
          · rw [List.concat_eq_append, ← List.cons_append, ← List.append_assoc] at h1
            have h3 := List.append_inj_left' h1 rfl
            exact ⟨hk, pre, post', h3, fun y hy => h2 y (by simp [hy])⟩
  have := key ws
  cases hf : ((ws.filterMap assign).reverse.find? (fun kv => String.ofList kv.1 == k)) with
  | some kv => rw [hf] at this; exact this
  | none => rw [hf] at this; simpa [get] using this

/-- Non-trivial case: a value with `=`, a repeated key, a word without `=`, a comment. -/
example : valuesOf "a=1 b=x=y 'a=2 3' word # c=4\n".toList = [[("b", "x=y"), ("a", "2 3")]] := by decide +kernel

/-- Non-trivial case: the second of three lines is not well quoted. -/
example : valuesOf "a=1\nb='2\nc=3".toList = [[("a", "1")], [("c", "3")]] := by decide +kernel

/-! ## C80: writing values with quotes -/

/-- A word in single quotes, each single quote in it written as `'"'"'` (as Python's `shlex.quote` does). -/
def quoted (w : List Char) : List Char :=
  '\'' :: w.flatMap (fun c => if c = '\'' then ['\'', '"', '\'', '"', '\''] else [c]) ++ ['\'']

/-- Characters that have a meaning for the shell (as far as used here). -/
def special (c : Char) : Bool :=
  c == '\'' || c == '"' || c == '\\' || c == '\t' || c == ' ' || c == '\n' || c == '#' || c == '\r'

/-- `s` is a way to write the word `w`: quoted, or plainly if it is not empty and has no special characters. -/
inductive Written : List Char → List Char → Prop
  | quoted (w) : Written (quoted w) w
  | plain {w} : w ≠ [] → (∀ c ∈ w, special c = false) → Written w w

/-- Words separated by single blanks. -/
def spaced : List (List Char) → List Char
  | [] => []
  | [w] => w
  | w :: v :: ws => w ++ ' ' :: spaced (v :: ws)

theorem split_quoted (w acc rest : List Char) :
    splitGo .single acc (w.flatMap (fun c => if c = '\'' then ['\'', '"', '\'', '"', '\''] else [c]) ++ '\'' :: rest) =
      splitGo .unquoted (acc ++ w) rest := by
  induction w generalizing acc with
  | nil => simp [splitGo]
  | cons c w ih =>
    rw [List.flatMap_cons, List.append_assoc]
    by_cases hc : c = '\''
    · subst hc
      simp only [if_true, List.cons_append, List.nil_append, splitGo, Char.reduceEq, if_false]
      rw [ih]
      simp
    · simp only [if_neg hc, List.cons_append, List.nil_append]
      rw [splitGo, if_neg hc, ih]
      simp

theorem split_plain {w : List Char} (h : ∀ c ∈ w, special c = false) (acc rest : List Char) :
    splitGo .unquoted acc (w ++ rest) = splitGo .unquoted (acc ++ w) rest := by
  induction w generalizing acc with
  | nil => simp
  | cons c w ih =>
    have hc := h c (by simp)
    simp only [special, Bool.or_eq_false_iff, beq_eq_false_iff_ne] at hc
    obtain ⟨⟨⟨⟨⟨⟨⟨h1, h2⟩, h3⟩, h4⟩, h7⟩, h8⟩, h5⟩, h6⟩ := hc
    rw [List.cons_append, splitGo, if_neg h1, if_neg h2, if_neg h3, if_neg (by simp [blank, h4, h7, h8]), ih (fun x hx => h x (List.mem_cons_of_mem _ hx))]
    simp

theorem split_written {s w : List Char} (h : Written s w) (rest : List Char) :
    splitGo .delimiter [] (s ++ rest) = splitGo .unquoted w rest := by
  cases h with
  | quoted =>
    unfold quoted
    rw [List.cons_append, List.cons_append, List.append_assoc, splitGo, if_pos rfl]
    have := split_quoted w [] rest
    simpa using this
  | plain hn h =>
    cases s with
    | nil => exact absurd rfl hn
    | cons c w =>
      have hc := h c (by simp)
      simp only [special, Bool.or_eq_false_iff, beq_eq_false_iff_ne] at hc
      obtain ⟨⟨⟨⟨⟨⟨⟨h1, h2⟩, h3⟩, h4⟩, h7⟩, h8⟩, h5⟩, h6⟩ := hc
      rw [List.cons_append, splitGo, if_neg h1, if_neg h2, if_neg h3, if_neg (by simp [blank, h4, h7, h8]), if_neg h5,
        split_plain (fun x hx => h x (List.mem_cons_of_mem _ hx))]
      rfl

theorem split_spaced {ss ws : List (List Char)} (h : List.Forall₂ Written ss ws) (hne : ss ≠ []) :
    ∃ pre w, ws = pre ++ [w] ∧ ∀ rest, splitGo .delimiter [] (spaced ss ++ rest) = (splitGo .unquoted w rest).map (pre ++ ·) := by
  induction h with
  | nil => exact absurd rfl hne
  | @cons s w ss ws hw hs ih =>
    cases hs with
    | nil =>
      refine ⟨[], w, rfl, fun rest => ?_⟩
      simp only [spaced]
      rw [split_written hw]
      simp
    | @cons s' w' ss ws hw' hs =>
      obtain ⟨pre, x, h1, h2⟩ := ih (by simp)
      refine ⟨w :: pre, x, by rw [h1]; rfl, fun rest => ?_⟩
      simp only [spaced, List.append_assoc, List.cons_append]
      rw [split_written hw, splitGo]
      simp only [Char.reduceEq, if_false, blank, beq_self_eq_true, Bool.or_true, Bool.true_or, if_true]
      rw [h2]
      cases splitGo .unquoted x rest <;> rfl

/-- **C80.** Words written one after the other, each quoted or plain, are read back. -/
theorem written_words_split {ss ws : List (List Char)} (h : List.Forall₂ Written ss ws) : split (spaced ss) = some ws := by
  by_cases hne : ss = []
  · subst hne
    cases h
    rfl
  · obtain ⟨pre, w, h1, h2⟩ := split_spaced h hne
    have := h2 []
    rw [List.append_nil] at this
    rw [split, this, h1]
    rfl

/-- `s` are the words `ws`, each quoted or plain, separated by any number of spaces and tabs. -/
inductive Laid : List Char → List (List Char) → Prop
  | last {s w} : Written s w → Laid s [w]
  | next {s w sep t ws} : Written s w → sep ≠ [] → (∀ c ∈ sep, c = ' ' ∨ c = '\t') → Laid t ws → Laid (s ++ (sep ++ t)) (w :: ws)

theorem split_sep {sep : List Char} (h : ∀ c ∈ sep, c = ' ' ∨ c = '\t') (rest : List Char) :
    splitGo .delimiter [] (sep ++ rest) = splitGo .delimiter [] rest := by
  induction sep with
  | nil => rfl
  | cons c sep ih =>
    rw [List.cons_append, splitGo]
    have := ih (fun x hx => h x (List.mem_cons_of_mem _ hx))
    rcases h c (by simp) with rfl | rfl <;> simpa [blank] using this

/-- **C80.** Words written one after the other, each quoted or plain, with spaces and tabs between them, are read back. -/
theorem laid_words_split {s : List Char} {ws : List (List Char)} (h : Laid s ws) : split s = some ws := by
  unfold split
  induction h with
  | @last s w hw =>
    have := split_written hw []
    rw [List.append_nil] at this
    rw [this]; rfl
  | @next s w sep t ws hw hne hsep _ ih =>
    rw [split_written hw]
    cases sep with
    | nil => exact absurd rfl hne
    | cons c sep =>
      have e := split_sep (fun x hx => hsep x (List.mem_cons_of_mem _ hx)) t
      rw [ih] at e
      rw [List.cons_append, splitGo]
      rcases hsep c (by simp) with rfl | rfl <;> simp [blank, e]

/-- Non-trivial case. -/
example : Laid "a=1 \t'b=x y'".toList ["a=1".toList, "b=x y".toList] :=
  .next (s := "a=1".toList) (sep := " \t".toList) (.plain (by decide) (by decide)) (by decide) (by decide)
    (.last (.quoted "b=x y".toList))

theorem single_open {rest : List Char} (hr : '\'' ∉ rest) (acc : List Char) : splitGo .single acc rest = none := by
  induction rest generalizing acc with
  | nil => rfl
  | cons c r ih =>
    have hc : c ≠ '\'' := fun e => hr (by simp [e])
    rw [splitGo, if_neg hc]
    exact ih (fun hm => hr (List.mem_cons_of_mem _ hm)) _

/-- **C50.** A line with a quote that is not closed is not parsed, whatever is before the quote. -/
theorem unclosed_quote {ss ws : List (List Char)} (h : List.Forall₂ Written ss ws) (hne : ss ≠ []) {rest : List Char}
    (hr : '\'' ∉ rest) :
    parseLine (spaced ss ++ '\'' :: rest) = none ∧ parseLine (spaced ss ++ ' ' :: '\'' :: rest) = none := by
  obtain ⟨pre, w, _, h2⟩ := split_spaced h hne
  refine ⟨?_, ?_⟩
  · rw [parseLine, split, h2, splitGo, if_pos rfl, single_open hr]; rfl
  · rw [parseLine, split, h2, splitGo]
    simp only [Char.reduceEq, if_false, blank, beq_self_eq_true, Bool.or_true, Bool.true_or, if_true]
    rw [splitGo, if_pos rfl, single_open hr]; rfl

/-- Non-trivial case of the hypothesis. -/
example : List.Forall₂ Written ["a=1".toList, "'b=x y'".toList] ["a=1".toList, "b=x y".toList] :=
  .cons (.plain (by decide) (by decide)) (.cons (.quoted "b=x y".toList) .nil)

theorem written_no_newline {s w : List Char} (h : Written s w) (hw : '\n' ∉ w) : '\n' ∉ s ∧ s.getLast? ≠ some '\r' := by
  cases h with
  | quoted =>
    refine ⟨?_, ?_⟩
    · unfold quoted
      simp only [List.mem_append, List.mem_cons, List.mem_flatMap, not_or]
      refine ⟨⟨by decide, ?_⟩, by decide, by simp⟩
      rintro ⟨c, hc, hm⟩
      split at hm
      · exact absurd hm (by decide)
      · simp only [List.mem_singleton] at hm; exact hw (hm ▸ hc)
    · unfold quoted
      rw [List.getLast?_concat]
      decide
  | plain hn h =>
    refine ⟨hw, ?_⟩
    intro hl
    have := h _ (List.mem_of_getLast? hl)
    exact absurd this (by decide)

theorem spaced_no_newline {ss ws : List (List Char)} (h : List.Forall₂ Written ss ws) (hw : ∀ w ∈ ws, '\n' ∉ w) :
    '\n' ∉ spaced ss ∧ (spaced ss).getLast? ≠ some '\r' := by
  induction h with
  | nil => simp [spaced]
  | @cons s w ss ws hs hss ih =>
    have h1 := written_no_newline hs (hw w (by simp))
    cases hss with
    | nil => exact h1
    | @cons s' w' ss ws hs' hss' =>
      obtain ⟨h2, h3⟩ := ih (fun x hx => hw x (List.mem_cons_of_mem _ hx))
      simp only [spaced] at h2 h3 ⊢
      refine ⟨?_, ?_⟩
      · simp only [List.mem_append, List.mem_cons, not_or]
        exact ⟨h1.1, by decide, h2⟩
      · rw [List.getLast?_append, List.getLast?_cons]
        cases hx : (spaced (s' :: ss)).getLast? with
        | none => simp
        | some c => rw [hx] at h3; simpa using h3

/-- **C80.** A task writes, for each list of words in `wss`, a line with these words, each quoted or plain; no word
contains a newline. Then there is one map for each line, and key `k` has in it the value of the last word `k=v` of the line. -/
theorem values_round_trip_partial {sss wss : List (List (List Char))} (h : List.Forall₂ (List.Forall₂ Written) sss wss)
    (hw : ∀ ws ∈ wss, ∀ w ∈ ws, '\n' ∉ w) :
    List.Forall₂ (fun m ws => ∀ k v, get m k = some v ↔
        '=' ∉ k.toList ∧ ∃ pre post, ws = pre ++ (k.toList ++ '=' :: v.toList) :: post ∧
          ∀ w ∈ post, ∀ v', w ≠ k.toList ++ '=' :: v')
      (valuesOf (sss.flatMap (fun ss => spaced ss ++ ['\n']))) wss := by
  have h0 : ∀ l ∈ sss.map spaced, '\n' ∉ l ∧ l.getLast? ≠ some '\r' := by
    intro l hl
    obtain ⟨ss, h1, rfl⟩ := List.mem_map.1 hl
    clear hl
    induction h with
    | nil => simp at h1
    | @cons ss' ws' sss wss hss _ ih =>
      rcases List.mem_cons.1 h1 with rfl | h1
      · exact spaced_no_newline hss (hw ws' (by simp))
      · exact ih (fun x hx => hw x (List.mem_cons_of_mem _ hx)) h1
  have := values_by_line (ls := sss.map spaced) (last := []) (fun l hl => (h0 l hl).1) (by simp)
  rw [List.flatMap_map] at this
  simp only [List.append_nil, if_true] at this
  rw [this, List.map_map]
  have e : sss.map (withoutCR ∘ spaced) = sss.map spaced := by
    apply List.map_congr_left
    intro ss hss
    have := (h0 _ (List.mem_map.2 ⟨ss, hss, rfl⟩)).2
    simp [withoutCR, this]
  rw [e]
  clear this e h0 hw
  induction h with
  | nil => exact .nil
  | @cons ss ws sss wss hss _ ih =>
    obtain ⟨m, h1, h2⟩ := value_of_key (written_words_split hss)
    rw [List.map_cons, List.filterMap_cons, h1]
    exact .cons h2 ih

/-- **C80 (violated).** A value that contains a newline is lost, although properly quoted: the line is cut before it is
parsed. -/
theorem newline_value_lost_violated : ∃ w, Written (quoted w) w ∧ w = "k=a\nb".toList ∧ valuesOf (quoted w ++ ['\n']) = [] :=
  ⟨_, .quoted _, rfl, by decide +kernel⟩

end Verif.Props.Fd3
