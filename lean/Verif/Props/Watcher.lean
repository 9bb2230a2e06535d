import Verif.Proof.Watcher
import Verif.Proof.Json3

/-!
# C148: messages about Slurm's error file

`run (init f) as = some s`: the runner opened the error file, which had content `f`, and then `as` happened: appends by others, `watch`,
calls of the closure, receptions by the runner.
-/

namespace Verif.Props.Watcher
open Verif.Json Verif.Watcher

/-- **C148 (messages are true).** Every message that is received or under way is the text of the whole file as it was at some moment,
and contains one of the words; except that the file contained "Unable to read" or was not UTF-8 at that moment, in which case the
message says so. -/
theorem messages_true (f : List UInt8) (as : List Act) (s : State) (h : run (init f) as = some s)
    (m : List Char) (hm : m ∈ s.messages) :
    ∃ p, WasContent f as p ∧
      ((unutf8 p = some m ∧ (SaysOver m ∨ ∃ a b, m = a ++ "Unable to read".toList ++ b)) ∨
        (unutf8 p = none ∧ m = "Unable to read slurm error file. Utf8 issue?".toList)) := by
  obtain ⟨p, h1, h2, h3⟩ := (inv f as s h).true_ m hm
  refine ⟨p, h1, ?_⟩
  unfold textOf at h2
  cases hp : unutf8 p with
  | some t =>
    rw [hp] at h2
    simp only [Option.getD_some] at h2
    subst h2
    exact .inl ⟨rfl, (fires_iff _).1 h3⟩
  | none => rw [hp] at h2; exact .inr ⟨rfl, h2⟩

/-- **C148 (no false alarm).** If at every moment the file was UTF-8 text with none of the words (and without "Unable to read"), there is
no message. -/
theorem no_false_alarm (f : List UInt8) (as : List Act) (s : State) (h : run (init f) as = some s)
    (hq : ∀ p, WasContent f as p → ∃ t, p = utf8 t ∧ ¬ SaysOver t ∧ ¬ ∃ a b, t = a ++ "Unable to read".toList ++ b) :
    s.messages = [] := by
  refine Classical.byContradiction fun hne => ?_
  obtain ⟨m, hm⟩ := List.exists_mem_of_ne_nil _ hne
  obtain ⟨p, hp, hcase⟩ := messages_true f as s h m hm
  obtain ⟨t, rfl, ht1, ht2⟩ := hq p hp
  rw [unutf8_utf8] at hcase
  rcases hcase with ⟨h1, h2⟩ | ⟨h1, _⟩
  · cases h1
    exact h2.elim ht1 ht2
  · cases h1

/-- **C148 (nothing is missed).** If the file was appended to after the runner began to watch it, and all events have been handled, and
the runner has not ended, then: if the file contains one of the words (or is not UTF-8), a message has been received or waits to be received. -/
theorem nothing_missed (f : List UInt8) (before after : List Act) (bs : List UInt8) (mg : Bool) (s : State)
    (h : run (init f) (before ++ .watch :: (after ++ [.append bs mg])) = some s) (rest : List Act) (s' : State)
    (h' : run s rest = some s') (hev : s'.events = 0) (hopen : s'.closed = false)
    (hover : unutf8 s'.file = none ∨ ∃ t, unutf8 s'.file = some t ∧ SaysOver t) :
    s'.got ≠ [] ∨ s'.chan ≠ none := by
  have hall : run (init f) ((before ++ .watch :: (after ++ [.append bs mg])) ++ rest) = some s' := run_append.2 ⟨s, h, h'⟩
  have I := inv f _ s' hall
  have ht1 : ∀ (l r : List Act) (w : Bool), touched l w = true → touched (l ++ r) w = true := by
    intro l r
    induction l with
    | nil => intro w h; cases h
    | cons a l ih =>
      intro w h
      cases a with
      | append b m =>
        simp only [List.cons_append, touched, Bool.or_eq_true] at h ⊢
        exact h.imp id (ih w)
      | watch => exact ih true h
      | event => exact ih w h
      | send => exact ih w h
      | recv => exact ih w h
      | close => exact ih w h
  have ht : touched ((before ++ .watch :: (after ++ [.append bs mg])) ++ rest) false = true := by
    apply ht1
    have : before ++ .watch :: (after ++ [.append bs mg]) = (before ++ .watch :: after) ++ [.append bs mg] := by simp
    rw [this, touched_snoc]
    simp [watched]
  have hbuf := I.caught hev ht
  have hfire : fires (textOf s'.buffer) = true := by
    rw [hbuf]
    unfold textOf
    rcases hover with hn | ⟨t, h1, h2⟩
    · rw [hn]
      show fires unreadable.toList = true
      decide
    · rw [h1]
      exact (fires_iff _).2 (.inl h2)
  have hne : s'.buffer ≠ [] := by
    intro hnil
    rw [hnil] at hfire
    revert hfire
    have h0 : textOf [] = [] := by
      have : unutf8 [] = some [] := unutf8_utf8 []
      unfold textOf; rw [this]; rfl
    rw [h0]
    decide
  have hmsg := I.heard hopen hfire hne
  by_cases hb : s'.blocked = none
  · by_cases hc : s'.chan = none
    · left
      intro hg
      exact hmsg (by simp [State.messages, hb, hc, hg])
    · exact .inr hc
  · exact (I.line hb hopen).symm

/-- **C148 (what was written before is missed).** As long as the file is not appended to after the runner began to watch it, there is no
message, whatever the file contains: the file is opened but not read before the first event. -/
theorem before_watch_missed (f : List UInt8) (before after : List Act) (s : State)
    (h : run (init f) (before ++ .watch :: after) = some s) (hb : Act.watch ∉ before) (ha : ∀ bs mg, Act.append bs mg ∉ after) : s.messages = [] := by
  have hno : ∀ (l : List Act) (w : Bool), (∀ bs mg, Act.append bs mg ∉ l) → touched l w = false := by
    intro l
    induction l with
    | nil => intro w _; rfl
    | cons a l ih =>
      intro w hl
      have hl' : ∀ bs mg, Act.append bs mg ∉ l := fun bs mg h => hl bs mg (List.mem_cons_of_mem _ h)
      cases a with
      | append b m => exact absurd (by simp) (hl b m)
      | watch => exact ih true hl'
      | event => exact ih w hl'
      | send => exact ih w hl'
      | recv => exact ih w hl'
      | close => exact ih w hl'
  have hbf : ∀ (l : List Act), Act.watch ∉ l → touched (l ++ .watch :: after) false = false := by
    intro l
    induction l with
    | nil => intro _; exact hno after true ha
    | cons a l ih =>
      intro hl
      have hl' : Act.watch ∉ l := fun h => hl (List.mem_cons_of_mem _ h)
      cases a with
      | append b m => simpa [touched] using ih hl'
      | watch => exact absurd (by simp) hl
      | event => exact ih hl'
      | send => exact ih hl'
      | recv => exact ih hl'
      | close => exact ih hl'
  exact ((inv f _ s h).quiet (hbf before hb)).2

/-- Slurm cancels the job before the runner watches. -/
def cancelledText : List UInt8 := utf8 "slurmstepd: error: *** JOB 7 CANCELLED AT 10:00 ***\n".toList

/-- **C148 (violated: what was written before).** The file says that the job is cancelled, and the runner does not hear of it. -/
theorem early_message_violated : ∃ s, run (init cancelledText) [.watch] = some s ∧ s.events = 0 ∧ s.messages = [] ∧
    ∃ t, unutf8 s.file = some t ∧ SaysOver t := by
  refine ⟨_, rfl, rfl, rfl, _, unutf8_utf8 _, "CANCELLED", by simp, ?_⟩
  exact (occurs_iff _ _).1 (by decide +kernel)

/-- **C148 (violated: a character in two parts).** Text in which no word occurs is appended in two parts, the cut being inside a
character ("é" is two bytes), and the closure is called in between: the runner is told that the job is over. -/
theorem split_character_violated : ∃ s, run (init []) [.watch, .append [0xC3] false, .event, .append [0xA9] false, .event, .recv] = some s ∧
    s.file = utf8 ['é'] ∧ ¬ SaysOver ['é'] ∧ s.got = ["Unable to read slurm error file. Utf8 issue?".toList] := by
  refine ⟨⟨[0xC3, 0xA9], [0xC3, 0xA9], true, 0, none, none, ["Unable to read slurm error file. Utf8 issue?".toList], false⟩, ?_, ?_, ?_, rfl⟩
  · decide +kernel
  · decide +kernel
  · rintro ⟨w, hw, a, b, h⟩
    have := congrArg List.length h
    simp only [List.length_append, List.length_cons, List.length_nil] at this
    simp only [List.mem_cons, List.not_mem_nil, or_false] at hw
    rcases hw with rfl | rfl | rfl <;> simp at this <;> omega

/-- Non-trivial case of `messages_true` and `nothing_missed`: two appends while the runner watches, the second one finishes the word. -/
example : (run (init (utf8 "step 1\n".toList)) [.watch, .append (utf8 "slurmstepd: error: CAN".toList) false, .event,
    .append (utf8 "CELLED AT".toList) false, .event, .recv]).map (fun s => (s.events, s.got)) =
    some (0, ["step 1\nslurmstepd: error: CANCELLED AT".toList]) := by
  decide +kernel

/-- Non-trivial case of `before_watch_missed` (`no_false_alarm`: the same with an empty file). -/
example : ∃ s, run (init cancelledText) ([.append [10] false] ++ .watch :: []) = some s := ⟨_, rfl⟩

end Verif.Props.Watcher
