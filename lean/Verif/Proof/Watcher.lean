import Mathlib.Data.List.Induction
import Verif.Spec.Watcher

/-!
# The watcher: invariants
-/

namespace Verif.Watcher
open Verif.Json

theorem occurs_iff (w s : List Char) : occurs w s = true ↔ ∃ a b, s = a ++ w ++ b := by
  induction s with
  | nil =>
    simp only [occurs, List.isEmpty_iff]
    constructor
    · rintro rfl; exact ⟨[], [], rfl⟩
    · rintro ⟨a, b, h⟩
      have := congrArg List.length h
      simp only [List.length_append, List.length_nil] at this
      exact List.eq_nil_of_length_eq_zero (by omega)
  | cons c s ih =>
    simp only [occurs, Bool.or_eq_true, List.isPrefixOf_iff_prefix, ih]
    constructor
    · rintro (⟨t, h⟩ | ⟨a, b, h⟩)
      · exact ⟨[], t, by simp [h]⟩
      · exact ⟨c :: a, b, by simp [h]⟩
    · rintro ⟨a, b, h⟩
      cases a with
      | nil => exact .inl ⟨b, by simpa using h.symm⟩
      | cons x a =>
        simp only [List.cons_append, List.cons.injEq] at h
        exact .inr ⟨a, b, h.2⟩

theorem fires_iff (s : List Char) :
    fires s = true ↔ SaysOver s ∨ ∃ a b, s = a ++ "Unable to read".toList ++ b := by
  simp only [fires, finalWords, SaysOver, Bool.or_eq_true, List.any_eq_true, occurs_iff]

theorem run_append {as bs : List Act} : ∀ {s s' : State}, run s (as ++ bs) = some s' ↔ ∃ s1, run s as = some s1 ∧ run s1 bs = some s' := by
  induction as with
  | nil => intro s s'; simp [run]
  | cons a as ih =>
    intro s s'
    simp only [List.cons_append, run]
    cases step s a with
    | none => simp
    | some s1 => simp [ih]

theorem run_snoc {as : List Act} {a : Act} {s s' : State} (h : run s (as ++ [a]) = some s') :
    ∃ s1, run s as = some s1 ∧ step s1 a = some s' := by
  obtain ⟨s1, h1, h2⟩ := run_append.1 h
  refine ⟨s1, h1, ?_⟩
  simp only [run] at h2
  cases hs : step s1 a with
  | none => rw [hs] at h2; cases h2
  | some s2 => rw [hs] at h2; exact h2

theorem written_append (as bs : List Act) : written (as ++ bs) = written as ++ written bs := by
  induction as with
  | nil => rfl
  | cons a as ih => cases a <;> simp [written, ih]

theorem WasContent.mono {f : List UInt8} {as bs : List Act} {p : List UInt8} (h : WasContent f as p) : WasContent f (as ++ bs) p := by
  obtain ⟨pre, h1, h2⟩ := h
  exact ⟨pre, h1.trans (List.prefix_append _ _), h2⟩

/-- Was the file appended to while it was watched? -/
def touched : List Act → Bool → Bool
  | [], _ => false
  | .append _ _ :: as, w => w || touched as w
  | .watch :: as, _ => touched as true
  | _ :: as, w => touched as w

/-- Was `watch` called? -/
def watched (as : List Act) : Bool := as.contains .watch

theorem touched_snoc (as : List Act) (a : Act) : ∀ w, touched (as ++ [a]) w =
    (touched as w || (match a with | .append _ _ => w || watched as | _ => false)) := by
  induction as with
  | nil => intro w; cases a <;> simp [touched, watched]
  | cons b as ih =>
    intro w
    cases b <;> simp [touched, ih, watched] <;> cases a <;> simp [Bool.or_assoc, Bool.or_comm, Bool.or_left_comm]

/-- What holds after the actions `as` on a file that had content `f`. -/
structure Inv (f : List UInt8) (as : List Act) (s : State) : Prop where
  file : s.file = f ++ written as
  watch : s.watching = watched as
  pre : WasContent f as s.buffer ∨ s.buffer = []
  isPre : s.buffer <+: s.file
  caught : s.events = 0 → touched as false = true → s.buffer = s.file
  quiet : touched as false = false → s.events = 0 ∧ s.messages = []
  true_ : ∀ m ∈ s.messages, ∃ p, WasContent f as p ∧ m = textOf p ∧ fires m = true
  heard : s.closed = false → fires (textOf s.buffer) = true → s.buffer ≠ [] → s.messages ≠ []
  line : s.blocked ≠ none → s.closed = false → s.chan ≠ none ∨ s.got ≠ []

theorem drop_pre {l m : List UInt8} (h : l <+: m) : l ++ m.drop l.length = m := by
  obtain ⟨t, rfl⟩ := h
  simp

theorem written_snoc (as : List Act) (a : Act) (h : ∀ b m, a ≠ .append b m) : written (as ++ [a]) = written as := by
  rw [written_append]
  cases a with
  | append b m => exact absurd rfl (h b m)
  | _ => simp [written]

theorem touched_other (as : List Act) (a : Act) (h : ∀ b m, a ≠ .append b m) : touched (as ++ [a]) false = touched as false := by
  rw [touched_snoc]
  cases a with
  | append b m => exact absurd rfl (h b m)
  | _ => simp

theorem watched_other (as : List Act) (a : Act) (h : a ≠ .watch) : watched (as ++ [a]) = watched as := by
  simp only [watched, List.contains_eq_any_beq, List.any_append, List.any_cons, List.any_nil, Bool.or_false]
  have : (Act.watch == a) = false := by simpa using Ne.symm h
  rw [this, Bool.or_false]

theorem touched_watched (as : List Act) : ∀ w, touched as w = true → w = true ∨ watched as = true := by
  induction as with
  | nil => intro w h; cases h
  | cons a as ih =>
    intro w h
    cases a with
    | append b m =>
      simp only [touched, Bool.or_eq_true] at h
      rcases h with h | h
      · exact .inl h
      · rcases ih w h with h | h
        · exact .inl h
        · right; simp only [watched, List.contains_cons] at h ⊢; rw [h, Bool.or_true]
    | watch => right; simp [watched]
    | event => rcases ih w h with h | h; exact .inl h; right; simp only [watched, List.contains_cons] at h ⊢; rw [h, Bool.or_true]
    | send => rcases ih w h with h | h; exact .inl h; right; simp only [watched, List.contains_cons] at h ⊢; rw [h, Bool.or_true]
    | recv => rcases ih w h with h | h; exact .inl h; right; simp only [watched, List.contains_cons] at h ⊢; rw [h, Bool.or_true]
    | close => rcases ih w h with h | h; exact .inl h; right; simp only [watched, List.contains_cons] at h ⊢; rw [h, Bool.or_true]

theorem inv (f : List UInt8) (as : List Act) : ∀ s, run (init f) as = some s → Inv f as s := by
  induction as using List.reverseRecOn with
  | nil =>
    intro s h
    cases h
    refine ⟨by simp [init, written], rfl, .inr rfl, by simp [init], fun _ h => by simp [touched] at h, fun _ => ⟨rfl, rfl⟩, ?_, ?_, ?_⟩
    · intro m hm; simp [init, State.messages] at hm
    · intro _ _ h; exact absurd rfl h
    · intro h; exact absurd rfl h
  | append_singleton as a ih =>
    intro s' h
    obtain ⟨s, h1, h2⟩ := run_snoc h
    have I := ih s h1
    cases a with
    | append bs merged =>
      simp only [step, Option.some.injEq] at h2
      subst h2
      have hfile : s.file ++ bs = f ++ written (as ++ [Act.append bs merged]) := by
        rw [written_append, I.file]; simp [written]
      refine ⟨hfile, by rw [watched_other _ _ (by simp)]; exact I.watch, I.pre.imp WasContent.mono id,
        I.isPre.trans (List.prefix_append _ _), ?_, ?_, ?_, I.heard, I.line⟩
      · intro he ht
        rw [touched_snoc] at ht
        simp only at he
        split at he
        · split at he
          · rename_i hm; simp at hm; omega
          · omega
        · rename_i hw
          have hw' : watched as = false := by rw [← I.watch]; simpa using hw
          simp only [hw', Bool.or_false, Bool.false_or] at ht
          rcases touched_watched as false ht with h | h
          · cases h
          · rw [hw'] at h; cases h
      · intro ht
        rw [touched_snoc] at ht
        simp only [Bool.false_or, Bool.or_eq_false_iff] at ht
        obtain ⟨q1, q2⟩ := I.quiet ht.1
        have hw : s.watching = false := by rw [I.watch]; exact ht.2
        simp only [hw]
        exact ⟨by simpa using q1, q2⟩
      · intro m hm
        obtain ⟨p, h1, h2⟩ := I.true_ m hm
        exact ⟨p, h1.mono, h2⟩
    | watch =>
      simp only [step] at h2
      split at h2
      · cases h2
      · cases h2
        refine ⟨by rw [written_snoc _ _ (by simp)]; exact I.file, by simp [watched], I.pre.imp WasContent.mono id, I.isPre, ?_, ?_, ?_, I.heard, I.line⟩
        · rw [touched_other _ _ (by simp)]; exact I.caught
        · rw [touched_other _ _ (by simp)]; exact I.quiet
        · intro m hm
          obtain ⟨p, h1, h2⟩ := I.true_ m hm
          exact ⟨p, h1.mono, h2⟩
    | event =>
      simp only [step] at h2
      split at h2
      · cases h2
      · rename_i hno
        have hev : s.events ≠ 0 := fun h => hno (.inl h)
        have hbl : s.blocked = none := Classical.byContradiction fun h => hno (.inr h)
        have hbuf : s.buffer ++ s.file.drop s.buffer.length = s.file := drop_pre I.isPre
        rw [hbuf] at h2
        have hwas : WasContent f (as ++ [Act.event]) s.file := ⟨as, List.prefix_append _ _, I.file⟩
        have htouch : touched as false = true := by
          cases hT : touched as false with
          | true => rfl
          | false => exact absurd (I.quiet hT).1 hev
        have hold : ∀ m ∈ s.messages, ∃ p, WasContent f (as ++ [Act.event]) p ∧ m = textOf p ∧ fires m = true := by
          intro m hm
          obtain ⟨p, h1, h2⟩ := I.true_ m hm
          exact ⟨p, h1.mono, h2⟩
        have hfile := written_snoc as .event (by simp)
        have hw := watched_other as .event (by simp)
        have ht := touched_other as .event (by simp)
        split at h2
        · rename_i hf
          split at h2
          · rename_i hcl
            cases h2
            exact ⟨by rw [hfile]; exact I.file, by rw [hw]; exact I.watch, .inl hwas, List.prefix_rfl, fun _ _ => rfl,
              fun h => (by rw [ht, htouch] at h; cases h), hold, fun h => (by simp only [hcl] at h; cases h),
              fun h => absurd hbl h⟩
          · split at h2
            · rename_i hch
              cases h2
              refine ⟨by rw [hfile]; exact I.file, by rw [hw]; exact I.watch, .inl hwas, List.prefix_rfl, fun _ _ => rfl,
                fun h => (by rw [ht, htouch] at h; cases h), ?_, fun _ _ _ => by simp [State.messages], fun h => absurd hbl h⟩
              intro m hm
              simp only [State.messages, List.mem_append, hbl, Option.toList_some, List.mem_singleton] at hm
              rcases hm with (hm | rfl) | hm
              · exact hold m (by simp [State.messages, hm])
              · exact ⟨s.file, hwas, rfl, hf⟩
              · simp at hm
            · rename_i x hch
              cases h2
              refine ⟨by rw [hfile]; exact I.file, by rw [hw]; exact I.watch, .inl hwas, List.prefix_rfl, fun _ _ => rfl,
                fun h => (by rw [ht, htouch] at h; cases h), ?_, fun _ _ _ => by simp [State.messages],
                fun _ _ => .inl (by rw [hch]; simp)⟩
              intro m hm
              simp only [State.messages, List.mem_append, Option.toList_some, List.mem_singleton] at hm
              rcases hm with (hm | hm) | rfl
              · exact hold m (by simp [State.messages, hm])
              · exact hold m (by simp [State.messages, hm])
              · exact ⟨s.file, hwas, rfl, hf⟩
        · rename_i hf
          cases h2
          exact ⟨by rw [hfile]; exact I.file, by rw [hw]; exact I.watch, .inl hwas, List.prefix_rfl, fun _ _ => rfl,
            fun h => (by rw [ht, htouch] at h; cases h), hold, fun _ h => absurd h hf, I.line⟩
    | send =>
      have hfile := written_snoc as .send (by simp)
      have hw := watched_other as .send (by simp)
      have ht := touched_other as .send (by simp)
      have hold : ∀ m ∈ s.messages, ∃ p, WasContent f (as ++ [Act.send]) p ∧ m = textOf p ∧ fires m = true := by
        intro m hm
        obtain ⟨p, h1, h2⟩ := I.true_ m hm
        exact ⟨p, h1.mono, h2⟩
      simp only [step] at h2
      split at h2
      · cases h2
      · rename_i text hbl hch
        cases h2
        refine ⟨by rw [hfile]; exact I.file, by rw [hw]; exact I.watch, I.pre.imp WasContent.mono id, I.isPre,
          by rw [ht]; exact I.caught, ?_, ?_, ?_, ?_⟩
        · rw [ht]
          intro hT
          have := (I.quiet hT).2
          simp [State.messages, hbl] at this
        · intro m hm
          refine hold m ?_
          simp only [State.messages, List.mem_append] at hm ⊢
          rcases hm with (hm | hm) | hm
          · exact .inl (.inl hm)
          · split at hm
            · simp at hm
            · right; rw [hbl]; exact hm
          · simp at hm
        · intro hcl _ _
          simp only at hcl
          simp [State.messages, hcl]
        · intro h; exact absurd rfl h
      · rename_i text y hbl hch
        split at h2
        · rename_i hcl
          cases h2
          refine ⟨by rw [hfile]; exact I.file, by rw [hw]; exact I.watch, I.pre.imp WasContent.mono id, I.isPre,
            by rw [ht]; exact I.caught, ?_, ?_, fun h => (by simp only [hcl] at h; cases h), fun h => absurd rfl h⟩
          · rw [ht]
            intro hT
            have := (I.quiet hT).2
            simp [State.messages, hbl] at this
          · intro m hm
            refine hold m ?_
            simp only [State.messages, List.mem_append] at hm ⊢
            rcases hm with hm | hm
            · exact .inl hm
            · simp at hm
        · cases h2
    | recv =>
      have hfile := written_snoc as .recv (by simp)
      have hw := watched_other as .recv (by simp)
      have ht := touched_other as .recv (by simp)
      simp only [step] at h2
      split at h2
      · cases h2
      · rename_i text hch
        split at h2
        · cases h2
        · cases h2
          refine ⟨by rw [hfile]; exact I.file, by rw [hw]; exact I.watch, I.pre.imp WasContent.mono id, I.isPre,
            by rw [ht]; exact I.caught, ?_, ?_, fun _ _ _ => by simp [State.messages], fun _ _ => .inr (by simp)⟩
          · rw [ht]
            intro hT
            have := (I.quiet hT).2
            simp [State.messages, hch] at this
          · intro m hm
            obtain ⟨p, h1, h2⟩ := I.true_ m (by
              simp only [State.messages, List.mem_append, hch] at hm ⊢
              rcases hm with ((hm | hm) | hm) | hm
              · exact .inl (.inl hm)
              · exact .inl (.inr hm)
              · simp at hm
              · exact .inr hm)
            exact ⟨p, h1.mono, h2⟩
    | close =>
      have hfile := written_snoc as .close (by simp)
      have hw := watched_other as .close (by simp)
      have ht := touched_other as .close (by simp)
      simp only [step] at h2
      split at h2
      · cases h2
      · cases h2
        refine ⟨by rw [hfile]; exact I.file, by rw [hw]; exact I.watch, I.pre.imp WasContent.mono id, I.isPre,
          by rw [ht]; exact I.caught, by rw [ht]; exact I.quiet, ?_, fun h => (by cases h), fun _ h => (by cases h)⟩
        intro m hm
        obtain ⟨p, h1, h2⟩ := I.true_ m hm
        exact ⟨p, h1.mono, h2⟩

end Verif.Watcher
