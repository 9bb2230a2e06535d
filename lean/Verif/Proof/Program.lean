import Verif.Spec.Program
import Verif.Proof.ChildIo3
import Verif.Proof.Family5

/-!
# A program that starts no other process has one result
-/

namespace Verif.ChildIo
open Verif Verif.Fd3

variable {P : Type} {c : Cfg P} {s s' : State P} {a : Act} {as : List Act}

/-- What the parent has still to write. -/
def unfed : Stage → List UInt8
  | .feeding rest => rest
  | _ => []

/-- The child is alone and goes on as the program says, or has ended as the program says. -/
def OnTrack (c : Cfg P) (o : Out) (ws : List UInt8) (code : Nat) (as : List Act) (s : State P) : Prop :=
  (∃ p ws', s.procs = [p] ∧ p.child = true ∧ s.status = none ∧ written c (init c) o as ++ ws' = ws ∧
    Yields c.op o p.state (s.inBuf ++ unfed s.stage) p.input (p.holds o) ws' code) ∨
  s.procs = [] ∧ s.status = some (.exited code) ∧ written c (init c) o as = ws

theorem Yields.unique {op : P → Op P} {o : Out} {p : P} {inp : List UInt8} {i h : Bool} {ws ws' : List UInt8} {code code' : Nat}
    (h1 : Yields op o p inp i h ws code) (h2 : Yields op o p inp i h ws' code') : ws = ws' ∧ code = code' := by
  induction h1 generalizing ws' with
  | put e _ ih =>
    cases h2 with
    | put e' y => rw [e] at e'; cases e'; have := ih y; exact ⟨by rw [this.1], this.2⟩
    | putElsewhere e' ho y => rw [e] at e'; cases e'; simp at ho
    | _ => simp_all
  | putElsewhere e ho _ ih =>
    cases h2 with
    | put e' y => rw [e] at e'; cases e'; simp at ho
    | putElsewhere e' ho y => rw [e] at e'; cases e'; exact ih y
    | _ => simp_all
  | get e _ ih =>
    cases h2 with
    | get e' y => rw [e] at e'; cases e'; exact ih y
    | getEnd e' ho y => simp at ho
    | _ => simp_all
  | getEnd e ho _ ih =>
    cases h2 with
    | get e' y => simp at ho
    | getEnd e' ho y => rw [e] at e'; cases e'; exact ih y
    | _ => simp_all
  | close e _ ih =>
    cases h2 with
    | close e' y => rw [e] at e'; cases e'; exact ih y
    | closeElse e' ho y => rw [e] at e'; cases e'; simp at ho
    | _ => simp_all
  | closeElse e ho _ ih =>
    cases h2 with
    | close e' y => rw [e] at e'; cases e'; simp at ho
    | closeElse e' ho y => rw [e] at e'; cases e'; exact ih y
    | _ => simp_all
  | closeInput e _ ih =>
    cases h2 with
    | closeInput e' y => rw [e] at e'; cases e'; exact ih y
    | _ => simp_all
  | work e _ ih =>
    cases h2 with
    | work e' y => rw [e] at e'; cases e'; exact ih y
    | _ => simp_all
  | exit e =>
    cases h2 with
    | exit e' => rw [e] at e'; cases e'; exact ⟨rfl, rfl⟩
    | _ => simp_all

/-- What a process does first. -/
def First (op : P → Op P) (o : Out) (p : P) (inp : List UInt8) (i h : Bool) (ws : List UInt8) (code : Nat) : Prop :=
  match op p with
  | .put x b next => if x = o ∧ h = true then ∃ ws', ws = b :: ws' ∧ Yields op o next inp i h ws' code else Yields op o next inp i h ws code
  | .get next =>
    match i, inp with
    | true, b :: rest => Yields op o (next (some b)) rest i h ws code
    | _, _ => Yields op o (next none) inp i h ws code
  | .close x next => Yields op o next inp i (if x = o then false else h) ws code
  | .closeInput next => Yields op o next inp false h ws code
  | .fork _ _ => False
  | .work next => Yields op o next inp i h ws code
  | .exit x => ws = [] ∧ x = code

theorem Yields.first {op : P → Op P} {o : Out} {p : P} {inp : List UInt8} {i h : Bool} {ws : List UInt8} {code : Nat}
    (hy : Yields op o p inp i h ws code) : First op o p inp i h ws code := by
  unfold First
  cases hy with
  | put e y => rw [e]; simp only [and_self, if_true]; exact ⟨_, rfl, y⟩
  | putElsewhere e ho y =>
    rw [e]
    simp only
    rw [if_neg]
    · exact y
    · rintro ⟨rfl, rfl⟩; simp at ho
  | get e y => rw [e]; exact y
  | getEnd e ho y =>
    rw [e]
    simp only
    split
    · rename_i b rest _ _; simp at ho
    · exact y
  | close e y => rw [e]; simp only [if_true]; exact y
  | closeElse e ho y => rw [e]; simp only [if_neg ho]; exact y
  | closeInput e y => rw [e]; exact y
  | work e y => rw [e]; exact y
  | exit e => rw [e]; exact ⟨rfl, rfl⟩

/-- Every step of a process, the state before and after. -/
theorem track_step {o : Out} (hpi : c.piped o = true) {ws : List UInt8} {code : Nat} (hr : Runs c (init c) as s) (h : OnTrack c o ws code as s)
    (hno : isKill a = false) (hs : step c s a = .ok s') (hrd : reading s.stage = true) (hc : over s'.stage = false ∨ a = .finish) :
    OnTrack c o ws code (as ++ [a]) s' := by
  have hw := written_snoc hr o (a := a)
  unfold OnTrack
  rw [hw]
  cases a with
  | kill i sig => cases hno
  | cancel =>
    rcases hc with hc | hc
    · simp only [step] at hs
      split at hs
      · cases hs
        have := (kill_stage { s with stage := Stage.cancelled }).1
        rw [this] at hc; cases hc
      · cases hs
    · cases hc
  | feed =>
    simp only [step] at hs
    split at hs
    · rename_i b rest hst
      split at hs
      · split at hs
        · cases hs
          rcases h with ⟨p, ws', h1, h2, h3, h4, h5⟩ | ⟨h1, h2, h3⟩
          · refine .inl ⟨p, ws', h1, h2, h3, by simpa [wrote] using h4, ?_⟩
            rw [hst] at h5
            simpa [unfed] using h5
          · exact .inr ⟨h1, h2, by simpa [wrote] using h3⟩
        · cases hs
      · cases hs
        have := (kill_stage { s with stage := Stage.panicked }).1
        rcases hc with hc | hc
        · rw [this] at hc; cases hc
        · cases hc
    · cases hs
  | fed =>
    simp only [step] at hs
    split at hs
    · rename_i hst
      cases hs
      rcases h with ⟨p, ws', h1, h2, h3, h4, h5⟩ | ⟨h1, h2, h3⟩
      · exact .inl ⟨p, ws', h1, h2, h3, by simpa [wrote] using h4, by rw [hst] at h5; exact h5⟩
      · exact .inr ⟨h1, h2, by simpa [wrote] using h3⟩
    · cases hs
  | started =>
    simp only [step] at hs
    split at hs
    · rename_i hst
      cases hs
      rcases h with ⟨p, ws', h1, h2, h3, h4, h5⟩ | ⟨h1, h2, h3⟩
      · exact .inl ⟨p, ws', h1, h2, h3, by simpa [wrote] using h4, by rw [hst] at h5; exact h5⟩
      · exact .inr ⟨h1, h2, by simpa [wrote] using h3⟩
    · cases hs
  | collect x =>
    simp only [step] at hs
    split at hs
    · cases hs
      rcases h with ⟨p, ws', h1, h2, h3, h4, h5⟩ | ⟨h1, h2, h3⟩
      · exact .inl ⟨p, ws', h1, h2, h3, by simpa [wrote] using h4, h5⟩
      · exact .inr ⟨h1, h2, by simpa [wrote] using h3⟩
    · cases hs
  | eof x =>
    simp only [step] at hs
    split at hs
    · split at hs
      · cases hs
        rcases h with ⟨p, ws', h1, h2, h3, h4, h5⟩ | ⟨h1, h2, h3⟩
        · exact .inl ⟨p, ws', h1, h2, h3, by simpa [wrote] using h4, h5⟩
        · exact .inr ⟨h1, h2, by simpa [wrote] using h3⟩
      · cases hs
    · cases hs
  | reap =>
    simp only [step] at hs
    split at hs
    · split at hs
      · cases hs
      · cases hs
        rcases h with ⟨p, ws', h1, h2, h3, h4, h5⟩ | ⟨h1, h2, h3⟩
        · exact .inl ⟨p, ws', h1, h2, h3, by simpa [wrote] using h4, h5⟩
        · exact .inr ⟨h1, h2, by simpa [wrote] using h3⟩
    · cases hs
  | finish =>
    simp only [step] at hs
    split at hs
    · rename_i st hst hsome
      split at hs
      · cases hs
        rcases h with ⟨p, ws', h1, h2, h3, h4, h5⟩ | ⟨h1, h2, h3⟩
        · rw [h3] at hsome; cases hsome
        · exact .inr ⟨h1, h2, by simpa [wrote] using h3⟩
      · cases hs
    · cases hs
  | run i =>
    simp only [step] at hs
    cases hp : s.procs[i]? with
    | none => rw [hp] at hs; cases hs
    | some q =>
      rw [hp] at hs
      simp only at hs
      rcases h with ⟨p, ws', h1, h2, h3, h4, h5⟩ | ⟨h1, h2, h3⟩
      · have hi : i = 0 ∧ q = p := by
          rw [h1] at hp
          cases i with
          | zero => simp at hp; exact ⟨rfl, hp.symm⟩
          | succ i => simp at hp
        obtain ⟨rfl, rfl⟩ := hi
        simp only [wrote, hp]
        simp only [runProc] at hs
        have hf := h5.first
        unfold First at hf
        have one : ∀ r : Proc P, s.procs.set 0 r = [r] := by intro r; rw [h1]; rfl
        cases hop : c.op q.state with
        | put x b next =>
          rw [hop] at hs hf
          simp only at hs hf ⊢
          split at hs
          · rename_i hx
            split at hs
            · cases hs
              left
              by_cases hxo : x = o
              · subst hxo
                have hh : q.holds x = true := by simp at hx; exact hx.2
                rw [if_pos ⟨rfl, hh⟩] at hf
                obtain ⟨ws1, rfl, hf⟩ := hf
                refine ⟨{ q with state := next }, ws1, one _, h2, h3, ?_, hf⟩
                rw [if_pos ⟨rfl, hpi, hh, hrd⟩, List.append_assoc]
                exact h4
              · rw [if_neg (fun e => hxo e.1)] at hf
                refine ⟨{ q with state := next }, ws', one _, h2, h3, ?_, hf⟩
                rw [if_neg (fun e => hxo e.1), List.append_nil]
                exact h4
            · cases hs
          · rename_i hx
            cases hs
            left
            have hn : ¬ (x = o ∧ q.holds o = true) := by
              rintro ⟨rfl, hh⟩
              rw [hpi, hh] at hx; simp at hx
            rw [if_neg hn] at hf
            refine ⟨{ q with state := next }, ws', one _, h2, h3, ?_, hf⟩
            rw [if_neg (fun e => hn ⟨e.1, e.2.2.1⟩), List.append_nil]
            exact h4
        | get next =>
          rw [hop] at hs hf
          simp only [List.append_nil] at hs hf ⊢
          left
          cases hin : q.input with
          | true =>
            rw [hin] at hs hf
            simp only [if_true] at hs
            split at hs
            · rename_i b rest hb
              cases hs
              rw [hb] at hf
              exact ⟨_, ws', one _, h2, h3, h4, by simpa [hin, setProc] using hf⟩
            · rename_i hb
              split at hs
              · cases hs
              · rename_i hwr
                cases hs
                have hu : unfed s.stage = [] := by
                  cases hst : s.stage <;> rw [hst] at hwr <;> first | rfl | (simp [writing] at hwr)
                rw [hb, hu] at hf
                exact ⟨_, ws', one _, h2, h3, h4, by simpa [hin, setProc, hb, hu] using hf⟩
          | false =>
            rw [hin] at hs hf
            simp only [Bool.false_eq_true, if_false] at hs hf
            cases hs
            exact ⟨_, ws', one _, h2, h3, h4, by simpa [hin, setProc] using hf⟩
        | close x next =>
          rw [hop] at hs hf
          simp only [List.append_nil] at hs hf ⊢
          cases hs
          left
          refine ⟨_, ws', one _, h2, h3, h4, ?_⟩
          simp only [setProc]
          by_cases hxo : o = x
          · subst hxo; simpa using hf
          · rw [if_neg (fun e => hxo e.symm)] at hf
            rw [if_neg hxo]; exact hf
        | closeInput next =>
          rw [hop] at hs hf
          simp only [List.append_nil] at hs hf ⊢
          cases hs
          exact .inl ⟨_, ws', one _, h2, h3, h4, hf⟩
        | fork next other => rw [hop] at hf; exact hf.elim
        | work next =>
          rw [hop] at hs hf
          simp only [List.append_nil] at hs hf ⊢
          cases hs
          exact .inl ⟨_, ws', one _, h2, h3, h4, hf⟩
        | exit x =>
          rw [hop] at hs hf
          simp only [List.append_nil] at hs hf ⊢
          cases hs
          obtain ⟨rfl, rfl⟩ := hf
          right
          simp only [endProc, h2, if_true, h1]
          exact ⟨rfl, trivial, by simpa using h4⟩
      · rw [h1] at hp; simp at hp

theorem reading_of_step (hs : step c s a = .ok s') (h : reading s'.stage = true) : reading s.stage = true := by
  cases a with
  | run i => rw [(stage_run hs).1] at h; exact h
  | kill i sig =>
    simp only [step] at hs
    split at hs
    · cases hs; exact h
    · cases hs
  | cancel =>
    simp only [step] at hs
    split at hs
    · rename_i hst; rw [hst]; rfl
    · cases hs
  | feed =>
    simp only [step] at hs
    split at hs
    · rename_i hst; rw [hst]; rfl
    · cases hs
  | fed =>
    simp only [step] at hs
    split at hs
    · rename_i hst; rw [hst]; rfl
    · cases hs
  | started =>
    simp only [step] at hs
    split at hs
    · rename_i hst; rw [hst]; rfl
    · cases hs
  | collect x =>
    simp only [step] at hs
    split at hs
    · rename_i hst _; rw [hst]; rfl
    · cases hs
  | eof x =>
    simp only [step] at hs
    split at hs
    · rename_i hst _; rw [hst]; rfl
    · cases hs
  | reap =>
    simp only [step] at hs
    split at hs
    · rename_i hst _; rw [hst]; rfl
    · cases hs
  | finish =>
    simp only [step] at hs
    split at hs
    · rename_i hst _; rw [hst]; rfl
    · cases hs

theorem reading_over {x : Stage} : reading x = !(over x) := by cases x <;> rfl

/-- As long as the loop reads, and when it reports, the child is where the program says. -/
theorem on_track {o : Out} (hpi : c.piped o = true) {ws : List UInt8} {code : Nat} (hg : Gives c o ws code) (hr : Runs c (init c) as s)
    (hno : ∀ a ∈ as, isKill a = false) : (reading s.stage = true → OnTrack c o ws code as s) ∧
      ∀ st bytes, s.stage = .ended st bytes → st = .exited code ∧ bytes o = ws := by
  refine Runs.snocInd (Q := fun as s => (∀ a ∈ as, isKill a = false) → (reading s.stage = true → OnTrack c o ws code as s) ∧
      ∀ st bytes, s.stage = .ended st bytes → st = .exited code ∧ bytes o = ws) ?_ ?_ hr hno
  · intro _
    constructor
    · intro _
      refine .inl ⟨_, ws, rfl, rfl, rfl, rfl, ?_⟩
      unfold Gives at hg
      have e : (init c).inBuf ++ unfed (init c).stage = c.input.getD [] := by
        cases hi : c.input <;> simp [init, hi, unfed]
      rw [e]; exact hg
    · intro st bytes h
      cases hi : c.input <;> simp [init, hi] at h
  · intro as s a s' hr ih hs hno
    obtain ⟨i1, i2⟩ := ih (fun x hx => hno x (by simp [hx]))
    constructor
    · intro hrd
      have hrd0 := reading_of_step hs hrd
      exact track_step hpi hr (i1 hrd0) (hno a (by simp)) hs hrd0 (.inl (by rw [reading_over] at hrd; simpa using hrd))
    · intro st bytes hst
      by_cases ha : a = .finish
      · subst ha
        have hr' := hr.snoc hs
        have hrd0 : reading s.stage = true := by
          simp only [step] at hs
          split at hs
          · rename_i hw _; rw [hw]; rfl
          · cases hs
        have ht := track_step hpi hr (i1 hrd0) rfl hs hrd0 (.inr rfl)
        obtain ⟨e1, e2, e3, _⟩ := hr'.inv.ended st bytes hst
        have hss : s'.status = some st := by
          simp only [step] at hs
          split at hs
          · rename_i x _ hx
            split at hs
            · cases hs; cases hst; exact hx
            · cases hs
          · cases hs
        rcases ht with ⟨p, ws', h1, h2, h3, h4, h5⟩ | ⟨h1, h2, h3⟩
        · rw [hss] at h3; cases h3
        · rw [hss] at h2
          cases h2
          exact ⟨rfl, by rw [e3 o]; exact h3⟩
      · refine i2 st bytes ?_
        cases a with
        | finish => exact absurd rfl ha
        | run i => rw [(stage_run hs).1] at hst; exact hst
        | kill i sig =>
          simp only [step] at hs
          split at hs
          · cases hs; exact hst
          · cases hs
        | cancel =>
          simp only [step] at hs
          split at hs
          · cases hs
            rw [(kill_stage _).1] at hst; cases hst
          · cases hs
        | feed =>
          simp only [step] at hs
          split at hs
          · split at hs
            · split at hs
              · cases hs; cases hst
              · cases hs
            · cases hs
              rw [(kill_stage _).1] at hst; cases hst
          · cases hs
        | fed =>
          simp only [step] at hs
          split at hs
          · cases hs; cases hst
          · cases hs
        | started =>
          simp only [step] at hs
          split at hs
          · cases hs; cases hst
          · cases hs
        | collect x =>
          simp only [step] at hs
          split at hs
          · cases hs; exact hst
          · cases hs
        | eof x =>
          simp only [step] at hs
          split at hs
          · split at hs
            · cases hs; exact hst
            · cases hs
          · cases hs
        | reap =>
          simp only [step] at hs
          split at hs
          · split at hs
            · cases hs
            · cases hs; exact hst
          · cases hs

/-- A program that starts no other process and ends has a result. -/
theorem gives_exists {op : P → Op P} {k : Nat} {rank : P → Nat} (h1 : Single op) (h2 : Family.Ends op k rank) (o : Out) :
    ∀ (n : Nat) (p : P) (inp : List UInt8) (i h : Bool), rank p + (k + 1) * inp.length ≤ n → ∃ ws code, Yields op o p inp i h ws code := by
  intro n
  induction n with
  | zero =>
    intro p inp i h hn
    have := h2 p
    cases hop : op p with
    | exit x => exact ⟨[], x, .exit hop⟩
    | fork next other => exact absurd hop (h1 p next other)
    | get next => rw [hop] at this; have := this.2; omega
    | _ => rw [hop] at this; simp only at this; omega
  | succ n ih =>
    intro p inp i h hn
    have hr := h2 p
    cases hop : op p with
    | exit x => exact ⟨[], x, .exit hop⟩
    | fork next other => exact absurd hop (h1 p next other)
    | work next =>
      rw [hop] at hr
      obtain ⟨ws, code, hy⟩ := ih next inp i h (by simp only at hr; omega)
      exact ⟨ws, code, .work hop hy⟩
    | closeInput next =>
      rw [hop] at hr
      obtain ⟨ws, code, hy⟩ := ih next inp false h (by simp only at hr; omega)
      exact ⟨ws, code, .closeInput hop hy⟩
    | close x next =>
      rw [hop] at hr
      by_cases hx : x = o
      · subst hx
        obtain ⟨ws, code, hy⟩ := ih next inp i false (by simp only at hr; omega)
        exact ⟨ws, code, .close hop hy⟩
      · obtain ⟨ws, code, hy⟩ := ih next inp i h (by simp only at hr; omega)
        exact ⟨ws, code, .closeElse hop hx hy⟩
    | put x b next =>
      rw [hop] at hr
      obtain ⟨ws, code, hy⟩ := ih next inp i h (by simp only at hr; omega)
      by_cases hx : x = o ∧ h = true
      · obtain ⟨rfl, rfl⟩ := hx
        exact ⟨b :: ws, code, .put hop hy⟩
      · refine ⟨ws, code, .putElsewhere hop ?_ hy⟩
        by_cases hxo : x = o
        · right
          cases h
          · rfl
          · exact absurd ⟨hxo, rfl⟩ hx
        · exact .inl hxo
    | get next =>
      rw [hop] at hr
      simp only at hr
      have last : (i = false ∨ inp = []) → ∃ ws code, Yields op o p inp i h ws code := by
        intro hl
        obtain ⟨ws, code, hy⟩ := ih (next none) inp i h (by omega)
        exact ⟨ws, code, .getEnd hop hl hy⟩
      cases i with
      | false => exact last (.inl rfl)
      | true =>
        cases inp with
        | nil => exact last (.inr rfl)
        | cons b rest =>
          have := hr.1 b
          simp only [List.length_cons, Nat.mul_add, Nat.mul_one] at hn
          obtain ⟨ws, code, hy⟩ := ih (next (some b)) rest true h (by omega)
          exact ⟨ws, code, .get hop hy⟩

end Verif.ChildIo
