import Verif.Spec.Construct

/-! # Lemmas about the constructor -/

namespace Verif.Construct
open Verif Verif.Json

/-- What `load_runcounts` knows about the headers it has seen. -/
structure Heads (st : LoadState) (es : List LogEntry) : Prop where
  none : st.mem.header = none → ∀ h, LogEntry.header h ∉ es
  some : ∀ h, st.mem.header = some h → LogEntry.header h ∈ es
  all : ∀ h, LogEntry.header h ∈ es → h.version = logfileVersion ∧ st.workflowKey = Option.some h.workflowKey

theorem Heads.step {st st' : LoadState} {es : List LogEntry} {e : LogEntry} (h : Heads st es) (hs : loadStep st e = .ok st') :
    Heads st' (es ++ [e]) := by
  obtain ⟨h1, h2, h3⟩ := h
  cases e with
  | header x =>
    simp only [loadStep] at hs
    cases hk : st.workflowKey with
    | none =>
      simp only [hk] at hs
      split at hs
      · cases hs
      · rename_i hv
        cases hs
        refine ⟨by simp, ?_, ?_⟩
        · intro h e
          cases e
          simp
        · intro h e
          simp only [List.mem_append, List.mem_singleton, LogEntry.header.injEq] at e
          cases e with
          | inl e => have := (h3 h e).2; rw [hk] at this; cases this
          | inr e => subst e; exact ⟨by simpa using hv, rfl⟩
    | some k =>
      simp only [hk] at hs
      split at hs
      · cases hs
      · rename_i hne
        split at hs
        · cases hs
        · rename_i hv
          cases hs
          refine ⟨by simp, ?_, ?_⟩
          · intro h e
            cases e
            simp
          · intro h e
            simp only [List.mem_append, List.mem_singleton, LogEntry.header.injEq] at e
            cases e with
            | inl e => have := h3 h e; exact ⟨this.1, by simpa [hk] using this.2⟩
            | inr e => subst e; exact ⟨by simpa using hv, by simp only [hk]; simpa using hne⟩
  | ready r =>
    simp only [loadStep] at hs
    cases hs
    exact ⟨fun e h => by simpa using h1 e h, fun h e => by simpa using h2 h e, fun h e => h3 h (by simpa using e)⟩
  | started r =>
    simp only [loadStep] at hs
    split at hs
    · cases hs
    · cases hs
      exact ⟨fun e h => by simpa using h1 e h, fun h e => by simpa using h2 h e, fun h e => h3 h (by simpa using e)⟩
    · cases hs
  | finished r =>
    simp only [loadStep] at hs
    split at hs
    · cases hs
    · cases hs
      exact ⟨fun e h => by simpa using h1 e h, fun h e => by simpa using h2 h e, fun h e => h3 h (by simpa using e)⟩
    · cases hs
  | backref r =>
    simp only [loadStep] at hs
    cases hs
    exact ⟨fun e h => by simpa using h1 e h, fun h e => by simpa using h2 h e, fun h e => h3 h (by simpa using e)⟩

theorem Heads.lines (ls : List (List UInt8)) : ∀ {st : LoadState} {es : List LogEntry} {r : LoadState × List LogEntry}, Heads st es →
    loadLines st es ls = .ok r → Heads r.1 r.2 := by
  induction ls with
  | nil =>
    intro st es r h hl
    simp only [loadLines] at hl
    cases hl
    exact h
  | cons l ls ih =>
    intro st es r h hl
    simp only [loadLines] at hl
    split at hl
    · cases hl
    · split at hl
      · cases hl
      · split at hl
        · rename_i hst
          exact ih (h.step hst) hl
        · cases hl
        · cases hl

theorem heads_of_open {bs : List UInt8} {dir : String} {lf : LogFile} (h : openBytes bs dir = .ok lf) :
    ∃ wk, Heads ⟨lf.mem, wk⟩ lf.entries := by
  unfold openBytes at h
  cases hl : loadLines ⟨.empty, Option.none⟩ [] (rawLines bs) with
  | ok r =>
    rw [hl] at h
    cases h
    have := Heads.lines (rawLines bs) (st := ⟨.empty, Option.none⟩) (es := []) (r := r)
      ⟨fun _ => by simp, fun h e => by simp [LogMem.empty] at e, fun h e => by simp at e⟩ hl
    exact ⟨r.1.workflowKey, this⟩
  | err x => rw [hl] at h; cases h
  | panic m => rw [hl] at h; cases h

variable {s s' : Proc} {a : Args} {e : Env}

theorem parallel_ok {n : Nat} : parallel a.numParallel e = .ok n ↔
    (0 ≤ a.numParallel ∧ n = a.numParallel.toNat) ∨ (a.numParallel < 0 ∧ e.cores = some n ∧ n < 2 ^ 31) := by
  unfold parallel
  split
  · rename_i h
    cases hc : e.cores with
    | none => simp; omega
    | some c =>
      simp only
      split
      · constructor
        · intro h'
          cases h'
          exact .inr ⟨h, rfl, by assumption⟩
        · rintro (h' | h')
          · omega
          · simpa using h'.2.1
      · simp only [reduceCtorEq, Option.some.injEq, false_iff]
        rintro (h' | ⟨_, rfl, h'⟩)
        · omega
        · contradiction
  · simp only [Except.ok.injEq]
    constructor
    · intro h'
      exact .inl ⟨by omega, h'.symm⟩
    · rintro (h' | h')
      · exact h'.2.symm
      · omega

/-- Either a step up to reading the log fails, and nothing is changed but that an empty log may have been created; or the constructor goes on. -/
theorem construct_cases (s : Proc) (a : Args) (e : Env) :
    (∃ x logs, construct s a e = ({ s with logs := logs }, ⟨false, .error x⟩) ∧ (logs = s.logs ∨ logs = touched s.logs a.path) ∧ x ≠ .version2 ∧
      ∀ n lf, ¬ Reads s a e n lf) ∨
    ∃ n lf, Reads s a e n lf ∧
      construct s a e = mirrored { s with logs := touched s.logs a.path } a e n ((s.logs a.path).getD []) lf := by
  unfold construct
  cases hp : parallel a.numParallel e with
  | error x =>
    refine .inl ⟨x, s.logs, rfl, .inl rfl, ?_, ?_⟩
    · intro h
      subst h
      unfold parallel at hp
      split at hp
      · split at hp
        · split at hp <;> cases hp
        · cases hp
      · cases hp
    · intro n lf h
      have := parallel_ok.2 h.slots
      rw [hp] at this
      cases this
  | ok n =>
    simp only
    split
    · rename_i h
      refine .inl ⟨_, s.logs, rfl, .inl rfl, by simp, fun n lf hr => ?_⟩
      simp [hr.lock.1, hr.lock.2] at h
    · rename_i hl
      split
      · rename_i h
        refine .inl ⟨_, s.logs, rfl, .inl rfl, by simp, fun n lf hr => ?_⟩
        simp [hr.machine.1] at h
      · rename_i ha
        split
        · rename_i h
          refine .inl ⟨_, s.logs, rfl, .inl rfl, by simp, fun n lf hr => ?_⟩
          simp [hr.machine.2.1, hr.machine.2.2.1, hr.machine.2.2.2.1] at h
        · rename_i hm
          split
          · rename_i h
            refine .inl ⟨_, _, rfl, .inr rfl, by simp, fun n lf hr => ?_⟩
            simp [hr.machine.2.2.2.2.1] at h
          · rename_i hrd
            cases ho : openBytes ((s.logs a.path).getD []) a.path.1 with
            | err x =>
              refine .inl ⟨_, _, rfl, .inr rfl, ?_, fun n lf hr => ?_⟩
              · unfold readExc
                split
                · simp
                · split <;> simp
                · simp
              · have := hr.log
                rw [ho] at this
                cases this
            | panic m =>
              refine .inl ⟨_, _, rfl, .inr rfl, by simp, fun n lf hr => ?_⟩
              have := hr.log
              rw [ho] at this
              cases this
            | ok lf =>
              simp only
              split
              · rename_i h
                refine .inl ⟨_, _, rfl, .inr rfl, by simp, fun n lf hr => ?_⟩
                simp [hr.machine.2.2.2.2.2] at h
              · rename_i hc
                refine .inr ⟨n, lf, ⟨parallel_ok.1 hp, ?_, ?_, ho⟩, rfl⟩
                · simpa using hl
                · simp at ha hm hrd hc
                  exact ⟨ha, hm.1.1, hm.1.2, hm.2, hrd, hc⟩

/-- The key chosen is the one `KeyOf` describes, and the callback is asked exactly if there is one and the log has no header. -/
theorem chooseKey_spec {n : Nat} {lf : LogFile} (hr : Reads s a e n lf) :
    ((chooseKey lf.mem a.newKeyFn).1 = true ↔ a.newKeyFn.isSome ∧ ∀ h, LogEntry.header h ∉ lf.entries) ∧
    (∀ key, (chooseKey lf.mem a.newKeyFn).2 = .ok key ↔ KeyOf lf a key) ∧
    (∀ x, (chooseKey lf.mem a.newKeyFn).2 = .error x → ∃ u, x = .user u ∧ a.newKeyFn = some (.error u)) := by
  obtain ⟨wk, hh⟩ := heads_of_open hr.log
  unfold chooseKey
  cases hm : lf.mem.header with
  | none =>
    have hw : lf.mem.workflowKey = none := by simp [LogMem.workflowKey, hm]
    have hn := hh.none hm
    simp only [hw]
    cases hf : a.newKeyFn with
    | none =>
      refine ⟨by simp, fun key => ?_, by simp⟩
      simp only [Except.ok.injEq, KeyOf, hf]
      constructor
      · intro h; exact .inr ⟨hn, .inr ⟨trivial, h.symm⟩⟩
      · rintro (⟨h, h1, _⟩ | ⟨_, h | h⟩)
        · exact absurd h1 (hn h)
        · cases h
        · exact h.2.symm
    | some r =>
      cases r with
      | ok k =>
        refine ⟨by simpa using hn, fun key => ?_, by simp⟩
        simp only [Except.ok.injEq, KeyOf, hf]
        constructor
        · intro h; exact .inr ⟨hn, .inl (by rw [h])⟩
        · rintro (⟨h, h1, _⟩ | ⟨_, h | h⟩)
          · exact absurd h1 (hn h)
          · cases h; rfl
          · cases h.1
      | error u =>
        refine ⟨by simpa using hn, fun key => ?_, fun x h => ⟨u, by simpa using h.symm, rfl⟩⟩
        simp only [reduceCtorEq, KeyOf, hf, false_iff]
        rintro (⟨h, h1, _⟩ | ⟨_, h | h⟩)
        · exact absurd h1 (hn h)
        · cases h
        · cases h.1
  | some h0 =>
    have hw : lf.mem.workflowKey = some h0.workflowKey := by simp [LogMem.workflowKey, hm]
    have hin := hh.some h0 hm
    simp only [hw]
    refine ⟨?_, fun key => ?_, by simp⟩
    · simp only [Bool.false_eq_true, false_iff]
      exact fun h => h.2 h0 hin
    · simp only [Except.ok.injEq, KeyOf]
      constructor
      · intro h; exact .inl ⟨h0, hin, h⟩
      · rintro (⟨h, h1, h2⟩ | ⟨h, _⟩)
        · have e1 := (hh.all h h1).2
          have e2 := (hh.all h0 hin).2
          rw [e1] at e2
          rw [← h2]
          exact (Option.some.inj e2).symm
        · exact absurd hin (h h0)

/-- The second check of the version (pylib.rs:86-92) never fails. -/
theorem version_checked {n : Nat} {lf : LogFile} (hr : Reads s a e n lf) :
    (lf.mem.header.map (fun h => decide (h.version ≠ logfileVersion))).getD false = false := by
  obtain ⟨wk, hh⟩ := heads_of_open hr.log
  cases hm : lf.mem.header with
  | none => rfl
  | some h =>
    have := (hh.all h (hh.some h hm)).1
    simp [this]

/-- The rest of the constructor, with the key known. -/
theorem finish_cases {n : Nat} {lf : LogFile} {t : Proc} {bs : List UInt8} (hr : Reads s a e n lf) :
    (∃ u, a.newKeyFn = some (.error u) ∧ (∀ h, LogEntry.header h ∉ lf.entries) ∧ finish t a e n bs lf = (t, ⟨true, .error (.user u)⟩)) ∨
    ∃ asked key, KeyOf lf a key ∧ (asked = true ↔ a.newKeyFn.isSome ∧ ∀ h, LogEntry.header h ∉ lf.entries) ∧
      ((e.cwd2 = false ∧ finish t a e n bs lf = (t, ⟨asked, .error .os⟩)) ∨
       (e.cwd2 = true ∧ ∃ m, e.header = some m ∧ finish t a e n bs lf =
          ({ t with logs := fun q => if q = a.path then some (bs ++ (lineBytes (headerOf a key)).take m) else t.logs q }, ⟨asked, .error .os⟩)) ∨
       (e.cwd2 = true ∧ e.header = none ∧ ∃ lf', lf.write (headerOf a key) = .ok lf' ∧ finish t a e n bs lf =
          ({ t with locked := fun d => d = a.path.1 || t.locked d },
            ⟨asked, .ok ⟨a.path, ExecGraph.new lf', n, failuresAllowed a.failuresAllowed, key, a.rerunFailures⟩⟩))) := by
  obtain ⟨h1, h2, h3⟩ := chooseKey_spec hr
  unfold finish
  generalize hck : chooseKey lf.mem a.newKeyFn = ck at h1 h2 h3
  obtain ⟨asked, k⟩ := ck
  cases k with
  | error y =>
    obtain ⟨u, rfl, hu⟩ := h3 y rfl
    have hno : ∀ h, LogEntry.header h ∉ lf.entries := by
      intro h hin
      obtain ⟨wk, hh⟩ := heads_of_open hr.log
      have hne : lf.mem.header ≠ none := fun hn => hh.none hn h hin
      cases hm : lf.mem.header with
      | none => exact hne hm
      | some h0 =>
        have hw : lf.mem.workflowKey = some h0.workflowKey := by simp [LogMem.workflowKey, hm]
        unfold chooseKey at hck
        rw [hw] at hck
        cases hck
    have : asked = true := h1.2 ⟨by simp [hu], hno⟩
    subst this
    exact .inl ⟨u, hu, hno, rfl⟩
  | ok key =>
    refine .inr ⟨asked, key, (h2 key).1 rfl, h1, ?_⟩
    simp only [hr.machine.1, Bool.not_true, Bool.false_eq_true, if_false]
    cases hc : e.cwd2 with
    | false => exact .inl ⟨rfl, rfl⟩
    | true =>
      simp only [Bool.not_true, Bool.false_eq_true, if_false]
      cases hh : e.header with
      | some m => exact .inr (.inl ⟨trivial, m, rfl, rfl⟩)
      | none =>
        exact .inr (.inr ⟨trivial, rfl, _, rfl, rfl⟩)

/-- The constructor from the mirror file on. -/
theorem mirrored_cases {n : Nat} {lf : LogFile} {t : Proc} {bs : List UInt8} (hr : Reads s a e n lf) :
    (t.poisoned = true ∧ mirrored t a e n bs lf = (t, ⟨false, .error .panic⟩)) ∨
    (t.poisoned = false ∧ e.mirrorOpens = false ∧ mirrored t a e n bs lf = ({ t with poisoned := true }, ⟨false, .error .panic⟩)) ∨
    (t.poisoned = false ∧ e.mirrorOpens = true ∧ mirrored t a e n bs lf = finish { t with mirror := some a.path.1 } a e n bs lf) := by
  unfold mirrored
  cases hp : t.poisoned with
  | true => exact .inl ⟨rfl, by simp⟩
  | false =>
    cases hm : e.mirrorOpens with
    | false => exact .inr (.inl ⟨rfl, rfl, by simp⟩)
    | true =>
      refine .inr (.inr ⟨rfl, rfl, ?_⟩)
      simp only [version_checked hr, Bool.not_true, Bool.false_eq_true, if_false]

end Verif.Construct
