import Verif.Proof.TrackerFacts
import Verif.Props.Log

/-!
# Every action only appends to the log
-/

namespace Verif
namespace Tracker

variable {c : Cfg} {s s' : State}

/-- `s'` has the log of `s` with something appended. -/
def Grows (s s' : State) : Prop := ∃ new, s'.lf.entries = s.lf.entries ++ new

theorem Grows.refl (s : State) : Grows s s := ⟨[], by simp⟩

theorem Grows.of_eq (h : s'.lf = s.lf) : Grows s s' := ⟨[], by simp [h]⟩

theorem Grows.trans {s1 s2 s3 : State} : Grows s1 s2 → Grows s2 s3 → Grows s1 s3 := by
  rintro ⟨a, ha⟩ ⟨b, hb⟩
  exact ⟨a ++ b, by rw [hb, ha, List.append_assoc]⟩

theorem Grows.from {s1 s2 s3 : State} (h : Grows s2 s3) (e : s2.lf = s1.lf) : Grows s1 s3 :=
  Grows.trans (.of_eq e) h

theorem Grows.writeLog {e : LogEntry} (h : writeLog s e = .ok s') : Grows s s' := by
  obtain ⟨lf, h1, rfl⟩ := writeLog_ok.1 h
  obtain ⟨m, _, rfl⟩ := LogFile.write_ok.1 h1
  exact ⟨[e], rfl⟩

theorem Grows.addReady {t : SysTime} {vs : List Nat} {fin : Option Fin} (h : addReady c t s vs fin = .ok s') : Grows s s' := by
  obtain ⟨_, _, _, _, rfl⟩ := addReady_ok h
  exact ⟨_, rfl⟩

theorem Grows.finishHalf {t : SysTime} {e : Fin} (h : finishHalf c t s e = .ok s') : Grows s s' := by
  obtain ⟨lf, hw, h1, h2⟩ := finishHalf_ok h
  have he := (Props.Log.writeAll_entries _ _ _ hw).1
  have : s'.lf = lf := by
    by_cases hx : (finLogged c s e lf).nRoi = 0 ∨ (finLogged c s e lf).soft = true ∧ (finLogged c s e lf).inflight = []
    · rw [h1 hx, finLogged_eq]; rfl
    · rw [h2 hx, finLogged_eq]
  exact ⟨_, by rw [this, he]⟩

theorem Grows.book1 {g : DiGraph Cmd} {e : Fin} (h : book1 g s e = .ok s') : Grows s s' := by
  obtain ⟨_, sn, _, _, rfl⟩ := book1_ok h
  exact .of_eq rfl

theorem Grows.handleFinished {t : SysTime} {order : List Nat} {e : Fin} (h : handleFinished c t order s e = .ok s') :
    Grows s s' := by
  obtain ⟨sn, um, po, _, h | ⟨vs, _, _, h⟩⟩ := handleFinished_cases h
  · exact (Grows.finishHalf h).from rfl
  · exact (Grows.addReady h).from rfl

theorem Grows.drainLoop {t : SysTime} : ∀ {es : List Event} {infl : List (Nat × Int)} {s : State}
    {r : State × List (Nat × Int)}, drainLoop c t es infl s = .ok r → Grows s r.1 := by
  intro es
  induction es with
  | nil =>
    intro infl s r h
    simp only [Tracker.drainLoop, Res.ok.injEq] at h
    subst h
    exact .of_eq rfl
  | cons ev es ih =>
    intro infl s r h
    cases ev with
    | started id ho p j =>
      simp only [Tracker.drainLoop] at h
      obtain ⟨s1, h1, h⟩ := Res.bind_ok.1 h
      split at h
      · cases h
      · exact (Grows.trans (s2 := { s with chan := es }) (.of_eq rfl) (Grows.writeLog h1)).trans (ih h)
    | finished e =>
      simp only [Tracker.drainLoop] at h
      obtain ⟨s1, h1, h⟩ := Res.bind_ok.1 h
      obtain ⟨s2, h2, h⟩ := Res.bind_ok.1 h
      obtain ⟨s3, h3, h⟩ := Res.bind_ok.1 h
      have k2 : Grows s1 s2 := by
        split at h2
        · simp only [Res.ok.injEq] at h2; subst h2; exact .refl _
        · exact .writeLog h2
      have k0 : Grows s { s with chan := es } := .of_eq rfl
      have k3 : Grows s3 { s3 with drained := s3.drained ++ [(e.id, e.status)] } := .of_eq rfl
      exact (((k0.trans (.book1 h1)).trans k2).trans (.writeLog h3)).trans (k3.trans (ih h))

theorem Grows.drainRest {t : SysTime} : ∀ {vs : List Nat} {s s' : State}, drainRest c t vs s = .ok s' → Grows s s' := by
  intro vs
  induction vs with
  | nil => intro s s' h; simp only [Tracker.drainRest, Res.ok.injEq] at h; subst h; exact .refl _
  | cons v vs ih =>
    intro s s' h
    simp only [Tracker.drainRest] at h
    obtain ⟨s1, h1, h⟩ := Res.bind_ok.1 h
    obtain ⟨s2, h2, h⟩ := Res.bind_ok.1 h
    exact ((Grows.book1 h1).trans (Grows.writeLog h2)).trans ((ih h).from rfl)

theorem Grows.drain {t : SysTime} {order : List Nat} (h : drain c t order s = .ok s') : Grows s s' := by
  unfold Tracker.drain at h
  obtain ⟨r, h1, h⟩ := Res.bind_ok.1 h
  split at h
  · cases h
  · obtain ⟨s1, h2, h⟩ := Res.bind_ok.1 h
    simp only [Res.ok.injEq] at h
    subst h
    exact ((Grows.drainLoop h1).trans ((Grows.drainRest h2).from rfl)).trans (.of_eq rfl)

theorem step_entries {a : Act} (hs : step c s a = .ok s') : Grows s s' := by
  cases a with
  | begin order t =>
    simp only [step] at hs
    split at hs
    · cases hs
    · split at hs
      · cases hs
      · split at hs
        · simp only [Res.ok.injEq] at hs; subst hs; exact .of_eq rfl
        · exact (Grows.addReady hs).from rfl
  | sendDone t =>
    simp only [step] at hs
    split at hs
    · split at hs
      · simp only [Res.ok.injEq] at hs; subst hs; exact .of_eq rfl
      · exact (Grows.finishHalf hs).from rfl
    · cases hs
  | recvStarted t =>
    simp only [step] at hs
    split at hs
    · cases hs
    · split at hs
      · obtain ⟨s1, h1, h2⟩ := Res.bind_ok.1 hs
        split at h2
        · cases h2
        · simp only [Res.ok.injEq] at h2; subst h2
          exact ((Grows.writeLog h1).from rfl).trans (.of_eq rfl)
      · cases hs
  | recvFinished order t =>
    simp only [step] at hs
    split at hs
    · cases hs
    · split at hs
      · exact (Grows.handleFinished hs).from rfl
      · cases hs
  | drain order t =>
    simp only [step] at hs
    split at hs
    · cases hs
    · exact .drain hs
  | _ =>
    simp only [step, leaveLoop, zeroReady] at hs
    repeat' split at hs
    all_goals first
      | (simp only [Res.ok.injEq] at hs; subst hs; exact .of_eq rfl)
      | cases hs

end Tracker
end Verif
