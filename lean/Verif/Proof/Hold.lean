import Verif.Spec.Hold
import Verif.Proof.Standstill
import Verif.Proof.Greedy2
import Verif.Proof.SentAway

/-!
# How long a request for a task is held (proof)
-/

namespace Verif.Tracker
open Verif

variable {c : Cfg} {s s' : State}

theorem writeLog_now {e : LogEntry} (h : writeLog s e = .ok s') : s'.now = s.now := by
  unfold writeLog at h
  split at h <;> cases h
  rfl

theorem readyAll_now {g : DiGraph Cmd} {t : SysTime} : ∀ {vs : List Nat} {s s' : State}, readyAll g t s vs = .ok s' → s'.now = s.now := by
  intro vs
  induction vs with
  | nil => intro s s' h; cases h; rfl
  | cons v vs ih =>
    intro s s' h
    obtain ⟨s1, h1, h2⟩ := Res.bind_ok.1 h
    rw [ih h2]
    simp only [readyOne] at h1
    split at h1
    · cases h1
    · split at h1
      · cases h1
      · obtain ⟨s2, h3, h4⟩ := Res.bind_ok.1 h1
        cases h4
        have := writeLog_now h3
        exact this

theorem addReady_now {t : SysTime} {vs : List Nat} {fin : Option Fin} (h : addReady c t s vs fin = .ok s') : s'.now = s.now := by
  unfold addReady at h
  split at h
  · cases h
  · split at h
    · cases h
    · obtain ⟨s1, h1, h2⟩ := Res.bind_ok.1 h
      split at h2
      · cases h2
      · cases h2
        have := readyAll_now h1
        exact this

theorem book1_now {g : DiGraph Cmd} {e : Fin} (h : book1 g s e = .ok s') : s'.now = s.now := by
  unfold book1 at h
  repeat' split at h
  all_goals first
    | (cases h; done)
    | (cases h; rfl)

theorem finishHalf_now {t : SysTime} {e : Fin} (h : finishHalf c t s e = .ok s') : s'.now = s.now := by
  unfold finishHalf at h
  obtain ⟨s1, h1, h⟩ := Res.bind_ok.1 h
  obtain ⟨s2, h2, h⟩ := Res.bind_ok.1 h
  have e1 : s1.now = s.now := by
    split at h1
    · cases h1; rfl
    · have := writeLog_now h1
      exact this
  have e2 := writeLog_now h2
  rw [← e1, ← e2]
  dsimp only at h
  split at h <;> split at h <;> cases h <;> rfl

/-- Only the clock makes time go by. -/
theorem step_now {a : Act} (hs : step c s a = .ok s') : s'.now = s.now + (match a with | .tick d => (d : Int) | _ => 0) := by
  cases a with
  | tick d => cases hs; rfl
  | begin order t =>
    simp only [step] at hs
    repeat' split at hs
    all_goals first
      | (cases hs; done)
      | (cases hs; simp; done)
      | (simpa using addReady_now hs)
  | sendDone t =>
    simp only [step] at hs
    repeat' split at hs
    all_goals first
      | (cases hs; done)
      | (cases hs; simp; done)
      | (simpa using finishHalf_now hs)
  | recvStarted t =>
    simp only [step] at hs
    split at hs
    · cases hs
    · split at hs
      · obtain ⟨s1, h1, h2⟩ := Res.bind_ok.1 hs
        have := writeLog_now h1
        split at h2
        · cases h2
        · cases h2; simpa using this
      · cases hs
  | recvFinished order t =>
    simp only [step] at hs
    split at hs
    · cases hs
    · split at hs
      · obtain ⟨s1, h1, h2⟩ := Res.bind_ok.1 hs
        have := book1_now h1
        repeat' split at h2
        all_goals first
          | (cases h2; done)
          | (simpa [this] using finishHalf_now h2)
          | skip
        obtain ⟨r, _, h4⟩ := Res.bind_ok.1 h2
        split at h4
        · simpa [this] using finishHalf_now h4
        · simpa [this] using addReady_now h4
      · cases hs
  | drain order t =>
    simp only [step] at hs
    split at hs
    · cases hs
    · simpa using (Kept.drain hs).1.now
  | _ =>
    simp only [step] at hs
    repeat' split at hs
    all_goals first
      | (cases hs; done)
      | (cases hs; simp [leaveLoop, zeroReady])

end Verif.Tracker

namespace Verif.Sys
open Verif Verif.Tracker

variable {c : Cfg} {s s' : State} {lf : LogFile} {now : Int}

theorem takeRequest_now {r : Request} (hs : takeRequest c s r = .ok s') : s'.tr.now = s.tr.now := by
  unfold takeRequest at hs
  repeat' split at hs
  all_goals first
    | (cases hs; done)
    | (cases hs; rfl)
    | skip
  · cases hs; unfold startH; repeat' split
    all_goals rfl
  · unfold begunH at hs
    repeat' split at hs
    all_goals first
      | (cases hs; done)
      | (cases hs; rfl)
      | skip
    obtain ⟨t, ht, rfl⟩ := trk_ok.1 hs
    simpa [reply] using Tracker.step_now ht
  · cases hs; unfold endH; repeat' split
    all_goals rfl
  · unfold pingH at hs
    split at hs
    · cases hs; rfl
    · obtain ⟨_, _, h⟩ := Res.bind_ok.1 hs
      cases h; rfl

/-- Only the clock makes time go by. -/
theorem step_now {a : Act} (hs : step c s a = .ok s') : s'.tr.now = s.tr.now + ticks a := by
  cases a with
  | server b =>
    simp only [step] at hs
    split at hs
    · obtain ⟨t, ht, rfl⟩ := trk_ok.1 hs
      have := Tracker.step_now ht
      cases b <;> simpa [ticks] using this
    · cases hs
  | request r =>
    simp only [step] at hs
    split at hs
    · cases hs
    · simpa [ticks] using takeRequest_now hs
  | hTimer h txn =>
    simp only [step] at hs
    repeat' split at hs
    all_goals first
      | (cases hs; done)
      | skip
    obtain ⟨_, _, h⟩ := Res.bind_ok.1 hs
    cases h; simp [ticks, setH]
  | _ =>
    simp only [step] at hs
    repeat' split at hs
    all_goals first
      | (cases hs; done)
      | (cases hs; simp [ticks, setLoop, setH]; done)
      | (cases hs; simp [ticks, setLoop, setH]; split <;> rfl)
      | (obtain ⟨t, ht, rfl⟩ := trk_ok.1 hs
         simpa [ticks, setLoop, setH] using Tracker.step_now ht)

variable (hg : Good c.tr) (hdisp : Displayable c.tr)
include hg hdisp

/-- When execgraph has nothing left to do, every request is answered or held. -/
theorem rest_answered {as : List Act} (hr : Runs c (init c lf now) as s) (hrest : AtRest c s) {i : Nat} {x : Handler}
    (hi : s.handlers[i]? = some x) : Hold.isHeld x = true ∨ Hold.answered x = true := by
  have hso := Sound.of_runs hg hr
  have serve : ¬ (s.tr.pc = .new ∨ (∃ todo fin, s.tr.pc = .sending todo fin) ∨ (s.tr.pc = .idle ∧ s.tr.chan ≠ []) ∨ s.tr.pc = .joined) := by
    intro hx
    obtain ⟨a, t, ha, ht, h1, h2, h3, h4⟩ := can_serve hg hdisp hso.inv.reach hx
    exact hrest.no (canDo_server ha ht h1 h2 h3 h4)
  cases hl : live s.tr with
  | false =>
    right
    have hp : s.tr.pc = .joined ∨ s.tr.pc = .done := by
      simp only [live, Bool.and_eq_false_iff, bne_eq_false_iff_eq] at hl
      exact hl
    have := List.all_eq_true.1 (quit_when_joined hg hr hp).2.1 x (List.mem_of_getElem? hi)
    cases x <;> first | rfl | cases this
  | true =>
    have hno : onTheWay x = false := by
      cases ho : onTheWay x with
      | false => rfl
      | true => exact absurd (handler_does hso hl hi ho) hrest.no
    cases x with
    | waiting f rt j =>
      exfalso
      have : f ∈ s.tr.flagsSet ∨ s.tr.token = some .hard := by
        cases hp : s.tr.pc with
        | new => exact absurd (.inl hp) serve
        | sending todo fin => exact absurd (.inr (.inl ⟨_, _, hp⟩)) serve
        | joined => exact absurd (.inr (.inr (.inr hp))) serve
        | done => simp [live, hp] at hl
        | joining => exact .inr (((rinv_init lf now).run (hr.toInit hg)).hard (.inl hp))
        | idle =>
          have hch : s.tr.chan = [] := by
            by_contra hch
            exact serve (.inr (.inr (.inl ⟨hp, hch⟩)))
          obtain ⟨e, h1, h2⟩ := flags_sent hg hr i f rt j hi
          rcases Props.Tracker.reports_acknowledged (hr.toInit hg) h1 h2 with h3 | h3 | h3
          · rcases h3 with ⟨e, h3, _⟩ | ⟨todo, e, h3, _⟩
            · rw [hch] at h3; cases h3
            · rw [hp] at h3; cases h3
          · exact .inl h3
          · rw [hp] at h3; cases h3.1
      refine hrest ⟨.hFlag i, setH i (.toRecv rt j) s, rfl, rfl, ?_⟩
      simp only [step, hi]
      rw [if_pos this]
    | toRecv => exact .inl rfl
    | inRecv => exact .inl rfl
    | done => exact .inr rfl
    | dead => exact .inr rfl
    | _ => cases hno

end Verif.Sys

namespace Verif.Hold
open Verif Verif.Tracker Verif.Sys

variable {c : Sys.Cfg} {s s' : State} {lf : LogFile} {now : Int}

theorem step_ok {a : Sys.Act} : step c s a = .ok s' ↔
    due s a = true ∧ Sys.step c s.sys a = .ok s'.sys ∧ s'.came = (stamp s a).1 ∧ s'.held = (stamp s a).2 := by
  unfold step
  constructor
  · intro h
    split at h
    · rename_i hd
      obtain ⟨y, h1, h2⟩ := Res.bind_ok.1 h
      cases h2
      exact ⟨hd, h1, rfl, rfl⟩
    · cases h
  · rintro ⟨h1, h2, h3, h4⟩
    rw [if_pos h1, h2]
    obtain ⟨y, ca, he⟩ := s'
    simp only at h3 h4
    subst h3 h4
    rfl

theorem Runs.snoc {a : Sys.Act} {as : List Sys.Act} {s1 : State} (hr : Runs c s as s1) (hp : polite c s1.sys a = true)
    (hs : step c s1 a = .ok s') : Runs c s (as ++ [a]) s' := by
  induction hr with
  | nil => exact .cons hp hs (.nil _)
  | cons hp' hs' _ ih => exact .cons hp' hs' (ih hp hs)

theorem Timely.snoc {a : Sys.Act} {as : List Sys.Act} {s1 : State} (hr : Timely c s as s1) (hp : polite c s1.sys a = true)
    (ht : Prompt c s1 a) (hs : step c s1 a = .ok s') : Timely c s (as ++ [a]) s' := by
  induction hr with
  | nil => exact .cons hp ht hs (.nil _)
  | cons hp' ht' hs' _ ih => exact .cons hp' ht' hs' (ih hp ht hs)

theorem Runs.snocInd {s0 : State} {P : List Sys.Act → State → Prop} (h0 : P [] s0)
    (h1 : ∀ as s a s', Runs c s0 as s → P as s → polite c s.sys a = true → step c s a = .ok s' → P (as ++ [a]) s')
    {as : List Sys.Act} {s : State} (hr : Runs c s0 as s) : P as s := by
  have gen : ∀ {bs : List Sys.Act} {s1 s : State}, Runs c s1 bs s → ∀ as, Runs c s0 as s1 → P as s1 → P (as ++ bs) s := by
    intro bs s1 s h
    induction h with
    | nil => intro as _ hp; simpa using hp
    | @cons s s2 s' a bs hp hs _ ih =>
      intro as hr hP
      simpa using ih (as ++ [a]) (hr.snoc hp hs) (h1 as s a s2 hr hP hp hs)
  simpa using gen hr [] (.nil _) h0

theorem Timely.snocInd {s0 : State} {P : List Sys.Act → State → Prop} (h0 : P [] s0)
    (h1 : ∀ as s a s', Timely c s0 as s → P as s → polite c s.sys a = true → Prompt c s a → step c s a = .ok s' → P (as ++ [a]) s')
    {as : List Sys.Act} {s : State} (hr : Timely c s0 as s) : P as s := by
  have gen : ∀ {bs : List Sys.Act} {s1 s : State}, Timely c s1 bs s → ∀ as, Timely c s0 as s1 → P as s1 → P (as ++ bs) s := by
    intro bs s1 s h
    induction h with
    | nil => intro as _ hp; simpa using hp
    | @cons s s2 s' a bs hp ht hs _ ih =>
      intro as hr hP
      simpa using ih (as ++ [a]) (hr.snoc hp ht hs) (h1 as s a s2 hr hP hp ht hs)
  simpa using gen hr [] (.nil _) h0

theorem Timely.runs {as : List Sys.Act} (h : Timely c s as s') : Runs c s as s' := by
  induction h with
  | nil => exact .nil _
  | cons hp _ hs _ ih => exact .cons hp hs ih

theorem Runs.sys {as : List Sys.Act} (h : Runs c s as s') : Sys.Runs c s.sys as s'.sys := by
  induction h with
  | nil => exact .nil _
  | cons hp hs _ ih => exact .cons hp (step_ok.1 hs).2.1 ih

/-- The times: one for each request, not in the future, and a request is held after it came. -/
structure Times (s : State) : Prop where
  came : s.came.length = s.sys.handlers.length
  held : s.held.length = s.sys.handlers.length
  le : ∀ (h : Nat) (t u : Int), s.came[h]? = some t → s.held[h]? = some u → t ≤ u ∧ u ≤ s.sys.tr.now

theorem handlers_length {a : Sys.Act} {x y : Sys.State} (hs : Sys.step c x a = .ok y) :
    y.handlers.length = x.handlers.length + (match a with | .request _ => 1 | _ => 0) := by
  cases a with
  | request r =>
    simp only [Sys.step] at hs
    split at hs
    · cases hs
    · obtain ⟨z, h1, _⟩ := takeRequest_handlers hs
      simp [h1]
  | _ =>
    rcases step_handlers hs with h | ⟨r, z, h, _⟩ | ⟨i, z, z', _, h, _⟩
    · simp [h]
    · cases h
    · simp [h]

theorem Times.step {a : Sys.Act} (h : Times s) (hs : step c s a = .ok s') : Times s' := by
  obtain ⟨hd, h1, h2, h3⟩ := step_ok.1 hs
  have hlen := handlers_length h1
  have hnow := Sys.step_now h1
  obtain ⟨k1, k2, k3⟩ := h
  have same : s'.came = s.came → s'.held = s.held → s'.sys.handlers.length = s.sys.handlers.length → Times s' := by
    intro e1 e2 e3
    refine ⟨by rw [e1, e3, k1], by rw [e2, e3, k2], ?_⟩
    intro i t u ht hu
    rw [e1] at ht; rw [e2] at hu
    have := k3 i t u ht hu
    omega
  cases a with
  | request r =>
    simp only [stamp] at h2 h3
    refine ⟨by simp [h2, hlen, k1], by simp [h3, hlen, k2], ?_⟩
    intro i t u ht hu
    rw [h2] at ht; rw [h3] at hu
    by_cases hi : i < s.sys.handlers.length
    · rw [List.getElem?_append_left (by omega)] at ht hu
      have := k3 i t u ht hu
      omega
    · rw [List.getElem?_append_right (by omega)] at ht hu
      have e1 := List.mem_of_getElem? ht
      have e2 := List.mem_of_getElem? hu
      simp only [List.mem_singleton] at e1 e2
      omega
  | hFlag i =>
    simp only [stamp] at h2 h3
    refine ⟨by simp [h2, hlen, k1], by simp [h3, hlen, k2], ?_⟩
    intro j t u ht hu
    rw [h2] at ht; rw [h3] at hu
    by_cases hi : i = j
    · subst hi
      have hlt : i < s.held.length := by
        have := (List.getElem?_eq_some_iff.1 ht).1
        omega
      rw [List.getElem?_set_self hlt] at hu
      cases hu
      obtain ⟨w, hw⟩ : ∃ w, s.held[i]? = some w := ⟨_, List.getElem?_eq_getElem hlt⟩
      have := k3 i t w ht hw
      omega
    · rw [List.getElem?_set_ne hi] at hu
      have := k3 j t u ht hu
      omega
  | _ => exact same h2 h3 (by simpa using hlen)

theorem Times.runs {as : List Sys.Act} (hr : Runs c (init c lf now) as s) : Times s := by
  refine Runs.snocInd (P := fun _ s => Times s) ?_ (fun _ _ _ _ _ h _ hs => h.step hs) hr
  refine ⟨by simp [init, Sys.init], by simp [init, Sys.init], by simp [init]⟩

/-- Is it a `/end` that is still being worked on? -/
def early : Handler → Bool
  | .ending _ _ _ _ | .reporting _ _ _ _ | .waiting _ _ _ => true
  | _ => false

/-- What holds in a timely run: a request that is not answered came at most the holding time ago, and was held from the start. -/
def Fast (s : State) : Prop :=
  ∀ (h : Nat) (x : Handler), s.sys.handlers[h]? = some x → answered x = false →
    ∃ t, s.came[h]? = some t ∧ s.sys.tr.now ≤ t + hold ∧ (isHeld x = true → s.held[h]? = some t) ∧ (early x = true → t = s.sys.tr.now)

theorem Fast.step (hg : Good c.tr) (hdisp : Displayable c.tr) {as : List Sys.Act} (hr : Runs c (init c lf now) as s) (h : Fast s) {a : Sys.Act}
    (hp : Prompt c s a) (hs : step c s a = .ok s') : Fast s' := by
  have ht := Times.runs hr
  obtain ⟨hd, h1, h2, h3⟩ := step_ok.1 hs
  have hnow := Sys.step_now h1
  rcases Nat.eq_zero_or_pos (ticks a) with h0 | h0
  · have hnow : s'.sys.tr.now = s.sys.tr.now := by rw [hnow, h0]; simp
    unfold Fast
    rw [hnow]
    cases a with
    | request r =>
      simp only [stamp] at h2 h3
      simp only [Sys.step] at h1
      split at h1
      · cases h1
      · obtain ⟨z, k1, k2⟩ := takeRequest_handlers h1
        intro i x hx hu
        rw [k1] at hx
        by_cases hi : i < s.sys.handlers.length
        · rw [List.getElem?_append_left hi] at hx
          obtain ⟨t, e1, e2, e3, e4⟩ := h i x hx hu
          refine ⟨t, ?_, e2, fun hh => ?_, e4⟩
          · rw [h2, List.getElem?_append_left (by rw [ht.came]; exact hi)]; exact e1
          · rw [h3, List.getElem?_append_left (by rw [ht.held]; exact hi)]; exact e3 hh
        · have hlt := (List.getElem?_eq_some_iff.1 hx).1
          simp only [List.length_append, List.length_singleton] at hlt
          have hi : i = s.sys.handlers.length := by omega
          refine ⟨s.sys.tr.now, ?_, by unfold hold; omega, fun _ => ?_, fun _ => rfl⟩
          · rw [h2, hi, ← ht.came]; simp
          · rw [h3, hi, ← ht.held]; simp
    | hFlag j =>
      simp only [stamp] at h2 h3
      simp only [Sys.step] at h1
      split at h1
      · rename_i f rt job hj
        split at h1
        · simp only [Res.ok.injEq] at h1
          intro i x hx hu
          rw [← h1] at hx
          simp only [setH] at hx
          by_cases hi : j = i
          · subst hi
            obtain ⟨t, e1, e2, e3, e4⟩ := h j _ hj rfl
            have e4 := e4 rfl
            subst e4
            have hlt := (List.getElem?_eq_some_iff.1 hj).1
            rw [List.getElem?_set_self hlt] at hx
            cases hx
            refine ⟨_, by rw [h2]; exact e1, e2, fun _ => ?_, fun hh => by cases hh⟩
            rw [h3, List.getElem?_set_self (by rw [ht.held]; exact hlt)]
          · rw [List.getElem?_set_ne hi] at hx
            obtain ⟨t, e1, e2, e3, e4⟩ := h i x hx hu
            refine ⟨t, by rw [h2]; exact e1, e2, fun hh => ?_, e4⟩
            rw [h3, List.getElem?_set_ne hi]; exact e3 hh
        · cases h1
      · cases h1
    | _ =>
      have e1 : s'.came = s.came := h2
      have e2 : s'.held = s.held := h3
      rw [e1, e2]
      rcases step_handlers h1 with e | ⟨_, _, e, _⟩ | ⟨j, z, z', k1, k2, k3⟩
      · rw [e]; exact h
      · cases e
      · rw [k2]
        intro i x hx hu
        by_cases hi : j = i
        · subst hi
          rw [List.getElem?_set_self (List.getElem?_eq_some_iff.1 k1).1] at hx
          cases hx
          cases k3 <;> first
            | (cases hu; done)
            | (obtain ⟨t, f1, f2, f3, f4⟩ := h _ _ k1 rfl
               exact ⟨t, f1, f2, fun hh => f3 (by first | exact hh | rfl | (cases hh; done)), fun hh => f4 (by first | exact hh | rfl | (cases hh; done))⟩)
        · rw [List.getElem?_set_ne hi] at hx
          exact h i x hx hu
  · obtain ⟨hrest, hlim⟩ := hp h0
    obtain ⟨d, rfl, e⟩ := tick_step h0 h1
    intro i x hx hu
    have hx' : s.sys.handlers[i]? = some x := by rw [e] at hx; exact hx
    have hheld : isHeld x = true := (rest_answered hg hdisp hr.sys hrest hx').resolve_right (by rw [hu]; simp)
    obtain ⟨t, e1, e2, e3, e4⟩ := h i x hx' hu
    have := hlim i x t hx' hheld (e3 hheld)
    refine ⟨t, by rw [h2]; exact e1, by rw [hnow]; exact this, fun _ => by rw [h3]; exact e3 hheld, fun hh => ?_⟩
    cases x <;> first | (cases hheld; done) | (cases hh; done)

theorem Fast.runs (hg : Good c.tr) (hdisp : Displayable c.tr) {as : List Sys.Act} (hr : Timely c (init c lf now) as s) : Fast s := by
  refine Timely.snocInd (P := fun _ s => Fast s) ?_ (fun _ _ _ _ hr h _ hp hs => h.step hg hdisp hr.runs hp hs) hr
  intro i x hx
  simp [init, Sys.init] at hx

end Verif.Hold
