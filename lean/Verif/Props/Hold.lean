import Verif.Proof.Hold
import Verif.Proof.Rest
import Verif.Props.SentAway
import Verif.Props.Greedy

/-!
# How long a request for a task is held (C178)

`Runs c (init c lf now) as s`: some schedule `as` of an `execute` call leads to state `s`; `s.came[h]?` is when its `h`-th request
came, times in nanoseconds. `Timely`: what execgraph does by itself takes no time, and its timers go off in time.
-/

namespace Verif.Props.Hold
open Verif Verif.Tracker Verif.Sys Verif.Hold
open Verif.Props.Tracker (t0)
open Verif.Props.System (remote2 remote2_good serve handOut req)

variable {c : Sys.Cfg} {lf : LogFile} {now : Int} {s s' : Hold.State}

/-! ### concrete case -/

/-- Decidable form of `Timely`. -/
def timely (c : Sys.Cfg) : Hold.State → List Sys.Act → (Hold.State → Bool) → Bool
  | s, [], p => p s
  | s, a :: as, p =>
    polite c s.sys a && (ticks a == 0 || (still s.sys && (List.range s.sys.handlers.length).all (fun h =>
      match s.sys.handlers[h]?, s.held[h]? with
      | some x, some t => !isHeld x || decide (s.sys.tr.now + ticks a ≤ t + hold)
      | _, _ => true))) &&
    match Hold.step c s a with | .ok s' => timely c s' as p | _ => false

theorem timely_of : ∀ {as : List Sys.Act} {s : Hold.State} {p : Hold.State → Bool}, timely c s as p = true → ∃ s', Timely c s as s' ∧ p s' = true := by
  intro as
  induction as with
  | nil => intro s p h; exact ⟨s, .nil _, h⟩
  | cons a as ih =>
    intro s p h
    simp only [timely, Bool.and_eq_true, Bool.or_eq_true, beq_iff_eq] at h
    obtain ⟨⟨h1, h2⟩, h3⟩ := h
    cases hs : Hold.step c s a with
    | ok s1 =>
      rw [hs] at h3
      obtain ⟨s', hr, hp⟩ := ih h3
      refine ⟨s', .cons h1 (fun h0 => ?_) hs hr, hp⟩
      obtain ⟨hst, hall⟩ := h2.resolve_left (by omega)
      refine ⟨atRest_of_still hst, fun h x t hx hh ht => ?_⟩
      have := List.all_eq_true.1 hall h (List.mem_range.2 (List.getElem?_eq_some_iff.1 hx).1)
      simpa [hx, ht, hh] using this
    | _ => rw [hs] at h3; cases h3

/-- Two runners have the tasks. A third asks, and a fourth five seconds later, which has to wait for the rate limiter. -/
def ask : List Sys.Act :=
  serve ++ handOut 0 0 5 "j" ++ handOut 1 0 6 "k" ++
    [req "l" (.start 0), .hRecv 2, .server (.tick 5000000000), req "m" (.start 0), .server (.tick 25000000000)]

theorem remote2_displayable : Displayable remote2.tr := by
  intro cmd h; revert cmd; decide

/-! ### C178 -/

/-- **C178 (not before).** In every schedule, a request is told that there is nothing to do (429) only when at least 30 seconds have
gone by since it came. -/
theorem held_for_30s {as : List Sys.Act} (hr : Hold.Runs c (Hold.init c lf now) as s) {a : Sys.Act} (hs : Hold.step c s a = .ok s') {h : Nat}
    (h0 : s.sys.handlers[h]? ≠ some (.done (some .tooMany))) (h1 : s'.sys.handlers[h]? = some (.done (some .tooMany))) :
    ∃ t, s.came[h]? = some t ∧ t + 30000000000 ≤ s.sys.tr.now := by
  obtain ⟨hd, h2, _, _⟩ := step_ok.1 hs
  have ht := Times.runs hr
  obtain ⟨k, rfl⟩ : ∃ k, a = .hLeave h k true := by
    obtain ⟨k, _, _, e, _⟩ := Props.System.tooMany_means h2 h0 h1
    exact ⟨k, e⟩
  simp only [due] at hd
  split at hd
  · rename_i u hu
    have hlt := (List.getElem?_eq_some_iff.1 hu).1
    have hc : s.came[h]? = some (s.came[h]'(by rw [ht.came, ← ht.held]; exact hlt)) := List.getElem?_eq_getElem _
    have := (ht.le h _ u hc hu).1
    have hd : u + hold ≤ s.sys.tr.now := by simpa using hd
    refine ⟨_, hc, ?_⟩
    unfold hold at hd
    omega
  · cases hd

/-- **C178 (not after).** If what execgraph does by itself takes no time and its timers go off in time: a request that is not yet
answered came at most 30 seconds ago. This includes the time a `/end` that asks for a further task waits until the end is processed. -/
theorem answered_in_time (hg : Good c.tr) (hdisp : Displayable c.tr) {as : List Sys.Act} (hr : Timely c (Hold.init c lf now) as s) {h : Nat}
    {x : Handler} (hx : s.sys.handlers[h]? = some x) (hu : answered x = false) :
    ∃ t, s.came[h]? = some t ∧ s.sys.tr.now ≤ t + 30000000000 := by
  obtain ⟨t, h1, h2, _⟩ := Fast.runs hg hdisp hr h x hx hu
  exact ⟨t, h1, h2⟩

/-- **C178 (nothing else waits).** Only the answer "nothing to do" is held back: everything else that can happen in the model without clocks can happen at once. -/
theorem nothing_else_waits {a : Sys.Act} (ha : ∀ h k, a ≠ .hLeave h k true) :
    (∃ s', Hold.step c s a = .ok s') ↔ ∃ y, Sys.step c s.sys a = .ok y := by
  have hd : due s a = true := by
    unfold due
    split
    · rename_i h k
      exact absurd rfl (ha h k)
    · rfl
  constructor
  · rintro ⟨s', h⟩
    exact ⟨_, (step_ok.1 h).2.1⟩
  · rintro ⟨y, h⟩
    unfold Hold.step
    rw [if_pos hd, h]
    exact ⟨_, rfl⟩

/-- **C178 (the runner does not give up first).** Under the same assumptions no request is unanswered when the HTTP client of
`execgraph-remote` gives up: a task that is handed out is not lost on a runner that has stopped waiting. -/
theorem client_does_not_give_up (hg : Good c.tr) (hdisp : Displayable c.tr) {as : List Sys.Act} (hr : Timely c (Hold.init c lf now) as s) {h : Nat}
    {x : Handler} (hx : s.sys.handlers[h]? = some x) {t : Int} (ht : s.came[h]? = some t) (hp : t + patience ≤ s.sys.tr.now) :
    answered x = true := by
  cases hu : answered x with
  | true => rfl
  | false =>
    obtain ⟨u, h1, h2⟩ := answered_in_time hg hdisp hr hx hu
    rw [ht] at h1
    cases h1
    unfold patience hold at hp
    omega

/-- **C178 (the timer can go off).** In every schedule, when execgraph has nothing else to do: a request that has been held for 30
seconds can be answered. So the assumption that timers go off in time can be met. -/
theorem timeout_can_happen (hg : Good c.tr) (hdisp : Displayable c.tr) {as : List Sys.Act} (hr : Hold.Runs c (Hold.init c lf now) as s)
    (hrest : AtRest c s.sys) {h : Nat} {x : Handler} (hx : s.sys.handlers[h]? = some x) (hh : isHeld x = true) {t : Int}
    (ht : s.held[h]? = some t) (hd : t + 30000000000 ≤ s.sys.tr.now) :
    ∃ k s', Hold.step c s (.hLeave h k true) = .ok s' ∧ s'.sys.handlers[h]? = some (.done (some .tooMany)) := by
  have hso := Sound.of_runs hg hr.sys
  have hlt := (List.getElem?_eq_some_iff.1 hx).1
  have hdue : ∀ k, due s (.hLeave h k true) = true := by
    intro k
    simp only [due, ht]
    exact decide_eq_true hd
  cases x with
  | toRecv rt j =>
    refine ⟨0, ⟨setH h (.done (some .tooMany)) s.sys, s.came, s.held⟩, ?_, by simp [setH, hlt]⟩
    refine step_ok.2 ⟨hdue 0, ?_, rfl, rfl⟩
    simp [Sys.step, hx]
  | inRecv rt j =>
    have hpop : s.sys.tr.popped = [] := by
      by_contra hne
      exact hrest.no (popped_does hg hdisp hso hne)
    have hcl : s.sys.tr.claimed = [] := by
      by_contra hne
      exact hrest.no (claimed_does hg hdisp hso hne)
    obtain ⟨k, hk⟩ := inside_waiting hso hpop hcl (.inr ⟨j, List.mem_of_getElem? hx⟩)
    obtain ⟨y, hy⟩ : ∃ y, Tracker.step c.tr s.sys.tr (.leave k) = .ok y := by
      have := (List.getElem?_eq_some_iff.1 hk).1
      simp [Tracker.step, this]
    refine ⟨k, ⟨setH h (.done (some .tooMany)) { s.sys with tr := y }, s.came, s.held⟩, ?_, by simp [setH, hlt]⟩
    refine step_ok.2 ⟨hdue k, ?_, rfl, rfl⟩
    simp [Sys.step, hx, hk, trk, hy, Res.bind]
  | _ => cases hh

/-- **C178 (nothing to do means nothing to do).** In every schedule: when a request that was not waiting for the rate limiter is told that
there is nothing to do (429), at a moment at which execgraph itself has nothing left to do and the queues are not closed, every task that
accepts its runner type and whose dependencies have all succeeded has been claimed by somebody else. -/
theorem nothing_means_nothing (hg : Good c.tr) (hdisp : Displayable c.tr) {as : List Sys.Act} (hr : Hold.Runs c (Hold.init c lf now) as s)
    (hrest : AtRest c s.sys) (hopen : s.sys.tr.readyOpen = true) {a : Sys.Act} (hs : Hold.step c s a = .ok s') {h rt : Nat} {j : String}
    (h0 : s.sys.handlers[h]? = some (.inRecv rt j)) (h1 : s'.sys.handlers[h]? = some (.done (some .tooMany))) {v : Nat} (hv : v < c.tr.g.n)
    (hb : (cmdOf c.tr.g v).affinity.getLsbD rt = true) (hd : ∀ u, c.tr.g.Dep u v → Succeeded s.sys.tr u) :
    MadeReady c.tr lf s.sys.tr v ∧ ¬ Unclaimed s.sys.tr v := by
  obtain ⟨_, h2, _, _⟩ := step_ok.1 hs
  have hw : rt ∈ s.sys.tr.waiting := by
    obtain ⟨k, rt', j', _, e | ⟨e, hk⟩⟩ := Props.System.tooMany_means h2 (by rw [h0]; simp) h1
    · rw [h0] at e; cases e
    · rw [h0] at e; cases e; exact List.mem_of_getElem? hk
  exact Props.Greedy.nobody_waits_in_vain hg hdisp hr.sys hrest hopen hw hv hb hd

/-- Non-trivial case: the third request has been waiting for 30 s, the fourth for 25 s; the third can be told now, the fourth cannot. -/
example : timely remote2 (Hold.init remote2 emptyLog 0) ask (fun s => still s.sys && s.came == [0, 0, 0, 5000000000] &&
    s.sys.handlers.drop 2 == [.inRecv 0 "l", .toRecv 0 "m"] &&
    (match Hold.step remote2 s (.hLeave 2 0 true) with | .ok s' => s'.sys.handlers[2]? == some (.done (some .tooMany)) | _ => false) &&
    (match Hold.step remote2 s (.hLeave 3 0 true) with | .ok _ => false | _ => true)) = true := by decide +kernel

/-- Non-trivial case: five seconds later both are answered, the third when it was due. -/
example : timely remote2 (Hold.init remote2 emptyLog 0) (ask ++ [.hLeave 2 0 true, .server (.tick 5000000000), .hLeave 3 0 true,
    .server (.tick 30000000000)]) (fun s => s.sys.handlers.drop 2 == [.done (some .tooMany), .done (some .tooMany)]) = true := by decide +kernel

/-- Non-trivial case of `nothing_else_waits`: the fourth request goes on to wait for a task though it came 25 seconds ago only. -/
example : timely remote2 (Hold.init remote2 emptyLog 0) ask (fun s => match Hold.step remote2 s (.hRecv 3) with
    | .ok s' => s'.sys.handlers[3]? == some (.inRecv 0 "m") | _ => false) = true := by decide +kernel

example : ∃ s, Timely remote2 (Hold.init remote2 emptyLog 0) ask s ∧ ∃ t, s.came[3]? = some t ∧ s.sys.tr.now ≤ t + 30000000000 := by
  obtain ⟨s, h1, h2⟩ := timely_of (c := remote2) (as := ask) (s := Hold.init remote2 emptyLog 0) (p := fun s => s.sys.handlers[3]? == some (.toRecv 0 "m")) (by decide +kernel)
  have h2 : s.sys.handlers[3]? = some (.toRecv 0 "m") := by simpa using h2
  exact ⟨s, h1, answered_in_time remote2_good remote2_displayable h1 h2 rfl⟩

end Verif.Props.Hold
