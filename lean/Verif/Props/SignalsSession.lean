import Verif.Proof.SignalsSession
import Verif.Props.Signals

/-!
# The SIGTERM of `execute` stays within the session
-/

namespace Verif.Props.SignalsSession
open Verif Verif.Signals Verif.Spec.Signals Verif.Props.Signals

/-- Whatever was done with groups and sessions, in any process: what the SIGTERM of an `execute` ends is in the session of the process (of other sessions, for instance of daemons and of jobs
that called `setsid`, nothing is ended). -/
theorem only_own_session {s t u : State} {as : List Act} (hf : Fresh s) (hg : GroupsInSessions s) (hr : Runs s as t) (hs : step t .killpg = .ok u) :
    ∀ p ∈ t.procs, p.pid = s.me → ∀ q ∈ t.procs, q ∉ u.procs → q.sid = p.sid := by
  have key : ∀ {s t : State} {as : List Act}, Inv s → GroupsInSessions s → Runs s as t → GroupsInSessions t := by
    intro s t as hi hg hr
    induction hr with
    | nil => exact hg
    | cons h _ ih => exact ih (step_inv hi h) (step_within hi.posix hg h)
  have hi := hr.inv (Fresh.inv hf)
  have hgt := key (Fresh.inv hf) hg hr
  intro p hp hpm q hq hqu
  simp only [step] at hs
  split at hs
  · rename_i r hr'
    have hrm := find_mem hr'
    split at hs
    · cases hs
    · cases hs
      have hpr : p = r := pid_unique hi.1.posix hp hrm.1 (by rw [hpm, hrm.2, hi.2])
      refine hgt q hq p hp (.inl ?_)
      rw [hpr]
      exact Classical.byContradiction (fun e => hqu (List.mem_filter.2 ⟨hq, by simp [e]⟩))
  · cases hs

/-- The hypotheses, with groups that are changed: 20 goes into a group of its own, 21 joins it, 22 makes a session, and the shell takes the process back into the group of its script. -/
example : ∃ t u, Fresh script ∧ GroupsInSessions script ∧
    Runs script [.enter, .spawn 20, .setpgid 10 20 20, .spawn 21, .setpgid 10 21 20, .spawn 22, .setsid 22, .fork 22 23, .spawn 24, .setpgid 5 10 5, .listen] t ∧ step t .killpg = .ok u ∧
    u.procs.map (·.pid) = [24, 23, 22, 21, 20, 1, 10] :=
  ⟨(play script [.enter, .spawn 20, .setpgid 10 20 20, .spawn 21, .setpgid 10 21 20, .spawn 22, .setsid 22, .fork 22 23, .spawn 24, .setpgid 5 10 5, .listen]).get (by decide),
    (play script [.enter, .spawn 20, .setpgid 10 20 20, .spawn 21, .setpgid 10 21 20, .spawn 22, .setsid 22, .fork 22 23, .spawn 24, .setpgid 5 10 5, .listen, .killpg]).get (by decide),
    fresh_script, by unfold GroupsInSessions; decide, runs_of_play (by decide), by decide, by decide⟩

/-- The pipeline and the container also meet it. -/
example : GroupsInSessions pipeline ∧ GroupsInSessions container := by unfold GroupsInSessions; decide

/-- What the process of the session does on SIGTERM involves no handler of its own. -/
def NoHandler (s : State) : Prop := ∀ q ∈ s.procs, q.pid = s.me → q.term ≠ .own ∧ q.term ≠ .tokio true

theorem noHandler_any {s : State} (h : NoHandler s) (g : Nat) : s.procs.any (fun q => q.pid == s.me && q.pgid == g && q.term.callsOwn) = false := by
  rw [List.any_eq_false]
  intro q hq
  simp only [Bool.and_eq_true, beq_iff_eq, not_and]
  intro hm hc
  obtain ⟨h1, h2⟩ := h q hq hm.1
  cases hd : q.term with
  | dfl => rw [hd] at hc; cases hc
  | ign => rw [hd] at hc; cases hc
  | own => exact absurd hd h1
  | tokio b =>
    cases b with
    | true => exact absurd hd h2
    | false => rw [hd] at hc; cases hc

theorem noHandler_upd {s u : State} {p : Nat} {f : Proc → Proc} (hu : u.procs = (s.upd p f).procs) (h : NoHandler s) (hm : u.me = s.me) (hpid : ∀ q, (f q).pid = q.pid)
    (hf : ∀ q ∈ s.procs, q.pid = p → p = s.me → (f q).term ≠ .own ∧ (f q).term ≠ .tokio true) : NoHandler u := by
  intro q hq hqm
  rw [hu] at hq
  obtain ⟨r, hr, rfl⟩ := List.mem_map.1 hq
  rw [hm] at hqm
  split at hqm
  · rename_i e
    rw [if_pos e]
    exact hf r hr e (by rw [hpid] at hqm; rw [← e, hqm])
  · rename_i e
    rw [if_neg e]
    exact h r hr hqm

theorem noHandler_sub {s u : State} (h : NoHandler s) (hm : u.me = s.me) (hu : ∀ q ∈ u.procs, q ∈ s.procs) : NoHandler u :=
  fun q hq hqm => h q (hu q hq) (hqm.trans hm)

theorem noHandler_child {s : State} {c : Proc} {n : Nat} {d : Disp} (h : NoHandler s) (hn : s.used n = false) : NoHandler (s.child c n d) := by
  intro q hq hqm
  rcases List.mem_cons.1 hq with rfl | hq
  · exact absurd hqm (used_false hn).1
  · exact h q hq hqm

theorem noHandler_step {s u : State} {a : Act} (h : NoHandler s) (ha : a ≠ .disp s.me .own) (hs : step s a = .ok u) : NoHandler u ∧ u.me = s.me ∧ u.calls = s.calls := by
  cases a with
  | fork c n =>
    simp only [step] at hs
    split at hs
    · split at hs
      · cases hs
      · rename_i hn; cases hs; exact ⟨noHandler_child h (by simpa using hn), rfl, rfl⟩
    · cases hs
  | exec c =>
    simp only [step] at hs
    split at hs
    · cases hs
    · rename_i hc; cases hs
      exact ⟨noHandler_upd rfl h rfl (fun _ => rfl) (fun _ _ _ e => absurd e hc), rfl, rfl⟩
  | exit c => cases hs; exact ⟨noHandler_sub h rfl (fun q hq => (List.mem_filter.1 hq).1), rfl, rfl⟩
  | setpgid c t g =>
    simp only [step] at hs
    split at hs
    · split at hs
      · cases hs
        exact ⟨noHandler_upd rfl h rfl (fun _ => rfl) (fun q hq e e' => h q hq (e.trans e')), rfl, rfl⟩
      · cases hs
    · cases hs
  | setsid c =>
    simp only [step] at hs
    split at hs
    · split at hs
      · cases hs
      · cases hs
        exact ⟨noHandler_upd rfl h rfl (fun _ => rfl) (fun q hq e e' => h q hq (e.trans e')), rfl, rfl⟩
    · cases hs
  | disp c d =>
    simp only [step] at hs
    split at hs
    · cases hs
    · rename_i hd
      cases hs
      refine ⟨noHandler_upd rfl h rfl (fun _ => rfl) (fun q hq e e' => ⟨fun hd' => ha (by rw [e', show d = .own from hd']), fun hd' => hd true hd'⟩), rfl, rfl⟩
  | term c => cases hs; exact ⟨noHandler_sub h rfl (fun q hq => (List.mem_filter.1 hq).1), rfl, rfl⟩
  | foreground g => cases hs; exact ⟨h, rfl, rfl⟩
  | ctrlC => cases hs; exact ⟨h, rfl, rfl⟩
  | enter =>
    simp only [step] at hs
    split at hs
    · rename_i q hq
      cases hs
      by_cases hm : s.mayMove q q q.pid = true
      · rw [if_pos hm]
        exact ⟨noHandler_upd rfl h rfl (fun _ => rfl) (fun q hq e e' => h q hq (e.trans e')), rfl, rfl⟩
      · rw [if_neg hm]; exact ⟨h, rfl, rfl⟩
    · cases hs
  | spawn n =>
    simp only [step] at hs
    split at hs
    · split at hs
      · cases hs
      · rename_i hn; cases hs; exact ⟨noHandler_child h (by simpa using fun e => hn (.inr e)), rfl, rfl⟩
    · cases hs
  | listen =>
    simp only [step] at hs
    split at hs
    · split at hs
      · cases hs
      · cases hs
        by_cases hm : s.registered = true
        · rw [if_pos hm]; exact ⟨h, rfl, rfl⟩
        · rw [if_neg hm]
          refine ⟨noHandler_upd rfl h rfl (fun _ => rfl) (fun q hq e e' => ?_), rfl, rfl⟩
          obtain ⟨h1, h2⟩ := h q hq (e.trans e')
          show q.term.register ≠ .own ∧ q.term.register ≠ .tokio true
          cases hd : q.term with
          | own => exact absurd hd h1
          | tokio b => cases b with
            | true => exact absurd hd h2
            | false => simp [Disp.register]
          | _ => simp [Disp.register]
    · cases hs
  | killpg =>
    simp only [step] at hs
    split at hs
    · split at hs
      · cases hs
      · cases hs
        refine ⟨noHandler_sub h rfl (fun q hq => (List.mem_filter.1 hq).1), rfl, ?_⟩
        simp only [State.killpg, noHandler_any h]
        rfl
    · cases hs
  | leave =>
    simp only [step] at hs
    split at hs
    · cases hs
    · cases hs; exact ⟨h, rfl, rfl⟩

/-- A program that has no handler for SIGTERM and installs none has none called: not by the first `execute`, and not by later ones, when tokio's handler is there. -/
theorem no_handler_no_call {s t : State} {as : List Act} {g : Nat} {d : Disp} (hf : Fresh s) (hme : Me s g d) (hd : d = .dfl ∨ d = .ign) (hn : .disp s.me .own ∉ as) (hr : Runs s as t) :
    t.calls = s.calls := by
  have h0 : NoHandler s := by
    intro q hq hqm
    obtain ⟨m, hm, hmp, _, hmt⟩ := hme
    rw [pid_unique hf.posix hq hm (hqm.trans hmp.symm), hmt]
    rcases hd with rfl | rfl <;> simp
  clear hf hme hd
  induction hr with
  | nil => rfl
  | cons h _ ih =>
    obtain ⟨h1, h2, h3⟩ := noHandler_step h0 (fun e => hn (by rw [e]; exact List.mem_cons_self ..)) h
    rw [ih (by rw [h2]; exact fun e => hn (List.mem_cons_of_mem _ e)) h1, h3]

/-- Two `execute`s, the second with tokio's handler in place; what the tasks do about SIGTERM does not matter. -/
example : ∃ t, Fresh script ∧ Me script 5 .dfl ∧
    Runs script [.enter, .spawn 20, .disp 20 .own, .listen, .killpg, .disp 10 .ign, .enter, .spawn 21, .listen, .killpg] t ∧
    Act.disp script.me .own ∉ [Act.enter, .spawn 20, .disp 20 .own, .listen, .killpg, .disp 10 .ign, .enter, .spawn 21, .listen, .killpg] ∧ t.procs.map (·.pid) = [21, 20, 1, 5, 10] :=
  ⟨(play script [.enter, .spawn 20, .disp 20 .own, .listen, .killpg, .disp 10 .ign, .enter, .spawn 21, .listen, .killpg]).get (by decide), fresh_script,
    ⟨⟨10, 5, 1, 5, .dfl, false⟩, by decide, rfl, rfl, rfl⟩, runs_of_play (by decide), by decide, by decide⟩

#print axioms only_own_session
#print axioms no_handler_no_call

end Verif.Props.SignalsSession
