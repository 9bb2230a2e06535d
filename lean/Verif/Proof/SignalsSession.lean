import Verif.Proof.Signals
import Verif.Spec.SignalsSession

/-!
# Process groups and sessions: invariant
-/

namespace Verif.Signals
open Verif Verif.Spec.Signals

theorem within_sub {s u : State} (h : GroupsInSessions s) (hu : ∀ q ∈ u.procs, ∃ r ∈ s.procs, q.pid = r.pid ∧ q.pgid = r.pgid ∧ q.sid = r.sid) : GroupsInSessions u := by
  intro q hq r hr hc
  obtain ⟨q', hq', h1, h2, h3⟩ := hu q hq
  obtain ⟨r', hr', h4, h5, h6⟩ := hu r hr
  rw [h3, h6]
  exact h q' hq' r' hr' (by rw [← h2, ← h4, ← h5]; exact hc)

theorem within_filter {s u : State} {f : Proc → Bool} (h : GroupsInSessions s) (hu : u.procs = s.procs.filter f) : GroupsInSessions u :=
  within_sub h (fun q hq => ⟨q, (List.mem_filter.1 (hu ▸ hq)).1, rfl, rfl, rfl⟩)

theorem within_same {s u : State} (h : GroupsInSessions s) (hu : u.procs = s.procs) : GroupsInSessions u :=
  within_sub h (fun q hq => ⟨q, hu ▸ hq, rfl, rfl, rfl⟩)

theorem within_term {s u : State} {p : Nat} {f : Proc → Disp} (h : GroupsInSessions s) (hu : u.procs = (s.upd p (fun q => { q with term := f q })).procs) : GroupsInSessions u := by
  refine within_sub h (fun q hq => ?_)
  rw [hu] at hq
  obtain ⟨r, hr, rfl⟩ := List.mem_map.1 hq
  refine ⟨r, hr, ?_⟩
  split <;> exact ⟨rfl, rfl, rfl⟩

theorem within_child {s u : State} {c : Proc} {n : Nat} {d : Disp} (h : GroupsInSessions s) (hc : c ∈ s.procs) (hn : s.used n = false) (hu : u.procs = (s.child c n d).procs) : GroupsInSessions u := by
  have hn' := (used_false hn).2
  intro q hq r hr hcond
  rw [hu] at hq hr
  rcases List.mem_cons.1 hq with rfl | hq <;> rcases List.mem_cons.1 hr with rfl | hr
  · rfl
  · exact h c hc r hr hcond
  · rcases hcond with e | e
    · exact h q hq c hc (.inl e)
    · exact absurd e (hn' q hq).2.1
  · exact h q hq r hr hcond

theorem within_move {s u : State} {t : Proc} {g : Nat} (hp : Posix s) (h : GroupsInSessions s) (ht : t ∈ s.procs)
    (hg : g = t.pid ∨ ∃ x ∈ s.procs, x.pgid = g ∧ x.sid = t.sid) (hu : u.procs = (s.upd t.pid (fun q => { q with pgid := g })).procs) : GroupsInSessions u := by
  have key1 : ∀ r ∈ s.procs, g = r.pgid ∨ g = r.pid → t.sid = r.sid := by
    intro r hr hc
    rcases hg with e | ⟨x, hx, e1, e2⟩
    · rcases hc with hc | hc
      · exact (h r hr t ht (.inr (by rw [← hc, e]))).symm
      · rw [pid_unique hp ht hr (by rw [← e, hc])]
    · rw [← e2]; exact h x hx r hr (by rw [e1]; exact hc)
  have key2 : ∀ r ∈ s.procs, r.pgid = g ∨ r.pgid = t.pid → r.sid = t.sid := by
    intro r hr hc
    rcases hc with hc | hc
    · exact (key1 r hr (.inl hc.symm)).symm
    · exact h r hr t ht (.inr hc)
  intro q hq r hr hc
  rw [hu] at hq hr
  obtain ⟨q', hq', rfl⟩ := List.mem_map.1 hq
  obtain ⟨r', hr', rfl⟩ := List.mem_map.1 hr
  by_cases e1 : q'.pid = t.pid <;> by_cases e2 : r'.pid = t.pid
  · cases pid_unique hp hq' ht e1; cases pid_unique hp hr' ht e2; rfl
  · cases pid_unique hp hq' ht e1
    simp only [if_true, if_neg e2] at hc ⊢
    exact key1 r' hr' hc
  · cases pid_unique hp hr' ht e2
    simp only [if_true, if_neg e1] at hc ⊢
    exact key2 q' hq' hc
  · simp only [if_neg e1, if_neg e2] at hc ⊢
    exact h q' hq' r' hr' hc

theorem within_setsid {s u : State} {t : Proc} (hp : Posix s) (h : GroupsInSessions s) (ht : t ∈ s.procs) (hn : ∀ x ∈ s.procs, x.pgid ≠ t.pid)
    (hu : u.procs = (s.upd t.pid (fun q => { q with pgid := q.pid, sid := q.pid })).procs) : GroupsInSessions u := by
  intro q hq r hr hc
  rw [hu] at hq hr
  obtain ⟨q', hq', rfl⟩ := List.mem_map.1 hq
  obtain ⟨r', hr', rfl⟩ := List.mem_map.1 hr
  by_cases e1 : q'.pid = t.pid <;> by_cases e2 : r'.pid = t.pid
  · cases pid_unique hp hq' ht e1; cases pid_unique hp hr' ht e2; rfl
  · cases pid_unique hp hq' ht e1
    simp only [if_true, if_neg e2] at hc ⊢
    rcases hc with hc | hc
    · exact absurd hc.symm (hn r' hr')
    · exact absurd hc.symm e2
  · cases pid_unique hp hr' ht e2
    simp only [if_true, if_neg e1] at hc ⊢
    rcases hc with hc | hc <;> exact absurd hc (hn q' hq')
  · simp only [if_neg e1, if_neg e2] at hc ⊢
    exact h q' hq' r' hr' hc

theorem mayMove_to {s : State} {c t : Proc} {g : Nat} (h : s.mayMove c t g = true) : g = t.pid ∨ ∃ x ∈ s.procs, x.pgid = g ∧ x.sid = t.sid := by
  simp only [State.mayMove, Bool.and_eq_true, Bool.or_eq_true, beq_iff_eq, List.any_eq_true] at h
  exact h.2

theorem step_within {s u : State} {a : Act} (hp : Posix s) (h : GroupsInSessions s) (hs : step s a = .ok u) : GroupsInSessions u := by
  cases a with
  | fork c n =>
    simp only [step] at hs
    split at hs
    · rename_i q hq
      split at hs
      · cases hs
      · rename_i hn; cases hs; exact within_child h (find_mem hq).1 (by simpa using hn) rfl
    · cases hs
  | exec c =>
    simp only [step] at hs
    split at hs
    · cases hs
    · cases hs; exact within_term h rfl
  | exit c => cases hs; exact within_filter h rfl
  | setpgid c t g =>
    simp only [step] at hs
    split at hs
    · rename_i p q _ hq
      split at hs
      · rename_i hm; cases hs
        have hf := find_mem hq
        exact within_move hp h hf.1 (mayMove_to hm) (by rw [hf.2])
      · cases hs
    · cases hs
  | setsid c =>
    simp only [step] at hs
    split at hs
    · rename_i q hq
      split at hs
      · cases hs
      · rename_i hm; cases hs
        have hf := find_mem hq
        refine within_setsid hp h hf.1 (fun x hx e => hm ?_) (by rw [hf.2])
        exact List.any_eq_true.2 ⟨x, hx, by simpa using e⟩
    · cases hs
  | disp c d =>
    simp only [step] at hs
    split at hs
    · cases hs
    · cases hs; exact within_term h rfl
  | term c => cases hs; exact within_filter h rfl
  | foreground g => cases hs; exact within_same h rfl
  | ctrlC => cases hs; exact within_same h rfl
  | enter =>
    simp only [step] at hs
    split at hs
    · rename_i q hq
      cases hs
      have hf := find_mem hq
      by_cases hm : s.mayMove q q q.pid = true
      · refine within_move (g := q.pid) hp h hf.1 (.inl rfl) ?_
        rw [if_pos hm, hf.2]
        apply List.map_congr_left
        intro x _
        split
        · rename_i e; dsimp only; rw [e]
        · rfl
      · exact within_same h (by simp only [if_neg hm])
    · cases hs
  | spawn n =>
    simp only [step] at hs
    split at hs
    · rename_i q hq
      split at hs
      · cases hs
      · rename_i hn; cases hs
        exact within_child h (find_mem hq).1 (by simpa using fun e => hn (.inr e)) rfl
    · cases hs
  | listen =>
    simp only [step] at hs
    split at hs
    · split at hs
      · cases hs
      · cases hs
        by_cases hm : s.registered = true
        · exact within_same h (by simp only [if_pos hm])
        · exact within_term (p := s.me) (f := fun q => q.term.register) h (by simp only [if_neg hm])
    · cases hs
  | killpg =>
    simp only [step] at hs
    split at hs
    · split at hs
      · cases hs
      · cases hs; exact within_filter h rfl
    · cases hs
  | leave =>
    simp only [step] at hs
    split at hs
    · cases hs
    · cases hs; exact within_same h rfl

end Verif.Signals
