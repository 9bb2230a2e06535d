import Verif.Spec.Signals

/-!
# Process groups and signals: lemmas
-/

namespace Verif.Signals
open Verif Verif.Spec.Signals

theorem find_mem {s : State} {p : Nat} {q : Proc} (h : s.find p = some q) : q ∈ s.procs ∧ q.pid = p := by
  refine ⟨List.mem_of_find?_eq_some h, ?_⟩
  simpa using List.find?_some h

theorem find_of_mem {s : State} {q : Proc} (hq : q ∈ s.procs) : ∃ q', s.find q.pid = some q' := by
  cases h : s.find q.pid with
  | some q' => exact ⟨q', rfl⟩
  | none =>
    have := List.find?_eq_none.1 h q hq
    simp at this

theorem inj_of_nodup {l : List Proc} (hn : (l.map (·.pid)).Nodup) {q r : Proc} (hq : q ∈ l) (hr : r ∈ l) (h : q.pid = r.pid) : q = r := by
  induction l with
  | nil => cases hq
  | cons x l ih =>
    simp only [List.map_cons, List.nodup_cons, List.mem_map, not_exists, not_and] at hn
    rcases List.mem_cons.1 hq with rfl | hq' <;> rcases List.mem_cons.1 hr with rfl | hr'
    · rfl
    · exact absurd h.symm (hn.1 r hr')
    · exact absurd h (hn.1 q hq')
    · exact ih hn.2 hq' hr'

theorem pid_unique {s : State} (hp : Posix s) {q r : Proc} (hq : q ∈ s.procs) (hr : r ∈ s.procs) (h : q.pid = r.pid) : q = r :=
  inj_of_nodup hp.nodup hq hr h

theorem Runs.snoc {s t u : State} {as : List Act} {a : Act} (h : Runs s as t) (hs : step t a = .ok u) : Runs s (as ++ [a]) u := by
  induction h with
  | nil s => exact .cons hs (.nil _)
  | cons h1 _ ih => exact .cons h1 (ih hs)

theorem Runs.snocInd {motive : State → List Act → State → Prop} (hnil : ∀ s, motive s [] s)
    (hsnoc : ∀ s as t a u, Runs s as t → step t a = .ok u → motive s as t → motive s (as ++ [a]) u)
    {s t : State} {as : List Act} (h : Runs s as t) : motive s as t := by
  have aux : ∀ {bs : List Act} {u : State} (pre : List Act), Runs s pre u → motive s pre u → Runs u bs t → motive s (pre ++ bs) t := by
    intro bs
    induction bs with
    | nil => intro u pre _ hm hr; cases hr; simpa using hm
    | cons b bs ih =>
      intro u pre h1 hm hr
      cases hr with
      | cons hs hr =>
        have := ih (pre ++ [b]) (h1.snoc hs) (hsnoc _ _ _ _ _ h1 hs hm) hr
        simpa using this
  simpa using aux [] (.nil s) (hnil s) h

/-- What an action can do to the processes: new ones come by `fork` and `spawn`; the others are as before, or moved, or with another disposition, or gone. -/
inductive Change (s : State) : Act → List Proc → Prop
  | born {a : Act} {c : Proc} {n : Nat} {d : Disp} : c ∈ s.procs → (a = .fork c.pid n ∧ d = c.term ∨ a = .spawn n ∧ c.pid = s.me ∧ d = c.term.exec) →
      s.used n = false → Change s a (⟨n, c.pgid, c.sid, c.pid, d, c.pid == s.me || c.ours⟩ :: s.procs)
  | map {a : Act} {p : Nat} {f : Proc → Proc} : (∀ q, (f q).pid = q.pid ∧ (f q).ours = q.ours ∧ (f q).parent = q.parent) →
      ((∃ c g, a = .setpgid c p g ∧ (∀ q ∈ s.procs, q.pid = p → q.pid ≠ q.sid) ∧ ∀ q, f q = { q with pgid := g }) ∨
       (a = .setsid p ∧ ∀ q, f q = { q with pgid := q.pid, sid := q.pid }) ∨
       (a = .enter ∧ p = s.me ∧ (∀ q ∈ s.procs, q.pid = p → q.pid ≠ q.sid) ∧ ∀ q, f q = { q with pgid := q.pid }) ∨
       (a = .exec p ∧ p ≠ s.me ∧ ∀ q, f q = { q with term := q.term.exec }) ∨
       (∃ d, a = .disp p d ∧ (∀ b, d ≠ .tokio b) ∧ ∀ q, f q = { q with term := d }) ∨
       (a = .listen ∧ p = s.me ∧ s.registered = false ∧ ∀ q, f q = { q with term := q.term.register })) →
      Change s a (s.procs.map (fun q => if q.pid = p then f q else q))
  | gone {a : Act} {f : Proc → Bool} : ((∃ c, a = .exit c) ∨ (∃ c, a = .term c ∧ f = fun q => q.pid != c || q.term.survives) ∨
      (a = .killpg ∧ ∃ m ∈ s.procs, m.pid = s.me ∧ f = fun q => q.pgid != m.pgid || q.term.survives)) → Change s a (s.procs.filter f)
  | same {a : Act} : (a = .enter → ∀ q ∈ s.procs, q.pid = s.me → q.pid = q.sid) → (a = .listen → s.registered = true) → (∀ c, a ≠ .exit c) → a ≠ .killpg → Change s a s.procs

/-- Every step makes such a change. -/
theorem step_change {s u : State} (hp : Posix s) {a : Act} (hs : step s a = .ok u) : Change s a u.procs ∧ u.me = s.me := by
  cases a with
  | fork c n =>
    simp only [step] at hs
    split at hs
    · rename_i q hq
      split at hs
      · cases hs
      · rename_i hu
        cases hs
        have := find_mem hq
        refine ⟨.born this.1 (Or.inl ⟨by rw [this.2], rfl⟩) (by simpa using hu), rfl⟩
    · cases hs
  | exec c =>
    simp only [step] at hs
    split at hs
    · cases hs
    · rename_i hc
      cases hs
      exact ⟨.map (fun _ => ⟨rfl, rfl, rfl⟩) (.inr <| .inr <| .inr <| .inl ⟨rfl, hc, fun _ => rfl⟩), rfl⟩
  | exit c => cases hs; exact ⟨.gone (.inl ⟨c, rfl⟩), rfl⟩
  | setpgid c t g =>
    simp only [step] at hs
    split at hs
    · rename_i p q hc ht
      split at hs
      · rename_i hm
        cases hs
        refine ⟨.map (fun _ => ⟨rfl, rfl, rfl⟩) (.inl ⟨c, g, rfl, ?_, fun _ => rfl⟩), rfl⟩
        intro r hr hrt
        have hq := find_mem ht
        have : r = q := pid_unique hp hr hq.1 (by rw [hrt, hq.2])
        subst this
        simp only [State.mayMove, Bool.and_eq_true, bne_iff_ne] at hm
        exact hm.1.2
      · cases hs
    · cases hs
  | setsid c =>
    simp only [step] at hs
    split at hs
    · split at hs
      · cases hs
      · cases hs
        exact ⟨.map (fun _ => ⟨rfl, rfl, rfl⟩) (.inr <| .inl ⟨rfl, fun _ => rfl⟩), rfl⟩
    · cases hs
  | disp c d =>
    simp only [step] at hs
    split at hs
    · cases hs
    · rename_i hd
      cases hs
      exact ⟨.map (fun _ => ⟨rfl, rfl, rfl⟩) (.inr <| .inr <| .inr <| .inr <| .inl ⟨d, rfl, fun b hb => hd b hb, fun _ => rfl⟩), rfl⟩
  | term c => cases hs; exact ⟨.gone (.inr (.inl ⟨c, rfl, rfl⟩)), rfl⟩
  | foreground g => cases hs; exact ⟨.same (by simp) (by simp) (by simp) (by simp), rfl⟩
  | ctrlC => cases hs; exact ⟨.same (by simp) (by simp) (by simp) (by simp), rfl⟩
  | enter =>
    simp only [step] at hs
    split at hs
    · rename_i q hq
      have hq' := find_mem hq
      cases hs
      by_cases hm : s.mayMove q q q.pid
      · simp only [hm, if_true]
        refine ⟨.map (fun _ => ⟨rfl, rfl, rfl⟩) (.inr <| .inr <| .inl ⟨rfl, rfl, ?_, fun _ => rfl⟩), rfl⟩
        intro r hr hrm
        have : r = q := pid_unique hp hr hq'.1 (by rw [hrm, hq'.2])
        subst this
        simp only [State.mayMove, Bool.and_eq_true, bne_iff_ne] at hm
        exact hm.1.2
      · simp only [hm]
        refine ⟨.same (fun _ => ?_) (by simp) (by simp) (by simp), rfl⟩
        intro r hr hrm
        have : r = q := pid_unique hp hr hq'.1 (by rw [hrm, hq'.2])
        subst this
        apply Classical.byContradiction
        intro hne
        exact hm (by simp [State.mayMove, hne])
    · cases hs
  | spawn n =>
    simp only [step] at hs
    split at hs
    · rename_i q hq
      split at hs
      · cases hs
      · rename_i hu
        cases hs
        have := find_mem hq
        refine ⟨.born this.1 (Or.inr ⟨rfl, this.2, rfl⟩) (by simpa using fun h => hu (Or.inr h)), rfl⟩
    · cases hs
  | listen =>
    simp only [step] at hs
    split at hs
    · split at hs
      · cases hs
      · cases hs
        by_cases hr : s.registered
        · simp only [hr, if_true]
          exact ⟨.same (by simp) (fun _ => hr) (by simp) (by simp), trivial⟩
        · simp only [hr]
          exact ⟨.map (fun _ => ⟨rfl, rfl, rfl⟩) (.inr <| .inr <| .inr <| .inr <| .inr ⟨rfl, rfl, by simpa using hr, fun _ => rfl⟩), rfl⟩
    · cases hs
  | killpg =>
    simp only [step] at hs
    split at hs
    · rename_i q hq
      split at hs
      · cases hs
      · cases hs
        have := find_mem hq
        exact ⟨.gone (.inr (.inr ⟨rfl, q, this.1, this.2, rfl⟩)), rfl⟩
    · cases hs
  | leave =>
    simp only [step] at hs
    split at hs
    · cases hs
    · cases hs; exact ⟨.same (by simp) (by simp) (by simp) (by simp), rfl⟩

/-- The numbers of `execute`s. -/
theorem step_count {s u : State} {a : Act} (hs : step s a = .ok u) (h : s.armed ≤ s.entered) (hr : 0 < s.armed → s.registered = true) :
    u.armed ≤ u.entered ∧ (0 < u.armed → u.registered = true) ∧ (0 < u.entered → 0 < s.entered ∨ a = .enter) ∧ (s.registered = true → u.registered = true) ∧
    (u.registered = true → s.registered = true ∨ a = .listen) ∧ (a = .listen → u.registered = true) ∧ (a = .killpg → 0 < s.armed) := by
  cases a <;> simp only [step] at hs <;> (repeat' split at hs) <;> first | (cases hs; done) | skip
  all_goals
    cases hs
    refine ⟨?_, ?_, ?_, ?_, ?_, ?_, ?_⟩ <;> grind [State.child, State.upd, State.killpg]

theorem map_pid {l : List Proc} {p : Nat} {f : Proc → Proc} (hf : ∀ q, (f q).pid = q.pid) :
    (l.map (fun q => if q.pid = p then f q else q)).map (·.pid) = l.map (·.pid) := by
  rw [List.map_map]
  apply List.map_congr_left
  intro q _
  simp only [Function.comp]
  split
  · exact hf q
  · rfl

theorem used_false {s : State} {n : Nat} (h : s.used n = false) : n ≠ s.me ∧ ∀ q ∈ s.procs, q.pid ≠ n ∧ q.pgid ≠ n ∧ q.sid ≠ n := by
  simp only [State.used, Bool.or_eq_false_iff, beq_eq_false_iff_ne, List.any_eq_false, Bool.or_eq_true, beq_iff_eq, not_or] at h
  exact ⟨h.1, fun q hq => ⟨(h.2 q hq).1.1, (h.2 q hq).1.2, (h.2 q hq).2⟩⟩

theorem Change.posix {s : State} (hp : Posix s) {a : Act} {l : List Proc} (h : Change s a l) :
    (l.map (·.pid)).Nodup ∧ ∀ q ∈ l, q.pid = q.sid → q.pgid = q.pid := by
  cases h with
  | @born c n d hc ha hu =>
    have hu' := used_false hu
    refine ⟨?_, ?_⟩
    · simp only [List.map_cons, List.nodup_cons, List.mem_map, not_exists, not_and]
      exact ⟨fun q hq => (hu'.2 q hq).1, hp.nodup⟩
    · intro q hq
      rcases List.mem_cons.1 hq with rfl | hq
      · intro h; exact absurd h.symm (hu'.2 c hc).2.2
      · exact hp.leader q hq
  | @map p f hf ha =>
    refine ⟨by rw [map_pid (fun q => (hf q).1)]; exact hp.nodup, ?_⟩
    intro q hq
    obtain ⟨r, hr, rfl⟩ := List.mem_map.1 hq
    have hl := hp.leader r hr
    split
    · rename_i hrp
      rcases ha with ⟨c, g, rfl, hne, hf'⟩ | ⟨rfl, hf'⟩ | ⟨rfl, _, hne, hf'⟩ | ⟨rfl, _, hf'⟩ | ⟨d, rfl, _, hf'⟩ | ⟨rfl, _, _, hf'⟩ <;> rw [hf' r] <;> dsimp only
      · exact fun h => absurd h (hne r hr hrp)
      · exact fun _ => rfl
      · exact fun _ => rfl
      · exact hl
      · exact hl
      · exact hl
    · exact hl
  | gone ha =>
    exact ⟨hp.nodup.sublist (List.filter_sublist.map _), fun q hq => hp.leader q (List.mem_filter.1 hq).1⟩
  | same _ _ _ _ => exact ⟨hp.nodup, hp.leader⟩

theorem step_posix {s u : State} (hp : Posix s) {a : Act} (hs : step s a = .ok u) : Posix u :=
  let h := (step_change hp hs).1.posix hp
  ⟨h.1, h.2⟩

/-- What always holds in a run from a state without `execute`s. -/
structure Inv (s : State) : Prop where
  posix : Posix s
  le : s.armed ≤ s.entered
  reg : 0 < s.armed → s.registered = true

theorem step_inv {s u : State} (h : Inv s) {a : Act} (hs : step s a = .ok u) : Inv u :=
  let c := step_count hs h.le h.reg
  ⟨step_posix h.posix hs, c.1, c.2.1⟩

theorem Runs.inv {s t : State} (h : Inv s) {as : List Act} (hr : Runs s as t) : Inv t ∧ t.me = s.me := by
  induction hr with
  | nil => exact ⟨h, rfl⟩
  | cons hs _ ih =>
    have := ih (step_inv h hs)
    exact ⟨this.1, this.2.trans (step_change h.posix hs).2⟩

theorem Fresh.inv {s : State} (h : Fresh s) : Inv s := ⟨h.posix, by rw [h.armed]; exact Nat.zero_le _, by rw [h.armed]; intro h; cases h⟩

/-- The process leads its group while an `execute` is running. -/
def Leads (s : State) : Prop := 0 < s.entered → ∀ q ∈ s.procs, q.pid = s.me → q.pgid = s.me

theorem step_leads {s u : State} (hi : Inv s) (h : Leads s) {a : Act} (hs : step s a = .ok u) (ha : StaysPut s.me [a]) : Leads u := by
  intro he q hq hqm
  have hc := step_change hi.posix hs
  have hn := step_count hs hi.le hi.reg
  rw [hc.2] at hqm ⊢
  have hch := hc.1
  have hold : a ≠ .enter → ∀ q ∈ s.procs, q.pid = s.me → q.pgid = s.me := by
    intro hne
    rcases hn.2.2.1 he with h1 | h1
    · exact h h1
    · exact absurd h1 hne
  generalize hl : u.procs = l at hch hq
  cases hch with
  | @born c n d hc ha hu =>
    have hu' := used_false hu
    rcases List.mem_cons.1 hq with rfl | hq
    · exact absurd hqm hu'.1
    · refine hold ?_ q hq hqm
      rcases ha with ⟨rfl, _⟩ | ⟨rfl, _⟩ <;> simp
  | @map p f hf hk =>
    obtain ⟨r, hr, rfl⟩ := List.mem_map.1 hq
    by_cases hrp : r.pid = p
    · simp only [hrp, if_true] at hqm ⊢
      rw [(hf r).1] at hqm
      rcases hk with ⟨c, g, rfl, hne, hf'⟩ | ⟨rfl, hf'⟩ | ⟨rfl, _, hne, hf'⟩ | ⟨rfl, _, hf'⟩ | ⟨d, rfl, _, hf'⟩ | ⟨rfl, _, _, hf'⟩ <;> rw [hf' r] <;> dsimp only
      · exact ha c g (by simp [← hqm, hrp])
      · exact hqm
      · exact hqm
      · exact hold (by simp) r hr hqm
      · exact hold (by simp) r hr hqm
      · exact hold (by simp) r hr hqm
    · simp only [hrp, if_false] at hqm ⊢
      refine hold ?_ r hr hqm
      rintro rfl
      rcases hk with ⟨c, g, h, _⟩ | ⟨h, _⟩ | ⟨h, hp, _⟩ | ⟨h, _⟩ | ⟨d, h, _⟩ | ⟨h, _⟩ <;> first | (cases h; done) | skip
      exact hrp (hqm.trans hp.symm)
  | gone hk =>
    refine hold ?_ q (List.mem_filter.1 hq).1 hqm
    rcases hk with ⟨c, rfl⟩ | ⟨c, rfl, _⟩ | ⟨rfl, _⟩ <;> simp
  | same he' _ _ _ =>
    by_cases hne : a = .enter
    · rw [hi.posix.leader q hq (he' hne q hq hqm)]; exact hqm
    · exact hold hne q hq hqm

theorem stays_cons {p : Nat} {a : Act} {as : List Act} (h : StaysPut p (a :: as)) : StaysPut p [a] ∧ StaysPut p as :=
  ⟨fun c g hm => h c g (by simp only [List.mem_singleton] at hm; simp [hm]), fun c g hm => h c g (List.mem_cons_of_mem _ hm)⟩

theorem Runs.leads {s t : State} (hi : Inv s) (h : Leads s) {as : List Act} (hr : Runs s as t) (ha : StaysPut s.me as) : Leads t := by
  induction hr with
  | nil => exact h
  | cons hs _ ih =>
    refine ih (step_inv hi hs) (step_leads hi h hs (stays_cons ha).1) ?_
    rw [(step_change hi.posix hs).2]
    exact (stays_cons ha).2

/-- The signal of an `execute`. -/
theorem killpg_step {t u : State} (hi : Inv t) (hl : Leads t) (hs : step t .killpg = .ok u) :
    0 < t.armed ∧ ∃ m ∈ t.procs, m.pid = t.me ∧ m.pgid = t.me ∧ u.procs = t.procs.filter (fun q => q.pgid != t.me || q.term.survives) ∧
      u.calls = t.calls + (if m.term.callsOwn then 1 else 0) := by
  simp only [step] at hs
  split at hs
  · rename_i q hq
    have hq' := find_mem hq
    split at hs
    · cases hs
    · rename_i harm
      have hpos : 0 < t.armed := Nat.pos_of_ne_zero harm
      have hg := hl (Nat.lt_of_lt_of_le hpos hi.le) q hq'.1 hq'.2
      cases hs
      refine ⟨hpos, q, hq'.1, hq'.2, hg, by simp only [State.killpg, hg], ?_⟩
      simp only [State.killpg]
      congr 1
      have : (t.procs.any fun r => r.pid == t.me && r.pgid == q.pgid && r.term.callsOwn) = q.term.callsOwn := by
        rw [Bool.eq_iff_iff, List.any_eq_true]
        constructor
        · rintro ⟨r, hr, h⟩
          simp only [Bool.and_eq_true, beq_iff_eq] at h
          have : r = q := pid_unique hi.posix hr hq'.1 (by rw [h.1.1, hq'.2])
          rw [← this]; exact h.2
        · intro h
          exact ⟨q, hq'.1, by simp [hq'.2, h]⟩
      rw [this]
  · cases hs

/-- Only the process and what it has forked is in its group. -/
def Private (s : State) : Prop := ∀ q ∈ s.procs, q.pgid = s.me → q.pid = s.me ∨ q.ours = true

theorem step_private {s u : State} (hi : Inv s) (h : Private s) {a : Act} (hs : step s a = .ok u) (ha : NobodyJoins s.me [a]) : Private u := by
  intro q hq hqg
  have hc := step_change hi.posix hs
  rw [hc.2] at hqg ⊢
  have hch := hc.1
  generalize hl : u.procs = l at hch hq
  cases hch with
  | @born c n d hc ha hu =>
    rcases List.mem_cons.1 hq with rfl | hq
    · right
      have := h c hc hqg
      simpa using this
    · exact h q hq hqg
  | @map p f hf hk =>
    obtain ⟨r, hr, rfl⟩ := List.mem_map.1 hq
    by_cases hrp : r.pid = p
    · simp only [hrp, if_true] at hqg ⊢
      rw [(hf r).1, (hf r).2.1]
      rcases hk with ⟨c, g, rfl, hne, hf'⟩ | ⟨rfl, hf'⟩ | ⟨rfl, _, hne, hf'⟩ | ⟨rfl, _, hf'⟩ | ⟨d, rfl, _, hf'⟩ | ⟨rfl, _, _, hf'⟩ <;> rw [hf' r] at hqg <;> dsimp only at hqg
      · left; rw [hrp]; exact ha c p (by simp [hqg])
      · exact .inl hqg
      · exact .inl hqg
      · exact h r hr hqg
      · exact h r hr hqg
      · exact h r hr hqg
    · simp only [hrp, if_false] at hqg ⊢
      exact h r hr hqg
  | gone hk => exact h q (List.mem_filter.1 hq).1 hqg
  | same _ _ _ _ => exact h q hq hqg

theorem joins_cons {p : Nat} {a : Act} {as : List Act} (h : NobodyJoins p (a :: as)) : NobodyJoins p [a] ∧ NobodyJoins p as :=
  ⟨fun c g hm => h c g (by simp only [List.mem_singleton] at hm; simp [hm]), fun c g hm => h c g (List.mem_cons_of_mem _ hm)⟩

theorem Runs.priv {s t : State} (hi : Inv s) (h : Private s) {as : List Act} (hr : Runs s as t) (ha : NobodyJoins s.me as) : Private t := by
  induction hr with
  | nil => exact h
  | cons hs _ ih =>
    refine ih (step_inv hi hs) (step_private hi h hs (joins_cons ha).1) ?_
    rw [(step_change hi.posix hs).2]
    exact (joins_cons ha).2

theorem register_survives (d : Disp) : d.register.survives = true := by cases d <;> rfl

/-- A process that survives SIGTERM goes on doing so, unless it says otherwise. -/
theorem step_survives {s u : State} (hi : Inv s) {a : Act} (hs : step s a = .ok u)
    (h : s.registered = true → ∀ q ∈ s.procs, q.pid = s.me → q.term.survives = true)
    (ha : s.registered = true → a ≠ .disp s.me .dfl) : u.registered = true → ∀ q ∈ u.procs, q.pid = u.me → q.term.survives = true := by
  intro hr q hq hqm
  have hc := step_change hi.posix hs
  have hn := (step_count hs hi.le hi.reg).2.2.2.2.1 hr
  rw [hc.2] at hqm
  have hch := hc.1
  have hold : a ≠ .listen → ∀ q ∈ s.procs, q.pid = s.me → q.term.survives = true := by
    intro hne
    rcases hn with h1 | h1
    · exact h h1
    · exact absurd h1 hne
  generalize hl : u.procs = l at hch hq
  cases hch with
  | @born c n d hc ha hu =>
    rcases List.mem_cons.1 hq with rfl | hq
    · exact absurd hqm (used_false hu).1
    · refine hold ?_ q hq hqm
      rcases ha with ⟨rfl, _⟩ | ⟨rfl, _⟩ <;> simp
  | @map p f hf hk =>
    obtain ⟨r, hr', rfl⟩ := List.mem_map.1 hq
    by_cases hrp : r.pid = p
    · simp only [hrp, if_true] at hqm ⊢
      rw [(hf r).1] at hqm
      rcases hk with ⟨c, g, rfl, hne, hf'⟩ | ⟨rfl, hf'⟩ | ⟨rfl, _, hne, hf'⟩ | ⟨rfl, hpm, hf'⟩ | ⟨d, rfl, _, hf'⟩ | ⟨rfl, _, _, hf'⟩ <;> rw [hf' r] <;> dsimp only
      · exact hold (by simp) r hr' hqm
      · exact hold (by simp) r hr' hqm
      · exact hold (by simp) r hr' hqm
      · exact absurd (hrp.symm.trans hqm) hpm
      · rcases hn with h1 | h1
        · have hd : d ≠ .dfl := fun hd => ha h1 (by rw [hd, ← hqm, hrp])
          cases d <;> simp_all [Disp.survives]
        · cases h1
      · exact register_survives _
    · simp only [hrp, if_false] at hqm ⊢
      refine hold ?_ r hr' hqm
      rintro rfl
      rcases hk with ⟨c, g, h, _⟩ | ⟨h, _⟩ | ⟨h, _⟩ | ⟨h, _⟩ | ⟨d, h, _⟩ | ⟨h, hp, _⟩ <;> first | (cases h; done) | skip
      exact hrp (hqm.trans hp.symm)
  | gone hk =>
    refine hold ?_ q (List.mem_filter.1 hq).1 hqm
    rcases hk with ⟨c, rfl⟩ | ⟨c, rfl, _⟩ | ⟨rfl, _⟩ <;> simp
  | same _ hl' _ _ =>
    by_cases hne : a = .listen
    · exact h (hl' hne) q hq hqm
    · exact hold hne q hq hqm

/-- What the process has forked while it leads its group is in this group and ends on SIGTERM. -/
structure Kept (s : State) : Prop where
  mine : ∀ q ∈ s.procs, q.pid = s.me → q.pgid = s.me ∧ q.term ≠ .ign ∧ q.ours = false
  kin : ∀ q ∈ s.procs, q.ours = true → q.pgid = s.me ∧ q.term = .dfl

theorem exec_dfl {d : Disp} (h : d ≠ .ign) : d.exec = .dfl := by cases d <;> simp_all [Disp.exec]

theorem step_kept {s u : State} (hi : Inv s) (h : Kept s) {a : Act} (hs : step s a = .ok u) (ha : Tame s a) (hst : StaysPut s.me [a]) : Kept u := by
  have hc := step_change hi.posix hs
  have hch := hc.1
  generalize hl : u.procs = l at hch
  suffices hh : ∀ q ∈ l, (q.pid = s.me → q.pgid = s.me ∧ q.term ≠ .ign ∧ q.ours = false) ∧ (q.ours = true → q.pgid = s.me ∧ q.term = .dfl) by
    refine ⟨?_, ?_⟩ <;> rw [hl, hc.2] <;> intro q hq
    · exact (hh q hq).1
    · exact (hh q hq).2
  have old : ∀ q ∈ s.procs, (q.pid = s.me → q.pgid = s.me ∧ q.term ≠ .ign ∧ q.ours = false) ∧ (q.ours = true → q.pgid = s.me ∧ q.term = .dfl) :=
    fun q hq => ⟨h.mine q hq, h.kin q hq⟩
  intro q hq
  cases hch with
  | @born c n d hcm hk hu =>
    rcases List.mem_cons.1 hq with rfl | hq
    · refine ⟨fun hm => absurd hm (used_false hu).1, ?_⟩
      dsimp only
      intro ho
      rcases hk with ⟨rfl, rfl⟩ | ⟨rfl, hm, rfl⟩
      · have hne : c.pid ≠ s.me := ha
        simp only [Bool.or_eq_true, beq_iff_eq, hne, false_or] at ho
        exact h.kin c hcm ho
      · have := h.mine c hcm hm
        exact ⟨this.1, exec_dfl this.2.1⟩
    · exact old q hq
  | @map p f hf hk =>
    obtain ⟨r, hr, rfl⟩ := List.mem_map.1 hq
    have ho := old r hr
    by_cases hrp : r.pid = p
    · simp only [hrp, if_true]
      rw [(hf r).1, (hf r).2.1]
      rcases hk with ⟨c, g, rfl, hne, hf'⟩ | ⟨rfl, hf'⟩ | ⟨rfl, hpm, hne, hf'⟩ | ⟨rfl, hpm, hf'⟩ | ⟨d, rfl, _, hf'⟩ | ⟨rfl, hpm, _, hf'⟩ <;> rw [hf' r] <;> dsimp only
      · have hout : r.ours = false := ha r hr hrp
        refine ⟨fun hm => ⟨hst c g (by simp [← hm, hrp]), (ho.1 hm).2⟩, fun h' => by simp [hout] at h'⟩
      · have hout : r.ours = false := ha r hr hrp
        refine ⟨fun hm => ⟨hm, (ho.1 hm).2⟩, fun h' => by simp [hout] at h'⟩
      · refine ⟨fun hm => ⟨hm, (ho.1 hm).2⟩, fun h' => ?_⟩
        have := (ho.1 (hrp.trans hpm)).2.2
        simp [this] at h'
      · refine ⟨fun hm => absurd (hrp.symm.trans hm) hpm, fun h' => ⟨(ho.2 h').1, ?_⟩⟩
        rw [(ho.2 h').2]; rfl
      · have hout : r.ours = false := ha.1 r hr hrp
        refine ⟨fun hm => ⟨(ho.1 hm).1, ha.2 (hrp.symm.trans hm), (ho.1 hm).2.2⟩, fun h' => by simp [hout] at h'⟩
      · refine ⟨fun hm => ⟨(ho.1 hm).1, ?_, (ho.1 hm).2.2⟩, fun h' => ?_⟩
        · cases r.term <;> simp [Disp.register]
        · have := (ho.1 (hrp.trans hpm)).2.2
          simp [this] at h'
    · simp only [hrp, if_false]
      exact ho
  | gone hk => exact old q (List.mem_filter.1 hq).1
  | same _ _ _ _ => exact old q hq

theorem tame_cons {s t : State} {a : Act} {as : List Act} (h : AllTame s (a :: as)) (hs : step s a = .ok t) : Tame s a ∧ AllTame t as := by
  refine ⟨h [] a as s rfl (.nil _), ?_⟩
  intro pre b post u he hr
  exact h (a :: pre) b post u (by rw [he]; rfl) (.cons hs hr)

theorem Runs.kept {s t : State} (hi : Inv s) (h : Kept s) {as : List Act} (hr : Runs s as t) (ha : AllTame s as) (hst : StaysPut s.me as) : Kept t := by
  induction hr with
  | nil => exact h
  | cons hs _ ih =>
    have h1 := tame_cons ha hs
    refine ih (step_inv hi hs) (step_kept hi h hs h1.1 (stays_cons hst).1) h1.2 ?_
    rw [(step_change hi.posix hs).2]
    exact (stays_cons hst).2

/-- The process leads its group. -/
def OwnGroup (s : State) : Prop := ∀ q ∈ s.procs, q.pid = s.me → q.pgid = s.me

theorem step_own {s u : State} (hi : Inv s) {a : Act} (h : OwnGroup s ∨ a = .enter) (hs : step s a = .ok u) (ha : StaysPut s.me [a]) : OwnGroup u := by
  intro q hq hqm
  have hc := step_change hi.posix hs
  rw [hc.2] at hqm ⊢
  have hch := hc.1
  have hold : a ≠ .enter → ∀ q ∈ s.procs, q.pid = s.me → q.pgid = s.me := by
    intro hne
    rcases h with h1 | h1
    · exact h1
    · exact absurd h1 hne
  generalize hl : u.procs = l at hch hq
  cases hch with
  | @born c n d hc ha hu =>
    have hu' := used_false hu
    rcases List.mem_cons.1 hq with rfl | hq
    · exact absurd hqm hu'.1
    · refine hold ?_ q hq hqm
      rcases ha with ⟨rfl, _⟩ | ⟨rfl, _⟩ <;> simp
  | @map p f hf hk =>
    obtain ⟨r, hr, rfl⟩ := List.mem_map.1 hq
    by_cases hrp : r.pid = p
    · simp only [hrp, if_true] at hqm ⊢
      rw [(hf r).1] at hqm
      rcases hk with ⟨c, g, rfl, hne, hf'⟩ | ⟨rfl, hf'⟩ | ⟨rfl, _, hne, hf'⟩ | ⟨rfl, _, hf'⟩ | ⟨d, rfl, _, hf'⟩ | ⟨rfl, _, _, hf'⟩ <;> rw [hf' r] <;> dsimp only
      · exact ha c g (by simp [← hqm, hrp])
      · exact hqm
      · exact hqm
      · exact hold (by simp) r hr hqm
      · exact hold (by simp) r hr hqm
      · exact hold (by simp) r hr hqm
    · simp only [hrp, if_false] at hqm ⊢
      refine hold ?_ r hr hqm
      rintro rfl
      rcases hk with ⟨c, g, h, _⟩ | ⟨h, _⟩ | ⟨h, hp, _⟩ | ⟨h, _⟩ | ⟨d, h, _⟩ | ⟨h, _⟩ <;> first | (cases h; done) | skip
      exact hrp (hqm.trans hp.symm)
  | gone hk =>
    refine hold ?_ q (List.mem_filter.1 hq).1 hqm
    rcases hk with ⟨c, rfl⟩ | ⟨c, rfl, _⟩ | ⟨rfl, _⟩ <;> simp
  | same he' _ _ _ =>
    by_cases hne : a = .enter
    · rw [hi.posix.leader q hq (he' hne q hq hqm)]; exact hqm
    · exact hold hne q hq hqm

theorem Runs.own {s t : State} (hi : Inv s) (h : OwnGroup s) {as : List Act} (hr : Runs s as t) (ha : StaysPut s.me as) : OwnGroup t := by
  induction hr with
  | nil => exact h
  | cons hs _ ih =>
    refine ih (step_inv hi hs) (step_own hi (.inl h) hs (stays_cons ha).1) ?_
    rw [(step_change hi.posix hs).2]
    exact (stays_cons ha).2

theorem Runs.registered {s t : State} (hi : Inv s) {as : List Act} (hr : Runs s as t) :
    (t.registered = true → s.registered = true ∨ .listen ∈ as) ∧ (s.registered = true ∨ .listen ∈ as → t.registered = true) := by
  induction hr with
  | nil => exact ⟨.inl, fun h => h.elim id (fun h => by cases h)⟩
  | @cons s t u a as hs _ ih =>
    have hn := step_count hs hi.le hi.reg
    have ih := ih (step_inv hi hs)
    refine ⟨fun h => ?_, fun h => ih.2 ?_⟩
    · rcases ih.1 h with h1 | h1
      · rcases hn.2.2.2.2.1 h1 with h2 | h2
        · exact .inl h2
        · exact .inr (by simp [h2])
      · exact .inr (List.mem_cons_of_mem _ h1)
    · rcases h with h1 | h1
      · exact .inl (hn.2.2.2.1 h1)
      · rcases List.mem_cons.1 h1 with h2 | h2
        · exact .inl (hn.2.2.2.2.2.1 h2.symm)
        · exact .inr h2

theorem Runs.survives {s t : State} (hi : Inv s) (h : s.registered = false) {as : List Act} (hr : Runs s as t)
    (ha : ∀ pre post, as = pre ++ .disp s.me .dfl :: post → .listen ∉ pre) :
    t.registered = true → ∀ q ∈ t.procs, q.pid = t.me → q.term.survives = true := by
  have := Runs.snocInd (motive := fun s as t => Inv s → s.registered = false → (∀ pre post, as = pre ++ .disp s.me .dfl :: post → .listen ∉ pre) →
      t.registered = true → ∀ q ∈ t.procs, q.pid = t.me → q.term.survives = true) ?_ ?_ hr
  · exact this hi h ha
  · intro s _ h1 _ h2; rw [h1] at h2; cases h2
  · intro s as t a u hr hs ih hi h1 h2
    have hit := (hr.inv hi)
    refine step_survives hit.1 hs (ih hi h1 ?_) ?_
    · intro pre post he
      exact h2 pre (post ++ [a]) (by rw [he]; simp)
    · rintro hreg rfl
      rcases (hr.registered hi).1 hreg with h3 | h3
      · rw [h1] at h3; cases h3
      · exact h2 as [] (by rw [hit.2]) h3

/-- A handler of the program stays where it is, perhaps called by tokio's. -/
theorem step_calls {s u : State} (hi : Inv s) {a : Act} (hs : step s a = .ok u)
    (h : ∀ q ∈ s.procs, q.pid = s.me → q.term.callsOwn = true) (ha : ∀ d, a ≠ .disp s.me d) : ∀ q ∈ u.procs, q.pid = u.me → q.term.callsOwn = true := by
  intro q hq hqm
  have hc := step_change hi.posix hs
  rw [hc.2] at hqm
  have hch := hc.1
  generalize hl : u.procs = l at hch hq
  cases hch with
  | @born c n d hc ha hu =>
    rcases List.mem_cons.1 hq with rfl | hq
    · exact absurd hqm (used_false hu).1
    · exact h q hq hqm
  | @map p f hf hk =>
    obtain ⟨r, hr', rfl⟩ := List.mem_map.1 hq
    by_cases hrp : r.pid = p
    · simp only [hrp, if_true] at hqm ⊢
      rw [(hf r).1] at hqm
      have ho := h r hr' hqm
      rcases hk with ⟨c, g, rfl, hne, hf'⟩ | ⟨rfl, hf'⟩ | ⟨rfl, _, hne, hf'⟩ | ⟨rfl, hpm, hf'⟩ | ⟨d, rfl, _, hf'⟩ | ⟨rfl, _, _, hf'⟩ <;> rw [hf' r] <;> dsimp only
      · exact ho
      · exact ho
      · exact ho
      · exact absurd (hrp.symm.trans hqm) hpm
      · exact absurd (by rw [← hqm, hrp]) (ha d)
      · revert ho
        cases r.term <;> simp [Disp.register, Disp.callsOwn]
    · simp only [hrp, if_false] at hqm ⊢
      exact h r hr' hqm
  | gone hk => exact h q (List.mem_filter.1 hq).1 hqm
  | same _ _ _ _ => exact h q hq hqm

theorem Runs.calls {s t : State} (hi : Inv s) (h : ∀ q ∈ s.procs, q.pid = s.me → q.term.callsOwn = true) {as : List Act} (hr : Runs s as t)
    (ha : ∀ d, .disp s.me d ∉ as) : ∀ q ∈ t.procs, q.pid = t.me → q.term.callsOwn = true := by
  induction hr with
  | nil => exact h
  | cons hs _ ih =>
    refine ih (step_inv hi hs) (step_calls hi hs h (fun d hd => ha d (by simp [hd]))) ?_
    rw [(step_change hi.posix hs).2]
    exact fun d hd => ha d (List.mem_cons_of_mem _ hd)

theorem step_fg {s u : State} {a : Act} (hs : step s a = .ok u) (ha : ∀ g, a ≠ .foreground g) :
    u.fg = s.fg ∧ (a ≠ .ctrlC → u.ints = s.ints) := by
  cases a <;> simp only [step] at hs <;> (repeat' split at hs) <;> first | (cases hs; done) | skip
  all_goals
    cases hs
    first
      | (exact absurd rfl (ha _))
      | (refine ⟨?_, ?_⟩ <;> grind [State.child, State.upd, State.killpg])

theorem Runs.fg {s t : State} {as : List Act} (hr : Runs s as t) (ha : ∀ g, .foreground g ∉ as) : t.fg = s.fg := by
  induction hr with
  | nil => rfl
  | cons hs _ ih =>
    rw [ih (fun g hg => ha g (List.mem_cons_of_mem _ hg)), (step_fg hs (fun g hg => ha g (by simp [hg]))).1]

end Verif.Signals
