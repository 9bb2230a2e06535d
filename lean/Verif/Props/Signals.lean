import Verif.Proof.Signals

/-!
# Process groups and signals around `execute`
-/

namespace Verif.Props.Signals
open Verif Verif.Signals Verif.Spec.Signals

theorem survives_iff (d : Disp) : d.survives = true ↔ d ≠ .dfl := by cases d <;> simp [Disp.survives]

/-- The SIGTERM with which an `execute` ends goes to the group whose number is that of the process, also if `setpgid` had failed (the error of which is thrown away), and ends exactly the
members of this group that have not asked for something else on SIGTERM. -/
theorem sent_to_own_group {s t u : State} {as : List Act} (hf : Fresh s) (hr : Runs s as t) (hst : StaysPut s.me as) (hs : step t .killpg = .ok u) :
    (∀ q ∈ t.procs, q ∉ u.procs ↔ q.pgid = s.me ∧ q.term = .dfl) ∧ ∀ q ∈ u.procs, q ∈ t.procs := by
  have hi := hr.inv (Fresh.inv hf)
  have hl : Leads t := hr.leads (Fresh.inv hf) (fun h => by rw [hf.entered] at h; cases h) hst
  obtain ⟨_, m, _, _, _, hu, _⟩ := killpg_step hi.1 hl hs
  refine ⟨fun q hq => ?_, fun q hq => ?_⟩
  · rw [hu, List.mem_filter, hi.2]
    simp only [hq, true_and, Bool.or_eq_true, bne_iff_ne, survives_iff]
    constructor
    · intro h
      exact ⟨Classical.byContradiction (fun h' => h (.inl h')), Classical.byContradiction (fun h' => h (.inr h'))⟩
    · rintro ⟨h1, h2⟩ (h | h)
      · exact h h1
      · exact h h2
  · rw [hu] at hq
    exact (List.mem_filter.1 hq).1

/-- `execute` never fails for want of a group: whatever the process was before, it leads its own group afterwards, as the only change. -/
theorem always_own_group {s : State} {g : Nat} {d : Disp} (hf : Fresh s) (hme : Me s g d) : ∃ s1, step s .enter = .ok s1 ∧ Me s1 s.me d ∧ ∀ q, q.pid ≠ s.me → (q ∈ s1.procs ↔ q ∈ s.procs) := by
  have hi := Fresh.inv hf
  obtain ⟨m, hm, hmp, _, hmt⟩ := hme
  obtain ⟨q, hq⟩ := find_of_mem hm
  rw [hmp] at hq
  have hq' := find_mem hq
  have hqm : q = m := pid_unique hi.posix hq'.1 hm (hq'.2.trans hmp.symm)
  subst hqm
  obtain ⟨s1, hs⟩ : ∃ s1, step s .enter = .ok s1 := ⟨_, by simp only [step, hq]; rfl⟩
  have hch := step_change hi.posix hs
  refine ⟨s1, hs, ?_, ?_⟩
  · have hown := step_own hi (.inr rfl) hs (by intro c g h; simp at h)
    have : ∃ r ∈ s1.procs, r.pid = s.me ∧ r.term = d := by
      have h1 := hch.1
      generalize s1.procs = l at h1
      cases h1 with
      | born _ hk _ => rcases hk with ⟨h, _⟩ | ⟨h, _⟩ <;> cases h
      | @map p f hf' hk =>
        rcases hk with ⟨c, g, h, _⟩ | ⟨h, _⟩ | ⟨_, _, _, hff⟩ | ⟨h, _⟩ | ⟨d, h, _⟩ | ⟨h, _⟩ <;> first | (cases h; done) | skip
        refine ⟨_, List.mem_map.2 ⟨q, hq'.1, rfl⟩, ?_, ?_⟩
        · split
          · rw [hff]; exact hmp
          · exact hmp
        · split
          · rw [hff]; exact hmt
          · exact hmt
      | gone hk => rcases hk with ⟨c, h⟩ | ⟨c, h, _⟩ | ⟨h, _⟩ <;> cases h
      | same _ _ _ _ => exact ⟨q, hq'.1, hmp, hmt⟩
    obtain ⟨r, hr, h1, h2⟩ := this
    exact ⟨r, hr, by rw [h1, hch.2], by rw [← hch.2]; exact hown r hr (by rw [h1, hch.2]), h2⟩
  · intro r hne
    have h1 := hch.1
    generalize s1.procs = l at h1
    cases h1 with
    | born _ hk _ => rcases hk with ⟨h, _⟩ | ⟨h, _⟩ <;> cases h
    | @map p f hf' hk =>
      rcases hk with ⟨c, g, h, _⟩ | ⟨h, _⟩ | ⟨_, hp, _, hff⟩ | ⟨h, _⟩ | ⟨d, h, _⟩ | ⟨h, _⟩ <;> first | (cases h; done) | skip
      subst hp
      rw [List.mem_map]
      constructor
      · rintro ⟨x, hx, rfl⟩
        split
        · rename_i h
          rw [if_pos h, (hf' x).1] at hne
          exact absurd h hne
        · exact hx
      · intro hr
        exact ⟨r, hr, by rw [if_neg hne]⟩
    | gone hk => rcases hk with ⟨c, h⟩ | ⟨c, h, _⟩ | ⟨h, _⟩ <;> cases h
    | same _ _ _ _ => exact Iff.rfl

/-- If the process did not share the group with others when the first `execute` was called, and nobody else is taken into the group, then the signal ends only processes forked by the process, directly or
indirectly. -/
theorem only_descendants_partial {s t u : State} {as : List Act} (hf : Fresh s) (halone : ∀ q ∈ s.procs, q.pgid = s.me → q.pid = s.me)
    (hr : Runs s as t) (hst : StaysPut s.me as) (hj : NobodyJoins s.me as) (hs : step t .killpg = .ok u) :
    ∀ q ∈ t.procs, q ∉ u.procs → q.pid = s.me ∨ q.ours = true := by
  intro q hq hgone
  have h := ((sent_to_own_group hf hr hst hs).1 q hq).1 hgone
  have hi := hr.inv (Fresh.inv hf)
  have := hr.priv (Fresh.inv hf) (fun q hq hg => .inl (halone q hq hg)) hj q hq (by rw [hi.2]; exact h.1)
  rwa [hi.2] at this

/-- After `execute` has been called nothing has been forked yet. -/
theorem kept_of_enter {s s1 : State} {g : Nat} {d : Disp} (hf : Fresh s) (hme : Me s g d) (hd : d ≠ .ign) (he : step s .enter = .ok s1) : Kept s1 := by
  have hi := Fresh.inv hf
  have hm1 : s1.me = s.me := (step_change hi.posix he).2
  have hown : OwnGroup s1 := step_own hi (.inr rfl) he (by intro c g h; simp at h)
  have hfacts : ∀ q ∈ s1.procs, q.ours = false ∧ (q.pid = s.me → q.term = d) := by
    obtain ⟨m, hm, hmp, _, hmt⟩ := hme
    have hold : ∀ q ∈ s.procs, q.ours = false ∧ (q.pid = s.me → q.term = d) := fun q hq => by
      refine ⟨hf.none q hq, fun h => ?_⟩
      rw [pid_unique hi.posix hq hm (h.trans hmp.symm)]; exact hmt
    have hch := (step_change hi.posix he).1
    generalize hl : s1.procs = l at hch
    intro q hq
    cases hch with
    | born _ hk _ => rcases hk with ⟨h, _⟩ | ⟨h, _⟩ <;> cases h
    | @map p f hf' hk =>
      obtain ⟨r, hr, rfl⟩ := List.mem_map.1 hq
      have ho := hold r hr
      rcases hk with ⟨c, g, h, _⟩ | ⟨h, _⟩ | ⟨_, _, _, hff⟩ | ⟨h, _⟩ | ⟨d, h, _⟩ | ⟨h, _⟩ <;> first | (cases h; done) | skip
      split
      · rw [hff r]; exact ho
      · exact ho
    | gone hk => rcases hk with ⟨c, h⟩ | ⟨c, h, _⟩ | ⟨h, _⟩ <;> cases h
    | same _ _ _ _ => exact hold q hq
  refine ⟨fun q hq hqm => ⟨hown q hq hqm, ?_, (hfacts q hq).1⟩, fun q hq ho => ?_⟩
  · rw [(hfacts q hq).2 (by rw [hqm, hm1])]; exact hd
  · rw [(hfacts q hq).1] at ho; cases ho

/-- What the process has forked since `execute` was called is gone after the signal, however many generations of processes there are, if all of it stays in the group and leaves SIGTERM alone. -/
theorem descendants_ended_partial {s s1 t u : State} {as : List Act} {g : Nat} {d : Disp} (hf : Fresh s) (hme : Me s g d) (hd : d ≠ .ign) (he : step s .enter = .ok s1)
    (hr : Runs s1 as t) (ht : AllTame s1 as) (hst : StaysPut s.me as) (hs : step t .killpg = .ok u) : ∀ q ∈ u.procs, q.ours = false := by
  have hi := Fresh.inv hf
  have hm1 : s1.me = s.me := (step_change hi.posix he).2
  have hi1 := step_inv hi he
  have hkept := kept_of_enter hf hme hd he
  have hk := hr.kept hi1 hkept ht (by rw [hm1]; exact hst)
  have hall := sent_to_own_group hf (.cons he hr) (as := .enter :: as) (by
    intro c g h
    rcases List.mem_cons.1 h with h | h
    · cases h
    · exact hst c g h) hs
  intro q hq
  cases ho : q.ours with
  | false => rfl
  | true =>
    have hqt := hall.2 q hq
    have := hk.kin q hqt ho
    rw [(hr.inv hi1).2, hm1] at this
    exact absurd hq (((hall.1 q hqt).2) this)

/-- The process survives its own signal, unless its program has set SIGTERM to the default after an `execute` had got that far: tokio installs its handler only once. -/
theorem survives_own_signal_partial {s t u : State} {as : List Act} (hf : Fresh s) (hr : Runs s as t) (hst : StaysPut s.me as)
    (hd : ∀ pre post, as = pre ++ .disp s.me .dfl :: post → .listen ∉ pre) (hs : step t .killpg = .ok u) : ∃ q ∈ u.procs, q.pid = s.me := by
  have hi := hr.inv (Fresh.inv hf)
  have hl : Leads t := hr.leads (Fresh.inv hf) (fun h => by rw [hf.entered] at h; cases h) hst
  obtain ⟨ha, m, hm, hmp, hmg, hu, _⟩ := killpg_step hi.1 hl hs
  refine ⟨m, ?_, by rw [hmp, hi.2]⟩
  rw [hu, List.mem_filter]
  refine ⟨hm, ?_⟩
  rw [hr.survives (Fresh.inv hf) hf.registered hd (hi.1.reg ha) m hm hmp]
  simp

/-- What one action does to the numbers of `execute`s. -/
theorem step_numbers {s u : State} {a : Act} (hs : step s a = .ok u) (h : s.armed ≤ s.entered) :
    u.armed + [a].count .killpg = s.armed + [a].count .listen ∧ u.entered + [a].count .killpg + [a].count .leave = s.entered + [a].count .enter := by
  cases a <;> simp only [step] at hs <;> (repeat' split at hs) <;> first | (cases hs; done) | skip
  all_goals
    cases hs
    simp only [List.count_cons, List.count_nil, State.child, State.upd, State.killpg]
    try simp
    try omega

/-- Every `execute` sends at most one signal, after it has begun to listen, and can always send it: as many signals are sent as there are `execute`s that have got that far, less those that are just
between the two; an `execute` that has left otherwise sends none. -/
theorem one_signal_each {s t : State} {as : List Act} (hf : Fresh s) (hr : Runs s as t) :
    as.count .killpg ≤ as.count .listen ∧ as.count .listen + as.count .leave ≤ as.count .enter ∧
    ((∃ g d, Me t g d) → ((∃ u, step t .killpg = .ok u) ↔ as.count .killpg < as.count .listen)) := by
  have key : ∀ {s t : State} {as : List Act}, Inv s → Runs s as t → t.armed + as.count .killpg = s.armed + as.count .listen ∧
      t.entered + as.count .killpg + as.count .leave = s.entered + as.count .enter := by
    intro s t as hi hr
    induction hr with
    | nil => simp
    | @cons s t u a as hs _ ih =>
      have h1 := step_numbers hs hi.le
      have h2 := ih (step_inv hi hs)
      have hc : ∀ x : Act, (a :: as).count x = [a].count x + as.count x := fun x => by
        rw [show a :: as = [a] ++ as from rfl, List.count_append]
      simp only [hc]
      omega
  have hi := Fresh.inv hf
  obtain ⟨k1, k2⟩ := key hi hr
  rw [hf.armed] at k1
  rw [hf.entered] at k2
  have hle := (hr.inv hi).1.le
  refine ⟨by omega, by omega, ?_⟩
  rintro ⟨g, d, q, hq, hqm, _, _⟩
  obtain ⟨m, hm⟩ := find_of_mem hq
  rw [hqm] at hm
  simp only [step, hm]
  constructor
  · rintro ⟨u, hu⟩
    split at hu
    · cases hu
    · omega
  · intro h
    rw [if_neg (by omega)]
    exact ⟨_, rfl⟩

/-- Claim: `execute` does not change how the process can be ended. False: SIGTERM ends the process before the first `execute`, but not after one that got as far as its own signal, for ever (unless the program sets it to the default
itself). -/
theorem no_longer_ends_violated {s t : State} {as : List Act} {g g' : Nat} {d : Disp} (hf : Fresh s) (hme : Me s g .dfl) (hr : Runs s as t) (hlisten : .listen ∈ as)
    (hd : ∀ pre post, as = pre ++ .disp s.me .dfl :: post → .listen ∉ pre) (hthere : Me t g' d) :
    (∃ u, step s (.term s.me) = .ok u ∧ ∀ q ∈ u.procs, q.pid ≠ s.me) ∧ (∃ u, step t (.term s.me) = .ok u ∧ ∃ q ∈ u.procs, q.pid = s.me) := by
  have hi := Fresh.inv hf
  have hit := hr.inv hi
  refine ⟨⟨_, rfl, ?_⟩, ⟨_, rfl, ?_⟩⟩
  · intro q hq hqm
    obtain ⟨m, hm, hmp, _, hmt⟩ := hme
    have hq' := List.mem_filter.1 hq
    have : q = m := pid_unique hi.posix hq'.1 hm (hqm.trans hmp.symm)
    subst this
    have := hq'.2
    simp [hmp, hmt, Disp.survives] at this
  · obtain ⟨m, hm, hmp, _, _⟩ := hthere
    refine ⟨m, ?_, by rw [hmp, hit.2]⟩
    rw [List.mem_filter]
    refine ⟨hm, ?_⟩
    rw [hr.survives hi hf.registered hd ((hr.registered hi).2 (.inr hlisten)) m hm hmp]
    simp

/-- Claim: `execute` does not trigger what the program does on SIGTERM. False: a handler the program has installed is called at the end of every `execute` that ran something. -/
theorem own_handler_called_violated {s t u : State} {as : List Act} {g : Nat} (hf : Fresh s) (hme : Me s g .own) (hr : Runs s as t) (hst : StaysPut s.me as)
    (hd : ∀ d, .disp s.me d ∉ as) (hs : step t .killpg = .ok u) : u.calls = t.calls + 1 := by
  have hi := Fresh.inv hf
  have hit := hr.inv hi
  have hl : Leads t := hr.leads hi (fun h => by rw [hf.entered] at h; cases h) hst
  obtain ⟨_, m, hm, hmp, _, _, hc⟩ := killpg_step hit.1 hl hs
  have := hr.calls hi (by
    intro q hq hqm
    obtain ⟨m, hm, hmp, _, hmt⟩ := hme
    rw [pid_unique hi.posix hq hm (hqm.trans hmp.symm), hmt]; rfl) hd m hm hmp
  rw [hc, this]; rfl

/-- In general: the signal of `execute` calls a handler of the program exactly if the program had one when tokio's was installed, or has one now. -/
theorem handler_called_iff {s t u : State} {as : List Act} {g : Nat} {d : Disp} (hf : Fresh s) (hr : Runs s as t) (hst : StaysPut s.me as) (hme : Me t g d)
    (hs : step t .killpg = .ok u) : u.calls = t.calls + (if d = .own ∨ d = .tokio true then 1 else 0) := by
  have hi := Fresh.inv hf
  have hit := hr.inv hi
  have hl : Leads t := hr.leads hi (fun h => by rw [hf.entered] at h; cases h) hst
  obtain ⟨_, m, hm, hmp, _, _, hc⟩ := killpg_step hit.1 hl hs
  obtain ⟨q, hq, hqm, _, hqt⟩ := hme
  rw [hc, pid_unique hit.1.posix hm hq (hmp.trans hqm.symm), hqt]
  cases d with
  | tokio b => cases b <;> rfl
  | _ => rfl

/-- A run, from the actions. -/
def play (s : State) : List Act → Option State
  | [] => some s
  | a :: as => match step s a with
    | .ok t => play t as
    | _ => none

theorem runs_of_play {s t : State} {as : List Act} (h : play s as = some t) : Runs s as t := by
  induction as generalizing s with
  | nil => cases h; exact .nil _
  | cons a as ih =>
    simp only [play] at h
    split at h
    · rename_i hs; exact .cons hs (ih h)
    · cases h

/-- A shell (1), and in the foreground the pipeline `python workflow.py | tee log`, as the shell has set it up: 10 leads the group, 11 is `tee`. -/
def pipeline : State := ⟨[⟨1, 1, 1, 0, .ign, false⟩, ⟨10, 10, 1, 1, .dfl, false⟩, ⟨11, 10, 1, 1, .dfl, false⟩], 10, 10, false, 0, 0, 0, 0⟩

/-- A shell (1), and in the foreground a script (5) which has called Python (10). -/
def script : State := ⟨[⟨1, 1, 1, 0, .ign, false⟩, ⟨5, 5, 1, 1, .dfl, false⟩, ⟨10, 5, 1, 5, .dfl, false⟩], 10, 5, false, 0, 0, 0, 0⟩

/-- Python as the first process of a session (for instance in a container); the leader of a session can not be moved. -/
def container : State := ⟨[⟨1, 1, 1, 0, .dfl, false⟩], 1, 1, false, 0, 0, 0, 0⟩

theorem fresh_pipeline : Fresh pipeline := ⟨⟨by decide, by decide⟩, rfl, rfl, rfl, by decide⟩
theorem fresh_script : Fresh script := ⟨⟨by decide, by decide⟩, rfl, rfl, rfl, by decide⟩
theorem fresh_container : Fresh container := ⟨⟨by decide, by decide⟩, rfl, rfl, rfl, by decide⟩

/-- An `execute` whose task (20) starts another process (21) that stays. -/
def workflow : List Act := [.enter, .spawn 20, .fork 20 21, .exec 21, .exit 20, .listen, .killpg]

/-- Claim: only what `execute` has started is ended by it. False: in `python workflow.py | tee log` the first `execute` ends `tee` (and what is printed afterwards is lost). -/
theorem pipeline_violated : ∃ t, Runs pipeline workflow t ∧ (∃ q ∈ pipeline.procs, q.pid = 11 ∧ q.ours = false) ∧ .exit 11 ∉ workflow ∧ ∀ q ∈ t.procs, q.pid ≠ 11 :=
  ⟨(play pipeline workflow).get (by decide), runs_of_play (by decide), by decide, by decide, by decide⟩

/-- Claim: two `execute`s of one process (of two graphs, in two threads) do not disturb each other. False: the one that ends first ends the running tasks (22) of the other. -/
theorem other_execute_violated : ∃ t u, Runs script [.enter, .spawn 20, .enter, .spawn 22, .exit 20, .listen] t ∧ step t .killpg = .ok u ∧ u.entered = 1 ∧
    (∃ q ∈ t.procs, q.pid = 22) ∧ ∀ q ∈ u.procs, q.pid ≠ 22 :=
  ⟨(play script [.enter, .spawn 20, .enter, .spawn 22, .exit 20, .listen]).get (by decide),
    (play script [.enter, .spawn 20, .enter, .spawn 22, .exit 20, .listen, .killpg]).get (by decide), runs_of_play (by decide), by decide, by decide, by decide, by decide⟩

/-- Claim: `execute` does not end its own process. False: if the program sets SIGTERM to the default between two `execute`s, the second one ends the process (before it has written the end of the log:
execgraph.rs:394, 413). -/
theorem ends_itself_violated : ∃ t u, Runs script [.enter, .listen, .killpg, .disp 10 .dfl, .enter, .listen] t ∧ step t .killpg = .ok u ∧ (∃ q ∈ t.procs, q.pid = 10) ∧ ∀ q ∈ u.procs, q.pid ≠ 10 :=
  ⟨(play script [.enter, .listen, .killpg, .disp 10 .dfl, .enter, .listen]).get (by decide),
    (play script [.enter, .listen, .killpg, .disp 10 .dfl, .enter, .listen, .killpg]).get (by decide), runs_of_play (by decide), by decide, by decide, by decide⟩

/-- Ctrl-C at the terminal gets to the process if it already was the leader of the foreground group before `execute` was called (as in a pipeline it begins), as long as nobody changes that. -/
theorem ctrl_c_arrives_partial {s t : State} {as : List Act} {d : Disp} {g' : Nat} {d' : Disp} (hf : Fresh s) (hme : Me s s.me d) (hfg : s.fg = s.me) (hr : Runs s as t) (hst : StaysPut s.me as)
    (hno : ∀ g, .foreground g ∉ as) (hthere : Me t g' d') : ∃ u, step t .ctrlC = .ok u ∧ u.ints = t.ints + 1 := by
  refine ⟨_, rfl, ?_⟩
  have hi := Fresh.inv hf
  have hit := hr.inv hi
  have hown : OwnGroup t := hr.own hi (by
    intro q hq hqm
    obtain ⟨m, hm, hmp, hmg, _⟩ := hme
    rw [pid_unique hi.posix hq hm (hqm.trans hmp.symm)]; exact hmg) hst
  obtain ⟨m, hm, hmp, _, _⟩ := hthere
  have : (t.procs.any fun q => q.pid == t.me && q.pgid == t.fg) = true := by
    rw [List.any_eq_true]
    refine ⟨m, hm, ?_⟩
    rw [hr.fg hno, hown m hm hmp, hmp, hfg, hit.2]
    simp
  simp only [this, if_true]

/-- Claim: Ctrl-C interrupts a running `execute`. False if the process was not the leader of the foreground group (called by a script, or not at the beginning of a pipeline): `execute` takes it out of
that group, and no Ctrl-C gets to it any more. -/
theorem ctrl_c_lost_violated {s s1 t : State} {as : List Act} (hf : Fresh s) (hfg : s.fg ≠ s.me) (he : step s .enter = .ok s1) (hr : Runs s1 as t) (hst : StaysPut s.me as)
    (hno : ∀ g, .foreground g ∉ as) : t.ints = s.ints := by
  have hi := Fresh.inv hf
  have hm1 : s1.me = s.me := (step_change hi.posix he).2
  have hown : OwnGroup s1 := step_own hi (.inr rfl) he (by intro c g h; simp at h)
  have h0 := step_fg he (by simp)
  rw [← h0.2 (by simp)]
  have hfg1 : s1.fg ≠ s1.me := by rw [h0.1, hm1]; exact hfg
  have hst1 : StaysPut s1.me as := by rw [hm1]; exact hst
  have hi1 := step_inv hi he
  clear he h0 hm1 hst hfg hf hi
  induction hr with
  | nil => rfl
  | @cons a b c x rest hs _ ih =>
    have hf' := step_fg hs (fun g hg => hno g (by simp [hg]))
    have hmb := (step_change hi1.posix hs).2
    rw [ih (fun g hg => hno g (List.mem_cons_of_mem _ hg)) (step_own hi1 (.inl hown) hs (stays_cons hst1).1) (by rw [hf'.1, hmb]; exact hfg1)
      (by rw [hmb]; exact (stays_cons hst1).2) (step_inv hi1 hs)]
    by_cases hx : x = .ctrlC
    · subst hx
      cases hs
      have : (a.procs.any fun q => q.pid == a.me && q.pgid == a.fg) = false := by
        rw [List.any_eq_false]
        intro q hq h
        simp only [Bool.and_eq_true, beq_iff_eq] at h
        exact hfg1 (h.2.symm.trans (hown q hq h.1))
      simp [this]
    · exact hf'.2 hx

/-- Claim: a task of the console queue, which inherits the terminal, can be used from there. False in the same cases: none of the processes started is in the foreground group, so the system stops those that read from the
terminal. -/
theorem console_lost_violated {s s1 t : State} {as : List Act} {g : Nat} {d : Disp} (hf : Fresh s) (hme : Me s g d) (hd : d ≠ .ign) (hfg : s.fg ≠ s.me) (he : step s .enter = .ok s1)
    (hr : Runs s1 as t) (ht : AllTame s1 as) (hst : StaysPut s.me as) (hno : ∀ g, .foreground g ∉ as) : ∀ q ∈ t.procs, q.ours = true → q.pgid ≠ t.fg := by
  have hi := Fresh.inv hf
  have hm1 : s1.me = s.me := (step_change hi.posix he).2
  have hk := hr.kept (step_inv hi he) (kept_of_enter hf hme hd he) ht (by rw [hm1]; exact hst)
  intro q hq ho
  rw [(hk.kin q hq ho).1, (hr.inv (step_inv hi he)).2, hr.fg hno, (step_fg he (by simp)).1, hm1]
  exact Ne.symm hfg

/-! ## Cases that meet the hypotheses -/

instance (s : State) (a : Act) : Decidable (Tame s a) := by unfold Tame; split <;> infer_instance

/-- Are all actions of a run tame? -/
def tames (s : State) : List Act → Bool
  | [] => true
  | a :: as => decide (Tame s a) && match step s a with
    | .ok t => tames t as
    | _ => true

theorem allTame_of {s : State} {as : List Act} (h : tames s as = true) : AllTame s as := by
  intro pre
  induction pre generalizing s as with
  | nil =>
    intro a post t he hr
    cases hr
    simp only [List.nil_append] at he
    subst he
    simp only [tames, Bool.and_eq_true, decide_eq_true_eq] at h
    exact h.1
  | cons b pre ih =>
    intro a post t he hr
    subst he
    cases hr with
    | cons hs hr =>
      simp only [List.cons_append, tames, Bool.and_eq_true, hs] at h
      exact ih h.2 a post t rfl hr

/-- A task with three generations of processes, one of which daemonizes, called from a script; `tee`-like strangers are not touched. -/
def family : List Act := [.enter, .spawn 20, .fork 20 21, .exec 21, .fork 21 22, .fork 5 30, .setpgid 5 30 30, .exit 20, .listen]

example : ∃ t u, Runs script family t ∧ StaysPut script.me family ∧ NobodyJoins script.me family ∧ (∀ q ∈ script.procs, q.pgid = script.me → q.pid = script.me) ∧
    (∀ pre post, family = pre ++ .disp script.me .dfl :: post → .listen ∉ pre) ∧ step t .killpg = .ok u ∧ t.procs.length = 6 ∧ u.procs.map (·.pid) = [30, 1, 5, 10] := by
  refine ⟨(play script family).get (by decide), (play script (family ++ [.killpg])).get (by decide), runs_of_play (by decide), ?_, ?_, by decide, ?_, by decide, by decide, by decide⟩
  · intro c g h; simp [family, script] at h
  · intro c g h; simp [family, script] at h
  · intro pre post he
    have : Act.disp script.me .dfl ∈ family := by rw [he]; simp
    simp [family] at this

/-- The hypotheses of `descendants_ended_partial` and `console_lost_violated`. -/
example : ∃ s1 t u, step script .enter = .ok s1 ∧ Runs s1 (family.drop 1) t ∧ AllTame s1 (family.drop 1) ∧ StaysPut script.me (family.drop 1) ∧ Me script 5 .dfl ∧ script.fg ≠ script.me ∧
    (∀ g, Act.foreground g ∉ family.drop 1) ∧ step t .killpg = .ok u ∧ ∃ q ∈ t.procs, q.ours = true := by
  refine ⟨(play script [.enter]).get (by decide), (play script family).get (by decide), (play script (family ++ [.killpg])).get (by decide), by decide, runs_of_play (by decide), allTame_of (by decide), ?_,
    ?_, by decide, ?_, by decide, by decide⟩
  · intro c g h; simp [family, script] at h
  · exact ⟨⟨10, 5, 1, 5, .dfl, false⟩, by decide, rfl, rfl, rfl⟩
  · intro g h; simp [family] at h

/-- Where `setpgid` fails. -/
example : ∃ t u, Runs container [.enter, .spawn 20, .listen] t ∧ step t .killpg = .ok u ∧ u.procs.map (·.pid) = [1] :=
  ⟨(play container [.enter, .spawn 20, .listen]).get (by decide), (play container [.enter, .spawn 20, .listen, .killpg]).get (by decide), runs_of_play (by decide), by decide, by decide⟩

/-- Processes that have left the group (as execgraph-remote does) or ignore SIGTERM stay. -/
example : ∃ t, Runs script [.enter, .spawn 20, .fork 20 21, .setpgid 21 21 21, .fork 20 22, .disp 22 .ign, .fork 20 23, .setsid 23, .listen, .killpg] t ∧ t.procs.map (·.pid) = [23, 22, 21, 1, 5, 10] :=
  ⟨(play script [.enter, .spawn 20, .fork 20 21, .setpgid 21 21 21, .fork 20 22, .disp 22 .ign, .fork 20 23, .setsid 23, .listen, .killpg]).get (by decide), runs_of_play (by decide), by decide⟩

/-- The hypotheses of `no_longer_ends_violated`: afterwards `kill` does nothing. -/
example : ∃ t, Runs script workflow t ∧ Me script 5 .dfl ∧ Me t 10 (.tokio false) ∧ .listen ∈ workflow :=
  ⟨(play script workflow).get (by decide), runs_of_play (by decide), ⟨⟨10, 5, 1, 5, .dfl, false⟩, by decide, rfl, rfl, rfl⟩, ⟨⟨10, 10, 1, 5, .tokio false, false⟩, by decide, rfl, rfl, rfl⟩, by decide⟩

/-- A program with a handler of its own. -/
example : ∃ t u, Runs ((script.upd 10 (fun q => { q with term := .own }))) [.enter, .spawn 20, .listen] t ∧ step t .killpg = .ok u ∧ u.calls = 1 ∧
    Me (script.upd 10 (fun q => { q with term := .own })) 5 .own :=
  ⟨(play (script.upd 10 (fun q => { q with term := .own })) [.enter, .spawn 20, .listen]).get (by decide),
    (play (script.upd 10 (fun q => { q with term := .own })) [.enter, .spawn 20, .listen, .killpg]).get (by decide), runs_of_play (by decide), by decide, by decide,
    ⟨⟨10, 5, 1, 5, .own, false⟩, by decide, rfl, rfl, rfl⟩⟩

/-- Non-trivial case of `one_signal_each`: three `execute`s, one has sent its signal, one has listened, one has left. -/
example : ∃ t u, Runs script [.enter, .enter, .listen, .enter, .listen, .killpg, .leave] t ∧ t.entered = 1 ∧ t.armed = 1 ∧ step t .killpg = .ok u :=
  ⟨(play script [.enter, .enter, .listen, .enter, .listen, .killpg, .leave]).get (by decide), (play script [.enter, .enter, .listen, .enter, .listen, .killpg, .leave, .killpg]).get (by decide),
    runs_of_play (by decide), by decide, by decide, by decide⟩

/-- Non-trivial case of `handler_called_iff`: nothing is called in the first `execute`; then the program installs a handler, and it is. -/
example : (∃ t u, Runs script [.enter, .listen] t ∧ Me t 10 (.tokio false) ∧ step t .killpg = .ok u ∧ u.calls = 0) ∧
    ∃ t u, Runs script [.enter, .listen, .killpg, .disp 10 .own, .enter, .listen] t ∧ Me t 10 .own ∧ step t .killpg = .ok u ∧ u.calls = 1 :=
  ⟨⟨(play script [.enter, .listen]).get (by decide), (play script [.enter, .listen, .killpg]).get (by decide), runs_of_play (by decide),
      by unfold Me; decide, by decide, by decide⟩,
    ⟨(play script [.enter, .listen, .killpg, .disp 10 .own, .enter, .listen]).get (by decide),
      (play script [.enter, .listen, .killpg, .disp 10 .own, .enter, .listen, .killpg]).get (by decide), runs_of_play (by decide), by unfold Me; decide, by decide, by decide⟩⟩

/-- Ctrl-C arrives in the pipeline, and not in the script. -/
example : (∃ t, Runs pipeline [.enter, .spawn 20, .ctrlC] t ∧ t.ints = 1 ∧ Me pipeline 10 .dfl ∧ Me t 10 .dfl) ∧ ∃ t, Runs script [.enter, .spawn 20, .ctrlC] t ∧ t.ints = 0 :=
  ⟨⟨(play pipeline [.enter, .spawn 20, .ctrlC]).get (by decide), runs_of_play (by decide), by decide, ⟨⟨10, 10, 1, 1, .dfl, false⟩, by decide, rfl, rfl, rfl⟩,
    ⟨⟨10, 10, 1, 1, .dfl, false⟩, by decide, rfl, rfl, rfl⟩⟩, ⟨(play script [.enter, .spawn 20, .ctrlC]).get (by decide), runs_of_play (by decide), by decide⟩⟩

end Verif.Props.Signals
