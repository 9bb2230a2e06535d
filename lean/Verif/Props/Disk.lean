import Verif.Proof.Disk
import Verif.Props.World

/-!
# C110, C111, C112: histories over the bytes of the log file
-/

namespace Verif.Props.Disk
open Verif Verif.Json Verif.Disk

variable {d d' : State} {as bs : List Act}

/-- **C110.** Wherever the ends of processes have cut the file, every session is one of the histories over entries: all that is
proved of those holds of it. -/
theorem session_is_history (hr : Runs init as d) (hs : d.world.sess.isSome = true) : World.Reachable d.world := by
  obtain ⟨ws, w, _, h2, _⟩ := Sim.init.runs hr
  rw [h2.same hs]
  exact h2.reach

/-- **C110.** Whatever one session has flushed is read by every later session, and is where it was. -/
theorem flushed_is_read (hr : Runs init as d) {s : World.Sess} (hs : d.world.sess = some s) (hr' : Runs d bs d')
    (hs' : d'.world.sess.isSome = true) : d.world.log.take s.flushed <+: d'.world.log := by
  obtain ⟨_, w, _, h2, _⟩ := Sim.init.runs hr
  obtain ⟨ws, w', h3, h4, _⟩ := h2.runs hr'
  have := (World.returned_is_durable_partial h2.reach).2.1 ws w' h3
  rw [← h2.same (by rw [hs]; rfl), ← h4.same hs'] at this
  simpa [World.World.durable, hs] using this

/-- **C110.** A key recorded as successful is not made ready, started or finished again, in whatever session. -/
theorem success_never_rerun (hr : Runs init as d) (hs : d.world.sess.isSome = true) : World.NoRerun d.world.log :=
  World.success_never_rerun (session_is_history hr hs)

theorem opens_of_status {w : World.World} (h : Sim d w) (hn : d.world.sess = none)
    (hb : d.bytes = fileOf w.file ∨ d.bytes ++ [10] = fileOf w.file) : Opens d := by
  refine ⟨hn, fun dir roots newKey info => ?_⟩
  obtain ⟨lf, h1, h2⟩ := h.opens hb dir
  obtain ⟨w', hw'⟩ := World.open_succeeds h.reach (by rw [h.sess, hn]) dir roots newKey info
  have hww : ({ d.world with file := lf.entries } : World.World) = w := by
    rw [h2]
    have e1 := h.sess; have e2 := h.multi
    rw [hn] at e1
    cases w; cases hd : d.world
    simp_all
  refine ⟨⟨d.bytes, w'⟩, ?_⟩
  simp only [step, h1, hww, hw', Res.bind]

theorem refused_of_broken (hn : d.world.sess = none) (hb : Broken d.bytes) : Refused d := by
  refine ⟨hn, fun dir roots newKey info => ?_⟩
  obtain ⟨x, hx⟩ := hb dir
  simp only [step, hx]

theorem not_both (h1 : Opens d) (h2 : Refused d) : False := by
  obtain ⟨d', hd⟩ := h1.2 "" [] "" World.info
  rw [h2.2] at hd
  cases hd

/-- **C111.** When the end of a process leaves the first `n` bytes of what it had read and written, then the constructor succeeds iff
the process has added nothing to the file, or the file it found ended with a newline and the cut is next to a newline (behind it or
just before it). Otherwise the constructor fails. -/
theorem reopens_iff (hr : Runs init as d) {n : Nat} (hs : step d (.stop n) = .ok d') :
    (Opens d' ↔ n = d.bytes.length ∨ (LineEnd d.bytes ∧ ((content d)[n - 1]? = some 10 ∨ (content d)[n]? = some 10))) ∧
    (Opens d' ∨ Refused d') := by
  obtain ⟨_, w, _, h, _⟩ := Sim.init.runs hr
  simp only [step] at hs
  split at hs
  · cases hs
  · rename_i s hsess
    split at hs
    · rename_i hb
      cases hs
      have hw : d.world = w := h.same (by rw [hsess]; rfl)
      obtain ⟨keep, w', g1, g2⟩ := h.stop hsess hb.1 hb.2
      have hws : w.sess = some s := by rw [h.sess, hsess]
      have hre : World.Reachable w' := by
        obtain ⟨bs, hbs⟩ := h.reach
        exact ⟨bs ++ [.stop keep], worldRuns_append hbs (.cons g1 (.nil _))⟩
      simp only [World.step, hws] at g1
      split at g1
      · cases g1
        have hlog : ∀ e ∈ ({ w with file := w.log.take keep, sess := none } : World.World).log, Writable e := by
          intro e he
          simp only [World.World.log] at he
          exact h.writable e (List.mem_of_mem_take he)
        have sim : ∀ hst, Sim (⟨(content d).take n, { d.world with file := [], sess := none }⟩ : State)
            ({ w with file := w.log.take keep, sess := none } : World.World) :=
          fun hst => ⟨hre, (by intro e; cases e), rfl, h.multi, hlog, hst⟩
        have htidy : d.bytes = fileOf d.world.file → LineEnd d.bytes := fun e => by rw [e]; exact lineEnd_fileOf _
        cases g2 with
        | line h1 h0 hat =>
          have ho := opens_of_status (sim (.inl h1)) rfl (.inl h1)
          refine ⟨⟨fun _ => ?_, fun _ => ho⟩, .inl ho⟩
          rcases hat with hat | hat
          · exact .inl hat
          · refine .inr ⟨?_, .inl hat⟩
            rcases h.status with hb | hb | ⟨hb, _⟩
            · exact htidy (by rw [hw]; exact hb)
            · rw [hw] at h0; exact absurd hb h0
            · rw [hb] at hsess; cases hsess
        | bare h1 hat =>
          have ho := opens_of_status (sim (.inr (.inl h1))) rfl (.inr h1)
          refine ⟨⟨fun _ => ?_, fun _ => ho⟩, .inl ho⟩
          rcases hat with hat | ⟨hat, hat'⟩
          · exact .inl hat
          · exact .inr ⟨htidy hat, .inr hat'⟩
        | broken h1 hne hat =>
          have hf : Refused (⟨(content d).take n, { d.world with file := [], sess := none }⟩ : State) := refused_of_broken rfl h1
          refine ⟨⟨fun ho => absurd hf (not_both ho), ?_⟩, .inr hf⟩
          rintro (he | ⟨he, he'⟩)
          · exact absurd he hne
          · rcases hat with hat | ⟨k1, k2⟩
            · exact absurd he (bare_not_lineEnd hat)
            · rcases he' with he' | he'
              · exact absurd he' k1
              · exact absurd he' k2
      · cases g1
    · cases hs

/-- **C111.** If all ends of processes have left files that end with a newline, the constructor succeeds. -/
theorem opens_if_lines_whole (hr : Runs init as d) (hn : d.world.sess = none) (hl : ∀ bs ∈ left init as, LineEnd bs) : Opens d := by
  obtain ⟨_, w, _, h, hb⟩ := Sim.init.runs hr
  exact opens_of_status h hn (.inl (hb rfl hl))

/-- **C111.** Once the constructor is refused, nothing can happen any more: this library never repairs the file. -/
theorem refused_forever (h : Refused d) (hr : Runs d bs d') : bs = [] ∧ d' = d := by
  cases hr with
  | nil => exact ⟨rfl, rfl⟩
  | @cons _ d1 _ a as hs _ _ =>
    exfalso
    cases a with
    | stop n => simp only [step, h.1] at hs; cases hs
    | world a =>
      cases a with
      | «open» dir roots newKey info => rw [h.2] at hs; cases hs
      | stop k => cases hs
      | add cmd deps => simp [step, World.step, h.1, Res.bind] at hs
      | exec target rerun fizzles ch now => simp [step, World.step, h.1, Res.bind] at hs
      | trk a => simp [step, World.step, h.1, Res.bind] at hs
      | finish => simp [step, World.step, h.1, Res.bind] at hs

/-- **C112.** A session whose constructor found a file without newline at its end: if anything it did reaches the file, no later
constructor succeeds. -/
theorem lost_newline_dooms (hr : Runs init as d) {n : Nat} (hl : ¬ LineEnd d.bytes) (hs : step d (.stop n) = .ok d')
    (hn : n ≠ d.bytes.length) : Refused d' := by
  obtain ⟨h1, h2 | h2⟩ := reopens_iff hr hs
  · rcases h1.1 h2 with h | ⟨h, _⟩
    · exact absurd h hn
    · exact absurd h hl
  · exact h2

/-- **C110.** No history panics, save by `add_task` (see `World.history_no_panic`). -/
theorem bytes_no_panic (hr : Runs init as d) (hd : ∀ s, d.world.sess = some s → ∀ c ∈ s.g.deps.nodes, (c.displayText).isSome)
    (a : Act) (ha : ∀ cmd deps, a ≠ .world (.add cmd deps)) (m : String) : step d a ≠ .panic m := by
  obtain ⟨_, w, _, h, _⟩ := Sim.init.runs hr
  intro hp
  cases a with
  | stop n =>
    simp only [step] at hp
    split at hp
    · cases hp
    · split at hp <;> cases hp
  | world a =>
    by_cases hsome : d.world.sess.isSome = true
    · have hI := session_is_history hr hsome
      have key : ∀ a, (∀ cmd deps, a ≠ World.Act.add cmd deps) →
          (World.step d.world a).bind (fun w => Res.ok (ε := Unit) { d with world := w }) ≠ .panic m := by
        intro a ha hp
        cases hst : World.step d.world a with
        | ok x => rw [hst] at hp; cases hp
        | err x => rw [hst] at hp; cases hp
        | panic x => exact World.history_no_panic hI hd a ha x hst
      cases a with
      | add cmd deps => exact ha _ _ rfl
      | «open» dir roots newKey info =>
        obtain ⟨s, hs⟩ := Option.isSome_iff_exists.1 hsome
        have hst : d.bytes = fileOf w.file ∨ d.bytes ++ [10] = fileOf w.file := by
          rcases h.status with hb | hb | ⟨hb, _⟩
          · exact .inl hb
          · exact .inr hb
          · rw [hb] at hs; cases hs
        obtain ⟨lf, h1, h2⟩ := h.opens hst dir
        simp only [step, h1, World.step, hs, Res.bind] at hp
        cases hp
      | stop k => cases hp
      | exec target rerun fizzles ch now => exact key _ (by intro _ _ e; cases e) hp
      | trk a => exact key _ (by intro _ _ e; cases e) hp
      | finish => exact key _ (by intro _ _ e; cases e) hp
    · have hn : d.world.sess = none := by cases hx : d.world.sess <;> simp_all
      cases a with
      | «open» dir roots newKey info =>
        rcases h.status with hb | hb | ⟨_, hb⟩
        · obtain ⟨_, e⟩ := (opens_of_status h hn (.inl hb)).2 dir roots newKey info
          rw [e] at hp; cases hp
        · obtain ⟨_, e⟩ := (opens_of_status h hn (.inr hb)).2 dir roots newKey info
          rw [e] at hp; cases hp
        · rw [(refused_of_broken hn hb).2] at hp; cases hp
      | stop k => cases hp
      | add cmd deps => simp [step, World.step, hn, Res.bind] at hp
      | exec target rerun fizzles ch now => simp [step, World.step, hn, Res.bind] at hp
      | trk a => simp [step, World.step, hn, Res.bind] at hp
      | finish => simp [step, World.step, hn, Res.bind] at hp

instance : DecidablePred Writable := fun e => by
  cases e <;> unfold Writable <;> infer_instance

/-- The demo's first session: `a` succeeds, `b` is started. -/
def first : List World.Act :=
  World.open2 ++ [World.exec2] ++ World.begun ++ World.started 0 ++ World.exits 0 0 [1] ++ World.sent ++ World.started 1

/-- Its second session: `b` is run again and succeeds, `execute` returns. -/
def second : List World.Act :=
  World.open2 ++ [.exec none true 1 ⟨[0, 1], [1, 0], [0], ["a"]⟩ 0] ++ World.begun ++ World.started 0 ++ World.exits 0 0 [] ++
    World.returns

theorem split_runs {w w' : World.World} {us vs : List World.Act} (h : World.Runs w (us ++ vs) w') :
    ∃ w1, World.Runs w us w1 ∧ World.Runs w1 vs w' := by
  induction us generalizing w with
  | nil => exact ⟨w, .nil _, h⟩
  | cons a us ih =>
    cases h with
    | cons hs hr =>
      obtain ⟨w1, h1, h2⟩ := ih hr
      exact ⟨w1, .cons hs h1, h2⟩

theorem runs_fun {w w1 w2 : World.World} {ws : List World.Act} (h1 : World.Runs w ws w1) (h2 : World.Runs w ws w2) : w1 = w2 := by
  induction h1 with
  | nil => cases h2; rfl
  | cons hs _ ih =>
    cases h2 with
    | cons hs' hr' =>
      rw [hs] at hs'
      cases hs'
      exact ih hr'

/-- The history over entries the demo follows. -/
theorem demo_entries : ∃ w1 w2 w3, World.Runs World.init first w1 ∧ World.step w1 (.stop 6) = .ok w2 ∧ World.Runs w2 second w3 ∧
    (∀ e ∈ w1.log, Writable e) ∧ w1.log.length = 6 ∧ w1.sess.map (·.flushed) = some 0 ∧ w1.file = [] ∧
    (∀ e ∈ w3.log, Writable e) ∧ w3.file.length = 6 ∧ w3.result = some (0, ["b"]) ∧ w3.running = none ∧
    w3.sess.map (fun s => decide (6 < s.flushed ∧ s.flushed = w3.log.length)) = some true := by
  obtain ⟨w3, h1, h2⟩ := World.runs_of_after (as := first ++ ([.stop 6] ++ second)) (p := fun w =>
    decide (∀ e ∈ w.log, Writable e) && decide (w.file.length = 6) && decide (w.result = some (0, ["b"])) && decide (w.running.isNone) &&
    decide (w.sess.map (fun s => decide (6 < s.flushed ∧ s.flushed = w.log.length)) = some true)) (by decide +kernel)
  obtain ⟨w1, h3, h4⟩ := World.runs_of_after (as := first) (p := fun w =>
    decide (∀ e ∈ w.log, Writable e) && decide (w.log.length = 6) && decide (w.sess.map (·.flushed) = some 0) && decide (w.file = []))
    (by decide +kernel)
  obtain ⟨w1', h5, h6⟩ := split_runs h1
  cases runs_fun h3 h5
  cases h6 with
  | cons hs hr =>
    simp only [Bool.and_eq_true, decide_eq_true_eq] at h2 h4
    obtain ⟨⟨⟨⟨a1, a2⟩, a3⟩, a4⟩, a5⟩ := h2
    obtain ⟨⟨⟨b1, b2⟩, b3⟩, b4⟩ := h4
    exact ⟨w1, _, w3, h3, hs, hr, b1, b2, b3, b4, a1, a2, a3, by simpa using a4, a5⟩

/-- **C112 (violated).** A process is killed when the file has all it has written but the last newline. The constructor of the next
process succeeds, `b` is run, `execute` returns success; but however that process ends, no constructor ever succeeds again. -/
theorem lost_newline_violated : ∃ as d1 n d2 bs d3, Runs init as d1 ∧ step d1 (.stop n) = .ok d2 ∧ n + 1 = (content d1).length ∧ Opens d2 ∧
    Runs d2 bs d3 ∧ d3.world.result = some (0, ["b"]) ∧ d3.world.running = none ∧
    ∀ m d4, step d3 (.stop m) = .ok d4 → Refused d4 := by
  obtain ⟨w1, w2, w3, h1, h2, h3, a1, a2, a3, a4, b1, b2, b3, b4, b5⟩ := demo_entries
  obtain ⟨d1, g1, g2, g3, _⟩ := Sim.lift h1 (by decide) a1 Sim.init (.inl rfl)
  obtain ⟨s1, hs1, hfl⟩ := Option.map_eq_some_iff.1 a3
  have hsess1 : d1.world.sess = some s1 := by rw [← g2.sess, hs1]
  have hw1 : d1.world = w1 := g2.same (by rw [hsess1]; rfl)
  have hb1 : d1.bytes = [] := g3
  have hc : content d1 = fileOf w1.log := by rw [content, hb1, hw1, a4]; rfl
  obtain ⟨pre, e, hpe⟩ : ∃ pre e, w1.log = pre ++ [e] := by
    rcases List.eq_nil_or_concat w1.log with h | ⟨pre, e, h⟩
    · rw [h] at a2; cases a2
    · exact ⟨pre, e, by rw [h, List.concat_eq_append]⟩
  have hfile : fileOf w1.log = (fileOf pre ++ utf8 (entryText e)) ++ [10] := by
    rw [hpe, fileOf_append, fileOf_cons]; simp [show fileOf [] = [] from rfl]
  have hdur : durable d1 s1 = [] := by rw [durable, hb1, hw1, a4, hfl]; simp [fileOf]
  let n := (fileOf pre ++ utf8 (entryText e)).length
  have hn1 : n + 1 = (content d1).length := by rw [hc, hfile, List.length_append]; rfl
  have hs2 : step d1 (.stop n) = .ok ⟨(content d1).take n, { d1.world with file := [], sess := none }⟩ := by
    simp only [step, hsess1]
    rw [if_pos ⟨by rw [hdur]; simp, by omega⟩]
  have hr1 : Runs init (first.map .world ++ [.stop n]) ⟨(content d1).take n, { d1.world with file := [], sess := none }⟩ :=
    g1.append (.cons hs2 (by intro e; cases e) (.nil _))
  have hbare : (content d1).take n ++ [10] = fileOf w1.log := by rw [hc, hfile, List.take_left]
  have hw2 : w2 = { w1 with file := w1.log, sess := none } := by
    simp only [World.step, hs1] at h2
    split at h2
    · cases h2; rw [List.take_of_length_le (by omega)]
    · cases h2
  have hsim : Sim (⟨(content d1).take n, { d1.world with file := [], sess := none }⟩ : State) w2 := by
    refine ⟨⟨first ++ [.stop 6], worldRuns_append h1 (.cons h2 (.nil _))⟩, (by intro e; cases e), by rw [hw2], by rw [hw2, hw1], ?_, ?_⟩
    · rw [hw2]; exact a1
    · rw [hw2]; exact .inr (.inl hbare)
  have hst : (content d1).take n ++ [10] = fileOf w2.file := by rw [hw2]; exact hbare
  obtain ⟨d3, g4, g5, g6, g7⟩ := Sim.lift h3 (by decide) b1 hsim (.inr hst)
  obtain ⟨s3, hs3, hfl3⟩ := Option.map_eq_some_iff.1 b5
  simp only [decide_eq_true_eq] at hfl3
  have hsess3 : d3.world.sess = some s3 := by rw [← g5.sess, hs3]
  have hw3 : d3.world = w3 := g5.same (by rw [hsess3]; rfl)
  refine ⟨_, d1, n, _, _, d3, g1, hs2, hn1, opens_of_status hsim rfl (.inr hst), g4, by rw [hw3]; exact b3, by rw [hw3]; exact b4, ?_⟩
  intro m d4 hs
  refine lost_newline_dooms (hr1.append g4) ?_ hs ?_
  · rw [g6]; exact bare_not_lineEnd hst
  · intro hm
    simp only [step, hsess3] at hs
    split at hs
    · rename_i hb
      have := hb.1
      rw [durable, List.length_append] at this
      have h0 : fileOf ((d3.world.log.take s3.flushed).drop d3.world.file.length) = [] := List.length_eq_zero_iff.1 (by omega)
      rw [hw3, b2] at h0
      cases hx : (w3.log.take s3.flushed).drop 6 with
      | nil =>
        have := congrArg List.length hx
        rw [List.length_drop, List.length_take] at this
        simp at this
        omega
      | cons x xs => rw [hx, fileOf_cons] at h0; simp at h0
    · cases hs

/-- Non-trivial case of `session_is_history`, `flushed_is_read`, `success_never_rerun`, `reopens_iff`: two sessions, the first cut off before a
newline; `a`'s success was in the log of the first and is in that of the second, which has run `b`. -/
example : ∃ as d1 n d2 bs d3, Runs init as d1 ∧ step d1 (.stop n) = .ok d2 ∧ Runs d2 bs d3 ∧ d3.world.sess.isSome = true ∧
    World.Reachable d3.world := by
  obtain ⟨as, d1, n, d2, bs, d3, h1, h2, _, _, h3, h4, _, _⟩ := lost_newline_violated
  have hs : d3.world.sess.isSome = true := by
    cases hx : d3.world.sess with
    | none => simp [World.World.result, hx] at h4
    | some s => rfl
  have hno : inRange d2 := by
    intro e
    simp only [step] at h2
    split at h2
    · cases h2
    · split at h2
      · cases h2; cases e
      · cases h2
  exact ⟨as, d1, n, d2, bs, d3, h1, h2, h3, hs, session_is_history (h1.append (.cons h2 hno h3)) hs⟩

/-- Non-trivial case of `opens_if_lines_whole`: the first session, killed when all it has written is in the file. -/
example : ∃ as d, Runs init as d ∧ d.world.sess = none ∧ d.bytes ≠ [] ∧ (∀ bs ∈ left init as, LineEnd bs) ∧ Opens d := by
  obtain ⟨w1, w2, w3, h1, h2, h3, a1, a2, a3, a4, _⟩ := demo_entries
  obtain ⟨d1, g1, g2, g3, _⟩ := Sim.lift h1 (by decide) a1 Sim.init (.inl rfl)
  obtain ⟨s1, hs1, hfl⟩ := Option.map_eq_some_iff.1 a3
  have hsess1 : d1.world.sess = some s1 := by rw [← g2.sess, hs1]
  have hw1 : d1.world = w1 := g2.same (by rw [hsess1]; rfl)
  have hb1 : d1.bytes = [] := g3
  have hc : content d1 = fileOf w1.log := by rw [content, hb1, hw1, a4]; rfl
  have hdur : durable d1 s1 = [] := by rw [durable, hb1, hw1, a4, hfl]; simp [fileOf]
  have hs2 : step d1 (.stop (content d1).length) = .ok ⟨content d1, { d1.world with file := [], sess := none }⟩ := by
    simp only [step, hsess1]
    rw [if_pos ⟨by rw [hdur]; simp, Nat.le_refl _⟩, List.take_length]
  have hr := g1.append (.cons hs2 (by intro e; cases e) (.nil _))
  have hleft : ∀ {d d' : State} {ws : List World.Act}, Runs d (ws.map .world) d' → ∀ bs, left d (ws.map .world ++ bs) = left d' bs := by
    intro d d' ws h bs
    induction ws generalizing d with
    | nil => cases h; rfl
    | cons a ws ih =>
      cases h with
      | cons hs _ hr => simp [left, hs, Act.isStop, ih hr]
  have hl : ∀ bs ∈ left init (first.map .world ++ [.stop (content d1).length]), LineEnd bs := by
    rw [hleft g1]
    intro bs hbs
    simp only [left, hs2, Act.isStop, if_true, List.append_nil, List.mem_singleton] at hbs
    rw [hbs, hc]
    exact lineEnd_fileOf _
  refine ⟨_, _, hr, rfl, ?_, hl, opens_if_lines_whole hr rfl hl⟩
  show content d1 ≠ []
  rw [hc]
  cases hx : w1.log with
  | nil => rw [hx] at a2; cases a2
  | cons e es => rw [fileOf_cons]; simp

end Verif.Props.Disk
