import Verif.Proof.Remote

/-!
# Properties of the remote runner (C69–C71, C92–C98)
-/

namespace Verif.Props.Remote
open Verif Verif.Remote

/-! ### C69: the deadline -/

/-- **C69.** The SIGTERM deadline is between the start and the end of the allocation; if the duration is more than 120 s it is
60 s before its end (of one year, if it is longer or not given). -/
theorem deadline_reserve {start : Int} {d : Int} (hd : 0 ≤ d) :
    start ≤ deadline start (some d) ∧ deadline start (some d) ≤ start + d ∧
    (120 * sec < d → d ≤ 31536000 * sec → deadline start (some d) = start + d - 60 * sec) ∧
    (d ≤ 120 * sec → deadline start (some d) = start + d) ∧
    (31536000 * sec < d → deadline start (some d) = start + (31536000 - 60) * sec) ∧
    deadline start none = start + (31536000 - 60) * sec := by
  simp only [deadline, reserve, duration, sigtermBefore, oneYear, sec, Option.getD_some, Option.getD_none]
  refine ⟨?_, ?_, ?_, ?_, ?_, ?_⟩ <;> (try intros) <;> (try split) <;> omega

/-- **C69.** The subtraction in the description never underflows. -/
theorem description_no_panic {d : Option Int} (hd : ∀ x, d = some x → 0 ≤ x) : (description d).isOk = true := by
  unfold description
  rw [if_neg]
  · rfl
  · cases d with
    | none =>
      intro h
      unfold reserve at h
      split at h <;> simp only [duration, sigtermBefore, oneYear, sec, Option.getD_none] at * <;> omega
    | some x =>
      have := hd x rfl
      intro h
      unfold reserve at h
      split at h <;> simp only [duration, sigtermBefore, oneYear, sec, Option.getD_some] at * <;> omega

/-- **C69 (the message, partial).** For more than 120 s the message "a (b minus c for cleanup)" adds up. -/
theorem description_true_partial {d a b r : Int} (hd : 120 * sec < d) (h : description (some d) = .ok (a, b, r)) : a = b - r := by
  unfold description at h
  split at h
  · cases h
  · simp only [Res.ok.injEq, Prod.mk.injEq] at h
    obtain ⟨rfl, rfl, rfl⟩ := h
    have : duration (some d) > sigtermBefore * 2 := by
      simp only [duration, sigtermBefore, oneYear, sec, Option.getD_some] at hd ⊢; omega
    simp only [reserve, if_pos this]

/-- **C69 (the message, violated).** For shorter durations it does not: the whole duration is said to be what is left after 60 s
are taken off. -/
theorem description_false_violated {d : Int} (h0 : 0 ≤ d) (hd : d ≤ 120 * sec) :
    ∃ a b r, description (some d) = .ok (a, b, r) ∧ a = b ∧ r = 60 * sec ∧ a ≠ b - r := by
  have h1 : reserve (some d) = 0 := by
    unfold reserve
    rw [if_neg]
    simp only [duration, sigtermBefore, oneYear, sec, Option.getD_some] at hd ⊢
    omega
  have h2 : 0 ≤ duration (some d) := by simp only [duration, oneYear, sec, Option.getD_some]; omega
  refine ⟨duration (some d), duration (some d), 60 * sec, ?_, rfl, rfl, ?_⟩
  · unfold description
    rw [h1, if_neg (by omega)]
    simp [sigtermBefore]
  · simp only [sec]; omega

/-- One hour: 59 minutes. -/
example : deadline 0 (some (3600 * sec)) = 3540 * sec := by decide

/-! ### C70: SIGTERM, then SIGKILL -/

/-- **C70 (SIGTERM first, partial).** If pids are not used again, a process gets SIGTERM in the first turn in which it is seen. -/
theorem term_when_first_seen_partial {ts : List Turn} (hn : NoReuse ts) {i : Nat} {t : Turn} (ht : ts[i]? = some t) {p : Child}
    (hp : p ∈ t.children) (hi : i < (cleanup [] ts).1.length)
    (hfirst : ∀ j < i, ∀ t', ts[j]? = some t' → ∀ q ∈ t'.children, q.proc ≠ p.proc) :
    ∃ u, ⟨p.proc, .term, u⟩ ∈ sentIn ts i := by
  have hl := List.getElem?_eq_getElem hi
  obtain ⟨t1, m', h1, h2, h3, h4⟩ := cleanup_turn hn Past.nil hl
  have : t1 = t := by rw [ht] at h1; simpa using h1.symm
  subst this
  have hs := signalAll_spec (cutoff := t1.now - 5 * sec) (hn t1 (List.mem_of_getElem? ht)) h3
  have hpid := hn t1 (List.mem_of_getElem? ht) p hp
  rw [sentIn, hl, Option.getD_some, h4, hpid]
  refine hs.2.2.1 p hp ?_
  intro u hu
  rw [List.nil_append, List.mem_flatten] at hu
  obtain ⟨l, hl1, hl2⟩ := hu
  obtain ⟨j, hj⟩ := List.mem_iff_getElem?.1 hl1
  have hji : j < i := by
    have := (List.getElem?_eq_some_iff.1 hj).1
    rw [List.length_take] at this; omega
  rw [List.getElem?_take_of_lt hji] at hj
  obtain ⟨t2, m2, g1, g2, g3, g4⟩ := cleanup_turn hn Past.nil hj
  have hs2 := signalAll_spec (cutoff := t2.now - 5 * sec) (hn t2 (List.mem_of_getElem? g1)) g3
  rw [g4] at hl2
  obtain ⟨q, hq, hq2, _⟩ := hs2.2.2.2.2 _ hl2
  have := hn t2 (List.mem_of_getElem? g1) q hq
  exact hfirst j hji t2 g1 q hq (by rw [this, hpid]; exact hq2.symm)

/-- **C70 (SIGKILL later, partial).** If pids are not used again, a process gets SIGKILL only if it got SIGTERM more than 5 s
before (the time the turn began). -/
theorem kill_only_after_term_partial {ts : List Turn} (hn : NoReuse ts) {i : Nat} {x : Nat} {u : Int}
    (hk : ⟨x, .kill, u⟩ ∈ sentIn ts i) :
    ∃ t j v, ts[i]? = some t ∧ j ≤ i ∧ ⟨x, .term, v⟩ ∈ sentIn ts j ∧ v + 5 * sec < t.now := by
  unfold sentIn at hk
  cases hl : (cleanup [] ts).1[i]? with
  | none => rw [hl] at hk; simp at hk
  | some l =>
    rw [hl, Option.getD_some] at hk
    obtain ⟨t, m', h1, h2, h3, h4⟩ := cleanup_turn hn Past.nil hl
    have hs := signalAll_spec (cutoff := t.now - 5 * sec) (hn t (List.mem_of_getElem? h1)) h3
    rw [h4] at hk
    obtain ⟨v, hv, hc⟩ := hs.2.1 x u hk
    rw [List.nil_append, List.mem_append, ← h4] at hv
    rcases hv with hv | hv
    · rw [List.mem_flatten] at hv
      obtain ⟨l', hl1, hl2⟩ := hv
      obtain ⟨j, hj⟩ := List.mem_iff_getElem?.1 hl1
      have hji : j < i := by
        have := (List.getElem?_eq_some_iff.1 hj).1
        rw [List.length_take] at this; omega
      rw [List.getElem?_take_of_lt hji] at hj
      exact ⟨t, j, v, h1, by omega, by rw [sentIn, hj]; exact hl2, by omega⟩
    · exact ⟨t, i, v, h1, Nat.le_refl _, by rw [sentIn, hl]; exact hv, by omega⟩

/-- **C70 (once, partial).** If pids are not used again, no process gets SIGTERM twice. -/
theorem one_term_partial {ts : List Turn} (hn : NoReuse ts) (x : Nat) :
    ((cleanup [] ts).1.flatten.filter (fun s => decide (s.proc = x ∧ s.signal = .term))).length ≤ 1 := by
  obtain ⟨m, hm⟩ := cleanup_past hn Past.nil
  rw [List.nil_append] at hm
  have hk : ((termsOf (cleanup [] ts).1.flatten).map (·.1)).Nodup := (hm.perm.map _).nodup_iff.2 hm.keys
  generalize (cleanup [] ts).1.flatten = l at hk
  clear hm
  induction l with
  | nil => simp
  | cons a l ih =>
    rw [List.filter_cons]
    obtain ⟨p, sg, u⟩ := a
    cases sg with
    | kill =>
      rw [if_neg (by simp)]
      exact ih hk
    | term =>
      have e : termsOf (⟨p, .term, u⟩ :: l) = (p, u) :: termsOf l := rfl
      rw [e, List.map_cons, List.nodup_cons] at hk
      split
      · rename_i hx
        have hx : p = x := by simpa using hx
        have : l.filter (fun s => decide (s.proc = x ∧ s.signal = .term)) = [] := by
          rw [List.filter_eq_nil_iff]
          rintro ⟨p', sg', u'⟩ h' hc
          simp only [decide_eq_true_eq] at hc
          obtain ⟨rfl, rfl⟩ := hc
          exact hk.1 (by rw [hx]; exact List.mem_map.2 ⟨_, mem_termsOf.2 h', rfl⟩)
        rw [List.length_cons, this]
        exact Nat.le_refl _
      · exact ih hk.2

/-- **C70 (SIGKILL comes, partial).** If pids are not used again, a process still there more than 5 s after its SIGTERM gets
SIGKILL. -/
theorem kill_if_still_there_partial {ts : List Turn} (hn : NoReuse ts) {i j : Nat} {t : Turn} (ht : ts[i]? = some t) {p : Child}
    (hp : p ∈ t.children) (hi : i < (cleanup [] ts).1.length) (hj : j < i) {v : Int} (hv : ⟨p.proc, .term, v⟩ ∈ sentIn ts j)
    (hlate : v + 5 * sec < t.now) : ⟨p.proc, .kill, p.time⟩ ∈ sentIn ts i := by
  have hl := List.getElem?_eq_getElem hi
  obtain ⟨t1, m', h1, h2, h3, h4⟩ := cleanup_turn hn Past.nil hl
  have : t1 = t := by rw [ht] at h1; simpa using h1.symm
  subst this
  have hs := signalAll_spec (cutoff := t1.now - 5 * sec) (hn t1 (List.mem_of_getElem? ht)) h3
  have hpid := hn t1 (List.mem_of_getElem? ht) p hp
  rw [sentIn, hl, Option.getD_some, h4, hpid]
  refine hs.2.2.2.1 p hp v ?_ (by omega)
  rw [List.nil_append, List.mem_flatten]
  unfold sentIn at hv
  cases hlj : (cleanup [] ts).1[j]? with
  | none => rw [hlj] at hv; simp at hv
  | some l =>
    rw [hlj, Option.getD_some, hpid] at hv
    refine ⟨l, ?_, hv⟩
    exact List.mem_of_getElem? (i := j) (by rw [List.getElem?_take_of_lt hj]; exact hlj)

/-- **C70 (return).** The cleanup returns when a snapshot shows no child, or `waitpid` fails, and only then. -/
theorem cleanup_returns {ts : List Turn} {m : List (Nat × Int)} : (cleanup m ts).2 = true ↔ ∃ t ∈ ts, t.children = [] ∨ t.waitFails = true := by
  induction ts generalizing m with
  | nil => simp [cleanup]
  | cons t ts ih =>
    simp only [cleanup]
    split
    · rename_i he; exact ⟨fun _ => ⟨t, by simp, .inl he⟩, fun _ => rfl⟩
    · rename_i he
      split
      · rename_i hw; exact ⟨fun _ => ⟨t, by simp, .inr hw⟩, fun _ => rfl⟩
      · rename_i hw
        simp only [ih, List.mem_cons, exists_eq_or_imp, he, hw, or_self, false_or, Bool.false_eq_true]

/-- A shell and, when it has ended, its child: SIGTERM to the shell, then to the child; the child, which does not end, gets
SIGKILL more than 5 s later. -/
def stubborn : List Turn := [⟨0, [⟨10, 10, 1⟩], false⟩, ⟨sec, [⟨11, 11, sec + 1⟩], false⟩, ⟨6 * sec, [⟨11, 11, 6 * sec⟩], false⟩,
  ⟨6 * sec + 2, [⟨11, 11, 6 * sec + 3⟩], false⟩, ⟨7 * sec, [], false⟩]

example : cleanup [] stubborn = ([[⟨10, .term, 1⟩], [⟨11, .term, sec + 1⟩], [], [⟨11, .kill, 6 * sec + 3⟩]], true) ∧
    NoReuse stubborn := by
  constructor
  · decide
  · unfold NoReuse; decide

/-- **C70 (violated).** If a pid is used again more than 5 s after the SIGTERM to its first process, the second process gets
SIGKILL at once, without SIGTERM. -/
theorem reused_pid_killed_violated : ∃ ts : List Turn,
    ⟨2, .kill, 7 * sec⟩ ∈ sentIn ts 2 ∧ (∀ i u, ⟨2, .term, u⟩ ∉ sentIn ts i) ∧
    (∀ t ∈ ts.take 2, ∀ p ∈ t.children, p.proc ≠ 2) := by
  refine ⟨[⟨0, [⟨10, 1, 1⟩], false⟩, ⟨sec, [⟨11, 3, sec⟩], false⟩, ⟨7 * sec, [⟨10, 2, 7 * sec⟩], false⟩, ⟨8 * sec, [], false⟩], ?_, ?_, ?_⟩
  · decide
  · intro i u
    have e : (cleanup [] [⟨0, [⟨10, 1, 1⟩], false⟩, ⟨sec, [⟨11, 3, sec⟩], false⟩, ⟨7 * sec, [⟨10, 2, 7 * sec⟩], false⟩, ⟨8 * sec, [], false⟩]).1 =
        [[⟨1, .term, 1⟩], [⟨3, .term, sec⟩], [⟨2, .kill, 7 * sec⟩]] := by decide
    rw [sentIn, e]
    match i with
    | 0 => simp
    | 1 => simp
    | 2 => simp
    | _ + 3 => simp
  · decide

/-! ### C71: an error of `wait_with_output` -/

/-- **C71 (violated).** The conversion of the error never returns, whatever the size of the stack. -/
theorem conversion_diverges_violated {ε ρ : Type} (depth : Nat) (e : ε) : (fromChildError depth e : Option ρ) = none := by
  induction depth with
  | zero => rfl
  | succ n ih => exact ih

/-- **C71 (consequence, violated).** After such an error the runner never sends /end, never cleans up, never exits. -/
theorem stuck_forever_violated {c : Cfg} {bs : List Act} {s s' : State} (hs : s.phase = .stuck)
    (hr : run c s bs = some s') : s'.phase = .stuck ∧ s'.trace = s.trace := by
  refine run_induct (P := fun x => x.phase = .stuck ∧ x.trace = s.trace) ?_ ⟨hs, rfl⟩ hr
  rintro x a x' ⟨h1, h2⟩ h
  rw [← h1, ← h2]
  exact frozen (.inr h1) h

/-- A task whose output can not be read. -/
def oneTask : StartResp := ⟨7, [.str "true"], none⟩

/-- No limits. -/
def unlimited : Cfg := ⟨0, none, none⟩

example : (run unlimited (init unlimited) [.sendStart, .startReply (some oneTask), .spawn (some 10), .sendBegun, .begunReply true,
    .childEnds 10, .waitFails]).map (·.phase) = some .stuck := by decide

/-! ### C92: what the runner tells the server -/

/-- **C92.** At any time the runner has asked at most once at /start, and then handled tasks one after the other, each (but the
last) completely: received, started, announced at /begun with the pid of the process (0 if it could not be started), its end
awaited, reported at /end with the exit code and values of that process (13 without values if it could not be started), and
another task asked for. The last may be incomplete, or ended with status -15 at a message of Slurm. -/
theorem protocol {c : Cfg} {as : List Act} {s : State} (hr : Reach c as s) :
    s.trace = [] ∨ s.trace = [.start] ∨
    ∃ (rounds : List (List Obs)) (last : List Obs), (∀ x ∈ rounds, Round true x) ∧ Last last ∧
      s.trace = .start :: (rounds.flatten ++ last) := by
  rcases hr.traced with ⟨_, e⟩ | ⟨e, _⟩ | ⟨rounds, rest, h1, h2, h3⟩
  · exact .inl e
  · exact .inr (.inl e)
  · exact .inr (.inr ⟨rounds, rest, h1, h2.last, h3⟩)

/-- **C92 (the end is reported).** When the process of the task has ended and its output is read, the next thing the runner can do
as long as the server is not lost is to report exactly that. -/
theorem end_reported {c : Cfg} {s : State} {r : StartResp} {p : Nat} {late : Bool} (hp : s.phase = .waiting r p late) (hend : p ∉ s.running)
    (out : Output) : ∃ s', run c s [.output out, .sendEnd] = some s' ∧ s'.phase = .ending r (accepting c s) ∧
      s'.trace = s.trace ++ [.output p out, .finish r.txn out.code out.values (accepting c s)] := by
  refine ⟨_, by simp [run, step, hp, hend, State.goto, endRequest, accepting]; rfl, rfl, rfl⟩

/-- **C92 (a failed start is reported).** If the program of a task can not be started, and the server answers, then it is told so: status 13. -/
theorem failed_start_reported {c : Cfg} {s : State} {r : StartResp} (hp : s.phase = .got r) (hcmd : r.cmdline ≠ [])
    (hfd : r.inputFd ≠ some 3) : ∃ s', run c s [.spawn none, .sendBegun, .begunReply true, .sendEnd] = some s' ∧
      s'.phase = .ending r (accepting c s) ∧
      s'.trace = s.trace ++ [.spawn none, .begun r.txn 0, .finish r.txn 13 [] (accepting c s)] := by
  refine ⟨_, by simp [run, step, hp, hcmd, hfd, State.goto, endRequest, accepting]; rfl, rfl, rfl⟩

/-- **C92 (no report, violated).** A task with an empty command line, or with its input at descriptor 3, makes the runner panic; nothing is
reported. -/
theorem bad_task_panics_violated {c : Cfg} {s : State} {r : StartResp} (hp : s.phase = .got r) (hbad : r.cmdline = [] ∨ r.inputFd = some 3)
    {pid : Option Nat} {bs : List Act} {s' : State} (hr : run c s (.spawn pid :: bs) = some s') : s'.phase = .panicked ∧ s'.trace = s.trace := by
  have h1 : step c s (.spawn pid) = .ok (s.goto .panicked []) := by simp only [step, hp, if_pos hbad]
  simp only [run, h1] at hr
  refine run_induct (P := fun x => x.phase = .panicked ∧ x.trace = s.trace) ?_ ⟨rfl, by simp [State.goto]⟩ hr
  rintro x a x' ⟨g1, g2⟩ h
  rw [← g1, ← g2]
  exact frozen (.inl g1) h

/-- Two tasks: the first is done, the second can not be started. -/
def twoTasks : List Act := [.sendStart, .startReply (some oneTask), .spawn (some 10), .sendBegun, .begunReply true, .tick 5,
  .childEnds 10, .output ⟨3, [[("k", "v")]]⟩, .sendEnd, .endReply (some (some ⟨8, [.str "nope"], none⟩)), .spawn none, .sendBegun,
  .begunReply true, .usr1, .sendEnd, .endReply (some none), .cleaned]

example : (run unlimited (init unlimited) twoTasks).map (fun s => (s.phase, s.trace)) =
    some (.exited, [.start, .received oneTask, .spawn (some 10), .begun 7 10, .output 10 ⟨3, [[("k", "v")]]⟩,
      .finish 7 3 [[("k", "v")]] true, .received ⟨8, [.str "nope"], none⟩, .spawn none, .begun 8 0, .finish 8 13 [] false]) := by decide

/-! ### C93: no more tasks -/

/-- **C93.** From the time the runner shall not accept tasks any more (SIGUSR1 was received, or the time for accepting tasks is
over) it receives at most one, and that only if it had already asked for it or not asked for any before. -/
theorem no_more_tasks {c : Cfg} {s s' : State} {bs : List Act} (hacc : accepting c s = false) (hr : run c s bs = some s') :
    received s'.trace ≤ received s.trace + 1 ∧
    (s.phase ≠ .top → s.phase ≠ .starting → (∀ r, s.phase ≠ .ending r true) → received s'.trace = received s.trace) := by
  have := run_induct (P := fun x => accepting c x = false ∧ received x.trace + pending x.phase ≤ received s.trace + pending s.phase ∧
      received s.trace ≤ received x.trace)
    (fun h hs => ⟨not_accepting h.1 hs, Nat.le_trans (pending_step h.1 hs) h.2.1, Nat.le_trans h.2.2 (received_mono hs)⟩)
    ⟨hacc, Nat.le_refl _, Nat.le_refl _⟩ hr
  have h1 : pending s.phase ≤ 1 := by unfold pending; split <;> omega
  refine ⟨by omega, ?_⟩
  intro h2 h3 h4
  have : pending s.phase = 0 := by
    unfold pending
    split
    · rename_i h'; exact absurd h' h2
    · rename_i h'; exact absurd h' h3
    · rename_i h'; exact absurd h' (h4 _)
    · rfl
  omega

/-- SIGUSR1 while a task runs: it is done and reported, and no other is asked for. -/
example : (run unlimited (init unlimited) [.sendStart, .startReply (some oneTask), .spawn (some 10), .sendBegun, .begunReply true,
    .usr1, .childEnds 10, .output ⟨0, []⟩, .sendEnd]).map (fun s => (s.phase, s.trace.getLast?)) =
    some (.ending oneTask false, some (.finish 7 0 [] false)) := by decide

/-- Time that has passed. -/
def elapsed (as : List Act) : Int := (as.map (fun a => match a with | .tick d => (d : Int) | _ => 0)).sum

theorem clock {c : Cfg} {as : List Act} {s : State} (hr : Reach c as s) : s.now = c.startTime + elapsed as ∧ (s.usr1 = true ↔ Act.usr1 ∈ as) := by
  induction hr with
  | init => simp [init, elapsed]
  | @snoc as s s' a hr hs ih =>
    obtain ⟨h1, h2⟩ := ih
    have key : ∀ b : Act, elapsed (as ++ [b]) = elapsed as + (match b with | .tick d => (d : Int) | _ => 0) := by
      intro b; simp [elapsed]
    rw [key]
    cases a with
    | tick d => simp only [step, Res.ok.injEq] at hs; subst hs; exact ⟨by simp only [h1]; omega, by simpa using h2⟩
    | usr1 => simp only [step, Res.ok.injEq] at hs; subst hs; exact ⟨by simp only [h1]; omega, by simp⟩
    | startReply r =>
      cases r <;> simp only [step] at hs <;> split at hs <;>
        first
        | (cases hs; done)
        | (simp only [Res.ok.injEq] at hs; subst hs; exact ⟨by simp only [State.goto, h1]; omega, by simpa [State.goto] using h2⟩)
    | _ =>
      simp only [step] at hs
      repeat' split at hs
      all_goals first
        | (cases hs; done)
        | (simp only [Res.ok.injEq] at hs; subst hs; exact ⟨by simp only [State.goto, h1]; omega, by simpa [State.goto] using h2⟩)

/-- **C93 (otherwise it goes on).** With the report of a task the runner asks for another one exactly if it has not received SIGUSR1
and the time for accepting tasks, counted from its start, is not over. -/
theorem asks_for_next {c : Cfg} {as : List Act} {s s' : State} (hr : Reach c as s) (hs : step c s .sendEnd = .ok s') :
    ∃ txn code values next, s'.trace = s.trace ++ [.finish txn code values next] ∧
      (next = true ↔ Act.usr1 ∉ as ∧ ∀ t, c.maxTimeAccepting = some t → elapsed as < t) := by
  obtain ⟨h1, h2⟩ := clock hr
  have hacc : accepting c s = true ↔ Act.usr1 ∉ as ∧ ∀ t, c.maxTimeAccepting = some t → elapsed as < t := by
    rw [← h2]
    unfold accepting
    cases c.maxTimeAccepting with
    | none => simp
    | some t =>
      simp only [Bool.and_eq_true, Bool.not_eq_true', decide_eq_true_eq, Option.some.injEq, forall_eq']
      constructor
      · rintro ⟨a, b⟩; exact ⟨by simp [a], by omega⟩
      · rintro ⟨a, b⟩; exact ⟨by simpa using a, by omega⟩
  simp only [step] at hs
  split at hs
  · rename_i r out _
    simp only [Res.ok.injEq] at hs; subst hs
    cases out with
    | none => exact ⟨_, _, _, _, rfl, hacc⟩
    | some o => exact ⟨_, _, _, _, rfl, hacc⟩
  · cases hs

/-- Non-trivial case: without a signal another task is asked for. -/
example : (run unlimited (init unlimited) [.sendStart, .startReply (some oneTask), .spawn (some 10), .sendBegun, .begunReply true,
    .tick 5, .childEnds 10, .output ⟨0, []⟩, .sendEnd]).map (fun s => (s.phase, s.trace.getLast?)) =
    some (.ending oneTask true, some (.finish 7 0 [] true)) := by decide

/-! ### C94: SIGTERM -/

/-- **C94 (when).** The runner sends SIGTERM to its task only when the deadline (C69) has passed or Slurm has written a message;
in the second case the task is reported at once with status -15 and no other is asked for. -/
theorem sigterm_only {c : Cfg} {s s' : State} {a : Act} {pid : Nat} (hs : step c s a = .ok s')
    (h : sigterms pid s.trace < sigterms pid s'.trace) :
    Remote.deadline c.startTime c.duration ≤ s.now ∨
    ∃ r : StartResp, s'.trace = s.trace ++ [.sigterm pid, .finish r.txn (-15) [] false] := sigterm_step hs h

/-- **C94 (the task dies or not, violated).** A task that does not end at SIGTERM gets it again and again without pause: any
number of times at the same moment. -/
theorem sigterm_storm_violated (n : Nat) : ∃ c as s s', Reach c as s ∧ s.phase = .waiting oneTask 10 false ∧
    run c s (List.replicate n .deadline) = some s' ∧ s'.now = s.now ∧ sigterms 10 s'.trace = n := by
  let c : Cfg := ⟨0, none, some (3600 * sec)⟩
  have h0 : ∃ as s, Reach c as s ∧ s.phase = .waiting oneTask 10 false ∧ s.now = 3540 * sec ∧ sigterms 10 s.trace = 0 := by
    refine ⟨_, ⟨3540 * sec, false, false, .waiting oneTask 10 false, [10],
      [.start, .received oneTask, .spawn (some 10), .begun 7 10]⟩, Reach.run (bs := [.sendStart, .startReply (some oneTask), .spawn (some 10),
      .sendBegun, .begunReply true, .tick 3540000000000]) .init ?_, rfl, rfl, by decide⟩
    decide
  obtain ⟨as, s, h1, h2, h3, h4⟩ := h0
  obtain ⟨s', g1, g2, g3⟩ := storm (c := c) n (s := s) (r := oneTask) (p := 10) ⟨_, h2⟩ (by rw [h3]; decide)
  exact ⟨c, as, s, s', h1, h2, g1, g2, by rw [g3, h4]; omega⟩

/-- **C94 (to whom, violated).** If the process has ended but its pipes are held open by others, SIGTERM goes to its pid, which
may be that of another process by now. -/
theorem sigterm_after_end_violated : ∃ c as s s', Reach c as s ∧ 10 ∉ s.running ∧ step c s .deadline = .ok s' ∧
    sigterms 10 s'.trace = sigterms 10 s.trace + 1 := by
  refine ⟨⟨0, none, some (3600 * sec)⟩, _, ⟨3540 * sec, false, false, .waiting oneTask 10 false, [],
      [.start, .received oneTask, .spawn (some 10), .begun 7 10]⟩, _, Reach.run (bs := [.sendStart, .startReply (some oneTask), .spawn (some 10),
      .sendBegun, .begunReply true, .childEnds 10, .tick 3540000000000]) .init ?_, by decide, rfl, by decide⟩
  decide

/-! ### C95: tasks after the deadline -/

/-- **C95 (partial).** If the time for accepting tasks ends before the deadline, the runner gets at most one task after it. -/
theorem after_deadline_partial {c : Cfg} {t : Int} (ht : c.maxTimeAccepting = some t)
    (hd : c.startTime + t ≤ Remote.deadline c.startTime c.duration) {s s' : State} {bs : List Act}
    (hnow : Remote.deadline c.startTime c.duration ≤ s.now) (hr : run c s bs = some s') :
    received s'.trace ≤ received s.trace + 1 := by
  have hacc : accepting c s = false := by
    simp only [accepting, ht, Bool.and_eq_false_imp, decide_eq_false_iff_not]
    intro _; omega
  exact (no_more_tasks hacc hr).1

/-- **C95 (violated).** Without such a limit, a runner whose deadline has passed goes on taking tasks, any number of them, and
sends SIGTERM to each at once. -/
theorem black_hole_violated (n : Nat) : ∃ c as s, Reach c as s ∧ Remote.deadline c.startTime c.duration ≤ s.now ∧
    ∃ bs s', run c s bs = some s' ∧ s'.now = s.now ∧ received s'.trace = received s.trace + n ∧
      sigterms 10 s'.trace = sigterms 10 s.trace + n := by
  let c : Cfg := ⟨0, none, some (3600 * sec)⟩
  let s : State := ⟨3540 * sec, false, false, .ending oneTask true, [],
    [.start, .received oneTask, .spawn (some 10), .begun 7 10, .output 10 ⟨0, []⟩, .finish 7 0 [] true]⟩
  refine ⟨c, _, s, Reach.run (bs := [.sendStart, .startReply (some oneTask), .spawn (some 10), .sendBegun, .begunReply true, .childEnds 10,
    .output ⟨0, []⟩, .tick 3540000000000, .sendEnd]) .init (by decide), by decide, ?_⟩
  have hs : s.phase = .ending oneTask true ∧ s.running = [] ∧ s.usr1 = false ∧ s.now = 3540 * sec := by decide
  generalize s = s at hs
  obtain ⟨bs, s', h1, h2, h3⟩ := hole (c := c) n (r := oneTask) rfl ⟨hs.1, hs.2.1, hs.2.2.1⟩ (by rw [hs.2.2.2]; decide)
    (r' := oneTask) (by decide) rfl
  exact ⟨bs, s', h1, h2, h3⟩

/-! ### C96: a lost server -/

/-- **C96 (in time, partial).** `a`: the last time the server heard from the runner. If every answer of the server reaches the
runner within 5 s of the request reaching the server, then the runner gives up no later than the server, which waits for 35 s
(two intervals and 5 s). -/
theorem gives_up_before_server_partial {interval latency a first : Int} {pongs : List Int} (hl : latency ≤ 5 * sec)
    (h0 : first ≤ a + latency) (h : ∀ t ∈ pongs, t ≤ a + latency) :
    giveUpTime (2 * interval) first pongs ≤ a + (2 * interval + 5 * sec) := by
  have : giveUpTime (2 * interval) first pongs ≤ a + latency + 2 * interval := by
    induction pongs generalizing first with
    | nil => simp only [giveUpTime]; omega
    | cons t ts ih =>
      simp only [giveUpTime]
      split
      · exact ih (h t (by simp)) (fun u hu => h u (by simp [hu]))
      · omega
  omega

/-- **C96 (in time, violated).** If an answer takes longer, the server may give the task up first. -/
theorem gives_up_after_server_violated : ∃ a first : Int, ∃ pongs : List Int, first ≤ a + 6 * sec ∧ (∀ t ∈ pongs, t ≤ a + 6 * sec) ∧
    a + 35 * sec < giveUpTime (2 * (15 * sec)) first pongs :=
  ⟨0, 1 - 15 * sec, [6 * sec], by decide, by decide, by decide⟩

/-- **C96 (patience).** A runner whose pongs come at most two intervals apart does not give up before two intervals after
the last. -/
theorem patient {timeout first last : Int} {pongs : List Int} (hl : (first :: pongs).getLast? = some last)
    (h : ∀ i x y, (first :: pongs)[i]? = some x → (first :: pongs)[i + 1]? = some y → y ≤ x + timeout) :
    giveUpTime timeout first pongs = last + timeout := by
  induction pongs generalizing first with
  | nil => simp at hl; subst hl; rfl
  | cons t ts ih =>
    have h1 : t ≤ first + timeout := h 0 first t rfl rfl
    simp only [giveUpTime, if_pos h1]
    refine ih (by simpa using hl) ?_
    intro i x y hx hy
    exact h (i + 1) x y (by simpa using hx) (by simpa using hy)

example : giveUpTime (30 * sec) 0 [15 * sec + 1, 30 * sec + 2, 47 * sec] = 77 * sec := by decide

/-! ### C97: nothing is left behind -/

/-- **C97.** When `main` returns, the tasks' processes have ended. -/
theorem exit_leaves_nothing {c : Cfg} {as : List Act} {s : State} (hr : Reach c as s) (h : s.phase = .exited) : s.running = [] := by
  induction hr with
  | init => cases h
  | snoc hr hs ih => exact exited_step ih hs h

example : (run unlimited (init unlimited) twoTasks).map (fun s => (s.phase, s.running)) = some (.exited, []) := by decide

/-- **C97 (violated).** But if the task closes its input before it is written, the runner panics, and the process is left. -/
theorem panic_leaves_child_violated : ∃ c as s, Reach c as s ∧ s.phase = .panicked ∧ s.running = [10] ∧
    ∀ bs s', run c s bs = some s' → s'.phase = .panicked ∧ s'.trace = s.trace := by
  refine ⟨unlimited, _, ⟨0, false, false, .panicked, [10], [.start, .received ⟨7, [.str "cat"], some 4⟩, .spawn (some 10)]⟩,
    Reach.run (bs := [.sendStart, .startReply (some ⟨7, [.str "cat"], some 4⟩), .spawn (some 10), .fed false]) .init (by decide), rfl, rfl, ?_⟩
  intro bs s' hr
  refine run_induct (P := fun x => x.phase = .panicked ∧ x.trace = [.start, .received ⟨7, [.str "cat"], some 4⟩, .spawn (some 10)]) ?_
    ⟨rfl, rfl⟩ hr
  rintro x a x' ⟨h1, h2⟩ h
  rw [← h1, ← h2]
  exact frozen (.inl h1) h

/-! ### C98: the input -/

/-- **C98 (violated).** While the input is written the runner attends to nothing else: it stays there until the task reads its input or closes
it, whatever happens to the server, Slurm or the deadline; and the server is not told that the task has begun. -/
theorem deaf_while_feeding_violated {c : Cfg} {s s' : State} {bs : List Act} {r : StartResp} {p : Nat} (hs : s.phase = .feeding r p)
    (hb : ∀ ok, .fed ok ∉ bs) (hr : run c s bs = some s') : s'.phase = .feeding r p ∧ s'.trace = s.trace := by
  induction bs generalizing s with
  | nil => cases hr; exact ⟨hs, rfl⟩
  | cons b bs ih =>
    simp only [run] at hr
    split at hr
    · rename_i s1 h1
      have h2 := feeding_step hs (fun ok e => hb ok (by simp [e])) h1
      have := ih h2.1 (fun ok h => hb ok (by simp [h])) hr
      exact ⟨this.1, this.2.trans h2.2⟩
    · cases hr

/-- Such a state, with the server lost and the deadline passed. -/
example : (run ⟨0, none, some (3600 * sec)⟩ (init ⟨0, none, none⟩) [.sendStart, .startReply (some ⟨7, [.str "cat"], some 4⟩), .spawn (some 10), .lose,
    .tick 4000000000000]).map (fun s => (s.phase, s.lost, decide (Remote.deadline 0 (some (3600 * sec)) ≤ s.now))) =
    some (.feeding ⟨7, [.str "cat"], some 4⟩ 10, true, true) := by decide

end Verif.Props.Remote
