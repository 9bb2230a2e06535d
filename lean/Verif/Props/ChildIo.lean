import Verif.Proof.ChildIo3

/-!
# Input and output of local tasks (C117-C122)

`Runs c (init c) as s`: a local loop has spawned a task, and the parent, the child, its descendants and the outside world have done
`as` since then. The program is any machine (`c.op`), a pipe takes `c.cap` bytes.
-/

namespace Verif.Props.ChildIo
open Verif Verif.Fd3 Verif.ChildIo

variable {P : Type} {c : Cfg P} {s : State P} {as : List Act}

/-! ### concrete cases -/

/-- The machine of a program given as a table; behind the table it exits with 0. -/
def table (l : List (Op Nat)) : Nat → Op Nat := fun n => l.getD n (.exit 0)

/-- A task in a normal loop (all three outputs are pipes). -/
def normal (op : Nat → Op Nat) (cap : Nat) (input : Option (List UInt8)) : Cfg Nat := ⟨op, 0, cap, fun _ => true, input⟩

/-- Writes `a=b` to descriptor 3, starts another process and exits with 7; the other process writes `c` to descriptor 3 and a `!` to stdout
and ends. -/
def family : Cfg Nat :=
  normal (table [.put .val 97 1, .put .val 61 2, .put .val 98 3, .fork 4 5, .exit 7, .put .val 99 6, .put .out 33 7]) 2 none

/-- The child exits at once, the other process goes on writing. -/
def familyRun : List Act :=
  [.run 0, .started, .run 0, .collect .val, .run 0, .run 0, .run 0, .reap, .collect .val, .run 0, .run 0, .collect .val, .run 0, .eof .err,
    .collect .val, .eof .val, .collect .out, .eof .out, .finish]

/-! ### the report is complete -/

/-- C117: the report of a task contains how the child has ended and exactly the bytes that were written to each of the pipes, by the
child or by any of its descendants, in this order, and nothing can be written any more; its exit code and its values are made of
these. -/
theorem report_exact {st : ProcStatus} {bytes : Out → List UInt8} (hr : Runs c (init c) as s) (h : s.stage = .ended st bytes) :
    childEnds c (init c) as = [st] ∧ (∀ o, bytes o = written c (init c) o as) ∧
      (∀ o, c.piped o = true → ∀ p ∈ s.procs, p.holds o = false) ∧
      ∀ id, (report id st bytes).id = id ∧ (report id st bytes).status = code st ∧
        (report id st bytes).values = fd3Values ⟨(written c (init c) .val as).toArray⟩ := by
  obtain ⟨h1, _, h2, h3⟩ := hr.inv.ended st bytes h
  exact ⟨h1, h2, h3, fun id => ⟨rfl, rfl, by rw [← h2 .val]; rfl⟩⟩

/-- Non-trivial case: the end of the value comes from the other process, after the child has ended; no pipe takes more than two bytes. -/
example : after family familyRun (fun s => match s.stage with
    | .ended st b => st == .exited 7 && b .val == [97, 61, 98, 99] && b .out == [33] && b .err == []
    | _ => false) = true ∧ written family (init family) .val familyRun = [97, 61, 98, 99] := by decide +kernel

/-- C117: while the loop has not come to an end, everything that was written is in its buffers or in the pipe: nothing is lost. -/
theorem nothing_lost (hr : Runs c (init c) as s) (h : over s.stage = false) (o : Out) :
    s.got o ++ s.buf o = written c (init c) o as := by
  refine hr.inv.bytes o ?_
  cases hst : s.stage <;> rw [hst] at h <;> first | rfl | cases h

/-- Non-trivial case: one byte is read, one is in the pipe. -/
example : after family (familyRun.take 5) (fun s => s.got .val == [97] && s.buf .val == [61, 98]) = true := by decide +kernel

/-! ### the report waits for everybody -/

/-- C118: a task is not reported as long as any process, the child or a descendant, has an end of one of its pipes. -/
theorem report_waits (hr : Runs c (init c) as s) {o : Out} {p : Proc P} (hp : p ∈ s.procs) (hh : p.holds o = true)
    {st : ProcStatus} {bytes : Out → List UInt8} : s.stage ≠ .ended st bytes := by
  intro h
  have h1 := (hr.inv.ended st bytes h).2.2.2 o (hr.inv.piped p hp o hh) p hp
  rw [h1] at hh; cases hh

/-- C118: if one of the processes of a task goes on for ever with a pipe open, the task is never reported, whatever the exit code of
the child. -/
theorem never_reported {o : Out} {R : P → Prop} (hk : KeepsOpen c o R) (hpi : c.piped o = true) (hstart : R c.start)
    (hr : Runs c (init c) as s) (hno : ∀ a ∈ as, isKill a = false) {st : ProcStatus} {bytes : Out → List UInt8} :
    s.stage ≠ .ended st bytes := (holder_stays hk hpi hstart hr hno).1 st bytes

/-- Starts a process that goes on for ever, and exits with 0. -/
def daemon : Cfg Nat := normal (table [.fork 1 2, .exit 0, .work 2]) 2 none

/-- C118, the violation: a task that starts a background process which keeps stdout, and exits with 0, is not reported, in no run in
which nobody kills the background process; there is such a run in which the child has ended and was waited for. -/
theorem background_process_violated :
    (∀ as s, Runs daemon (init daemon) as s → (∀ a ∈ as, isKill a = false) → ∀ st bytes, s.stage ≠ .ended st bytes) ∧
    ∃ as s, Runs daemon (init daemon) as s ∧ (∀ a ∈ as, outside a = false) ∧ childEnds daemon (init daemon) as = [.exited 0] ∧
      s.reaped = true := by
  constructor
  · intro as s hr hno st bytes
    refine never_reported (o := .out) (R := fun n => n = 0 ∨ n = 2) ?_ rfl (Or.inl rfl) hr hno
    intro p hp
    rcases hp with rfl | rfl
    · exact Or.inr (Or.inr rfl)
    · exact Or.inr rfl
  · obtain ⟨s, h1, h2⟩ := runs_of_after (c := daemon) (as := [.started, .run 0, .run 0, .reap]) (p := fun s => s.reaped) (by decide +kernel)
    exact ⟨_, s, h1, by decide, by decide +kernel, h2⟩

/-! ### the input -/

/-- C119: when a task is stuck. Nothing more can happen (but a cancellation or a signal) exactly if the loop is still writing the
input, the pipe is full, somebody has the other end, and every process of the task is itself in front of a full output pipe,
which the loop does not read yet. -/
theorem stuck_iff (hcap : 1 ≤ c.cap) (hr : Runs c (init c) as s) (ho : over s.stage = false) :
    (¬ ∃ a s', outside a = false ∧ step c s a = .ok s') ↔
      (∃ b rest, s.stage = .feeding (b :: rest)) ∧ (∃ p ∈ s.procs, p.input = true) ∧ c.cap ≤ s.inBuf.length ∧
      ∀ p ∈ s.procs, ∃ o b next, c.op p.state = .put o b next ∧ c.piped o = true ∧ p.holds o = true ∧ c.cap ≤ (s.buf o).length := by
  have := _root_.Verif.ChildIo.stuck_iff hcap hr.inv ho
  rw [List.any_eq_true] at this
  exact this

/-- C119: a task without input, or with an input that fits into the pipe, is never stuck, whatever it writes. -/
theorem small_input_never_stuck_partial (hcap : 1 ≤ c.cap) (hfit : ∀ bytes, c.input = some bytes → bytes.length ≤ c.cap)
    (hr : Runs c (init c) as s) (ho : over s.stage = false) : ∃ a s', outside a = false ∧ step c s a = .ok s' :=
  fits_able hcap hfit hr ho

/-- Non-trivial case: a child that writes more than a pipe takes before it reads anything. -/
def chatty : Cfg Nat := normal (table [.put .out 1 1, .put .out 2 2, .put .out 3 3, .get (fun b => if b.isSome then 3 else 4)]) 2 (some [8, 9])

example : after chatty [.run 0, .run 0, .feed, .feed] (fun s => s.inBuf.length == 2 && (s.buf .out).length == 2 && !(over s.stage)) = true ∧
    after chatty [.run 0, .run 0, .feed, .feed, .fed, .started, .collect .out, .run 0, .collect .out, .run 0, .run 0, .run 0, .run 0, .reap,
      .collect .out, .eof .out, .eof .err, .eof .val, .finish] (fun s => match s.stage with
        | .ended st b => st == .exited 0 && b .out == [1, 2, 3]
        | _ => false) = true := by decide +kernel

/-- A program that writes `cap + 1` bytes to stdout, then reads its input to the end and exits with 0, with an input of `cap + 1` bytes. -/
def filter (cap : Nat) : Cfg Nat :=
  normal (fun n => if n ≤ cap then .put .out 0 (n + 1) else if n = cap + 1 then .get (fun b => if b.isSome then n else n + 1) else .exit 0)
    cap (some (List.replicate (cap + 1) 0))

/-- The states of `filter`: `i` bytes of the input and `j` bytes of the output are written. -/
def filterAt (cap i j : Nat) : State Nat where
  stage := .feeding (List.replicate (cap + 1 - i) 0)
  inBuf := List.replicate i 0
  buf := fun o => if o = .out then List.replicate j 0 else []
  got := fun _ => []
  eof := fun _ => false
  status := none
  reaped := false
  procs := [⟨j, fun _ => true, true, true⟩]

theorem filter_init (cap : Nat) : init (filter cap) = filterAt cap 0 0 := by
  simp [init, filter, normal, filterAt]

theorem filter_feed {cap i j : Nat} (hi : i ≤ cap) :
    step (filter cap) (filterAt cap i j) .feed = if i < cap then .ok (filterAt cap (i + 1) j) else .err () := by
  have e : cap + 1 - i = (cap - i) + 1 := by omega
  have e' : cap + 1 - (i + 1) = cap - i := by omega
  by_cases h : i < cap
  · rw [if_pos h]
    simp [step, filterAt, e, e', List.replicate_succ, filter, normal, h]
    rw [← List.replicate_succ', List.replicate_succ]
  · rw [if_neg h]
    simp [step, filterAt, e, List.replicate_succ, filter, normal, h]

theorem filter_run {cap i j : Nat} (hj : j ≤ cap) :
    step (filter cap) (filterAt cap i j) (.run 0) = if j < cap then .ok (filterAt cap i (j + 1)) else .err () := by
  by_cases h : j < cap
  · rw [if_pos h]
    simp only [step, filterAt, runProc, filter, normal, List.getElem?_cons_zero, if_pos hj, reading, Bool.and_self, if_true,
      List.length_replicate, if_pos h, setProc, List.set_cons_zero, Res.ok.injEq, State.mk.injEq, and_true, true_and]
    funext o
    by_cases ho : o = .out
    · simp [ho, List.replicate_succ']
    · simp [ho]
  · rw [if_neg h]
    simp [step, filterAt, runProc, filter, normal, reading, h, hj]

theorem filter_step {cap i j : Nat} {a : Act} {s' : State Nat} (hi : i ≤ cap) (hj : j ≤ cap) (ha : isKill a = false)
    (hs : step (filter cap) (filterAt cap i j) a = .ok s') :
    (i < cap ∧ s' = filterAt cap (i + 1) j) ∨ (j < cap ∧ s' = filterAt cap i (j + 1)) := by
  have e : cap + 1 - i = (cap - i) + 1 := by omega
  cases a with
  | feed =>
    rw [filter_feed hi] at hs
    split at hs
    · rename_i h; cases hs; exact Or.inl ⟨h, rfl⟩
    · cases hs
  | run k =>
    cases k with
    | zero =>
      rw [filter_run hj] at hs
      split at hs
      · rename_i h; cases hs; exact Or.inr ⟨h, rfl⟩
      · cases hs
    | succ k => simp [step, filterAt] at hs
  | kill k sig => cases ha
  | _ => simp [step, filterAt, e, List.replicate_succ] at hs

theorem filter_to {cap : Nat} : ∀ {i j : Nat}, i ≤ cap → j ≤ cap → ∃ as, Runs (filter cap) (filterAt cap 0 0) as (filterAt cap i j) ∧
    ∀ a ∈ as, outside a = false := by
  intro i
  induction i with
  | zero =>
    intro j
    induction j with
    | zero => intro _ _; exact ⟨[], .nil _, by simp⟩
    | succ j ih =>
      intro hi hj
      obtain ⟨as, h1, h2⟩ := ih hi (by omega)
      refine ⟨as ++ [.run 0], h1.snoc ?_, ?_⟩
      · rw [filter_run (by omega), if_pos (by omega)]
      · intro a ha
        rcases List.mem_append.1 ha with ha | ha
        · exact h2 a ha
        · rw [List.mem_singleton.1 ha]; rfl
  | succ i ih =>
    intro j hi hj
    obtain ⟨as, h1, h2⟩ := ih (by omega) hj
    refine ⟨as ++ [.feed], h1.snoc ?_, ?_⟩
    · rw [filter_feed (by omega), if_pos (by omega)]
    · intro a ha
      rcases List.mem_append.1 ha with ha | ha
      · exact h2 a ha
      · rw [List.mem_singleton.1 ha]; rfl

/-- C119, the violation: however much fits into a pipe, the program `filter` (output first, then the input, a little more than a pipe
takes of each) never gets through: in every run without a signal from outside, however it is scheduled and whoever tries to
cancel it, the loop is still writing the input; there is a run to a state in which nothing but a signal from outside can happen. -/
theorem large_input_deadlock_violated (cap : Nat) :
    (∀ as s, Runs (filter cap) (init (filter cap)) as s → (∀ a ∈ as, isKill a = false) → ∃ b rest, s.stage = .feeding (b :: rest)) ∧
    ∃ as s, Runs (filter cap) (init (filter cap)) as s ∧ (∀ a ∈ as, outside a = false) ∧
      ∀ a s', step (filter cap) s a = .ok s' → isKill a = true := by
  constructor
  · intro as s hr hno
    have : ∃ i j, i ≤ cap ∧ j ≤ cap ∧ s = filterAt cap i j := by
      refine Runs.snocInd (Q := fun as s => (∀ a ∈ as, isKill a = false) → ∃ i j, i ≤ cap ∧ j ≤ cap ∧ s = filterAt cap i j) ?_ ?_ hr hno
      · intro _; exact ⟨0, 0, Nat.zero_le _, Nat.zero_le _, filter_init cap⟩
      · intro as s a s' _ ih hs hno
        obtain ⟨i, j, hi, hj, rfl⟩ := ih (fun a h => hno a (List.mem_append_left _ h))
        rcases filter_step hi hj (hno a (by simp)) hs with ⟨h, rfl⟩ | ⟨h, rfl⟩
        · exact ⟨i + 1, j, h, hj, rfl⟩
        · exact ⟨i, j + 1, hi, h, rfl⟩
    obtain ⟨i, j, hi, hj, rfl⟩ := this
    have e : cap + 1 - i = (cap - i) + 1 := by omega
    exact ⟨0, List.replicate (cap - i) 0, by simp only [filterAt, e, List.replicate_succ]⟩
  · obtain ⟨as, h1, h2⟩ := filter_to (cap := cap) (i := cap) (j := cap) (Nat.le_refl _) (Nat.le_refl _)
    refine ⟨as, filterAt cap cap cap, by rw [filter_init]; exact h1, h2, ?_⟩
    intro a s' hs
    cases ha : isKill a with
    | true => rfl
    | false =>
      rcases filter_step (Nat.le_refl _) (Nat.le_refl _) ha hs with ⟨h, _⟩ | ⟨h, _⟩
      · exact absurd h (Nat.lt_irrefl _)
      · exact absurd h (Nat.lt_irrefl _)

/-- Non-trivial case: with an input that is one byte shorter the same program gets through. -/
example : after { filter 1 with input := some [0] } [.feed, .fed, .run 0, .started, .collect .out, .run 0, .run 0, .run 0, .run 0, .reap,
    .collect .out, .eof .out, .eof .err, .eof .val, .finish] (fun s => match s.stage with
      | .ended st b => st == .exited 0 && b .out == [0, 0]
      | _ => false) = true := by decide +kernel

/-! ### who does not read the input -/

/-- C120: a task that reads its input to the end (one of its processes does, before it closes it or exits) never makes the loop
panic, unless a process is killed from outside. -/
theorem reader_never_panics_partial {R : P → Prop} (hk : ReadsAll c R) (hstart : R c.start) (hr : Runs c (init c) as s)
    (hno : ∀ a ∈ as, isKill a = false) : s.stage ≠ .panicked := (reader_stays hk hstart hr hno).1

/-- Non-trivial case: `chatty` reads to the end. -/
example : ReadsAll chatty (fun n => n ≤ 3) := by
  intro p hp
  have : p = 0 ∨ p = 1 ∨ p = 2 ∨ p = 3 := by omega
  rcases this with rfl | rfl | rfl | rfl <;> simp [chatty, normal, table]

/-- Exits with 0 and does not look at its input of one byte. -/
def ignores : Cfg Nat := normal (table [.exit 0]) 65536 (some [1])

/-- C120, the violation: a task that succeeds without reading its input is reported as a success or makes the loop panic, depending
on who is faster. -/
theorem unread_input_violated :
    (∃ as s, Runs ignores (init ignores) as s ∧ (∀ a ∈ as, outside a = false) ∧ childEnds ignores (init ignores) as = [.exited 0] ∧
      s.stage = .panicked) ∧
    ∃ as s, ∃ bytes : Out → List UInt8, Runs ignores (init ignores) as s ∧ (∀ a ∈ as, outside a = false) ∧
      s.stage = .ended (.exited 0) bytes := by
  constructor
  · obtain ⟨s, h1, h2⟩ := runs_of_after (c := ignores) (as := [.run 0, .feed]) (p := fun s => match s.stage with | .panicked => true | _ => false)
      (by decide +kernel)
    refine ⟨_, s, h1, by decide, by decide +kernel, ?_⟩
    split at h2
    · assumption
    · cases h2
  · obtain ⟨s, h1, h2⟩ := runs_of_after (c := ignores)
      (as := [.feed, .fed, .started, .run 0, .reap, .eof .out, .eof .err, .eof .val, .finish])
      (p := fun s => match s.stage with | .ended (.exited 0) _ => true | _ => false) (by decide +kernel)
    split at h2
    · rename_i bytes hst
      exact ⟨_, s, bytes, h1, by decide, hst⟩
    · cases h2

/-! ### the loop does not go on for ever -/

/-- C121: the loop itself does no more than one step per byte of the input and per byte of output, and eight more. -/
theorem parent_work_bounded (hr : Runs c (init c) as s) : as.countP parent ≤ (c.input.getD []).length +
    ((written c (init c) .out as).length + (written c (init c) .err as).length + (written c (init c) .val as).length) + 8 := by
  have h1 := todo_runs hr
  have h2 := todo_init c
  unfold writtenN at h1
  omega

/-- Non-trivial case: eleven steps of the loop for five bytes. -/
example : after family familyRun (fun s => over s.stage) = true ∧ familyRun.countP parent = 11 ∧
    (written family (init family) .val familyRun).length = 4 ∧ (written family (init family) .out familyRun).length = 1 := by decide +kernel

/-- C121: when all processes of the task have ended, the loop comes to an end by itself: there are steps of the loop to the end, and
as long as it is not there it can do one (so it comes there whatever order it chooses, by `parent_work_bounded`). -/
theorem comes_to_end (hcap : 1 ≤ c.cap) (hr : Runs c (init c) as s) (hp : s.procs = []) :
    (∃ bs s', Runs c s bs s' ∧ (∀ a ∈ bs, parent a = true ∧ outside a = false) ∧ over s'.stage = true) ∧
    (over s.stage = false → ∃ a s', parent a = true ∧ outside a = false ∧ step c s a = .ok s') := by
  refine ⟨_root_.Verif.ChildIo.comes_to_end hcap _ as s (Nat.le_refl _) hr hp, ?_⟩
  intro ho
  refine able_nil hp (Classical.byContradiction fun hna => ?_)
  have := ((_root_.Verif.ChildIo.stuck_iff hcap hr.inv ho).1 hna).2.1
  rw [hp] at this; cases this

/-- Non-trivial case: all processes of the family have ended, two bytes are still in the pipes. -/
example : after family (familyRun.take 14) (fun s => s.procs.isEmpty && !(over s.stage) && s.buf .val == [99] && s.buf .out == [33]) = true := by
  decide +kernel

/-! ### the end of the child -/

/-- C122: when the loop is through with a task (reported, cancelled, panicked), the child has ended. -/
theorem child_gone (hr : Runs c (init c) as s) (ho : over s.stage = true) : ∀ p ∈ s.procs, p.child = false := over_child hr ho

/-- Non-trivial case: a child that goes on for ever is cancelled. -/
example : after (normal (table [.work 0]) 2 none) [.started, .run 0, .cancel] (fun s => over s.stage && s.procs.isEmpty) = true := by decide +kernel

/-- C122, the violation: a cancellation kills the child only; what it has started goes on, and may write to files for ever. -/
theorem descendants_survive_violated :
    ∃ as s, Runs daemon (init daemon) as s ∧ (∀ a ∈ as, isKill a = false) ∧ s.stage = .cancelled ∧
      ∃ p ∈ s.procs, ∃ next, daemon.op p.state = .work next := by
  obtain ⟨s, h1, h2⟩ := runs_of_after (c := daemon) (as := [.started, .run 0, .cancel]) (p := fun s => (match s.stage with
    | .cancelled => true | _ => false) && s.procs.any (fun p => p.state == 2)) (by decide +kernel)
  simp only [Bool.and_eq_true, List.any_eq_true, beq_iff_eq] at h2
  obtain ⟨h2, p, hp, he⟩ := h2
  refine ⟨_, s, h1, by decide, ?_, p, hp, 2, by rw [he]; rfl⟩
  split at h2
  · assumption
  · cases h2

end Verif.Props.ChildIo
