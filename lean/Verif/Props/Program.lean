import Verif.Proof.Program2
import Verif.Props.Family

/-!
# C158: the result of `execute` is a function of the programs
-/

namespace Verif.Props.Program
open Verif Verif.Family
open Verif.Tracker hiding Act Cfg State Runs init step replay after runs_of_replay runs_of_after
open Verif.Props.System (job)
open Verif.Props.ChildIo (table)
open Verif.Props.Family (fair_run_exists execute_returns)

variable {P : Type} {c : Cfg P} {lf : LogFile} {now : Int} {s s' : State P} {as : List Act}

/-! ### one task -/

/-- **C158.** A program that starts no other process and comes to an end has, for every input, exactly one result: what it writes to
descriptor `o` and its exit code. -/
theorem program_has_one_result {op : P → ChildIo.Op P} {k : Nat} {rank : P → Nat} (h1 : ChildIo.Single op) (h2 : Ends op k rank)
    (o : ChildIo.Out) (p : P) (inp : List UInt8) (i h : Bool) :
    ∃ ws code, ChildIo.Yields op o p inp i h ws code ∧
      ∀ ws' code', ChildIo.Yields op o p inp i h ws' code' → ws' = ws ∧ code' = code := by
  obtain ⟨ws, code, hy⟩ := ChildIo.gives_exists h1 h2 o _ p inp i h (Nat.le_refl _)
  exact ⟨ws, code, hy, fun ws' code' hy' => hy'.unique hy⟩

/-- **C158.** If a task is reported, then with this result: whatever the capacity of the pipes and the order in which the loop writes
the input and reads the outputs, as long as nobody kills the process. -/
theorem report_is_result {c : ChildIo.Cfg P} {s : ChildIo.State P} {as : List ChildIo.Act} {o : ChildIo.Out} (hpi : c.piped o = true)
    {ws : List UInt8} {code : Nat} (hg : ChildIo.Gives c o ws code) (hr : ChildIo.Runs c (ChildIo.init c) as s)
    (hno : ∀ a ∈ as, ChildIo.isKill a = false) {st : Fd3.ProcStatus} {bytes : ChildIo.Out → List UInt8}
    (h : s.stage = .ended st bytes) : st = .exited code ∧ bytes o = ws := (ChildIo.on_track hpi hg hr hno).2 st bytes h

/-! ### all tasks -/

/-- **C158.** Local tasks with programs that write `bytes v` to descriptor 3 and exit with `code v`; fewer of them fail than quick
failures are allowed. After a complete `execute` without trouble (shutdown requests, Ctrl-C, panics, processes that cannot be started
or are killed) the log has been given exactly these Finished entries: one for every task all of whose dependencies exit
with 0, with the exit code and the values of its program; whatever the number of loops, the capacity of the pipes, the order and the
speed. -/
theorem log_computed (hg : Good c.sys.tr) (hord : Ordered c.sys.tr) (hl : c.sys.remote = false) {code : Nat → Nat}
    {bytes : Nat → List UInt8} (hp : Programs c code bytes) (hfew : FewFailures c.sys.tr (behaviour code bytes))
    (hr : Runs c (init c lf now) as s) (ha : ∀ a ∈ as, trouble a = false) (he : ServingOver s.sys.tr) :
    (∀ o, o ∈ outcomes (newEntries lf s.sys.tr) ↔ ∃ v, v < c.sys.tr.g.n ∧ (∀ u, c.sys.tr.g.Reach u v → code u = 0) ∧
      o = (keyOf c.sys.tr v, (code v : Int), Fd3.fd3Values ⟨(bytes v).toArray⟩)) ∧
    (outcomes (newEntries lf s.sys.tr)).Nodup ∧
    (∀ v, v < c.sys.tr.g.n → (Succeeded s.sys.tr v ↔ code v = 0 ∧ ∀ u, c.sys.tr.g.Reach u v → code u = 0)) := by
  have hrs := Runs.sys hr
  obtain ⟨h1, h2, h3⟩ := Sys.honest_peace hg hl hfew hrs (not_troubled ha) (outputs_honest hg hp hr ha)
  obtain ⟨_, l2, _, l4⟩ := Outcome.log_determined hg hord (hrs.toInit hg) h1 h2 h3 he
  have hdue : ∀ v, Due c.sys.tr (behaviour code bytes) v ↔ v < c.sys.tr.g.n ∧ ∀ u, c.sys.tr.g.Reach u v → code u = 0 := by
    intro v
    unfold Due behaviour
    simp only [ExitStatus.code.injEq, Int.natCast_eq_zero]
  refine ⟨fun o => ?_, l4, fun v hv => ?_⟩
  · rw [l2 o]
    constructor
    · rintro ⟨v, hd, rfl⟩
      exact ⟨v, ((hdue v).1 hd).1, ((hdue v).1 hd).2, rfl⟩
    · rintro ⟨v, hv, hd, rfl⟩
      exact ⟨v, (hdue v).2 ⟨hv, hd⟩, rfl⟩
  · unfold Succeeded
    rw [Outcome.outcome_determined hg hord (hrs.toInit hg) h1 h2 h3 he, hdue]
    simp only [behaviour, ExitStatus.code.injEq]
    constructor
    · rintro ⟨⟨_, h⟩, e⟩; exact ⟨by omega, h⟩
    · rintro ⟨e, h⟩; exact ⟨⟨hv, h⟩, by omega⟩

/-- **C158, total correctness.** If moreover the programs come to an end and read their inputs, which fit into a pipe, and nobody waits
for ever in front of a possible action, then `execute` returns, with exactly this in the log. -/
theorem execute_computes (hg : Good c.sys.tr) (hdisp : Displayable c.sys.tr) (hrun : Sys.LocallyRunnable c.sys)
    (hord : Ordered c.sys.tr) (hne : c.sys.tr.g.n ≠ 0) (hpar : c.sys.numParallel ≠ 0) (hl : c.sys.remote = false) (hcap : 1 ≤ c.cap)
    (hin : InputsRead c) {k : Nat} {rank : Nat → P → Nat} (he : ∀ v, v < c.sys.tr.g.n → Ends (c.op v) k (rank v))
    {code : Nat → Nat} {bytes : Nat → List UInt8} (hp : Programs c code bytes)
    (hfew : FewFailures c.sys.tr (behaviour code bytes))
    {σ : Nat → State P} {α : Nat → Act} (h : InfRun c lf now σ α) (hf : Fair c σ α) (ha : ∀ k, trouble (α k) = false) :
    ∃ m, (σ m).sys.tr.pc = .done ∧
      (∀ o, o ∈ outcomes (newEntries lf (σ m).sys.tr) ↔ ∃ v, v < c.sys.tr.g.n ∧ (∀ u, c.sys.tr.g.Reach u v → code u = 0) ∧
        o = (keyOf c.sys.tr v, (code v : Int), Fd3.fd3Values ⟨(bytes v).toArray⟩)) ∧
      (outcomes (newEntries lf (σ m).sys.tr)).Nodup := by
  have quiet : ∀ a : Act, trouble a = false → isTrigger a = false ∧ isDie a = false ∧ isKill a = false := by
    intro a h
    cases a with
    | kid i b => cases b <;> first | exact ⟨rfl, rfl, rfl⟩ | cases h
    | sys b =>
      cases b with
      | server b => cases b <;> first | exact ⟨rfl, rfl, rfl⟩ | cases h
      | loopDie i => cases h
      | _ => exact ⟨rfl, rfl, rfl⟩
  obtain ⟨m, hm⟩ := execute_returns hg hdisp hrun hord hne hpar hl hcap hin he h hf (fun k => quiet _ (ha k))
  obtain ⟨h1, h2, _⟩ := log_computed hg hord hl hp hfew (h.prefix m) (InfRun.acts (q := fun a => trouble a = false) ha m) (.inr (.inr hm))
  exact ⟨m, hm, h1, h2⟩

/-! ### Non-trivial case -/

/-- `a` reads two bytes and writes `k=`, the first of them, to descriptor 3; `b` needs `a` and fails with 3; `c` needs `b`; `d` needs `a`
and may only run on the console. -/
def four : Cfg Nat where
  sys := {
    tr := { g := ⟨[{ job "a" with fdInput := some (5, [118, 119]) }, job "b", job "c", job "d" 2], [(0, 1), (1, 2), (0, 3)]⟩, fizzlesAllowed := 2 }
    numParallel := 2
    remote := false
    secret := "k" }
  op := fun v => match v with
    | 0 => table [.get (fun b => if b = some 118 then 1 else 4), .put .val 107 2, .put .val 61 3, .put .val 118 4,
        .get (fun b => if b.isSome then 4 else 5)]
    | 1 => table [.put .out 7 1, .exit 3]
    | _ => table [.work 1]
  start := fun _ => 0
  cap := 2

def fourCode (v : Nat) : Nat := if v = 1 then 3 else 0
def fourBytes (v : Nat) : List UInt8 := if v = 0 then [107, 61, 118] else []

theorem four_good : Good four.sys.tr := ⟨fun e h => by revert e; decide, by decide, by decide⟩
theorem four_displayable : Displayable four.sys.tr := by intro cmd h; revert cmd; decide
theorem four_runnable : Sys.LocallyRunnable four.sys := by intro cmd h; revert cmd; decide
theorem four_ordered : Ordered four.sys.tr := by
  intro u v h
  simp only [four, DiGraph.Dep, List.mem_cons, Prod.mk.injEq, List.not_mem_nil, or_false] at h
  omega

theorem four_programs : Programs four fourCode fourBytes := by
  intro v hv
  have hv : v = 0 ∨ v = 1 ∨ v = 2 ∨ v = 3 := by
    have : v < 4 := hv
    omega
  rcases hv with rfl | rfl | rfl | rfl
  · exact .get (next := fun b => if b = some 118 then 1 else 4) rfl <| .put (next := 2) rfl <| .put (next := 3) rfl <| .put (next := 4) rfl <|
      .get (next := fun b => if b.isSome then 4 else 5) rfl <| .getEnd (next := fun b => if b.isSome then 4 else 5) rfl (.inr rfl) <| .exit rfl
  · exact .putElsewhere (next := 1) (x := .out) (b := 7) rfl (.inl (by decide)) <| .exit rfl
  · exact .work (next := 1) rfl <| .exit rfl
  · exact .work (next := 1) rfl <| .exit rfl

theorem four_few : FewFailures four.sys.tr (behaviour fourCode fourBytes) := by
  intro l hnd hl
  have hsub : ∀ v ∈ l, v ∈ [1] := by
    intro v hv
    have := (hl v hv).2
    simp only [behaviour, fourCode] at this
    by_cases h : v = 1
    · simp [h]
    · simp [h] at this
  have := (List.subperm_of_subset hnd hsub).length_le
  simp only [List.length_singleton] at this
  show l.length < 2
  omega

def fourRank : Nat → Nat → Nat
  | 0, n => if n ≤ 5 then 7 - n else 1
  | _, n => if n = 0 then 2 else 1

theorem four_ends (v : Nat) : Ends (four.op v) 2 (fourRank v) := by
  intro p
  match v with
  | 0 =>
    have h : p = 0 ∨ p = 1 ∨ p = 2 ∨ p = 3 ∨ p = 4 ∨ 5 ≤ p := by omega
    rcases h with rfl | rfl | rfl | rfl | rfl | h
    · refine ⟨fun b => ?_, by decide⟩
      simp only [Option.some.injEq]
      split <;> decide
    · exact (by decide : fourRank 0 2 < fourRank 0 1)
    · exact (by decide : fourRank 0 3 < fourRank 0 2)
    · exact (by decide : fourRank 0 4 < fourRank 0 3)
    · exact ⟨fun b => by simp, by decide⟩
    · have : four.op 0 p = .exit 0 := by
        obtain ⟨q, rfl⟩ := Nat.exists_eq_add_of_le h
        rw [Nat.add_comm]; rfl
      rw [this]
      show 0 < fourRank 0 p
      simp only [fourRank]; split <;> omega
  | 1 =>
    have h : p = 0 ∨ p = 1 ∨ 2 ≤ p := by omega
    rcases h with rfl | rfl | h
    · exact (by decide : fourRank 1 1 < fourRank 1 0)
    · exact (by decide : 0 < fourRank 1 1)
    · have : four.op 1 p = .exit 0 := by
        obtain ⟨q, rfl⟩ := Nat.exists_eq_add_of_le h
        rw [Nat.add_comm]; rfl
      rw [this]
      show 0 < fourRank 1 p
      simp only [fourRank]; split <;> omega
  | v + 2 =>
    have h : p = 0 ∨ 1 ≤ p := by omega
    rcases h with rfl | h
    · exact (by simp [fourRank] : fourRank (v + 2) 1 < fourRank (v + 2) 0)
    · have : four.op (v + 2) p = .exit 0 := by
        obtain ⟨q, rfl⟩ := Nat.exists_eq_add_of_le h
        rw [Nat.add_comm 1]; rfl
      rw [this]
      show 0 < fourRank (v + 2) p
      simp only [fourRank]; split <;> omega

theorem four_read : InputsRead four := by
  intro v d bytes hv hd
  have hv : v = 0 ∨ v = 1 ∨ v = 2 ∨ v = 3 := by
    have : v < 4 := hv
    omega
  rcases hv with rfl | rfl | rfl | rfl
  · have : some ((5 : Int), ([118, 119] : List UInt8)) = some (d, bytes) := hd
    cases this
    refine ⟨by decide, fun n => n ≤ 4, ?_, by decide⟩
    intro p hp
    have h : p = 0 ∨ p = 1 ∨ p = 2 ∨ p = 3 ∨ p = 4 := by omega
    rcases h with rfl | rfl | rfl | rfl | rfl
    · intro b
      show (if some b = some 118 then 1 else 4) ≤ 4
      split <;> omega
    · exact (by decide : 2 ≤ 4)
    · exact (by decide : 3 ≤ 4)
    · exact (by decide : 4 ≤ 4)
    · intro b
      exact (by simp : (if (some b).isSome then 4 else 5) ≤ 4)
  · cases hd
  · cases hd
  · cases hd

/-- In some fair run (and in every other one) of `four` the log says at the end: `a` has ended with 0 and `k=v`, `b` with 3, `d` with 0,
and nothing about `c`. -/
example : ∃ σ α m, InfRun four emptyLog 0 σ α ∧ (σ m).sys.tr.pc = .done ∧
    ("a", 0, [[("k", "v")]]) ∈ outcomes (newEntries emptyLog (σ m).sys.tr) ∧ ("b", 3, []) ∈ outcomes (newEntries emptyLog (σ m).sys.tr) ∧
    ("d", 0, []) ∈ outcomes (newEntries emptyLog (σ m).sys.tr) ∧ ∀ x y, ("c", x, y) ∉ outcomes (newEntries emptyLog (σ m).sys.tr) := by
  obtain ⟨σ, α, h1, h2, h3⟩ := fair_run_exists four emptyLog 0
  obtain ⟨m, h4, h5, h6⟩ := execute_computes four_good four_displayable four_runnable four_ordered (by decide) (by decide) rfl
    (by decide) four_read (fun v _ => four_ends v) four_programs four_few h1 h2 h3
  have reach : ∀ u v, four.sys.tr.g.Reach u v → (u = 0 ∨ u = 1) ∧ v ≠ 0 ∧ (v ≠ 2 → u = 0) := by
    rintro u v ⟨k, hk⟩
    have dep : ∀ x y, four.sys.tr.g.Dep x y → x = 0 ∧ y = 1 ∨ x = 1 ∧ y = 2 ∨ x = 0 ∧ y = 3 := by
      intro x y h
      simpa [four, DiGraph.Dep] using h
    induction k generalizing v with
    | zero =>
      cases hk with
      | snoc hw h => cases hw with | nil => have := dep _ _ h; omega
    | succ k ih =>
      cases hk with
      | snoc hw h => have := dep _ _ h; have := ih _ hw; omega
  refine ⟨σ, α, m, h1, h4, (h5 _).2 ⟨0, by decide, ?_, by decide +kernel⟩, (h5 _).2 ⟨1, by decide, ?_, by decide +kernel⟩,
    (h5 _).2 ⟨3, by decide, ?_, by decide +kernel⟩, ?_⟩
  · intro u hu; exact absurd rfl (reach u 0 hu).2.1
  · intro u hu; rw [(reach u 1 hu).2.2 (by decide)]; rfl
  · intro u hu; rw [(reach u 3 hu).2.2 (by decide)]; rfl
  · intro x y hc
    obtain ⟨v, hv, h7, h8⟩ := (h5 _).1 hc
    have hv : v = 0 ∨ v = 1 ∨ v = 2 ∨ v = 3 := by
      have : v < 4 := hv
      omega
    rcases hv with rfl | rfl | rfl | rfl
    · have h9 : "c" = keyOf four.sys.tr 0 := congrArg Prod.fst h8
      revert h9; decide
    · have h9 : "c" = keyOf four.sys.tr 1 := congrArg Prod.fst h8
      revert h9; decide
    · have := h7 1 ⟨0, .single (by simp [four, DiGraph.Dep])⟩
      cases this
    · have h9 : "c" = keyOf four.sys.tr 3 := congrArg Prod.fst h8
      revert h9; decide

/-! ### sharpness -/

/-- The child writes `a` to descriptor 3, a process it has started writes `b`. -/
def twins : ChildIo.Cfg Nat := Props.ChildIo.normal (table [.fork 1 3, .put .val 97 2, .exit 0, .put .val 98 2]) 4 none

/-- Both end, and the loop reads everything. -/
def twinsEnd : List ChildIo.Act :=
  [.run 0, .run 0, .collect .val, .collect .val, .eof .out, .eof .err, .eof .val, .reap, .finish]

/-- **C158 (violated for programs that start other processes).** The same program, no input, nobody kills anything: two different
results, depending on the order. -/
theorem several_processes_violated : ∃ as s as' s' bytes bytes',
    ChildIo.Runs twins (ChildIo.init twins) as s ∧ (∀ a ∈ as, ChildIo.outside a = false) ∧ s.stage = .ended (.exited 0) bytes ∧
    ChildIo.Runs twins (ChildIo.init twins) as' s' ∧ (∀ a ∈ as', ChildIo.outside a = false) ∧ s'.stage = .ended (.exited 0) bytes' ∧
    bytes .val = [97, 98] ∧ bytes' .val = [98, 97] := by
  have two : ∀ as w, ChildIo.after twins as (fun s => match s.stage with | .ended (.exited 0) b => b .val == w | _ => false) = true →
      ∃ s bytes, ChildIo.Runs twins (ChildIo.init twins) as s ∧ s.stage = .ended (.exited 0) bytes ∧ bytes .val = w := by
    intro as w h
    obtain ⟨s, h1, h2⟩ := ChildIo.runs_of_after h
    split at h2
    · rename_i b hb; exact ⟨s, b, h1, hb, by simpa using h2⟩
    · cases h2
  obtain ⟨s, b, h1, h2, h3⟩ := two ([.started, .run 0, .run 0, .run 1] ++ twinsEnd) [97, 98] (by decide +kernel)
  obtain ⟨s', b', h4, h5, h6⟩ := two ([.started, .run 0, .run 1, .run 0] ++ twinsEnd) [98, 97] (by decide +kernel)
  exact ⟨_, s, _, s', b, b', h1, by decide, h2, h4, by decide, h5, h3, h6⟩

end Verif.Props.Program
