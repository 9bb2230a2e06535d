import Verif.Proof.Rerun
import Verif.Proof.Counts

/-!
# C32, C37: several `execute` calls in one session
-/

namespace Verif.Props.Rerun
open Verif Verif.World Spec
open Verif.Props.World (open2 exec2 begun started exits sent returns failedThenAgain failedReusedThenAgain)

variable {w : World}

/-- **C37 (every history).** However often `execute` is called, and however processes end: the runcounts under which a key
was started never decrease, nor do those of its Ready entries. -/
theorem runcounts_never_decrease (h : Reachable w) (k : String) :
    (attempts k w.log).Pairwise (· ≤ ·) ∧ (readyCounts k w.log).Pairwise (· ≤ ·) := by
  have hp := h.inv.log.protocol
  have hc := counts_of_weak (k := k) hp (h.rerun.log h.inv)
  exact ⟨hc.sublist (attempts_sublist hp).1, hc⟩

/-- Session 1: `a` is interrupted while running, `execute` is called again, makes `a` ready, and the process is killed.
Session 2: `a` is started. -/
def interruptedKilled : List Act :=
  open2 ++ [exec2] ++ begun ++ started 0 ++ [.trk .ctrlC, .trk .joinDone, .trk (.drain [0] ⟨2, 0⟩), .finish, exec2] ++ begun ++
  [.stop 5] ++ open2 ++ [exec2] ++ begun ++ started 0

/-- Three sessions, `a` failing in each, twice in the second. -/
def failsThrice : List Act :=
  open2 ++ [exec2] ++ begun ++ started 0 ++ exits 0 1 [1] ++ returns ++ [.stop 4] ++
  open2 ++ [exec2] ++ begun ++ started 0 ++ [.trk .ctrlC, .trk .joinDone, .trk (.drain [0] ⟨2, 0⟩), .finish, exec2] ++ begun ++ started 0 ++
  exits 0 1 [1] ++ returns ++ [.stop 11] ++ open2 ++ [exec2] ++ begun ++ started 0

/-- Non-trivial case: four attempts, the second and third with the same runcount. -/
example : after failsThrice (fun w => attempts "a" w.log == [0, 1, 1, 2] && readyCounts "a" w.log == [0, 1, 1, 2]) = true := by
  decide +kernel

/-- **C37 (run counts count).** In every history a Ready entry carries at most the number of attempts (Started entries) of its key
before it. In particular run counts are smaller than the number of lines of the log: they do not leave their 32 bits before the log
has 2^32 lines. -/
theorem runcount_at_most_attempts (h : Reachable w) {pre post : List LogEntry} {r : ReadyEntry}
    (he : w.log = pre ++ .ready r :: post) : r.runcount ≤ startsOf r.key pre ∧ r.runcount < w.log.length := by
  have h1 := (h.counts.log h.inv) pre r post he
  refine ⟨h1, ?_⟩
  have h2 : startsOf r.key pre ≤ pre.length := List.countP_le_length
  rw [he]
  simp only [List.length_append, List.length_cons]
  omega

/-- **C37 (numbering).** If no session of the history called `execute` more than once, the attempts of a key are numbered 0, 1, 2, …
without gaps, whatever failed, was interrupted or killed. -/
theorem attempts_numbered (h : Reachable w) (hm : w.multi = false) (k : String) :
    attempts k w.log = List.range (startsOf k w.log) := by
  obtain ⟨h1, h2⟩ := attempts_few (k := k) h.inv.log.protocol (h.counts.log h.inv)
  rw [← h1]
  exact eq_range (World.runcounts_increase_partial h hm k) h2

/-- **C37 (what `logfile_runcount` says).** In every history it is at most the number of attempts made so far. If no session called
`execute` more than once, it is the number of attempts made so far, and one less together with a directory exactly if the last
attempt was a success. -/
theorem logfile_runcount_counts (h : Reachable w) {s : Sess} (hs : w.sess = some s) (hrun : s.run = none) {k : String} {n : Nat}
    {d : Option TaskDir} (hl : logfileRuncount s.g.logfile k = .ok (n, d)) :
    n ≤ startsOf k w.log ∧
    (w.multi = false → (d = none ∧ n = startsOf k w.log) ∨ (d ≠ none ∧ n + 1 = startsOf k w.log)) := by
  have hlog : w.log = s.g.logfile.entries := by simp [World.log, hs, hrun]
  have hI := h.inv.sess s hs
  rw [hlog]
  exact ⟨logfileRuncount_few hI.cons (h.counts.few s hs) hl,
    fun hm => logfileRuncount_exact hI.cons (h.counts.few s hs) (hI.log.rcok hm) hl⟩

/-- Three sessions, `a` fails, is killed, and succeeds. -/
def thirdTime : List Act :=
  open2 ++ [exec2] ++ begun ++ started 0 ++ exits 0 1 [1] ++ returns ++ [.stop 4] ++
  open2 ++ [exec2] ++ begun ++ started 0 ++ [.stop 7] ++
  open2 ++ [exec2] ++ begun ++ started 0 ++ exits 0 0 [1] ++ sent ++
  [.trk .ctrlC, .trk .joinDone, .trk (.drain [] ⟨2, 0⟩), .finish]

/-- Non-trivial case of the three: three attempts 0, 1, 2; the last was a success. In the first case `multi` is true and a run count is
below the number of attempts. -/
example : after failsThrice (fun w => w.multi && startsOf "a" w.log == 4 && readyCounts "a" w.log == [0, 1, 1, 2]) = true ∧
    after thirdTime (fun w => !w.multi && attempts "a" w.log == [0, 1, 2] && startsOf "a" w.log == 3 &&
      (match w.sess with
        | some s => s.run.isNone && (match logfileRuncount s.g.logfile "a" with | .ok (n, d) => n == 2 && d.isSome | _ => false)
        | none => false)) = true := by
  decide +kernel

/-- **C37 (violated, also between sessions).** Two attempts of one key in different sessions can have the same runcount: a
header entry stands between their Started entries. -/
theorem runcount_shared_violated : ∃ w pre h post s s', Reachable w ∧ w.log = pre ++ .header h :: post ∧
    LogEntry.started s ∈ pre ∧ LogEntry.started s' ∈ post ∧ s.key = "a" ∧ s'.key = "a" ∧
    attempts "a" pre = [0] ∧ attempts "a" w.log = [0, 0] := by
  obtain ⟨w, h1, h2⟩ := runs_of_after (as := interruptedKilled) (p := fun w =>
    attempts "a" w.log == [0, 0] && attempts "a" (w.log.take 5) == [0] &&
    (match w.log.drop 5 with
      | .header _ :: rest => rest.any (fun e => match e with | .started s => s.key == "a" | _ => false)
      | _ => false) &&
    (w.log.take 5).any (fun e => match e with | .started s => s.key == "a" | _ => false)) (by decide +kernel)
  simp only [Bool.and_eq_true, beq_iff_eq, List.any_eq_true] at h2
  obtain ⟨⟨⟨a1, a2⟩, a3⟩, x, x1, x2⟩ := h2
  cases x with
  | started s =>
    simp only [beq_iff_eq] at x2
    split at a3
    · rename_i h rest hd
      obtain ⟨y, y1, y2⟩ := List.any_eq_true.1 a3
      cases y with
      | started s' =>
        simp only [beq_iff_eq] at y2
        refine ⟨w, w.log.take 5, h, rest, s, s', ⟨_, h1⟩, ?_, x1, y1, x2, y2, a2, a1⟩
        rw [← hd, List.take_append_drop]
      | _ => simp at y2
    · cases a3
  | _ => simp at x2

/-- **C32 (every `execute`).** A runner obtains a task only if each of its dependencies, in the whole task graph of the
session, had a success in the log when `execute` was called, or was run in this `execute` and its success was reported and
processed, or had been taken up or reused by an earlier `execute` of the same session. -/
theorem dependencies_settled (h : Reachable w)
    {target : Option Nat} {rerun : Bool} {fizzles : Nat} {ch : Choices} {now : Int} {w1 w2 : World}
    (he : step w (.exec target rerun fizzles ch now) = .ok w1) {as : List Act} (hr : Runs w1 as w2)
    (ht : ∀ a ∈ as, a.isTrk = true) {r : Running} (hrun : w2.running = some r) {v : Nat} (ho : Tracker.Obtained r.st v)
    {i j : Nat} {ci cj : Cmd} (hi : w.tasks.nodes[i]? = some ci) (hk : ci.key = Tracker.keyOf r.cfg v)
    (hd : w.tasks.Dep j i) (hj : w.tasks.nodes[j]? = some cj) :
    SuccessLogged w.log cj.key ∨ (∃ u, Tracker.keyOf r.cfg u = cj.key ∧ Tracker.Succeeded r.st u) ∨ Taken cj.key w.log := by
  obtain ⟨s, s1, lf', c', e1, e2, e3, e4, e5, e6, e7, e8, e9, e10, e11⟩ := exec_cases he
  have hI := h.inv.sess s e1
  rcases e11 with ⟨e11, _⟩ | ⟨c, e11, _⟩
  · exfalso
    cases hr with
    | nil => simp [World.running, e3, e11] at hrun
    | @cons _ _ _ a as hst _ =>
      have ha := ht a (by simp)
      cases a with
      | trk b => simp [step, e3, e11] at hst
      | _ => simp [Act.isTrk] at ha
  · obtain ⟨st, e12⟩ := runs_trk hr ht e3 e11
    have hI2 : WInv w2 := winv_runs hr (winv_step h.inv he)
    subst e12
    simp only [World.running, Option.bind_some, Option.some.injEq] at hrun
    subst hrun
    have hR := (hI2.sess _ rfl).run _ rfl
    have hm := hR.reach.obtained_made hR.good ho
    have hlt := ((hR.reach.inv hR.good).1).core.deps.lt v hm
    simp only [World.tasks, e1] at hi hj hd
    have hnd : ∀ (i : Nat) (x : Cmd), s.g.deps.nodes[i]? = some x →
        ∃ y, (Selection.prioritised s.g ch).nodes[i]? = some y ∧ y.key = x.key := by
      intro i x hx
      simp only [withPriorities, List.getElem?_mapIdx, hx, Option.map_some, Option.some.injEq]
      exact ⟨_, rfl, rfl⟩
    have hd' : (Selection.prioritised s.g ch).Dep j i := hd
    obtain ⟨yi, yi1, yi2⟩ := hnd i ci hi
    obtain ⟨yj, yj1, yj2⟩ := hnd j cj hj
    have := hR.deps v _ (Tracker.node_of_lt hlt) i yi (by simpa only [e8] using yi1) (by rw [yi2, hk]; rfl) j yj
      (by simpa only [e8] using hd') (by simpa only [e8] using yj1)
    rcases this with ⟨u, cu, d1, d2, d3⟩ | d | d
    · right; left
      refine ⟨u, ?_, Tracker.dependencies_first hR.good hR.reach ho d1⟩
      unfold Tracker.keyOf
      rw [Tracker.cmdOf_eq d2, d3, yj2]
    · left
      rw [e5, ← hasSuccess_iff hI.cons hI.log.norerun]
      simpa only [e8, e6, yj2] using d
    · right; right
      rw [e5]
      exact (h.rerun.sess s e1).taken _ (by simpa only [yj2] using d)

/-- Non-trivial case: the second `execute` runs `b`; `a` had been taken up by the first one, and has no success (this is the
history of `dependencies_succeeded_violated`). -/
example : after failedThenAgain (fun w => w.executes == 2 && decide (w.tasks.edges = [(0, 1)]) &&
    (w.running.map (fun r => r.st.obtained.map (fun x => Tracker.keyOf r.cfg x.2))) == some ["b"] &&
    readyCounts "a" w.log == [0]) = true := by decide +kernel

end Verif.Props.Rerun
