import Verif.Proof.SentAway
import Verif.Props.System

/-!
# What a remote runner that gets no task is told (C175)

`Runs c (init c lf now) as s`: some schedule `as` of an `execute` call leads to state `s`. The answer to the `h`-th request of
the call is `.done (some r)` at position `h` of `handlers`. A runner that is answered 410 or 429 exits (execgraph-remote.rs), so
work that is left would have to wait for another runner.
-/

namespace Verif.Props.System
open Verif Verif.Tracker Verif.Sys
open Verif.Props.Tracker (t0)

variable {c : Sys.Cfg} {lf : LogFile} {now : Int} {s s' : Sys.State}

/-- **C175 (410).** When a request is answered 410, it is a `/start` of a Slurm job that was declared cancelled, or the queues have
been closed, or there was a hard cancellation. -/
theorem gone_means {a : Sys.Act} {h : Nat} (hs : Sys.step c s a = .ok s') (h0 : s.handlers[h]? ≠ some (.done (some .gone)))
    (h1 : s'.handlers[h]? = some (.done (some .gone))) :
    (∃ j rt, a = .request ⟨some c.secret, some (some j), .start rt⟩ ∧ j ∈ s.cancelledJobs) ∨
    s.tr.readyOpen = false ∨ s.tr.token = some .hard :=
  gone_cause hs h0 h1

/-- **C175 (nobody is sent away from work).** If nobody has asked for a shutdown or cancelled, and there were fewer quick failures
than allowed: when a request is answered 410 and its job was not declared cancelled, then every selected task has been reported
finished, or depends on one that failed. -/
theorem not_sent_away_from_work (hg : Good c.tr) (hord : Ordered c.tr) {as : List Sys.Act} (hr : Sys.Runs c (Sys.init c lf now) as s)
    (hno : NoShutdown (toTracker c (Sys.init c lf now) as)) (hnc : Tracker.Act.cancel .hard ∉ toTracker c (Sys.init c lf now) as)
    (hq : quickFailures c.tr [] (Tracker.init c.tr lf now) (toTracker c (Sys.init c lf now) as) < c.tr.fizzlesAllowed)
    {a : Sys.Act} {h : Nat} (hs : Sys.step c s a = .ok s') (h0 : s.handlers[h]? ≠ some (.done (some .gone)))
    (h1 : s'.handlers[h]? = some (.done (some .gone)))
    (hm : ∀ j rt, a = .request ⟨some c.secret, some (some j), .start rt⟩ → j ∉ s.cancelledJobs) {v : Nat} (hv : v < c.tr.g.n) :
    v ∈ s.tr.processed.map (·.1) ∨ ∃ u, FailedIn s.tr u ∧ c.tr.g.Reach u v := by
  have hrun := hr.toInit hg
  have hend : ended s.tr.pc = true := by
    rcases gone_cause hs h0 h1 with ⟨j, rt, e, hj⟩ | hc | ht
    · exact absurd hj (hm j rt e)
    · exact closed_over hg hrun hno hq hc
    · by_contra he
      exact hnc (hard_cause hrun ht (by simpa using he))
  rcases Props.Tracker.nothing_forgotten hg hord hrun hno hq (over_of_ended hend) hv with ⟨hcnt, _⟩ | ⟨_, hu⟩
  · exact .inl (List.count_pos_iff.1 (by omega))
  · exact .inr hu

/-- **C175 (404).** A request for a task is answered 404 only for a runner type that does not exist. -/
theorem notFound_means {a : Sys.Act} {h rt : Nat} {j : String} (hs : Sys.step c s a = .ok s')
    (h0 : s.handlers[h]? = some (.toRecv rt j) ∨ s.handlers[h]? = some (.inRecv rt j))
    (h1 : s'.handlers[h]? = some (.done (some .notFound))) : 64 ≤ rt := by
  rcases answered hs (by rcases h0 with h | h <;> rw [h] <;> simp) h1 with ⟨q, _, e, _⟩ | ⟨x, hx, hm⟩
  · rw [e, List.getElem?_append_left (by rcases h0 with h | h <;> exact (List.getElem?_eq_some_iff.1 h).1)] at h1
    rcases h0 with h | h <;> rw [h] at h1 <;> cases h1
  · cases hm with
    | refused rt' j' _ _ =>
      rw [hx] at h0
      simp only [Option.some.injEq, Handler.toRecv.injEq, reduceCtorEq, or_false] at h0
      obtain ⟨rfl, rfl⟩ := h0
      simp only [Sys.step, hx] at hs
      have hlt := (List.getElem?_eq_some_iff.1 hx).1
      by_contra hl
      unfold recvCheck at hs
      rw [if_neg (by simpa using hl)] at hs
      by_cases ho : s.tr.readyOpen = false
      · rw [if_pos ho] at hs
        simp only [Res.ok.injEq] at hs; subst hs
        simp [setH, hlt] at h1
      · rw [if_neg ho] at hs
        obtain ⟨t, _, rfl⟩ := trk_ok.1 hs
        simp [setH, hlt] at h1
    | leave0 k rt' t j' _ hor => rcases hor with h | h <;> cases h
    | leave k rt' t j' _ hor => rcases hor with h | h <;> cases h

/-- **C175 (429).** A request is answered 429 only because the time for holding it has passed while it waited for a task (in
`recv`) or for the rate limiter. -/
theorem tooMany_means {a : Sys.Act} {h : Nat} (hs : Sys.step c s a = .ok s') (h0 : s.handlers[h]? ≠ some (.done (some .tooMany)))
    (h1 : s'.handlers[h]? = some (.done (some .tooMany))) :
    ∃ k rt j, a = .hLeave h k true ∧
      (s.handlers[h]? = some (.toRecv rt j) ∨ s.handlers[h]? = some (.inRecv rt j) ∧ s.tr.waiting[k]? = some rt) := by
  rcases answered hs h0 h1 with ⟨q, rfl, e, ht⟩ | ⟨x, hx, hm⟩
  · exact absurd e (takeRequest_not_tooMany ht)
  · cases hm with
    | refused rt j _ hor => rcases hor with h | h <;> cases h
    | leave0 k rt t j _ _ =>
      simp only [Sys.step, hx] at hs
      split at hs
      · cases t with
        | true => exact ⟨k, rt, j, rfl, .inl hx⟩
        | false =>
          simp only [Res.ok.injEq] at hs; subst hs
          have hlt := (List.getElem?_eq_some_iff.1 hx).1
          simp [setH, hlt] at h1
      · cases hs
    | leave k rt t j _ _ =>
      simp only [Sys.step, hx] at hs
      split at hs
      · rename_i hcond
        cases t with
        | true => exact ⟨k, rt, j, rfl, .inr ⟨hx, hcond.1⟩⟩
        | false =>
          obtain ⟨tr, _, rfl⟩ := trk_ok.1 hs
          have hlt := (List.getElem?_eq_some_iff.1 hx).1
          simp [setH, hlt] at h1
      · cases hs

/-- A runner asks while both tasks are given to others; these end, and the runner is sent away. -/
def askAndWait : List Sys.Act :=
  serve ++ handOut 0 0 5 "j" ++ handOut 1 0 6 "k" ++ [req "l" (.start 0), .hRecv 2,
    req "j" (.finish 5 0 [] none), .hCancel 3, .hReport 3, .server (.recvFinished [] t0),
    req "k" (.finish 6 0 [] none), .hCancel 4, .hReport 4, .server (.recvFinished [] t0)]

/-- Non-trivial case of `gone_means` and `not_sent_away_from_work`: before both tasks are reported the waiting request cannot be
answered 410 (but it can be answered 429), afterwards it is. -/
example : after remote2 (askAndWait ++ [.hLeave 2 0 false]) (fun s => s.handlers[2]? == some (.done (some .gone)) &&
      s.tr.processed == [(0, .code 0), (1, .code 0)] && s.cancelledJobs == []) = true ∧
    after remote2 (askAndWait.dropLast ++ [.hLeave 2 0 false]) (fun _ => true) = false ∧
    after remote2 (askAndWait.dropLast ++ [.hLeave 2 0 true]) (fun s => s.handlers[2]? == some (.done (some .tooMany))) = true := by
  decide +kernel

/-- Non-trivial case of the other hypotheses: no shutdown, no quick failure. -/
example : ((toTracker remote2 (Sys.init remote2 emptyLog 0) askAndWait).all (fun a => match a with
      | .seeTrigger => false | .seeHard => false | .ctrlC => false | .cancel .hard => false | _ => true)) = true ∧
    quickFailures remote2.tr [] (Tracker.init remote2.tr emptyLog 0) (toTracker remote2 (Sys.init remote2 emptyLog 0) askAndWait)
      < remote2.tr.fizzlesAllowed := by decide +kernel

/-- Non-trivial case of `notFound_means`: runner type 64. -/
example : after remote2 (serve ++ [req "j" (.start 64), .hRecv 0]) (fun s => s.handlers == [.done (some .notFound)]) = true ∧
    after remote2 (serve ++ [req "j" (.start 63), .hRecv 0]) (fun s => s.handlers == [.inRecv 63 "j"]) = true := by decide +kernel

end Verif.Props.System
