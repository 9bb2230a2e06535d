import Verif.Proof.Workflow
import Verif.Props.Resume
import Verif.Props.Anywhere

/-!
# C163: work interrupted, resumed and moved between machines
-/

namespace Verif.Props.Workflow
open Verif Verif.Deploy
open Verif.World (Does Fits FailsIn DueIn SuccessLogged results)

variable {D : String → String → Prop} {B : Does} {target : Option Nat} {as mid as' mid' : List Act} {d d1 d2 e e1 e2 : State} {call call' : Act}

/-- **C163 (what holds).** After any deployment history in which each session calls `execute` once at most, the first `execute` of
a session, wherever its tasks run, comes to what the tasks alone say: of the tasks it looks at exactly those have a success
in the log that succeed and whose dependencies, transitively, all succeed; these have exactly one result, the true one, and
the others none; the number of failures returned is the number of tasks that fail and whose dependencies all succeed. -/
theorem redeployment_partial (ho : World.OncePerSession (collect worldAct init as)) (h : Redeployment D B target as call mid d d1 d2) :
    (∀ (i : Nat) c, d.world.tasks.nodes[i]? = some c → Spec.Considered d.world.tasks target i →
      (SuccessLogged d2.world.log c.key ↔ DueIn B d.world.tasks i ∧ (B c.key).1 = .code 0) ∧
      (DueIn B d.world.tasks i ∧ (B c.key).1 = .code 0 → results c.key d2.world.log = [(B c.key).2]) ∧
      (¬ (DueIn B d.world.tasks i ∧ (B c.key).1 = .code 0) → results c.key d2.world.log = [])) ∧
    ∃ (keys : List String) (l : List Nat), d2.world.result = some (l.length, keys) ∧ l.Nodup ∧
      ∀ i, i ∈ l ↔ FailsIn B d.world.tasks target i := by
  obtain ⟨h1, n, keys, l, h2, h3, rfl, h4⟩ := redeployed ho h
  obtain ⟨ends, hall, hends⟩ := h.all
  refine ⟨fun i c hi hc => ?_, keys, l, h2, h3, h4⟩
  obtain ⟨u1, u2⟩ := World.results_unique (k := c.key) (x := (B c.key).2) (Props.World.success_never_rerun ⟨_, hall.inv.world⟩) (by
    intro v hv
    obtain ⟨e, he, hk⟩ := List.mem_filterMap.1 hv
    cases e with
    | finished f =>
      simp only [Option.ite_none_right_eq_some, Option.some.injEq] at hk
      obtain ⟨⟨g1, g2⟩, rfl⟩ := hk
      have := hall.inv.ends f he (by rw [g2]; rfl)
      rw [hends, g1, g2] at this
      rw [h.successes _ _ this]
    | _ => simp at hk)
  refine ⟨h1 i c hi hc, fun hd => u2.1 ((h1 i c hi hc).2 hd), fun hd => ?_⟩
  rcases u1 with u1 | u1
  · exact u1
  · exact absurd ((h1 i c hi hc).1 (u2.2 u1)) hd

/-- **C163 (what holds).** Two deployment histories, however often interrupted and wherever the tasks ran, end with an undisturbed
first `execute` on the same tasks: for every task it looks at both logs have the same results, and both calls return the same
number of failures. -/
theorem as_if_in_one_place_partial (ho : World.OncePerSession (collect worldAct init as)) (h : Redeployment D B target as call mid d d1 d2)
    (ho' : World.OncePerSession (collect worldAct init as')) (h' : Redeployment D B target as' call' mid' e e1 e2)
    (hk : d.world.tasks.nodes.map (·.key) = e.world.tasks.nodes.map (·.key)) (he : d.world.tasks.edges = e.world.tasks.edges) :
    (∀ (i : Nat) c, d.world.tasks.nodes[i]? = some c → Spec.Considered d.world.tasks target i →
      results c.key d2.world.log = results c.key e2.world.log) ∧
    d2.world.result.map (·.1) = e2.world.result.map (·.1) ∧ d2.world.result.isSome := by
  obtain ⟨h1, keys, l, h2, h3, h4⟩ := redeployment_partial ho h
  obtain ⟨g1, keys', l', g2, g3, g4⟩ := redeployment_partial ho' h'
  refine ⟨fun i c hi hc => ?_, ?_, by rw [h2]; rfl⟩
  · have : (e.world.tasks.nodes.map (·.key))[i]? = some c.key := by rw [← hk, List.getElem?_map, hi, Option.map_some]
    rw [List.getElem?_map, Option.map_eq_some_iff] at this
    obtain ⟨c', h5, h6⟩ := this
    obtain ⟨_, a1, a2⟩ := h1 i c hi hc
    obtain ⟨_, b1, b2⟩ := g1 i c' h5 (Resume.considered_same hk he hc)
    rw [h6] at b1 b2
    by_cases hd : DueIn B d.world.tasks i ∧ (B c.key).1 = .code 0
    · rw [a1 hd, b1 ⟨Resume.dueIn_same hk he hd.1, hd.2⟩]
    · rw [a2 hd, b2 (fun hx => hd ⟨Resume.dueIn_same hk.symm he.symm hx.1, hx.2⟩)]
  · have hp : l.Perm l' := by
      rw [List.perm_ext_iff_of_nodup h3 g3]
      intro i
      rw [h4, g4]
      exact ⟨Resume.failsIn_same hk he, Resume.failsIn_same hk.symm he.symm⟩
    rw [h2, g2]
    simp [hp.length_eq]

/-! ### Concrete cases -/

open Verif.Props.Deploy (opened inCluster atServer begins sends remoteRun execRemote localRun spawns)

/-- `a` succeeds with a value, `b` fails. -/
def does (k : String) : Tracker.ExitStatus × List (List (String × String)) :=
  if k = "a" then (.code 0, [[("x", "y")]]) else (.code 7, [])

/-- The first process is killed after its remote runner has obtained `b`; a new session. -/
def moved : List Act := opened ++ [execRemote] ++ remoteRun ++ [.world (.stop 5)] ++ opened

/-- Its `execute`, with one local loop. -/
def hereCall : Act := .exec none true 2 ⟨[0, 1], [1, 0], [0], ["a"]⟩ 0 1 false "l"

/-- The local loop runs `b`; meanwhile the runner left over starts it, too, and finds its server gone. -/
def hereMid : List Act := begins ++ [.late 0 (spawns 0 9)] ++ localRun 7 [] ++ [.late 0 (.runner 0 .sendBegun), .late 0 (.fail 0)] ++
  atServer [.loopRecv 0, .loopRecv 1, .joinDone, .server (.drain [] ⟨2, 0⟩)]

/-- In one go, with remote runners only. -/
def thereCall : Act := .exec none true 2 ⟨[0, 1], [1, 0], [0, 1], []⟩ 0 0 true "k"

/-- The runner that has run `a` runs `b`. -/
def thereMid : List Act := remoteRun ++ inCluster (Props.Cluster.launch 0 3 8 ++
  [.runner 0 (.childEnds 8), .runner 0 (.output ⟨7, []⟩), .runner 0 .sendEnd, .arrive 4, .server (.hCancel 4),
   .server (.hReport 4), .server (.server (.recvFinished [] ⟨1, 0⟩)), .server (.hFlag 4), .server (.hRecv 4), .answer 0, .server .reapStop,
   .server .joinDone, .server (.server (.drain [] ⟨2, 0⟩))])

/-- What the cluster of the call does is as required: a check. -/
def calmB (l : Live) : Bool :=
  l.acts.all (fun a => !Cluster.disturbed a) &&
  (Sys.collect Sys.slowTick l.cfg (Sys.init l.cfg l.lf l.now) (Cluster.served l.cfg l.lf l.now l.acts)).isEmpty &&
  decide ((Cluster.served l.cfg l.lf l.now l.acts).countP Sys.isReapTick < 255) &&
  (Cluster.collect Cluster.exits l.cfg (Cluster.init l.cfg l.lf l.now) l.acts).all (fun x => does (l.key x.1) == (.code x.2.1, x.2.2))

/-- The demos: tasks `a` and `b`, the second depending on the first. -/
def demo (as : List Act) (call : Act) (mid : List Act) (p : State → Bool) : Bool :=
  Resume.always (fun w => Resume.fitsB [("a", "b")] w.tasks) (collect worldAct init as) &&
  Resume.always (fun w => decide (w.executes ≤ 1)) (collect worldAct init as) &&
  (collect ended init (as ++ call :: mid)).all (fun x => x.2.1 != 0 || does x.1 == (.code 0, x.2.2)) &&
  mid.all within &&
  after as (fun d => d.world.executes == 0 && decide (d.world.tasks.nodes.map (·.key) = ["a", "b"]) && decide (d.world.tasks.edges = [(0, 1)]) &&
    allFresh d (call :: mid) &&
    match replay d (call :: mid) with
    | .ok d1 => (match d1.live with | some l => calmB l | none => false) &&
      (match step d1 (.world .finish) with | .ok d2 => p d2 | _ => false)
    | _ => false)

theorem of_demo {p : State → Bool} (h : demo as call mid p = true) {ch : Choices} {now : Int} {np : Nat} {remote : Bool} {secret : String}
    (hcall : call = .exec none true 2 ch now np remote secret) :
    ∃ d d1 d2, World.OncePerSession (collect worldAct init as) ∧
      Redeployment (fun k k' => (k, k') ∈ [("a", "b")]) does none as call mid d d1 d2 ∧ p d2 = true ∧
      d.world.tasks.nodes.map (·.key) = ["a", "b"] ∧ d.world.tasks.edges = [(0, 1)] := by
  simp only [demo, Bool.and_eq_true] at h
  obtain ⟨⟨⟨⟨h1, h2⟩, h3⟩, h4⟩, h5⟩ := h
  obtain ⟨d, hd, h6⟩ := runs_of_after h5
  simp only [Bool.and_eq_true, decide_eq_true_eq, beq_iff_eq] at h6
  obtain ⟨⟨⟨⟨g1, g2⟩, g3⟩, g4⟩, g5⟩ := h6
  split at g5
  · rename_i d1 hd1
    rw [Bool.and_eq_true] at g5
    obtain ⟨g5, g6⟩ := g5
    split at g6
    · rename_i d2 hd2
      split at g5
      · rename_i l hl
        simp only [calmB, Bool.and_eq_true, List.all_eq_true, decide_eq_true_eq, Bool.not_eq_true', List.isEmpty_iff, beq_iff_eq] at g5
        obtain ⟨⟨⟨c1, c2⟩, c3⟩, c4⟩ := g5
        refine ⟨d, d1, d2, Resume.once_of h2, ⟨hd, fun as1 w1 hp hr => Resume.fits_of (Resume.of_always h1 hp hr), g1,
          ⟨2, ch, now, np, remote, secret, hcall, ?_⟩, runs_of_replay hd1 g4, fun a ha => List.all_eq_true.1 h4 a ha, ?_, ?_, ?_, .inr hd2⟩,
          g6, g2, g3⟩
        · intro l hl hall
          have : l ⊆ [1] := by
            intro i hi
            obtain ⟨c, c1, _, _, c2⟩ := hall i hi
            have : ["a", "b"][i]? = some c.key := by rw [← g2, List.getElem?_map, c1, Option.map_some]
            match i with
            | 0 => simp only [List.getElem?_cons_zero, Option.some.injEq] at this; rw [← this] at c2; exact absurd rfl c2
            | 1 => simp
            | _ + 2 => simp at this
          have := (List.subperm_of_subset hl this).length_le
          simp only [List.length_cons, List.length_nil] at this
          omega
        · intro l' hl'
          rw [hl] at hl'
          cases hl'
          exact ⟨c1, Anywhere.heard_of_few c2 c3⟩
        · intro l' hl'
          rw [hl] at hl'
          cases hl'
          exact c4
        · intro k v hv
          have := List.all_eq_true.1 h3 _ hv
          simpa using this
      · cases g5
    · cases g6
  · cases g5

set_option maxRecDepth 20000 in
theorem here_demo : demo moved hereCall hereMid (fun d2 => decide (d2.world.result = some (1, ["b"])) &&
    results "a" d2.world.log == [[[("x", "y")]]] && results "b" d2.world.log == []) = true := by decide +kernel

set_option maxRecDepth 20000 in
theorem there_demo : demo opened thereCall thereMid (fun d2 => decide (d2.world.result = some (1, ["a", "b"])) &&
    results "a" d2.world.log == [[[("x", "y")]]] && results "b" d2.world.log == []) = true := by decide +kernel

/-- Non-trivial case of both theorems: killed after `a` was run remotely and resumed locally; and in one go, all remotely. The runner left
over from the killed process starts `b` once more. -/
example : ∃ d d1 d2 e e1 e2, World.OncePerSession (collect worldAct init moved) ∧ World.OncePerSession (collect worldAct init opened) ∧
    Redeployment (fun k k' => (k, k') ∈ [("a", "b")]) does none moved hereCall hereMid d d1 d2 ∧
    Redeployment (fun k k' => (k, k') ∈ [("a", "b")]) does none opened thereCall thereMid e e1 e2 ∧
    d.world.tasks.nodes.map (·.key) = e.world.tasks.nodes.map (·.key) ∧ d.world.tasks.edges = e.world.tasks.edges ∧
    d2.world.result = some (1, ["b"]) ∧ e2.world.result = some (1, ["a", "b"]) ∧ results "a" d2.world.log = [[[("x", "y")]]] ∧
    collect started init (moved ++ hereCall :: hereMid) = ["a", "b", "b"] := by
  obtain ⟨d, d1, d2, o1, h1, h2, h3, h4⟩ := of_demo here_demo rfl
  obtain ⟨e, e1, e2, o2, g1, g2, g3, g4⟩ := of_demo there_demo rfl
  simp only [Bool.and_eq_true, decide_eq_true_eq, beq_iff_eq] at h2 g2
  exact ⟨d, d1, d2, e, e1, e2, o1, o2, h1, g1, by rw [h3, g3], by rw [h4, g4], h2.1.1, g2.1.1, h2.1.2, by decide +kernel⟩

end Verif.Props.Workflow
