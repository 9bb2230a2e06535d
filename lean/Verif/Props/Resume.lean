import Verif.Proof.Resume2
import Verif.Props.Complete

/-!
# C162: resuming interrupted work
-/

namespace Verif.Props.Resume
open Verif Verif.World Verif.Props Verif.Props.World Verif.Props.Complete

variable {D : String → String → Prop} {B : Does} {target : Option Nat} {as as' acts acts' : List Act} {w w' v v' : World}

/-- **C162 (what holds).** After any history in which each session calls `execute` once at most, the first `execute` of a
session comes to what the tasks alone say: of the tasks it looks at exactly those have a success in the log that succeed
and whose dependencies, transitively, all succeed; these have exactly one result, the true one, and the others none; the
number of failures returned is the number of tasks that fail and whose dependencies all succeed. -/
theorem resumption_partial (ho : OncePerSession as) (h : Resumption D B target as acts w w') :
    (∀ (i : Nat) c, w.tasks.nodes[i]? = some c → Spec.Considered w.tasks target i →
      (SuccessLogged w'.log c.key ↔ DueIn B w.tasks i ∧ (B c.key).1 = .code 0) ∧
      (DueIn B w.tasks i ∧ (B c.key).1 = .code 0 → results c.key w'.log = [(B c.key).2]) ∧
      (¬ (DueIn B w.tasks i ∧ (B c.key).1 = .code 0) → results c.key w'.log = [])) ∧
    ∃ (keys : List String) (l : List Nat), w'.result = some (l.length, keys) ∧ l.Nodup ∧
      ∀ i, i ∈ l ↔ FailsIn B w.tasks target i := by
  obtain ⟨fizzles, tas, hw, hno, hfew⟩ := h.whole
  obtain ⟨h1, n, keys, l, h2, h3, rfl, h4⟩ := resumed h.history h.deps ho h.earlier h.first hw h.runs h.returned hno h.honest hfew
  have htold : Told (fun k => (B k).2) (as ++ acts) := by
    intro k x hx
    rw [reports_append h.history] at hx
    rcases List.mem_append.1 hx with hx | hx
    · exact (congrArg Prod.snd (h.earlier k x hx)).symm
    · exact (congrArg Prod.snd (h.honest k _ x hx)).symm
  have hrun := h.history.then h.runs
  refine ⟨fun i c hi hc => ?_, keys, l, h2, h3, h4⟩
  obtain ⟨u1, u2⟩ := result_unique hrun htold c.key
  refine ⟨h1 i c hi hc, fun hd => u2.1 ((h1 i c hi hc).2 hd), fun hd => ?_⟩
  rcases u1 with u1 | u1
  · exact u1
  · exact absurd ((h1 i c hi hc).1 (u2.2 u1)) hd

theorem dueIn_same {g g' : DiGraph Cmd} (hk : g.nodes.map (·.key) = g'.nodes.map (·.key)) (he : g.edges = g'.edges) {i : Nat}
    (h : DueIn B g i) : DueIn B g' i := by
  intro u cu hu hcu
  have : (g.nodes.map (·.key))[u]? = some cu.key := by rw [hk, List.getElem?_map, hcu, Option.map_some]
  rw [List.getElem?_map, Option.map_eq_some_iff] at this
  obtain ⟨c, h1, h2⟩ := this
  rw [← h2]
  exact h u c (Tracker.reach_same (g := g') (g' := g) he.symm hu) h1

theorem considered_same {g g' : DiGraph Cmd} (hk : g.nodes.map (·.key) = g'.nodes.map (·.key)) (he : g.edges = g'.edges) {i : Nat}
    (h : Spec.Considered g target i) : Spec.Considered g' target i := by
  have hn : g.n = g'.n := by simpa [DiGraph.n] using congrArg List.length hk
  refine ⟨hn ▸ h.1, fun t ht => (h.2 t ht).imp id (Tracker.reach_same (g := g) (g' := g') he)⟩

theorem failsIn_same {g g' : DiGraph Cmd} (hk : g.nodes.map (·.key) = g'.nodes.map (·.key)) (he : g.edges = g'.edges) {i : Nat}
    (h : FailsIn B g target i) : FailsIn B g' target i := by
  obtain ⟨c, h1, h2, h3, h4⟩ := h
  have : (g'.nodes.map (·.key))[i]? = some c.key := by rw [← hk, List.getElem?_map, h1, Option.map_some]
  rw [List.getElem?_map, Option.map_eq_some_iff] at this
  obtain ⟨c', h5, h6⟩ := this
  exact ⟨c', h5, considered_same hk he h2, dueIn_same hk he h3, by rw [h6]; exact h4⟩

/-- **C162 (what holds).** Two histories, however often interrupted (one of them, say, not at all), end with an undisturbed
first `execute` on the same tasks: for every task it looks at both logs have the same results, and both return the same
number of failures. -/
theorem as_if_uninterrupted_partial (ho : OncePerSession as) (h : Resumption D B target as acts w w')
    (ho' : OncePerSession as') (h' : Resumption D B target as' acts' v v')
    (hk : w.tasks.nodes.map (·.key) = v.tasks.nodes.map (·.key)) (he : w.tasks.edges = v.tasks.edges) :
    (∀ (i : Nat) c, w.tasks.nodes[i]? = some c → Spec.Considered w.tasks target i → results c.key w'.log = results c.key v'.log) ∧
    w'.result.map (·.1) = v'.result.map (·.1) ∧ w'.result.isSome := by
  obtain ⟨h1, keys, l, h2, h3, h4⟩ := resumption_partial ho h
  obtain ⟨g1, keys', l', g2, g3, g4⟩ := resumption_partial ho' h'
  refine ⟨fun i c hi hc => ?_, ?_, by rw [h2]; rfl⟩
  · have : (v.tasks.nodes.map (·.key))[i]? = some c.key := by rw [← hk, List.getElem?_map, hi, Option.map_some]
    rw [List.getElem?_map, Option.map_eq_some_iff] at this
    obtain ⟨c', h5, h6⟩ := this
    obtain ⟨_, a1, a2⟩ := h1 i c hi hc
    obtain ⟨_, b1, b2⟩ := g1 i c' h5 (considered_same hk he hc)
    rw [h6] at b1 b2
    by_cases hd : DueIn B w.tasks i ∧ (B c.key).1 = .code 0
    · rw [a1 hd, b1 ⟨dueIn_same hk he hd.1, hd.2⟩]
    · rw [a2 hd, b2 (fun hx => hd ⟨dueIn_same hk.symm he.symm hx.1, hx.2⟩)]
  · have hp : l.Perm l' := by
      rw [List.perm_ext_iff_of_nodup h3 g3]
      intro i
      rw [h4, g4]
      exact ⟨failsIn_same hk he, failsIn_same hk.symm he.symm⟩
    rw [h2, g2]
    simp [hp.length_eq]

/-! ### Concrete cases -/

/-- The graph has these dependencies: a check. -/
def fitsB (L : List (String × String)) (g : DiGraph Cmd) : Bool :=
  g.nodes.zipIdx.all (fun x =>
    let mine := (g.edges.filter (fun e => e.2 == x.2)).filterMap (fun e => g.nodes[e.1]?.map (·.key))
    (L.filter (fun e => e.2 == x.1.key)).all (fun e => mine.contains e.1) &&
    mine.all (fun k => L.contains (k, x.1.key)))

theorem fits_of {L : List (String × String)} {g : DiGraph Cmd} (h : fitsB L g = true) : Fits (fun k k' => (k, k') ∈ L) g := by
  intro i c hi k
  have hm : (c, i) ∈ g.nodes.zipIdx := List.mem_zipIdx_iff_getElem?.2 hi
  have := List.all_eq_true.1 h _ hm
  simp only [Bool.and_eq_true, List.all_eq_true, List.mem_filter, beq_iff_eq, List.contains_iff_mem, List.mem_filterMap,
    Option.map_eq_some_iff, and_imp, Prod.forall] at this
  obtain ⟨h1, h2⟩ := this
  constructor
  · intro hk
    obtain ⟨⟨a, b⟩, ⟨e1, rfl⟩, cj, e3, e4⟩ := h1 k c.key hk rfl
    exact ⟨a, cj, e1, e3, e4⟩
  · rintro ⟨j, cj, e1, e3, e4⟩
    exact h2 k ⟨(j, i), ⟨e1, rfl⟩, cj, e3, e4⟩

/-- All prefixes of a history: a check. -/
def always (p : World → Bool) (as : List Act) : Bool :=
  (List.range (as.length + 1)).all (fun n => match replay init (as.take n) with | .ok w => p w | _ => true)

theorem of_always {p : World → Bool} (h : always p as = true) {as1 : List Act} {w1 : World} (hp : as1 <+: as) (hr : Runs init as1 w1) :
    p w1 = true := by
  obtain ⟨rest, rfl⟩ := hp
  have := List.all_eq_true.1 h as1.length (List.mem_range.2 (by simp; omega))
  rw [List.take_left' rfl] at this
  have hrep : replay init as1 = .ok w1 := by
    clear this h
    generalize init = w0 at hr ⊢
    induction hr with
    | nil => rfl
    | cons hs _ ih => simp only [replay, hs, Res.bind]; exact ih
  rwa [hrep] at this

/-- The demos: tasks `a` and `b`, the second depending on the first. -/
def demo (B : Does) (fizzles : Nat) (ch : Choices) (tas : List Tracker.Act) (as : List Act) (p : World → World → Bool) : Bool :=
  always (fun w => fitsB [("a", "b")] w.tasks) as &&
  (reports init as).all (fun x => x.2.1 != .code 0 || B x.1 == (.code 0, x.2.2)) &&
  after as (fun w => w.executes == 0 && decide (w.tasks.nodes.map (·.key) = ["a", "b"]) && decide (w.tasks.edges = [(0, 1)]) &&
    (reports w (whole fizzles ch tas)).all (fun x => B x.1 == (x.2.1, x.2.2)) &&
    match replay w (whole fizzles ch tas) with
    | .ok w' => w'.running.isNone && p w w'
    | _ => false)
where whole (fizzles : Nat) (ch : Choices) (tas : List Tracker.Act) : List Act := .exec none true fizzles ch 0 :: (tas.map .trk ++ [.finish])

theorem of_demo {B : Does} {ch : Choices} {tas : List Tracker.Act} {p : World → World → Bool}
    (h : demo B 2 ch tas as p = true) (hq : tas.all Tracker.quiet = true) {j : Nat}
    (hB : ∀ (i : Nat) k, ["a", "b"][i]? = some k → (B k).1 ≠ .code 0 → i = j) :
    ∃ w w', Resumption (fun k k' => (k, k') ∈ [("a", "b")]) B none as (demo.whole 2 ch tas) w w' ∧ p w w' = true ∧
      w.tasks.nodes.map (·.key) = ["a", "b"] ∧ w.tasks.edges = [(0, 1)] := by
  simp only [demo, Bool.and_eq_true] at h
  obtain ⟨⟨h1, h2⟩, h3⟩ := h
  obtain ⟨w, hw, h4⟩ := runs_of_after h3
  simp only [Bool.and_eq_true, decide_eq_true_eq, beq_iff_eq] at h4
  obtain ⟨⟨⟨⟨h5, h6⟩, h7⟩, h8⟩, h9⟩ := h4
  split at h9
  · rename_i w' hw'
    simp only [Bool.and_eq_true, Option.isNone_iff_eq_none] at h9
    refine ⟨w, w', ⟨hw, fun as1 w1 hp hr => fits_of (of_always h1 hp hr), ?_, h5, ⟨2, tas, ⟨ch, 0, .inr rfl⟩, ?_, ?_⟩,
      runs_of_replay hw', h9.1, ?_⟩, h9.2, h6, h7⟩
    · intro k x hx
      have := List.all_eq_true.1 h2 _ hx
      simpa using this
    · exact Tracker.noShutdown_of_quiet hq
    · intro l hl hall
      have : l ⊆ [j] := by
        intro i hi
        obtain ⟨c, c1, _, _, c2⟩ := hall i hi
        have : ["a", "b"][i]? = some c.key := by rw [← h6, List.getElem?_map, c1, Option.map_some]
        simpa using hB i _ this c2
      have := (List.subperm_of_subset hl this).length_le
      simp only [List.length_cons, List.length_nil] at this
      omega
    · intro k st x hx
      have := List.all_eq_true.1 h8 _ hx
      simpa using this
  · cases h9

/-- `a` succeeds, `b` fails. -/
def does (k : String) : Tracker.ExitStatus × List (List (String × String)) :=
  if k = "a" then (.code 0, [[("x", "1")]]) else (.code 7, [])

/-- The only task to be run fails. -/
def oneFails : List Tracker.Act := [.begin [0] ⟨0, 0⟩, .sendNext, .sendDone ⟨0, 0⟩, .enter 0, .pop 0 0, .claim 0, .account 0,
  .sendStarted 0 "h" 1 "", .sendFinished ⟨0, .code 7, [], none⟩, .recvStarted ⟨0, 0⟩, .recvFinished [] ⟨0, 0⟩, .joinDone, .drain [] ⟨0, 0⟩]

/-- `a` is run, then `b`, which fails. -/
def bFails : List Tracker.Act := List.take 18 bothSucceed ++ [.sendFinished ⟨1, .code 7, [], none⟩, .recvStarted ⟨0, 0⟩,
  .recvFinished [] ⟨0, 0⟩, .joinDone, .drain [] ⟨2, 0⟩]

/-- Killed while `b` runs; opened again. -/
def killed : List Act := open2 ++ [exec2] ++ (bothSucceed.map .trk).take 18 ++ [.stop 5] ++ open2

theorem killed_demo : demo does 2 ⟨[0, 1], [1, 0], [0], ["a"]⟩ oneFails killed (fun _ w' => decide (w'.result = some (1, ["b"])) &&
    results "a" w'.log == [[[("x", "1")]]] && results "b" w'.log == []) = true := by decide +kernel

theorem through_demo : demo does 2 ⟨[0, 1], [1, 0], [0, 1], []⟩ bFails open2 (fun _ w' => decide (w'.result = some (1, ["a", "b"])) &&
    results "a" w'.log == [[[("x", "1")]]] && results "b" w'.log == []) = true := by decide +kernel

theorem once_of (h : always (fun w => decide (w.executes ≤ 1)) as = true) : OncePerSession as :=
  fun as1 w1 hp hr => by simpa using of_always h hp hr

/-- Non-trivial case of both theorems: killed and resumed, and in one go; `a` succeeds, `b` fails. -/
example : ∃ w w' v v', OncePerSession killed ∧ OncePerSession open2 ∧
    Resumption (fun k k' => (k, k') ∈ [("a", "b")]) does none killed (demo.whole 2 ⟨[0, 1], [1, 0], [0], ["a"]⟩ oneFails) w w' ∧
    Resumption (fun k k' => (k, k') ∈ [("a", "b")]) does none open2 (demo.whole 2 ⟨[0, 1], [1, 0], [0, 1], []⟩ bFails) v v' ∧
    w.tasks.nodes.map (·.key) = v.tasks.nodes.map (·.key) ∧ w.tasks.edges = v.tasks.edges ∧
    w'.result = some (1, ["b"]) ∧ v'.result = some (1, ["a", "b"]) ∧ results "a" w'.log = [[[("x", "1")]]] := by
  have hB : ∀ (i : Nat) k, ["a", "b"][i]? = some k → (does k).1 ≠ .code 0 → i = 1 := by
    intro i k hi hne
    match i with
    | 0 => simp at hi; subst hi; exact absurd rfl hne
    | 1 => rfl
    | _ + 2 => simp at hi
  obtain ⟨w, w', h1, h2, h3, h4⟩ := of_demo killed_demo (by decide) hB
  obtain ⟨v, v', g1, g2, g3, g4⟩ := of_demo through_demo (by decide) hB
  simp only [Bool.and_eq_true, decide_eq_true_eq, beq_iff_eq] at h2 g2
  exact ⟨w, w', v, v', once_of (by decide +kernel), once_of (by decide +kernel), h1, g1, by rw [h3, g3], by rw [h4, g4],
    h2.1.1, g2.1.1, h2.1.2⟩

/-- `a` fails, `b` succeeds. -/
def does' (k : String) : Tracker.ExitStatus × List (List (String × String)) := if k = "a" then (.code 7, []) else (.code 0, [])

/-- One session with two `execute` calls: in the first `a` fails, in the second `b` is run. Then another session. -/
def twice : List Act := failedOnce ++ [.exec none true 1 ⟨[0, 1], [1, 0], [0], []⟩ 0] ++ bAlone.map .trk ++ [.finish, .stop 7] ++ open2

/-- **C162 (violated if a session calls `execute` twice).** Everything else is as required; in the end the log has a success of
`b` although `a`, which it depends on, always fails: a run in one go would not have run it. -/
theorem two_executes_violated : ∃ (acts : List Act) (w w' : World),
    Resumption (fun k k' => (k, k') ∈ [("a", "b")]) does' none twice acts w w' ∧
    SuccessLogged w'.log "b" ∧ (∃ c, w.tasks.nodes[1]? = some c ∧ c.key = "b") ∧ ¬ DueIn does' w.tasks 1 := by
  obtain ⟨w, w', h1, h2, h3, h4⟩ := of_demo (j := 0) (as := twice) (B := does') (ch := ⟨[0, 1], [1, 0], [0], ["b"]⟩) (tas := oneFails)
    (p := fun _ w' => !noSuccess "b" w'.log) (by decide +kernel) (by decide) (by
      intro i k hi hne
      match i with
      | 0 => rfl
      | 1 => simp at hi; subst hi; exact absurd rfl hne
      | _ + 2 => simp at hi)
  have hkey : ∀ (i : Nat) k, ["a", "b"][i]? = some k → ∃ c, w.tasks.nodes[i]? = some c ∧ c.key = k := by
    intro i k hk
    rw [← h3, List.getElem?_map, Option.map_eq_some_iff] at hk
    exact hk
  refine ⟨_, w, w', h1, ?_, hkey 1 "b" rfl, fun hd => ?_⟩
  · simp only [noSuccess, Bool.not_eq_true', List.all_eq_false] at h2
    obtain ⟨e, he, hk⟩ := h2
    cases e with
    | finished f => simp at hk; exact ⟨f, he, hk.1, hk.2⟩
    | _ => simp at hk
  · obtain ⟨c, c1, c2⟩ := hkey 0 "a" rfl
    have := hd 0 c (.of_dep (by rw [DiGraph.Dep, h4]; simp)) c1
    rw [c2] at this
    cases this

end Verif.Props.Resume
