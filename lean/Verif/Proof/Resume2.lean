import Verif.Proof.Resume
import Verif.Props.Outcome

/-!
# One whole execute after any history
-/

namespace Verif.World
open Verif

variable {D : String → String → Prop} {B : Does} {w w' : World}

theorem considered_up {g : DiGraph Cmd} (hwf : g.WF) {target : Option Nat} {x i : Nat} (h : Spec.Considered g target i) (hx : g.Reach x i) :
    Spec.Considered g target x := by
  refine ⟨?_, fun t ht => .inr ?_⟩
  · obtain ⟨k, hk⟩ := hx
    obtain ⟨v, hd, _⟩ := hk.head
    exact (hwf _ hd).1
  · rcases h.2 t ht with rfl | h
    · exact hx
    · exact hx.trans h

/-- Everything between an unfinished task and a selected one is selected. -/
theorem selected_via {g : DiGraph Cmd} (hwf : g.WF) (hf : Fits D g) {es : List LogEntry} (hc : Closed D es) {target : Option Nat}
    {ids : List Nat} (hsel : ∀ (i : Nat) c, g.nodes[i]? = some c → (i ∈ ids ↔ Spec.Considered g target i ∧ ¬ SuccessLogged es c.key))
    {u : Nat} {cu : Cmd} (hu : g.nodes[u]? = some cu) (hnu : ¬ SuccessLogged es cu.key) {k v : Nat} (h : g.Walk (k + 1) u v)
    (hv : v ∈ ids) (hvn : v < g.n) : g.ReachVia (· ∈ ids) u v := by
  induction k generalizing v with
  | zero =>
    cases h with
    | snoc h0 hd =>
      cases h0
      refine .single ?_ hv hd
      refine (hsel _ _ hu).2 ⟨?_, hnu⟩
      exact considered_up hwf ((hsel v _ (Tracker.node_of_lt hvn)).1 hv).1 (.of_dep hd)
  | succ k ih =>
    cases h with
    | @snoc _ _ x _ h0 hd =>
      have hx : x < g.n := (hwf _ hd).1
      refine .snoc (ih h0 ?_ hx) hv hd
      refine (hsel _ _ (Tracker.node_of_lt hx)).2 ⟨?_, fun hl => hnu (logged_walk hwf hf hc h0 hu (Tracker.node_of_lt hx) hl)⟩
      exact considered_up hwf ((hsel v _ (Tracker.node_of_lt hvn)).1 hv).1 (.of_dep hd)

theorem reach_of_via {α : Type} {g : DiGraph α} {P : Nat → Prop} {u v : Nat} (h : g.ReachVia P u v) : g.Reach u v := by
  induction h with
  | single _ _ d => exact .of_dep d
  | snoc _ _ d ih => exact ih.trans (.of_dep d)

theorem via_same {α : Type} {g g' : DiGraph α} {P : Nat → Prop} (he : g.edges = g'.edges) {u v : Nat} (h : g.ReachVia P u v) :
    g'.ReachVia P u v := by
  induction h with
  | single p q d => exact .single p q (by rw [DiGraph.Dep, ← he]; exact d)
  | snoc _ q d ih => exact .snoc ih q (by rw [DiGraph.Dep, ← he]; exact d)

/-- The tasks of an `execute`, doing what `B` says. -/
def beh (B : Does) (c : Tracker.Cfg) : Tracker.Behaviour := ⟨fun a => (B (Tracker.keyOf c a)).1, fun a => (B (Tracker.keyOf c a)).2⟩

/-- What a first execute that returned comes to, if the log had been true before and what the scheduler was told is true. -/
theorem resumed_core {as : List Act} {target : Option Nat} {fizzles : Nat} {tas : List Tracker.Act} {ch : Choices} {now : Int} {w1 : World}
    (hr : Runs init as w) (hclosed : Closed D w.log) (hfits : Fits D w.tasks) (hlt : ∀ k, SuccessLogged w.log k → (B k).1 = .code 0)
    (hfirst : w.executes = 0) (he : step w (.exec target true fizzles ch now) = .ok w1)
    (hx : w1.running = none ∧ w' = w1 ∨ ∃ w2, Runs w1 (tas.map .trk) w2 ∧ step w2 .finish = .ok w')
    (hpeace : ∀ r, w1.running = some r → Family.FewFailures r.cfg (beh B r.cfg) →
      Tracker.Faithful (beh B r.cfg) tas ∧ Tracker.NoShutdown tas)
    (hfew : ∀ l : List Nat, l.Nodup → (∀ i ∈ l, FailsIn B w.tasks target i) → l.length < fizzles) :
    (∀ (i : Nat) c, w.tasks.nodes[i]? = some c → Spec.Considered w.tasks target i →
      (SuccessLogged w'.log c.key ↔ DueIn B w.tasks i ∧ (B c.key).1 = .code 0)) ∧
    ∃ (n : Nat) (keys : List String) (l : List Nat), w'.result = some (n, keys) ∧ l.Nodup ∧ l.length = n ∧ ∀ i, i ∈ l ↔ FailsIn B w.tasks target i := by
  have hI0 : WInv w := winv_runs hr winv_init
  obtain ⟨s, sub, ids, lf', e1, e2, hsub, hids, hent, hcase⟩ := exec_outcome hI0 he hx
  have hI := hI0.sess s e1
  have hg := Props.TaskGraph.good_of_reachable hI.reach
  have hwf := hg.wf
  have hcompl : s.g.completed = [] := hI.first (by simpa [World.executes, e1] using hfirst)
  have htasks : w.tasks = s.g.deps := by simp [World.tasks, e1]
  rw [htasks] at hfits hfew ⊢
  have hsel : ∀ (i : Nat) c, s.g.deps.nodes[i]? = some c →
      (i ∈ ids ↔ Spec.Considered s.g.deps target i ∧ ¬ SuccessLogged w.log c.key) := by
    intro i c hi
    obtain ⟨y, hy, hyk⟩ := prio_node (ch := ch) hi
    rw [hids, ← considered_prio (ch := ch), e2, ← hasSuccess_iff hI.cons hI.log.norerun]
    constructor
    · rintro ⟨⟨h1, _, h3⟩, _⟩
      exact ⟨h1, fun h => h3 ⟨y, hy, by rw [hyk]; exact h⟩⟩
    · rintro ⟨h1, h2⟩
      refine ⟨⟨h1, ?_, ?_⟩, by simp⟩
      · rintro ⟨x, _, hx⟩; rw [hcompl] at hx; cases hx
      · rintro ⟨x, hx1, hx2⟩
        rw [hy] at hx1
        cases hx1
        rw [hyk] at hx2
        exact h2 hx2
  -- a task with a success in the log of before
  have hlogged : ∀ (i : Nat) c, s.g.deps.nodes[i]? = some c → SuccessLogged w.log c.key →
      DueIn B s.g.deps i ∧ (B c.key).1 = .code 0 := by
    intro i c hi hs
    refine ⟨?_, hlt _ hs⟩
    rintro u cu ⟨k, hk⟩ hu
    exact hlt _ (logged_walk hwf hfits hclosed hk hu hi hs)
  have hnodup : ids.Nodup := hsub.increasing.imp (fun h => Nat.ne_of_lt h)
  -- the nodes of the subgraph
  have hnode : ∀ a, (ha : a < sub.n) → ∃ i x, ids[a]? = some i ∧ i ∈ ids ∧ s.g.deps.nodes[i]? = some x ∧
      Spec.Considered s.g.deps target i ∧ Tracker.keyOf ⟨sub, fizzles⟩ a = x.key := by
    intro a ha
    have hal : a < ids.length := by rw [← hsub.size]; exact ha
    have hai : ids[a]? = some ids[a] := List.getElem?_eq_getElem hal
    obtain ⟨hin, hn⟩ := hsub.node a _ hai
    obtain ⟨x, hx⟩ : ∃ x, s.g.deps.nodes[ids[a]]? = some x := by
      rw [Props.Selection.prioritised_n] at hin
      exact ⟨_, List.getElem?_eq_getElem hin⟩
    obtain ⟨y, hy, hyk⟩ := prio_node (ch := ch) hx
    rw [hy] at hn
    refine ⟨_, x, hai, List.getElem_mem hal, hx, ((hsel _ x hx).1 (List.getElem_mem hal)).1, ?_⟩
    simp only [Tracker.keyOf, Tracker.cmdOf, hn, Option.getD_some, hyk]
  have hpos : ∀ i ∈ ids, ∃ a, a < sub.n ∧ ids[a]? = some i := by
    intro i hi
    obtain ⟨a, ha, hai⟩ := List.getElem_of_mem hi
    exact ⟨a, by rw [hsub.size]; exact ha, by rw [List.getElem?_eq_getElem ha, hai]⟩
  let b : Tracker.Behaviour := beh B ⟨sub, fizzles⟩
  have hdue : ∀ (a i : Nat), a < sub.n → ids[a]? = some i → (Tracker.Due ⟨sub, fizzles⟩ b a ↔ DueIn B s.g.deps i) := by
    intro a i ha hai
    have hiids : i ∈ ids := List.mem_of_getElem? hai
    have hin : i < s.g.deps.n := by have := (hsub.node a i hai).1; rwa [Props.Selection.prioritised_n] at this
    constructor
    · rintro ⟨_, h⟩ u cu ⟨k, hk⟩ hu
      by_cases hl : SuccessLogged w.log cu.key
      · exact hlt _ hl
      · have hv := selected_via hwf hfits hclosed hsel hu hl hk hiids hin
        obtain ⟨a', ha', hau⟩ := hpos u hv.left
        obtain ⟨i', x, h1, _, h3, _, h5⟩ := hnode a' ha'
        rw [hau] at h1; cases h1
        rw [hu] at h3; cases h3
        have hv' : (Props.Selection.prioritised s.g ch).ReachVia (· ∈ ids) u i := via_same (g := s.g.deps) (g' := Props.Selection.prioritised s.g ch) rfl hv
        have := h a' ((hsub.reach_iff hau hai).2 hv')
        rw [← h5]; exact this
    · intro h
      refine ⟨ha, fun u hu => ?_⟩
      have hun : u < sub.n := by
        obtain ⟨k, hk⟩ := hu
        obtain ⟨v, hd, _⟩ := hk.head
        exact (hsub.wf _ hd).1
      obtain ⟨j, x, h1, _, h3, _, h5⟩ := hnode u hun
      have hv := reach_of_via ((hsub.reach_iff h1 hai).1 hu)
      have := h j x (Tracker.reach_same (g := Props.Selection.prioritised s.g ch) (g' := s.g.deps) rfl hv) h3
      show (B _).1 = _
      rw [h5]; exact this
  rcases hcase with ⟨hemp, hlog, hres⟩ | ⟨st, keys, hrg, hgd, hord, hrun, hpc, hlog, hres⟩
  · have hids0 : ids = [] := by
      apply List.length_eq_zero_iff.1
      rw [← hsub.size]
      simp [DiGraph.n, hemp]
    subst hids0
    have hall : ∀ (i : Nat) c, s.g.deps.nodes[i]? = some c → Spec.Considered s.g.deps target i → SuccessLogged w.log c.key := by
      intro i c hi hc
      refine Classical.byContradiction fun hn => ?_
      have := (hsel i c hi).2 ⟨hc, hn⟩
      cases this
    refine ⟨fun i c hi hc => ⟨fun _ => hlogged i c hi (hall i c hi hc), fun _ => ?_⟩, 0, [], [], hres, .nil, rfl, ?_⟩
    · refine (hall i c hi hc).mono (fun e he => ?_)
      rw [hlog, hent]; exact List.mem_append_left _ he
    · intro i
      refine ⟨fun h => absurd h (List.not_mem_nil), ?_⟩
      rintro ⟨c, hi, hc, _, hne⟩
      exact absurd (hlt _ (hall i c hi hc)) hne
  · have hov : Tracker.ServingOver st := .inr (.inr hpc)
    have hback : ∀ a, a < sub.n → b.status a ≠ .code 0 → Tracker.Due ⟨sub, fizzles⟩ b a →
        ∃ i, ids[a]? = some i ∧ FailsIn B s.g.deps target i := by
      intro a ha hne hda
      obtain ⟨i, x, h1, h2, h3, h4, h5⟩ := hnode a ha
      refine ⟨i, h1, x, h3, h4, (hdue a i ha h1).1 hda, ?_⟩
      rw [← h5]; exact hne
    have hinj : ∀ l : List Nat, l.Nodup → (∀ a ∈ l, a < sub.n) → (l.map (fun a => ids.getD a 0)).Nodup := by
      intro l hl hlt'
      refine (List.nodup_map_iff_inj_on hl).2 ?_
      intro x hx y hy hxy
      have h1 : x < ids.length := by rw [← hsub.size]; exact hlt' x hx
      have h2 : y < ids.length := by rw [← hsub.size]; exact hlt' y hy
      simp only [List.getD_eq_getElem?_getD, List.getElem?_eq_getElem h1, List.getElem?_eq_getElem h2, Option.getD_some] at hxy
      exact (List.Nodup.getElem_inj_iff hnodup).1 hxy
    have hff : Family.FewFailures ⟨sub, fizzles⟩ b := by
      intro l hl hall
      have hln : ∀ a ∈ l, a < sub.n := fun a ha => (hall a ha).1.1
      have := hfew (l.map (fun a => ids.getD a 0)) (hinj l hl hln) (by
        intro i hi
        obtain ⟨a, ha, rfl⟩ := List.mem_map.1 hi
        obtain ⟨i, h1, h2⟩ := hback a (hln a ha) (hall a ha).2 (hall a ha).1
        simpa [List.getD_eq_getElem?_getD, h1] using h2)
      simpa using this
    obtain ⟨hfaith, hno⟩ := hpeace _ hrg hff
    have hq := Tracker.quick_few hgd hrun hfaith hff
    have hre : Tracker.Reachable _ lf' now st := ⟨_, hrun⟩
    obtain ⟨_, l2, _, _⟩ := Props.Outcome.log_determined hgd hord hrun hfaith hno hq hov
    have hproc := @Props.Outcome.outcome_determined _ _ _ _ _ _ hgd hord hrun hfaith hno hq hov
    have hentries := (appended hgd hre).2.1
    refine ⟨fun i c hi hc => ⟨?_, ?_⟩, st.nFailed, keys, ?_⟩
    · rintro ⟨f, f1, f2, f3⟩
      rw [hlog, hentries, hent, List.append_assoc] at f1
      rcases List.mem_append.1 f1 with f1 | f1
      · exact hlogged i c hi ⟨f, f1, f2, f3⟩
      rcases List.mem_append.1 f1 with f1 | f1
      · obtain ⟨_, _, hx⟩ := List.mem_map.1 f1; cases hx
      obtain ⟨a, hda, hEq⟩ := (l2 _).1 (List.mem_filterMap.2 ⟨_, f1, rfl⟩)
      simp only [Prod.mk.injEq] at hEq
      obtain ⟨j, x, h1, _, h3, _, h5⟩ := hnode a hda.1
      have hjx : x.key = c.key := by rw [← h5, ← hEq.1, f2]
      have hij : j = i := by
        have hn : (s.g.deps.nodes.map (·.key)).Nodup := hg.nodup
        have g1 : (s.g.deps.nodes.map (·.key))[j]? = some c.key := by rw [List.getElem?_map, h3, Option.map_some, hjx]
        have g2 : (s.g.deps.nodes.map (·.key))[i]? = some c.key := by rw [List.getElem?_map, hi, Option.map_some]
        obtain ⟨q1, q1'⟩ := List.getElem?_eq_some_iff.1 g1
        obtain ⟨q2, q2'⟩ := List.getElem?_eq_some_iff.1 g2
        exact (List.Nodup.getElem_inj_iff hn).1 (q1'.trans q2'.symm)
      subst hij
      refine ⟨(hdue a j hda.1 h1).1 hda, ?_⟩
      have : (b.status a).asI32 = 0 := by rw [← hEq.2.1, f3]
      have := Tracker.asI32_ne_zero.1 this
      rw [← hjx, ← h5]; exact this
    · rintro ⟨h1, h2⟩
      by_cases hl : SuccessLogged w.log c.key
      · refine hl.mono (fun e he => ?_)
        rw [hlog, hentries, hent]
        exact List.mem_append_left _ (List.mem_append_left _ he)
      · obtain ⟨a, ha, hai⟩ := hpos i ((hsel i c hi).2 ⟨hc, hl⟩)
        obtain ⟨j, x, g1, _, g3, _, g5⟩ := hnode a ha
        rw [hai] at g1; cases g1
        rw [hi] at g3; cases g3
        have hst : b.status a = .code 0 := by show (B _).1 = _; rw [g5]; exact h2
        have hm := (l2 _).2 ⟨a, (hdue a i ha hai).2 h1, rfl⟩
        obtain ⟨e, he, hk⟩ := List.mem_filterMap.1 hm
        cases e with
        | finished f =>
          simp only [Tracker.outcome?, Option.some.injEq, Prod.mk.injEq] at hk
          refine ⟨f, ?_, by rw [hk.1, g5], by rw [hk.2.1, hst]; rfl⟩
          rw [hlog, hentries]
          exact List.mem_append_right _ he
        | _ => simp [Tracker.outcome?] at hk
    · obtain ⟨_, _, hdr⟩ := Tracker.all_reported hgd hrun hno hq hov
      have hcnt := (Props.Tracker.failure_count hgd hre).1
      have hcn := hre.closed_nodup hgd
      simp only [Tracker.closedTasks, hdr, List.append_nil] at hcnt hcn
      let l := (st.processed.filter (fun x => decide (x.2 ≠ .code 0))).map (·.1)
      have hl1 : l.Nodup := hcn.sublist (List.filter_sublist.map _)
      have hl2 : ∀ a, a ∈ l ↔ Tracker.Due ⟨sub, fizzles⟩ b a ∧ b.status a ≠ .code 0 := by
        intro a
        constructor
        · intro h
          obtain ⟨x, hx, rfl⟩ := List.mem_map.1 h
          obtain ⟨h1, h2⟩ := List.mem_filter.1 hx
          have h2 : x.2 ≠ .code 0 := by simpa using h2
          obtain ⟨h3, h4⟩ := (hproc (v := x.1) (st := x.2)).1 h1
          exact ⟨h3, by rw [← h4]; exact h2⟩
        · rintro ⟨h1, h2⟩
          refine List.mem_map.2 ⟨(a, b.status a), List.mem_filter.2 ⟨hproc.2 ⟨h1, rfl⟩, by simpa using h2⟩, rfl⟩
      refine ⟨l.map (fun a => ids.getD a 0), hres, hinj l hl1 (fun a ha => ((hl2 a).1 ha).1.1), ?_, ?_⟩
      · rw [hcnt, List.length_map, List.length_map, List.countP_eq_length_filter]
      · intro i
        constructor
        · intro hi
          obtain ⟨a, ha, rfl⟩ := List.mem_map.1 hi
          obtain ⟨h1, h2⟩ := (hl2 a).1 ha
          obtain ⟨i, h3, h4⟩ := hback a h1.1 h2 h1
          simpa [List.getD_eq_getElem?_getD, h3] using h4
        · rintro ⟨c, hi, hc, hdi, hne⟩
          have hl : ¬ SuccessLogged w.log c.key := fun h => hne (hlt _ h)
          obtain ⟨a, ha, hai⟩ := hpos i ((hsel i c hi).2 ⟨hc, hl⟩)
          obtain ⟨j, x, g1, _, g3, _, g5⟩ := hnode a ha
          rw [hai] at g1; cases g1
          rw [hi] at g3; cases g3
          refine List.mem_map.2 ⟨a, (hl2 a).2 ⟨(hdue a i ha hai).2 hdi, ?_⟩, by simp [List.getD_eq_getElem?_getD, hai]⟩
          show (B _).1 ≠ _
          rw [g5]; exact hne

/-- What a whole first execute comes to. -/
theorem resumed {as acts : List Act} {target : Option Nat} {fizzles : Nat} {tas : List Tracker.Act}
    (hr : Runs init as w) (hd : SameDeps D as) (ho : OncePerSession as) (hb : Earlier B init as) (hfirst : w.executes = 0)
    (hx : Whole target fizzles tas acts) (hra : Runs w acts w') (hidle : w'.running = none) (hno : Tracker.NoShutdown tas)
    (ht : AllTrue B w acts)
    (hfew : ∀ l : List Nat, l.Nodup → (∀ i ∈ l, FailsIn B w.tasks target i) → l.length < fizzles) :
    (∀ (i : Nat) c, w.tasks.nodes[i]? = some c → Spec.Considered w.tasks target i →
      (SuccessLogged w'.log c.key ↔ DueIn B w.tasks i ∧ (B c.key).1 = .code 0)) ∧
    ∃ (n : Nat) (keys : List String) (l : List Nat), w'.result = some (n, keys) ∧ l.Nodup ∧ l.length = n ∧ ∀ i, i ∈ l ↔ FailsIn B w.tasks target i := by
  obtain ⟨ch, now, w1, he, hx', hacts⟩ := whole_split hx hra hidle
  refine resumed_core hr (log_closed hr hd ho) (hd as w (List.prefix_refl _) hr) (fun k h => logged_true hr hb h) hfirst he
    (hx'.imp And.right id) (fun r hrun _ => ⟨?_, hno⟩) hfew
  intro e hm
  rcases hx' with ⟨rfl, _⟩ | ⟨w2, hr2, hf⟩
  · cases hm
  rcases hacts with rfl | rfl
  · cases hm
  have := ht (Tracker.keyOf r.cfg e.id) e.status e.values (by
    simp only [reports, he]
    apply List.mem_append_right
    exact reports_trk (hr2.then (.cons hf (.nil _))) hrun hm)
  exact ⟨(congrArg Prod.fst this).symm, (congrArg Prod.snd this).symm⟩

end Verif.World
