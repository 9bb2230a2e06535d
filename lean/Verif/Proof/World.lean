import Verif.Proof.LogHistory
import Verif.Proof.TrackerGrow
import Verif.Props.Selection
import Verif.Props.Log

/-!
# What holds in every history

`Bridge`: the graph `get_subgraph` selects meets the assumptions of the tracker theorems. `SessInv`, `WInv`: invariants of
histories.
-/

namespace Verif
open DiGraph Spec

/-- `isTopo` says exactly that the list is a topological order. -/
theorem isTopo_iff {α : Type} {g : DiGraph α} {order : List Nat} (hw : g.WF) : g.isTopo order = true ↔ g.Topo order := by
  refine ⟨topo_of_isTopo, fun h => ?_⟩
  simp only [isTopo, List.all_eq_true, Bool.and_eq_true, decide_eq_true_eq]
  refine ⟨⟨⟨h.nodup, ?_⟩, fun v hv => (h.mem v).1 hv⟩, ?_⟩
  · have hp : order.Perm (List.range g.n) := by
      rw [List.perm_ext_iff_of_nodup h.nodup List.nodup_range]
      intro v
      rw [h.mem, List.mem_range]
    simpa using hp.length_eq
  · rintro ⟨u, v⟩ he
    have hv := (h.mem v).2 (hw _ he).2
    obtain ⟨a, b, hab⟩ := List.append_of_mem hv
    have hu := h.before a v b hab u he
    have hnd := h.nodup
    rw [hab, List.nodup_append] at hnd
    have hva : v ∉ a := fun hm => hnd.2.2 v hm v (by simp) rfl
    simp only [hab]
    rw [List.idxOf_append_of_mem hu, List.idxOf_append_of_notMem hva]
    have := List.idxOf_lt_length_of_mem hu
    omega

namespace Bridge
open Verif.Props.TaskGraph Verif.Props.Selection

theorem legal_iff {g : ExecGraph} (hr : Reachable g) {target : Option Nat} {rerun : Bool} {ch : Choices} :
    World.legal g target rerun ch = true ↔ Legal g target rerun ch := by
  have hw := prioritised_wf hr ch
  have hwr : (prioritised g ch).reverse.WF := by
    intro e he
    obtain ⟨x, hx, rfl⟩ := List.mem_map.1 he
    have := hw x hx
    exact ⟨this.2, this.1⟩
  unfold World.legal
  simp only [Bool.and_eq_true, List.isPerm_iff]
  constructor
  · rintro ⟨⟨⟨h1, h2⟩, h3⟩, h4⟩
    exact ⟨topo_of_isTopo h1, topo_of_isTopo h2, topo_of_isTopo h3, h4⟩
  · rintro ⟨h1, h2, h3, h4⟩
    obtain ⟨ids1, hs1, _⟩ := subOf_target (prioritised g ch) target ch.ordRev hw h2
    refine ⟨⟨⟨(isTopo_iff hw).2 h1, (isTopo_iff hwr).2 h2⟩, (isTopo_iff ?_).2 h3⟩, h4⟩
    obtain ⟨ids, hs, _⟩ := subOf_pending (prioritised g ch) g.completed g.logfile.mem target ch.ordRev hw h2
    exact hs.wf

/-- What `get_subgraph` gives to the tracker. -/
structure Selection (g g' : ExecGraph) (sub : DiGraph Cmd) : Prop where
  wf : sub.WF
  small : sub.n ≤ g.deps.n
  keys : (sub.nodes.map (·.key)).Nodup
  ordered : ∀ u v, sub.Dep u v → u < v
  node : ∀ c ∈ sub.nodes, g.logfile.mem.hasSuccess c.key = false ∧ c.key ∉ g.completed ∧
    ∃ c0 ∈ g.deps.nodes, c0.key = c.key ∧ c0.runcount = c.runcount
  src : ∀ c ∈ sub.nodes, c ∈ g'.deps.nodes
  deps : ∀ (v : Nat) (cv : Cmd), sub.nodes[v]? = some cv → ∀ (i : Nat) (ci : Cmd), g'.deps.nodes[i]? = some ci → ci.key = cv.key →
    ∀ (j : Nat) (cj : Cmd), g'.deps.Dep j i → g'.deps.nodes[j]? = some cj →
      (∃ (u : Nat) (cu : Cmd), sub.Dep u v ∧ sub.nodes[u]? = some cu ∧ cu.key = cj.key) ∨
      g.logfile.mem.hasSuccess cj.key = true ∨ cj.key ∈ g.completed

theorem selected {g g' : ExecGraph} (hr : Reachable g) {target : Option Nat} {rerun : Bool} {ch : Choices}
    (hc : Legal g target rerun ch) {sub : DiGraph Cmd} (h : getSubgraph g target rerun ch = .ok (sub, g')) :
    Selection g g' sub := by
  obtain ⟨sub', g1, h1, ids, h2, h3, h4, h5⟩ := selection_exact hr target rerun ch hc
  rw [h] at h1
  simp only [Res.ok.injEq, Prod.mk.injEq] at h1
  obtain ⟨rfl, rfl⟩ := h1
  have hg := good_of_reachable hr
  have hkeys : (g'.deps.nodes.map (·.key)).Nodup := by
    have : g'.deps.nodes.map (·.key) = g.taskKeys := by
      apply List.ext_getElem?
      intro i
      simp only [List.getElem?_map, h5, Option.map_map, ExecGraph.taskKeys]
      cases g.deps.nodes[i]? <;> rfl
    rw [this]; exact hg.nodup
  have hnodeOf : ∀ a i : Nat, ids[a]? = some i → ∃ c, sub.nodes[a]? = some c ∧ g'.deps.nodes[i]? = some c := by
    intro a i hi
    obtain ⟨n1, n2⟩ := h2.node a i hi
    exact ⟨_, by rw [n2]; exact List.getElem?_eq_getElem n1, List.getElem?_eq_getElem n1⟩
  have hn : g'.deps.n = g.deps.n := by
    have : g'.deps.nodes.map (·.key) = g.deps.nodes.map (·.key) := by
      apply List.ext_getElem?
      intro i
      simp only [List.getElem?_map, h5, Option.map_map]
      cases g.deps.nodes[i]? <;> rfl
    simpa [DiGraph.n] using congrArg List.length this
  refine ⟨h2.wf, ?_, SubOf.keys_nodup h2 hkeys, ?_, ?_, ?_, ?_⟩
  · rw [h2.size, ← hn]
    have : ids.Nodup := h2.increasing.imp (fun h => Nat.ne_of_lt h)
    have := this.length_le_of_subset (l₂ := List.range g'.deps.n) (fun i hi => by
      obtain ⟨a, ha⟩ := List.getElem?_of_mem hi
      exact List.mem_range.2 (h2.node a i ha).1)
    simpa using this
  · intro u v hd
    obtain ⟨hu, hv⟩ := h2.wf _ hd
    simp only at hu hv
    obtain ⟨i, hi⟩ := h2.lt hu
    obtain ⟨j, hj⟩ := h2.lt hv
    have hij : i < j := by
      have := (h2.dep_iff hi hj).1 hd
      unfold Dep at this
      rw [h4] at this
      exact (hg.lt _ this).1
    rcases Nat.lt_or_ge u v with hlt | hge
    · exact hlt
    · exfalso
      have hinc := h2.increasing
      rw [List.pairwise_iff_getElem] at hinc
      obtain ⟨l1, e1⟩ := List.getElem?_eq_some_iff.1 hi
      obtain ⟨l2, e2⟩ := List.getElem?_eq_some_iff.1 hj
      rcases Nat.lt_or_ge v u with hlt | hge'
      · have := hinc v u l2 l1 hlt; omega
      · have : u = v := by omega
        subst this; omega
  · intro c hcm
    obtain ⟨a, ha⟩ := List.getElem?_of_mem hcm
    obtain ⟨i, hi⟩ := h2.lt (getElem?_lt ha)
    obtain ⟨c', n1, n2⟩ := hnodeOf a i hi
    rw [ha] at n1
    simp only [Option.some.injEq] at n1
    subst n1
    have hsel := ((h3 i).1 (List.mem_of_getElem? hi)).1
    refine ⟨?_, fun hm => hsel.2.1 ⟨c, n2, hm⟩, ?_⟩
    · cases hs : g.logfile.mem.hasSuccess c.key with
      | false => rfl
      | true => exact absurd ⟨c, n2, hs⟩ hsel.2.2
    · rw [h5] at n2
      cases hd : g.deps.nodes[i]? with
      | none => rw [hd] at n2; simp at n2
      | some c0 =>
        rw [hd] at n2
        simp only [Option.map_some, Option.some.injEq] at n2
        exact ⟨c0, List.mem_of_getElem? hd, by rw [← n2], by rw [← n2]⟩
  · intro c hcm
    obtain ⟨a, ha⟩ := List.getElem?_of_mem hcm
    obtain ⟨i, hi⟩ := h2.lt (getElem?_lt ha)
    obtain ⟨c', n1, n2⟩ := hnodeOf a i hi
    rw [ha] at n1
    simp only [Option.some.injEq] at n1
    subst n1
    exact List.mem_of_getElem? n2
  · intro v cv hv i ci hi hk j cj hd hj
    obtain ⟨i', hi'⟩ := h2.lt (getElem?_lt hv)
    obtain ⟨c', n1, n2⟩ := hnodeOf v i' hi'
    rw [hv] at n1
    simp only [Option.some.injEq] at n1
    subst n1
    have hii : i' = i := by
      have e1 : (g'.deps.nodes.map (·.key))[i']? = some cv.key := by simp [n2]
      have e2 : (g'.deps.nodes.map (·.key))[i]? = some cv.key := by simp [hi, hk]
      exact (List.getElem?_inj (getElem?_lt e1) hkeys).1 (e1.trans e2.symm)
    subst hii
    have hsel := (h3 i').1 (List.mem_of_getElem? hi')
    by_cases hjm : j ∈ ids
    · left
      obtain ⟨u, hu⟩ := List.getElem?_of_mem hjm
      obtain ⟨cu, m1, m2⟩ := hnodeOf u j hu
      rw [hj] at m2
      simp only [Option.some.injEq] at m2
      subst m2
      exact ⟨u, cj, (h2.dep_iff hu hi').2 hd, m1, rfl⟩
    · right
      have hcons : Considered g'.deps target j := by
        refine ⟨getElem?_lt hj, fun t ht => ?_⟩
        right
        rcases hsel.1.1.2 t ht with rfl | ⟨k, hw⟩
        · exact ⟨0, .snoc (.nil _) hd⟩
        · refine ⟨k + 1, ?_⟩
          have cons : ∀ k a b, g'.deps.Walk k a b → ∀ x, g'.deps.Dep x a → g'.deps.Walk (k + 1) x b := by
            intro k a b hw
            induction hw with
            | nil => intro x hx; exact .snoc (.nil _) hx
            | snoc _ hd' ih => intro x hx; exact .snoc (ih x hx) hd'
          exact cons _ _ _ hw j hd
      by_cases hcomp : cj.key ∈ g.completed
      · exact .inr hcomp
      cases hs : g.logfile.mem.hasSuccess cj.key with
      | true => exact .inl rfl
      | false =>
        exfalso
        have hpend : Pending g'.deps g.completed g.logfile.mem target j := by
          refine ⟨hcons, ?_, ?_⟩
          · rintro ⟨c, m1, m2⟩
            rw [hj] at m1; simp only [Option.some.injEq] at m1; subst m1; exact hcomp m2
          · rintro ⟨c, m1, m2⟩
            rw [hj] at m1; simp only [Option.some.injEq] at m1; subst m1; rw [hs] at m2; cases m2
        refine hjm ((h3 j).2 ⟨hpend, fun hrr => ?_⟩)
        obtain ⟨s1, s2⟩ := hsel.2 hrr
        constructor
        · intro hf
          exact s2 j hf (.single hpend hsel.1 hd)
        · intro x hx hv'
          exact s2 x hx (.snoc hv' hsel.1 hd)

/-- The selected graph meets the assumptions of the tracker theorems. -/
theorem selected_good {g g' : ExecGraph} {sub : DiGraph Cmd} (h : Selection g g' sub) (hs : g.deps.n < 2 ^ 32)
    (fizzles : Nat) : Tracker.Good ⟨sub, fizzles⟩ ∧ Tracker.Ordered ⟨sub, fizzles⟩ :=
  ⟨⟨h.wf, Nat.lt_of_le_of_lt h.small hs, h.keys⟩, h.ordered⟩

end Bridge

namespace World
open Verif.Props

/-- The entries a tracker run has appended. -/
theorem appended {c : Tracker.Cfg} {lf : LogFile} {now : Int} {st : Tracker.State} (hg : Tracker.Good c)
    (hr : Tracker.Reachable c lf now st) :
    lf.writeAll (Tracker.newEntries lf st) = .ok st.lf ∧ st.lf.entries = lf.entries ++ Tracker.newEntries lf st ∧
    Appended (Tracker.newEntries lf st) (c.g.nodes.map (fun x => (x.key, x.runcount))) := by
  obtain ⟨hi, hh⟩ := hr.inv hg
  obtain ⟨h1, h2, h3⟩ := hh.log.new_eq
  refine ⟨h1, h2, ?_, ?_, h3.after, h3.kind⟩
  · rw [h3.ready]
    have hnd := hi.core.deps.nodup
    unfold List.Nodup at hnd ⊢
    rw [List.pairwise_map]
    refine hnd.imp_of_mem ?_
    intro a b ha hb hne hk
    exact hne (hg.keyInj (hi.core.deps.lt a ha) (hi.core.deps.lt b hb) hk)
  · intro r hr'
    obtain ⟨v, hv, k1, k2, _⟩ := h3.rdy r hr'
    refine List.mem_map.2 ⟨Tracker.cmdOf c.g v, List.mem_of_getElem? (Tracker.node_of_lt (hi.core.deps.lt v hv)), ?_⟩
    rw [k1, k2]

/-- The running `execute` of a session. -/
structure RunInv (s : Sess) (multi : Bool) (r : Running) : Prop where
  good : Tracker.Good r.cfg
  ordered : Tracker.Ordered r.cfg
  nonempty : r.cfg.g.n ≠ 0
  reach : Tracker.Reachable r.cfg s.g.logfile r.now0 r.st
  executed : s.executes ≠ 0
  src : ∀ x ∈ r.cfg.g.nodes, x ∈ s.g.deps.nodes
  relog : ∀ lf completed, TaskGraph.Reachable { s.g with logfile := lf, completed := completed }
  fresh : ∀ x ∈ r.cfg.g.nodes, s.g.logfile.mem.hasSuccess x.key = false ∧ x.key ∉ r.completed0
  rc : multi = false → ∀ x ∈ r.cfg.g.nodes, nextOf (statusOf x.key s.g.logfile.entries) ≤ x.runcount
  first : s.executes ≤ 1 → r.completed0 = []
  deps : ∀ (v : Nat) (cv : Cmd), r.cfg.g.nodes[v]? = some cv → ∀ (i : Nat) (ci : Cmd), s.g.deps.nodes[i]? = some ci → ci.key = cv.key →
    ∀ (j : Nat) (cj : Cmd), s.g.deps.Dep j i → s.g.deps.nodes[j]? = some cj →
      (∃ (u : Nat) (cu : Cmd), r.cfg.g.Dep u v ∧ r.cfg.g.nodes[u]? = some cu ∧ cu.key = cj.key) ∨
      s.g.logfile.mem.hasSuccess cj.key = true ∨ cj.key ∈ r.completed0

/-- What a log always satisfies. -/
structure LogGood (multi : Bool) (es : List LogEntry) : Prop where
  protocol : Protocol es
  headers : HeadersOk es
  norerun : NoRerun es
  rcok : multi = false → RcOk es

theorem LogGood.prefix {multi : Bool} {a b : List LogEntry} (h : LogGood multi (a ++ b)) : LogGood multi a :=
  ⟨protocol_prefix h.protocol, headersOk_prefix h.headers, noRerun_prefix h.norerun, fun m => rcOk_prefix (h.rcok m)⟩

/-- A session. -/
structure SessInv (file : List LogEntry) (multi : Bool) (s : Sess) : Prop where
  reach : TaskGraph.Reachable s.g
  small : s.g.deps.n < 2 ^ 32
  cons : Consistent s.g.logfile
  log : LogGood multi s.g.logfile.entries
  onDisk : file <+: s.g.logfile.entries.take s.flushed
  flushed : s.flushed ≤ s.g.logfile.entries.length
  once : multi = false → s.executes ≤ 1
  rc : s.executes = 0 → ∀ x ∈ s.g.deps.nodes, s.g.logfile.mem.hasSuccess x.key = false →
    nextOf (statusOf x.key s.g.logfile.entries) ≤ x.runcount
  first : s.executes = 0 → s.g.completed = []
  run : ∀ r, s.run = some r → RunInv s multi r

/-- The invariant of histories. -/
structure WInv (w : World) : Prop where
  file : LogGood w.multi w.file
  sess : ∀ s, w.sess = some s → SessInv w.file w.multi s

/-- The log while `execute` is in progress. -/
theorem RunInv.log {file : List LogEntry} {s : Sess} {multi : Bool} {r : Running} (hs : SessInv file multi s) (h : RunInv s multi r) :
    Consistent r.st.lf ∧ LogGood multi r.st.lf.entries ∧ s.g.logfile.entries <+: r.st.lf.entries := by
  obtain ⟨h1, h2, h3⟩ := appended h.good h.reach
  have hc := hs.cons.writeAll h1
  have hp := hc.protocol
  rw [h2] at hp
  refine ⟨hc, ?_, by rw [h2]; exact List.prefix_append _ _⟩
  rw [h2]
  refine ⟨hp, ?_, ?_, ?_⟩
  · refine Log.headersOk_nonheader hs.log.headers ?_
    intro e he x hx
    subst hx
    rcases h3.kind _ he with k | k | k <;> simp [isReady, isStarted, isFinished] at k
  · refine noRerun_append hs.log.norerun hp h3 ?_
    intro x hx
    obtain ⟨y, hy, rfl⟩ := List.mem_map.1 hx
    rw [← hasSuccess_iff hs.cons hs.log.norerun, (h.fresh y hy).1]
    simp
  · intro hm
    refine rcOk_append (hs.log.rcok hm) h3 ?_
    intro x hx
    obtain ⟨y, hy, rfl⟩ := List.mem_map.1 hx
    exact h.rc hm y hy

theorem WInv.log {w : World} (h : WInv w) : LogGood w.multi w.log := by
  unfold World.log
  cases hs : w.sess with
  | none => exact h.file
  | some s =>
    simp only
    cases hr : s.run with
    | none => exact (h.sess s hs).log
    | some r => exact (RunInv.log (h.sess s hs) ((h.sess s hs).run r hr)).2.1

theorem winv_init : WInv init :=
  ⟨⟨protocol_nil, ⟨by simp [init], by simp [init]⟩, noRerun_nil, fun _ => rcOk_nil⟩, by simp [init]⟩

theorem headersOk_new {es : List LogEntry} (h : HeadersOk es) {hd : HeaderEntry} (hv : hd.version = 4) {newKey : String}
    (hk : hd.workflowKey = ((lastHeader es).map (·.workflowKey)).getD newKey) : HeadersOk (es ++ [.header hd]) := by
  have hall : ∀ x, LogEntry.header x ∈ es → x.workflowKey = hd.workflowKey := by
    intro x hx
    obtain ⟨y, hy⟩ := Log.lastHeader_some hx
    rw [hk, hy]
    exact h.2 x y hx (Log.lastHeader_mem hy)
  refine ⟨?_, ?_⟩
  · intro x hx
    simp only [List.mem_append, List.mem_singleton, LogEntry.header.injEq] at hx
    rcases hx with hx | rfl
    · exact h.1 x hx
    · exact hv
  · intro x y hx hy
    simp only [List.mem_append, List.mem_singleton, LogEntry.header.injEq] at hx hy
    rcases hx with hx | rfl <;> rcases hy with hy | rfl
    · exact h.2 x y hx hy
    · exact hall x hx
    · exact (hall y hy).symm
    · rfl

theorem protocol_other {es new : List LogEntry} (h : Protocol es) (ho : ∀ e ∈ new, ∀ k, about k e = false) :
    Protocol (es ++ new) := by
  intro k pre e post he
  have : history k (es ++ new) = history k es := by
    rw [history_append]
    have : history k new = [] := by
      unfold history
      rw [List.filter_eq_nil_iff]
      intro x hx; simp [ho x hx k]
    rw [this, List.append_nil]
  rw [this] at he
  exact h k pre e post he

theorem LogGood.other {multi : Bool} {es new : List LogEntry} (h : LogGood multi es) (ho : ∀ e ∈ new, ∀ k, about k e = false)
    (hh : HeadersOk (es ++ new)) : LogGood multi (es ++ new) :=
  ⟨protocol_other h.protocol ho, hh, noRerun_other h.norerun ho, fun m => rcOk_other (h.rcok m) ho⟩

theorem about_backrefs {ks : List String} : ∀ e ∈ ks.map (fun k => LogEntry.backref ⟨k⟩), ∀ k, about k e = false := by
  intro e he k
  obtain ⟨x, _, rfl⟩ := List.mem_map.1 he
  rfl

theorem addTask_facts {g : ExecGraph} (hr : TaskGraph.Reachable g) (cmd : Cmd) (deps : List Nat) :
    (g.addTask cmd deps).2.logfile = g.logfile ∧ (g.addTask cmd deps).2.completed = g.completed ∧
    ((g.addTask cmd deps).2.deps.nodes = g.deps.nodes ∨
      (g.addTask cmd deps).2.deps.nodes = g.deps.nodes ++ [cmd] ∧ g.keyToId cmd.key = none ∧ cmd.cmdline ≠ []) := by
  have hg := TaskGraph.good_of_reachable hr
  cases hc : g.keyToId cmd.key with
  | some j => rw [ExecGraph.addTask_existing _ cmd deps j hc]; exact ⟨rfl, rfl, .inl rfl⟩
  | none =>
    rw [ExecGraph.addTask_new _ hg cmd deps hc]
    split
    · exact ⟨rfl, rfl, .inl rfl⟩
    · rename_i hne
      split
      · exact ⟨rfl, rfl, .inr ⟨rfl, rfl, hne⟩⟩
      · exact ⟨rfl, rfl, .inl rfl⟩

theorem logfileRuncount_next {lf : LogFile} {k : String} {x : Nat × Option TaskDir} (hc : Consistent lf)
    (h : logfileRuncount lf k = .ok x) (hs : lf.mem.hasSuccess k = false) : nextOf (statusOf k lf.entries) = x.1 := by
  rw [← hc.status]
  unfold logfileRuncount LogMem.runcount at h
  unfold LogMem.hasSuccess at hs
  cases hr : lf.mem.runcounts k with
  | none => rw [hr] at h; simp only [Res.ok.injEq] at h; subst h; rfl
  | some st =>
    rw [hr] at h hs
    cases st with
    | ready c r => simp only [Res.ok.injEq] at h; subst h; rfl
    | started c r => simp only [Res.ok.injEq] at h; subst h; rfl
    | finished c r b =>
      cases b with
      | true => simp at hs
      | false => simp only [Res.ok.injEq] at h; subst h; rfl

theorem winv_open {w w' : World} (h : WInv w) {dir : String} {roots : List String} {newKey : String} {info : HeaderEntry}
    (hs : step w (.open dir roots newKey info) = .ok w') : WInv w' := by
  unfold step at hs
  cases hse : w.sess with
  | some s => simp [hse] at hs
  | none =>
    simp only [hse] at hs
    cases hp : pyNew w.file dir roots newKey info with
    | err e => simp [hp] at hs
    | panic m => simp [hp] at hs
    | ok g =>
      simp only [hp, Res.ok.injEq] at hs
      subst hs
      obtain ⟨lf, hd, h1, h2, h3, h4, h5, _⟩ := Log.new_appends_header hp
      have he : g.logfile.entries = w.file ++ [.header hd] := by
        rw [(Log.writeAll_entries _ _ _ h2).1, (open_ok_iff.1 h1).2.1]
      have hab : ∀ e ∈ [LogEntry.header hd], ∀ k, about k e = false := by
        intro e he k
        simp only [List.mem_singleton] at he
        subst he; rfl
      refine ⟨h.file, ?_⟩
      intro s hs
      simp only [Option.some.injEq] at hs
      subst hs
      refine ⟨?_, ?_, (Consistent.open h1).writeAll h2, ?_, ?_, ?_, by simp, ?_, ?_, by simp⟩
      · rw [h3]; exact ⟨_, .refl _⟩
      · simp only; rw [h3]; simp [ExecGraph.new, DiGraph.empty, DiGraph.n]
      · simp only; rw [he]; exact h.file.other hab (headersOk_new h.file.headers h4 h5)
      · simp only; rw [he]; simp
      · simp only; rw [he]; simp
      · intro _ x hx
        simp only at hx
        rw [h3] at hx; simp [ExecGraph.new, DiGraph.empty] at hx
      · intro _; simp only; rw [h3]; rfl

theorem winv_add {w w' : World} (h : WInv w) {cmd : Cmd} {deps : List Nat} (hs : step w (.add cmd deps) = .ok w') : WInv w' := by
  unfold step at hs
  cases hse : w.sess with
  | none => simp [hse] at hs
  | some s =>
    have hI := h.sess s hse
    simp only [hse] at hs
    cases hrun : s.run with
    | some r => simp [hrun] at hs
    | none =>
      simp only [hrun, Option.isSome_none, Bool.false_eq_true, if_false] at hs
      cases htm : tooMany s.g cmd with
      | true => simp [htm] at hs
      | false =>
        simp only [htm, Bool.false_eq_true, if_false] at hs
        unfold pyAddTask at hs
        cases hl : logfileRuncount s.g.logfile cmd.key with
        | err e => simp [hl, Res.bind] at hs
        | panic m => simp [hl, Res.bind] at hs
        | ok x =>
          simp only [hl, Res.bind, Res.ok.injEq] at hs
          subst hs
          obtain ⟨f1, f2, f3⟩ := addTask_facts hI.reach { cmd with runcount := x.1, priority := 0 } deps
          refine ⟨h.file, ?_⟩
          intro s' hs'
          simp only [Option.some.injEq] at hs'
          subst hs'
          refine ⟨?_, ?_, ?_, ?_, ?_, ?_, hI.once, ?_, ?_, ?_⟩
          · obtain ⟨lf, hl⟩ := hI.reach; exact ⟨lf, .add _ _ hl⟩
          · simp only [DiGraph.n]
            rcases f3 with f3 | ⟨f3, k1, k2⟩
            · rw [f3]; exact hI.small
            · rw [f3]
              simp only at k1 k2
              have k3 : cmd.cmdline.isEmpty = false := by
                cases hcl : cmd.cmdline with
                | nil => exact absurd hcl k2
                | cons _ _ => rfl
              have k4 : ¬ s.g.deps.n ≥ 2 ^ 32 - 1 := by
                intro hge
                have : tooMany s.g cmd = true := by simp only [tooMany, k1, k3, hge]; rfl
                rw [this] at htm; cases htm
              simp only [DiGraph.n] at k4
              simp only [List.length_append, List.length_cons, List.length_nil]
              omega
          · simp only [f1]; exact hI.cons
          · simp only [f1]; exact hI.log
          · simp only [f1]; exact hI.onDisk
          · simp only [f1]; exact hI.flushed
          · intro he y hy hns
            simp only [f1] at hns ⊢
            simp only at hy
            rcases f3 with f3 | ⟨f3, _⟩
            · rw [f3] at hy; exact hI.rc he y hy hns
            · rw [f3] at hy
              rcases List.mem_append.1 hy with hy | hy
              · exact hI.rc he y hy hns
              · simp only [List.mem_singleton] at hy
                subst hy
                simp only at hns ⊢
                rw [logfileRuncount_next hI.cons hl hns]; exact Nat.le_refl _
          · simp only [f2]; exact hI.first
          · simp [hrun]

theorem runs_snoc {c : Tracker.Cfg} {lf : LogFile} {now : Int} {s s' : Tracker.State} {a : Tracker.Act}
    (h : Tracker.Reachable c lf now s) (hd : Tracker.disciplined s a = true) (hs : Tracker.step c s a = .ok s') :
    Tracker.Reachable c lf now s' := by
  obtain ⟨as, hr⟩ := h
  refine ⟨as ++ [a], ?_⟩
  generalize Tracker.init c lf now = s0 at hr
  induction hr with
  | nil => exact .cons hd hs (.nil _)
  | cons hd' hs' _ ih => exact .cons hd' hs' (ih hd hs)

theorem winv_trk {w w' : World} (h : WInv w) {a : Tracker.Act} (hs : step w (.trk a) = .ok w') : WInv w' := by
  unfold step at hs
  cases hse : w.sess with
  | none => simp [hse] at hs
  | some s =>
    have hI := h.sess s hse
    simp only [hse] at hs
    cases hrun : s.run with
    | none => simp [hrun] at hs
    | some r =>
      have hR := hI.run r hrun
      simp only [hrun] at hs
      cases hd : Tracker.disciplined r.st a with
      | false => simp [hd] at hs
      | true =>
        simp only [hd, Bool.true_eq_false, if_false] at hs
        cases hst : Tracker.step r.cfg r.st a with
        | err e => simp [hst, Res.bind] at hs
        | panic m => simp [hst, Res.bind] at hs
        | ok st =>
          simp only [hst, Res.bind, Res.ok.injEq] at hs
          subst hs
          refine ⟨h.file, ?_⟩
          intro s' hs'
          simp only [Option.some.injEq] at hs'
          subst hs'
          refine ⟨hI.reach, hI.small, hI.cons, hI.log, hI.onDisk, hI.flushed, hI.once, hI.rc, hI.first, ?_⟩
          intro r' hr'
          simp only [Option.some.injEq] at hr'
          subst hr'
          exact ⟨hR.good, hR.ordered, hR.nonempty, runs_snoc hR.reach hd hst, hR.executed, hR.src, hR.relog, hR.fresh, hR.rc, hR.first, hR.deps⟩

theorem winv_finish {w w' : World} (h : WInv w) (hs : step w .finish = .ok w') : WInv w' := by
  unfold step at hs
  cases hse : w.sess with
  | none => simp [hse] at hs
  | some s =>
    have hI := h.sess s hse
    simp only [hse] at hs
    cases hrun : s.run with
    | none => simp [hrun] at hs
    | some r =>
      have hR := hI.run r hrun
      simp only [hrun] at hs
      split at hs
      · cases hs
      · simp only [Res.ok.injEq] at hs
        subst hs
        obtain ⟨l1, l2, l3⟩ := RunInv.log hI hR
        refine ⟨h.file, ?_⟩
        intro s' hs'
        simp only [endExec, Option.some.injEq] at hs'
        subst hs'
        refine ⟨hR.relog _ _, hI.small, l1, l2, ?_, Nat.le_refl _, hI.once, ?_, ?_, by simp⟩
        · simp only [List.take_length, endExec]
          exact (hI.onDisk.trans (List.take_prefix _ _)).trans l3
        · intro he; exact absurd he hR.executed
        · intro he; exact absurd he hR.executed

theorem winv_stop {w w' : World} (h : WInv w) {keep : Nat} (hs : step w (.stop keep) = .ok w') : WInv w' := by
  have hl := h.log
  unfold step at hs
  cases hse : w.sess with
  | none => simp [hse] at hs
  | some s =>
    simp only [hse] at hs
    split at hs
    · simp only [Res.ok.injEq] at hs
      subst hs
      refine ⟨?_, by simp⟩
      have e : w.log = w.log.take keep ++ w.log.drop keep := (List.take_append_drop _ _).symm
      rw [e] at hl
      exact hl.prefix
    · cases hs

theorem winv_exec {w w' : World} (h : WInv w) {target : Option Nat} {rerun : Bool} {fizzles : Nat} {ch : Choices} {now : Int}
    (hs : step w (.exec target rerun fizzles ch now) = .ok w') : WInv w' := by
  unfold step at hs
  cases hse : w.sess with
  | none => simp [hse] at hs
  | some s =>
    have hI := h.sess s hse
    simp only [hse] at hs
    cases hrun : s.run with
    | some r => simp [hrun] at hs
    | none =>
      simp only [hrun, Option.isSome_none, Bool.false_or] at hs
      cases hleg : legal s.g target rerun ch with
      | false => simp [hleg] at hs
      | true =>
        simp only [hleg, Bool.not_true, Bool.false_eq_true, if_false] at hs
        have hL := (Bridge.legal_iff hI.reach).1 hleg
        obtain ⟨lf', c', h1, h2, h3, h4, h5⟩ := Selection.getSubgraph_ok s.g target rerun ch
        have hsel := Bridge.selected hI.reach hL h1
        unfold startExec at hs
        simp only [h1] at hs
        generalize hsub : (select (Selection.prioritised s.g ch) s.g.completed s.g.logfile.mem target rerun ch).1 = sub at *
        have hgood := Bridge.selected_good hsel hI.small fizzles
        have hreach : ∀ lf completed, TaskGraph.Reachable { s.g with
            deps := Selection.prioritised s.g ch, logfile := lf, completed := completed } := by
          intro lf comp
          obtain ⟨lf0, hl⟩ := hI.reach
          exact ⟨lf0, .exec _ _ _ hl⟩
        have hst : ∀ k, statusOf k lf'.entries = statusOf k s.g.logfile.entries := by
          intro k; rw [h4]; exact statusOf_append_other (fun e he => about_backrefs e he k)
        have hlog : LogGood w.multi lf'.entries := by
          rw [h4]
          refine hI.log.other about_backrefs (Log.headersOk_nonheader hI.log.headers ?_)
          intro e he x hx
          obtain ⟨y, _, rfl⟩ := List.mem_map.1 he
          cases hx
        have hcons : Consistent lf' := ⟨hlog.protocol, fun k => by rw [h2, hst]; exact hI.cons.status k⟩
        have hlen : s.flushed ≤ lf'.entries.length := by
          rw [h4, List.length_append]; have := hI.flushed; omega
        have htake : lf'.entries.take s.flushed = s.g.logfile.entries.take s.flushed := by
          rw [h4, List.take_append_of_le_length hI.flushed]
        have hmulti : ∀ b, (w.multi || b) = false → w.multi = false ∧ b = false := by
          intro b; cases w.multi <;> cases b <;> simp
        have hfile : LogGood (w.multi || decide (s.executes ≠ 0)) w.file :=
          ⟨h.file.protocol, h.file.headers, h.file.norerun, fun m => h.file.rcok (hmulti _ m).1⟩
        have hlog' : LogGood (w.multi || decide (s.executes ≠ 0)) lf'.entries :=
          ⟨hlog.protocol, hlog.headers, hlog.norerun, fun m => hlog.rcok (hmulti _ m).1⟩
        have hnode : (Selection.prioritised s.g ch).n < 2 ^ 32 := by
          rw [Selection.prioritised_n]; exact hI.small
        have honce : (w.multi || decide (s.executes ≠ 0)) = false → s.executes + 1 ≤ 1 := by
          intro m
          have := (hmulti _ m).2
          simp only [ne_eq, decide_not, Bool.not_eq_false', decide_eq_true_eq] at this
          omega
        by_cases hem : sub.nodes.isEmpty = true
        · simp only [hem, if_true, Res.ok.injEq] at hs
          subst hs
          refine ⟨hfile, ?_⟩
          intro s' hs'
          simp only [Option.some.injEq] at hs'
          subst hs'
          refine ⟨hreach _ _, hnode, hcons, hlog', ?_, hlen, honce, by simp, by simp, by simp [hrun]⟩
          simp only [htake]; exact hI.onDisk
        · simp only [hem, Bool.false_eq_true, if_false, Res.ok.injEq] at hs
          subst hs
          refine ⟨hfile, ?_⟩
          intro s' hs'
          simp only [Option.some.injEq] at hs'
          subst hs'
          refine ⟨hreach _ _, hnode, hcons, hlog', ?_, hlen, honce, by simp, by simp, ?_⟩
          · simp only [htake]; exact hI.onDisk
          · intro r hr
            simp only [Option.some.injEq] at hr
            subst hr
            refine ⟨hgood.1, hgood.2, ?_, ⟨[], .nil _⟩, by simp, hsel.src, ?_, ?_, ?_, ?_, ?_⟩
            · simp only [DiGraph.n]
              intro h0
              exact hem (by simp [List.length_eq_zero_iff.1 h0])
            · intro lf comp; exact hreach lf comp
            · intro x hx
              have := hsel.node x hx
              exact ⟨by simp only [h2]; exact this.1, this.2.1⟩
            · intro m x hx
              obtain ⟨n1, _, c0, n2, n3, n4⟩ := hsel.node x hx
              have he : s.executes = 0 := by have := honce m; omega
              have := hI.rc he c0 n2 (by rw [n3]; exact n1)
              simp only [hst]
              rw [n3, n4] at this
              exact this
            · intro he
              simp only at he
              exact hI.first (by omega)
            · intro v cv hv i ci hi hk j cj hd hj
              have := hsel.deps v cv hv i ci hi hk j cj hd hj
              simp only [h2]
              exact this

theorem winv_step {w w' : World} (h : WInv w) {a : Act} (hs : step w a = .ok w') : WInv w' := by
  cases a with
  | «open» dir roots newKey info => exact winv_open h hs
  | add cmd deps => exact winv_add h hs
  | exec target rerun fizzles ch now => exact winv_exec h hs
  | trk a => exact winv_trk h hs
  | finish => exact winv_finish h hs
  | stop keep => exact winv_stop h hs

theorem winv_runs {w w' : World} {as : List Act} (hr : Runs w as w') (h : WInv w) : WInv w' := by
  induction hr with
  | nil => exact h
  | cons hs _ ih => exact ih (winv_step h hs)

theorem Reachable.inv {w : World} (h : Reachable w) : WInv w := by
  obtain ⟨as, hr⟩ := h
  exact winv_runs hr winv_init

/-- The scheduler and the runners change only their own state. -/
theorem runs_trk {w w' : World} {as : List Act} (hr : Runs w as w') (ht : ∀ a ∈ as, a.isTrk = true) {s : Sess} {r : Running}
    (hs : w.sess = some s) (hrun : s.run = some r) :
    ∃ st, w' = { w with sess := some { s with run := some { r with st := st } } } := by
  induction hr generalizing s r with
  | nil w =>
    refine ⟨r.st, ?_⟩
    obtain ⟨f, ss, m⟩ := w
    simp only at hs
    subst hs
    obtain ⟨a, b, c, d, e⟩ := s
    simp only at hrun
    subst hrun
    rfl
  | @cons w1 w2 w3 a as hst _ ih =>
    have ha := ht a (by simp)
    cases a with
    | trk b =>
      unfold step at hst
      simp only [hs, hrun] at hst
      split at hst
      · cases hst
      · cases hb : Tracker.step r.cfg r.st b with
        | err e => rw [hb] at hst; cases hst
        | panic e => rw [hb] at hst; cases hst
        | ok st =>
          rw [hb] at hst
          simp only [Res.bind, Res.ok.injEq] at hst
          subst hst
          obtain ⟨st', h'⟩ := ih (fun a ha => ht a (List.mem_cons_of_mem _ ha)) rfl rfl
          exact ⟨st', h'⟩
    | _ => simp [Act.isTrk] at ha

/-- What the start of `execute` leaves: the log the process had, then Backref entries. -/
theorem exec_cases {w w1 : World} {target : Option Nat} {rerun : Bool} {fizzles : Nat} {ch : Choices} {now : Int}
    (h : step w (.exec target rerun fizzles ch now) = .ok w1) :
    ∃ s s1 lf' completed', w.sess = some s ∧ s.run = none ∧ w1.sess = some s1 ∧ w1.file = w.file ∧
      w.log = s.g.logfile.entries ∧
      lf'.mem = s.g.logfile.mem ∧
      lf'.entries = s.g.logfile.entries ++ ch.reuseOrder.map (fun k => LogEntry.backref ⟨k⟩) ∧
      s1.g = { s.g with deps := Selection.prioritised s.g ch, logfile := lf', completed := completed' } ∧
      s1.executes = s.executes + 1 ∧ s1.flushed = s.flushed ∧
      (s1.run = none ∧ s1.result = some (0, []) ∨ ∃ c, s1.run = some ⟨c, now, s.g.completed, Tracker.init c lf' now⟩ ∧ c.g.nodes.isEmpty = false) := by
  unfold step at h
  cases hs : w.sess with
  | none => simp [hs] at h
  | some s =>
    simp only [hs] at h
    cases hrun : s.run with
    | some r => simp [hrun] at h
    | none =>
      simp only [hrun] at h
      split at h
      · cases h
      · obtain ⟨lf', c', h1, h2, h3, h4, h5⟩ := Selection.getSubgraph_ok s.g target rerun ch
        unfold startExec at h
        simp only [h1] at h
        have hl : w.log = s.g.logfile.entries := by unfold World.log; simp [hs, hrun]
        split at h
        · simp only [Res.ok.injEq] at h
          subst h
          exact ⟨s, _, lf', c', rfl, hrun, rfl, rfl, hl, h2, h4, rfl, rfl, rfl, .inl ⟨hrun, rfl⟩⟩
        · rename_i hne
          simp only [Res.ok.injEq] at h
          subst h
          refine ⟨s, _, lf', c', rfl, hrun, rfl, rfl, hl, h2, h4, rfl, rfl, rfl, .inr ⟨_, rfl, by simpa using hne⟩⟩

/-- Each action other than the end of the process only appends to the log; what is flushed stays flushed. -/
theorem step_grows {w w' : World} (h : WInv w) {a : Act} (hs : step w a = .ok w') :
    (a.isStop = false → w.log <+: w'.log) ∧ w.durable <+: w'.durable := by
  have hI' := winv_step h hs
  have dur : ∀ {s s' : Sess}, w.sess = some s → w'.sess = some s' → w.log <+: w'.log → s.flushed ≤ s'.flushed →
      w.durable <+: w'.durable := by
    intro s s' e e' hl hle
    unfold World.durable
    simp only [e, e']
    obtain ⟨x, hx⟩ := hl
    rw [← hx]
    have h1 : w.log.take s.flushed <+: (w.log ++ x).take s.flushed := by
      rw [List.take_append]; exact List.prefix_append _ _
    refine h1.trans ?_
    have : (w.log ++ x).take s.flushed = ((w.log ++ x).take s'.flushed).take s.flushed := by
      rw [List.take_take, Nat.min_eq_left hle]
    rw [this]
    exact List.take_prefix _ _
  cases a with
  | «open» dir roots newKey info =>
    have hs0 := hs
    unfold step at hs
    cases hse : w.sess with
    | some s => simp [hse] at hs
    | none =>
      simp only [hse] at hs
      cases hp : pyNew w.file dir roots newKey info with
      | err e => simp [hp] at hs
      | panic m => simp [hp] at hs
      | ok g =>
        simp only [hp, Res.ok.injEq] at hs
        subst hs
        have := (hI'.sess _ rfl).onDisk
        simp only at this
        refine ⟨fun _ => ?_, ?_⟩
        · simp only [World.log, hse]
          exact this.trans (List.take_prefix _ _)
        · simp only [World.durable, World.log, hse]
          exact this
  | add cmd deps =>
    unfold step at hs
    cases hse : w.sess with
    | none => simp [hse] at hs
    | some s =>
      simp only [hse] at hs
      cases hrun : s.run with
      | some r => simp [hrun] at hs
      | none =>
        simp only [hrun, Option.isSome_none, Bool.false_eq_true, if_false] at hs
        split at hs
        · cases hs
        · unfold pyAddTask at hs
          cases hl : logfileRuncount s.g.logfile cmd.key with
          | err e => simp [hl, Res.bind] at hs
          | panic m => simp [hl, Res.bind] at hs
          | ok x =>
            simp only [hl, Res.bind, Res.ok.injEq] at hs
            subst hs
            obtain ⟨f1, _, _⟩ := addTask_facts (h.sess s hse).reach { cmd with runcount := x.1, priority := 0 } deps
            have hl : w.log <+: World.log { w with sess := some { s with
                g := (s.g.addTask { cmd with runcount := x.1, priority := 0 } deps).2
                run := none } } := by
              simp only [World.log, hse, hrun, f1]; exact List.prefix_refl _
            exact ⟨fun _ => hl, dur hse rfl hl (Nat.le_refl _)⟩
  | exec target rerun fizzles ch now =>
    obtain ⟨s, s1, lf', c', e1, e2, e3, e4, e5, e6, e7, e8, e9, e10, e11⟩ := exec_cases hs
    have hl : w.log <+: w'.log := by
      rw [e5]
      unfold World.log
      simp only [e3]
      rcases e11 with ⟨e11, _⟩ | ⟨c, e11, _⟩
      · simp only [e11, e8, e7]; exact List.prefix_append _ _
      · simp only [e11, Tracker.init, e7]; exact List.prefix_append _ _
    exact ⟨fun _ => hl, dur e1 e3 hl (by omega)⟩
  | trk b =>
    unfold step at hs
    cases hse : w.sess with
    | none => simp [hse] at hs
    | some s =>
      simp only [hse] at hs
      cases hrun : s.run with
      | none => simp [hrun] at hs
      | some r =>
        simp only [hrun] at hs
        split at hs
        · cases hs
        · cases hb : Tracker.step r.cfg r.st b with
          | err e => rw [hb] at hs; cases hs
          | panic e => rw [hb] at hs; cases hs
          | ok st =>
            rw [hb] at hs
            simp only [Res.bind, Res.ok.injEq] at hs
            subst hs
            have hR := (h.sess s hse).run r hrun
            have hl : w.log <+: World.log { w with sess := some { s with run := some { r with st := st } } } := by
              simp only [World.log, hse, hrun]
              obtain ⟨new, hn⟩ := Tracker.step_entries hb
              rw [hn]; exact List.prefix_append _ _
            exact ⟨fun _ => hl, dur hse rfl hl (Nat.le_refl _)⟩
  | finish =>
    unfold step at hs
    cases hse : w.sess with
    | none => simp [hse] at hs
    | some s =>
      simp only [hse] at hs
      cases hrun : s.run with
      | none => simp [hrun] at hs
      | some r =>
        simp only [hrun] at hs
        split at hs
        · cases hs
        · simp only [Res.ok.injEq] at hs
          subst hs
          obtain ⟨l1, l2, l3⟩ := RunInv.log (h.sess s hse) ((h.sess s hse).run r hrun)
          have hl : w.log <+: World.log (endExec w s r) := by
            simp only [World.log, hse, hrun, endExec]; exact List.prefix_refl _
          refine ⟨fun _ => hl, dur hse rfl hl ?_⟩
          exact Nat.le_trans (h.sess s hse).flushed l3.length_le
  | stop keep =>
    unfold step at hs
    cases hse : w.sess with
    | none => simp [hse] at hs
    | some s =>
      simp only [hse] at hs
      split at hs
      · rename_i hk
        simp only [Res.ok.injEq] at hs
        subst hs
        refine ⟨by simp [Act.isStop], ?_⟩
        simp only [World.durable, hse]
        have : w.log.take s.flushed = (w.log.take keep).take s.flushed := by
          rw [List.take_take, Nat.min_eq_left hk.1]
        rw [this]
        exact List.take_prefix _ _
      · cases hs

theorem runs_grow {w w' : World} {as : List Act} (hr : Runs w as w') (h : WInv w) :
    ((∀ a ∈ as, a.isStop = false) → w.log <+: w'.log) ∧ w.durable <+: w'.durable := by
  induction hr with
  | nil => exact ⟨fun _ => List.prefix_refl _, List.prefix_refl _⟩
  | cons hs _ ih =>
    obtain ⟨g1, g2⟩ := step_grows h hs
    obtain ⟨i1, i2⟩ := ih (winv_step h hs)
    refine ⟨fun ha => (g1 (ha _ (by simp))).trans (i1 (fun a m => ha a (List.mem_cons_of_mem _ m))), g2.trans i2⟩

end World
end Verif
