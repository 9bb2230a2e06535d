import Verif.Proof.Cluster6
import Verif.Props.Execute
import Verif.Props.World

/-!
# Whole deployments (proofs)
-/

namespace Verif.Tracker
open Verif

variable {c : Cfg} {lf : LogFile} {now : Int} {s s' : State}

theorem step_processed {a : Act} (hs : step c s a = .ok s') :
    s'.processed = s.processed ∨ ∃ e, .finished e ∈ s.chan ∧ s'.processed = s.processed ++ [(e.id, e.status)] := by
  have half : ∀ {s1 s2 : State} {x : SysTime} {e : Fin}, finishHalf c x s1 e = .ok s2 → s2.processed = s1.processed := by
    intro s1 s2 x e h
    obtain ⟨lf, ⟨_, rfl⟩ | ⟨_, rfl⟩⟩ := finishHalf_cases h <;> rw [finLogged_eq] <;> rfl
  cases a with
  | begin order x =>
    simp only [step] at hs
    split at hs
    · cases hs
    · split at hs
      · cases hs
      · split at hs
        · simp only [Res.ok.injEq] at hs; subst hs; exact .inl rfl
        · obtain ⟨_, _, _, _, rfl⟩ := addReady_ok hs; exact .inl rfl
  | sendDone x =>
    simp only [step] at hs
    split at hs
    · split at hs
      · simp only [Res.ok.injEq] at hs; subst hs; exact .inl rfl
      · have := half hs; exact .inl this
    · cases hs
  | recvStarted x =>
    simp only [step] at hs
    split at hs
    · cases hs
    · split at hs
      · obtain ⟨s1, h1, h2⟩ := Res.bind_ok.1 hs
        obtain ⟨lf, _, rfl⟩ := writeLog_ok.1 h1
        split at h2
        · cases h2
        · simp only [Res.ok.injEq] at h2; subst h2; exact .inl rfl
      · cases hs
  | recvFinished order x =>
    simp only [step] at hs
    split at hs
    · cases hs
    · split at hs
      · rename_i e rest hch
        right
        refine ⟨e, by rw [hch]; simp, ?_⟩
        obtain ⟨sn, um, po, _, h | ⟨vs, _, _, h⟩⟩ := handleFinished_cases hs
        · have := half h; exact this
        · obtain ⟨_, _, _, _, rfl⟩ := addReady_ok h; rfl
      · cases hs
  | drain order x =>
    simp only [step] at hs
    split at hs
    · cases hs
    · exact .inl (Kept.drain hs).1.processed
  | tick d => simp only [step, Res.ok.injEq] at hs; subst hs; exact .inl rfl
  | trigger => simp only [step, Res.ok.injEq] at hs; subst hs; exact .inl rfl
  | cancel k => simp only [step, Res.ok.injEq] at hs; subst hs; exact .inl rfl
  | _ =>
    simp only [step] at hs
    repeat' split at hs
    all_goals first
      | (cases hs; done)
      | (simp only [Res.ok.injEq] at hs; subst hs; exact .inl rfl)

/-- What was processed was reported. -/
theorem processed_reported {as : List Act} (hr : Runs c (init c lf now) as s) :
    ∀ x ∈ s.processed, ∃ e, Act.sendFinished e ∈ as ∧ e.id = x.1 ∧ e.status = x.2 := by
  refine Runs.snocInd (P := fun as s => ∀ x ∈ s.processed, ∃ e, Act.sendFinished e ∈ as ∧ e.id = x.1 ∧ e.status = x.2) ?_ ?_ hr
  · simp [init]
  · intro as s a s' hr ih hd hs x hx
    have old : x ∈ s.processed → ∃ e, Act.sendFinished e ∈ as ++ [a] ∧ e.id = x.1 ∧ e.status = x.2 := by
      intro h
      obtain ⟨e, h1, h2⟩ := ih x h
      exact ⟨e, List.mem_append_left _ h1, h2⟩
    rcases step_processed hs with e | ⟨e, h1, h2⟩
    · rw [e] at hx; exact old hx
    · rw [h2] at hx
      rcases List.mem_append.1 hx with hx | hx
      · exact old hx
      · rw [List.mem_singleton] at hx
        subst hx
        exact ⟨e, List.mem_append_left _ ((Props.Tracker.rinv hr).evs _ h1), rfl, rfl⟩

end Verif.Tracker

namespace Verif.Deploy
open Verif

variable {d d' : State} {as : List Act} {a : Act}

theorem Runs.snoc {d1 d2 d3 : State} (h1 : Runs d1 as d2) (hf : fresh d2 a) (hs : step d2 a = .ok d3) : Runs d1 (as ++ [a]) d3 := by
  induction h1 with
  | nil => exact .cons hf hs (.nil _)
  | cons hf' hs' _ ih => exact .cons hf' hs' (ih hf hs)

theorem Runs.append {d1 d2 d3 : State} {bs : List Act} (h1 : Runs d1 as d2) (h2 : Runs d2 bs d3) : Runs d1 (as ++ bs) d3 := by
  induction h1 with
  | nil => exact h2
  | cons hf' hs' _ ih => exact .cons hf' hs' (ih h2)

theorem Runs.snocInd {d0 : State} {P : List Act → State → Prop} (h0 : P [] d0)
    (h1 : ∀ as d a d', Runs d0 as d → P as d → fresh d a → step d a = .ok d' → P (as ++ [a]) d') :
    ∀ {as d}, Runs d0 as d → P as d := by
  have key : ∀ {d d' : State} {bs : List Act}, Runs d bs d' → ∀ {as : List Act}, Runs d0 as d → P as d → P (as ++ bs) d' := by
    intro d d' bs h
    induction h with
    | nil => intro as _ hp; simpa using hp
    | @cons d d1 d' a bs hf hs _ ih =>
      intro as hr hp
      have := ih (hr.snoc hf hs) (h1 _ _ _ _ hr hp hf hs)
      simpa using this
  intro as d h
  simpa using key h (.nil _) h0

theorem collect_append {β : Type} {f : State → Act → List β} {bs : List Act} (hr : Runs d as d') :
    collect f d (as ++ bs) = collect f d as ++ collect f d' bs := by
  induction hr with
  | nil => simp [collect]
  | cons _ hs _ ih => simp only [List.cons_append, collect, hs, ih, List.append_assoc]

theorem collect_snoc {β : Type} {f : State → Act → List β} (hr : Runs d as d') : collect f d (as ++ [a]) = collect f d as ++ f d' a := by
  rw [collect_append hr]
  simp only [collect]
  cases step d' a <;> simp

/-- All clusters there are. -/
def clusters (d : State) : List Live := d.live.toList ++ d.old

/-- What holds of a cluster, when processes were seen to end as in `hist`, and started as in `ps`. -/
structure CInv (hist : List (String × Int × List (List (String × String)))) (ps : List String) (l : Live) : Prop where
  runs : Cluster.Runs l.cfg (Cluster.init l.cfg l.lf l.now) l.acts l.st
  fresh : Cluster.Fresh l.cfg l.lf l.now l.acts
  good : Tracker.Good l.cfg.tr
  exits : ∀ x ∈ Cluster.collect Cluster.exits l.cfg (Cluster.init l.cfg l.lf l.now) l.acts, (l.key x.1, x.2) ∈ hist
  procs : ∀ v ∈ Cluster.collect Cluster.processes l.cfg (Cluster.init l.cfg l.lf l.now) l.acts, l.key v ∈ ps
  before : ∀ k, l.lf.mem.hasSuccess k = true → ∃ vals, (k, 0, vals) ∈ hist
  unsucc : ∀ x ∈ l.cfg.tr.g.nodes, l.lf.mem.hasSuccess x.key = false
  deps : l.first = true → ∀ (v : Nat) (cv : Cmd), l.cfg.tr.g.nodes[v]? = some cv → ∀ (i : Nat) (ci : Cmd), l.tasks.nodes[i]? = some ci →
    ci.key = cv.key → ∀ (j : Nat) (cj : Cmd), l.tasks.Dep j i → l.tasks.nodes[j]? = some cj →
      (∃ (u : Nat) (cu : Cmd), l.cfg.tr.g.Dep u v ∧ l.cfg.tr.g.nodes[u]? = some cu ∧ cu.key = cj.key) ∨
      l.lf.mem.hasSuccess cj.key = true

theorem CInv.mono {hist more : List (String × Int × List (List (String × String)))} {ps qs : List String} {l : Live} (h : CInv hist ps l) :
    CInv (hist ++ more) (ps ++ qs) l :=
  { h with
    exits := fun x hx => List.mem_append_left _ (h.exits x hx)
    procs := fun x hx => List.mem_append_left _ (h.procs x hx)
    before := fun k hk => (h.before k hk).imp fun _ hv => List.mem_append_left _ hv }

/-- How the cluster at work and the world belong together. -/
structure Link (w : World.World) (l : Live) (s : World.Sess) (r : World.Running) : Prop where
  sess : w.sess = some s
  run : s.run = some r
  cfg : r.cfg = l.cfg.tr
  now : r.now0 = l.now
  lf : s.g.logfile = l.lf
  tasks : s.g.deps = l.tasks
  st : r.st = l.st.sys.tr
  first : l.first = decide (s.executes ≤ 1)

/-- The invariant of histories. -/
structure DInv (as : List Act) (d : State) : Prop where
  world : World.Runs World.init (collect worldAct init as) d.world
  link : ∀ l, d.live = some l → ∃ s r, Link d.world l s r
  idle : d.live = none → d.world.running = none
  clusters : ∀ l ∈ clusters d, CInv (collect ended init as) (collect started init as) l
  ends : ∀ f, LogEntry.finished f ∈ d.world.log → madeUp f.status = false → (f.key, f.status, f.values) ∈ collect ended init as

theorem DInv.winv (h : DInv as d) : World.WInv d.world := World.Reachable.inv ⟨_, h.world⟩

theorem sync_self {w : World.World} {l : Live} {s : World.Sess} {r : World.Running} (h : Link w l s r) : sync w l.st.sys.tr = w := by
  obtain ⟨h1, h2, _, _, _, _, h3, _⟩ := h
  obtain ⟨f, ss, m⟩ := w
  simp only at h1
  subst h1
  obtain ⟨a, b, c, d, e⟩ := s
  simp only at h2
  subst h2
  obtain ⟨a, b, c, t⟩ := r
  simp only at h3
  subst h3
  rfl

/-- Tracker actions as actions of the world. -/
theorem world_trk {c : Tracker.Cfg} {t t' : Tracker.State} {bs : List Tracker.Act} (hr : Tracker.Runs c t bs t') :
    ∀ {w : World.World} {s : World.Sess} {r : World.Running}, w.sess = some s → s.run = some r → r.cfg = c → r.st = t →
    World.Runs w (bs.map .trk) (sync w t') := by
  induction hr with
  | nil t =>
    intro w s r h1 h2 h3 h4
    have : sync w t = w := by
      obtain ⟨f, ss, m⟩ := w
      simp only at h1
      subst h1
      obtain ⟨a, b, c, d, e⟩ := s
      simp only at h2
      subst h2
      obtain ⟨a, b, c, t⟩ := r
      simp only at h4
      subst h4
      rfl
    rw [this]; exact .nil _
  | @cons t t1 t' b bs hd hs _ ih =>
    intro w s r h1 h2 h3 h4
    subst h3 h4
    have := ih (w := sync w t1) (s := { s with run := some { r with st := t1 } }) (r := { r with st := t1 })
      (by simp [sync, h1, h2]) rfl rfl rfl
    have e : sync (sync w t1) t' = sync w t' := by simp [sync, h1, h2]
    rw [e] at this
    refine .cons ?_ this
    simp [World.step, h1, h2, hd, hs, Res.bind, sync]

theorem worldRuns_append {w1 w2 w3 : World.World} {as bs : List World.Act} (h1 : World.Runs w1 as w2) (h2 : World.Runs w2 bs w3) :
    World.Runs w1 (as ++ bs) w3 := by
  induction h1 with
  | nil => exact h2
  | cons hs _ ih => exact .cons hs (ih h2)

/-- The tracker part of a step of a cluster. -/
theorem cluster_trk {c : Sys.Cfg} {lf : LogFile} {now : Int} {s s' : Cluster.State} {as : List Cluster.Act} {a : Cluster.Act}
    (hg : Tracker.Good c.tr) (hr : Cluster.Runs c (Cluster.init c lf now) as s) (hf : Cluster.Fresh c lf now (as ++ [a]))
    (hs : Cluster.step c s a = .ok s') :
    Tracker.Runs c.tr s.sys.tr ((Cluster.sysAct s a).flatMap (Sys.trackerAct c s.sys)) s'.sys.tr := by
  rcases Cluster.step_sys hs with ⟨h1, h2⟩ | ⟨b, h1, h2⟩
  · rw [h1, h2]; exact .nil _
  · have hi := (hr.snoc hs).inv hf
    have h3 := hi.run
    have h0 := (hr.inv (hf.prefix hr)).run
    rw [Cluster.served_snoc hr, h1] at h3
    have h4 := h3.suffix h0
    have := (Sys.Runs.inv hg (Sys.Runs.inv hg (Sys.Inv.init c lf now) h0).1 h4).2
    rw [h1]
    cases h4 with
    | cons hp hs' hr' =>
      cases hr' with
      | nil =>
        simpa [Sys.toTracker, Sys.collect, hs'] using this

/-- A cluster takes a step. -/
theorem CInv.step {hist : List (String × Int × List (List (String × String)))} {ps : List String} {l l' : Live} (h : CInv hist ps l) {a : Cluster.Act}
    (hf : Cluster.Fresh l.cfg l.lf l.now (l.acts ++ [a])) (hs : l.step a = .ok l') :
    CInv (hist ++ (Cluster.exits l.st a).map (fun x => (l.key x.1, x.2))) (ps ++ (Cluster.processes l.st a).map l.key) l' ∧
    ∃ t, Cluster.step l.cfg l.st a = .ok t ∧ l' = { l with st := t, acts := l.acts ++ [a] } := by
  unfold Live.step at hs
  cases ht : Cluster.step l.cfg l.st a with
  | err x => rw [ht] at hs; cases hs
  | panic x => rw [ht] at hs; cases hs
  | ok t =>
    rw [ht] at hs
    simp only [Res.bind, Res.ok.injEq] at hs
    subst hs
    refine ⟨⟨h.runs.snoc ht, hf, h.good, ?_, ?_, fun k hk => (h.before k hk).imp fun _ hv => List.mem_append_left _ hv, h.unsucc, h.deps⟩,
      t, rfl, rfl⟩
    · intro x hx
      simp only at hx
      rw [Cluster.collect_snoc h.runs] at hx
      rcases List.mem_append.1 hx with hx | hx
      · exact List.mem_append_left _ (h.exits x hx)
      · exact List.mem_append_right _ (List.mem_map.2 ⟨x, hx, rfl⟩)
    · intro x hx
      simp only at hx
      rw [Cluster.collect_snoc h.runs] at hx
      rcases List.mem_append.1 hx with hx | hx
      · exact List.mem_append_left _ (h.procs x hx)
      · exact List.mem_append_right _ (List.mem_map.2 ⟨x, hx, rfl⟩)

/-- Success and other exit codes of processes in the log of a cluster: from before, or seen in it. -/
theorem CInv.ends {hist : List (String × Int × List (List (String × String)))} {ps : List String} {l : Live} (h : CInv hist ps l) {f : FinishedEntry}
    (hf : LogEntry.finished f ∈ l.st.sys.tr.lf.entries) (hm : madeUp f.status = false) (hold : LogEntry.finished f ∉ l.lf.entries) :
    ∃ v, l.key v = f.key ∧ v < l.cfg.tr.g.n ∧
      (v, f.status, f.values) ∈ Cluster.collect Cluster.exits l.cfg (Cluster.init l.cfg l.lf l.now) l.acts := by
  have hi := h.runs.inv h.fresh
  have hrun := hi.run.toInit h.good
  have hre : Tracker.Reachable l.cfg.tr l.lf l.now l.st.sys.tr := ⟨_, hrun⟩
  obtain ⟨_, e1, _⟩ := World.appended h.good hre
  rw [e1] at hf
  rcases List.mem_append.1 hf with hf | hf
  · exact absurd hf hold
  · have ho := Props.Tracker.entries_have_origin hrun _ hf
    simp only [madeUp, Bool.or_eq_false_iff, beq_eq_false_iff_ne] at hm
    obtain ⟨⟨⟨m1, m2⟩, m3⟩, m4⟩ := hm
    rcases ho with ⟨e, h1, h2, h3, h4⟩ | ⟨_, v, _, _, h3, _⟩
    · cases hst : e.status with
      | code code =>
        rw [hst] at h3
        have h3 : f.status = code := h3
        rw [h3] at m1 m2 m3
        have := Cluster.finish_exit h.runs h.fresh h1 hst m1 m2 m3
        rw [h3, h4]
        refine ⟨e.id, h2.symm, ?_, this⟩
        have hp := Cluster.exits_processes h.runs h.fresh this
        exact Cluster.process_lt h.good h.runs h.fresh hp
      | cancelled => rw [hst] at h3; exact absurd h3 m4
      | disconnected => rw [hst] at h3; exact absurd h3 m1
    · exact absurd h3 m1

theorem log_of_run {w : World.World} {s : World.Sess} {r : World.Running} (h1 : w.sess = some s) (h2 : s.run = some r) :
    w.log = r.st.lf.entries := by
  simp [World.World.log, h1, h2]

theorem DInv.init : DInv [] Deploy.init where
  world := .nil _
  link := by intro l h; cases h
  idle := fun _ => rfl
  clusters := by intro l h; cases h
  ends := by intro f h; cases h

theorem DInv.cluster (h : DInv as d) (hr : Runs Deploy.init as d) {a : Cluster.Act} (hf : fresh d (.cluster a))
    (hs : step d (.cluster a) = .ok d') : DInv (as ++ [.cluster a]) d' := by
  simp only [Deploy.step] at hs
  cases hl : d.live with
  | none => rw [hl] at hs; cases hs
  | some l =>
    rw [hl] at hs
    simp only at hs
    cases hst : l.step a with
    | err x => rw [hst] at hs; cases hs
    | panic x => rw [hst] at hs; cases hs
    | ok l' =>
      rw [hst] at hs
      simp only [Res.bind, Res.ok.injEq] at hs
      subst hs
      have hc := h.clusters l (by simp [Deploy.clusters, hl])
      obtain ⟨hc', t, ht, e⟩ := hc.step (hf l hl) hst
      obtain ⟨s, r, hk⟩ := h.link l hl
      have hrun := cluster_trk hc.good hc.runs (hf l hl) ht
      have hw := world_trk hrun hk.sess hk.run hk.cfg hk.st
      have est : l'.st.sys.tr = t.sys.tr := by rw [e]
      have hh : collect ended Deploy.init (as ++ [.cluster a]) =
          collect ended Deploy.init as ++ (Cluster.exits l.st a).map (fun x => (l.key x.1, x.2)) := by
        rw [collect_snoc hr]; simp [ended, place, hl]
      have hh2 : collect started Deploy.init (as ++ [.cluster a]) =
          collect started Deploy.init as ++ (Cluster.processes l.st a).map l.key := by
        rw [collect_snoc hr]; simp [started, place, hl]
      refine ⟨?_, ?_, ?_, ?_, ?_⟩
      · rw [collect_snoc hr]
        refine worldRuns_append h.world ?_
        simp only [worldAct, hl, est]
        exact hw
      · intro l'' hl''
        simp only [Option.some.injEq] at hl''
        subst hl''
        refine ⟨{ s with run := some { r with st := l'.st.sys.tr } }, { r with st := l'.st.sys.tr }, ?_⟩
        subst e
        exact ⟨by simp [sync, hk.sess, hk.run], rfl, hk.cfg, hk.now, hk.lf, hk.tasks, rfl, hk.first⟩
      · intro e; cases e
      · rw [hh, hh2]
        intro x hx
        simp only [Deploy.clusters, Option.toList_some, List.singleton_append, List.mem_cons] at hx
        rcases hx with hx | hx
        · rw [hx]; exact hc'
        · exact (h.clusters x (by simp [Deploy.clusters, hx])).mono
      · rw [hh]
        intro f hfin hm
        have hlog : (sync d.world l'.st.sys.tr).log = l'.st.sys.tr.lf.entries := by
          simp [World.World.log, sync, hk.sess, hk.run]
        simp only [hlog] at hfin
        by_cases hold : LogEntry.finished f ∈ l.lf.entries
        · refine List.mem_append_left _ (h.ends f ?_ hm)
          rw [log_of_run hk.sess hk.run, hk.st]
          have hre : Tracker.Reachable l.cfg.tr l.lf l.now l.st.sys.tr := ⟨_, ((hc.runs.inv hc.fresh).run.toInit hc.good)⟩
          rw [(World.appended hc.good hre).2.1]
          exact List.mem_append_left _ hold
        · have hold' : LogEntry.finished f ∉ l'.lf.entries := by rw [e]; exact hold
          obtain ⟨v, h1, _, h2⟩ := hc'.ends hfin hm hold'
          have := hc'.exits _ h2
          rw [h1] at this
          exact this

theorem DInv.late (h : DInv as d) (hr : Runs Deploy.init as d) {n : Nat} {a : Cluster.Act}
    (hs : step d (.late n a) = .ok d') : DInv (as ++ [.late n a]) d' := by
  simp only [Deploy.step] at hs
  cases hl : d.old[n]? with
  | none => rw [hl] at hs; cases hs
  | some l =>
    rw [hl] at hs
    simp only at hs
    split at hs
    · rename_i ha
      cases hst : l.step a with
      | err x => rw [hst] at hs; cases hs
      | panic x => rw [hst] at hs; cases hs
      | ok l' =>
        rw [hst] at hs
        simp only [Res.bind, Res.ok.injEq] at hs
        subst hs
        have hc := h.clusters l (by simp [Deploy.clusters, List.mem_of_getElem? hl])
        have hf : Cluster.Fresh l.cfg l.lf l.now (l.acts ++ [a]) := by
          unfold Cluster.Fresh
          rw [Cluster.served_snoc hc.runs]
          have : Cluster.sysAct l.st a = [] := by cases a <;> simp_all [runnerOnly, Cluster.sysAct]
          rw [this, List.append_nil]
          exact hc.fresh
        obtain ⟨hc', _⟩ := hc.step hf hst
        have hh : collect ended Deploy.init (as ++ [.late n a]) =
            collect ended Deploy.init as ++ (Cluster.exits l.st a).map (fun x => (l.key x.1, x.2)) := by
          rw [collect_snoc hr]; simp [ended, place, hl]
        have hh2 : collect started Deploy.init (as ++ [.late n a]) =
            collect started Deploy.init as ++ (Cluster.processes l.st a).map l.key := by
          rw [collect_snoc hr]; simp [started, place, hl]
        refine ⟨?_, h.link, h.idle, ?_, ?_⟩
        · rw [collect_snoc hr]; simpa [worldAct] using h.world
        · rw [hh, hh2]
          intro x hx
          simp only [Deploy.clusters, List.mem_append] at hx
          rcases hx with hx | hx
          · exact (h.clusters x (by simp [Deploy.clusters, hx])).mono
          · rcases List.mem_or_eq_of_mem_set hx with hx | hx
            · exact (h.clusters x (by simp [Deploy.clusters, hx])).mono
            · rw [hx]; exact hc'
        · rw [hh]
          intro f hf hm
          exact List.mem_append_left _ (h.ends f hf hm)
    · cases hs

theorem DInv.live_sess (h : DInv as d) {l : Live} (hl : d.live = some l) : ∃ s r, d.world.sess = some s ∧ s.run = some r := by
  obtain ⟨s, r, hk⟩ := h.link l hl
  exact ⟨s, r, hk.sess, hk.run⟩

/-- Steps of the world in which no cluster takes part. -/
theorem DInv.quiet (h : DInv as d) (hr : Runs Deploy.init as d) {a : Act} {b : World.Act} {w : World.World} {old : List Live}
    (hb : worldAct d a = [b]) (hp : place d a = none) (hs : World.step d.world b = .ok w) (hold : old = d.old ++ d.live.toList)
    (hrun : w.running = none) (hlog : ∀ f, LogEntry.finished f ∈ w.log → LogEntry.finished f ∈ d.world.log) :
    DInv (as ++ [a]) ⟨w, none, old⟩ := by
  have hh : collect ended Deploy.init (as ++ [a]) = collect ended Deploy.init as := by
    rw [collect_snoc hr]; simp [ended, hp]
  have hh2 : collect started Deploy.init (as ++ [a]) = collect started Deploy.init as := by
    rw [collect_snoc hr]; simp [started, hp]
  refine ⟨?_, by simp, fun _ => hrun, ?_, ?_⟩
  · rw [collect_snoc hr, hb]
    exact worldRuns_append h.world (.cons hs (.nil _))
  · rw [hh, hh2, hold]
    intro x hx
    refine h.clusters x ?_
    simp only [Deploy.clusters, Option.toList_none, List.nil_append, List.mem_append] at hx ⊢
    exact hx.symm
  · rw [hh]
    intro f hf hm
    exact h.ends f (hlog f hf) hm

theorem DInv.worldStep (h : DInv as d) (hr : Runs Deploy.init as d) {b : World.Act}
    (hs : step d (.world b) = .ok d') : DInv (as ++ [.world b]) d' := by
  have hI := h.winv
  cases b with
  | «open» dir roots newKey info =>
    simp only [Deploy.step] at hs
    obtain ⟨w, hw, hs⟩ := Res.bind_ok.1 hs
    simp only [Res.ok.injEq] at hs
    subst hs
    have hl : d.live = none := by
      cases hl : d.live with
      | none => rfl
      | some l =>
        obtain ⟨s, r, e, _⟩ := h.live_sess hl
        simp [World.step, e] at hw
    rw [hl]
    have hw0 := hw
    simp only [World.step] at hw
    cases hse : d.world.sess with
    | some s => simp [hse] at hw
    | none =>
      simp only [hse] at hw
      cases hp : pyNew d.world.file dir roots newKey info with
      | err e => simp [hp] at hw
      | panic m => simp [hp] at hw
      | ok g =>
        simp only [hp, Res.ok.injEq] at hw
        obtain ⟨lf, hd, h1, h2, _⟩ := Props.Log.new_appends_header hp
        have he : g.logfile.entries = d.world.file ++ [.header hd] := by
          rw [(Props.Log.writeAll_entries _ _ _ h2).1, (open_ok_iff.1 h1).2.1]
        refine h.quiet hr rfl rfl hw0 (by simp [hl]) ?_ ?_
        · subst hw; rfl
        · subst hw
          intro f hf
          simp only [World.World.log, hse] at hf ⊢
          rw [he] at hf
          simpa using hf
  | add cmd deps =>
    simp only [Deploy.step] at hs
    obtain ⟨w, hw, hs⟩ := Res.bind_ok.1 hs
    simp only [Res.ok.injEq] at hs
    subst hs
    have hl : d.live = none := by
      cases hl : d.live with
      | none => rfl
      | some l =>
        obtain ⟨s, r, e, e2⟩ := h.live_sess hl
        simp [World.step, e, e2] at hw
    rw [hl]
    have hw0 := hw
    simp only [World.step] at hw
    cases hse : d.world.sess with
    | none => simp [hse] at hw
    | some s =>
      simp only [hse] at hw
      cases hrun : s.run with
      | some r => simp [hrun] at hw
      | none =>
        simp only [hrun, Option.isSome_none, Bool.false_eq_true, if_false] at hw
        split at hw
        · cases hw
        · cases hp : pyAddTask s.g cmd deps with
          | err e => simp [hp] at hw
          | panic m => simp [hp] at hw
          | ok x =>
            simp only [hp, Res.ok.injEq] at hw
            have he : x.2.logfile = s.g.logfile := by
              unfold pyAddTask at hp
              cases hlr : logfileRuncount s.g.logfile cmd.key with
              | err e => simp [hlr, Res.bind] at hp
              | panic m => simp [hlr, Res.bind] at hp
              | ok y =>
                simp only [hlr, Res.bind, Res.ok.injEq] at hp
                subst hp
                exact (World.addTask_facts (hI.sess s hse).reach _ deps).1
            refine h.quiet hr rfl rfl hw0 (by simp [hl]) ?_ ?_
            · subst hw; simp [World.World.running, hrun]
            · subst hw
              intro f hf
              simpa [World.World.log, hse, hrun, he] using hf
  | finish =>
    simp only [Deploy.step] at hs
    obtain ⟨w, hw, hs⟩ := Res.bind_ok.1 hs
    simp only [Res.ok.injEq] at hs
    subst hs
    have hw0 := hw
    simp only [World.step] at hw
    cases hse : d.world.sess with
    | none => simp [hse] at hw
    | some s =>
      simp only [hse] at hw
      cases hrun : s.run with
      | none => simp [hrun] at hw
      | some r =>
        simp only [hrun] at hw
        split at hw
        · cases hw
        · simp only [Res.ok.injEq] at hw
          refine h.quiet hr rfl rfl hw0 rfl ?_ ?_
          · subst hw; simp [World.World.running, World.endExec]
          · subst hw
            intro f hf
            simpa [World.World.log, World.endExec, hse, hrun] using hf
  | stop keep =>
    simp only [Deploy.step] at hs
    obtain ⟨w, hw, hs⟩ := Res.bind_ok.1 hs
    simp only [Res.ok.injEq] at hs
    subst hs
    have hw0 := hw
    simp only [World.step] at hw
    cases hse : d.world.sess with
    | none => simp [hse] at hw
    | some s =>
      simp only [hse] at hw
      split at hw
      · simp only [Res.ok.injEq] at hw
        refine h.quiet hr rfl rfl hw0 rfl ?_ ?_
        · subst hw; rfl
        · subst hw
          intro f hf
          exact List.mem_of_mem_take hf
      · cases hw
  | exec target rerun fizzles ch now => simp [Deploy.step] at hs
  | trk b => simp [Deploy.step] at hs

theorem DInv.exec (h : DInv as d) (hr : Runs Deploy.init as d) {target : Option Nat} {rerun : Bool} {fizzles : Nat} {ch : Choices}
    {now : Int} {numParallel : Nat} {remote : Bool} {secret : String}
    (hs : step d (.exec target rerun fizzles ch now numParallel remote secret) = .ok d') :
    DInv (as ++ [.exec target rerun fizzles ch now numParallel remote secret]) d' := by
  have hI := h.winv
  simp only [Deploy.step] at hs
  obtain ⟨w, hw, hs⟩ := Res.bind_ok.1 hs
  simp only [Res.ok.injEq] at hs
  subst hs
  have hl : d.live = none := by
    cases hl : d.live with
    | none => rfl
    | some l =>
      obtain ⟨s, r, e, e2⟩ := h.live_sess hl
      simp [World.step, e, e2] at hw
  have hI' := World.winv_step hI hw
  obtain ⟨s, s1, lf', c', e1, e2, e3, e4, e5, e6, e7, e8, e9, e10, e11⟩ := World.exec_cases hw
  have hS := hI.sess s e1
  have hlogF : ∀ f, LogEntry.finished f ∈ lf'.entries → LogEntry.finished f ∈ d.world.log := by
    intro f hf
    rw [e7] at hf
    rw [e5]
    simpa using hf
  have hh : collect ended Deploy.init (as ++ [.exec target rerun fizzles ch now numParallel remote secret]) =
      collect ended Deploy.init as := by
    rw [collect_snoc hr]; simp [ended, place]
  have hh2 : collect started Deploy.init (as ++ [.exec target rerun fizzles ch now numParallel remote secret]) =
      collect started Deploy.init as := by
    rw [collect_snoc hr]; simp [started, place]
  rcases e11 with ⟨e11, _⟩ | ⟨c, e11, _⟩
  · have hlaunch : launch w numParallel remote secret = none := by simp [launch, e3, e11]
    rw [hlaunch]
    refine h.quiet hr rfl rfl hw (by simp [hl]) (by simp [World.World.running, e3, e11]) ?_
    intro f hf
    refine hlogF f ?_
    simpa [World.World.log, e3, e11, e8] using hf
  · have hS' := hI'.sess s1 e3
    have hR := hS'.run _ e11
    have hlaunch : launch w numParallel remote secret = some ⟨⟨c, numParallel, remote, secret⟩, s1.g.logfile, now,
        Cluster.init ⟨c, numParallel, remote, secret⟩ s1.g.logfile now, s1.g.deps, decide (s1.executes ≤ 1), []⟩ := by
      simp [launch, e3, e11]
    have elf : s1.g.logfile = lf' := by rw [e8]
    refine ⟨?_, ?_, ?_, ?_, ?_⟩
    · rw [collect_snoc hr]
      exact worldRuns_append h.world (.cons hw (.nil _))
    · intro l hl'
      simp only at hl'
      rw [hlaunch, Option.some.injEq] at hl'
      subst hl'
      exact ⟨s1, _, e3, e11, rfl, rfl, rfl, rfl, by rw [elf]; rfl, rfl⟩
    · intro e
      simp only at e
      rw [hlaunch] at e; cases e
    · rw [hh, hh2]
      intro l hl'
      simp only [Deploy.clusters, List.mem_append] at hl'
      rcases hl' with hl' | hl'
      · rw [hlaunch] at hl'
        simp only [Option.toList_some, List.mem_singleton] at hl'
        subst hl'
        refine ⟨.nil _, ?_, hR.good, ?_, ?_, ?_, fun x hx => (hR.fresh x hx).1, ?_⟩
        · simp [Cluster.Fresh, Sys.FreshTxns, Cluster.served, Cluster.collect, Sys.collect]
        · intro x hx; cases hx
        · intro x hx; cases hx
        · intro k hk
          simp only at hk
          rw [World.hasSuccess_iff hS'.cons hS'.log.norerun] at hk
          obtain ⟨f, f1, f2, f3⟩ := hk
          rw [elf] at f1
          have := h.ends f (hlogF f f1) (by rw [f3]; rfl)
          rw [f2, f3] at this
          exact ⟨_, this⟩
        · intro hfirst v cv hv i ci hi hk j cj hd hj
          rcases hR.deps v cv hv i ci hi hk j cj hd hj with x | x | x
          · exact .inl x
          · exact .inr x
          · have := hR.first (by simpa using hfirst)
            rw [this] at x; cases x
      · exact h.clusters l (by simp [Deploy.clusters, hl'])
    · rw [hh]
      intro f hf hm
      refine h.ends f (hlogF f ?_) hm
      simp only [World.World.log, e3, e11] at hf
      exact hf

theorem Runs.inv (hr : Runs Deploy.init as d) : DInv as d := by
  refine Runs.snocInd (P := DInv) .init ?_ hr
  intro as d a d' hr h hf hs
  cases a with
  | world b => exact h.worldStep hr hs
  | exec => exact h.exec hr hs
  | cluster a => exact h.cluster hr hf hs
  | late n a => exact h.late hr hs

end Verif.Deploy
