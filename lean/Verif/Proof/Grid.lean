import Verif.Proof.Anywhere
import Verif.Spec.Grid

/-!
# Server, loops, runners and all processes together (proofs)
-/

namespace Verif.Grid
open Verif Verif.Tracker
open Verif.Tracker hiding Act Cfg State Runs init step replay after runs_of_replay runs_of_after

variable {P : Type} {c : Family.Cfg P} {lf : LogFile} {now : Int} {s s' : State P} {a : Act} {as : List Act}

/-! ### runs -/

theorem Runs.append {s1 s2 s3 : State P} {as bs : List Act} (h1 : Runs c s1 as s2) (h2 : Runs c s2 bs s3) : Runs c s1 (as ++ bs) s3 := by
  induction h1 with
  | nil => exact h2
  | cons hs _ ih => exact .cons hs (ih h2)

theorem Runs.snoc {s1 s2 s3 : State P} (h1 : Runs c s1 as s2) (hs : step c s2 a = .ok s3) : Runs c s1 (as ++ [a]) s3 :=
  h1.append (.cons hs (.nil _))

theorem Runs.snocInd {s0 : State P} {Q : List Act → State P → Prop} (h0 : Q [] s0)
    (hstep : ∀ as s a s', Runs c s0 as s → Q as s → step c s a = .ok s' → Q (as ++ [a]) s') {as : List Act} {s : State P}
    (hr : Runs c s0 as s) : Q as s := by
  suffices ∀ {s1 : State P} {bs : List Act} {s2 : State P}, Runs c s1 bs s2 → ∀ as, Runs c s0 as s1 → Q as s1 → Q (as ++ bs) s2 by
    simpa using this hr [] (.nil _) h0
  intro s1 bs s2 hr
  induction hr with
  | nil => intro as _ h; simpa using h
  | cons hs _ ih =>
    intro as h1 h2
    have := ih (as ++ [_]) (h1.snoc hs) (hstep _ _ _ _ h1 h2 hs)
    simpa using this

theorem collect_append {β : Type} {f : State P → Act → List β} {as bs : List Act} (hr : Runs c s as s') :
    collect f c s (as ++ bs) = collect f c s as ++ collect f c s' bs := by
  induction hr with
  | nil => rfl
  | cons hs _ ih => simp only [List.cons_append, collect, hs, ih, List.append_assoc]

theorem collect_snoc {β : Type} {f : State P → Act → List β} (hr : Runs c s as s') :
    collect f c s (as ++ [a]) = collect f c s as ++ f s' a := by
  rw [collect_append hr]
  simp only [collect]
  cases step c s' a <;> simp

theorem clActs_append (as bs : List Act) : clActs (as ++ bs) = clActs as ++ clActs bs := by
  induction as with
  | nil => rfl
  | cons a as ih => cases a <;> simp [clActs, ih]

theorem mem_clActs {a : Cluster.Act} (h : a ∈ clActs as) : Act.cl a ∈ as := by
  induction as with
  | nil => cases h
  | cons x as ih =>
    cases x with
    | cl b =>
      simp only [clActs, List.mem_cons] at h
      rcases h with rfl | h
      · simp
      · exact List.mem_cons_of_mem _ (ih h)
    | near i b => exact List.mem_cons_of_mem _ (ih h)
    | far i b => exact List.mem_cons_of_mem _ (ih h)

/-! ### one step -/

theorem bind_ok {α β : Type} {r : Res Unit α} {f : α → Res Unit β} {y : β} (h : r.bind f = .ok y) : ∃ x, r = .ok x ∧ f x = .ok y := by
  cases r with
  | ok x => exact ⟨x, rfl, h⟩
  | err e => cases h
  | panic m => cases h

theorem near_sys {b : Cluster.Act} {t : Cluster.State} {f : Family.State P} (h1 : Cluster.step c.sys (cluster s) b = .ok t)
    (h2 : near c s b = .ok f) : f.sys = t.sys := by
  cases b with
  | server x =>
    simp only [Cluster.step] at h1
    split at h1
    · cases h1
    · obtain ⟨u, h3, h4⟩ := bind_ok h1
      cases h4
      have := Family.sys_step h2
      simp only [cluster] at h3
      rw [this] at h3; cases h3; rfl
  | other r =>
    simp only [Cluster.step] at h1
    split at h1
    · obtain ⟨u, h3, h4⟩ := bind_ok h1
      cases h4
      have := Family.sys_step (a := .request r) h2
      simp only [cluster] at h3
      rw [this] at h3; cases h3; rfl
    · cases h1
  | arrive k =>
    simp only [Cluster.step] at h1
    split at h1
    · rename_i i q hk
      obtain ⟨u, h3, h4⟩ := bind_ok h1
      cases h4
      have hk : s.packets[k]? = some ⟨i, q, none⟩ := hk
      simp only [near, hk] at h2
      have := Family.sys_step h2
      simp only [cluster] at h3
      rw [this] at h3; cases h3; rfl
    · cases h1
  | join cfg => simp only [Cluster.step, Res.ok.injEq] at h1; cases h2; subst h1; rfl
  | runner i x =>
    cases h2
    simp only [Cluster.step] at h1
    split at h1
    · split at h1
      · cases h1
      · obtain ⟨u, h3, h4⟩ := bind_ok h1
        cases h4; rfl
    · cases h1
  | answer i =>
    cases h2
    simp only [Cluster.step] at h1
    repeat' split at h1
    all_goals first
      | (cases h1; done)
      | (simp only [Cluster.hear] at h1
         split at h1
         · obtain ⟨u, h3, h4⟩ := bind_ok h1
           cases h4; rfl
         · cases h1)
  | fail i =>
    cases h2
    simp only [Cluster.step] at h1
    repeat' split at h1
    all_goals first
      | (cases h1; done)
      | (simp only [Cluster.hear] at h1
         split at h1
         · obtain ⟨u, h3, h4⟩ := bind_ok h1
           cases h4; rfl
         · cases h1)

theorem step_cl {b : Cluster.Act} (hs : step c s (.cl b) = .ok s') : Cluster.step c.sys (cluster s) b = .ok (cluster s') ∧
    near c s b = .ok s'.fam ∧ far c s (cluster s') b = some s'.far := by
  simp only [step] at hs
  obtain ⟨t, h1, hs⟩ := bind_ok hs
  obtain ⟨f, h2, hs⟩ := bind_ok hs
  split at hs
  · rename_i k hk
    cases hs
    have : cluster ⟨f, t.runners, t.packets, k⟩ = t := by
      simp only [cluster, near_sys h1 h2]
    rw [this]
    exact ⟨h1, h2, hk⟩
  · cases hs

theorem step_near {i : Nat} {b : ChildIo.Act} (hs : step c s (.near i b) = .ok s') : Family.step c s.fam (.kid i b) = .ok s'.fam ∧
    s'.runners = s.runners ∧ s'.packets = s.packets ∧ s'.far = s.far := by
  simp only [step] at hs
  obtain ⟨f, h1, hs⟩ := bind_ok hs
  cases hs
  exact ⟨h1, rfl, rfl, rfl⟩

theorem does_ok {b : ChildIo.Act} {k k' : Far P} (h : does c b k = some k') : k'.task = k.task ∧ k'.hist = k.hist ++ [b] ∧
    ChildIo.step (farCfg c k.task) k.st b = .ok k'.st := by
  unfold does at h
  split at h
  · rename_i st hst; cases h; exact ⟨rfl, rfl, hst⟩
  · cases h

theorem step_far {i : Nat} {b : ChildIo.Act} (hs : step c s (.far i b) = .ok s') : ∃ k k', s.far i = some k ∧ does c b k = some k' ∧
    s' = { s with far := fun j => if j = i then some k' else s.far j } := by
  simp only [step] at hs
  split at hs
  · split at hs
    · rename_i k' hk
      cases hs
      cases hf : s.far i with
      | none => rw [hf] at hk; cases hk
      | some k =>
        rw [hf] at hk
        simp only [Option.bind_some, Option.filter_eq_some_iff] at hk
        exact ⟨k, k', rfl, hk.1, rfl⟩
    · cases hs
  · cases hs

/-- Forgetting the processes. -/
theorem Runs.cluster (hr : Runs c s as s') : Cluster.Runs c.sys (cluster s) (clActs as) (cluster s') := by
  induction hr with
  | nil => exact .nil _
  | @cons s s1 s' a as hs _ ih =>
    cases a with
    | cl b => exact .cons (step_cl hs).1 ih
    | near i b =>
      obtain ⟨h1, h2, h3, _⟩ := step_near hs
      have : Grid.cluster s1 = Grid.cluster s := by simp only [Grid.cluster, Family.sys_kid h1, h2, h3]
      rw [this] at ih; exact ih
    | far i b =>
      obtain ⟨k, k', _, _, e⟩ := step_far hs
      have : Grid.cluster s1 = Grid.cluster s := by rw [e]; rfl
      rw [this] at ih; exact ih

theorem Runs.clusterInit (hr : Runs c (init c lf now) as s) : Cluster.Runs c.sys (Cluster.init c.sys lf now) (clActs as) (Grid.cluster s) :=
  hr.cluster

theorem Fresh.init_of {bs : List Act} (hr : Runs c (init c lf now) as s) (h : Fresh c lf now (as ++ bs)) : Fresh c lf now as := by
  unfold Fresh Cluster.Fresh Sys.FreshTxns Cluster.served at h ⊢
  rw [clActs_append, Cluster.collect_append hr.clusterInit] at h
  have hx : ∀ (xs ys : List Sys.Act) (t : Sys.State), ∃ zs, Sys.collect Sys.drawn c.sys t (xs ++ ys) = Sys.collect Sys.drawn c.sys t xs ++ zs := by
    intro xs ys
    induction xs with
    | nil => intro t; exact ⟨_, rfl⟩
    | cons x xs ih =>
      intro t
      simp only [List.cons_append, Sys.collect]
      cases Sys.step c.sys t x with
      | ok u => obtain ⟨zs, hz⟩ := ih u; exact ⟨zs, by simp [hz]⟩
      | err e => exact ⟨[], by simp⟩
      | panic m => exact ⟨[], by simp⟩
  obtain ⟨zs, hz⟩ := hx (Cluster.collect Cluster.sysAct c.sys (Cluster.init c.sys lf now) (clActs as)) _ (Sys.init c.sys lf now)
  rw [hz] at h
  exact (List.nodup_append.1 h).1

/-- Forgetting the remote runners. -/
theorem Runs.family (hr : Runs c (init c lf now) as s) (hf : Fresh c lf now as) :
    Family.Runs c (Family.init c lf now) (collect famAct c (init c lf now) as) s.fam ∧
    Family.sysActs (collect famAct c (init c lf now) as) = Cluster.served c.sys lf now (clActs as) := by
  revert hf
  refine Runs.snocInd (Q := fun as s => Fresh c lf now as →
    Family.Runs c (Family.init c lf now) (collect famAct c (init c lf now) as) s.fam ∧
    Family.sysActs (collect famAct c (init c lf now) as) = Cluster.served c.sys lf now (clActs as)) ?_ ?_ hr
  · intro _; exact ⟨.nil _, rfl⟩
  · intro as s a s' hr ih hs hf
    obtain ⟨i1, i2⟩ := ih (hf.init_of hr)
    rw [collect_snoc hr, Family.sysActs_append, i2, clActs_append]
    cases a with
    | near i b =>
      obtain ⟨h1, _⟩ := step_near hs
      refine ⟨i1.snoc rfl h1, ?_⟩
      simp [famAct, Family.sysActs, clActs]
    | far i b =>
      obtain ⟨k, k', _, _, e⟩ := step_far hs
      refine ⟨?_, by simp [famAct, Family.sysActs, clActs]⟩
      rw [e]
      simpa [famAct] using i1
    | cl b =>
      obtain ⟨h1, h2, _⟩ := step_cl hs
      have hc := hr.clusterInit
      have hrun := ((hr.snoc hs).clusterInit.inv hf).run
      rw [clActs_append] at hrun
      have e : Cluster.served c.sys lf now (clActs as ++ clActs [.cl b]) =
          Cluster.served c.sys lf now (clActs as) ++ Cluster.sysAct (Grid.cluster s) b := Cluster.served_snoc hc
      rw [e] at hrun ⊢
      have hpre : Sys.Runs c.sys (Sys.init c.sys lf now) (Cluster.served c.sys lf now (clActs as)) s.fam.sys := by
        have := Family.Runs.sys i1
        rw [i2] at this; exact this
      have hlast := Sys.Runs.suffix hrun hpre
      have hone : ∀ x, Cluster.sysAct (Grid.cluster s) b = [x] → near c s b = Family.step c s.fam (.sys x) →
          Family.Runs c (Family.init c lf now) (collect famAct c (init c lf now) as ++ famAct s (.cl b)) s'.fam := by
        intro x hx hn
        rw [hx] at hlast
        cases hlast with
        | cons hp _ _ =>
          simp only [famAct, hx, List.map_cons, List.map_nil]
          exact i1.snoc hp (hn ▸ h2)
      refine ⟨?_, ?_⟩
      · cases b with
        | server x => exact hone x rfl rfl
        | other r => exact hone _ rfl rfl
        | arrive k =>
          cases hk : s.packets[k]? with
          | none => simp [near, hk] at h2
          | some p => exact hone (.request p.req) (by simp [Cluster.sysAct, Grid.cluster, hk]) (by simp [near, hk])
        | _ =>
          simp only [near, Res.ok.injEq] at h2
          rw [← h2]
          simpa [famAct, Cluster.sysAct] using i1
      · congr 1
        simp only [famAct]
        generalize Cluster.sysAct (Grid.cluster s) b = l
        induction l with
        | nil => rfl
        | cons x l ih => simp [Family.sysActs, ih]

/-! ### runners and their processes go together -/

/-- Has the runner a process it has not yet heard the end of, and not given up? -/
def busy : Remote.Phase → Bool
  | .feeding _ _ | .beginning _ (some _) | .begun _ (some _) | .waiting _ _ _ => true
  | _ => false

theorem follow_same (c : Family.Cfg P) (v : Option Nat) (p : Remote.Phase) (k : Option (Far P)) : follow c v p p k = some k := by
  cases p with
  | beginning r x => cases x <;> rfl
  | begun r x => cases x <;> rfl
  | finishing r x => cases x <;> rfl
  | _ => rfl

theorem busy_step {rc : Remote.Cfg} {st st' : Remote.State} {b : Remote.Act} (hs : Remote.step rc st b = .ok st') (hb : busy st'.phase = true)
    (c : Family.Cfg P) : ((∃ r, st.phase = .got r) ∧ ∀ v k, follow c v st.phase st'.phase k = v.map (fun v => some ⟨v, ChildIo.init (farCfg c v), []⟩)) ∨
    (busy st.phase = true ∧ ∀ v k, follow c v st.phase st'.phase k = some k ∨ ∃ x, follow c v st.phase st'.phase k = (k.bind (does c x)).map some) := by
  have same : st'.phase = st.phase → (busy st.phase = true ∧
      ∀ v k, follow c v st.phase st'.phase k = some k ∨ ∃ x, follow c v st.phase st'.phase k = (k.bind (does c x)).map some) := by
    intro e
    rw [e] at hb ⊢
    exact ⟨hb, fun v k => .inl (follow_same c v _ k)⟩
  cases b with
  | tick d => simp only [Remote.step, Res.ok.injEq] at hs; exact .inr (same (by rw [← hs]))
  | usr1 => simp only [Remote.step, Res.ok.injEq] at hs; exact .inr (same (by rw [← hs]))
  | lose => simp only [Remote.step, Res.ok.injEq] at hs; exact .inr (same (by rw [← hs]))
  | childEnds pid =>
    simp only [Remote.step] at hs
    split at hs
    · simp only [Res.ok.injEq] at hs; exact .inr (same (by rw [← hs]))
    · cases hs
  | spawn pid =>
    simp only [Remote.step] at hs
    split at hs
    · rename_i r hp
      split at hs
      · simp only [Res.ok.injEq] at hs; subst hs; cases hb
      · split at hs
        · simp only [Res.ok.injEq] at hs; subst hs; cases hb
        · split at hs
          · cases hs
          · simp only [Res.ok.injEq] at hs; subst hs
            left
            refine ⟨⟨r, hp⟩, fun v k => ?_⟩
            rw [hp]
            simp only [Remote.State.goto]
            split <;> rfl
    · cases hs
  | fed ok =>
    simp only [Remote.step] at hs
    split at hs
    · rename_i r p hp
      split at hs
      · simp only [Res.ok.injEq] at hs; subst hs
        exact .inr ⟨by rw [hp]; rfl, fun v k => .inr ⟨.fed, by rw [hp]; rfl⟩⟩
      · simp only [Res.ok.injEq] at hs; subst hs; cases hb
    · cases hs
  | sendBegun =>
    simp only [Remote.step] at hs
    split at hs
    · rename_i r p hp
      simp only [Res.ok.injEq] at hs; subst hs
      cases p with
      | none => cases hb
      | some p => exact .inr ⟨by rw [hp]; rfl, fun v k => .inl (by rw [hp]; rfl)⟩
    · cases hs
  | begunReply ok =>
    simp only [Remote.step] at hs
    split at hs
    · rename_i r p hp
      split at hs
      · split at hs
        · simp only [Res.ok.injEq] at hs; subst hs
          exact .inr ⟨by rw [hp]; rfl, fun v k => .inr ⟨.started, by rw [hp]; rfl⟩⟩
        · simp only [Res.ok.injEq] at hs; subst hs; cases hb
      · simp only [Res.ok.injEq] at hs; subst hs; cases hb
    · cases hs
  | deadline =>
    simp only [Remote.step] at hs
    split at hs
    · rename_i r p l hp
      split at hs
      · simp only [Res.ok.injEq] at hs; subst hs
        exact .inr ⟨by rw [hp]; rfl, fun v k => .inl (by rw [hp]; rfl)⟩
      · cases hs
    · cases hs
  | startReply x =>
    cases x <;> simp only [Remote.step] at hs <;> split at hs <;>
      first
        | (cases hs; done)
        | (simp only [Res.ok.injEq] at hs; subst hs; cases hb)
  | _ =>
    simp only [Remote.step] at hs
    repeat' split at hs
    all_goals first
      | (cases hs; done)
      | (simp only [Res.ok.injEq] at hs; subst hs; cases hb)

/-- Actions of others leave a runner alone. -/
theorem runner_other {sc : Sys.Cfg} {x y : Cluster.State} {b : Cluster.Act} (hs : Cluster.step sc x b = .ok y) {j : Nat} (hw : who b ≠ some j)
    {r : Cluster.Runner} (hj : y.runners[j]? = some r) : x.runners[j]? = some r ∨ r.st.phase = .top := by
  cases b with
  | server a =>
    simp only [Cluster.step] at hs
    split at hs
    · cases hs
    · obtain ⟨u, _, h⟩ := bind_ok hs; cases h; exact .inl hj
  | other a =>
    simp only [Cluster.step] at hs
    split at hs
    · obtain ⟨u, _, h⟩ := bind_ok hs; cases h; exact .inl hj
    · cases hs
  | arrive k =>
    simp only [Cluster.step] at hs
    split at hs
    · obtain ⟨u, _, h⟩ := bind_ok hs; cases h; exact .inl hj
    · cases hs
  | join cfg =>
    simp only [Cluster.step, Res.ok.injEq] at hs
    subst hs
    simp only [List.getElem?_append] at hj
    split at hj
    · exact .inl hj
    · rw [List.getElem?_singleton] at hj
      split at hj
      · cases hj; exact .inr rfl
      · cases hj
  | runner i a =>
    have hne : i ≠ j := fun e => hw (by rw [e]; rfl)
    simp only [Cluster.step] at hs
    split at hs
    · split at hs
      · cases hs
      · obtain ⟨u, _, h⟩ := bind_ok hs
        cases h
        simp only [List.getElem?_set_ne hne] at hj
        exact .inl hj
    · cases hs
  | answer i =>
    have hne : i ≠ j := fun e => hw (by rw [e]; rfl)
    simp only [Cluster.step] at hs
    repeat' split at hs
    all_goals first
      | (cases hs; done)
      | (simp only [Cluster.hear] at hs
         split at hs
         · obtain ⟨u, _, h⟩ := bind_ok hs
           cases h
           simp only [List.getElem?_set_ne hne] at hj
           exact .inl hj
         · cases hs)
  | fail i =>
    have hne : i ≠ j := fun e => hw (by rw [e]; rfl)
    simp only [Cluster.step] at hs
    repeat' split at hs
    all_goals first
      | (cases hs; done)
      | (simp only [Cluster.hear] at hs
         split at hs
         · obtain ⟨u, _, h⟩ := bind_ok hs
           cases h
           simp only [List.getElem?_set_ne hne] at hj
           exact .inl hj
         · cases hs)

/-- The runner has the task it received last, and its pipes and processes have come to their state in this way. -/
def FarLive (c : Family.Cfg P) (r : Cluster.Runner) (k : Option (Far P)) : Prop :=
  ∃ k', k = some k' ∧ r.tasks.getLast?.map (·.2.2) = some k'.task ∧
    ChildIo.Runs (farCfg c k'.task) (ChildIo.init (farCfg c k'.task)) k'.hist k'.st

def FarInv (c : Family.Cfg P) (s : State P) : Prop :=
  ∀ i r, s.runners[i]? = some r → busy r.st.phase = true → FarLive c r (s.far i)

theorem FarLive.does {r r' : Cluster.Runner} {k k' : Far P} {x : ChildIo.Act} (h : FarLive c r (some k)) (hd : does c x k = some k')
    (ht : r'.tasks = r.tasks) : FarLive c r' (some k') := by
  obtain ⟨k1, e, h1, h2⟩ := h
  cases e
  obtain ⟨d1, d2, d3⟩ := does_ok hd
  refine ⟨k', rfl, by rw [ht, d1]; exact h1, ?_⟩
  rw [d1, d2]
  exact h2.snoc d3

theorem far_who {t : Cluster.State} {b : Cluster.Act} {f : Nat → Option (Far P)} (h : far c s t b = some f) :
    (∀ j, who b ≠ some j → f j = s.far j) ∧
    ∀ i, who b = some i → ∃ r r', s.runners[i]? = some r ∧ t.runners[i]? = some r' ∧
      follow c (r.tasks.getLast?.map (·.2.2)) r.st.phase r'.st.phase (s.far i) = some (f i) := by
  unfold far at h
  split at h
  · rename_i i hi
    split at h
    · rename_i r r' h1 h2
      split at h
      · cases hf : follow c (r.tasks.getLast?.map (·.2.2)) r.st.phase r'.st.phase (s.far i) with
        | none => rw [hf] at h; cases h
        | some k =>
          rw [hf] at h
          simp only [Option.map_some, Option.some.injEq] at h
          subst h
          refine ⟨fun j hj => ?_, fun j hj => ?_⟩
          · have : j ≠ i := by rintro rfl; exact hj hi
            simp [this]
          · rw [hi] at hj; cases hj
            exact ⟨r, r', h1, h2, by simp [hf]⟩
      · cases h
    · cases h
  · rename_i hi
    cases h
    exact ⟨fun _ _ => rfl, fun i h => by rw [hi] at h; cases h⟩

/-- A task that was heard of is only part of a step to `got`. -/
theorem got_nil {g : DiGraph Cmd} {p : Remote.Phase} {x : Option Sys.Reply} {b : Remote.Act} {got : List (Nat × Nat)}
    (hh : Cluster.hears g p x = some (b, got)) {rc : Remote.Cfg} {st st' : Remote.State} (hp : st.phase = p)
    (hs : Remote.step rc st b = .ok st') (hb : busy st'.phase = true) : got = [] := by
  unfold Cluster.hears at hh
  repeat' split at hh
  all_goals first
    | (cases hh; done)
    | (cases hh; rfl)
    | (cases hh
       simp only [Remote.step, hp] at hs
       repeat' split at hs
       all_goals first
         | (cases hs; done)
         | (simp only [Res.ok.injEq] at hs; subst hs; cases hb))

theorem FarInv.step (h : FarInv c s) (hs : step c s a = .ok s') : FarInv c s' := by
  cases a with
  | near i b =>
    obtain ⟨_, h2, _, h4⟩ := step_near hs
    unfold FarInv
    rw [h2, h4]; exact h
  | far i b =>
    obtain ⟨k, k', h1, h2, e⟩ := step_far hs
    subst e
    intro j r hj hb
    have := h j r hj hb
    show FarLive c r (if j = i then some k' else s.far j)
    split
    · rename_i e; subst e
      rw [h1] at this
      exact this.does h2 rfl
    · exact this
  | cl b =>
    obtain ⟨h1, _, h3⟩ := step_cl hs
    obtain ⟨f1, f2⟩ := far_who h3
    intro j r' hj hb
    by_cases hw : who b = some j
    · obtain ⟨r, r2, g1, g2, g3⟩ := f2 j hw
      have g2 : s'.runners[j]? = some r2 := g2
      rw [hj] at g2; cases g2
      have key : ∀ x, Remote.step r.cfg.rem r.st x = .ok r'.st → r'.tasks = r.tasks → FarLive c r' (s'.far j) := by
        intro x hx ht
        rcases busy_step hx hb c with ⟨_, g4⟩ | ⟨g5, g4⟩
        · rw [g4] at g3
          cases hv : r.tasks.getLast?.map (·.2.2) with
          | none => rw [hv] at g3; cases g3
          | some v =>
            rw [hv] at g3
            simp only [Option.map_some, Option.some.injEq] at g3
            exact ⟨_, g3.symm, by rw [ht]; exact hv, .nil _⟩
        · have hl := h j r g1 g5
          rcases g4 (r.tasks.getLast?.map (·.2.2)) (s.far j) with g4 | ⟨y, g4⟩
          · rw [g4] at g3
            rw [← Option.some.inj g3]
            obtain ⟨k1, e1, e2, e3⟩ := hl
            exact ⟨k1, e1, by rw [ht]; exact e2, e3⟩
          · rw [g4] at g3
            cases hk : s.far j with
            | none => rw [hk] at g3; cases g3
            | some k =>
              rw [hk] at g3 hl
              simp only [Option.bind_some] at g3
              cases hd : does c y k with
              | none => rw [hd] at g3; cases g3
              | some k' =>
                rw [hd] at g3
                rw [← Option.some.inj g3]
                exact hl.does hd ht
      cases Cluster.step_runner h1 (j := j) (r' := r') hj with
      | same hsame =>
        have hsame : s.runners[j]? = some r' := hsame
        rw [g1] at hsame; cases hsame
        rw [follow_same] at g3
        rw [← Option.some.inj g3]
        exact h j r' g1 hb
      | new cfg e => rw [e] at hb; cases hb
      | act r3 x _ hr3 _ hst ht _ =>
        have hr3 : s.runners[j]? = some r3 := hr3
        rw [g1] at hr3; cases hr3
        exact key x hst ht
      | hear r3 x y n got _ hr3 hh hst ht _ =>
        have hr3 : s.runners[j]? = some r3 := hr3
        rw [g1] at hr3; cases hr3
        refine key x hst ?_
        rw [ht, got_nil hh rfl hst hb]
        simp
    · rw [f1 j hw]
      rcases runner_other h1 hw hj with g | g
      · exact h j r' g hb
      · rw [g] at hb; cases hb

theorem Runs.far (hr : Runs c (init c lf now) as s) : FarInv c s := by
  refine Runs.snocInd (Q := fun _ s => FarInv c s) ?_ ?_ hr
  · intro i r h; simp [init] at h
  · intro as s a s' _ ih hs; exact ih.step hs

/-- What a remote runner reports as the output of a process belongs to a run of its pipes and processes which has come to its end. -/
theorem far_output (hr : Runs c (init c lf now) as s) {v i : Nat} {code : Int} {values : List (List (String × String))} {out : Remote.Output}
    (hs : step c s (.cl (.runner i (.output out))) = .ok s')
    (hx : (v, code, values) ∈ Cluster.exits (Grid.cluster s) (.runner i (.output out))) :
    ∃ k pst bytes, s'.far i = some k ∧ k.task = v ∧ ChildIo.Runs (farCfg c v) (ChildIo.init (farCfg c v)) k.hist k.st ∧
      k.st.stage = .ended pst bytes ∧ Fd3.code pst = .code code ∧ values = Fd3.fd3Values ⟨(bytes .val).toArray⟩ := by
  obtain ⟨h1, _, h3⟩ := step_cl hs
  obtain ⟨r, r', g1, g2, g3⟩ := (far_who h3).2 i rfl
  have g1' : (Grid.cluster s).runners[i]? = some r := g1
  simp only [Cluster.exits, g1'] at hx
  split at hx
  · rename_i q p l hp
    have hph : r'.st.phase = .finishing q (some out) := by
      cases Cluster.step_runner h1 (j := i) (r' := r') g2 with
      | same hsame =>
        exfalso
        rw [g1'] at hsame; cases hsame
        simp only [Cluster.step, g1', Cluster.isAnswer] at h1
        obtain ⟨u, hu, h⟩ := bind_ok h1
        simp only [Remote.step, hp] at hu
        split at hu
        · cases hu
        · simp only [Res.ok.injEq] at hu; subst hu
          have g2 : (Grid.cluster s').runners[i]? = some r := g2
          rw [← (Res.ok.inj h)] at g2
          have hlt : i < s.runners.length := (List.getElem?_eq_some_iff.1 g1).1
          simp only [Grid.cluster, List.getElem?_set_self hlt, Option.some.injEq] at g2
          have := congrArg (fun r => r.st.phase) g2
          rw [hp] at this
          cases this
      | new cfg e =>
        exfalso
        simp only [Cluster.step, g1', Cluster.isAnswer] at h1
        obtain ⟨u, hu, h⟩ := bind_ok h1
        simp only [Remote.step, hp] at hu
        split at hu
        · cases hu
        · simp only [Res.ok.injEq] at hu; subst hu
          have g2 : (Grid.cluster s').runners[i]? = some r' := g2
          rw [← (Res.ok.inj h)] at g2
          have hlt : i < s.runners.length := (List.getElem?_eq_some_iff.1 g1).1
          simp only [Grid.cluster, List.getElem?_set_self hlt, Option.some.injEq] at g2
          have := congrArg (fun r => r.st.phase) g2
          rw [e] at this
          cases this
      | act r3 x hx' hr3 _ hst ht _ =>
        rw [g1'] at hr3; cases hr3
        cases hx'
        simp only [Remote.step, hp] at hst
        split at hst
        · cases hst
        · simp only [Res.ok.injEq] at hst; rw [← hst]; rfl
      | hear r3 x y n got hne => exact absurd rfl (hne _ _)
    have hl := hr.far i r g1 (by rw [hp]; rfl)
    obtain ⟨k, e1, e2, e3⟩ := hl
    have hx : (v, code, values) = (k.task, out.code, out.values) := by
      cases hgl : r.tasks.getLast? with
      | none => rw [hgl] at e2; cases e2
      | some y =>
        rw [hgl] at e2 hx
        simp only [Option.map_some, Option.some.injEq] at e2
        simpa [e2] using hx
    cases hx
    rw [hp, hph, e1] at g3
    simp only [follow, Option.bind_some] at g3
    split at g3
    · rename_i k' hd
      obtain ⟨d1, d2, d3⟩ := does_ok hd
      split at g3
      · rename_i hrep
        have g3 := Option.some.inj g3
        unfold reports at hrep
        split at hrep
        · rename_i pst bytes hst
          simp only [Bool.and_eq_true, decide_eq_true_eq] at hrep
          exact ⟨k', pst, bytes, g3.symm, d1, by rw [d2]; exact e3.snoc d3, hst, hrep.1, hrep.2⟩
        · cases hrep
      · cases g3
    · cases g3
  · cases hx

end Verif.Grid
