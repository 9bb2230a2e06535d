import Verif.Spec.Workflow
import Verif.Proof.Resume2
import Verif.Proof.Anywhere
import Verif.Proof.Complete
import Verif.Props.Deploy

/-!
# Resuming interrupted work in whole deployments (proofs)
-/

namespace Verif.Deploy
open Verif
open Verif.World (Does Fits FailsIn DueIn SuccessLogged results)

variable {D : String → String → Prop} {B : Does} {target : Option Nat} {as mid : List Act} {d d0 d1 d' : State} {call : Act}

theorem sync_sync (w : World.World) (t u : Tracker.State) : sync (sync w t) u = sync w u := by
  obtain ⟨f, s, m⟩ := w
  cases s with
  | none => rfl
  | some s =>
    obtain ⟨a, r, b, c, e⟩ := s
    cases r <;> rfl

/-- While `execute` runs the world changes only with the tracker. -/
theorem mid_live (hr : Runs d0 mid d1) (hin : ∀ a ∈ mid, within a = true) {l0 : Live} (hl : d0.live = some l0)
    {w1 : World.World} (hw : d0.world = sync w1 l0.st.sys.tr) :
    ∃ l, d1.live = some l ∧ d1.world = sync w1 l.st.sys.tr ∧ l.cfg = l0.cfg ∧ l.lf = l0.lf ∧ l.now = l0.now := by
  induction hr generalizing l0 with
  | nil => exact ⟨l0, hl, hw, rfl, rfl, rfl⟩
  | @cons da db dc a rest hf hs _ ih =>
    have hin' := fun a ha => hin a (List.mem_cons_of_mem _ ha)
    have ha := hin a (by simp)
    cases a with
    | cluster b =>
      simp only [step, hl] at hs
      obtain ⟨l', h1, h2⟩ := Res.bind_ok.1 hs
      simp only [Res.ok.injEq] at h2
      subst h2
      obtain ⟨l, g1, g2, g3, g4, g5⟩ := ih hin' (l0 := l') rfl (by simp only [hw, sync_sync])
      simp only [Live.step] at h1
      obtain ⟨t, h3, h4⟩ := Res.bind_ok.1 h1
      simp only [Res.ok.injEq] at h4
      subst h4
      exact ⟨l, g1, g2, g3, g4, g5⟩
    | late n b =>
      simp only [step] at hs
      split at hs
      · split at hs
        · obtain ⟨l', h1, h2⟩ := Res.bind_ok.1 hs
          simp only [Res.ok.injEq] at h2
          subst h2
          exact ih hin' hl hw
        · cases hs
      · cases hs
    | _ => cases ha

/-- If there was nothing to run, only runners of before do something. -/
theorem mid_none (hr : Runs d0 mid d1) (hin : ∀ a ∈ mid, within a = true) (hl : d0.live = none) : d1.live = none ∧ d1.world = d0.world := by
  induction hr with
  | nil => exact ⟨hl, rfl⟩
  | @cons da db dc a rest hf hs _ ih =>
    have hin' := fun a ha => hin a (List.mem_cons_of_mem _ ha)
    have ha := hin a (by simp)
    cases a with
    | cluster b => simp [step, hl] at hs
    | late n b =>
      simp only [step] at hs
      split at hs
      · split at hs
        · obtain ⟨l', h1, h2⟩ := Res.bind_ok.1 hs
          simp only [Res.ok.injEq] at h2
          subst h2
          exact ih hin' hl
        · cases hs
      · cases hs
    | _ => cases ha

/-- The call came to its end: the history goes on to `d'`. -/
theorem Redeployment.all (h : Redeployment D B target as call mid d d1 d') :
    ∃ ends, Runs init (as ++ call :: mid ++ ends) d' ∧ collect ended init (as ++ call :: mid ++ ends) = collect ended init (as ++ call :: mid) := by
  have h1 := h.history.append h.runs
  rcases h.returned with ⟨_, rfl⟩ | h2
  · exact ⟨[], by simpa using h1, by simp⟩
  · refine ⟨[.world .finish], h1.append (.cons trivial h2 (.nil _)), ?_⟩
    rw [collect_append h1]
    simp [collect, ended, place, h2]

theorem redeployed (ho : World.OncePerSession (collect worldAct init as)) (h : Redeployment D B target as call mid d d1 d') :
    (∀ (i : Nat) c, d.world.tasks.nodes[i]? = some c → Spec.Considered d.world.tasks target i →
      (SuccessLogged d'.world.log c.key ↔ DueIn B d.world.tasks i ∧ (B c.key).1 = .code 0)) ∧
    ∃ (n : Nat) (keys : List String) (l : List Nat), d'.world.result = some (n, keys) ∧ l.Nodup ∧ l.length = n ∧
      ∀ i, i ∈ l ↔ FailsIn B d.world.tasks target i := by
  obtain ⟨fizzles, ch, now, np, remote, secret, rfl, hfew⟩ := h.called
  have hw := h.history.inv.world
  have hlt : ∀ k, SuccessLogged d.world.log k → (B k).1 = .code 0 := by
    intro k hk
    obtain ⟨vals, hv⟩ := Props.Deploy.logged_success_true h.history hk
    have := h.successes k vals (by rw [collect_append h.history]; exact List.mem_append_left _ hv)
    rw [this]
  cases h.runs with
  | cons hf hs hr =>
  rename_i d0
  have hs0 := hs
  simp only [step] at hs
  obtain ⟨w1, he, h2⟩ := Res.bind_ok.1 hs
  simp only [Res.ok.injEq] at h2
  have hinv0 := (h.history.append (.cons hf hs0 (.nil _))).inv
  have hinv1 := (h.history.append h.runs).inv
  cases hl0 : d0.live with
  | none =>
    obtain ⟨g1, g2⟩ := mid_none hr h.inside hl0
    have hrun : w1.running = none := by
      have := hinv0.idle hl0
      rw [← h2] at this
      exact this
    have hd' : d'.world = w1 := by
      rcases h.returned with ⟨_, rfl⟩ | h3
      · rw [g2, ← h2]
      · exfalso
        simp only [step] at h3
        obtain ⟨w2, h4, _⟩ := Res.bind_ok.1 h3
        rw [g2, ← h2] at h4
        simp only [World.World.running] at hrun
        cases hse : w1.sess with
        | none => simp [World.step, hse] at h4
        | some s =>
          rw [hse, Option.bind_some] at hrun
          simp [World.step, hse, hrun] at h4
    exact World.resumed_core (tas := []) hw (World.log_closed hw h.deps ho) (h.deps _ _ (List.prefix_refl _) hw) hlt h.first he
      (.inl ⟨hrun, hd'⟩) (fun r hr => by rw [hrun] at hr; cases hr) hfew
  | some l0 =>
    obtain ⟨s, r, k1, k2, k3, k4, k5, k6, k7, k8⟩ := hinv0.link l0 hl0
    have hself : d0.world = sync w1 l0.st.sys.tr := by
      have := sync_self ⟨k1, k2, k3, k4, k5, k6, k7, k8⟩
      rw [← h2] at this ⊢
      exact this.symm
    obtain ⟨l, g1, g2, g3, g4, g5⟩ := mid_live hr h.inside hl0 hself
    have hc := hinv1.clusters l (by simp [clusters, g1])
    have hT := (hc.runs.inv hc.fresh).run.toInit hc.good
    have hst0 : l0.st = Cluster.init l0.cfg l0.lf l0.now := by
      rw [← h2] at hl0
      simp only [launch] at hl0
      rw [Option.bind_eq_some_iff] at hl0
      obtain ⟨s', _, hl0⟩ := hl0
      rw [Option.map_eq_some_iff] at hl0
      obtain ⟨r', _, rfl⟩ := hl0
      rfl
    have hw1 : d0.world = w1 := by rw [← h2]
    rw [hw1] at k1
    have hrun1 : w1.running = some r := by simp [World.World.running, k1, k2]
    have hfin : ∃ w2, World.Runs w1 ((Sys.toTracker l.cfg (Sys.init l.cfg l.lf l.now) (Cluster.served l.cfg l.lf l.now l.acts)).map .trk) w2 ∧
        World.step w2 .finish = .ok d'.world := by
      refine ⟨_, world_trk hT k1 k2 (by rw [k3, g3]) (by rw [k7, hst0, g3, g4, g5]; rfl), ?_⟩
      rcases h.returned with ⟨h3, _⟩ | h3
      · rw [g1] at h3; cases h3
      · simp only [step] at h3
        obtain ⟨w2, h4, h5⟩ := Res.bind_ok.1 h3
        simp only [Res.ok.injEq] at h5
        subst h5
        rw [g2] at h4
        exact h4
    refine World.resumed_core hw (World.log_closed hw h.deps ho) (h.deps _ _ (List.prefix_refl _) hw) hlt h.first he
      (.inr hfin) ?_ hfew
    intro r' hr' hff
    rw [hrun1] at hr'
    cases hr'
    have hcfg : r.cfg = l.cfg.tr := by rw [k3, g3]
    rw [hcfg] at hff ⊢
    obtain ⟨c1, c2⟩ := h.calm l g1
    have := Cluster.anywhere_peace hc.good hc.runs hc.fresh c2 c1 (fun x hx => ?_) hff
    · exact ⟨this.1, this.2.1⟩
    · have := h.honest l g1 x hx
      exact ⟨congrArg Prod.fst this, congrArg Prod.snd this⟩

end Verif.Deploy
