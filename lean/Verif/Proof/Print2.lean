import Verif.Proof.Print
import Verif.Props.Execute

/-!
# Lemmas: the tasks counted as done before an `execute` and its own tasks are different tasks of the session
-/

namespace Verif.Print
open Verif Verif.World Verif.Spec

theorem nodup_insert {l : List String} {k : String} (h : l.Nodup) : (if k ∈ l then l else l ++ [k]).Nodup := by
  split
  · exact h
  · rename_i hk
    rw [List.nodup_append]
    refine ⟨h, List.nodup_singleton _, ?_⟩
    intro a ha b hb hab
    rw [List.mem_singleton] at hb; subst hb; subst hab; exact hk ha

theorem nodup_insertKeys : ∀ {ks l : List String}, l.Nodup → (insertKeys l ks).Nodup := by
  intro ks
  induction ks with
  | nil => intro l h; exact h
  | cons k ks ih => intro l h; exact ih (nodup_insert h)

theorem writeBackrefs_nodup : ∀ {ks : List String} {lf lf' : LogFile} {l l' : List String},
    writeBackrefs lf l ks = .ok (lf', l') → l.Nodup → l'.Nodup := by
  intro ks
  induction ks with
  | nil => intro lf lf' l l' h hn; simp only [writeBackrefs, Res.ok.injEq, Prod.mk.injEq] at h; rw [← h.2]; exact hn
  | cons k ks ih =>
    intro lf lf' l l' h hn
    simp only [writeBackrefs] at h
    obtain ⟨lf1, _, h⟩ := Res.bind_ok.1 h
    exact ih h (nodup_insert hn)

/-- The keys counted as done are different keys of the session's tasks. -/
structure Counted (keys : List String) (l : List String) : Prop where
  nodup : l.Nodup
  sub : ∀ k ∈ l, k ∈ keys

def CInv (w : World) : Prop :=
  ∀ s, w.sess = some s → Counted (s.g.deps.nodes.map (·.key)) s.g.completed ∧
    ∀ r, s.run = some r → Counted (s.g.deps.nodes.map (·.key)) r.completed0

theorem CInv.step {w w' : World} (h : CInv w) (hi : WInv w) {a : World.Act} (hst : World.step w a = .ok w') : CInv w' := by
  cases a with
  | «open» dir roots newKey info =>
    unfold World.step at hst
    cases hse : w.sess with
    | some s => simp [hse] at hst
    | none =>
      simp only [hse] at hst
      cases hp : pyNew w.file dir roots newKey info with
      | err e => simp [hp] at hst
      | panic m => simp [hp] at hst
      | ok g =>
        simp only [hp, Res.ok.injEq] at hst
        subst hst
        obtain ⟨lf, hd, h1, h2, h3, _⟩ := Props.Log.new_appends_header hp
        intro s hs
        simp only [Option.some.injEq] at hs
        subst hs
        refine ⟨?_, by simp⟩
        simp only
        rw [h3]
        exact ⟨.nil, by simp [ExecGraph.new]⟩
  | add cmd deps =>
    unfold World.step at hst
    cases hse : w.sess with
    | none => simp [hse] at hst
    | some s =>
      obtain ⟨h1, h2⟩ := h s hse
      simp only [hse] at hst
      split at hst
      · cases hst
      · rename_i hrun
        split at hst
        · cases hst
        · split at hst
          · rename_i r hr
            cases hst
            intro s' hs'
            cases hs'
            have hc := Props.World.addTask_completed (hi.sess s hse).reach hr
            refine ⟨?_, ?_⟩
            · simp only
              rw [hc]
              refine ⟨h1.nodup, fun k hk => ?_⟩
              have := h1.sub k hk
              unfold pyAddTask at hr
              obtain ⟨x, _, hr⟩ := Res.bind_ok.1 hr
              simp only [Res.ok.injEq] at hr
              subst hr
              rcases (addTask_facts (hi.sess s hse).reach _ _).2.2 with e | ⟨e, _⟩
              · rw [e]; exact this
              · rw [e, List.map_append]; exact List.mem_append_left _ this
            · intro r' hr'
              have hr' : s.run = some r' := hr'
              simp [hr'] at hrun
          · cases hst
          · cases hst
  | exec target rerun fizzles ch now =>
    unfold World.step at hst
    cases hse : w.sess with
    | none => simp [hse] at hst
    | some s =>
      obtain ⟨h1, h2⟩ := h s hse
      simp only [hse] at hst
      cases hrun : s.run with
      | some r => simp [hrun] at hst
      | none =>
        simp only [hrun, Option.isSome_none, Bool.false_or] at hst
        cases hleg : legal s.g target rerun ch with
        | false => simp [hleg] at hst
        | true =>
          simp only [hleg, Bool.not_true, Bool.false_eq_true, if_false] at hst
          have hI := hi.sess s hse
          have hL := (Bridge.legal_iff hI.reach).1 hleg
          obtain ⟨sub, g', ks, k1, _, _, k4, k5⟩ := Props.Selection.backrefs_exact hI.reach target rerun ch hL
          have hkeys : g'.deps.nodes.map (·.key) = s.g.deps.nodes.map (·.key) := by
            have := k1
            unfold getSubgraph at this
            obtain ⟨x, _, hx⟩ := Res.bind_ok.1 this
            simp only [Res.ok.injEq, Prod.mk.injEq] at hx
            rw [← hx.2]
            exact Props.Selection.prioritised_keys s.g ch
          have hc' : Counted (g'.deps.nodes.map (·.key)) g'.completed := by
            refine ⟨?_, ?_⟩
            · have := k1
              unfold getSubgraph at this
              obtain ⟨x, hx1, hx⟩ := Res.bind_ok.1 this
              simp only [Res.ok.injEq, Prod.mk.injEq] at hx
              rw [← hx.2]
              exact writeBackrefs_nodup (lf' := x.1) (l' := x.2) hx1 h1.nodup
            · intro k hk
              rcases (k5 k).1 hk with hk | hk
              · rw [hkeys]; exact h1.sub k hk
              · obtain ⟨i, x, hx, rfl, _⟩ := (k4 k).1 hk
                exact List.mem_map_of_mem (List.mem_of_getElem? hx)
          unfold startExec at hst
          simp only [k1] at hst
          split at hst
          · cases hst
            intro s' hs'
            cases hs'
            exact ⟨hc', fun r' hr' => by have hr' : s.run = some r' := hr'; rw [hrun] at hr'; cases hr'⟩
          · cases hst
            intro s' hs'
            cases hs'
            refine ⟨hc', fun r' hr' => ?_⟩
            cases hr'
            refine ⟨h1.nodup, fun k hk => ?_⟩
            show k ∈ g'.deps.nodes.map (·.key)
            rw [hkeys]; exact h1.sub k hk
  | trk b =>
    unfold World.step at hst
    cases hse : w.sess with
    | none => simp [hse] at hst
    | some s =>
      obtain ⟨h1, h2⟩ := h s hse
      simp only [hse] at hst
      cases hrun : s.run with
      | none => simp [hrun] at hst
      | some r =>
        simp only [hrun] at hst
        split at hst
        · cases hst
        · obtain ⟨st, _, k2⟩ := Res.bind_ok.1 hst
          cases k2
          intro s' hs'
          cases hs'
          refine ⟨h1, fun r' hr' => ?_⟩
          cases hr'
          exact h2 r hrun
  | finish =>
    unfold World.step at hst
    cases hse : w.sess with
    | none => simp [hse] at hst
    | some s =>
      obtain ⟨h1, h2⟩ := h s hse
      simp only [hse] at hst
      cases hrun : s.run with
      | none => simp [hrun] at hst
      | some r =>
        have hR := (hi.sess s hse).run r hrun
        simp only [hrun] at hst
        split at hst
        · cases hst
        · cases hst
          intro s' hs'
          cases hs'
          refine ⟨⟨nodup_insertKeys h1.nodup, fun k hk => ?_⟩, fun r' hr' => by cases hr'⟩
          rcases Props.World.mem_insertKeys.1 hk with hk | hk
          · exact h1.sub k hk
          · obtain ⟨x, hx, rfl⟩ := List.mem_map.1 hk
            obtain ⟨as, hr⟩ := hR.reach
            have hlt : x.1 < r.cfg.g.n :=
              ((Tracker.Reachable.made_iff hR.good hR.reach).2 (Tracker.Reachable.obtained_made hR.good hR.reach
                (Tracker.Reachable.closed_obtained hR.good hR.reach (v := x.1) (st := x.2) (List.mem_append_left _ hx)))).1
            have hm : Tracker.cmdOf r.cfg.g x.1 ∈ r.cfg.g.nodes := by
              unfold Tracker.cmdOf
              rw [List.getElem?_eq_getElem (show x.1 < r.cfg.g.nodes.length from hlt)]
              exact List.getElem_mem _
            exact List.mem_map_of_mem (hR.src _ hm)
  | stop keep =>
    unfold World.step at hst
    cases hse : w.sess with
    | none => simp [hse] at hst
    | some s =>
      simp only [hse] at hst
      split at hst
      · cases hst; intro s' hs'; cases hs'
      · cases hst

theorem Reachable.cinv {w : World} (h : World.Reachable w) : CInv w := by
  obtain ⟨as, hr⟩ := h
  have gen : ∀ {w0 w : World} {as : List World.Act}, World.Runs w0 as w → WInv w0 → CInv w0 → CInv w := by
    intro w0 w as hr
    induction hr with
    | nil => exact fun _ h => h
    | cons hs _ ih => exact fun hi hc => ih (winv_step hi hs) (hc.step hi hs)
  exact gen hr winv_init (fun s hs => by simp [World.init] at hs)

end Verif.Print
