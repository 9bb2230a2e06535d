import Verif.Spec.Hooks
import Verif.Proof.Abort
import Verif.Proof.Outcome
import Verif.Proof.System3
import Verif.Proof.Resume

/-!
# Lemmas about histories with postambles
-/

namespace Verif.Hooks
open Verif Verif.World Verif.Props Spec

variable {objs : Nat → PyObj}

/-- A finish as `recorded` and `granted` show it. -/
def shown (c : Tracker.Cfg) (x : Nat × Bool) : String × Bool := (Tracker.keyOf c x.1, x.2)

theorem recorded_append (a b : List LogEntry) : recorded (a ++ b) = recorded a ++ recorded b := by simp [recorded]

theorem granted_append (a b : List Ask) : granted (a ++ b) = granted a ++ granted b := by simp [granted]

theorem recorded_eq (es : List LogEntry) : recorded es = (Tracker.finList es).map (fun x => (x.1, decide (x.2 = 0))) := by
  induction es with
  | nil => rfl
  | cons e es ih =>
    have h1 : recorded (e :: es) = recorded [e] ++ recorded es := recorded_append [e] es
    have h2 : Tracker.finList (e :: es) = Tracker.finList [e] ++ Tracker.finList es := by
      unfold Tracker.finList
      rw [← List.filterMap_append]; rfl
    rw [h1, h2, List.map_append, ih]
    cases e <;> rfl

theorem recorded_none {es : List LogEntry} (h : ∀ f, LogEntry.finished f ∉ es) : recorded es = [] := by
  unfold recorded
  rw [List.filterMap_eq_nil_iff]
  intro e he
  cases e with
  | finished f => exact absurd he (h f)
  | _ => rfl

theorem recorded_length (es : List LogEntry) : (recorded es).length = (es.filter isFin).length := by
  induction es with
  | nil => rfl
  | cons e es ih =>
    have h1 : recorded (e :: es) = recorded [e] ++ recorded es := recorded_append [e] es
    rw [h1, List.length_append, ih]
    cases e <;> simp [recorded, isFin, List.filter_cons, Nat.add_comm]

theorem recorded_take (es : List LogEntry) (k : Nat) : recorded (es.take k) <+: recorded es := by
  conv => rhs; rw [← List.take_append_drop k es]
  rw [recorded_append]
  exact List.prefix_append _ _

theorem asks_ok {c : Tracker.Cfg} : ∀ {l : List (Nat × Bool)} {is : List Int}, (asks objs c l is).all (fun q => q.answer.ok) = true →
    granted (asks objs c l is) = l.map (shown c) := by
  intro l
  induction l with
  | nil => intro is _; rfl
  | cons x xs ih =>
    intro is h
    simp only [asks] at h ⊢
    by_cases hq : (ask objs c x (is.headD 0)).answer.ok = true
    · rw [if_pos hq] at h ⊢
      simp only [List.all_cons, hq, Bool.true_and] at h
      have := ih h
      simp only [granted, List.filter_cons, hq, if_true, List.map_cons] at this ⊢
      rw [this]
      rfl
    · rw [if_neg hq] at h
      simp only [List.all_cons, List.all_nil, Bool.and_true] at h
      exact absurd h hq

theorem asks_refused {c : Tracker.Cfg} : ∀ {l : List (Nat × Bool)} {is : List Int}, (asks objs c l is).all (fun q => q.answer.ok) = false →
    granted (asks objs c l is) = (l.take ((asks objs c l is).length - 1)).map (shown c) := by
  intro l
  induction l with
  | nil => intro is h; simp [asks] at h
  | cons x xs ih =>
    intro is h
    simp only [asks] at h ⊢
    by_cases hq : (ask objs c x (is.headD 0)).answer.ok = true
    · rw [if_pos hq] at h ⊢
      simp only [List.all_cons, hq, Bool.true_and] at h
      have := ih h
      have hne : (asks objs c xs is.tail) ≠ [] := by
        intro e; rw [e] at h; simp at h
      obtain ⟨n, hn⟩ : ∃ n, (asks objs c xs is.tail).length = n + 1 :=
        ⟨_, (Nat.succ_pred_eq_of_pos (List.length_pos_iff.2 hne)).symm⟩
      rw [hn] at this
      simp only [granted, List.filter_cons, hq, if_true, List.map_cons, List.length_cons, hn, Nat.add_sub_cancel, List.take_succ_cons] at this ⊢
      rw [this]
      rfl
    · rw [if_neg hq]
      simp only [Bool.not_eq_true] at hq
      simp only [granted, List.filter_cons, hq, Bool.false_eq_true, if_false, List.filter_nil, List.map_nil, List.length_singleton, Nat.sub_self,
        List.take_zero]

/-- A refusal is the last call of its action. -/
theorem asks_last {c : Tracker.Cfg} : ∀ {l : List (Nat × Bool)} {is : List Int} {q : Ask}, q ∈ (asks objs c l is).dropLast → q.answer.ok = true := by
  intro l
  induction l with
  | nil => intro is q h; simp [asks] at h
  | cons x xs ih =>
    intro is q h
    simp only [asks] at h
    by_cases hq : (ask objs c x (is.headD 0)).answer.ok = true
    · rw [if_pos hq] at h
      cases hc : asks objs c xs is.tail with
      | nil => rw [hc] at h; simp at h
      | cons y ys =>
        rw [hc, List.dropLast_cons_of_ne_nil (by simp)] at h
        rcases List.mem_cons.1 h with rfl | h
        · exact hq
        · rw [← hc] at h; exact ih h
    · rw [if_neg hq] at h; simp at h

theorem mem_asks {c : Tracker.Cfg} : ∀ {l : List (Nat × Bool)} {is : List Int} {q : Ask}, q ∈ asks objs c l is →
    ∃ x ∈ l, ∃ i, q = ask objs c x i := by
  intro l
  induction l with
  | nil => intro is q h; simp [asks] at h
  | cons x xs ih =>
    intro is q h
    simp only [asks] at h
    split at h
    · rcases List.mem_cons.1 h with rfl | h
      · exact ⟨x, by simp, _, rfl⟩
      · obtain ⟨y, h1, h2⟩ := ih h
        exact ⟨y, List.mem_cons_of_mem _ h1, h2⟩
    · simp only [List.mem_singleton] at h
      exact ⟨x, by simp, _, h⟩

/-- The calls of postambles in one action are those for the finishes it closes. -/
theorem new_calls {c : Tracker.Cfg} {s s' : Tracker.State} {a : Tracker.Act} (hs : Tracker.step c s a = .ok s') :
    s'.postambles = s.postambles ++ s'.postambles.drop s.postambles.length := by
  rcases Tracker.step_post hs with ⟨_, l, _, h, _⟩ | ⟨_, x, _, _, h⟩ <;> (rw [h]; simp)

theorem decide_asI32 (st : Tracker.ExitStatus) : decide (st.asI32 = 0) = st.isSuccess := by
  rw [← Tracker.asI32_eq]; rfl

/-- The finishes an `execute` has recorded are among those it asked about. -/
theorem run_recorded {c : Tracker.Cfg} {lf : LogFile} {now : Int} {st : Tracker.State} (hg : Tracker.Good c)
    (hr : Tracker.Reachable c lf now st) : List.Sublist (recorded (Tracker.newEntries lf st)) (st.postambles.map (shown c)) := by
  obtain ⟨_, hh⟩ := hr.inv hg
  obtain ⟨_, _, hnew⟩ := hh.log.new_eq
  obtain ⟨as, hru⟩ := hr
  rw [recorded_eq, hnew.fin, Tracker.postambles_eq hru]
  simp only [Tracker.postOf, List.map_map]
  have : ((fun x : String × Int => (x.1, decide (x.2 = 0))) ∘ fun x : Nat × Tracker.ExitStatus => ((Tracker.cmdOf c.g x.1).key, x.2.asI32)) =
      (shown c ∘ fun x : Nat × Tracker.ExitStatus => (x.1, x.2.isSuccess)) := by
    funext x
    simp [shown, Tracker.keyOf, decide_asI32]
  rw [this]
  exact List.Sublist.map _ List.filter_sublist

/-- When nothing is being sent, exactly those. -/
theorem run_recorded_eq {c : Tracker.Cfg} {lf : LogFile} {now : Int} {st : Tracker.State} (hg : Tracker.Good c)
    (hr : Tracker.Reachable c lf now st) (he : Tracker.curOf st.pc = none) :
    recorded (Tracker.newEntries lf st) = st.postambles.map (shown c) := by
  have hf := Tracker.finList_closed hg hr he
  obtain ⟨as, hru⟩ := hr
  rw [recorded_eq, hf, Tracker.postambles_eq hru]
  simp only [Tracker.postOf, List.map_map]
  congr 1
  funext x
  simp [shown, decide_asI32]

/-- The finishes one `drain` records, in the order in which it asks. -/
theorem drain_recorded {c : Tracker.Cfg} {lf : LogFile} {now : Int} {st st' : Tracker.State} (hg : Tracker.Good c)
    (hr : Tracker.Reachable c lf now st) {o : List Nat} {t : SysTime} (hd : Tracker.disciplined st (.drain o t) = true)
    (hs : Tracker.step c st (.drain o t) = .ok st') :
    recorded (st'.lf.entries.drop st.lf.entries.length) = (st'.postambles.drop st.postambles.length).map (shown c) := by
  have hr' : Tracker.Reachable c lf now st' := runs_snoc hr hd hs
  have hpc : st.pc = .joined ∧ st'.pc = .done := by
    simp only [Tracker.step] at hs
    split at hs
    · cases hs
    · rename_i hp
      refine ⟨by simpa using hp, ?_⟩
      unfold Tracker.drain at hs
      obtain ⟨x, _, hs⟩ := Res.bind_ok.1 hs
      split at hs
      · cases hs
      · obtain ⟨y, _, hs⟩ := Res.bind_ok.1 hs
        simp only [Res.ok.injEq] at hs
        subst hs
        rfl
  have e1 := run_recorded_eq hg hr (by rw [hpc.1]; rfl)
  have e2 := run_recorded_eq hg hr' (by rw [hpc.2]; rfl)
  obtain ⟨_, b1, _⟩ := appended hg hr
  obtain ⟨_, b2, _⟩ := appended hg hr'
  obtain ⟨new, hn⟩ := Tracker.step_entries hs
  have hdrop : st'.lf.entries.drop st.lf.entries.length = new := by rw [hn]; simp
  have h3 : Tracker.newEntries lf st' = Tracker.newEntries lf st ++ new := by
    apply List.append_cancel_left (as := lf.entries)
    rw [← b2, hn, b1, List.append_assoc]
  rw [h3, recorded_append, e1, new_calls hs, List.map_append] at e2
  rw [hdrop]
  exact List.append_cancel_left e2

/-- Invariant. -/
structure HInv (s : State) : Prop where
  inv : WInv s.w
  file : List.Sublist (recorded s.w.file) (granted s.asked)
  sess : ∀ se, s.w.sess = some se → ∃ base cur, s.asked = base ++ cur ∧ List.Sublist (recorded se.g.logfile.entries) (granted base) ∧
    ∀ r, se.run = some r → granted cur = r.st.postambles.map (shown r.cfg)

theorem hinv_init : HInv init := ⟨World.winv_init, by simp [init, World.init, recorded], by simp [init, World.init]⟩

theorem HInv.log {s : State} (h : HInv s) : List.Sublist (recorded s.w.log) (granted s.asked) := by
  unfold World.World.log
  cases hs : s.w.sess with
  | none => exact h.file
  | some se =>
    obtain ⟨base, cur, e, h1, h2⟩ := h.sess se hs
    simp only
    cases hr : se.run with
    | none =>
      simp only
      rw [e, granted_append]
      exact h1.trans (List.sublist_append_left _ _)
    | some r =>
      simp only
      have hR := (h.inv.sess se hs).run r hr
      rw [(appended hR.good hR.reach).2.1, recorded_append, e, granted_append, h2 r hr]
      exact h1.append (run_recorded hR.good hR.reach)

theorem HInv.none {s : State} (h : HInv s) {w : World} (hw : WInv w) (hf : w.file = s.w.file) {qs : List Ask}
    (hs : ∀ se, w.sess = some se → (∀ r, se.run = some r → r.st.postambles = []) ∧
      List.Sublist (recorded se.g.logfile.entries) (granted (s.asked ++ qs))) : HInv ⟨w, s.asked ++ qs⟩ := by
  refine ⟨hw, ?_, ?_⟩
  · simp only [hf, granted_append]; exact h.file.trans (List.sublist_append_left _ _)
  · intro se hse
    obtain ⟨h1, h2⟩ := hs se hse
    exact ⟨s.asked ++ qs, [], by simp, h2, fun r hr => by rw [h1 r hr]; rfl⟩

theorem hinv_world {s : State} (h : HInv s) {a : World.Act} (ha : ∀ b, a ≠ .trk b) {w : World} (hs : World.step s.w a = .ok w) :
    HInv { s with w := w } := by
  have hw := World.winv_step h.inv hs
  have hl := h.log
  have fresh := fun (hf : w.file = s.w.file) hs' => by
    have := h.none (qs := []) hw hf hs'
    simpa using this
  cases a with
  | trk b => exact absurd rfl (ha b)
  | «open» dir roots newKey info =>
    unfold World.step at hs
    cases hse : s.w.sess with
    | some se => simp [hse] at hs
    | none =>
      simp only [hse] at hs
      cases hp : pyNew s.w.file dir roots newKey info with
      | err e => rw [hp] at hs; cases hs
      | panic m => rw [hp] at hs; cases hs
      | ok g =>
        rw [hp] at hs
        simp only [Res.ok.injEq] at hs
        subst hs
        refine fresh rfl ?_
        intro se hs'
        simp only [Option.some.injEq] at hs'
        subst hs'
        refine ⟨fun r hr => by simp at hr, ?_⟩
        obtain ⟨lf, hd, h1, h2, _⟩ := Log.new_appends_header hp
        have he : g.logfile.entries = s.w.file ++ [.header hd] := by
          rw [(Log.writeAll_entries _ _ _ h2).1, (open_ok_iff.1 h1).2.1]
        simp only [he, recorded_append, List.append_nil]
        rw [recorded_none (es := [LogEntry.header hd]) (by simp), List.append_nil]
        exact h.file
  | add cmd deps =>
    unfold World.step at hs
    cases hse : s.w.sess with
    | none => simp [hse] at hs
    | some se =>
      simp only [hse] at hs
      split at hs
      · cases hs
      rename_i hrn
      split at hs
      · cases hs
      split at hs
      · rename_i r hp
        simp only [Res.ok.injEq] at hs
        subst hs
        have hlf : r.2.logfile = se.g.logfile := by
          unfold pyAddTask at hp
          obtain ⟨x, _, hp⟩ := Res.bind_ok.1 hp
          simp only [Res.ok.injEq] at hp
          subst hp
          exact (addTask_facts (h.inv.sess se hse).reach _ _).1
        have hrun : se.run = none := by cases hx : se.run <;> simp [hx] at hrn ⊢
        refine fresh rfl ?_
        intro s' hs'
        simp only [Option.some.injEq] at hs'
        subst hs'
        refine ⟨fun r hr => by simp [hrun] at hr, ?_⟩
        simp only [hlf, List.append_nil]
        have : s.w.log = se.g.logfile.entries := by simp [World.World.log, hse, hrun]
        rw [this] at hl
        exact hl
      · cases hs
      · cases hs
  | exec target rerun fizzles ch now =>
    obtain ⟨se, s1, lf', c', e1, e2, e3, e4, e5, e6, e7, e8, e9, e10, e11⟩ := exec_cases hs
    refine fresh e4 ?_
    intro s' hs'
    rw [e3] at hs'
    cases hs'
    refine ⟨?_, ?_⟩
    · intro r hr
      rcases e11 with ⟨k, _⟩ | ⟨c, k, _⟩
      · rw [k] at hr; cases hr
      · rw [k] at hr
        simp only [Option.some.injEq] at hr
        subst hr
        rfl
    · rw [e8]
      simp only [e7, recorded_append, List.append_nil]
      rw [recorded_none (es := ch.reuseOrder.map (fun k => LogEntry.backref ⟨k⟩)) (by simp), List.append_nil, ← e5]
      exact hl
  | finish =>
    unfold World.step at hs
    cases hse : s.w.sess with
    | none => simp [hse] at hs
    | some se =>
      simp only [hse] at hs
      cases hrun : se.run with
      | none => simp [hrun] at hs
      | some r =>
        simp only [hrun] at hs
        split at hs
        · cases hs
        simp only [Res.ok.injEq] at hs
        subst hs
        have hlog : s.w.log = r.st.lf.entries := by simp [World.World.log, hse, hrun]
        refine fresh rfl ?_
        intro s' hs'
        simp only [endExec, Option.some.injEq] at hs'
        subst hs'
        rw [hlog] at hl
        refine ⟨fun r hr => by simp at hr, ?_⟩
        simpa using hl
  | stop keep =>
    unfold World.step at hs
    cases hse : s.w.sess with
    | none => simp [hse] at hs
    | some se =>
      simp only [hse] at hs
      split at hs
      · simp only [Res.ok.injEq] at hs
        subst hs
        exact ⟨hw, (recorded_take _ _).sublist.trans hl, by simp⟩
      · cases hs

/-- What an action of the scheduler does. -/
theorem trk_cases {s s' : State} {a : Tracker.Act} {is : List Int} {k : Nat} (hs : step objs s (.trk a is k) = .ok s') :
    ∃ se r st, s.w.sess = some se ∧ se.run = some r ∧ Tracker.step r.cfg r.st a = .ok st ∧ Tracker.disciplined r.st a = true ∧
      s'.asked = s.asked ++ asks objs r.cfg (st.postambles.drop r.st.postambles.length) is ∧
      ((asks objs r.cfg (st.postambles.drop r.st.postambles.length) is).all (fun q => q.answer.ok) = true ∧
        World.step s.w (.trk a) = .ok s'.w ∧ s'.w = { s.w with sess := some { se with run := some { r with st := st } } } ∨
       (asks objs r.cfg (st.postambles.drop r.st.postambles.length) is).all (fun q => q.answer.ok) = false ∧
        cutOk a (st.lf.entries.drop r.st.lf.entries.length) ((asks objs r.cfg (st.postambles.drop r.st.postambles.length) is).length - 1) k = true ∧
        Abort.step s.w (.panics (some (a, k))) = .ok s'.w ∧
        ∃ lf, s'.w = { s.w with sess := some { se with g := { se.g with logfile := lf }, run := none } } ∧
          lf.entries = r.st.lf.entries ++ (st.lf.entries.drop r.st.lf.entries.length).take k) := by
  simp only [step] at hs
  cases hse : s.w.sess with
  | none => simp [hse] at hs
  | some se =>
    cases hrun : se.run with
    | none => simp [hse, hrun] at hs
    | some r =>
      simp only [hse, hrun, Option.bind_some] at hs
      cases hst : Tracker.step r.cfg r.st a with
      | err e => simp [hst] at hs
      | panic m => simp [hst] at hs
      | ok st =>
        simp only [hst] at hs
        cases hd : Tracker.disciplined r.st a with
        | false =>
          split at hs
          · simp [World.step, hse, hrun, hd, Res.bind] at hs
          · split at hs
            · simp [Abort.step, Abort.cutStep, hse, hrun, hd, Res.bind] at hs
            · cases hs
        | true =>
          refine ⟨se, r, st, rfl, hrun, hst, hd, ?_⟩
          split at hs
          · rename_i hall
            obtain ⟨w, hw, hs⟩ := Res.bind_ok.1 hs
            simp only [Res.ok.injEq] at hs
            subst hs
            refine ⟨rfl, .inl ⟨hall, hw, ?_⟩⟩
            simp only [World.step, hse, hrun, hd, hst, Bool.true_eq_false, if_false, Res.bind, Res.ok.injEq] at hw
            exact hw.symm
          · rename_i hall
            split at hs
            · rename_i hc
              obtain ⟨w, hw, hs⟩ := Res.bind_ok.1 hs
              simp only [Res.ok.injEq] at hs
              subst hs
              refine ⟨rfl, .inr ⟨by simpa using hall, hc, hw, ?_⟩⟩
              simp only [Abort.step, Abort.cutStep, hse, hrun, hd, hst, Bool.true_eq_false, if_false] at hw
              obtain ⟨lf, hlf, hw⟩ := Res.bind_ok.1 hw
              simp only [Res.ok.injEq] at hw
              split at hlf
              · rename_i lf' hwr
                simp only [Res.ok.injEq] at hlf
                subst hlf
                exact ⟨_, hw.symm, (Log.writeAll_entries _ _ _ hwr).1⟩
              · cases hlf
            · cases hs

theorem hinv_step {s s' : State} (h : HInv s) {a : Act} (hs : step objs s a = .ok s') : HInv s' := by
  cases a with
  | world a =>
    cases a with
    | trk b => simp [step] at hs
    | _ =>
      simp only [step] at hs
      obtain ⟨w, hw, hs⟩ := Res.bind_ok.1 hs
      simp only [Res.ok.injEq] at hs
      subst hs
      exact hinv_world h (by simp) hw
  | trk a is k =>
    obtain ⟨se, r, st, hse, hrun, hst, hd, hq, hc⟩ := trk_cases hs
    have hR := (h.inv.sess se hse).run r hrun
    have hl := h.log
    have hlog : s.w.log = r.st.lf.entries := by simp [World.World.log, hse, hrun]
    obtain ⟨w', asked'⟩ := s'
    simp only at hq hc
    subst hq
    rcases hc with ⟨hall, hw, e⟩ | ⟨hall, hcut, hw, lf, e, hent⟩
    · refine ⟨World.winv_step h.inv hw, ?_, ?_⟩
      · simp only [e, granted_append]; exact h.file.trans (List.sublist_append_left _ _)
      · intro se' hse'
        rw [e] at hse'
        simp only [Option.some.injEq] at hse'
        subst hse'
        obtain ⟨base, cur, b1, b2, b3⟩ := h.sess se hse
        refine ⟨base, cur ++ asks objs r.cfg (st.postambles.drop r.st.postambles.length) is, by rw [b1, List.append_assoc], b2, ?_⟩
        intro r' hr'
        simp only [Option.some.injEq] at hr'
        subst hr'
        rw [granted_append, b3 r hrun, asks_ok hall, ← List.map_append, ← new_calls hst]
    · refine h.none (Abort.winv_step h.inv hw) (by rw [e]) ?_
      intro se' hse'
      rw [e] at hse'
      simp only [Option.some.injEq] at hse'
      subst hse'
      refine ⟨fun r hr => by simp at hr, ?_⟩
      simp only [hent, recorded_append, granted_append]
      rw [hlog] at hl
      refine hl.append ?_
      rw [asks_refused hall]
      by_cases hdr : a.isDrain = true
      · rcases Tracker.isDrain_cases a with hf | ⟨o, t, rfl⟩
        · rw [hf] at hdr; cases hdr
        have hrec := drain_recorded hR.good hR.reach hd hst
        simp only [cutOk, beq_iff_eq] at hcut
        rw [← recorded_length] at hcut
        have hp := recorded_take (st.lf.entries.drop r.st.lf.entries.length) k
        rw [hrec] at hp
        have := List.prefix_iff_eq_take.1 hp
        rw [hcut, ← List.map_take] at this
        rw [this]
      · have : k = 0 := by
          cases a <;> simp [cutOk, Tracker.Act.isDrain] at hcut hdr ⊢ <;> exact hcut
        subst this
        simp [recorded]

theorem hinv_runs {s s' : State} {as : List Act} (hr : Runs objs s as s') (h : HInv s) : HInv s' := by
  induction hr with
  | nil => exact h
  | cons hs _ ih => exact ih (hinv_step h hs)

theorem Reachable.inv {s : State} (h : Reachable objs s) : HInv s := by
  obtain ⟨as, hr⟩ := h
  exact hinv_runs hr hinv_init

/-- The worlds are those of histories with panicking `execute` calls. -/
theorem step_abort {s s' : State} {a : Act} (hs : step objs s a = .ok s') : ∃ b, Abort.step s.w b = .ok s'.w := by
  have key : ∀ {a : World.Act} {w : World}, World.step s.w a = .ok w → ∃ b, Abort.step s.w b = .ok w := fun {a} {_} h => ⟨.world a, h⟩
  cases a with
  | world a =>
    cases a with
    | trk b => simp [step] at hs
    | _ =>
      simp only [step] at hs
      obtain ⟨w, hw, hs⟩ := Res.bind_ok.1 hs
      simp only [Res.ok.injEq] at hs
      subst hs
      exact key hw
  | trk a is k =>
    obtain ⟨_, _, _, _, _, _, _, _, hc⟩ := trk_cases hs
    rcases hc with ⟨_, hw, _⟩ | ⟨_, _, hw, _⟩
    · exact ⟨.world (.trk a), hw⟩
    · exact ⟨_, hw⟩

theorem runs_abort {s s' : State} {as : List Act} (hr : Runs objs s as s') : ∃ bs, Abort.Runs s.w bs s'.w := by
  induction hr with
  | nil => exact ⟨[], .nil _⟩
  | cons hs _ ih =>
    obtain ⟨b, hb⟩ := step_abort hs
    obtain ⟨bs, hbs⟩ := ih
    exact ⟨b :: bs, .cons hb hbs⟩

/-- Tasks whose finish is handled in an action were made ready before. -/
theorem called_made {c : Tracker.Cfg} {lf : LogFile} {now : Int} {st st' : Tracker.State} (hg : Tracker.Good c)
    (hr : Tracker.Reachable c lf now st) {a : Tracker.Act} (hd : Tracker.disciplined st a = true) (hs : Tracker.step c st a = .ok st')
    {x : Nat × Bool} (hx : x ∈ st'.postambles.drop st.postambles.length) : x.1 ∈ Tracker.owners st.flags := by
  have hr' : Tracker.Reachable c lf now st' := runs_snoc hr hd hs
  by_cases ha : ∃ i, a = .account i
  · obtain ⟨i, rfl⟩ := ha
    have : st'.postambles = st.postambles := by
      simp only [Tracker.step] at hs
      split at hs
      · cases hs
      · split at hs
        · cases hs
        · simp only [Res.ok.injEq] at hs; subst hs; rfl
    rw [this] at hx
    simp at hx
  · have ho : st'.obtained = st.obtained := by
      rw [(Tracker.step_ghosts hs).1]
      have : (Tracker.obsOf st a).filterMap Tracker.Obs.got? = [] := by
        cases a with
        | account i => exact absurd ⟨i, rfl⟩ ha
        | recvFinished o t =>
          simp only [Tracker.obsOf]
          split <;> simp [Tracker.Obs.got?]
        | _ => rfl
      rw [this, List.append_nil]
    have hm : ∃ e, (x.1, e) ∈ Tracker.closedTasks st' := by
      obtain ⟨as, hru⟩ := hr'
      have h1 : x ∈ st'.postambles := List.mem_of_mem_drop hx
      rw [Tracker.postambles_eq hru] at h1
      simp only [Tracker.postOf, List.mem_map] at h1
      obtain ⟨y, h1, h2⟩ := h1
      subst h2
      exact ⟨y.2, h1⟩
    obtain ⟨e, he⟩ := hm
    have := hr'.closed_obtained hg he
    unfold Tracker.Obtained at this
    rw [ho] at this
    exact hr.obtained_made hg this

theorem announced_append {k : String} {a b : List LogEntry} {n : Nat} (h1 : ∃ r, LogEntry.ready r ∈ b ∧ r.key = k)
    (h2 : ∀ r, LogEntry.ready r ∈ b → r.key = k → r.runcount = n) : announced k (a ++ b) = some n := by
  obtain ⟨r, h3, h4⟩ := h1
  unfold announced
  rw [List.filterMap_append]
  generalize hl : b.filterMap (fun e => match e with | .ready r => if r.key = k then some r.runcount else none | _ => none) = l
  have hmem : ∀ x ∈ l, x = n := by
    intro x hx
    rw [← hl, List.mem_filterMap] at hx
    obtain ⟨e, he, hx⟩ := hx
    cases e with
    | ready r' =>
      simp only at hx
      split at hx
      · rename_i hk
        simp only [Option.some.injEq] at hx
        rw [← hx]
        exact h2 r' he hk
      · cases hx
    | _ => simp at hx
  have hne : l ≠ [] := by
    intro e
    have : r.runcount ∈ l := by
      rw [← hl, List.mem_filterMap]
      exact ⟨_, h3, by simp [h4]⟩
    rw [e] at this
    cases this
  rw [List.getLast?_append, List.getLast?_eq_some_getLast hne]
  simp only [Option.some_or, Option.some.injEq]
  exact hmem _ (List.getLast_mem hne)

/-- The run count of a task made ready is the last one announced. -/
theorem run_announced {c : Tracker.Cfg} {lf : LogFile} {now : Int} {st : Tracker.State} (hg : Tracker.Good c)
    (hr : Tracker.Reachable c lf now st) {v : Nat} (hv : v ∈ Tracker.owners st.flags) :
    announced (Tracker.cmdOf c.g v).key st.lf.entries = some (Tracker.cmdOf c.g v).runcount := by
  obtain ⟨hi, hh⟩ := hr.inv hg
  obtain ⟨_, he, hnew⟩ := hh.log.new_eq
  rw [he]
  refine announced_append ?_ ?_
  · have : (Tracker.cmdOf c.g v).key ∈ Tracker.readyKeys (Tracker.newEntries lf st) := by
      rw [hnew.ready]; exact List.mem_map.2 ⟨v, hv, rfl⟩
    unfold Tracker.readyKeys at this
    obtain ⟨e, h1, h2⟩ := List.mem_filterMap.1 this
    cases e with
    | ready r => exact ⟨r, h1, by simpa [Tracker.readyKey?] using h2⟩
    | _ => simp [Tracker.readyKey?] at h2
  · intro r h1 h2
    obtain ⟨u, hu, k1, k2, _⟩ := hnew.rdy r h1
    have huv : u = v := hg.keyInj (hi.core.deps.lt u hu) (hi.core.deps.lt v hv) (k1.symm.trans h2)
    rw [k2, huv]

/-- What may come of asking, for a task with postamble `p`. -/
def Fitting (objs : Nat → PyObj) (p : Option Nat) (x : Answer) : Prop :=
  (p = none ∧ x = .absent) ∨ ∃ h, p = some h ∧ (if (objs h).valid then ∃ i, x = .code i else x = .invalid)

theorem ask_fitting (c : Tracker.Cfg) (x : Nat × Bool) (i : Int) : Fitting objs (Tracker.cmdOf c.g x.1).postamble (ask objs c x i).answer := by
  simp only [ask, Fitting]
  cases (Tracker.cmdOf c.g x.1).postamble with
  | none => simp
  | some h => by_cases hv : (objs h).valid = true <;> simp [hv]

/-- Tasks with key `k` have a postamble in `G`, and were asked about accordingly. -/
structure KInv (objs : Nat → PyObj) (k : String) (G : Option Nat → Prop) (s : State) : Prop where
  nodes : ∀ x ∈ s.w.tasks.nodes, x.key = k → G x.postamble
  run : ∀ r, s.w.running = some r → ∀ x ∈ r.cfg.g.nodes, x.key = k → G x.postamble
  asked : ∀ q ∈ s.asked, q.key = k → ∃ p, G p ∧ Fitting objs p q.answer

theorem kinv_world {k : String} {G : Option Nat → Prop} {s : State} (h : HInv s) (hk : KInv objs k G s) {a : World.Act} (ha : ∀ b, a ≠ .trk b)
    (hadd : ∀ cmd deps, a = .add cmd deps → cmd.key = k → G cmd.postamble) {w : World} (hs : World.step s.w a = .ok w) :
    KInv objs k G { s with w := w } := by
  have hw := World.winv_step h.inv hs
  have fresh : (∀ x ∈ w.tasks.nodes, x.key = k → G x.postamble) → KInv objs k G { s with w := w } := by
    intro hn
    refine ⟨hn, ?_, hk.asked⟩
    intro r hr x hx
    simp only at hr
    unfold World.World.running at hr
    cases hse : w.sess with
    | none => rw [hse] at hr; cases hr
    | some se =>
      rw [hse] at hr
      have := ((hw.sess se hse).run r hr).src x hx
      exact hn x (by simpa [World.World.tasks, hse] using this)
  refine fresh ?_
  cases a with
  | trk b => exact absurd rfl (ha b)
  | «open» dir roots newKey info =>
    unfold World.step at hs
    cases hse : s.w.sess with
    | some se => simp [hse] at hs
    | none =>
      simp only [hse] at hs
      cases hp : pyNew s.w.file dir roots newKey info with
      | err e => rw [hp] at hs; cases hs
      | panic m => rw [hp] at hs; cases hs
      | ok g =>
        rw [hp] at hs
        simp only [Res.ok.injEq] at hs
        subst hs
        obtain ⟨lf, hd, h1, h2, h3, _⟩ := Log.new_appends_header hp
        intro x hx
        simp only [World.World.tasks] at hx
        rw [h3] at hx
        simp [ExecGraph.new, DiGraph.empty] at hx
  | add cmd deps =>
    unfold World.step at hs
    cases hse : s.w.sess with
    | none => simp [hse] at hs
    | some se =>
      simp only [hse] at hs
      split at hs
      · cases hs
      split at hs
      · cases hs
      split at hs
      · rename_i r hp
        simp only [Res.ok.injEq] at hs
        subst hs
        intro x hx hxk
        simp only [World.World.tasks] at hx
        have hold : ∀ y ∈ se.g.deps.nodes, y.key = k → G y.postamble := fun y hy => hk.nodes y (by simpa [World.World.tasks, hse] using hy)
        unfold pyAddTask at hp
        obtain ⟨z, _, hp⟩ := Res.bind_ok.1 hp
        simp only [Res.ok.injEq] at hp
        subst hp
        rcases (addTask_facts (h.inv.sess se hse).reach { cmd with runcount := z.1, priority := 0 } deps).2.2 with e | ⟨e, _⟩
        · rw [e] at hx; exact hold x hx hxk
        · rw [e] at hx
          rcases List.mem_append.1 hx with hx | hx
          · exact hold x hx hxk
          · simp only [List.mem_singleton] at hx
            subst hx
            exact hadd cmd deps rfl hxk
      · cases hs
      · cases hs
  | exec target rerun fizzles ch now =>
    obtain ⟨se, s1, lf', c', e1, e2, e3, e4, e5, e6, e7, e8, e9, e10, e11⟩ := exec_cases hs
    intro x hx hxk
    simp only [World.World.tasks, e3, e8] at hx
    simp only [Selection.prioritised, withPriorities, List.mem_mapIdx] at hx
    obtain ⟨i, hi, rfl⟩ := hx
    have hm : se.g.deps.nodes[i] ∈ s.w.tasks.nodes := by simp [World.World.tasks, e1]
    exact hk.nodes se.g.deps.nodes[i] hm hxk
  | finish =>
    unfold World.step at hs
    cases hse : s.w.sess with
    | none => simp [hse] at hs
    | some se =>
      simp only [hse] at hs
      cases hrun : se.run with
      | none => simp [hrun] at hs
      | some r =>
        simp only [hrun] at hs
        split at hs
        · cases hs
        simp only [Res.ok.injEq] at hs
        subst hs
        intro x hx
        exact hk.nodes x (by simpa [World.World.tasks, hse, endExec] using hx)
  | stop keep =>
    unfold World.step at hs
    cases hse : s.w.sess with
    | none => simp [hse] at hs
    | some se =>
      simp only [hse] at hs
      split at hs
      · simp only [Res.ok.injEq] at hs
        subst hs
        intro x hx
        simp [World.World.tasks, DiGraph.empty] at hx
      · cases hs

theorem kinv_step {k : String} {G : Option Nat → Prop} {s s' : State} (h : HInv s) (hk : KInv objs k G s) {a : Act}
    (hadd : ∀ cmd deps, a = .world (.add cmd deps) → cmd.key = k → G cmd.postamble) (hs : step objs s a = .ok s') : KInv objs k G s' := by
  cases a with
  | world a =>
    have hnt : ∀ b, a ≠ .trk b := by
      rintro b rfl
      simp [step] at hs
    have : ∃ w, World.step s.w a = .ok w ∧ s' = { s with w := w } := by
      cases a with
      | trk b => exact absurd rfl (hnt b)
      | _ =>
        simp only [step] at hs
        obtain ⟨w, hw, hs⟩ := Res.bind_ok.1 hs
        simp only [Res.ok.injEq] at hs
        exact ⟨w, hw, hs.symm⟩
    obtain ⟨w, hw, rfl⟩ := this
    exact kinv_world h hk hnt (fun cmd deps e => hadd cmd deps (by rw [e])) hw
  | trk a is n =>
    obtain ⟨se, r, st, hse, hrun, hst, hd, hq, hc⟩ := trk_cases hs
    have hR := (h.inv.sess se hse).run r hrun
    have hrn : s.w.running = some r := by simp [World.World.running, hse, hrun]
    have hnodes : ∀ x ∈ se.g.deps.nodes, x.key = k → G x.postamble := fun x hx => hk.nodes x (by simpa [World.World.tasks, hse] using hx)
    have hasked : ∀ q ∈ s'.asked, q.key = k → ∃ p, G p ∧ Fitting objs p q.answer := by
      intro q hmq hqk
      rw [hq] at hmq
      rcases List.mem_append.1 hmq with h1 | h1
      · exact hk.asked q h1 hqk
      · obtain ⟨x, hx, i, rfl⟩ := mem_asks h1
        have hm := called_made hR.good hR.reach hd hst hx
        have hlt := (hR.reach.inv hR.good).1.core.deps.lt _ hm
        refine ⟨(Tracker.cmdOf r.cfg.g x.1).postamble, ?_, ask_fitting _ _ _⟩
        have hmem : Tracker.cmdOf r.cfg.g x.1 ∈ r.cfg.g.nodes := by
          have hlt' : x.1 < r.cfg.g.nodes.length := hlt
          simp [Tracker.cmdOf, hlt']
        exact hk.run r hrn _ hmem hqk
    rcases hc with ⟨_, _, e⟩ | ⟨_, _, _, lf, e, _⟩
    · refine ⟨?_, ?_, hasked⟩
      · rw [e]; exact hnodes
      · intro r' hr'
        simp only [e, World.World.running, Option.bind_some, Option.some.injEq] at hr'
        subst hr'
        exact hk.run r hrn
    · refine ⟨?_, ?_, hasked⟩
      · rw [e]; exact hnodes
      · intro r' hr'
        simp only [e, World.World.running, Option.bind_some] at hr'
        cases hr'

theorem kinv_runs {k : String} {G : Option Nat → Prop} {s s' : State} {as : List Act} (hr : Runs objs s as s') (h : HInv s) (hk : KInv objs k G s)
    (hadd : ∀ cmd deps, Act.world (.add cmd deps) ∈ as → cmd.key = k → G cmd.postamble) : KInv objs k G s' := by
  induction hr with
  | nil => exact hk
  | cons hs _ ih =>
    exact ih (hinv_step h hs) (kinv_step h hk (fun cmd deps e => hadd cmd deps (by rw [e]; simp)) hs)
      (fun cmd deps hm => hadd cmd deps (List.mem_cons_of_mem _ hm))

theorem kinv_init {k : String} {G : Option Nat → Prop} : KInv objs k G init :=
  ⟨by simp [init, World.init, World.World.tasks, DiGraph.empty], by simp [init, World.init, World.World.running], by simp [init]⟩

end Verif.Hooks
