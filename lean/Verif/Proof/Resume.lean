import Verif.Spec.Resume
import Verif.Proof.Complete
import Verif.Proof.Program2

/-!
# Resuming interrupted work (proofs)
-/

namespace Verif.World
open Verif Verif.Props Verif.Spec

variable {D : String → String → Prop} {B : Does} {w w' : World}

/-- Every success is preceded by successes of what the task depends on. -/
def Closed (D : String → String → Prop) (es : List LogEntry) : Prop :=
  ∀ pre f post, es = pre ++ .finished f :: post → f.status = 0 → ∀ k, D k f.key → SuccessLogged pre k

theorem Closed.prefix {a b : List LogEntry} (h : Closed D (a ++ b)) : Closed D a := by
  intro pre f post e hf
  exact h pre f (post ++ b) (by rw [e]; simp) hf

theorem Closed.take {a : List LogEntry} (h : Closed D a) (n : Nat) : Closed D (a.take n) := by
  rw [← List.take_append_drop n a] at h
  exact h.prefix

theorem Closed.other {a b : List LogEntry} (h : Closed D a) (ho : ∀ f, LogEntry.finished f ∉ b) : Closed D (a ++ b) := by
  intro pre f post e hf
  rcases List.append_eq_append_iff.1 e with ⟨x, h1, h2⟩ | ⟨x, h1, h2⟩
  · exact absurd (by rw [h2]; simp) (ho f)
  · cases x with
    | nil =>
      simp only [List.nil_append] at h2
      exact absurd (by rw [← h2]; simp) (ho f)
    | cons y x =>
      simp only [List.cons_append, List.cons.injEq] at h2
      obtain ⟨rfl, _⟩ := h2
      exact h pre f x h1 hf

/-- In a closed log, everything a successful task transitively depends on has a success. -/
theorem Closed.success {es : List LogEntry} (h : Closed D es) {k k' : String} (hs : SuccessLogged es k) (hd : D k' k) :
    SuccessLogged es k' := by
  obtain ⟨f, h1, h2, h3⟩ := hs
  obtain ⟨pre, post, e⟩ := List.append_of_mem h1
  obtain ⟨f', g1, g2⟩ := h pre f post e h3 k' (by rw [h2]; exact hd)
  exact ⟨f', by rw [e]; exact List.mem_append_left _ g1, g2⟩

theorem split_entry {α : Type} {a b pre post : List α} {x : α} (e : a ++ b = pre ++ x :: post) :
    (∃ y, a = pre ++ x :: y) ∨ ∃ b1, pre = a ++ b1 ∧ b = b1 ++ x :: post := by
  rcases List.append_eq_append_iff.1 e with ⟨b1, h3, h4⟩ | ⟨y, h3, h4⟩
  · exact .inr ⟨b1, h3, h4⟩
  · cases y with
    | nil => exact .inr ⟨[], by simpa using h3.symm, by simpa using h4.symm⟩
    | cons z y =>
      simp only [List.cons_append, List.cons.injEq] at h4
      obtain ⟨rfl, _⟩ := h4
      exact .inl ⟨y, h3⟩

theorem closed_run {file : List LogEntry} {s : Sess} {multi : Bool} {r : Running} (hI : SessInv file multi s) (hR : RunInv s multi r)
    (hex : s.executes ≤ 1) (hfit : Fits D s.g.deps) (hc : Closed D s.g.logfile.entries) : Closed D r.st.lf.entries := by
  obtain ⟨_, h2, _⟩ := appended hR.good hR.reach
  have hprot := (hR.log hI).1.protocol
  obtain ⟨hi, hh⟩ := hR.reach.inv hR.good
  obtain ⟨_, _, hnew⟩ := hh.log.new_eq
  rw [h2] at hprot ⊢
  generalize Tracker.newEntries s.g.logfile r.st = new at *
  intro pre f post e hf k hk
  rcases split_entry e with ⟨x, h3⟩ | ⟨new1, rfl, rfl⟩
  · exact hc pre f x h3 hf k hk
  · obtain ⟨j, rr, hj, hrj, hrk⟩ := hnew.after new1.length (.finished f) f.key (by simp) (by simp [Tracker.closerOf])
    rw [List.getElem?_append_left hj] at hrj
    obtain ⟨v, hv, hvk, _⟩ := hnew.rdy rr (List.mem_append_left _ (List.mem_of_getElem? hrj))
    have hlt := hi.core.deps.lt v hv
    have hnode := Tracker.node_of_lt hlt
    -- the Started entry
    obtain ⟨p, hp1, hp2⟩ := (hprot f.key (history f.key (s.g.logfile.entries ++ new1)) (.finished f) (history f.key post)
      (by simp [history, about])).2 rfl
    have hne : history f.key new1 ≠ [] := by
      intro h0
      have : LogEntry.ready rr ∈ history f.key new1 := by
        unfold history
        rw [List.mem_filter]
        exact ⟨List.mem_of_getElem? hrj, by simp [about, hrk]⟩
      rw [h0] at this
      cases this
    have hp3 : p ∈ history f.key new1 := by
      have : history f.key (s.g.logfile.entries ++ new1) = history f.key s.g.logfile.entries ++ history f.key new1 := by simp [history]
      rw [this, List.getLast?_append_of_ne_nil _ hne] at hp1
      exact List.mem_of_getLast? hp1
    unfold history at hp3
    rw [List.mem_filter] at hp3
    cases p with
    | started se =>
      have hse : se.key = f.key := by simpa [about] using hp3.2
      obtain ⟨i', hi', hie⟩ := List.getElem_of_mem hp3.1
      have hst : (new1 ++ LogEntry.finished f :: post)[i']? = some (.started se) := by
        rw [List.getElem?_append_left hi', List.getElem?_eq_getElem hi', hie]
      -- the dependency
      obtain ⟨i, hi0, hik⟩ := List.getElem_of_mem (hR.src _ (List.mem_of_getElem? hnode))
      have hik' : s.g.deps.nodes[i]? = some (Tracker.cmdOf r.cfg.g v) := by rw [List.getElem?_eq_getElem hi0, hik]
      have hkey : (Tracker.cmdOf r.cfg.g v).key = f.key := by rw [← hvk, hrk]
      rw [← hkey] at hk
      obtain ⟨jj, cj, hd, hjn, rfl⟩ := (hfit i _ hik' k).1 hk
      rcases hR.deps v _ hnode i _ hik' rfl jj cj hd hjn with ⟨u, cu, hu, hun, huk⟩ | hs | hcmp
      · obtain ⟨j', f', hj', hf', hfk, hf0⟩ := hnew.start i' se hst v u hu (by rw [hse, hkey])
        refine ⟨f', ?_, ?_, hf0⟩
        · rw [List.getElem?_append_left (by omega)] at hf'
          exact List.mem_append_right _ (List.mem_of_getElem? hf')
        · rw [hfk, ← huk]
          simp [Tracker.cmdOf, hun]
      · obtain ⟨f', g1, g2⟩ := (hasSuccess_iff hI.cons hI.log.norerun _).1 hs
        exact ⟨f', List.mem_append_left _ g1, g2⟩
      · rw [hR.first hex] at hcmp
        cases hcmp
    | _ => simp [isStarted] at hp2

/-- Invariant: the file and the log at the last `execute` are closed. -/
structure CInv (D : String → String → Prop) (w : World) : Prop where
  file : Closed D w.file
  sess : ∀ s, w.sess = some s → Closed D s.g.logfile.entries

theorem CInv.log (hw : WInv w) (hex : w.executes ≤ 1) (hfit : Fits D w.tasks) (h : CInv D w) : Closed D w.log := by
  unfold World.log
  cases hs : w.sess with
  | none => exact h.file
  | some s =>
    simp only
    cases hr : s.run with
    | none => exact h.sess s hs
    | some r =>
      have hI := hw.sess s hs
      exact closed_run hI (hI.run r hr) (by simpa [World.executes, hs] using hex) (by simpa [World.tasks, hs] using hfit) (h.sess s hs)

theorem CInv.step {a : Act} (hw : WInv w) (hex : w.executes ≤ 1) (hfit : Fits D w.tasks) (h : CInv D w) (hs : step w a = .ok w') :
    CInv D w' := by
  have hl := h.log hw hex hfit
  cases a with
  | «open» dir roots newKey info =>
    unfold World.step at hs
    cases hse : w.sess with
    | some s => simp [hse] at hs
    | none =>
      simp only [hse] at hs
      cases hp : pyNew w.file dir roots newKey info with
      | err e => rw [hp] at hs; cases hs
      | panic m => rw [hp] at hs; cases hs
      | ok g =>
        rw [hp] at hs
        simp only [Res.ok.injEq] at hs
        subst hs
        refine ⟨h.file, ?_⟩
        intro s hs
        simp only [Option.some.injEq] at hs
        subst hs
        obtain ⟨lf, hd, h1, h2, _⟩ := Log.new_appends_header hp
        have he : g.logfile.entries = w.file ++ [.header hd] := by
          rw [(Log.writeAll_entries _ _ _ h2).1, (open_ok_iff.1 h1).2.1]
        simp only [he]
        exact h.file.other (by simp)
  | add cmd deps =>
    unfold World.step at hs
    cases hse : w.sess with
    | none => simp [hse] at hs
    | some s =>
      simp only [hse] at hs
      split at hs
      · cases hs
      split at hs
      · cases hs
      split at hs
      · rename_i r hp
        simp only [Res.ok.injEq] at hs
        subst hs
        have hlf : r.2.logfile = s.g.logfile := by
          unfold pyAddTask at hp
          obtain ⟨x, _, hp⟩ := Res.bind_ok.1 hp
          simp only [Res.ok.injEq] at hp
          subst hp
          exact (addTask_facts (hw.sess s hse).reach _ _).1
        refine ⟨h.file, ?_⟩
        intro s' hs'
        simp only [Option.some.injEq] at hs'
        subst hs'
        simp only [hlf]
        exact h.sess s hse
      · cases hs
      · cases hs
  | exec target rerun fizzles ch now =>
    obtain ⟨s, s1, lf', c', e1, e2, e3, e4, e5, e6, e7, e8, e9, e10, e11⟩ := exec_cases hs
    refine ⟨by rw [e4]; exact h.file, ?_⟩
    intro s' hs'
    rw [e3] at hs'
    cases hs'
    rw [e8]
    simp only [e7]
    exact (h.sess s e1).other (by simp)
  | trk b =>
    unfold World.step at hs
    cases hse : w.sess with
    | none => simp [hse] at hs
    | some s =>
      simp only [hse] at hs
      cases hrun : s.run with
      | none => simp [hrun] at hs
      | some r =>
        simp only [hrun] at hs
        split at hs
        · cases hs
        obtain ⟨st, hb, hs⟩ := Res.bind_ok.1 hs
        simp only [Res.ok.injEq] at hs
        subst hs
        refine ⟨h.file, ?_⟩
        intro s' hs'
        simp only [Option.some.injEq] at hs'
        subst hs'
        exact h.sess s hse
  | finish =>
    unfold World.step at hs
    cases hse : w.sess with
    | none => simp [hse] at hs
    | some s =>
      simp only [hse] at hs
      cases hrun : s.run with
      | none => simp [hrun] at hs
      | some r =>
        simp only [hrun] at hs
        split at hs
        · cases hs
        simp only [Res.ok.injEq] at hs
        subst hs
        have hlog : w.log = r.st.lf.entries := by simp [World.log, hse, hrun]
        refine ⟨h.file, ?_⟩
        intro s' hs'
        simp only [endExec, Option.some.injEq] at hs'
        subst hs'
        rw [hlog] at hl
        exact hl
  | stop keep =>
    unfold World.step at hs
    cases hse : w.sess with
    | none => simp [hse] at hs
    | some s =>
      simp only [hse] at hs
      split at hs
      · simp only [Res.ok.injEq] at hs
        subst hs
        exact ⟨hl.take _, by simp⟩
      · cases hs

theorem Runs.then {as bs : List Act} {w0 w1 w2 : World} (h : Runs w0 as w1) (h' : Runs w1 bs w2) : Runs w0 (as ++ bs) w2 := by
  induction h with
  | nil => exact h'
  | cons hs _ ih => exact .cons hs (ih h')

theorem closed_inv {as : List Act} (hr : Runs init as w) (hd : SameDeps D as) (ho : OncePerSession as) : CInv D w := by
  have key : ∀ (rest pre : List Act) (w1 : World), pre ++ rest = as → Runs init pre w1 → CInv D w1 → Runs w1 rest w → CInv D w := by
    intro rest
    induction rest with
    | nil => intro pre w1 _ _ hc hr; cases hr; exact hc
    | cons a rest ih =>
      intro pre w1 e h1 hc hr
      cases hr with
      | cons hs hr =>
        have hp : pre <+: as := ⟨_, e⟩
        exact ih (pre ++ [a]) _ (by rw [← e]; simp) (h1.then (.cons hs (.nil _)))
          (hc.step (winv_runs h1 winv_init) (ho pre w1 hp h1) (hd pre w1 hp h1) hs) hr
  refine key as [] init rfl (.nil _) ⟨?_, by simp [init]⟩ hr
  intro pre f post e
  simp [init] at e

/-- **The invariant.** In such histories the log is closed. -/
theorem log_closed {as : List Act} (hr : Runs init as w) (hd : SameDeps D as) (ho : OncePerSession as) : Closed D w.log :=
  (closed_inv hr hd ho).log (winv_runs hr winv_init) (ho as w (List.prefix_refl _) hr) (hd as w (List.prefix_refl _) hr)

/-! ### One whole execute -/

theorem reports_append {as bs : List Act} {w0 w1 : World} (h : Runs w0 as w1) : reports w0 (as ++ bs) = reports w0 as ++ reports w1 bs := by
  induction h with
  | nil => rfl
  | cons hs _ ih => simp only [List.cons_append, reports, hs, ih, List.append_assoc]

theorem reports_trk {tas : List Tracker.Act} {more : List Act} {w1 w2 : World} {r : Running} (hr : Runs w1 (tas.map .trk ++ more) w2)
    (hrun : w1.running = some r) {e : Tracker.Fin} (he : Tracker.Act.sendFinished e ∈ tas) :
    (Tracker.keyOf r.cfg e.id, e.status, e.values) ∈ reports w1 (tas.map .trk ++ more) := by
  induction tas generalizing w1 r with
  | nil => cases he
  | cons b tas ih =>
    simp only [List.map_cons, List.cons_append] at hr ⊢
    cases hr with
    | @cons _ w3 _ _ _ hs hr =>
      simp only [reports, hs]
      rcases List.mem_cons.1 he with rfl | he
      · simp [hrun]
      · apply List.mem_append_right
        obtain ⟨st, h1⟩ : ∃ st, w3.running = some { r with st := st } := by
          cases hse : w1.sess with
          | none => simp [step, hse] at hs
          | some s =>
            have hrn : s.run = some r := by simpa [World.running, hse] using hrun
            simp only [step, hse, hrn] at hs
            split at hs
            · cases hs
            · obtain ⟨st, _, hs⟩ := Res.bind_ok.1 hs
              simp only [Res.ok.injEq] at hs
              subst hs
              exact ⟨st, rfl⟩
        exact ih (r := { r with st := st }) hr h1 he

theorem whole_executed {target : Option Nat} {fizzles : Nat} {tas : List Tracker.Act} {acts : List Act}
    (hx : Whole target fizzles tas acts) (hr : Runs w acts w') (hi : w'.running = none) : Executed w target true fizzles tas w' := by
  obtain ⟨ch, now, ⟨rfl, rfl⟩ | rfl⟩ := hx
  · cases hr with
    | cons hs hr => cases hr; exact ⟨ch, now, _, hs, .inl ⟨rfl, hi, rfl⟩⟩
  · cases hr with
    | cons hs hr =>
      refine ⟨ch, now, _, hs, .inr ?_⟩
      clear hs
      rename_i w1
      generalize hl : tas.map Act.trk = l at hr ⊢
      clear hl
      induction l generalizing w1 with
      | nil =>
        cases hr with
        | cons hs hr => cases hr; exact ⟨_, .nil _, hs⟩
      | cons b l ih =>
        cases hr with
        | cons hs hr =>
          obtain ⟨w2, h1, h2⟩ := ih hr
          exact ⟨w2, .cons hs h1, h2⟩

/-- The parts of a whole execute. -/
theorem whole_split {target : Option Nat} {fizzles : Nat} {tas : List Tracker.Act} {acts : List Act}
    (hx : Whole target fizzles tas acts) (hra : Runs w acts w') (hidle : w'.running = none) :
    ∃ ch now w1, step w (.exec target true fizzles ch now) = .ok w1 ∧
      (tas = [] ∧ w1.running = none ∧ w' = w1 ∨ ∃ w2, Runs w1 (tas.map .trk) w2 ∧ step w2 .finish = .ok w') ∧
      (tas = [] ∨ acts = .exec target true fizzles ch now :: (tas.map .trk ++ [.finish])) := by
  obtain ⟨ch, now, hx0⟩ := hx
  obtain ⟨ch', now', w1, a1, a2⟩ := whole_executed ⟨ch, now, hx0⟩ hra hidle
  rcases hx0 with ⟨h1, h2⟩ | h2
  · exact ⟨ch', now', w1, a1, a2, .inl h1⟩
  · rw [h2] at hra
    cases hra with
    | cons hs hr =>
      rename_i w1'
      refine ⟨ch, now, w1', hs, ?_, .inr h2⟩
      right
      clear hs a1 a2
      generalize hl : tas.map Act.trk = l at hr ⊢
      clear hl h2
      induction l generalizing w1' with
      | nil =>
        cases hr with
        | cons hs hr => cases hr; exact ⟨_, .nil _, hs⟩
      | cons b l ih =>
        cases hr with
        | cons hs hr =>
          obtain ⟨w2, h1, h2⟩ := ih hr
          exact ⟨w2, .cons hs h1, h2⟩

/-- What an execute that returned consists of. -/
theorem exec_outcome (h : WInv w) {target : Option Nat} {fizzles : Nat} {tas : List Tracker.Act} {ch : Choices} {now : Int} {w1 : World}
    (he : step w (.exec target true fizzles ch now) = .ok w1)
    (hx' : w1.running = none ∧ w' = w1 ∨ ∃ w2, Runs w1 (tas.map .trk) w2 ∧ step w2 .finish = .ok w') :
    ∃ s sub ids lf', w.sess = some s ∧ w.log = s.g.logfile.entries ∧
      sub.SubOf (Selection.prioritised s.g ch) ids ∧
      (∀ i, i ∈ ids ↔ Spec.Selected (Selection.prioritised s.g ch) s.g.completed s.g.logfile.mem target true i) ∧
      lf'.entries = w.log ++ ch.reuseOrder.map (fun k => LogEntry.backref ⟨k⟩) ∧
      (sub.nodes = [] ∧ w'.log = lf'.entries ∧ w'.result = some (0, []) ∨
        ∃ st keys, w1.running = some ⟨⟨sub, fizzles⟩, now, s.g.completed, Tracker.init ⟨sub, fizzles⟩ lf' now⟩ ∧
          Tracker.Good ⟨sub, fizzles⟩ ∧ Tracker.Ordered ⟨sub, fizzles⟩ ∧
          Tracker.Runs ⟨sub, fizzles⟩ (Tracker.init ⟨sub, fizzles⟩ lf' now) tas st ∧ st.pc = .done ∧
          w'.log = st.lf.entries ∧ w'.result = some (st.nFailed, keys)) := by
  obtain ⟨s, s1, sub, ids, lf', e1, e2, e3, e4, e5, e6, e7, e8, e9⟩ := exec_full h he
  refine ⟨s, sub, ids, lf', e1, e3, e5, e6, by rw [e3]; exact e8, ?_⟩
  have hw1 := winv_step h he
  rcases e9 with ⟨e9, e10, e11⟩ | e9
  · left
    rcases hx' with ⟨_, rfl⟩ | ⟨w2, hr, hf⟩
    · refine ⟨e9, ?_, by simp [World.result, e4, e11]⟩
      simp [World.log, e4, e10, e7]
    · exfalso
      cases tas with
      | nil => cases hr; simp [step, e4, e10] at hf
      | cons b tas =>
        simp only [List.map_cons] at hr
        cases hr with
        | cons hst _ => simp [step, e4, e10] at hst
  · right
    rcases hx' with ⟨hn, _⟩ | ⟨w2, hr, hf⟩
    · simp [World.running, e4, e9] at hn
    · have hw2 := winv_runs hr hw1
      obtain ⟨st, hrun, rfl⟩ := runs_trk_run hr e4 e9
      have hR := (hw2.sess _ rfl).run _ rfl
      simp only [step] at hf
      split at hf
      · cases hf
      rename_i hpc
      simp only [Res.ok.injEq] at hf
      subst hf
      exact ⟨st, _, by simp [World.running, e4, e9], hR.good, hR.ordered, hrun, by simpa using hpc, rfl, rfl⟩

/-! ### What is selected -/

/-- Successes in the log are true. -/
theorem logged_true {as : List Act} (hr : Runs init as w) (hb : Earlier B init as) {k : String} (hs : SuccessLogged w.log k) :
    (B k).1 = .code 0 := by
  obtain ⟨f, h1, h2, h3⟩ := hs
  have := (repInv_init.runs winv_init hr).log f h1
  rw [List.nil_append] at this
  rcases this with ⟨st, g1, g2⟩ | ⟨g, _⟩
  · have : st = .code 0 := Tracker.asI32_ne_zero.1 (by rw [← g2, h3])
    subst this
    rw [← h2, hb _ _ g1]
  · rw [h3] at g; cases g

theorem fits_dep {g : DiGraph Cmd} (hf : Fits D g) {i j : Nat} {ci cj : Cmd} (hd : g.Dep j i) (hi : g.nodes[i]? = some ci)
    (hj : g.nodes[j]? = some cj) : D cj.key ci.key := (hf i ci hi cj.key).2 ⟨j, cj, hd, hj, rfl⟩

/-- What a successful task transitively depends on has succeeded. -/
theorem logged_walk {g : DiGraph Cmd} (hwf : g.WF) (hf : Fits D g) {es : List LogEntry} (hc : Closed D es) {k u v : Nat} (h : g.Walk k u v)
    {cu cv : Cmd} (hu : g.nodes[u]? = some cu) (hv : g.nodes[v]? = some cv) (hs : SuccessLogged es cv.key) : SuccessLogged es cu.key := by
  induction h generalizing cv with
  | nil => rw [hu] at hv; cases hv; exact hs
  | @snoc k u x v _ hd ih =>
    have hx : x < g.n := (hwf _ hd).1
    have hxn := Tracker.node_of_lt hx
    exact ih hu hxn (hc.success hs (fits_dep hf hd hv hxn))

end Verif.World
