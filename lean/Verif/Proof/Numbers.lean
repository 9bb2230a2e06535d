import Verif.Spec.Numbers
import Verif.Props.Print

/-!
# Lemmas: the numbers shown in the course of a session
-/

namespace Verif.World
open Verif Verif.Spec

theorem shownNumbers_append (a b : List Print.Line) : shownNumbers (a ++ b) = shownNumbers a ++ shownNumbers b := by
  simp [shownNumbers]

/-- What `execute` does to the count of finished tasks before anything runs. -/
theorem exec_count {w w1 : World} (hi : WInv w) (hc : Print.CInv w) {target : Option Nat} {rerun : Bool} {fizzles : Nat} {ch : Choices} {now : Int}
    (h : step w (.exec target rerun fizzles ch now) = .ok w1) :
    ∃ s s1, w.sess = some s ∧ s.run = none ∧ w1.sess = some s1 ∧ s1.g.completed.length = s.g.completed.length + ch.reuseOrder.length ∧
      (s1.run = none ∨ ∃ r, s1.run = some r ∧ r.completed0 = s.g.completed ∧ r.st = Tracker.init r.cfg s1.g.logfile r.now0) := by
  obtain ⟨s, s1, lf', c', e1, e2, e3, e4, e5, e6, e7, e8, e9, e10, e11⟩ := exec_cases h
  refine ⟨s, s1, e1, e2, e3, ?_, ?_⟩
  · have hI := hi.sess s e1
    have hleg : legal s.g target rerun ch = true := by
      unfold step at h
      simp only [e1, e2, Option.isSome_none, Bool.false_or] at h
      cases hl : legal s.g target rerun ch with
      | true => rfl
      | false => simp [hl] at h
    obtain ⟨sub, g', ks, k1, k2, k3, k4, k5⟩ := Props.Selection.backrefs_exact hI.reach target rerun ch ((Bridge.legal_iff hI.reach).1 hleg)
    obtain ⟨lf2, c2, m1, _, _, m4, m5⟩ := Props.Selection.getSubgraph_ok s.g target rerun ch
    have hg' : g' = s1.g := by
      unfold step at h
      simp only [e1, e2, Option.isSome_none, Bool.false_or, hleg, Bool.not_true, Bool.false_eq_true, if_false] at h
      unfold startExec at h
      simp only [k1] at h
      split at h <;> (cases h; cases e3; rfl)
    have hks : ks = ch.reuseOrder := by
      rw [hg', e8] at k2
      simp only [e7] at k2
      have := List.append_cancel_left k2
      have inj : ∀ {a b : List String}, a.map (fun k => LogEntry.backref ⟨k⟩) = b.map (fun k => LogEntry.backref ⟨k⟩) → a = b := by
        intro a
        induction a with
        | nil => intro b h; cases b with | nil => rfl | cons => simp at h
        | cons x a ih =>
          intro b h
          cases b with
          | nil => simp at h
          | cons y b => simp only [List.map_cons, List.cons.injEq, LogEntry.backref.injEq, BackrefEntry.mk.injEq] at h; rw [h.1, ih h.2]
      exact (inj this).symm
    subst hks
    have hn1 : s1.g.completed.Nodup := ((hc.step hi h) s1 e3).1.nodup
    have hn0 : s.g.completed.Nodup := (hc s e1).1.nodup
    rw [hg'] at k4 k5
    have hn2 : (s.g.completed ++ ch.reuseOrder).Nodup := by
      rw [List.nodup_append]
      refine ⟨hn0, k3, ?_⟩
      intro a ha b hb hab
      obtain ⟨_, _, _, _, _, hno, _⟩ := (k4 b).1 hb
      exact hno (hab ▸ ha)
    have hp : s1.g.completed.Perm (s.g.completed ++ ch.reuseOrder) :=
      (List.perm_ext_iff_of_nodup hn1 hn2).2 (fun k => by rw [k5 k, List.mem_append])
    rw [hp.length_eq, List.length_append]
  · rcases e11 with ⟨e, _⟩ | ⟨c, e, _⟩
    · exact .inl e
    · exact .inr ⟨_, e, rfl, by rw [e8]⟩

theorem length_insertKeys_le : ∀ {ks l : List String}, (insertKeys l ks).length ≤ l.length + ks.length := by
  intro ks
  induction ks with
  | nil => intro l; simp [insertKeys]
  | cons k ks ih =>
    intro l
    rw [insertKeys]
    refine Nat.le_trans ih ?_
    split <;> simp <;> omega

/-- What the end of `execute` does to it. -/
theorem finish_count {w w1 : World} (hi : WInv w) (hc : Print.CInv w) (h : step w .finish = .ok w1) :
    ∃ s r s1, w.sess = some s ∧ s.run = some r ∧ w1.sess = some s1 ∧ s1.run = none ∧ s1.executes = s.executes ∧
      ((∀ k ∈ r.completed0, k ∈ s.g.completed) → r.completed0.length + r.st.processed.length ≤ s1.g.completed.length) ∧
      s1.g.completed.length ≤ s.g.completed.length + r.st.processed.length := by
  have hc1 := hc.step hi h
  unfold step at h
  cases hs : w.sess with
  | none => simp [hs] at h
  | some s =>
    cases hrun : s.run with
    | none => simp [hs, hrun] at h
    | some r =>
      simp only [hs, hrun] at h
      split at h
      · cases h
      · cases h
        have hR := (hi.sess s hs).run r hrun
        refine ⟨s, r, _, rfl, hrun, rfl, rfl, rfl, ?_, ?_⟩
        · intro hsub
          have hord := Props.Tracker.order_topological hR.good hR.reach
          have hnd : (r.completed0 ++ r.st.processed.map (fun x => Tracker.keyOf r.cfg x.1)).Nodup := by
            rw [List.nodup_append]
            refine ⟨((hc s hs).2 r hrun).nodup, hord.2.1, ?_⟩
            intro a ha b hb hab
            obtain ⟨x, hx, rfl⟩ := List.mem_map.1 hb
            have hlt := hord.2.2.1 x hx
            have hm : Tracker.cmdOf r.cfg.g x.1 ∈ r.cfg.g.nodes := by
              unfold Tracker.cmdOf
              rw [List.getElem?_eq_getElem (show x.1 < r.cfg.g.nodes.length from hlt)]
              exact List.getElem_mem _
            exact (hR.fresh _ hm).2 (by rw [hab] at ha; exact ha)
          have hss : (r.completed0 ++ r.st.processed.map (fun x => Tracker.keyOf r.cfg x.1)) ⊆
              insertKeys s.g.completed (r.st.processed.map (fun x => (Tracker.cmdOf r.cfg.g x.1).key)) := by
            intro k hk
            refine Props.World.mem_insertKeys.2 ?_
            rcases List.mem_append.1 hk with hk | hk
            · exact .inl (hsub k hk)
            · exact .inr hk
          have := (List.subperm_of_subset hnd hss).length_le
          simpa using this
        · have := length_insertKeys_le (ks := r.st.processed.map (fun x => (Tracker.cmdOf r.cfg.g x.1).key)) (l := s.g.completed)
          simpa using this

/-- A step of the scheduler. -/
theorem trk_step {w w1 : World} {a : Tracker.Act} (h : step w (.trk a) = .ok w1) :
    ∃ s r st, w.sess = some s ∧ s.run = some r ∧ Tracker.disciplined r.st a = true ∧ Tracker.step r.cfg r.st a = .ok st ∧
      w1 = { w with sess := some { s with run := some { r with st := st } } } := by
  unfold step at h
  cases hs : w.sess with
  | none => simp [hs] at h
  | some s =>
    cases hrun : s.run with
    | none => simp [hs, hrun] at h
    | some r =>
      simp only [hs, hrun] at h
      split at h
      · cases h
      · rename_i hd
        obtain ⟨st, h1, h2⟩ := Res.bind_ok.1 h
        cases h2
        exact ⟨s, r, st, rfl, hrun, by simpa using hd, h1, rfl⟩

theorem add_step {w w1 : World} (hi : WInv w) {cmd : Cmd} {deps : List Nat} (h : step w (.add cmd deps) = .ok w1) :
    ∃ s s1, w.sess = some s ∧ s.run = none ∧ w1.sess = some s1 ∧ s1.run = none ∧ s1.g.completed = s.g.completed := by
  unfold step at h
  cases hs : w.sess with
  | none => simp [hs] at h
  | some s =>
    simp only [hs] at h
    split at h
    · cases h
    · rename_i hrun
      have hrun : s.run = none := by simpa using hrun
      split at h
      · cases h
      · split at h
        · rename_i r hr
          cases h
          exact ⟨s, _, rfl, hrun, rfl, hrun, Props.World.addTask_completed (hi.sess s hs).reach hr⟩
        · cases h
        · cases h

theorem open_step {w w1 : World} {dir : String} {roots : List String} {newKey : String} {info : HeaderEntry}
    (h : step w (.open dir roots newKey info) = .ok w1) : w.sess = none ∧ ∃ s1, w1.sess = some s1 ∧ s1.run = none ∧ s1.g.completed = [] := by
  unfold step at h
  cases hs : w.sess with
  | some s => simp [hs] at h
  | none =>
    simp only [hs] at h
    cases hp : pyNew w.file dir roots newKey info with
    | err e => simp [hp] at h
    | panic m => simp [hp] at h
    | ok g =>
      simp only [hp, Res.ok.injEq] at h
      subst h
      obtain ⟨lf, hd, h1, h2, h3, _⟩ := Props.Log.new_appends_header hp
      exact ⟨rfl, _, rfl, rfl, by simp only; rw [h3]; rfl⟩

variable {out : Nat → Nat → Print.Captured}

/-- What a running `execute` has printed. -/
structure Shown (out : Nat → Nat → Print.Captured) (n : Nat) (s : Sess) (r : Running) (N0 N : List Nat) (bs : List Tracker.Act) : Prop where
  runs : Tracker.Runs r.cfg (Tracker.init r.cfg s.g.logfile r.now0) bs r.st
  nums : N = N0 ++ shownNumbers (Print.printed r.cfg r.completed0.length (out n) (Tracker.init r.cfg s.g.logfile r.now0) bs)
  sub : ∀ k ∈ r.completed0, k ∈ s.g.completed

theorem Runs.snoc' {c : Tracker.Cfg} {s1 s2 s3 : Tracker.State} {as : List Tracker.Act} {a : Tracker.Act} (h : Tracker.Runs c s1 as s2)
    (hd : Tracker.disciplined s2 a = true) (hs : Tracker.step c s2 a = .ok s3) : Tracker.Runs c s1 (as ++ [a]) s3 := by
  induction h with
  | nil => exact .cons hd hs (.nil _)
  | cons d h _ ih => exact .cons d h (ih hd hs)

/-- The numbers shown by one `execute`: more than it began with, at most one for each report. -/
theorem nums_of_run {c : Tracker.Cfg} {lf : LogFile} {now : Int} {bs : List Tracker.Act} {st : Tracker.State} (hr : Tracker.Runs c (Tracker.init c lf now) bs st)
    (off : Nat) (o : Nat → Print.Captured) :
    (shownNumbers (Print.printed c off o (Tracker.init c lf now) bs)).Pairwise (· < ·) ∧
    ∀ x ∈ shownNumbers (Print.printed c off o (Tracker.init c lf now) bs), off < x ∧ x ≤ off + (Tracker.closedTasks st).length := by
  obtain ⟨rs, h1, h2, _⟩ := Props.Print.lines_exact hr off o
  have hlen : rs.length = (Tracker.closedTasks st).length := by rw [← h1, List.length_map]
  unfold shownNumbers
  rw [h2, Props.Print.nums_from]
  obtain ⟨k1, k2⟩ := Props.Print.nums_lt (c := c) (off := off) 0 rs
  refine ⟨?_, ?_⟩
  · rw [List.pairwise_map]; exact k1
  · intro x hx
    obtain ⟨y, hy, rfl⟩ := List.mem_map.1 hx
    obtain ⟨a, b, _⟩ := k2 y hy
    rw [← hlen]
    exact ⟨by omega, by omega⟩

theorem nums_of_good_run {c : Tracker.Cfg} {lf : LogFile} {now : Int} {bs : List Tracker.Act} {st : Tracker.State} (hr : Tracker.Runs c (Tracker.init c lf now) bs st)
    (off : Nat) (o : Nat → Print.Captured) (hok : ∀ x ∈ Tracker.closedTasks st, x.2 = .code 0) :
    shownNumbers (Print.printed c off o (Tracker.init c lf now) bs) = List.range' (off + 1) (Tracker.closedTasks st).length := by
  unfold shownNumbers
  rw [Props.Print.numbers_consecutive hr off o hok, List.map_map, List.range'_eq_map_range]
  apply List.map_congr_left
  intro i _
  simp only [Function.comp]
  omega

/-- After a step of the scheduler. -/
theorem Shown.trk {n : Nat} {s : Sess} {r : Running} {N0 N : List Nat} {bs : List Tracker.Act} (h : Shown out n s r N0 N bs) {a : Tracker.Act} {st : Tracker.State}
    (hd : Tracker.disciplined r.st a = true) (hs : Tracker.step r.cfg r.st a = .ok st) :
    Shown out n { s with run := some { r with st := st } } { r with st := st } N0
      (N ++ shownNumbers (Print.prints r.cfg r.completed0.length (out n) r.st a)) (bs ++ [a]) where
  runs := Runs.snoc' h.runs hd hs
  nums := by
    simp only
    rw [Print.printed_snoc h.runs, shownNumbers_append, ← List.append_assoc, ← h.nums]
  sub := h.sub

/-- The invariant of the first theorem. -/
def Rising (out : Nat → Nat → Print.Captured) (N : List Nat) (w : World) : Prop :=
  match w.sess with
  | none => N = []
  | some s =>
    match s.run with
    | none => N.Pairwise (· < ·) ∧ ∀ x ∈ N, x ≤ s.g.completed.length
    | some r => ∃ N0 bs, Shown out s.executes s r N0 N bs ∧ N0.Pairwise (· < ·) ∧ ∀ x ∈ N0, x ≤ r.completed0.length

theorem Rising.pairwise {N : List Nat} {w : World} (h : Rising out N w) : N.Pairwise (· < ·) := by
  unfold Rising at h
  split at h
  · rw [h]; exact .nil
  · split at h
    · exact h.1
    · rename_i r _
      obtain ⟨N0, bs, hsh, h1, h2⟩ := h
      obtain ⟨k1, k2⟩ := nums_of_run hsh.runs r.completed0.length (out _)
      rw [hsh.nums, List.pairwise_append]
      refine ⟨h1, k1, fun a ha b hb => ?_⟩
      have := h2 a ha
      have := (k2 b hb).1
      omega

theorem Rising.step {N : List Nat} {w w1 : World} {a : Act} (h : Rising out N w) (hi : WInv w) (hc : Print.CInv w) (hs : World.step w a = .ok w1)
    (hstop : ∀ keep, a ≠ .stop keep) (hdr : a = .finish → ∀ r, w.running = some r → r.st.drained = []) :
    Rising out (N ++ shownNumbers (lines out w a)) w1 := by
  cases a with
  | «open» dir roots newKey info =>
    obtain ⟨h1, s1, h2, h3, h4⟩ := open_step hs
    simp only [Rising, h1] at h
    subst h
    simp only [Rising, h2, h3, lines, shownNumbers]
    exact ⟨.nil, by simp⟩
  | add cmd deps =>
    obtain ⟨s, s1, h1, h2, h3, h4, h5⟩ := add_step hi hs
    simp only [Rising, h1, h2] at h
    simp only [Rising, h3, h4, h5, lines, shownNumbers, List.filterMap_nil, List.map_nil, List.append_nil]
    exact h
  | exec target rerun fizzles ch now =>
    obtain ⟨s, s1, h1, h2, h3, h4, h5⟩ := exec_count hi hc hs
    simp only [Rising, h1, h2] at h
    rcases h5 with h5 | ⟨r, h5, h6, h7⟩
    · simp only [Rising, h3, h5, lines, shownNumbers, List.filterMap_nil, List.map_nil, List.append_nil]
      exact ⟨h.1, fun x hx => by have := h.2 x hx; omega⟩
    · simp only [Rising, h3, h5, lines, shownNumbers, List.filterMap_nil, List.map_nil, List.append_nil]
      obtain ⟨s2, q1, q2, q3⟩ := Props.World.exec_completed hs h1
      rw [h3] at q1
      cases q1
      refine ⟨N, [], ⟨?_, ?_, ?_⟩, h.1, by rw [h6]; exact h.2⟩
      · rw [h7]; exact .nil _
      · simp [Print.printed, shownNumbers]
      · rw [h6]; exact q2
  | trk b =>
    obtain ⟨s, r, st, h1, h2, h3, h4, rfl⟩ := trk_step hs
    simp only [Rising, h1, h2] at h
    obtain ⟨N0, bs, hsh, k1, k2⟩ := h
    simp only [Rising, lines, h1, h2]
    exact ⟨N0, bs ++ [b], hsh.trk h3 h4, k1, k2⟩
  | finish =>
    obtain ⟨s, r, s1, h1, h2, h3, h4, _, h5, _⟩ := finish_count hi hc hs
    have hd := hdr rfl r (by simp [World.running, h1, h2])
    have hp := h.pairwise
    simp only [Rising, h1, h2] at h
    obtain ⟨N0, bs, hsh, k1, k2⟩ := h
    simp only [Rising, h3, h4, lines, shownNumbers, List.filterMap_nil, List.map_nil, List.append_nil]
    refine ⟨hp, fun x hx => ?_⟩
    have h5 := h5 hsh.sub
    rw [hsh.nums] at hx
    rcases List.mem_append.1 hx with hx | hx
    · have := k2 x hx; omega
    · have := ((nums_of_run hsh.runs r.completed0.length (out _)).2 x hx).2
      simp only [Tracker.closedTasks, hd, List.append_nil] at this
      omega
  | stop keep => exact absurd rfl (hstop keep)

theorem Rising.runs {w w' : World} {as : List Act} (hr : Runs w as w') : ∀ {N : List Nat}, Rising out N w → WInv w → Print.CInv w →
    OneSession as → NothingDrained w as → Rising out (N ++ shownNumbers (printed out w as)) w' := by
  induction hr with
  | nil => intro N h _ _ _ _; simpa [printed, shownNumbers] using h
  | @cons w w1 w' a as hs _ ih =>
    intro N h hi hc h1 h2
    have := ih (h.step hi hc hs (fun keep he => h1 keep (by simp [he]))
      (fun he r hrun => h2 [] as w r (by simp [he]) (.nil _) hrun)) (winv_step hi hs) (hc.step hi hs)
      (fun keep hm => h1 keep (List.mem_cons_of_mem _ hm))
      (fun pre post w2 r he hr hrun => h2 (a :: pre) post w2 r (by simp [he]) (.cons hs hr) hrun)
    simp only [printed, hs, shownNumbers_append, ← List.append_assoc]
    exact this

/-- The invariant of the second theorem. -/
def Counting (out : Nat → Nat → Print.Captured) (b : Nat) (N : List Nat) (w : World) : Prop :=
  match w.sess with
  | none => N = [] ∧ b = 0
  | some s =>
    match s.run with
    | none => N = List.range' (b + 1) N.length ∧ s.g.completed.length = b + N.length
    | some r => ∃ N0 bs, Shown out s.executes s r N0 N bs ∧ N0 = List.range' (b + 1) N0.length ∧ r.completed0.length = b + N0.length ∧
        s.g.completed.length = r.completed0.length

theorem Counting.step {b : Nat} {N : List Nat} {w w1 : World} {a : Act} (h : Counting out b N w) (hi : WInv w) (hc : Print.CInv w) (hs : World.step w a = .ok w1)
    (hstop : ∀ keep, a ≠ .stop keep) (hdr : a = .finish → ∀ r, w.running = some r → r.st.drained = [] ∧ ∀ x ∈ Tracker.closedTasks r.st, x.2 = .code 0)
    (hre : ∀ target rerun fizzles ch now, a = .exec target rerun fizzles ch now → ch.reuseOrder = []) :
    Counting out b (N ++ shownNumbers (lines out w a)) w1 := by
  cases a with
  | «open» dir roots newKey info =>
    obtain ⟨h1, s1, h2, h3, h4⟩ := open_step hs
    simp only [Counting, h1] at h
    obtain ⟨rfl, rfl⟩ := h
    simp only [Counting, h2, h3, h4, lines, shownNumbers]
    exact ⟨rfl, rfl⟩
  | add cmd deps =>
    obtain ⟨s, s1, h1, h2, h3, h4, h5⟩ := add_step hi hs
    simp only [Counting, h1, h2] at h
    simp only [Counting, h3, h4, h5, lines, shownNumbers, List.filterMap_nil, List.map_nil, List.append_nil]
    exact h
  | exec target rerun fizzles ch now =>
    obtain ⟨s, s1, h1, h2, h3, h4, h5⟩ := exec_count hi hc hs
    rw [hre _ _ _ _ _ rfl] at h4
    simp only [List.length_nil, Nat.add_zero] at h4
    simp only [Counting, h1, h2] at h
    rcases h5 with h5 | ⟨r, h5, h6, h7⟩
    · simp only [Counting, h3, h5, lines, shownNumbers, List.filterMap_nil, List.map_nil, List.append_nil]
      exact ⟨h.1, by omega⟩
    · simp only [Counting, h3, h5, lines, shownNumbers, List.filterMap_nil, List.map_nil, List.append_nil]
      obtain ⟨s2, q1, q2, q3⟩ := Props.World.exec_completed hs h1
      rw [h3] at q1
      cases q1
      refine ⟨N, [], ⟨?_, ?_, ?_⟩, h.1, by rw [h6]; exact h.2, by rw [h6]; exact h4⟩
      · rw [h7]; exact .nil _
      · simp [Print.printed, shownNumbers]
      · rw [h6]; exact q2
  | trk b =>
    obtain ⟨s, r, st, h1, h2, h3, h4, rfl⟩ := trk_step hs
    simp only [Counting, h1, h2] at h
    obtain ⟨N0, bs, hsh, k⟩ := h
    simp only [Counting, lines, h1, h2]
    exact ⟨N0, bs ++ [b], hsh.trk h3 h4, k⟩
  | finish =>
    obtain ⟨s, r, s1, h1, h2, h3, h4, _, h5, h6⟩ := finish_count hi hc hs
    obtain ⟨hd, hok⟩ := hdr rfl r (by simp [World.running, h1, h2])
    simp only [Counting, h1, h2] at h
    obtain ⟨N0, bs, hsh, k1, k2, k3⟩ := h
    simp only [Counting, h3, h4, lines, shownNumbers, List.filterMap_nil, List.map_nil, List.append_nil]
    have h5 := h5 hsh.sub
    have hn := nums_of_good_run hsh.runs r.completed0.length (out s.executes) hok
    simp only [Tracker.closedTasks, hd, List.append_nil] at hn
    have hN := hsh.nums
    rw [hn] at hN
    have hlen : N.length = N0.length + r.st.processed.length := by rw [hN]; simp
    refine ⟨?_, by omega⟩
    rw [hlen, hN, ← List.range'_append_1, ← k1, k2]
    congr 2
    omega
  | stop keep => exact absurd rfl (hstop keep)

theorem Counting.runs {b : Nat} {w w' : World} {as : List Act} (hr : Runs w as w') : ∀ {N : List Nat}, Counting out b N w → WInv w → Print.CInv w →
    OneSession as → NothingDrained w as → AllSucceed w as → NothingReused as → Counting out b (N ++ shownNumbers (printed out w as)) w' := by
  induction hr with
  | nil => intro N h _ _ _ _ _ _; simpa [printed, shownNumbers] using h
  | @cons w w1 w' a as hs _ ih =>
    intro N h hi hc h1 h2 h3 h4
    have := ih (h.step hi hc hs (fun keep he => h1 keep (by simp [he]))
      (fun he r hrun => ⟨h2 [] as w r (by simp [he]) (.nil _) hrun, h3 [] as w r (by simp [he]) (.nil _) hrun⟩)
      (fun t re f ch now he => h4 t re f ch now (by simp [he]))) (winv_step hi hs) (hc.step hi hs)
      (fun keep hm => h1 keep (List.mem_cons_of_mem _ hm))
      (fun pre post w2 r he hr hrun => h2 (a :: pre) post w2 r (by simp [he]) (.cons hs hr) hrun)
      (fun pre post w2 r he hr hrun => h3 (a :: pre) post w2 r (by simp [he]) (.cons hs hr) hrun)
      (fun t re f ch now hm => h4 t re f ch now (List.mem_cons_of_mem _ hm))
    simp only [printed, hs, shownNumbers_append, ← List.append_assoc]
    exact this

end Verif.World
