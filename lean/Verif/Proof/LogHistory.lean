import Verif.Proof.TrackerFacts
import Verif.Spec.World

/-!
# Successes and runcounts in a growing log
-/

namespace Verif.World
open Verif Spec
open scoped List

/-- Induction on a list from its end. -/
@[elab_as_elim]
theorem snocInd {α : Type} {P : List α → Prop} (nil : P []) (append_singleton : ∀ l x, P l → P (l ++ [x])) : ∀ l, P l := by
  intro l
  have : ∀ l : List α, P l.reverse := by
    intro l
    induction l with
    | nil => exact nil
    | cons x l ih => rw [List.reverse_cons]; exact append_singleton _ _ ih
  have h := this l.reverse
  rwa [List.reverse_reverse] at h

/-! ### after a success -/

theorem about_key {k : String} {e : LogEntry} (h : about k e = true) :
    (∃ r, e = .ready r ∧ r.key = k) ∨ (∃ s, e = .started s ∧ s.key = k) ∨ (∃ f, e = .finished f ∧ f.key = k) := by
  cases e with
  | ready r => exact .inl ⟨r, rfl, by simpa [about] using h⟩
  | started s => exact .inr (.inl ⟨s, rfl, by simpa [about] using h⟩)
  | finished f => exact .inr (.inr ⟨f, rfl, by simpa [about] using h⟩)
  | header _ => simp [about] at h
  | backref _ => simp [about] at h

theorem history_append (k : String) (a b : List LogEntry) : history k (a ++ b) = history k a ++ history k b := by
  simp [history]

/-- After a Finished entry the next entry of the key is a Ready entry. -/
theorem ready_after_finished {es pre post : List LogEntry} {f : FinishedEntry} (hp : Protocol es)
    (he : es = pre ++ .finished f :: post) {e : LogEntry} (hm : e ∈ post) (ha : about f.key e = true) :
    ∃ r, LogEntry.ready r ∈ post ∧ r.key = f.key := by
  have h1 : e ∈ history f.key post := List.mem_filter.2 ⟨hm, ha⟩
  cases hh : history f.key post with
  | nil => rw [hh] at h1; cases h1
  | cons x rest =>
    have hx : x ∈ post ∧ about f.key x = true := List.mem_filter.1 (by rw [← history, hh]; simp)
    have hall : history f.key es = (history f.key pre ++ [.finished f]) ++ x :: rest := by
      rw [he, history_append]
      have : history f.key (.finished f :: post) = .finished f :: history f.key post := by
        simp [history, about]
      rw [this, hh]; simp
    obtain ⟨h2, h3⟩ := hp f.key _ x rest hall
    rcases about_key hx.2 with ⟨r, rfl, hr⟩ | ⟨s, rfl, _⟩ | ⟨g, rfl, _⟩
    · exact ⟨r, hx.1, hr⟩
    · obtain ⟨p, hp1, hp2⟩ := h2 rfl
      simp only [List.getLast?_append, List.getLast?_singleton, Option.some_or, Option.some.injEq] at hp1
      subst hp1; simp [isReady] at hp2
    · obtain ⟨p, hp1, hp2⟩ := h3 rfl
      simp only [List.getLast?_append, List.getLast?_singleton, Option.some_or, Option.some.injEq] at hp1
      subst hp1; simp [isStarted] at hp2

/-- What the tracker guarantees about the entries it appends, as far as this file needs it. -/
structure Appended (new : List LogEntry) (rcs : List (String × Nat)) : Prop where
  nodup : (Tracker.readyKeys new).Nodup
  rdy : ∀ r, LogEntry.ready r ∈ new → (r.key, r.runcount) ∈ rcs
  after : ∀ (i : Nat) (e : LogEntry) (k : String), new[i]? = some e → Tracker.closerOf k e = true →
    ∃ (j : Nat) (r : ReadyEntry), j < i ∧ new[j]? = some (.ready r) ∧ r.key = k
  kind : ∀ e ∈ new, isReady e ∨ isStarted e ∨ isFinished e

theorem mem_readyKeys {r : ReadyEntry} {l : List LogEntry} (h : LogEntry.ready r ∈ l) : r.key ∈ Tracker.readyKeys l :=
  List.mem_filterMap.2 ⟨_, h, rfl⟩

/-- A successful key that is not made ready again stays alone. -/
theorem noRerun_append {es new : List LogEntry} {rcs : List (String × Nat)} (hn : NoRerun es) (hp : Protocol (es ++ new))
    (hA : Appended new rcs) (hs : ∀ x ∈ rcs, ¬ SuccessLogged es x.1) : NoRerun (es ++ new) := by
  intro pre f post he hst e hm
  cases ha : about f.key e with
  | false => rfl
  | true =>
    exfalso
    obtain ⟨r, hr, hk⟩ := ready_after_finished hp he hm ha
    rcases List.append_eq_append_iff.1 he with ⟨as, h1, h2⟩ | ⟨bs, h1, h2⟩
    · -- `pre = es ++ as`, the success is among the new entries
      have hi : new[as.length]? = some (.finished f) := by rw [h2]; simp
      obtain ⟨j, r', hj, hj2, hk'⟩ := hA.after _ _ f.key hi (by simp [Tracker.closerOf])
      have hin : LogEntry.ready r' ∈ as := by
        rw [h2, List.getElem?_append_left hj] at hj2
        exact List.mem_of_getElem? hj2
      have hnd := hA.nodup
      rw [h2] at hnd
      unfold Tracker.readyKeys at hnd
      rw [List.filterMap_append, List.nodup_append] at hnd
      have m1 : r'.key ∈ as.filterMap Tracker.readyKey? := mem_readyKeys hin
      have m2 : r.key ∈ (LogEntry.finished f :: post).filterMap Tracker.readyKey? :=
        mem_readyKeys (List.mem_cons_of_mem _ hr)
      exact hnd.2.2 _ m1 _ m2 (hk'.trans hk.symm)
    · cases bs with
      | nil =>
        -- the success is the first new entry
        simp only [List.nil_append] at h2
        obtain ⟨j, r', hj, _⟩ := hA.after 0 (.finished f) f.key (by rw [← h2]; rfl) (by simp [Tracker.closerOf])
        omega
      | cons b bs =>
        simp only [List.cons_append, List.cons.injEq] at h2
        obtain ⟨rfl, h2⟩ := h2
        rw [h2] at hr
        rcases List.mem_append.1 hr with hr | hr
        · have := hn pre f bs h1 hst _ hr
          simp [about, hk] at this
        · refine hs _ (hA.rdy r hr) ?_
          exact ⟨f, by rw [h1]; simp, hk.symm, hst⟩

theorem noRerun_nil : NoRerun [] := by
  intro pre f post h; simp at h

theorem noRerun_prefix {a b : List LogEntry} (h : NoRerun (a ++ b)) : NoRerun a := by
  intro pre f post he hst e hm
  exact h pre f (post ++ b) (by rw [he]; simp) hst e (List.mem_append_left _ hm)

/-- Headers and Backrefs do not matter. -/
theorem noRerun_other {es new : List LogEntry} (hn : NoRerun es) (ho : ∀ e ∈ new, ∀ k, about k e = false) :
    NoRerun (es ++ new) := by
  intro pre f post he hst e hm
  rcases List.append_eq_append_iff.1 he with ⟨as, h1, h2⟩ | ⟨bs, h1, h2⟩
  · have := ho (.finished f) (by rw [h2]; simp) f.key
    simp [about] at this
  · cases bs with
    | nil =>
      simp only [List.nil_append] at h2
      have := ho (.finished f) (by rw [← h2]; simp) f.key
      simp [about] at this
    | cons b bs =>
      simp only [List.cons_append, List.cons.injEq] at h2
      obtain ⟨rfl, h2⟩ := h2
      rw [h2] at hm
      rcases List.mem_append.1 hm with hm | hm
      · exact hn pre f bs h1 hst e hm
      · exact ho e hm _

/-- With no rerun after a success, the memory knows every success in the file. -/
theorem hasSuccess_iff {lf : LogFile} (hc : Consistent lf) (hn : NoRerun lf.entries) (k : String) :
    lf.mem.hasSuccess k = true ↔ SuccessLogged lf.entries k := by
  unfold LogMem.hasSuccess
  rw [hc.status]
  constructor
  · intro h
    rcases status_cases (k := k) hc.protocol with ⟨_, h2⟩ | ⟨x, _, h2⟩ | ⟨x, r, _, _, h2⟩ | ⟨x, r, h1, _, h2⟩
    · rw [h2] at h; simp at h
    · rw [h2] at h; simp at h
    · rw [h2] at h; simp at h
    · rw [h2] at h
      simp only [decide_eq_true_eq] at h
      have hm := List.mem_filter.1 (List.mem_of_getLast? h1)
      exact ⟨x, hm.1, by simpa [about] using hm.2, h⟩
  · rintro ⟨f, hf, rfl, hst⟩
    obtain ⟨pre, post, he⟩ := List.append_of_mem hf
    have hpost : history f.key post = [] := by
      unfold history
      rw [List.filter_eq_nil_iff]
      intro e hm
      rw [hn pre f post he hst e hm]; simp
    have hl : (history f.key lf.entries).getLast? = some (.finished f) := by
      rw [he, history_append]
      have : history f.key (.finished f :: post) = .finished f :: history f.key post := by
        simp [history, about]
      rw [this, hpost]; simp
    rcases status_cases (k := f.key) hc.protocol with ⟨h1, _⟩ | ⟨x, h1, _⟩ | ⟨x, r, h1, _⟩ | ⟨x, r, h1, _, h2⟩
    · rw [h1] at hl; cases hl
    · rw [hl] at h1; cases h1
    · rw [hl] at h1; cases h1
    · rw [hl] at h1
      simp only [Option.some.injEq, LogEntry.finished.injEq] at h1
      subst h1
      rw [h2]; simp [hst]

/-! ### runcounts -/

/-- The runcount for the next attempt, from the status of a key (`logfile_runcount` for keys without a success). -/
def nextOf : Option RuncountStatus → Nat
  | none => 0
  | some (.ready c _) => c
  | some (.started c _) => c + 1
  | some (.finished c _ _) => c + 1

/-- The attempts of every key have increasing runcounts, and the next one fits. -/
structure Fresh (es : List LogEntry) : Prop where
  inc : ∀ k, (attempts k es).Pairwise (· < ·)
  bound : ∀ k, ∀ a ∈ attempts k es, a < nextOf (statusOf k es)

theorem fold_snd (k : String) : ∀ (es : List LogEntry),
    (es.foldl (attemptsStep k) ([], none)).2 = (lastReady (history k es)).map (·.runcount) := by
  intro es
  induction es using snocInd with
  | nil => rfl
  | append_singleton es e ih =>
    rw [List.foldl_append, history_snoc]
    simp only [List.foldl_cons, List.foldl_nil]
    cases e with
    | ready r =>
      simp only [attemptsStep, about, beq_iff_eq]
      by_cases h : r.key = k
      · rw [if_pos h, if_pos h, lastReady_snoc]; rfl
      · rw [if_neg h, if_neg h]; exact ih
    | started s =>
      simp only [attemptsStep, about, beq_iff_eq]
      by_cases h : s.key = k
      · rw [if_pos h, if_pos h, lastReady_snoc]; exact ih
      · rw [if_neg h, if_neg h]; exact ih
    | finished f =>
      simp only [attemptsStep, about, beq_iff_eq]
      by_cases h : f.key = k
      · rw [if_pos h, lastReady_snoc]; exact ih
      · rw [if_neg h]; exact ih
    | header h => simp only [attemptsStep, about, Bool.false_eq_true, if_false]; exact ih
    | backref b => simp only [attemptsStep, about, Bool.false_eq_true, if_false]; exact ih

theorem attempts_snoc_other {k : String} {es : List LogEntry} {e : LogEntry} (h : about k e = false) :
    attempts k (es ++ [e]) = attempts k es := by
  unfold attempts
  rw [List.foldl_append]
  simp only [List.foldl_cons, List.foldl_nil]
  cases e with
  | ready r => simp only [about, beq_eq_false_iff_ne] at h; simp [attemptsStep, h]
  | started r => simp only [about, beq_eq_false_iff_ne] at h; simp [attemptsStep, h]
  | _ => rfl

theorem attempts_snoc_notStarted {k : String} {es : List LogEntry} {e : LogEntry} (h : isStarted e = false) :
    attempts k (es ++ [e]) = attempts k es := by
  unfold attempts
  rw [List.foldl_append]
  simp only [List.foldl_cons, List.foldl_nil]
  cases e with
  | ready r => simp only [attemptsStep]; split <;> rfl
  | started r => simp [isStarted] at h
  | _ => rfl

theorem attempts_snoc_started {es : List LogEntry} {s : StartedEntry} {rc : Nat}
    (h : (lastReady (history s.key es)).map (·.runcount) = some rc) :
    attempts s.key (es ++ [.started s]) = attempts s.key es ++ [rc] := by
  have := fold_snd s.key es
  rw [h] at this
  unfold attempts
  rw [List.foldl_append]
  simp only [List.foldl_cons, List.foldl_nil, attemptsStep, if_pos]
  rw [this]; rfl

theorem fresh_nil : Fresh [] := ⟨fun _ => List.Pairwise.nil, fun _ a h => by simp [attempts] at h⟩

/-- Appending one entry; a Ready entry must carry a runcount not below the next one. -/
theorem fresh_snoc {es : List LogEntry} {e : LogEntry} (h : Fresh es) (hp : Protocol (es ++ [e]))
    (hr : ∀ r, e = .ready r → nextOf (statusOf r.key es) ≤ r.runcount) : Fresh (es ++ [e]) := by
  have hp0 := protocol_prefix hp
  have hps := (protocol_snoc.1 hp).2
  have key : ∀ k, (attempts k (es ++ [e])).Pairwise (· < ·) ∧
      ∀ a ∈ attempts k (es ++ [e]), a < nextOf (statusOf k (es ++ [e])) := by
    intro k
    cases ha : about k e with
    | false =>
      rw [attempts_snoc_other ha, statusOf_snoc_other ha]
      exact ⟨h.inc k, h.bound k⟩
    | true =>
      rcases about_key ha with ⟨r, rfl, rfl⟩ | ⟨s, rfl, rfl⟩ | ⟨f, rfl, rfl⟩
      · rw [attempts_snoc_notStarted rfl, statusOf_snoc_ready _ _ _ rfl]
        refine ⟨h.inc _, fun a hm => ?_⟩
        have := h.bound _ a hm
        have := hr r rfl
        simp only [nextOf]; omega
      · obtain ⟨p, h1, h2⟩ := (hps s.key ha).1 rfl
        rcases status_cases (k := s.key) hp0 with ⟨h3, _⟩ | ⟨x, h3, h4⟩ | ⟨x, r, h3, _⟩ | ⟨x, r, h3, _⟩
        · rw [h3] at h1; cases h1
        · have hl : lastReady (history s.key es) = some x := by
            rw [List.getLast?_eq_some_iff] at h3
            obtain ⟨l, hl⟩ := h3
            rw [hl, lastReady_snoc]
          rw [attempts_snoc_started (rc := x.runcount) (by rw [hl]; rfl)]
          have hst : statusOf s.key (es ++ [.started s]) = some (.started x.runcount x.storageRoot) := by
            unfold statusOf
            rw [history_snoc, if_pos ha, lastReady_snoc]
            simp [ready?, hl]
          rw [hst]
          have hb := h.bound s.key
          rw [h4] at hb
          simp only [nextOf] at hb ⊢
          constructor
          · rw [List.pairwise_append]
            refine ⟨h.inc _, List.pairwise_singleton _ _, fun a hm b hb' => ?_⟩
            simp only [List.mem_singleton] at hb'
            subst hb'; exact hb a hm
          · intro a hm
            rcases List.mem_append.1 hm with hm | hm
            · have := hb a hm; omega
            · simp only [List.mem_singleton] at hm; omega
        · rw [h3] at h1; simp only [Option.some.injEq] at h1; subst h1; simp [isReady] at h2
        · rw [h3] at h1; simp only [Option.some.injEq] at h1; subst h1; simp [isReady] at h2
      · obtain ⟨p, h1, h2⟩ := (hps f.key ha).2 rfl
        rw [attempts_snoc_notStarted rfl]
        rcases status_cases (k := f.key) hp0 with ⟨h3, _⟩ | ⟨x, h3, h4⟩ | ⟨x, r, h3, h4, h5⟩ | ⟨x, r, h3, _⟩
        · rw [h3] at h1; cases h1
        · rw [h3] at h1; simp only [Option.some.injEq] at h1; subst h1; simp [isStarted] at h2
        · have hst : statusOf f.key (es ++ [.finished f]) = some (.finished r.runcount r.storageRoot (decide (f.status = 0))) := by
            unfold statusOf
            rw [history_snoc, if_pos ha, lastReady_snoc]
            simp [ready?, h4]
          rw [hst]
          refine ⟨h.inc _, fun a hm => ?_⟩
          have := h.bound _ a hm
          rw [h5] at this
          simpa [nextOf] using this
        · rw [h3] at h1; simp only [Option.some.injEq] at h1; subst h1; simp [isStarted] at h2
  exact ⟨fun k => (key k).1, fun k => (key k).2⟩

theorem statusOf_append_other {k : String} {es new : List LogEntry} (h : ∀ e ∈ new, about k e = false) :
    statusOf k (es ++ new) = statusOf k es := by
  induction new using snocInd with
  | nil => simp
  | append_singleton new e ih =>
    rw [← List.append_assoc, statusOf_snoc_other (h e (by simp))]
    exact ih (fun x hx => h x (by simp [hx]))

/-- Every Ready entry carries a runcount fit for the state of its key before it. -/
def RcOk (es : List LogEntry) : Prop :=
  ∀ pre r post, es = pre ++ .ready r :: post → nextOf (statusOf r.key pre) ≤ r.runcount

theorem rcOk_nil : RcOk [] := by intro pre r post h; simp at h

theorem rcOk_prefix {a b : List LogEntry} (h : RcOk (a ++ b)) : RcOk a := by
  intro pre r post he
  exact h pre r (post ++ b) (by rw [he]; simp)

theorem rcOk_other {es new : List LogEntry} (h : RcOk es) (ho : ∀ e ∈ new, ∀ k, about k e = false) : RcOk (es ++ new) := by
  intro pre r post he
  rcases List.append_eq_append_iff.1 he with ⟨as, h1, h2⟩ | ⟨bs, h1, h2⟩
  · have := ho (.ready r) (by rw [h2]; simp) r.key
    simp [about] at this
  · cases bs with
    | nil =>
      simp only [List.nil_append] at h2
      have := ho (.ready r) (by rw [← h2]; simp) r.key
      simp [about] at this
    | cons b bs =>
      simp only [List.cons_append, List.cons.injEq] at h2
      obtain ⟨rfl, _⟩ := h2
      exact h pre r bs h1

theorem fresh_of_rcOk {es : List LogEntry} (hp : Protocol es) (h : RcOk es) : Fresh es := by
  induction es using snocInd with
  | nil => exact fresh_nil
  | append_singleton es e ih =>
    refine fresh_snoc (ih (protocol_prefix hp) (rcOk_prefix h)) hp ?_
    rintro r rfl
    exact h es r [] rfl

/-- Nothing of a key precedes its Ready entry among the appended entries. -/
theorem Appended.first {new : List LogEntry} {rcs : List (String × Nat)} (hA : Appended new rcs) {pre post : List LogEntry}
    {r : ReadyEntry} (he : new = pre ++ .ready r :: post) : ∀ e ∈ pre, about r.key e = false := by
  have hno : ∀ r', LogEntry.ready r' ∈ pre → r'.key = r.key → False := by
    intro r' hm hk
    have hnd := hA.nodup
    rw [he] at hnd
    unfold Tracker.readyKeys at hnd
    rw [List.filterMap_append, List.nodup_append] at hnd
    have m1 : r'.key ∈ pre.filterMap Tracker.readyKey? := mem_readyKeys hm
    have m2 : r.key ∈ (LogEntry.ready r :: post).filterMap Tracker.readyKey? := mem_readyKeys (by simp)
    exact hnd.2.2 _ m1 _ m2 hk
  have hclose : ∀ e ∈ pre, Tracker.closerOf r.key e = true → False := by
    intro e hm hc
    obtain ⟨j, hj⟩ := List.getElem?_of_mem hm
    have hl := (List.getElem?_eq_some_iff.1 hj).1
    obtain ⟨j', r', h1, h2, h3⟩ := hA.after j e r.key (by rw [he, List.getElem?_append_left hl]; exact hj) hc
    rw [he, List.getElem?_append_left (by omega)] at h2
    exact hno r' (List.mem_of_getElem? h2) h3
  intro e hm
  cases ha : about r.key e with
  | false => rfl
  | true =>
    exfalso
    rcases about_key ha with ⟨r', rfl, hk⟩ | ⟨s, rfl, hk⟩ | ⟨f, rfl, hk⟩
    · exact hno r' hm hk
    · exact hclose _ hm (by simp [Tracker.closerOf, hk])
    · exact hclose _ hm (by simp [Tracker.closerOf, hk])

/-- Appending what a tracker run appends. -/
theorem rcOk_append {es new : List LogEntry} {rcs : List (String × Nat)} (h : RcOk es)
    (hA : Appended new rcs) (hrc : ∀ x ∈ rcs, nextOf (statusOf x.1 es) ≤ x.2) : RcOk (es ++ new) := by
  intro pre r post he
  have fromNew : ∀ as, new = as ++ .ready r :: post → pre = es ++ as → nextOf (statusOf r.key pre) ≤ r.runcount := by
    intro as h2 h1
    rw [h1, statusOf_append_other (hA.first h2)]
    exact hrc _ (hA.rdy r (by rw [h2]; simp))
  rcases List.append_eq_append_iff.1 he with ⟨as, h1, h2⟩ | ⟨bs, h1, h2⟩
  · exact fromNew as h2 h1
  · cases bs with
    | nil => exact fromNew [] (by simpa using h2.symm) (by simpa using h1.symm)
    | cons b bs =>
      simp only [List.cons_append, List.cons.injEq] at h2
      obtain ⟨rfl, _⟩ := h2
      exact h pre r bs h1

end Verif.World
