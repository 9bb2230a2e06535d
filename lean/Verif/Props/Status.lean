import Verif.Proof.Status
import Mathlib.Data.List.Induction

/-!
# C62: etag long-polling

`s.pcs j = .done e n t`: status request `j` was answered at time `t` with etag `e` and `n` tasks (ready or past it) in
the queue followed. `s.added`: number of tasks made ready so far. `s.totals`: that number at creation and at each firing of
the event. The counter is a `u64`; the theorems hold for fewer than 2^64 firings.
-/

namespace Verif.Props.Status
open Verif.Status

/-- Fewer than 2^64 firings of the event in the schedule. -/
def NoWrap (acts : List Act) : Prop := (run init acts).totals.length ≤ 2 ^ 64

/-- Number of firings of the event so far. -/
def fired (s : State) : Nat := s.totals.length - 1

theorem inv_of {acts : List Act} (h : NoWrap acts) : Inv (run init acts) := Inv.init.run h

/-- **C62 (early answers).** A status request is answered before its timeout only if the event has fired more often than
its etag; and the etag returned is larger than the one sent, and not larger than the number of firings. -/
theorem early_answer (acts : List Act) (h : NoWrap acts) (j e n t : Nat) (hd : (run init acts).pcs j = .done e n t)
    (ht : t < ((run init acts).args j).start + ((run init acts).args j).timeout) :
    ((run init acts).args j).etag < e ∧ e ≤ fired (run init acts) := by
  have hp := (inv_of h).pc j
  have hv := (inv_of h).value
  rw [hd] at hp
  obtain ⟨h1, h2, _⟩ := hp
  unfold fired
  omega

/-- **C62 (minimum time).** No request is answered before its `timemin`. -/
theorem not_before_timemin (acts : List Act) (h : NoWrap acts) (j e n t : Nat)
    (hd : (run init acts).pcs j = .done e n t) :
    ((run init acts).args j).start + ((run init acts).args j).timemin ≤ t := by
  have hp := (inv_of h).pc j
  rw [hd] at hp
  exact hp.2.2.1

/-- **C62 (the answer is not older than its etag).** Everything made ready by the firing with number `c ≤ e` is in an answer
with etag `e`. -/
theorem answer_covers_etag (acts : List Act) (h : NoWrap acts) (j e n t : Nat)
    (hd : (run init acts).pcs j = .done e n t) (c m : Nat) (hc : c ≤ e)
    (hm : (run init acts).totals[c]? = some m) : m ≤ n := by
  have hi := inv_of h
  have hp := hi.pc j
  have hv := hi.value
  rw [hd] at hp
  obtain ⟨h1, _, _, _, _, h6⟩ := hp
  have he : e < (run init acts).totals.length := by omega
  have hm' := h6 _ (List.getElem?_eq_getElem he)
  rcases Nat.lt_or_ge c e with hlt | hge
  · have hcl : c < (run init acts).totals.length := by omega
    rw [List.getElem?_eq_getElem hcl] at hm
    cases hm
    exact Nat.le_trans (List.pairwise_iff_getElem.1 hi.sorted c e hcl he hlt) hm'
  · have : c = e := by omega
    subst this
    exact h6 m hm

/-- **C62 (nothing is missed).** A client got etag `e` with `n` tasks. If tasks were made ready since (`n < added`) and the
scheduler loop is not in the middle of doing so, the event has fired more than `e` times. -/
theorem nothing_missed (acts : List Act) (h : NoWrap acts) (j e n t : Nat)
    (hd : (run init acts).pcs j = .done e n t) (hl : (run init acts).loop = .idle) (hn : n < (run init acts).added) :
    e < fired (run init acts) := by
  have hi := inv_of h
  have hp := hi.pc j
  have hv := hi.value
  rw [hd] at hp
  have hlast := hi.last (.inl hl)
  unfold fired
  apply Classical.byContradiction
  intro hge
  have he : e = (run init acts).totals.length - 1 := by have := hp.1; omega
  rw [List.getLast?_eq_getElem?, ← he] at hlast
  have := hp.2.2.2.2.2 _ hlast
  omega

/-- **C62 (polling with the etag last received).** Same situation; another request with that etag is waiting, asleep or not,
or arrives now. It is answered by itself, without the clock moving, with a larger etag and all tasks made ready so far. -/
theorem repoll_answered (acts : List Act) (h : NoWrap acts) (j e n t k : Nat)
    (hd : (run init acts).pcs j = .done e n t) (hl : (run init acts).loop = .idle) (hn : n < (run init acts).added)
    (hk : (run init acts).pcs k = .waiting) (hke : ((run init acts).args k).etag = e)
    (hkt : ((run init acts).args k).timemin = 0) :
    ∃ e', e < e' ∧ (run init (acts ++ [.go k, .go k, .go k, .ready k, .test k, .read k])).pcs k
      = .done e' (run init acts).added (run init acts).now := by
  have hi := inv_of h
  have hf := nothing_missed acts h j e n t hd hl hn
  have hp := hi.pc k
  have hv := hi.value
  rw [hk] at hp
  have e1 : run init (acts ++ [.go k, .go k, .go k, .ready k, .test k, .read k])
      = run (run init acts) [.go k, .go k, .go k, .ready k, .test k, .read k] := by simp [run, List.foldl_append]
  rw [e1]
  unfold fired at hf
  generalize run init acts = s at *
  have hval : e < s.ev.value := by omega
  have hsl : ∀ p, s.ev.waiters k = .sleeping p false → False := by
    intro p hs
    have hw := hp.2
    rw [hs, hke] at hw
    have hpe : p = e := hw
    obtain ⟨i, hi'⟩ := hi.ok.1 k p hs (by simp [AsyncFlag.counter]; omega)
    by_cases h0 : i = 0
    · subst h0; rw [hi.upd0, hl] at hi'; simp at hi'
    · rw [hi.updi i h0] at hi'; cases hi'
  have hw := hp.2
  rw [hke] at hw
  cases hwk : s.ev.waiters k with
  | idle => rw [hwk] at hw; exact absurd hw id
  | check1 p =>
    rw [hwk] at hw; simp only [WOk] at hw; subst hw
    exact ⟨s.ev.value, hval, by
      simp [run, step, AsyncFlag.step, AsyncFlag.upd, AsyncFlag.advance, hwk, hk, hkt, AsyncFlag.counter, hval]⟩
  | listen p =>
    rw [hwk] at hw; simp only [WOk] at hw; subst hw
    exact ⟨s.ev.value, hval, by
      simp [run, step, AsyncFlag.step, AsyncFlag.upd, AsyncFlag.advance, hwk, hk, hkt, AsyncFlag.counter, hval]⟩
  | check2 p nn =>
    rw [hwk] at hw; simp only [WOk] at hw; subst hw
    exact ⟨s.ev.value, hval, by
      simp [run, step, AsyncFlag.step, AsyncFlag.upd, AsyncFlag.advance, hwk, hk, hkt, AsyncFlag.counter, hval]⟩
  | sleeping p nn =>
    rw [hwk] at hw; simp only [WOk] at hw; subst hw
    cases nn with
    | false => exact absurd hwk (fun h => hsl _ h)
    | true =>
      exact ⟨s.ev.value, hval, by
        simp [run, step, AsyncFlag.step, AsyncFlag.upd, AsyncFlag.advance, hwk, hk, hkt, AsyncFlag.counter, hval]⟩
  | done p v =>
    rw [hwk] at hw; simp only [WOk] at hw
    exact ⟨v, hw.2.1, by
      simp [run, step, AsyncFlag.step, AsyncFlag.upd, AsyncFlag.advance, hwk, hk, hkt]⟩

/-- Two tasks are made ready, request 0 gets them; request 1 polls with the etag received and sleeps; one more task. -/
def demo : List Act :=
  [.batch 2, .addOne, .addOne, .incr, .notify, .poll 0 0 0 1000, .go 0, .ready 0, .test 0, .read 0,
   .poll 1 1 0 1000, .go 1, .go 1, .go 1, .tick 10, .batch 1, .addOne, .incr, .notify]

example : NoWrap demo := by simp only [NoWrap]; decide
example : (run init demo).pcs 0 = .done 1 2 0 ∧ (run init demo).loop = .idle ∧ (run init demo).added = 3 ∧
    (run init demo).pcs 1 = .waiting ∧ (run init demo).ev.waiters 1 = .sleeping 1 true := by decide
example : (run init (demo ++ [.go 1, .go 1, .go 1, .ready 1, .test 1, .read 1])).pcs 1 = .done 2 3 10 := by decide

/-- **C62 (the documented "one larger").** A request sent with an etag one larger than the one received is not answered
before its timeout until the event has fired *twice* more than that etag says. -/
theorem one_larger_needs_two (acts : List Act) (h : NoWrap acts) (e j e' n t : Nat)
    (he : ((run init acts).args j).etag = e + 1) (hd : (run init acts).pcs j = .done e' n t)
    (ht : t < ((run init acts).args j).start + ((run init acts).args j).timeout) : e + 2 ≤ fired (run init acts) := by
  have := early_answer acts h j e' n t hd ht
  omega

example : let acts : List Act := [.batch 2, .incr, .addOne, .addOne, .incr, .notify, .poll 0 1 0 1000, .go 0, .go 0, .go 0,
      .batch 0, .incr, .notify, .go 0, .go 0, .ready 0, .test 0, .read 0]
    NoWrap acts ∧ (run init acts).args 0 = ⟨1, 0, 1000, 0⟩ ∧ (run init acts).pcs 0 = .done 2 2 0 := by
  simp only [NoWrap]; decide

/-- **C62 (violated as documented).** Following the documentation (poll with an etag one larger than the one received) a
client sleeps although a task has been made ready since its last answer: request 0 was answered (etag 1, 2 tasks), a third
task was made ready, request 1 was sent with etag 2 and is asleep without a notification; the scheduler is idle. The same
holds for the comment in the code, which promises an answer once the event has fired "at least" as often as the etag. -/
theorem one_larger_violated : ∃ acts : List Act, NoWrap acts ∧
    (run init acts).pcs 0 = .done 1 2 0 ∧ (run init acts).added = 3 ∧ fired (run init acts) = 2 ∧
    (run init acts).loop = .idle ∧ (run init acts).args 1 = ⟨2, 0, 1000000, 0⟩ ∧ (run init acts).pcs 1 = .waiting ∧
    (run init acts).ev.waiters 1 = .sleeping 2 false :=
  ⟨[.batch 2, .addOne, .addOne, .incr, .notify, .poll 0 0 0 1000, .go 0, .ready 0, .test 0, .read 0,
    .batch 1, .addOne, .incr, .notify, .poll 1 2 0 1000000, .go 1, .go 1, .go 1],
    by simp only [NoWrap]; decide, by decide, by decide, by decide, by decide, by decide, by decide, by decide⟩

/-- Sizes of the batches begun in a schedule, oldest first. -/
def sizes : State → List Act → List Nat
  | _, [] => []
  | s, a :: as => (match a, s.loop with | .batch n, .idle => [n] | _, _ => []) ++ sizes (step s a) as

theorem sizes_snoc (s : State) (as : List Act) (a : Act) :
    sizes s (as ++ [a]) = sizes s as ++ (match a, (run s as).loop with | .batch n, .idle => [n] | _, _ => []) := by
  induction as generalizing s with
  | nil => simp [sizes, run]
  | cons b as ih =>
    simp only [List.cons_append, sizes, ih, List.append_assoc]
    rfl

theorem run_snoc (s : State) (as : List Act) (a : Act) : run s (as ++ [a]) = step (run s as) a := by
  simp [run, List.foldl_append]

/-- Partial sums, beginning with 0. -/
def partialSums : List Nat → List Nat := fun l => (List.range (l.length + 1)).map (fun k => (l.take k).sum)

theorem partialSums_snoc (l : List Nat) (x : Nat) : partialSums (l ++ [x]) = partialSums l ++ [(l ++ [x]).sum] := by
  unfold partialSums
  rw [List.length_append, List.length_singleton, List.range_succ, List.map_append]
  congr 1
  · apply List.map_congr_left
    intro k hk
    rw [List.mem_range] at hk
    rw [List.take_append_of_le_length (by omega)]
  · rw [List.map_singleton, List.take_of_length_le (by simp)]

/-- What is known of the totals while the loop is in state `l`. -/
def TotalsOk (s : State) (b : List Nat) : Prop :=
  match s.loop with
  | .adding left => ∃ b' n, b = b' ++ [n] ∧ s.totals = partialSums b' ∧ s.added + left = b.sum
  | _ => s.totals = partialSums b ∧ s.added = b.sum

theorem totalsOk (acts : List Act) : TotalsOk (run init acts) (sizes init acts) := by
  induction acts using List.reverseRecOn with
  | nil => exact ⟨rfl, rfl⟩
  | append_singleton as a ih =>
    rw [run_snoc, sizes_snoc]
    revert ih
    generalize run init as = s
    generalize sizes init as = b
    intro ih
    have same : ∀ s' : State, s'.loop = s.loop → s'.added = s.added → s'.totals = s.totals → TotalsOk s' (b ++ []) := by
      intro s' h1 h2 h3
      unfold TotalsOk at ih ⊢
      rw [h1, h2, h3, List.append_nil]
      exact ih
    cases a with
    | batch n =>
      cases hl : s.loop with
      | idle =>
        simp only [TotalsOk, hl] at ih
        simp only [step, hl, TotalsOk]
        exact ⟨b, n, rfl, ih.1, by simp [ih.2]⟩
      | adding k => simp only [step, hl]; exact same s rfl rfl rfl
      | notifying => simp only [step, hl]; exact same s rfl rfl rfl
    | addOne =>
      cases hl : s.loop with
      | adding k =>
        cases k with
        | zero => simp only [step, hl]; exact same s rfl rfl rfl
        | succ k =>
          simp only [TotalsOk, hl] at ih
          obtain ⟨b', n, h1, h2, h3⟩ := ih
          simp only [step, hl, TotalsOk, List.append_nil]
          exact ⟨b', n, h1, h2, by omega⟩
      | idle => simp only [step, hl]; exact same s rfl rfl rfl
      | notifying => simp only [step, hl]; exact same s rfl rfl rfl
    | incr =>
      cases hl : s.loop with
      | adding k =>
        cases k with
        | succ k => simp only [step, hl]; exact same s rfl rfl rfl
        | zero =>
          simp only [TotalsOk, hl] at ih
          obtain ⟨b', n, h1, h2, h3⟩ := ih
          simp only [step, hl, TotalsOk, List.append_nil]
          subst h1
          rw [partialSums_snoc, h2, ← h3]
          exact ⟨rfl, rfl⟩
      | idle => simp only [step, hl]; exact same s rfl rfl rfl
      | notifying => simp only [step, hl]; exact same s rfl rfl rfl
    | notify =>
      cases hl : s.loop with
      | notifying =>
        simp only [TotalsOk, hl] at ih
        simp only [step, hl, TotalsOk, List.append_nil]
        exact ih
      | idle => simp only [step, hl]; exact same s rfl rfl rfl
      | adding k => simp only [step, hl]; exact same s rfl rfl rfl
    | tick d => exact same _ rfl rfl rfl
    | go j => exact same _ rfl rfl rfl
    | poll j e tmin tmo => simp only [step]; cases s.pcs j <;> exact same _ rfl rfl rfl
    | ready j =>
      simp only [step]
      cases s.pcs j <;> first | exact same _ rfl rfl rfl | (cases s.ev.waiters j <;> exact same _ rfl rfl rfl)
    | expire j =>
      simp only [step]
      cases s.pcs j <;> first | exact same _ rfl rfl rfl | (simp only; split <;> exact same _ rfl rfl rfl)
    | load j => simp only [step]; cases s.pcs j <;> exact same _ rfl rfl rfl
    | test j =>
      simp only [step]
      cases s.pcs j <;> first | exact same _ rfl rfl rfl | (simp only; split <;> exact same _ rfl rfl rfl)
    | napDone j =>
      simp only [step]
      cases s.pcs j <;> first | exact same _ rfl rfl rfl | (simp only; split <;> exact same _ rfl rfl rfl)
    | read j => simp only [step]; cases s.pcs j <;> exact same _ rfl rfl rfl

/-- **C62.** The event fires once per batch, after the whole batch has been counted: the totals at the firings are the sums
of the sizes of the batches so far (of all but the last one while this is being counted). -/
theorem totals_are_batches (acts : List Act) :
    (run init acts).totals = partialSums (sizes init acts) ∨
    ∃ left, (run init acts).loop = .adding left ∧ (run init acts).totals = partialSums (sizes init acts).dropLast ∧
      (run init acts).added + left = (sizes init acts).sum := by
  have h := totalsOk acts
  unfold TotalsOk at h
  cases hl : (run init acts).loop with
  | adding left =>
    rw [hl] at h
    obtain ⟨b', n, h1, h2, h3⟩ := h
    exact .inr ⟨left, rfl, by rw [h2, h1, List.dropLast_concat], h3⟩
  | idle => rw [hl] at h; exact .inl h.1
  | notifying => rw [hl] at h; exact .inl h.1

/-- Non-trivial case: a batch of 2, a batch of 1, a batch in progress. -/
example : (run init [.batch 2, .addOne, .addOne, .incr, .notify, .batch 1, .addOne, .incr, .notify, .batch 3, .addOne]).totals = [0, 2, 3] ∧
    sizes init [.batch 2, .addOne, .addOne, .incr, .notify, .batch 1, .addOne, .incr, .notify, .batch 3, .addOne] = [2, 1, 3] := by
  decide

end Verif.Props.Status
