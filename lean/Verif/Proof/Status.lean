import Verif.Model.Status
import Verif.Props.AsyncFlag

/-! # Invariant of long-polling (helper lemmas for `Verif.Props.Status`) -/

namespace Verif.Status
open Verif.AsyncFlag (Waiter counter upd)

/-- The future of a waiting request with etag `etag`, the counter being `value`. -/
def WOk (etag value : Nat) : Waiter Nat Nat → Prop
  | .idle => False
  | .check1 p => p = etag
  | .listen p => p = etag
  | .check2 p _ => p = etag
  | .sleeping p _ => p = etag
  | .done p v => p = etag ∧ etag < v ∧ v ≤ value

theorem WOk.mono {e v v' : Nat} {w : Waiter Nat Nat} (h : WOk e v w) (hv : v ≤ v') : WOk e v' w := by
  cases w <;> simp only [WOk] at h ⊢ <;> first | exact h | omega

theorem WOk.notify {e v : Nat} {w : Waiter Nat Nat} (h : WOk e v w) : WOk e v (AsyncFlag.notify w) := by
  cases w <;> exact h

theorem WOk.advance {e v : Nat} {w : Waiter Nat Nat} (h : WOk e v w) : WOk e v (AsyncFlag.advance counter v w) := by
  cases w with
  | idle => exact h
  | check1 p =>
    simp only [AsyncFlag.advance]; split
    · rename_i hr; simp only [WOk] at h ⊢; subst h; simp [counter] at hr; omega
    · exact h
  | listen p => exact h
  | check2 p n =>
    simp only [AsyncFlag.advance]; split
    · rename_i hr; simp only [WOk] at h ⊢; subst h; simp [counter] at hr; omega
    · exact h
  | sleeping p n => cases n <;> exact h
  | done p u => exact h

/-- What is known of request with arguments `a` at `pc`. -/
def PcOk (s : State) (a : Args) (w : Waiter Nat Nat) : Pc → Prop
  | .idle => w = .idle
  | .waiting => a.start ≤ s.now ∧ WOk a.etag s.ev.value w
  | .expired => a.start + a.timeout ≤ s.now
  | .haveEtag e => a.start ≤ s.now ∧ e ≤ s.ev.value ∧ (a.etag < e ∨ a.start + a.timeout ≤ s.now)
  | .napping => a.start ≤ s.now ∧ (a.etag < s.ev.value ∨ a.start + a.timeout ≤ s.now)
  | .reading e => e ≤ s.ev.value ∧ (a.etag < e ∨ a.start + a.timeout ≤ s.now) ∧ a.start + a.timemin ≤ s.now
  | .done e n t => e ≤ s.ev.value ∧ (a.etag < e ∨ a.start + a.timeout ≤ t) ∧ a.start + a.timemin ≤ t ∧ t ≤ s.now ∧
      n ≤ s.added ∧ ∀ m, s.totals[e]? = some m → m ≤ n

/-- The invariant. -/
structure Inv (s : State) : Prop where
  sorted : s.totals.Pairwise (· ≤ ·)
  bound : ∀ m ∈ s.totals, m ≤ s.added
  value : s.ev.value + 1 = s.totals.length
  last : s.loop = .idle ∨ s.loop = .notifying → s.totals.getLast? = some s.added
  upd0 : s.ev.updaters 0 = if s.loop = .notifying then .stored else .idle
  updi : ∀ i, i ≠ 0 → s.ev.updaters i = .idle
  ok : Props.AsyncFlag.Ok counter s.ev
  pc : ∀ j, PcOk s (s.args j) (s.ev.waiters j) (s.pcs j)

theorem Inv.init : Inv init where
  sorted := by simp [Status.init]
  bound := by simp [Status.init]
  value := by simp [Status.init, AsyncFlag.init]
  last := by simp [Status.init]
  upd0 := by simp [Status.init, AsyncFlag.init]
  updi := by simp [Status.init, AsyncFlag.init]
  ok := Props.AsyncFlag.Ok.init 0
  pc := by intro j; simp [PcOk, Status.init, AsyncFlag.init]

theorem PcOk.pcs {s : State} {a : Args} {w : Waiter Nat Nat} {p : Pc} (f : Nat → Pc) (h : PcOk s a w p) :
    PcOk { s with pcs := f } a w p := h

theorem PcOk.mono {s s' : State} {a : Args} {w : Waiter Nat Nat} {p : Pc} (h : PcOk s a w p) (hn : s.now ≤ s'.now)
    (hv : s.ev.value ≤ s'.ev.value) (ha : s.added ≤ s'.added)
    (ht : s.ev.value + 1 = s.totals.length) (hp : ∃ l, s'.totals = s.totals ++ l) : PcOk s' a w p := by
  cases p with
  | idle => exact h
  | waiting => exact ⟨by have := h.1; omega, h.2.mono hv⟩
  | expired => simp only [PcOk] at h ⊢; omega
  | haveEtag e => simp only [PcOk] at h ⊢; omega
  | napping => simp only [PcOk] at h ⊢; omega
  | reading e => simp only [PcOk] at h ⊢; omega
  | done e n t =>
    obtain ⟨l, hl⟩ := hp
    obtain ⟨h1, h2, h3, h4, h5, h6⟩ := h
    refine ⟨by omega, h2, h3, by omega, by omega, ?_⟩
    intro m hm
    rw [hl, List.getElem?_append_left (by omega)] at hm
    exact h6 m hm

/-- Changing the program counter of one request. -/
theorem Inv.setPc {s : State} (h : Inv s) (j : Nat) {p : Pc} (hp : PcOk s (s.args j) (s.ev.waiters j) p) :
    Inv { s with pcs := upd s.pcs j p } where
  sorted := h.sorted
  bound := h.bound
  value := h.value
  last := h.last
  upd0 := h.upd0
  updi := h.updi
  ok := h.ok
  pc := by
    intro i
    simp only [upd]
    split
    · rename_i e; subst e; exact hp
    · exact h.pc i

theorem Inv.step {s : State} (h : Inv s) (a : Act) (hb : (step s a).totals.length ≤ 2 ^ 64) : Inv (step s a) := by
  cases a with
  | tick d =>
    exact ⟨h.sorted, h.bound, h.value, h.last, h.upd0, h.updi, h.ok, fun j => (h.pc j).mono (by simp [Status.step])
      (Nat.le_refl _) (Nat.le_refl _) h.value ⟨[], by simp [Status.step]⟩⟩
  | batch n =>
    simp only [Status.step]
    split
    · rename_i hl
      exact ⟨h.sorted, h.bound, h.value, by simp, by simpa [hl] using h.upd0, h.updi, h.ok, h.pc⟩
    · exact h
  | addOne =>
    simp only [Status.step]
    split
    · rename_i n hl
      refine ⟨h.sorted, fun m hm => Nat.le_succ_of_le (h.bound m hm), h.value, by simp, by simpa [hl] using h.upd0,
        h.updi, h.ok, fun j => ?_⟩
      exact (h.pc j).mono (Nat.le_refl _) (Nat.le_refl _) (Nat.le_succ _) h.value ⟨[], by simp⟩
    · exact h
  | incr =>
    simp only [Status.step] at hb ⊢
    split
    · rename_i hl
      have hu : s.ev.updaters 0 = .idle := by simpa [hl] using h.upd0
      simp only [hl, List.length_append, List.length_cons, List.length_nil] at hb
      have hv := h.value
      have hval : (s.ev.value + 1) % 2 ^ 64 = s.ev.value + 1 := Nat.mod_eq_of_lt (by omega)
      have hok : Props.AsyncFlag.Ok counter (AsyncFlag.step counter s.ev (.store 0 ())) := h.ok.step
      simp only [AsyncFlag.step, hu] at hok ⊢
      simp only [counter] at hok ⊢
      simp only [hval] at hok ⊢
      refine ⟨?_, ?_, by simp [hv], by simp, by simp [upd], ?_, hok, fun j => ?_⟩
      · rw [List.pairwise_append]
        exact ⟨h.sorted, by simp, fun a ha b hb => by simp at hb; subst hb; exact h.bound a ha⟩
      · intro m hm
        simp only [List.mem_append, List.mem_singleton] at hm
        rcases hm with hm | rfl
        · exact h.bound m hm
        · exact Nat.le_refl _
      · intro i hi; simp [upd, hi, h.updi i hi]
      · exact (h.pc j).mono (Nat.le_refl _) (Nat.le_succ _) (Nat.le_refl _) h.value ⟨_, rfl⟩
    · exact h
  | notify =>
    simp only [Status.step]
    split
    · rename_i hl
      have hu : s.ev.updaters 0 = .stored := by simpa [hl] using h.upd0
      have hok : Props.AsyncFlag.Ok counter (AsyncFlag.step counter s.ev (.notify 0)) := h.ok.step
      simp only [AsyncFlag.step, hu] at hok ⊢
      refine ⟨h.sorted, h.bound, h.value, fun _ => h.last (.inr hl), by simp [upd], ?_, hok, fun j => ?_⟩
      · intro i hi; simp [upd, hi, h.updi i hi]
      · have := h.pc j
        simp only
        cases hp : s.pcs j <;> rw [hp] at this <;> try exact this
        · simp only [PcOk] at this ⊢; rw [this]; rfl
        · exact ⟨this.1, this.2.notify⟩
    · exact h
  | poll j etag tmin tmo =>
    simp only [Status.step]
    split
    · rename_i hp
      have hw : s.ev.waiters j = .idle := by have := h.pc j; rw [hp] at this; exact this
      have hok : Props.AsyncFlag.Ok counter (AsyncFlag.step counter s.ev (.wait j etag)) := h.ok.step
      simp only [AsyncFlag.step, hw] at hok ⊢
      refine ⟨h.sorted, h.bound, h.value, h.last, h.upd0, h.updi, hok, fun i => ?_⟩
      simp only [upd]
      split
      · exact ⟨Nat.le_refl _, rfl⟩
      · exact h.pc i
    · exact h
  | go j =>
    simp only [Status.step]
    have hok : Props.AsyncFlag.Ok counter (AsyncFlag.step counter s.ev (.go j)) := h.ok.step
    simp only [AsyncFlag.step] at hok ⊢
    refine ⟨h.sorted, h.bound, h.value, h.last, h.upd0, h.updi, hok, fun i => ?_⟩
    have := h.pc i
    simp only [upd]
    split
    · rename_i e; subst e
      cases hp : s.pcs i <;> rw [hp] at this <;> try exact this
      · simp only [PcOk] at this ⊢; rw [this]; rfl
      · exact ⟨this.1, this.2.advance⟩
    · exact this
  | ready j =>
    simp only [Status.step]
    split
    · rename_i p v hp hw
      refine h.setPc j ?_
      have := h.pc j
      rw [hp, hw] at this
      obtain ⟨h1, h2, h3, h4⟩ := this
      exact ⟨h1, h4, .inl h3⟩
    · exact h
  | expire j =>
    simp only [Status.step]
    split
    · split
      · rename_i hp ht
        have hok : Props.AsyncFlag.Ok counter (AsyncFlag.step counter s.ev (.drop j)) := h.ok.step
        simp only [AsyncFlag.step] at hok ⊢
        refine ⟨h.sorted, h.bound, h.value, h.last, h.upd0, h.updi, hok, fun i => ?_⟩
        simp only [upd]
        by_cases hij : i = j
        · subst hij; simp only [if_true]; exact ht
        · simp only [hij, if_false]; exact h.pc i
      · exact h
    · exact h
  | load j =>
    simp only [Status.step]
    split
    · rename_i hp
      have := h.pc j
      rw [hp] at this
      simp only [PcOk] at this
      exact h.setPc j ⟨by omega, Nat.le_refl _, .inr this⟩
    · exact h
  | test j =>
    simp only [Status.step]
    split
    · rename_i e hp
      have := h.pc j
      rw [hp] at this
      obtain ⟨h1, h2, h3⟩ := this
      split
      · exact h.setPc j ⟨h1, by omega⟩
      · exact h.setPc j ⟨h2, h3, by omega⟩
    · exact h
  | napDone j =>
    simp only [Status.step]
    split
    · rename_i hp
      have := h.pc j
      rw [hp] at this
      split
      · rename_i ht
        exact h.setPc j ⟨Nat.le_refl _, this.2, ht⟩
      · exact h
    · exact h
  | read j =>
    simp only [Status.step]
    split
    · rename_i e hp
      have := h.pc j
      rw [hp] at this
      obtain ⟨h1, h2, h3⟩ := this
      refine h.setPc j ⟨h1, h2, h3, Nat.le_refl _, Nat.le_refl _, ?_⟩
      intro m hm
      exact h.bound m (List.mem_of_getElem? hm)
    · exact h

theorem totals_step (s : State) (a : Act) : s.totals.length ≤ (step s a).totals.length := by
  cases a <;> simp only [step] <;> (try split) <;> (try split) <;> simp

theorem totals_run (acts : List Act) : ∀ s : State, s.totals.length ≤ (run s acts).totals.length := by
  induction acts with
  | nil => intro s; exact Nat.le_refl _
  | cons a r ih => intro s; exact Nat.le_trans (totals_step s a) (ih _)

theorem Inv.run {acts : List Act} : ∀ {s : State}, Inv s → (run s acts).totals.length ≤ 2 ^ 64 → Inv (run s acts) := by
  induction acts with
  | nil => intro s h _; exact h
  | cons a r ih =>
    intro s h hb
    exact ih (h.step a (Nat.le_trans (totals_run r (Status.step s a)) hb)) hb

end Verif.Status
