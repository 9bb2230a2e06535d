import Verif.Proof.System5
import Verif.Proof.TimeWheel

/-!
# The timers of connections
-/

namespace Verif.Sys
open Verif Verif.Tracker
open scoped List

variable {c : Cfg} {lf : LogFile} {now : Int} {s s' : State}

/-- Timers whose connection is not yet made. -/
def hT : Handler → List (Nat × TimeWheel.TimerID)
  | .timed _ _ txn tm => [(txn, tm)]
  | _ => []

/-- Timers still to be cancelled. -/
def hE : Handler → List TimeWheel.TimerID
  | .ending conn _ _ _ => [conn.timer]
  | _ => []

/-- Transactions whose timer has fired, still to be removed. -/
def rT : Reaper → List Nat
  | .removing txns _ => txns
  | _ => []

/-- Every connection has its own pending timer, or its timer has just fired; `b` is the number of ticks since the last
sign of life. -/
structure Watch (b : Nat → Nat) (w : TimeWheel.Wheel Nat) (conns : List (Nat × Conn)) (T : List (Nat × TimeWheel.TimerID))
    (E : List TimeWheel.TimerID) (todo : List Nat) (p : List (TimeWheel.Timer Nat)) : Prop where
  rel : TimeWheel.Rel w p
  dur : w.duration = wheelDuration
  le : ∀ t ∈ p, t.left ≤ 255
  ids : (conns.map (·.2.timer) ++ T.map (·.2) ++ E).Nodup
  conn : ∀ x ∈ conns, (∃ t ∈ p, t.id = x.2.timer ∧ t.entry = x.1 ∧ t.left + b x.1 ≤ 255) ∨ (x.2.timer.slot = w.current ∧ x.1 ∈ todo)
  timed : ∀ x ∈ T, ∃ t ∈ p, t.id = x.2 ∧ t.entry = x.1
  ending : ∀ k ∈ E, (∃ t ∈ p, t.id = k) ∨ k.slot = w.current

variable {b b' : Nat → Nat} {w w' : TimeWheel.Wheel Nat} {conns conns' : List (Nat × Conn)}
  {T T' : List (Nat × TimeWheel.TimerID)} {E E' : List TimeWheel.TimerID} {todo todo' : List Nat}
  {p p' : List (TimeWheel.Timer Nat)}

theorem Watch.congr (h : Watch b w conns T E todo p) (hT : T' ~ T) (hE : E' ~ E) : Watch b w conns T' E' todo p where
  rel := h.rel
  dur := h.dur
  le := h.le
  ids := ((((List.Perm.refl (conns.map (·.2.timer))).append (hT.map (·.2))).append hE).nodup_iff).2 h.ids
  conn := h.conn
  timed := fun x hx => h.timed x (hT.subset hx)
  ending := fun k hk => h.ending k (hE.subset hk)

/-- Fewer connections, fewer timers held, more to do. -/
theorem Watch.sub (h : Watch b w conns T E todo p) (hc : conns' <+ conns) (hT : T' <+ T) (hE : E' <+ E) (htd : ∀ x ∈ conns', x.1 ∈ todo → x.1 ∈ todo') :
    Watch b w conns' T' E' todo' p where
  rel := h.rel
  dur := h.dur
  le := h.le
  ids := h.ids.sublist (((hc.map (·.2.timer)).append (hT.map (·.2))).append hE)
  conn := fun x hx => (h.conn x (hc.subset hx)).imp id (fun hh => ⟨hh.1, htd x hx hh.2⟩)
  timed := fun x hx => h.timed x (hT.subset hx)
  ending := fun k hk => h.ending k (hE.subset hk)

theorem Watch.slot_ne (h : Watch b w conns T E todo p) {t : TimeWheel.Timer Nat} (ht : t ∈ p) : t.id.slot ≠ w.current := by
  have h1 := h.rel.left t ht
  have h2 := h.le t ht
  have h3 := h.rel.cur
  omega

/-- The id of a timer just inserted is held by nobody. -/
theorem Watch.fresh (h : Watch b w conns T E todo p) {k : TimeWheel.TimerID} (h1 : k ∉ p.map (·.id)) (h2 : k.slot ≠ w.current) :
    k ∉ conns.map (·.2.timer) ++ T.map (·.2) ++ E := by
  intro hk
  have no : ∀ t ∈ p, t.id ≠ k := fun t ht e => h1 (List.mem_map.2 ⟨t, ht, e⟩)
  rcases List.mem_append.1 hk with hk | hk
  · rcases List.mem_append.1 hk with hk | hk
    · obtain ⟨x, hx, e⟩ := List.mem_map.1 hk
      rcases h.conn x hx with ⟨t, ht, e2, _⟩ | ⟨e2, _⟩
      · exact no t ht (e2.trans e)
      · exact h2 (by rw [← e]; exact e2)
    · obtain ⟨x, hx, e⟩ := List.mem_map.1 hk
      obtain ⟨t, ht, e2, _⟩ := h.timed x hx
      exact no t ht (e2.trans e)
  · rcases h.ending k hk with ⟨t, ht, e2⟩ | e2
    · exact no t ht e2
    · exact h2 e2

/-- What an insertion does. -/
theorem insert_ping (hr : TimeWheel.Rel w p) (hd : w.duration = wheelDuration) {txn : Nat} {k : TimeWheel.TimerID}
    (hi : TimeWheel.insert w pingTimeout txn = .ok (w', k)) :
    k ∉ p.map (·.id) ∧ TimeWheel.Rel w' (p ++ [⟨k, txn, 255⟩]) ∧ w'.duration = wheelDuration ∧ w'.current = w.current ∧
      k.slot ≠ w.current := by
  obtain ⟨h1, h2⟩ := TimeWheel.insert_spec hr hi
  have h255 : TimeWheel.ticksFor w.duration pingTimeout = 255 := by rw [hd]; decide
  simp only [TimeWheel.specRet, TimeWheel.specNext, h255] at h1 h2
  have hcd : w'.duration = w.duration ∧ w'.current = w.current := by
    unfold TimeWheel.insert at hi
    split at hi
    · cases hi
    · split at hi
      · cases hi
      · simp only [Res.ok.injEq, Prod.mk.injEq] at hi
        obtain ⟨rfl, _⟩ := hi
        exact ⟨rfl, rfl⟩
  refine ⟨h1, h2, hcd.1.trans hd, hcd.2, ?_⟩
  have h3 := h2.left ⟨k, txn, 255⟩ (by simp)
  have h4 := hr.cur
  simp only [hcd.2] at h3
  omega

theorem insert_panics_not (hd : w.duration = wheelDuration) (txn : Nat) : ∃ r, TimeWheel.insert w pingTimeout txn = .ok r := by
  unfold TimeWheel.insert
  rw [if_neg (by rw [hd]; decide), if_neg (by rw [hd]; decide)]
  exact ⟨_, rfl⟩

/-- A timer is set for a connection to be made. -/
theorem Watch.insertT (h : Watch b w conns T E todo p) {txn : Nat} {k : TimeWheel.TimerID}
    (hi : TimeWheel.insert w pingTimeout txn = .ok (w', k)) :
    Watch b w' conns (T ++ [(txn, k)]) E todo (p ++ [⟨k, txn, 255⟩]) := by
  obtain ⟨h1, h2, h3, h4, h5⟩ := insert_ping h.rel h.dur hi
  have hf := h.fresh h1 h5
  refine ⟨h2, h3, ?_, ?_, ?_, ?_, ?_⟩
  · intro t ht
    rcases List.mem_append.1 ht with ht | ht
    · exact h.le t ht
    · simp only [List.mem_singleton] at ht; subst ht; exact Nat.le_refl _
  · have : (conns.map (·.2.timer) ++ (T ++ [(txn, k)]).map (·.2) ++ E) ~ k :: (conns.map (·.2.timer) ++ T.map (·.2) ++ E) := by
      simp only [List.map_append, List.map_cons, List.map_nil, List.append_assoc, List.singleton_append]
      exact (List.Perm.append_left _ List.perm_middle).trans List.perm_middle
    exact this.nodup_iff.2 (List.nodup_cons.2 ⟨hf, h.ids⟩)
  · intro x hx
    rw [h4]
    exact (h.conn x hx).imp (fun ⟨t, ht, hh⟩ => ⟨t, List.mem_append_left _ ht, hh⟩) id
  · intro x hx
    rcases List.mem_append.1 hx with hx | hx
    · obtain ⟨t, ht, hh⟩ := h.timed x hx
      exact ⟨t, List.mem_append_left _ ht, hh⟩
    · simp only [List.mem_singleton] at hx; subst hx
      exact ⟨⟨k, txn, 255⟩, by simp, rfl, rfl⟩
  · intro x hx
    rw [h4]
    exact (h.ending x hx).imp (fun ⟨t, ht, hh⟩ => ⟨t, List.mem_append_left _ ht, hh⟩) id

/-- The connection is made. -/
theorem Watch.insertC (h : Watch b w conns ((txn, k) :: T) E todo p) (h0 : b txn = 0) {cn : Conn} (hcn : cn.timer = k) :
    Watch b w (conns ++ [(txn, cn)]) T E todo p where
  rel := h.rel
  dur := h.dur
  le := h.le
  ids := by
    have := h.ids
    simp only [List.map_append, List.map_cons, List.map_nil, List.append_assoc, List.singleton_append, hcn, List.cons_append] at this ⊢
    exact this
  conn := by
    intro x hx
    rcases List.mem_append.1 hx with hx | hx
    · exact h.conn x hx
    · simp only [List.mem_singleton] at hx; subst hx
      obtain ⟨t, ht, e1, e2⟩ := h.timed (txn, k) (by simp)
      exact .inl ⟨t, ht, by rw [e1, hcn], e2, by rw [h0]; exact h.le t ht⟩
  timed := fun x hx => h.timed x (List.mem_cons_of_mem _ hx)
  ending := h.ending

/-- A connection is taken by `/end`. -/
theorem Watch.endC (h : Watch b w conns T E todo p) {txn : Nat} {cn : Conn} (hc : (txn, cn) ∈ conns)
    (hk : (conns.map (·.1)).Nodup) : Watch b w (dropKey txn conns) T (E ++ [cn.timer]) todo p where
  rel := h.rel
  dur := h.dur
  le := h.le
  ids := by
    have hsplit : (conns.map (·.2.timer)) ~ cn.timer :: (dropKey txn conns).map (·.2.timer) := by
      obtain ⟨l1, l2, e⟩ := List.append_of_mem hc
      subst e
      have hd : dropKey txn (l1 ++ (txn, cn) :: l2) = l1 ++ l2 := by
        simp only [List.map_append, List.map_cons] at hk
        rw [List.nodup_append] at hk
        obtain ⟨_, hk2, hk3⟩ := hk
        have hn2 := (List.nodup_cons.1 hk2).1
        unfold dropKey
        rw [List.filter_append, List.filter_cons_of_neg (by simp)]
        congr 1
        · apply List.filter_eq_self.2
          intro x hx
          have := hk3 x.1 (List.mem_map.2 ⟨x, hx, rfl⟩) txn (by simp)
          simpa using this
        · apply List.filter_eq_self.2
          intro x hx
          have : x.1 ≠ txn := fun e => hn2 (List.mem_map.2 ⟨x, hx, e⟩)
          simpa using this
      rw [hd]
      simp only [List.map_append, List.map_cons]
      exact List.perm_middle
    have : ((dropKey txn conns).map (·.2.timer) ++ T.map (·.2) ++ (E ++ [cn.timer])) ~ conns.map (·.2.timer) ++ T.map (·.2) ++ E := by
      have h1 : ((dropKey txn conns).map (·.2.timer) ++ T.map (·.2) ++ (E ++ [cn.timer])) ~
          cn.timer :: ((dropKey txn conns).map (·.2.timer) ++ T.map (·.2) ++ E) := by
        rw [← List.append_assoc]
        exact List.perm_append_singleton _ _
      refine h1.trans ?_
      have h2 := ((hsplit.append_right (T.map (·.2))).append_right E).symm
      simpa using h2
    exact this.nodup_iff.2 h.ids
  conn := fun x hx => h.conn x (List.mem_filter.1 hx).1
  timed := h.timed
  ending := by
    intro k hk'
    rcases List.mem_append.1 hk' with hk' | hk'
    · exact h.ending k hk'
    · simp only [List.mem_singleton] at hk'; subst hk'
      rcases h.conn _ hc with ⟨t, ht, e, _⟩ | ⟨e, _⟩
      · exact .inl ⟨t, ht, e⟩
      · exact .inr e

/-- `/end` cancels a timer. -/
theorem Watch.cancelE {k : TimeWheel.TimerID} (h : Watch b w conns T (k :: E) todo p) :
    Watch b (TimeWheel.cancel w k) conns T E todo (p.filter (fun t => t.id != k)) := by
  have hn : k ∉ conns.map (·.2.timer) ++ T.map (·.2) ++ E ∧ (conns.map (·.2.timer) ++ T.map (·.2) ++ E).Nodup := by
    have := (List.perm_middle.nodup_iff).1 h.ids
    exact List.nodup_cons.1 this
  have hcur := TimeWheel.cancel_current w k
  have keep : ∀ {t : TimeWheel.Timer Nat}, t ∈ p → t.id ∈ conns.map (·.2.timer) ++ T.map (·.2) ++ E →
      t ∈ p.filter (fun t => t.id != k) := by
    intro t ht hi
    refine List.mem_filter.2 ⟨ht, ?_⟩
    simp only [bne_iff_ne, ne_eq]
    rintro rfl
    exact hn.1 hi
  refine ⟨TimeWheel.cancel_spec h.rel k, ?_, fun t ht => h.le t (List.mem_filter.1 ht).1, hn.2, ?_, ?_, ?_⟩
  · rw [← h.dur]; unfold TimeWheel.cancel; split <;> rfl
  · intro x hx
    rw [hcur]
    exact (h.conn x hx).imp (fun ⟨t, ht, e, hh⟩ => ⟨t, keep ht (by rw [e]; simp only [List.mem_append, List.mem_map]; exact .inl (.inl ⟨x, hx, rfl⟩)), e, hh⟩) id
  · intro x hx
    obtain ⟨t, ht, e, hh⟩ := h.timed x hx
    exact ⟨t, keep ht (by rw [e]; simp only [List.mem_append, List.mem_map]; exact .inl (.inr ⟨x, hx, rfl⟩)), e, hh⟩
  · intro x hx
    rw [hcur]
    exact (h.ending x (List.mem_cons_of_mem _ hx)).imp (fun ⟨t, ht, e⟩ =>
      ⟨t, keep ht (by rw [e]; exact List.mem_append_right _ hx), e⟩) id

theorem Watch.mono (h : Watch b w conns T E todo p) (hb : ∀ n, b' n ≤ b n) : Watch b' w conns T E todo p where
  rel := h.rel
  dur := h.dur
  le := h.le
  ids := h.ids
  conn := fun x hx => (h.conn x hx).imp (fun ⟨t, ht, e1, e2, e3⟩ => ⟨t, ht, e1, e2, by have := hb x.1; omega⟩) id
  timed := h.timed
  ending := h.ending

theorem Watch.permC (h : Watch b w conns T E todo p) (hc : conns' ~ conns) : Watch b w conns' T E todo p where
  rel := h.rel
  dur := h.dur
  le := h.le
  ids := ((((hc.map (·.2.timer)).append_right (T.map (·.2))).append_right E).nodup_iff).2 h.ids
  conn := fun x hx => h.conn x (hc.subset hx)
  timed := h.timed
  ending := h.ending

theorem Watch.mapC (h : Watch b w conns T E todo p) {f : Nat × Conn → Nat × Conn} (hf : ∀ x, (f x).1 = x.1 ∧ (f x).2.timer = x.2.timer) :
    Watch b w (conns.map f) T E todo p where
  rel := h.rel
  dur := h.dur
  le := h.le
  ids := by
    have : (conns.map f).map (·.2.timer) = conns.map (·.2.timer) := by
      rw [List.map_map]
      exact List.map_congr_left (fun x _ => (hf x).2)
    rw [this]; exact h.ids
  conn := by
    intro x hx
    obtain ⟨y, hy, rfl⟩ := List.mem_map.1 hx
    rw [(hf y).1, (hf y).2]
    exact h.conn y hy
  timed := h.timed
  ending := h.ending

theorem modifyKey_perm {txn : Nat} {cn : Conn} {f : Conn → Conn} : ∀ {conns : List (Nat × Conn)}, (txn, cn) ∈ conns →
    (conns.map (·.1)).Nodup → modifyKey txn f conns ~ dropKey txn conns ++ [(txn, f cn)] := by
  intro conns
  induction conns with
  | nil => intro h; cases h
  | cons x l ih =>
    intro h hk
    simp only [List.map_cons, List.nodup_cons] at hk
    by_cases hx : x.1 = txn
    · have hne : ∀ y ∈ l, y.1 ≠ txn := fun y hy e => hk.1 (List.mem_map.2 ⟨y, hy, by rw [e, hx]⟩)
      have hxe : x = (txn, cn) := by
        rcases List.mem_cons.1 h with h | h
        · exact h.symm
        · exact absurd rfl (hne _ h)
      subst hxe
      have h1 : modifyKey txn f l = l := by
        unfold modifyKey
        conv_rhs => rw [← List.map_id l]
        exact List.map_congr_left (fun y hy => by rw [if_neg (hne y hy)]; rfl)
      have h2 : dropKey txn ((txn, cn) :: l) = l := by
        unfold dropKey
        rw [List.filter_cons_of_neg (by simp)]
        exact List.filter_eq_self.2 (fun y hy => by simpa using hne y hy)
      rw [h2]
      have h3 : modifyKey txn f ((txn, cn) :: l) = (txn, f cn) :: modifyKey txn f l := by simp [modifyKey]
      rw [h3, h1]
      exact (List.perm_append_singleton _ _).symm
    · have h1 : modifyKey txn f (x :: l) = x :: modifyKey txn f l := by simp [modifyKey, hx]
      have h2 : dropKey txn (x :: l) = x :: dropKey txn l := by simp [dropKey, hx]
      rw [h1, h2]
      refine List.Perm.cons _ (ih ?_ hk.2)
      rcases List.mem_cons.1 h with h | h
      · subst h; exact absurd rfl hx
      · exact h

/-- `/ping`. -/
theorem Watch.ping (h : Watch b w conns T E todo p) (hk : (conns.map (·.1)).Nodup) {txn : Nat} {cn : Conn} (hc : (txn, cn) ∈ conns)
    (h0 : b txn = 0) {k : TimeWheel.TimerID} (hi : TimeWheel.insert (TimeWheel.cancel w cn.timer) pingTimeout txn = .ok (w', k)) :
    ∃ p', Watch b w' (modifyKey txn (fun x => { x with timer := k }) conns) T E todo p' := by
  have h1 := (h.endC hc hk).congr (List.Perm.refl T) (List.perm_append_singleton cn.timer E).symm
  have h2 := h1.cancelE.insertT hi
  have h3 := h2.congr (List.perm_append_singleton (txn, k) T).symm (List.Perm.refl E)
  have h4 := h3.insertC h0 (cn := { cn with timer := k }) rfl
  exact ⟨_, h4.permC (modifyKey_perm hc hk)⟩

/-- A tick of the wheel. -/
theorem Watch.tick (h : Watch b w conns [] [] [] p) :
    ∃ p', Watch (fun n => b n + 1) (TimeWheel.tick w).1 conns [] [] ((TimeWheel.tick w).2.map (·.2)) p' := by
  obtain ⟨h1, h2⟩ := TimeWheel.tick_spec h.rel
  simp only [TimeWheel.specRet, TimeWheel.specNext] at h1 h2
  refine ⟨_, h2, h.dur, ?_, h.ids, ?_, by simp, by simp⟩
  · intro t ht
    obtain ⟨t0, ht0, rfl⟩ := List.mem_map.1 ht
    have := h.le t0 (List.mem_filter.1 ht0).1
    show t0.left - 1 ≤ 255
    omega
  · intro x hx
    rcases h.conn x hx with ⟨t, ht, e1, e2, e3⟩ | ⟨_, hn⟩
    · have hl := h.rel.left t ht
      by_cases h5 : t.left = 1
      · right
        refine ⟨?_, ?_⟩
        · rw [← e1, ← hl.2.2, h5]; rfl
        · refine List.mem_map.2 ⟨(t.id, t.entry), h1.symm.subset (List.mem_map.2 ⟨t, List.mem_filter.2 ⟨ht, by simpa using h5⟩, rfl⟩), e2⟩
      · left
        refine ⟨{ t with left := t.left - 1 }, List.mem_map.2 ⟨t, List.mem_filter.2 ⟨ht, by simpa using h5⟩, rfl⟩, e1, e2, ?_⟩
        show t.left - 1 + (b x.1 + 1) ≤ 255
        omega
    · cases hn

/-! ### along a run -/

/-- `Watch` for a state. -/
def WatchS (b : Nat → Nat) (s : State) (p : List (TimeWheel.Timer Nat)) : Prop :=
  Watch b s.wheel s.conns (s.handlers.flatMap hT) (s.handlers.flatMap hE) (rT s.reaper) p

theorem flatMap_set_eq {α β : Type} {f : α → List β} : ∀ {l : List α} {h : Nat} {x y : α}, l[h]? = some x → f y = f x →
    (l.set h y).flatMap f = l.flatMap f := by
  intro l
  induction l with
  | nil => intro h x y hx; simp at hx
  | cons z l ih =>
    intro h x y hx hf
    cases h with
    | zero => simp only [List.getElem?_cons_zero, Option.some.injEq] at hx; subst hx; simp [hf]
    | succ h =>
      simp only [List.getElem?_cons_succ] at hx
      simp [ih hx hf]

theorem flatMap_set_perm {α β : Type} {f : α → List β} : ∀ {l : List α} {h : Nat} {x y : α}, l[h]? = some x →
    f x ++ (l.set h y).flatMap f ~ f y ++ l.flatMap f := by
  intro l
  induction l with
  | nil => intro h x y hx; simp at hx
  | cons z l ih =>
    intro h x y hx
    cases h with
    | zero =>
      simp only [List.getElem?_cons_zero, Option.some.injEq] at hx; subst hx
      simp only [List.set_cons_zero, List.flatMap_cons, ← List.append_assoc]
      exact List.perm_append_comm.append_right _
    | succ h =>
      simp only [List.getElem?_cons_succ] at hx
      simp only [List.set_cons_succ, List.flatMap_cons, ← List.append_assoc]
      have h1 : f x ++ f z ++ (l.set h y).flatMap f ~ f z ++ (f x ++ (l.set h y).flatMap f) := by
        rw [← List.append_assoc]; exact List.perm_append_comm.append_right _
      have h2 : f z ++ (f y ++ l.flatMap f) ~ f y ++ f z ++ l.flatMap f := by
        rw [← List.append_assoc]; exact List.perm_append_comm.append_right _
      exact h1.trans (((ih hx).append_left (f z)).trans h2)

/-- The number of ticks since the last sign of life, after an action. -/
def nextB (c : Cfg) (s : State) (a : Act) (b : Nat → Nat) : Nat → Nat := fun txn =>
  if isReapTick a then b txn + 1 else if aliveObs c txn s a = [] then b txn else 0

theorem nextB_le {a : Act} (ha : isReapTick a = false) (n : Nat) : nextB c s a b n ≤ b n := by
  unfold nextB; rw [if_neg (by rw [ha]; decide)]; split <;> omega

theorem WatchS.same (h : WatchS b s p) {a : Act} (ha : isReapTick a = false) (h1 : s'.wheel = s.wheel) (h2 : s'.conns = s.conns)
    (h3 : s'.handlers.flatMap hT = s.handlers.flatMap hT) (h4 : s'.handlers.flatMap hE = s.handlers.flatMap hE)
    (h5 : rT s'.reaper = rT s.reaper) : ∃ p, WatchS (nextB c s a b) s' p := by
  refine ⟨p, ?_⟩
  unfold WatchS
  rw [h1, h2, h3, h4, h5]
  exact Watch.mono h (nextB_le ha)

theorem WatchS.takeRequest (hk : (s.conns.map (·.1)).Nodup) (h : WatchS b s p) {r : Request} (hs : Sys.takeRequest c s r = .ok s') :
    ∃ p, WatchS (nextB c s (.request r) b) s' p := by
  have hmono := h.mono (nextB_le (c := c) (s := s) (a := .request r) (b := b) rfl)
  have rep : ∀ (x : Handler) (s1 : State), hT x = [] → hE x = [] → s1 = { s with handlers := s.handlers ++ [x] } →
      ∃ p, WatchS (nextB c s (.request r) b) s1 p := by
    rintro x s1 h1 h2 rfl
    exact h.same rfl rfl rfl (by simp [h1]) (by simp [h2]) rfl
  unfold Sys.takeRequest at hs
  split at hs
  · simp only [Res.ok.injEq] at hs; subst hs; exact rep _ _ rfl rfl rfl
  · split at hs
    · simp only [Res.ok.injEq] at hs; subst hs; exact rep _ _ rfl rfl rfl
    · split at hs
      · simp only [Res.ok.injEq] at hs; subst hs; exact rep _ _ rfl rfl rfl
      · split at hs
        · simp only [Res.ok.injEq] at hs; subst hs
          unfold startH
          repeat' split
          all_goals exact rep _ _ rfl rfl rfl
        · unfold begunH at hs
          split at hs
          · simp only [Res.ok.injEq] at hs; subst hs; exact rep _ _ rfl rfl rfl
          · split at hs
            · obtain ⟨t, _, rfl⟩ := trk_ok.1 hs
              refine ⟨p, ?_⟩
              unfold WatchS
              simp only [reply, List.flatMap_append, List.flatMap_cons, List.flatMap_nil, hT, hE, List.append_nil]
              refine hmono.mapC ?_
              intro x
              split <;> simp
            · simp only [Res.ok.injEq] at hs; subst hs; exact rep _ _ rfl rfl rfl
        · simp only [Res.ok.injEq] at hs; subst hs
          unfold endH
          split
          · split
            · exact rep _ _ rfl rfl rfl
            · rename_i conn hl
              split
              · refine ⟨p, ?_⟩
                unfold WatchS
                simp only [reply, List.flatMap_append, List.flatMap_cons, List.flatMap_nil, hT, hE, List.append_nil]
                exact hmono.sub List.filter_sublist (List.Sublist.refl _) (List.Sublist.refl _) (fun _ _ h => h)
              · refine ⟨p, ?_⟩
                unfold WatchS
                simp only [List.flatMap_append, List.flatMap_cons, List.flatMap_nil, hT, hE, List.append_nil]
                exact hmono.endC (mem_of_lookup hl) hk
          · exact rep _ _ rfl rfl rfl
        · rename_i txn hb
          unfold pingH at hs
          split at hs
          · simp only [Res.ok.injEq] at hs; subst hs; exact rep _ _ rfl rfl rfl
          · rename_i conn hl
            obtain ⟨⟨w', k⟩, hi, hs⟩ := Res.bind_ok.1 hs
            simp only [Res.ok.injEq] at hs; subst hs
            have h0 : nextB c s (.request r) b txn = 0 := by
              simp_all [nextB, aliveObs, isReapTick]
            obtain ⟨p', h'⟩ := hmono.ping hk (mem_of_lookup hl) h0 hi
            refine ⟨p', ?_⟩
            unfold WatchS
            simp only [reply, List.flatMap_append, List.flatMap_cons, List.flatMap_nil, hT, hE, List.append_nil]
            exact h'
        · simp only [Res.ok.injEq] at hs; subst hs
          exact h.same rfl rfl rfl (by simp [markH, reply, hT]) (by simp [markH, reply, hE]) rfl
        · cases hs

theorem WatchS.step (hk : (s.conns.map (·.1)).Nodup) (h : WatchS b s p) {a : Act} (hp : slowTick s a = [])
    (hs : Sys.step c s a = .ok s') : ∃ p, WatchS (nextB c s a b) s' p := by
  have mv : ∀ {a : Act} (i : Nat) (x x' : Handler) (s1 : State), isReapTick a = false → s.handlers[i]? = some x →
      s1.handlers = s.handlers.set i x' → hT x = hT x' → hE x = hE x' → s1.wheel = s.wheel → s1.conns = s.conns →
      rT s1.reaper = rT s.reaper →
      ∃ p, WatchS (nextB c s a b) s1 p := by
    intro a i x x' s1 ha hx h3 e1 e2 h1 h2 h4
    exact h.same ha h1 h2 (by rw [h3]; exact flatMap_set_eq hx e1.symm) (by rw [h3]; exact flatMap_set_eq hx e2.symm) h4
  cases a with
  | request r =>
    simp only [Sys.step] at hs
    split at hs
    · cases hs
    · exact h.takeRequest hk hs
  | server a =>
    simp only [Sys.step] at hs
    split at hs
    · obtain ⟨t, _, rfl⟩ := trk_ok.1 hs; exact h.same rfl rfl rfl rfl rfl rfl
    · cases hs
  | joinDone =>
    simp only [Sys.step] at hs
    split at hs
    · obtain ⟨t, _, rfl⟩ := trk_ok.1 hs; exact h.same rfl rfl rfl rfl rfl rfl
    · cases hs
  | loopRecv i =>
    simp only [Sys.step] at hs
    split at hs
    · split at hs
      · obtain ⟨t, _, rfl⟩ := trk_ok.1 hs; exact h.same rfl rfl rfl rfl rfl rfl
      · simp only [Res.ok.injEq] at hs; subst hs; exact h.same rfl rfl rfl rfl rfl rfl
    · cases hs
  | loopClosed i k =>
    simp only [Sys.step] at hs
    split at hs
    · split at hs
      · obtain ⟨t, _, rfl⟩ := trk_ok.1 hs; exact h.same rfl rfl rfl rfl rfl rfl
      · cases hs
    · cases hs
  | loopGot i k =>
    simp only [Sys.step] at hs
    split at hs
    · split at hs
      · obtain ⟨t, _, rfl⟩ := trk_ok.1 hs; exact h.same rfl rfl rfl rfl rfl rfl
      · cases hs
    · cases hs
  | loopSpawn i ok =>
    simp only [Sys.step] at hs
    split at hs
    · split at hs
      · simp only [Res.ok.injEq] at hs; subst hs; exact h.same rfl rfl rfl rfl rfl rfl
      · cases hs
    · cases hs
  | loopDie i =>
    simp only [Sys.step] at hs
    split at hs
    · simp only [Res.ok.injEq] at hs; subst hs
      split <;> exact h.same rfl rfl rfl rfl rfl rfl
    · cases hs
  | loopStarted i host pid =>
    simp only [Sys.step] at hs
    split at hs
    · obtain ⟨t, _, rfl⟩ := trk_ok.1 hs; exact h.same rfl rfl rfl rfl rfl rfl
    · obtain ⟨t, _, rfl⟩ := trk_ok.1 hs; exact h.same rfl rfl rfl rfl rfl rfl
    · cases hs
  | loopSoft i =>
    simp only [Sys.step] at hs
    split at hs
    · split at hs
      · simp only [Res.ok.injEq] at hs; subst hs; exact h.same rfl rfl rfl rfl rfl rfl
      · cases hs
    · cases hs
  | loopHard i =>
    simp only [Sys.step] at hs
    split at hs
    · simp only [Res.ok.injEq] at hs; subst hs; exact h.same rfl rfl rfl rfl rfl rfl
    · cases hs
  | loopOutput i code values =>
    simp only [Sys.step] at hs
    split at hs
    · simp only [Res.ok.injEq] at hs; subst hs; exact h.same rfl rfl rfl rfl rfl rfl
    · cases hs
  | loopReport i =>
    simp only [Sys.step] at hs
    split at hs
    · obtain ⟨t, _, rfl⟩ := trk_ok.1 hs; exact h.same rfl rfl rfl rfl rfl rfl
    · obtain ⟨t, _, rfl⟩ := trk_ok.1 hs; exact h.same rfl rfl rfl rfl rfl rfl
    · obtain ⟨t, _, rfl⟩ := trk_ok.1 hs; exact h.same rfl rfl rfl rfl rfl rfl
    · cases hs
  | hRecv i =>
    simp only [Sys.step] at hs
    split at hs
    · rename_i hx
      split at hs
      · obtain ⟨t, _, rfl⟩ := trk_ok.1 hs; exact mv i _ _ _ rfl hx rfl rfl rfl rfl rfl rfl
      · simp only [Res.ok.injEq] at hs; subst hs; exact mv i _ _ _ rfl hx rfl rfl rfl rfl rfl rfl
      · simp only [Res.ok.injEq] at hs; subst hs; exact mv i _ _ _ rfl hx rfl rfl rfl rfl rfl rfl
    · cases hs
  | hLeave i k timeout =>
    simp only [Sys.step] at hs
    split at hs
    · rename_i hx
      split at hs
      · simp only [Res.ok.injEq] at hs; subst hs; exact mv i _ _ _ rfl hx rfl rfl rfl rfl rfl rfl
      · cases hs
    · rename_i hx
      split at hs
      · obtain ⟨t, _, rfl⟩ := trk_ok.1 hs; exact mv i _ _ _ rfl hx rfl rfl rfl rfl rfl rfl
      · cases hs
    · cases hs
  | hDrop i k =>
    simp only [Sys.step] at hs
    split at hs
    · rename_i hx
      simp only [Res.ok.injEq] at hs; subst hs; exact mv i _ _ _ rfl hx rfl rfl rfl rfl rfl rfl
    · rename_i hx
      split at hs
      · obtain ⟨t, _, rfl⟩ := trk_ok.1 hs; exact mv i _ _ _ rfl hx rfl rfl rfl rfl rfl rfl
      · cases hs
    · rename_i hx
      simp only [Res.ok.injEq] at hs; subst hs; exact mv i _ _ _ rfl hx rfl rfl rfl rfl rfl rfl
    · cases hs
  | hGot i k =>
    simp only [Sys.step] at hs
    split at hs
    · rename_i hx _
      split at hs
      · obtain ⟨t, _, rfl⟩ := trk_ok.1 hs; exact mv i _ _ _ rfl hx rfl rfl rfl rfl rfl rfl
      · cases hs
    · cases hs
  | hTimer i txn =>
    simp only [Sys.step] at hs
    split at hs
    · rename_i v j hx
      obtain ⟨⟨w', k⟩, hi, hs⟩ := Res.bind_ok.1 hs
      simp only [Res.ok.injEq] at hs; subst hs
      have h1 := (h.mono (nextB_le (c := c) (s := s) (a := .hTimer i txn) (b := b) rfl)).insertT hi
      refine ⟨p ++ [⟨k, txn, 255⟩], ?_⟩
      unfold WatchS
      simp only [setH]
      have e1 : (s.handlers.set i (.timed v j txn k)).flatMap hE = s.handlers.flatMap hE := flatMap_set_eq hx rfl
      rw [e1]
      refine h1.congr ?_ (List.Perm.refl _)
      have := flatMap_set_perm (f := hT) (y := .timed v j txn k) hx
      exact this.trans (List.perm_append_singleton _ _).symm
    · cases hs
  | hDie i =>
    simp only [Sys.step] at hs
    split at hs
    · rename_i hx
      split at hs
      · simp only [Res.ok.injEq] at hs; subst hs; exact mv i _ _ _ rfl hx rfl rfl rfl rfl rfl rfl
      · cases hs
    · cases hs
  | hInsert i =>
    simp only [Sys.step] at hs
    split at hs
    · rename_i v j txn tm hx
      simp only [Res.ok.injEq] at hs; subst hs
      have h1 := h.mono (nextB_le (c := c) (s := s) (a := .hInsert i) (b := b) rfl)
      have e1 : (s.handlers.set i (.done (some (.task txn v)))).flatMap hE = s.handlers.flatMap hE := flatMap_set_eq hx rfl
      have e2 := flatMap_set_perm (f := hT) (y := .done (some (.task txn v))) hx
      have h0 : nextB c s (.hInsert i) b txn = 0 := by
        unfold nextB aliveObs
        simp only [hx]
        simp [isReapTick]
      have h2 := h1.congr (T' := (txn, tm) :: (s.handlers.set i (.done (some (.task txn v)))).flatMap hT) e2 (List.Perm.refl _)
      have h3 := h2.sub (conns' := dropKey txn s.conns) List.filter_sublist (List.Sublist.refl _) (List.Sublist.refl _) (fun _ _ h => h)
      refine ⟨p, ?_⟩
      unfold WatchS
      simp only [setH]
      rw [e1]
      exact h3.insertC h0 rfl
    · cases hs
  | hCancel i =>
    simp only [Sys.step] at hs
    split at hs
    · rename_i conn code values next hx
      simp only [Res.ok.injEq] at hs; subst hs
      have h1 := h.mono (nextB_le (c := c) (s := s) (a := .hCancel i) (b := b) rfl)
      have e1 : (s.handlers.set i (.reporting conn code values next)).flatMap hT = s.handlers.flatMap hT := flatMap_set_eq hx rfl
      have e2 := flatMap_set_perm (f := hE) (y := .reporting conn code values next) hx
      have h2 := h1.congr (E' := conn.timer :: (s.handlers.set i (.reporting conn code values next)).flatMap hE) (List.Perm.refl _) e2
      refine ⟨p.filter (fun t => t.id != conn.timer), ?_⟩
      unfold WatchS
      simp only [setH]
      rw [e1]
      exact h2.cancelE
    · cases hs
  | hReport i =>
    simp only [Sys.step] at hs
    split at hs
    · rename_i conn code values next hx
      obtain ⟨t, _, rfl⟩ := trk_ok.1 hs
      cases next <;> exact mv i _ _ _ rfl hx rfl rfl rfl rfl rfl rfl
    · cases hs
  | hFlag i =>
    simp only [Sys.step] at hs
    split at hs
    · rename_i hx
      split at hs
      · simp only [Res.ok.injEq] at hs; subst hs; exact mv i _ _ _ rfl hx rfl rfl rfl rfl rfl rfl
      · cases hs
    · cases hs
  | reapTick =>
    simp only [Sys.step] at hs
    split at hs
    · rename_i hre
      simp only [Res.ok.injEq] at hs; subst hs
      have hno : ∀ x ∈ s.handlers, hT x = [] ∧ hE x = [] := by
        intro x hx
        simp only [slowTick] at hp
        have h1 : s.handlers.any between = false := by
          cases h2 : s.handlers.any between with
          | false => rfl
          | true => rw [if_pos h2] at hp; cases hp
        have := List.any_eq_false.1 h1 x hx
        cases x <;> first | exact ⟨rfl, rfl⟩ | exact absurd rfl this
      have e1 : s.handlers.flatMap hT = [] := List.flatMap_eq_nil_iff.2 (fun x hx => (hno x hx).1)
      have e2 : s.handlers.flatMap hE = [] := List.flatMap_eq_nil_iff.2 (fun x hx => (hno x hx).2)
      unfold WatchS at h
      rw [e1, e2, hre] at h
      obtain ⟨p', h'⟩ := Watch.tick h
      refine ⟨p', ?_⟩
      unfold WatchS
      simp only [e1, e2]
      exact h'
    · cases hs
  | reapRemove =>
    simp only [Sys.step] at hs
    split at hs
    · rename_i txn txns expired hre
      simp only [Res.ok.injEq] at hs; subst hs
      refine ⟨p, ?_⟩
      have h1 := h.mono (nextB_le (c := c) (s := s) (a := .reapRemove) (b := b) rfl)
      rw [hre] at h1
      refine h1.sub List.filter_sublist (List.Sublist.refl _) (List.Sublist.refl _) ?_
      intro x hx hm
      have h2 := (List.mem_filter.1 hx).2
      simp only [bne_iff_ne, ne_eq] at h2
      rcases List.mem_cons.1 hm with hm | hm
      · exact absurd hm h2
      · exact hm
    · rename_i txn txns expired hre
      split at hs
      · simp only [Res.ok.injEq] at hs; subst hs
        refine ⟨p, ?_⟩
        have h1 := h.mono (nextB_le (c := c) (s := s) (a := .reapRemove) (b := b) rfl)
        rw [hre] at h1
        exact h1.sub List.filter_sublist (List.Sublist.refl _) (List.Sublist.refl _) (fun _ _ hm => by cases hm)
      · simp only [Res.ok.injEq] at hs; subst hs; exact h.same rfl rfl rfl rfl rfl (by rw [hre]; rfl)
    · rename_i expired hre
      simp only [Res.ok.injEq] at hs; subst hs; exact h.same rfl rfl rfl rfl rfl (by rw [hre]; rfl)
    · cases hs
  | reapCheck order =>
    simp only [Sys.step] at hs
    split at hs
    · rename_i expired hre
      split at hs
      · split at hs
        · simp only [Res.ok.injEq] at hs; subst hs; exact h.same rfl rfl rfl rfl rfl (by rw [hre]; rfl)
        · cases hs
      · simp only [Res.ok.injEq] at hs; subst hs; exact h.same rfl rfl rfl rfl rfl (by rw [hre]; rfl)
    · cases hs
  | reapSend =>
    simp only [Sys.step] at hs
    split at hs
    · rename_i hre
      obtain ⟨t, _, rfl⟩ := trk_ok.1 hs; exact h.same rfl rfl rfl rfl rfl (by rw [hre]; rfl)
    · rename_i hre
      simp only [Res.ok.injEq] at hs; subst hs; exact h.same rfl rfl rfl rfl rfl (by rw [hre]; rfl)
    · cases hs
  | reapStop =>
    simp only [Sys.step] at hs
    split at hs
    · rename_i hre
      simp only [Res.ok.injEq] at hs; subst hs; exact h.same rfl rfl rfl rfl rfl (by rw [hre.1]; rfl)
    · cases hs

theorem WatchS.init : WatchS (fun _ => 0) (Sys.init c lf now) [] where
  rel := TimeWheel.Rel.new _
  dur := rfl
  le := by simp
  ids := by simp [Sys.init]
  conn := by simp [Sys.init]
  timed := by simp [Sys.init]
  ending := by simp [Sys.init]

theorem WatchS.runs (hg : Good c.tr) (hr0 : Sys.Reachable c lf now s) (h : WatchS b s p) {as : List Act} (hr : Sys.Runs c s as s')
    (hp : Prompt c s as) : ∃ p b', WatchS b' s' p ∧
      ∀ txn, Silent c s txn as → b' txn = b txn + as.countP isReapTick := by
  induction hr generalizing b p with
  | nil => exact ⟨p, b, h, by simp⟩
  | cons hd hs _ ih =>
    unfold Prompt at hp
    simp only [collect, hs, List.append_eq_nil_iff] at hp
    obtain ⟨p1, h1⟩ := h.step (Reachable.inv hg hr0).live.keys hp.1 hs
    obtain ⟨p2, b2, h2, h3⟩ := ih (hr0.later (.cons hd hs (.nil _))) h1 hp.2
    refine ⟨p2, b2, h2, fun txn hq => ?_⟩
    unfold Silent at hq
    simp only [collect, hs, List.append_eq_nil_iff] at hq
    rw [h3 txn hq.2, List.countP_cons]
    unfold nextB
    rw [hq.1]
    split
    · omega
    · simp

/-! ### connections stay unless `/end` or the reaper takes them -/

/-- What can happen to a connection in one step: it stays (with the same task), it is forgotten, it is taken by an `/end`, or
by the reaper. -/
theorem conn_step (hk : (s.conns.map (·.1)).Nodup) {x : Nat × Conn} (hx : x ∈ s.conns) {a : Act} (hs : step c s a = .ok s') :
    (∃ y ∈ s'.conns, y.1 = x.1 ∧ y.2.node = x.2.node) ∨ x.2.node ∈ s'.forgotten ∨
    (∃ r code values next, a = .request r ∧ r.auth = some c.secret ∧ r.body = .finish x.1 code values next) ∨ a = .reapRemove := by
  have keep : ∀ {s1 : State}, s1.conns = s.conns → (∃ y ∈ s1.conns, y.1 = x.1 ∧ y.2.node = x.2.node) := by
    intro s1 e; exact ⟨x, by rw [e]; exact hx, rfl, rfl⟩
  cases a with
  | request r =>
    simp only [step] at hs
    split at hs
    · cases hs
    · unfold takeRequest at hs
      split at hs
      · simp only [Res.ok.injEq] at hs; subst hs; exact .inl (keep rfl)
      · rename_i t ht
        split at hs
        · simp only [Res.ok.injEq] at hs; subst hs; exact .inl (keep rfl)
        · split at hs
          · simp only [Res.ok.injEq] at hs; subst hs; exact .inl (keep rfl)
          · rename_i hts
            simp only [ne_eq, not_not] at hts
            subst hts
            split at hs
            · simp only [Res.ok.injEq] at hs; subst hs
              unfold startH
              repeat' split
              all_goals exact .inl (keep rfl)
            · unfold begunH at hs
              split at hs
              · simp only [Res.ok.injEq] at hs; subst hs; exact .inl (keep rfl)
              · split at hs
                · obtain ⟨t, _, rfl⟩ := trk_ok.1 hs
                  left
                  simp only [reply, modifyKey]
                  refine ⟨_, List.mem_map.2 ⟨x, hx, rfl⟩, ?_⟩
                  split <;> simp
                · simp only [Res.ok.injEq] at hs; subst hs; exact .inl (keep rfl)
            · rename_i txn code values next hb
              simp only [Res.ok.injEq] at hs; subst hs
              by_cases hxt : x.1 = txn
              · subst hxt
                exact .inr (.inr (.inl ⟨r, code, values, next, rfl, ht, hb⟩))
              · left
                have : x ∈ dropKey txn s.conns := List.mem_filter.2 ⟨hx, by simpa using hxt⟩
                unfold endH
                repeat' split
                all_goals first | exact keep rfl | exact ⟨x, this, rfl, rfl⟩
            · unfold pingH at hs
              split at hs
              · simp only [Res.ok.injEq] at hs; subst hs; exact .inl (keep rfl)
              · obtain ⟨⟨w', k⟩, _, hs⟩ := Res.bind_ok.1 hs
                simp only [Res.ok.injEq] at hs; subst hs
                left
                simp only [reply, modifyKey]
                refine ⟨_, List.mem_map.2 ⟨x, hx, rfl⟩, ?_⟩
                split <;> simp
            · simp only [Res.ok.injEq] at hs; subst hs; exact .inl (keep rfl)
            · cases hs
  | hInsert i =>
    simp only [step] at hs
    split at hs
    · rename_i v j txn tm hh
      simp only [Res.ok.injEq] at hs; subst hs
      cases hl : s.conns.lookup txn with
      | none =>
        left
        refine ⟨x, ?_, rfl, rfl⟩
        simp only [setH]
        refine List.mem_append_left _ (List.mem_filter.2 ⟨hx, ?_⟩)
        simp only [bne_iff_ne, ne_eq]
        rintro rfl
        exact absurd hl (by
          intro h
          have := List.lookup_eq_none_iff.1 h x hx
          simp at this)
      | some conn =>
        by_cases hxt : x.1 = txn
        · right; left
          subst hxt
          have : x.2 = conn := by
            have := List.lookup_eq_some_iff.1 hl
            obtain ⟨l1, l2, e, hn⟩ := this
            rw [e] at hx
            rcases List.mem_append.1 hx with h | h
            · have := hn x h
              simp at this
            · rcases List.mem_cons.1 h with h | h
              · rw [h]
              · rw [e] at hk
                simp only [List.map_append, List.map_cons] at hk
                have := (List.nodup_append.1 hk).2.1
                exact absurd (List.mem_map.2 ⟨x, h, rfl⟩) (List.nodup_cons.1 this).1
          simp [setH, this]
        · left
          exact ⟨x, List.mem_append_left _ (List.mem_filter.2 ⟨hx, by simpa using hxt⟩), rfl, rfl⟩
    · cases hs
  | reapRemove => exact .inr (.inr (.inr rfl))
  | hTimer i txn =>
    simp only [step] at hs
    split at hs
    · obtain ⟨⟨w', k⟩, _, hs⟩ := Res.bind_ok.1 hs
      simp only [Res.ok.injEq] at hs; subst hs; exact .inl (keep rfl)
    · cases hs
  | loopDie i =>
    simp only [step] at hs
    split at hs
    · simp only [Res.ok.injEq] at hs; subst hs
      split <;> exact .inl (keep rfl)
    · cases hs
  | hReport i =>
    simp only [step] at hs
    split at hs
    · obtain ⟨t, _, rfl⟩ := trk_ok.1 hs; exact .inl (keep rfl)
    · cases hs
  | _ =>
    simp only [step] at hs
    repeat' split at hs
    all_goals first
      | (cases hs; done)
      | (obtain ⟨t, _, rfl⟩ := trk_ok.1 hs; exact .inl (keep rfl))
      | (simp only [Res.ok.injEq] at hs; subst hs; exact .inl (keep rfl))

/-- Does the request end transaction `txn`? -/
def endsTxn (c : Cfg) (txn : Nat) (r : Request) : Prop :=
  r.auth = some c.secret ∧ ∃ code values next, r.body = .finish txn code values next

/-- Without reaper, the task of a connection stays with it (or is forgotten) unless `/end` comes. -/
theorem dead_reaper_keeps (hg : Good c.tr) (hr0 : Reachable c lf now s) {ex : List Nat} (hd : s.reaper = .dead ex)
    {txn v : Nat} (hv : (∃ y ∈ s.conns, y.1 = txn ∧ y.2.node = v) ∨ v ∈ s.forgotten) {as : List Act} (hr : Runs c s as s')
    (hno : ∀ r, Act.request r ∈ as → ¬ endsTxn c txn r) :
    (∃ y ∈ s'.conns, y.1 = txn ∧ y.2.node = v) ∨ v ∈ s'.forgotten := by
  induction hr generalizing ex with
  | nil => exact hv
  | cons hp hs _ ih =>
    rename_i s0 s1 s2 a as
    refine ih (hr0.later (.cons hp hs (.nil _))) (step_reaper_dead hs hd) ?_ (fun r hr => hno r (List.mem_cons_of_mem _ hr))
    rcases hv with ⟨y, hy, rfl, rfl⟩ | hv
    · rcases conn_step (Reachable.inv hg hr0).live.keys hy hs with h | h | ⟨r, code, values, next, rfl, h1, h2⟩ | rfl
      · exact .inl h
      · exact .inr h
      · exact absurd ⟨h1, code, values, next, h2⟩ (hno r (by simp))
      · simp [step, hd] at hs
    · obtain ⟨l, e⟩ := step_forgotten hs
      exact .inr (by rw [e]; exact List.mem_append_left _ hv)

/-! ### tasks somebody stays responsible for -/

theorem kept_never_reported (hg : Good c.tr) {as bs : List Act} (hr : Runs c (init c lf now) as s) {v : Nat}
    (hp : s.tr.pc ≠ .done) (hb : Runs c s bs s')
    (hv : ∀ bs1 bs2 s1, bs = bs1 ++ bs2 → Runs c s bs1 s1 → v ∈ owned s1) :
    v ∉ (collect reportObs c (init c lf now) (as ++ bs)).map (·.1) := by
  suffices h : ∀ bs2, bs = bs ++ bs2 → v ∉ (collect reportObs c (init c lf now) (as ++ bs)).map (·.1) from
    h [] (List.append_nil _).symm
  refine Runs.snocInd (P := fun bs' _ => ∀ bs2, bs = bs' ++ bs2 → v ∉ (collect reportObs c (init c lf now) (as ++ bs')).map (·.1)) ?_ ?_ hb
  · intro bs2 e
    rw [List.append_nil]
    exact owned_not_reported hg hr hp (hv [] bs2 s e (.nil _))
  · intro bs1 s1 a s2 hb1 ih hpo hs bs2 e
    by_cases h2 : s2.tr.pc = .done
    · have : reportObs s1 a = [] := by
        by_contra hne
        obtain ⟨h3, h4⟩ := report_pc hs hne
        exact h3 (h4 ▸ h2)
      rw [← List.append_assoc, collect_snoc (hr.append hb1), this, List.append_nil]
      exact ih (a :: bs2) (by rw [e]; simp)
    · exact owned_not_reported hg (hr.append (hb1.snoc hpo hs)) h2 (hv _ bs2 s2 e (hb1.snoc hpo hs))

theorem kept_hang (hg : Good c.tr) {as bs : List Act} (hr : Runs c (init c lf now) as s) {v : Nat}
    (hp : s.tr.pc ≠ .done) (hb : Runs c s bs s')
    (hv : ∀ bs1 bs2 s1, bs = bs1 ++ bs2 → Runs c s bs1 s1 → v ∈ owned s1)
    (hno : NoShutdown (toTracker c (init c lf now) (as ++ bs)))
    (hq : quickFailures c.tr [] (Tracker.init c.tr lf now) (toTracker c (init c lf now) (as ++ bs)) < c.tr.fizzlesAllowed) :
    ended s'.tr.pc = false := by
  by_contra he
  have hrun := (hr.append hb).toInit hg
  have h1 := over_all_processed hg hrun hno hq (v := v) (by simpa using he) (by
    obtain ⟨r, ho⟩ := owned_obtained hg ⟨as, hr⟩ hp (hv [] bs s rfl (.nil _))
    have hb' := (Runs.inv hg (Reachable.inv hg ⟨as, hr⟩) hb).2
    exact ⟨r, obtained_later hb' _ ho⟩)
  have h2 := processed_sent hg hrun v h1
  rw [← reports_eq (hr.append hb)] at h2
  exact kept_never_reported hg hr hp hb hv h2

/-- A loop with a task that can not be started stays there or dies. -/
theorem unspawnable_stays {i v : Nat} (hn : spawnable (cmdOf c.tr.g v) = false) {a : Act} (hs : step c s a = .ok s')
    (hi : s.loops[i]? = some (.got v) ∨ s.loops[i]? = some (.dead v)) :
    s'.loops[i]? = some (.got v) ∨ s'.loops[i]? = some (.dead v) := by
  rcases step_loops hs with ⟨h1, _⟩ | ⟨i', l, l', o, h1, h2, h3, _⟩
  · rw [h1]; exact hi
  · by_cases hii : i' = i
    · subst hii
      rw [h2, List.getElem?_set_self (List.getElem?_eq_some_iff.1 h1).1]
      rw [h1] at hi
      simp only [Option.some.injEq] at hi
      cases h3 with
      | dieGot v' => simp at hi; subst hi; exact .inr rfl
      | spawn v' =>
        simp at hi; subst hi
        simp [step, h1, hn] at hs
      | spawnFail v' =>
        simp at hi; subst hi
        simp [step, h1, hn] at hs
      | _ => simp at hi
    · rw [h2, List.getElem?_set_ne hii]; exact hi

theorem unspawnable_owned {i v : Nat} (hn : spawnable (cmdOf c.tr.g v) = false)
    (hi : s.loops[i]? = some (.got v)) {bs : List Act} (hb : Runs c s bs s') : v ∈ owned s' := by
  have : s'.loops[i]? = some (.got v) ∨ s'.loops[i]? = some (.dead v) := by
    have h : s.loops[i]? = some (.got v) ∨ s.loops[i]? = some (.dead v) := .inl hi
    clear hi
    induction hb with
    | nil => exact h
    | cons _ hs _ ih => exact ih (unspawnable_stays hn hs h)
  unfold owned
  simp only [List.mem_append, List.mem_flatMap]
  rcases this with h | h
  · exact .inl (.inl (.inl (.inl ⟨_, List.mem_of_getElem? h, by simp [ownL]⟩)))
  · exact .inl (.inl (.inl (.inl ⟨_, List.mem_of_getElem? h, by simp [ownL]⟩)))

end Verif.Sys
