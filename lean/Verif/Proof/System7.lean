import Verif.Proof.System6

/-!
# Who is disconnected, and where reports come from
-/

namespace Verif.Sys
open Verif Verif.Tracker
open scoped List

variable {c : Cfg} {lf : LogFile} {now : Int} {s s' : State}

/-- What an action that is not the reaper's does to wheel, connections and the handlers between the two. -/
inductive View (c : Cfg) (s s' : State) : Act → Prop
  | same {a : Act} : (∀ x ∈ s.conns, aliveObs c x.1 s a = []) → s'.wheel = s.wheel → s'.conns = s.conns → s'.handlers.flatMap hT = s.handlers.flatMap hT → View c s s' a
  | map {a : Act} (f : Nat × Conn → Nat × Conn) : (∀ x ∈ s.conns, aliveObs c x.1 s a = []) → 
      (∀ x, (f x).1 = x.1 ∧ (f x).2.timer = x.2.timer ∧ (f x).2.node = x.2.node ∧
      (f x).2.start = x.2.start) → s'.wheel = s.wheel → s'.conns = s.conns.map f → s'.handlers.flatMap hT = s.handlers.flatMap hT → View c s s' a
  | drop {a : Act} (txn : Nat) : (∀ x ∈ s.conns, aliveObs c x.1 s a = []) → s'.wheel = s.wheel → s'.conns = dropKey txn s.conns →
      s'.handlers.flatMap hT = s.handlers.flatMap hT → View c s s' a
  | ping {a : Act} (txn : Nat) (cn : Conn) (k : TimeWheel.TimerID) : (txn, cn) ∈ s.conns → (∀ n, n ≠ txn → aliveObs c n s a = []) →
      TimeWheel.insert (TimeWheel.cancel s.wheel cn.timer) pingTimeout txn = .ok (s'.wheel, k) →
      s'.conns = modifyKey txn (fun x => { x with timer := k }) s.conns → s'.handlers.flatMap hT = s.handlers.flatMap hT → View c s s' a
  | cancel {a : Act} (k : TimeWheel.TimerID) : (∀ x ∈ s.conns, aliveObs c x.1 s a = []) → s'.wheel = TimeWheel.cancel s.wheel k → s'.conns = s.conns →
      s'.handlers.flatMap hT = s.handlers.flatMap hT → View c s s' a
  | timer (h txn : Nat) (k : TimeWheel.TimerID) : TimeWheel.insert s.wheel pingTimeout txn = .ok (s'.wheel, k) →
      drawn s (.hTimer h txn) = [txn] →
      s'.conns = s.conns → s'.handlers.flatMap hT ~ (txn, k) :: s.handlers.flatMap hT → View c s s' (.hTimer h txn)
  | insert (h txn : Nat) (cn : Conn) : s'.wheel = s.wheel → s'.conns = dropKey txn s.conns ++ [(txn, cn)] →
      handedOut s (.hInsert h) = [(txn, cn.node, cn.start)] → (∀ n, n ≠ txn → aliveObs c n s (.hInsert h) = []) →
      s.handlers.flatMap hT ~ (txn, cn.timer) :: s'.handlers.flatMap hT → View c s s' (.hInsert h)

theorem View.takeRequest {r : Request} (hs : Sys.takeRequest c s r = .ok s') : View c s s' (.request r) ∧ s'.reaper = s.reaper := by
  have rep : ∀ (x : Handler) (s1 : State), (∀ x ∈ s.conns, aliveObs c x.1 s (.request r) = []) → hT x = [] → s1 = { s with handlers := s.handlers ++ [x] } →
      View c s s1 (.request r) ∧ s1.reaper = s.reaper := by
    rintro x s1 h0 h1 rfl
    exact ⟨.same h0 rfl rfl (by simp [h1]), rfl⟩
  unfold Sys.takeRequest at hs
  split at hs
  · simp only [Res.ok.injEq] at hs; subst hs; exact rep _ _ (by simp_all [aliveObs]) rfl rfl
  · split at hs
    · simp only [Res.ok.injEq] at hs; subst hs; exact rep _ _ (by simp_all [aliveObs]) rfl rfl
    · split at hs
      · simp only [Res.ok.injEq] at hs; subst hs; exact rep _ _ (by simp_all [aliveObs]) rfl rfl
      · split at hs
        · simp only [Res.ok.injEq] at hs; subst hs
          unfold startH
          repeat' split
          all_goals exact rep _ _ (by simp_all [aliveObs]) rfl rfl
        · unfold begunH at hs
          split at hs
          · simp only [Res.ok.injEq] at hs; subst hs; exact rep _ _ (by simp_all [aliveObs]) rfl rfl
          · split at hs
            · obtain ⟨t, _, rfl⟩ := trk_ok.1 hs
              refine ⟨.map _ (by simp_all [aliveObs]) ?_ rfl rfl (by simp [reply, hT]), rfl⟩
              intro x
              split <;> simp
            · simp only [Res.ok.injEq] at hs; subst hs; exact rep _ _ (by simp_all [aliveObs]) rfl rfl
        · simp only [Res.ok.injEq] at hs; subst hs
          unfold endH
          split
          · split
            · exact rep _ _ (by simp_all [aliveObs]) rfl rfl
            · rename_i conn hl
              split
              · exact ⟨.drop _ (by simp_all [aliveObs]) rfl rfl (by simp [reply, hT]), rfl⟩
              · exact ⟨.drop _ (by simp_all [aliveObs]) rfl rfl (by simp [hT]), rfl⟩
          · exact rep _ _ (by simp_all [aliveObs]) rfl rfl
        · rename_i txn hb
          unfold pingH at hs
          split at hs
          · simp only [Res.ok.injEq] at hs; subst hs; exact rep _ _ (by simp_all [aliveObs]; assumption) rfl rfl
          · rename_i conn hl
            obtain ⟨⟨w', k⟩, hi, hs⟩ := Res.bind_ok.1 hs
            simp only [Res.ok.injEq] at hs; subst hs
            exact ⟨.ping txn conn k (mem_of_lookup hl) (by intro n hn; simp [aliveObs, hb, Ne.symm hn]) hi rfl (by simp [reply, hT]), rfl⟩
        · simp only [Res.ok.injEq] at hs; subst hs
          exact ⟨.same (by simp_all [aliveObs]) rfl rfl (by simp [markH, reply, hT]), rfl⟩
        · cases hs

/-- Is it an action of the reaper? -/
def isReap : Act → Bool
  | .reapTick | .reapRemove | .reapCheck _ | .reapSend | .reapStop => true
  | _ => false

theorem View.step {a : Act} (ha : isReap a = false) (hs : Sys.step c s a = .ok s') : View c s s' a ∧ s'.reaper = s.reaper := by
  have mv : ∀ {a : Act} (i : Nat) (x x' : Handler) (s1 : State), (∀ n, aliveObs c n s a = []) → s.handlers[i]? = some x →
      s1.handlers = s.handlers.set i x' → hT x = hT x' → s1.wheel = s.wheel → s1.conns = s.conns →
      s1.reaper = s.reaper → View c s s1 a ∧ s1.reaper = s.reaper := by
    intro a i x x' s1 h0 hx h3 e1 h1 h2 h4
    exact ⟨.same (fun x _ => h0 x.1) h1 h2 (by rw [h3]; exact flatMap_set_eq hx e1.symm), h4⟩
  have sm : ∀ {a : Act} (s1 : State), (∀ n, aliveObs c n s a = []) → s1.handlers = s.handlers → s1.wheel = s.wheel → s1.conns = s.conns →
      s1.reaper = s.reaper → View c s s1 a ∧ s1.reaper = s.reaper := by
    intro a s1 h0 h3 h1 h2 h4
    exact ⟨.same (fun x _ => h0 x.1) h1 h2 (by rw [h3]), h4⟩
  cases a with
  | reapTick => cases ha
  | reapRemove => cases ha
  | reapCheck _ => cases ha
  | reapSend => cases ha
  | reapStop => cases ha
  | request r =>
    simp only [Sys.step] at hs
    split at hs
    · cases hs
    · exact View.takeRequest hs
  | loopDie i =>
    simp only [Sys.step] at hs
    split at hs
    · simp only [Res.ok.injEq] at hs; subst hs
      split <;> exact sm _ (fun _ => rfl) rfl rfl rfl rfl
    · cases hs
  | hTimer i txn =>
    simp only [Sys.step] at hs
    split at hs
    · rename_i v j hx
      obtain ⟨⟨w', k⟩, hi, hs⟩ := Res.bind_ok.1 hs
      simp only [Res.ok.injEq] at hs; subst hs
      exact ⟨.timer i txn k hi (by simp [drawn, hx]) rfl (flatMap_set_perm (f := hT) (y := .timed v j txn k) hx), rfl⟩
    · cases hs
  | hInsert i =>
    simp only [Sys.step] at hs
    split at hs
    · rename_i v j txn tm hx
      simp only [Res.ok.injEq] at hs; subst hs
      refine ⟨.insert i txn ⟨v, s.tr.now, tm, j, false⟩ rfl rfl (by simp [handedOut, hx]) (by intro n hn; simp [aliveObs, hx, Ne.symm hn]) ?_, rfl⟩
      exact (flatMap_set_perm (f := hT) (y := .done (some (.task txn v))) hx).symm
    · cases hs
  | hCancel i =>
    simp only [Sys.step] at hs
    split at hs
    · rename_i conn code values next hx
      simp only [Res.ok.injEq] at hs; subst hs
      exact ⟨.cancel conn.timer (fun _ _ => rfl) rfl rfl (flatMap_set_eq hx rfl), rfl⟩
    · cases hs
  | hReport i =>
    simp only [Sys.step] at hs
    split at hs
    · rename_i conn code values next hx
      obtain ⟨t, _, rfl⟩ := trk_ok.1 hs
      cases next <;> exact mv i _ _ _ (fun _ => rfl) hx rfl rfl rfl rfl rfl
    · cases hs
  | hRecv i =>
    simp only [Sys.step] at hs
    split at hs
    · rename_i hx
      split at hs
      · obtain ⟨t, _, rfl⟩ := trk_ok.1 hs; exact mv i _ _ _ (fun _ => rfl) hx rfl rfl rfl rfl rfl
      · simp only [Res.ok.injEq] at hs; subst hs; exact mv i _ _ _ (fun _ => rfl) hx rfl rfl rfl rfl rfl
      · simp only [Res.ok.injEq] at hs; subst hs; exact mv i _ _ _ (fun _ => rfl) hx rfl rfl rfl rfl rfl
    · cases hs
  | hLeave i k timeout =>
    simp only [Sys.step] at hs
    split at hs
    · rename_i hx
      split at hs
      · simp only [Res.ok.injEq] at hs; subst hs; exact mv i _ _ _ (fun _ => rfl) hx rfl rfl rfl rfl rfl
      · cases hs
    · rename_i hx
      split at hs
      · obtain ⟨t, _, rfl⟩ := trk_ok.1 hs; exact mv i _ _ _ (fun _ => rfl) hx rfl rfl rfl rfl rfl
      · cases hs
    · cases hs
  | hDrop i k =>
    simp only [Sys.step] at hs
    split at hs
    · rename_i hx
      simp only [Res.ok.injEq] at hs; subst hs; exact mv i _ _ _ (fun _ => rfl) hx rfl rfl rfl rfl rfl
    · rename_i hx
      split at hs
      · obtain ⟨t, _, rfl⟩ := trk_ok.1 hs; exact mv i _ _ _ (fun _ => rfl) hx rfl rfl rfl rfl rfl
      · cases hs
    · rename_i hx
      simp only [Res.ok.injEq] at hs; subst hs; exact mv i _ _ _ (fun _ => rfl) hx rfl rfl rfl rfl rfl
    · cases hs
  | hGot i k =>
    simp only [Sys.step] at hs
    split at hs
    · rename_i hx _
      split at hs
      · obtain ⟨t, _, rfl⟩ := trk_ok.1 hs; exact mv i _ _ _ (fun _ => rfl) hx rfl rfl rfl rfl rfl
      · cases hs
    · cases hs
  | hDie i =>
    simp only [Sys.step] at hs
    split at hs
    · rename_i hx
      split at hs
      · simp only [Res.ok.injEq] at hs; subst hs; exact mv i _ _ _ (fun _ => rfl) hx rfl rfl rfl rfl rfl
      · cases hs
    · cases hs
  | hFlag i =>
    simp only [Sys.step] at hs
    split at hs
    · rename_i hx
      split at hs
      · simp only [Res.ok.injEq] at hs; subst hs; exact mv i _ _ _ (fun _ => rfl) hx rfl rfl rfl rfl rfl
      · cases hs
    · cases hs
  | _ =>
    simp only [Sys.step] at hs
    repeat' split at hs
    all_goals first
      | (cases hs; done)
      | (obtain ⟨t, _, rfl⟩ := trk_ok.1 hs; exact sm _ (fun _ => rfl) rfl rfl rfl rfl)
      | (simp only [Res.ok.injEq] at hs; subst hs; exact sm _ (fun _ => rfl) rfl rfl rfl rfl)

/-! ### silence -/

/-- The run ends with `n` ticks without a sign of life of the connection. -/
def Quiet (c : Cfg) (s0 : State) (as : List Act) (txn v n : Nat) : Prop :=
  ∃ as1 bs1 s1, as = as1 ++ bs1 ∧ Runs c s0 as1 s1 ∧ (∃ x ∈ s1.conns, x.1 = txn ∧ x.2.node = v) ∧
    Silent c s1 txn bs1 ∧ n ≤ bs1.countP isReapTick

variable {s0 : State} {as : List Act} {a : Act} {txn v n : Nat}

theorem Quiet.was (h : Quiet c s0 as txn v n) : WasSilent c s0 as txn v n := by
  obtain ⟨as1, bs1, s1, e, h1, h2, h3, h4⟩ := h
  exact ⟨as1, bs1, [], s1, by rw [e]; simp, h1, h2, h3, h4⟩

theorem WasSilent.more (h : WasSilent c s0 as txn v n) (cs : List Act) : WasSilent c s0 (as ++ cs) txn v n := by
  obtain ⟨as1, bs1, rest, s1, e, h1, h2, h3, h4⟩ := h
  exact ⟨as1, bs1, rest ++ cs, s1, by rw [e]; simp, h1, h2, h3, h4⟩

theorem Quiet.zero (hr : Runs c s0 as s) {x : Nat × Conn} (hx : x ∈ s.conns) : Quiet c s0 as x.1 x.2.node 0 :=
  ⟨as, [], s, by simp, hr, ⟨x, hx, rfl, rfl⟩, rfl, Nat.zero_le _⟩

theorem Quiet.mono (h : Quiet c s0 as txn v n) {m : Nat} (hm : m ≤ n) : Quiet c s0 as txn v m := by
  obtain ⟨as1, bs1, s1, e, h1, h2, h3, h4⟩ := h
  exact ⟨as1, bs1, s1, e, h1, h2, h3, by omega⟩

theorem Runs.suffix {s1 : State} {bs : List Act} (hr : Runs c s0 (as ++ bs) s) (h1 : Runs c s0 as s1) : Runs c s1 bs s := by
  induction h1 with
  | nil => simpa using hr
  | cons hd hs _ ih =>
    cases hr with
    | cons hd' hs' hr' =>
      rw [hs] at hs'
      simp only [Res.ok.injEq] at hs'
      subst hs'
      exact ih hr'

theorem Quiet.snoc (hr : Runs c s0 as s) (h : Quiet c s0 as txn v n) (ha : aliveObs c txn s a = []) :
    Quiet c s0 (as ++ [a]) txn v (n + if isReapTick a then 1 else 0) := by
  obtain ⟨as1, bs1, s1, rfl, h1, h2, h3, h4⟩ := h
  have hb := hr.suffix h1
  refine ⟨as1, bs1 ++ [a], s1, by simp, h1, h2, ?_, ?_⟩
  · unfold Silent at h3 ⊢
    rw [collect_snoc hb, h3, ha]; rfl
  · rw [List.countP_append]
    cases h : isReapTick a <;> simp [h] <;> omega

/-! ### the exact state of the timers -/

/-- Connections still to be removed because of a soft cancellation. -/
def rS : Reaper → List Nat
  | .softRemoving txns _ => txns
  | _ => []

/-- Started within the 5 s before too many tasks had failed, or later. -/
def SoftStart (c : Cfg) (s0 : State) (as : List Act) (st : Int) : Prop :=
  ∃ T, TooManyFailuresAt c s0 as T ∧ st > T - 5000000000

/-- Why a task is reported as disconnected. -/
def Origin (c : Cfg) (s0 : State) (as : List Act) (v : Nat) : Prop :=
  ∃ txn, WasSilent c s0 as txn v 255 ∨ ∃ st, (txn, v, st) ∈ collect handedOut c s0 as ∧ SoftStart c s0 as st

theorem SoftStart.more {st : Int} (h : SoftStart c s0 as st) (cs : List Act) : SoftStart c s0 (as ++ cs) st := by
  obtain ⟨T, h1, h2⟩ := h
  exact ⟨T, h1.more, h2⟩

theorem Origin.more (hr : Runs c s0 as s) (h : Origin c s0 as v) (cs : List Act) : Origin c s0 (as ++ cs) v := by
  obtain ⟨txn, h | ⟨st, h1, h2⟩⟩ := h
  · exact ⟨txn, .inl (h.more cs)⟩
  · exact ⟨txn, .inr ⟨st, by rw [collect_append hr]; exact List.mem_append_left _ h1, h2.more cs⟩⟩

structure Exact (c : Cfg) (s0 : State) (as : List Act) (s : State) (p : List (TimeWheel.Timer Nat)) : Prop where
  rel : TimeWheel.Rel s.wheel p
  dur : s.wheel.duration = wheelDuration
  le : ∀ t ∈ p, t.left ≤ 255
  usedP : ∀ t ∈ p, t.entry ∈ collect drawn c s0 as
  usedC : ∀ x ∈ s.conns, x.1 ∈ collect drawn c s0 as
  usedR : ∀ n ∈ rT s.reaper, n ∈ collect drawn c s0 as
  usedS : ∀ n ∈ rS s.reaper, n ∈ collect drawn c s0 as
  usedT : ∀ x ∈ s.handlers.flatMap hT, x.1 ∈ collect drawn c s0 as
  nodupT : ((s.handlers.flatMap hT).map (·.1)).Nodup
  disjC : ∀ x ∈ s.handlers.flatMap hT, ∀ y ∈ s.conns, x.1 ≠ y.1
  disjR : ∀ x ∈ s.handlers.flatMap hT, x.1 ∉ rT s.reaper
  disjS : ∀ x ∈ s.handlers.flatMap hT, x.1 ∉ rS s.reaper
  timT : ∀ x ∈ s.handlers.flatMap hT, ∀ t ∈ p, t.entry = x.1 → t.id = x.2 ∧ t.left = 255
  timC : ∀ x ∈ s.conns, ∀ t ∈ p, t.entry = x.1 → t.id = x.2.timer ∧ Quiet c s0 as x.1 x.2.node (255 - t.left)
  todo : ∀ x ∈ s.conns, x.1 ∈ rT s.reaper → WasSilent c s0 as x.1 x.2.node 255
  soft : ∀ x ∈ s.conns, x.1 ∈ rS s.reaper → SoftStart c s0 as x.2.start
  hand : ∀ x ∈ s.conns, (x.1, x.2.node, x.2.start) ∈ collect handedOut c s0 as
  own : ∀ v ∈ ownR s.reaper, Origin c s0 as v

variable {p : List (TimeWheel.Timer Nat)}

/-- Nothing new: fewer timers and connections. -/
theorem Exact.less (hr : Runs c s0 as s) (h : Exact c s0 as s p) (ha : isReapTick a = false) {p' : List (TimeWheel.Timer Nat)}
    (hrel : TimeWheel.Rel s'.wheel p') (hdur : s'.wheel.duration = wheelDuration) (hp : ∀ t ∈ p', t ∈ p)
    (hc : ∀ y ∈ s'.conns, ∃ x ∈ s.conns, y.1 = x.1 ∧ y.2.timer = x.2.timer ∧ y.2.node = x.2.node ∧ y.2.start = x.2.start ∧
      aliveObs c x.1 s a = [])
    (hT' : s'.handlers.flatMap hT = s.handlers.flatMap hT) (hre : s'.reaper = s.reaper) : Exact c s0 (as ++ [a]) s' p' where
  rel := hrel
  dur := hdur
  le := fun t ht => h.le t (hp t ht)
  usedP := fun t ht => by rw [collect_snoc hr]; exact List.mem_append_left _ (h.usedP t (hp t ht))
  usedC := fun y hy => by
    obtain ⟨x, hx, e, _⟩ := hc y hy
    rw [collect_snoc hr, e]; exact List.mem_append_left _ (h.usedC x hx)
  usedR := fun n hn => by rw [collect_snoc hr]; exact List.mem_append_left _ (h.usedR n (hre ▸ hn))
  usedS := fun n hn => by rw [collect_snoc hr]; exact List.mem_append_left _ (h.usedS n (hre ▸ hn))
  usedT := fun x hx => by rw [collect_snoc hr]; exact List.mem_append_left _ (h.usedT x (hT' ▸ hx))
  nodupT := by rw [hT']; exact h.nodupT
  disjC := fun x hx y hy => by
    obtain ⟨z, hz, e, _⟩ := hc y hy
    rw [e]; exact h.disjC x (hT' ▸ hx) z hz
  disjR := fun x hx => by rw [hre]; exact h.disjR x (hT' ▸ hx)
  disjS := fun x hx => by rw [hre]; exact h.disjS x (hT' ▸ hx)
  timT := fun x hx t ht => h.timT x (hT' ▸ hx) t (hp t ht)
  timC := fun y hy t ht e => by
    obtain ⟨x, hx, e1, e2, e3, e4, e5⟩ := hc y hy
    obtain ⟨h1, h2⟩ := h.timC x hx t (hp t ht) (e.trans e1)
    refine ⟨h1.trans e2.symm, ?_⟩
    rw [e1, e3]
    exact (h2.snoc hr e5).mono (Nat.le_add_right _ _)
  todo := fun y hy hn => by
    obtain ⟨x, hx, e1, e2, e3, e4, e5⟩ := hc y hy
    rw [e1, e3]
    exact (h.todo x hx (by rw [← e1, ← hre]; exact hn)).more _
  soft := fun y hy hn => by
    obtain ⟨x, hx, e1, e2, e3, e4, e5⟩ := hc y hy
    rw [e4]
    exact (h.soft x hx (by rw [← e1, ← hre]; exact hn)).more _
  hand := fun y hy => by
    obtain ⟨x, hx, e1, e2, e3, e4, e5⟩ := hc y hy
    rw [e1, e3, e4, collect_snoc hr]
    exact List.mem_append_left _ (h.hand x hx)
  own := fun v hv => (h.own v (hre ▸ hv)).more hr _

theorem View.exact (hr : Runs c s0 as s) (hr' : Runs c s0 (as ++ [a]) s') (hk : (s.conns.map (·.1)).Nodup)
    (hf : FreshTxns c s0 (as ++ [a])) (ha : isReapTick a = false) (hv : View c s s' a) (hre : s'.reaper = s.reaper)
    (h : Exact c s0 as s p) : ∃ p, Exact c s0 (as ++ [a]) s' p := by
  cases hv with
  | same h0 h1 h2 h3 =>
    exact ⟨p, h.less hr ha (h1 ▸ h.rel) (h1 ▸ h.dur) (fun _ => id)
      (fun y hy => ⟨y, h2 ▸ hy, rfl, rfl, rfl, rfl, h0 y (h2 ▸ hy)⟩) h3 hre⟩
  | map f h0 hff h1 h2 h3 =>
    refine ⟨p, h.less hr ha (h1 ▸ h.rel) (h1 ▸ h.dur) (fun _ => id) ?_ h3 hre⟩
    intro y hy
    rw [h2] at hy
    obtain ⟨x, hx, rfl⟩ := List.mem_map.1 hy
    obtain ⟨e1, e2, e3, e4⟩ := hff x
    exact ⟨x, hx, e1, e2, e3, e4, h0 x hx⟩
  | drop txn h0 h1 h2 h3 =>
    refine ⟨p, h.less hr ha (h1 ▸ h.rel) (h1 ▸ h.dur) (fun _ => id) ?_ h3 hre⟩
    intro y hy
    rw [h2] at hy
    have hy' := (List.mem_filter.1 hy).1
    exact ⟨y, hy', rfl, rfl, rfl, rfl, h0 y hy'⟩
  | cancel k h0 h1 h2 h3 =>
    refine ⟨p.filter (fun t => t.id != k), h.less hr ha ?_ ?_ (fun t ht => (List.mem_filter.1 ht).1)
      (fun y hy => ⟨y, h2 ▸ hy, rfl, rfl, rfl, rfl, h0 y (h2 ▸ hy)⟩) h3 hre⟩
    · rw [h1]; exact TimeWheel.cancel_spec h.rel k
    · rw [h1, ← h.dur]; unfold TimeWheel.cancel; split <;> rfl
  | ping txn cn k hcn h0 hi h2 h3 =>
    have hd : (TimeWheel.cancel s.wheel cn.timer).duration = wheelDuration := by
      rw [← h.dur]; unfold TimeWheel.cancel; split <;> rfl
    obtain ⟨i1, i2, i3, i4, i5⟩ := insert_ping (TimeWheel.cancel_spec h.rel cn.timer) hd hi
    have hin : ∀ t ∈ p.filter (fun t => t.id != cn.timer), t ∈ p ∧ t.entry ≠ txn := by
      intro t ht
      obtain ⟨ht1, ht2⟩ := List.mem_filter.1 ht
      refine ⟨ht1, fun e => ?_⟩
      have := (h.timC (txn, cn) hcn t ht1 e).1
      simp [this] at ht2
    have hc : ∀ y ∈ s'.conns, ∃ x ∈ s.conns, y.1 = x.1 ∧ y.2.node = x.2.node ∧ y.2.start = x.2.start ∧
        (y.1 = txn → y.2.timer = k) ∧ (y.1 ≠ txn → y.2.timer = x.2.timer ∧ aliveObs c x.1 s a = []) := by
      intro y hy
      rw [h2] at hy
      obtain ⟨x, hx, rfl⟩ := List.mem_map.1 hy
      refine ⟨x, hx, ?_⟩
      by_cases e : x.1 = txn
      · simp [e]
      · simp only [if_neg e, true_and]
        exact ⟨fun e' => absurd e' e, fun _ => h0 _ e⟩
    refine ⟨_, ⟨i2, i3, ?_, ?_, ?_, ?_, ?_, ?_, by rw [h3]; exact h.nodupT, ?_, ?_, ?_, ?_, ?_, ?_, ?_, ?_, ?_⟩⟩
    · intro t ht
      rcases List.mem_append.1 ht with ht | ht
      · exact h.le t (hin t ht).1
      · simp only [List.mem_singleton] at ht; subst ht; exact Nat.le_refl _
    · intro t ht
      rw [collect_snoc hr]
      refine List.mem_append_left _ ?_
      rcases List.mem_append.1 ht with ht | ht
      · exact h.usedP t (hin t ht).1
      · simp only [List.mem_singleton] at ht; subst ht; exact h.usedC _ hcn
    · intro y hy
      obtain ⟨x, hx, e, _⟩ := hc y hy
      rw [collect_snoc hr, e]; exact List.mem_append_left _ (h.usedC x hx)
    · exact fun n hn => by rw [collect_snoc hr]; exact List.mem_append_left _ (h.usedR n (hre ▸ hn))
    · exact fun n hn => by rw [collect_snoc hr]; exact List.mem_append_left _ (h.usedS n (hre ▸ hn))
    · exact fun x hx => by rw [collect_snoc hr]; exact List.mem_append_left _ (h.usedT x (h3 ▸ hx))
    · intro x hx y hy
      obtain ⟨z, hz, e, _⟩ := hc y hy
      rw [e]; exact h.disjC x (h3 ▸ hx) z hz
    · exact fun x hx => by rw [hre]; exact h.disjR x (h3 ▸ hx)
    · exact fun x hx => by rw [hre]; exact h.disjS x (h3 ▸ hx)
    · intro x hx t ht e
      rw [h3] at hx
      rcases List.mem_append.1 ht with ht | ht
      · exact h.timT x hx t (hin t ht).1 e
      · simp only [List.mem_singleton] at ht; subst ht
        exact absurd e.symm (h.disjC x hx _ hcn)
    · intro y hy t ht e
      obtain ⟨x, hx, e1, e2, e3, e4, e5⟩ := hc y hy
      rcases List.mem_append.1 ht with ht | ht
      · obtain ⟨ht1, ht2⟩ := hin t ht
        obtain ⟨e6, e7⟩ := e5 (fun e' => ht2 (e.trans e'))
        obtain ⟨q1, q2⟩ := h.timC x hx t ht1 (e.trans e1)
        refine ⟨q1.trans e6.symm, ?_⟩
        rw [e1, e2]
        exact (q2.snoc hr e7).mono (Nat.le_add_right _ _)
      · simp only [List.mem_singleton] at ht; subst ht
        exact ⟨(e4 e.symm).symm, Quiet.zero hr' hy⟩
    · intro y hy hn
      obtain ⟨x, hx, e1, e2, e3, e4, e5⟩ := hc y hy
      rw [e1, e2]
      exact (h.todo x hx (by rw [← e1, ← hre]; exact hn)).more _
    · intro y hy hn
      obtain ⟨x, hx, e1, e2, e3, e4, e5⟩ := hc y hy
      rw [e3]
      exact (h.soft x hx (by rw [← e1, ← hre]; exact hn)).more _
    · intro y hy
      obtain ⟨x, hx, e1, e2, e3, e4, e5⟩ := hc y hy
      rw [e1, e2, e3, collect_snoc hr]
      exact List.mem_append_left _ (h.hand x hx)
    · exact fun v hv => (h.own v (hre ▸ hv)).more hr _
  | timer i txn k hi hd h2 h3 =>
    obtain ⟨i1, i2, i3, i4, i5⟩ := insert_ping h.rel h.dur hi
    have hnew : txn ∉ collect drawn c s0 as := by
      have := hf
      unfold FreshTxns at this
      rw [collect_snoc hr, hd] at this
      exact fun hm => (List.nodup_append.1 this).2.2 _ hm txn (by simp) rfl
    have hne : ∀ {n}, n ∈ collect drawn c s0 as → n ≠ txn := fun hm e => hnew (e ▸ hm)
    have hsub : ∀ x ∈ s'.handlers.flatMap hT, x = (txn, k) ∨ x ∈ s.handlers.flatMap hT :=
      fun x hx => List.mem_cons.1 (h3.subset hx)
    refine ⟨_, ⟨i2, i3, ?_, ?_, ?_, ?_, ?_, ?_, ?_, ?_, ?_, ?_, ?_, ?_, ?_, ?_, ?_, ?_⟩⟩
    · intro t ht
      rcases List.mem_append.1 ht with ht | ht
      · exact h.le t ht
      · simp only [List.mem_singleton] at ht; subst ht; exact Nat.le_refl _
    · intro t ht
      rw [collect_snoc hr, hd]
      rcases List.mem_append.1 ht with ht | ht
      · exact List.mem_append_left _ (h.usedP t ht)
      · simp only [List.mem_singleton] at ht; subst ht; simp
    · exact fun y hy => by rw [collect_snoc hr]; exact List.mem_append_left _ (h.usedC y (h2 ▸ hy))
    · exact fun n hn => by rw [collect_snoc hr]; exact List.mem_append_left _ (h.usedR n (hre ▸ hn))
    · exact fun n hn => by rw [collect_snoc hr]; exact List.mem_append_left _ (h.usedS n (hre ▸ hn))
    · intro x hx
      rw [collect_snoc hr, hd]
      rcases hsub x hx with rfl | hx
      · simp
      · exact List.mem_append_left _ (h.usedT x hx)
    · refine ((h3.map (·.1)).nodup_iff).2 ?_
      simp only [List.map_cons, List.nodup_cons]
      refine ⟨fun hm => ?_, h.nodupT⟩
      obtain ⟨x, hx, e⟩ := List.mem_map.1 hm
      exact hne (h.usedT x hx) e
    · intro x hx y hy
      rw [h2] at hy
      rcases hsub x hx with rfl | hx
      · exact (hne (h.usedC y hy)).symm
      · exact h.disjC x hx y hy
    · intro x hx
      rw [hre]
      rcases hsub x hx with rfl | hx
      · exact fun hm => hne (h.usedR _ hm) rfl
      · exact h.disjR x hx
    · intro x hx
      rw [hre]
      rcases hsub x hx with rfl | hx
      · exact fun hm => hne (h.usedS _ hm) rfl
      · exact h.disjS x hx
    · intro x hx t ht e
      rcases hsub x hx with rfl | hx <;> rcases List.mem_append.1 ht with ht | ht
      · exact absurd e (hne (h.usedP t ht))
      · simp only [List.mem_singleton] at ht; subst ht; exact ⟨rfl, rfl⟩
      · exact h.timT x hx t ht e
      · simp only [List.mem_singleton] at ht; subst ht
        exact absurd e.symm (hne (h.usedT x hx))
    · intro y hy t ht e
      rw [h2] at hy
      rcases List.mem_append.1 ht with ht | ht
      · obtain ⟨q1, q2⟩ := h.timC y hy t ht e
        exact ⟨q1, (q2.snoc hr (a := .hTimer i txn) rfl).mono (Nat.le_add_right _ _)⟩
      · simp only [List.mem_singleton] at ht; subst ht
        exact absurd e.symm (hne (h.usedC y hy))
    · exact fun y hy hn => (h.todo y (h2 ▸ hy) (hre ▸ hn)).more _
    · exact fun y hy hn => (h.soft y (h2 ▸ hy) (hre ▸ hn)).more _
    · exact fun y hy => by rw [collect_snoc hr]; exact List.mem_append_left _ (h.hand y (h2 ▸ hy))
    · exact fun v hv => (h.own v (hre ▸ hv)).more hr _
  | insert i txn cn h1 h2 hd h0 h3 =>
    have hsub : ∀ x ∈ s'.handlers.flatMap hT, x ∈ s.handlers.flatMap hT := fun x hx => h3.symm.subset (List.mem_cons_of_mem _ hx)
    have hmem : (txn, cn.timer) ∈ s.handlers.flatMap hT := h3.symm.subset (by simp)
    have hnd := ((h3.map (·.1)).nodup_iff).1 h.nodupT
    simp only [List.map_cons, List.nodup_cons] at hnd
    have hc : ∀ y ∈ s'.conns, (y ∈ s.conns ∧ y.1 ≠ txn) ∨ y = (txn, cn) := by
      intro y hy
      rw [h2] at hy
      rcases List.mem_append.1 hy with hy | hy
      · obtain ⟨a1, a2⟩ := List.mem_filter.1 hy
        exact .inl ⟨a1, by simpa using a2⟩
      · exact .inr (by simpa using hy)
    refine ⟨p, ⟨h1 ▸ h.rel, h1 ▸ h.dur, h.le, ?_, ?_, ?_, ?_, ?_, hnd.2, ?_, ?_, ?_, ?_, ?_, ?_, ?_, ?_, ?_⟩⟩
    · exact fun t ht => by rw [collect_snoc hr]; exact List.mem_append_left _ (h.usedP t ht)
    · intro y hy
      rw [collect_snoc hr]
      refine List.mem_append_left _ ?_
      rcases hc y hy with ⟨hy, _⟩ | rfl
      · exact h.usedC y hy
      · exact h.usedT _ hmem
    · exact fun n hn => by rw [collect_snoc hr]; exact List.mem_append_left _ (h.usedR n (hre ▸ hn))
    · exact fun n hn => by rw [collect_snoc hr]; exact List.mem_append_left _ (h.usedS n (hre ▸ hn))
    · exact fun x hx => by rw [collect_snoc hr]; exact List.mem_append_left _ (h.usedT x (hsub x hx))
    · intro x hx y hy
      rcases hc y hy with ⟨hy, _⟩ | rfl
      · exact h.disjC x (hsub x hx) y hy
      · exact fun e => hnd.1 (List.mem_map.2 ⟨x, hx, e⟩)
    · exact fun x hx => by rw [hre]; exact h.disjR x (hsub x hx)
    · exact fun x hx => by rw [hre]; exact h.disjS x (hsub x hx)
    · exact fun x hx => h.timT x (hsub x hx)
    · intro y hy t ht e
      rcases hc y hy with ⟨hy', hne⟩ | rfl
      · obtain ⟨q1, q2⟩ := h.timC y hy' t ht e
        exact ⟨q1, (q2.snoc hr (h0 _ hne)).mono (Nat.le_add_right _ _)⟩
      · obtain ⟨q1, q2⟩ := h.timT _ hmem t ht e
        exact ⟨q1, by rw [q2]; exact Quiet.zero hr' hy⟩
    · intro y hy hn
      rw [hre] at hn
      rcases hc y hy with ⟨hy, _⟩ | rfl
      · exact (h.todo y hy hn).more _
      · exact absurd hn (h.disjR _ hmem)
    · intro y hy hn
      rw [hre] at hn
      rcases hc y hy with ⟨hy, _⟩ | rfl
      · exact (h.soft y hy hn).more _
      · exact absurd hn (h.disjS _ hmem)
    · intro y hy
      rw [collect_snoc hr, hd]
      rcases hc y hy with ⟨hy, _⟩ | rfl
      · exact List.mem_append_left _ (h.hand y hy)
      · simp
    · exact fun v hv => (h.own v (hre ▸ hv)).more hr _

theorem key_inj {l : List (Nat × Conn)} (hk : (l.map (·.1)).Nodup) {x y : Nat × Conn} (hx : x ∈ l) (hy : y ∈ l) (e : x.1 = y.1) :
    x = y := by
  induction l with
  | nil => cases hx
  | cons z l ih =>
    simp only [List.map_cons, List.nodup_cons] at hk
    rcases List.mem_cons.1 hx with h1 | h1 <;> rcases List.mem_cons.1 hy with h2 | h2
    · rw [h1, h2]
    · exact absurd (List.mem_map.2 ⟨y, h2, by rw [← e, h1]⟩) hk.1
    · exact absurd (List.mem_map.2 ⟨x, h1, by rw [e, h2]⟩) hk.1
    · exact ih hk.2 h1 h2

/-- The reaper goes on, possibly removing a connection. -/
theorem Exact.reap (hr : Runs c s0 as s) (h : Exact c s0 as s p) (ha : isReap a = true) (ht : isReapTick a = false)
    (hw : s'.wheel = s.wheel) (hh : s'.handlers = s.handlers) (hc : ∀ y ∈ s'.conns, y ∈ s.conns)
    (hR : ∀ n ∈ rT s'.reaper, n ∈ rT s.reaper)
    (hS : ∀ n ∈ rS s'.reaper, n ∈ rS s.reaper ∨ (n ∈ s.conns.map (·.1) ∧ ∀ x ∈ s.conns, x.1 = n → SoftStart c s0 as x.2.start))
    (ho : ∀ v ∈ ownR s'.reaper, Origin c s0 as v) : Exact c s0 (as ++ [a]) s' p := by
  have hd : drawn s a = [] := by cases a <;> first | rfl | cases ha
  have hd' : handedOut s a = [] := by cases a <;> first | rfl | cases ha
  have hal : ∀ n, aliveObs c n s a = [] := by cases a <;> first | (intro n; rfl) | cases ha
  have hD : collect drawn c s0 (as ++ [a]) = collect drawn c s0 as := by rw [collect_snoc hr, hd, List.append_nil]
  refine ⟨hw ▸ h.rel, hw ▸ h.dur, h.le, hD ▸ h.usedP, fun y hy => hD ▸ h.usedC y (hc y hy), fun n hn => hD ▸ h.usedR n (hR n hn), ?_,
    ?_, hh ▸ h.nodupT, ?_, ?_, ?_, ?_, ?_, ?_, ?_, ?_, fun v hv => (ho v hv).more hr _⟩
  · intro n hn
    rw [hD]
    rcases hS n hn with hn | ⟨hn, _⟩
    · exact h.usedS n hn
    · obtain ⟨x, hx, rfl⟩ := List.mem_map.1 hn
      exact h.usedC x hx
  · rw [hh, hD]; exact h.usedT
  · rw [hh]; exact fun x hx y hy => h.disjC x hx y (hc y hy)
  · rw [hh]; exact fun x hx hn => h.disjR x hx (hR _ hn)
  · rw [hh]
    intro x hx hn
    rcases hS _ hn with hn | ⟨hn, _⟩
    · exact h.disjS x hx hn
    · obtain ⟨y, hy, e⟩ := List.mem_map.1 hn
      exact h.disjC x hx y hy e.symm
  · rw [hh]; exact h.timT
  · intro y hy t ht e
    obtain ⟨q1, q2⟩ := h.timC y (hc y hy) t ht e
    exact ⟨q1, (q2.snoc hr (hal _)).mono (Nat.le_add_right _ _)⟩
  · exact fun y hy hn => (h.todo y (hc y hy) (hR _ hn)).more _
  · intro y hy hn
    rcases hS _ hn with hn | ⟨_, hn⟩
    · exact (h.soft y (hc y hy) hn).more _
    · exact (hn y (hc y hy) rfl).more _
  · intro y hy
    rw [collect_snoc hr, hd', List.append_nil]
    exact h.hand y (hc y hy)

/-- The wheel turns. -/
theorem Exact.tick (hr : Runs c s0 as s) (h : Exact c s0 as s p) (hT0 : s.handlers.flatMap hT = [])
    (hs : Sys.step c s .reapTick = .ok s') : ∃ p, Exact c s0 (as ++ [.reapTick]) s' p := by
  simp only [Sys.step] at hs
  split at hs
  · simp only [Res.ok.injEq] at hs; subst hs
    obtain ⟨h1, h2⟩ := TimeWheel.tick_spec h.rel
    simp only [TimeWheel.specRet, TimeWheel.specNext] at h1 h2
    have hD : collect drawn c s0 (as ++ [.reapTick]) = collect drawn c s0 as := by
      rw [collect_snoc hr]; exact List.append_nil _
    have hH : collect handedOut c s0 (as ++ [.reapTick]) = collect handedOut c s0 as := by
      rw [collect_snoc hr]; exact List.append_nil _
    have hin : ∀ n ∈ (TimeWheel.tick s.wheel).2.map (·.2), ∃ t ∈ p, t.left = 1 ∧ t.entry = n := by
      intro n hn
      obtain ⟨e, he, rfl⟩ := List.mem_map.1 hn
      obtain ⟨t, ht, rfl⟩ := List.mem_map.1 (h1.subset he)
      obtain ⟨ht1, ht2⟩ := List.mem_filter.1 ht
      exact ⟨t, ht1, by simpa using ht2, rfl⟩
    refine ⟨_, ⟨h2, h.dur, ?_, ?_, hD ▸ h.usedC, ?_, (by intro n hn; cases hn), ?_, h.nodupT, ?_, ?_, ?_, ?_, ?_, ?_, ?_, hH ▸ h.hand,
      (by intro v hv; cases hv)⟩⟩
    · intro t ht
      obtain ⟨t0, ht0, rfl⟩ := List.mem_map.1 ht
      have := h.le t0 (List.mem_filter.1 ht0).1
      show t0.left - 1 ≤ 255
      omega
    · intro t ht
      obtain ⟨t0, ht0, rfl⟩ := List.mem_map.1 ht
      rw [hD]
      exact h.usedP t0 (List.mem_filter.1 ht0).1
    · intro n hn
      obtain ⟨t, ht, _, rfl⟩ := hin n hn
      rw [hD]
      exact h.usedP t ht
    · rw [hD]; exact h.usedT
    · exact h.disjC
    · intro x hx; rw [show (s.handlers.flatMap hT) = [] from hT0] at hx; cases hx
    · intro x hx; rw [show (s.handlers.flatMap hT) = [] from hT0] at hx; cases hx
    · intro x hx; rw [show (s.handlers.flatMap hT) = [] from hT0] at hx; cases hx
    · intro y hy t ht e
      obtain ⟨t0, ht0, rfl⟩ := List.mem_map.1 ht
      have hm := (List.mem_filter.1 ht0).1
      obtain ⟨q1, q2⟩ := h.timC y hy t0 hm e
      refine ⟨q1, (q2.snoc (a := .reapTick) hr rfl).mono ?_⟩
      have := h.le t0 hm
      have := (h.rel.left t0 hm).1
      show 255 - (t0.left - 1) ≤ 255 - t0.left + 1
      omega
    · intro y hy hn
      obtain ⟨t, ht, e1, e2⟩ := hin _ hn
      have q := (h.timC y hy t ht e2).2
      rw [e1] at q
      exact (q.snoc (a := .reapTick) hr rfl).was
    · intro y hy hn; cases hn
  · cases hs

theorem Exact.step (hg : Good c.tr) (hr : Runs c (init c lf now) as s) (hr' : Runs c (init c lf now) (as ++ [a]) s')
    (hk : (s.conns.map (·.1)).Nodup)
    (hf : FreshTxns c (init c lf now) (as ++ [a])) (hp : slowTick s a = []) (hs : Sys.step c s a = .ok s')
    (h : Exact c (init c lf now) as s p) : ∃ p, Exact c (init c lf now) (as ++ [a]) s' p := by
  cases hre : isReap a with
  | false =>
    obtain ⟨hv, he⟩ := View.step hre hs
    exact hv.exact hr hr' hk hf (by cases a <;> first | rfl | cases hre) he h
  | true =>
    cases a with
    | reapTick =>
      refine h.tick hr ?_ hs
      simp only [slowTick] at hp
      split at hp
      · cases hp
      · rename_i hb
        rw [List.flatMap_eq_nil_iff]
        intro x hx
        cases x with
        | timed _ _ _ _ => exact absurd (List.any_eq_true.2 ⟨_, hx, rfl⟩) hb
        | _ => rfl
    | reapRemove =>
      simp only [Sys.step] at hs
      split at hs
      · rename_i txn txns expired hre'
        simp only [Res.ok.injEq] at hs; subst hs
        refine ⟨p, h.reap hr rfl rfl rfl rfl (fun y hy => (List.mem_filter.1 hy).1) ?_ ?_ ?_⟩
        · intro n hn; rw [hre']; exact List.mem_cons_of_mem _ hn
        · intro n hn; cases hn
        · intro v hv
          rcases List.mem_append.1 hv with hv | hv
          · exact h.own v (by rw [hre']; exact hv)
          · cases hl : s.conns.lookup txn with
            | none => rw [hl] at hv; cases hv
            | some conn =>
              rw [hl] at hv
              simp only [Option.map_some, Option.toList_some, List.mem_singleton] at hv
              subst hv
              exact ⟨txn, .inl (h.todo (txn, conn) (mem_of_lookup hl) (by rw [hre']; exact List.mem_cons_self))⟩
      · rename_i txn txns expired hre'
        split at hs
        · rename_i conn hl
          simp only [Res.ok.injEq] at hs; subst hs
          refine ⟨p, h.reap hr rfl rfl rfl rfl (fun y hy => (List.mem_filter.1 hy).1) ?_ ?_ ?_⟩
          · intro n hn; cases hn
          · intro n hn; rw [hre']; exact .inl (List.mem_cons_of_mem _ hn)
          · intro v hv
            rcases List.mem_append.1 hv with hv | hv
            · exact h.own v (by rw [hre']; exact hv)
            · simp only [List.mem_singleton] at hv
              subst hv
              have hm := mem_of_lookup hl
              exact ⟨txn, .inr ⟨conn.start, h.hand _ hm, h.soft _ hm (by rw [hre']; exact List.mem_cons_self)⟩⟩
        · simp only [Res.ok.injEq] at hs; subst hs
          exact ⟨p, h.reap hr rfl rfl rfl rfl (fun y hy => hy) (by intro n hn; cases hn) (by intro n hn; cases hn)
            (fun v hv => h.own v (by rw [hre']; exact hv))⟩
      · rename_i expired hre'
        simp only [Res.ok.injEq] at hs; subst hs
        exact ⟨p, h.reap hr rfl rfl rfl rfl (fun y hy => hy) (by intro n hn; cases hn) (by intro n hn; cases hn)
          (fun v hv => h.own v (by rw [hre']; exact hv))⟩
      · cases hs
    | reapCheck order =>
      simp only [Sys.step] at hs
      split at hs
      · rename_i expired hre'
        split at hs
        · rename_i t htok
          split at hs
          · rename_i hperm
            simp only [Res.ok.injEq] at hs; subst hs
            refine ⟨p, h.reap hr rfl rfl rfl rfl (fun y hy => hy) (by intro n hn; cases hn) ?_
              (fun v hv => h.own v (by rw [hre']; exact hv))⟩
            intro n hn
            right
            obtain ⟨x, hx, rfl⟩ := List.mem_map.1 ((List.isPerm_iff.1 hperm).subset hn)
            obtain ⟨hx1, hx2⟩ := List.mem_filter.1 hx
            refine ⟨List.mem_map.2 ⟨x, hx1, rfl⟩, ?_⟩
            intro y hy e
            have : y = x := key_inj hk hy hx1 e
            subst this
            obtain ⟨T, hT1, rfl⟩ := token_moment hg hr t htok
            exact ⟨T, hT1, by simpa using hx2⟩
          · cases hs
        · simp only [Res.ok.injEq] at hs; subst hs
          exact ⟨p, h.reap hr rfl rfl rfl rfl (fun y hy => hy) (by intro n hn; cases hn) (by intro n hn; cases hn)
            (fun v hv => h.own v (by rw [hre']; exact hv))⟩
      · cases hs
    | reapSend =>
      simp only [Sys.step] at hs
      split at hs
      · rename_i v vs hre'
        obtain ⟨t, _, rfl⟩ := trk_ok.1 hs
        exact ⟨p, h.reap hr rfl rfl rfl rfl (fun y hy => hy) (by intro n hn; cases hn) (by intro n hn; cases hn)
          (fun v hv => h.own v (by rw [hre']; exact List.mem_cons_of_mem _ hv))⟩
      · simp only [Res.ok.injEq] at hs; subst hs
        exact ⟨p, h.reap hr rfl rfl rfl rfl (fun y hy => hy) (by intro n hn; cases hn) (by intro n hn; cases hn)
          (by intro n hn; cases hn)⟩
      · cases hs
    | reapStop =>
      simp only [Sys.step] at hs
      split at hs
      · simp only [Res.ok.injEq] at hs; subst hs
        exact ⟨p, h.reap hr rfl rfl rfl rfl (fun y hy => hy) (by intro n hn; cases hn) (by intro n hn; cases hn)
          (by intro n hn; cases hn)⟩
      · cases hs
    | _ => cases hre

theorem collect_prefix {β : Type} {f : State → Act → List β} (hr : Runs c s0 as s) (cs : List Act) :
    collect f c s0 as <+: collect f c s0 (as ++ cs) := by
  rw [collect_append hr]; exact List.prefix_append _ _

theorem Exact.runs (hg : Good c.tr) (hr : Runs c (init c lf now) as s) (hf : FreshTxns c (init c lf now) as)
    (hp : Prompt c (init c lf now) as) : ∃ p, Exact c (init c lf now) as s p := by
  refine Runs.snocInd (P := fun as s => FreshTxns c (init c lf now) as → Prompt c (init c lf now) as →
    ∃ p, Exact c (init c lf now) as s p) ?_ ?_ hr hf hp
  · intro _ _
    have e : rT (init c lf now).reaper = [] ∧ rS (init c lf now).reaper = [] ∧ ownR (init c lf now).reaper = [] := by
      simp only [init]; split <;> exact ⟨rfl, rfl, rfl⟩
    refine ⟨[], ⟨TimeWheel.Rel.new _, rfl, ?_, ?_, ?_, ?_, ?_, ?_, ?_, ?_, ?_, ?_, ?_, ?_, ?_, ?_, ?_, ?_⟩⟩
    all_goals first | (rw [e.1]; intro _ hn; cases hn; done) | (rw [e.2.1]; intro _ hn; cases hn; done) |
      (rw [e.2.2]; intro _ hn; cases hn; done) | simp [init]
  · intro as s a s' hr ih hpol hs hf hp
    obtain ⟨p, h⟩ := ih (hf.sublist (collect_prefix hr [a]).sublist) (by
      unfold Prompt at hp ⊢; rw [collect_snoc hr] at hp; exact (List.append_eq_nil_iff.1 hp).1)
    refine h.step hg hr (hr.snoc hpol hs) ?_ hf ?_ hs
    · exact ((Reachable.inv hg ⟨_, hr⟩).live).keys
    · unfold Prompt at hp; rw [collect_snoc hr] at hp; exact (List.append_eq_nil_iff.1 hp).2

/-- Where reports of disconnected tasks come from. -/
theorem disconnect_origin (hg : Good c.tr) (hr : Runs c (init c lf now) as s) (hf : FreshTxns c (init c lf now) as)
    (hp : Prompt c (init c lf now) as) (hv : (v, .disconnected) ∈ collect reportObs c (init c lf now) as) :
    Origin c (init c lf now) as v := by
  refine Runs.snocInd (P := fun as s => FreshTxns c (init c lf now) as → Prompt c (init c lf now) as →
    (v, .disconnected) ∈ collect reportObs c (init c lf now) as → Origin c (init c lf now) as v) ?_ ?_ hr hf hp hv
  · intro _ _ h; cases h
  · intro as s a s' hr ih hpol hs hf hp hv
    have hf' := hf.sublist (collect_prefix hr [a]).sublist
    have hp' : Prompt c (init c lf now) as := by
      unfold Prompt at hp ⊢; rw [collect_snoc hr] at hp; exact (List.append_eq_nil_iff.1 hp).1
    rw [collect_snoc hr] at hv
    rcases List.mem_append.1 hv with hv | hv
    · exact (ih hf' hp' hv).more hr _
    · obtain ⟨p, h⟩ := Exact.runs hg hr hf' hp'
      refine (h.own v ?_).more hr _
      cases a with
      | reapSend =>
        simp only [reportObs] at hv
        split at hv
        · rename_i w vs hre
          simp only [List.mem_singleton, Prod.mk.injEq, and_true] at hv
          rw [hre, hv]; exact List.mem_cons_self
        · cases hv
      | loopReport i =>
        simp only [reportObs] at hv
        split at hv <;> simp at hv
      | hReport i =>
        simp only [reportObs] at hv
        split at hv <;> simp at hv
      | _ => cases hv

end Verif.Sys
