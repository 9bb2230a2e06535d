import Verif.Proof.System7
import Verif.Proof.TrackerEntries

/-!
# Where reports come from; next tasks; the end of `execute`
-/

namespace Verif.Sys
open Verif Verif.Tracker

variable {c : Cfg} {lf : LogFile} {now : Int} {s s' s0 : State} {as : List Act} {a : Act}

theorem WasHard.more (h : WasHard c s0 as) (bs : List Act) : WasHard c s0 (as ++ bs) := by
  obtain ⟨as1, as2, s1, e, h1, h2⟩ := h
  exact ⟨as1, as2 ++ bs, s1, by rw [e]; simp, h1, h2⟩

/-- What is known about where a loop is. -/
def LoopSays (c : Cfg) (s0 : State) (as : List Act) : Loop → Prop
  | .failing v | .failed v => v ∈ collect failedSpawns c s0 as
  | .cancelled v => v ∈ collect softStops c s0 as
  | .ended v code values => (v, code, values) ∈ collect outputs c s0 as
  | .killed _ => WasHard c s0 as
  | _ => True

/-- What is known about where a handler is. -/
def HandlerSays (c : Cfg) (s0 : State) (as : List Act) : Handler → Prop
  | .ending conn code values _ | .reporting conn code values _ => ∃ txn, (txn, conn.node, code, values) ∈ collect (endRequests c) c s0 as
  | _ => True

theorem mem_more {β : Type} {f : State → Act → List β} (hr : Runs c s0 as s) {x : β} (hx : x ∈ collect f c s0 as) (bs : List Act) :
    x ∈ collect f c s0 (as ++ bs) := (collect_prefix hr bs).subset hx

theorem LoopSays.more (hr : Runs c s0 as s) {l : Loop} (h : LoopSays c s0 as l) (bs : List Act) : LoopSays c s0 (as ++ bs) l := by
  cases l <;> first | trivial | exact mem_more hr h bs | exact WasHard.more h bs

theorem HandlerSays.more (hr : Runs c s0 as s) {x : Handler} (h : HandlerSays c s0 as x) (bs : List Act) :
    HandlerSays c s0 (as ++ bs) x := by
  cases x <;> first | trivial | exact h.imp (fun _ hx => mem_more hr hx bs)

theorem mem_set_cases {α : Type} {l : List α} {i : Nat} {x y : α} (h : y ∈ l.set i x) : y ∈ l ∨ y = x :=
  (List.mem_or_eq_of_mem_set h)

theorem all_say (hr : Runs c (init c lf now) as s) :
    (∀ l ∈ s.loops, LoopSays c (init c lf now) as l) ∧ (∀ x ∈ s.handlers, HandlerSays c (init c lf now) as x) := by
  refine Runs.snocInd (P := fun as s => (∀ l ∈ s.loops, LoopSays c (init c lf now) as l) ∧
    (∀ x ∈ s.handlers, HandlerSays c (init c lf now) as x)) ?_ ?_ hr
  · refine ⟨?_, by simp [init]⟩
    intro l hl
    have : l = .top := by
      simp only [init] at hl
      split at hl <;> simp_all
    subst this; trivial
  · intro as s a s' hr ⟨ih1, ih2⟩ hpol hs
    constructor
    · rcases step_loops hs with ⟨e, _⟩ | ⟨i, l, l', o, hl, e, hm, _⟩
      · rw [e]; exact fun l hl => (ih1 l hl).more hr _
      · rw [e]
        intro x hx
        rcases mem_set_cases hx with hx | rfl
        · exact (ih1 x hx).more hr _
        · have hold := (ih1 l (List.mem_of_getElem? hl)).more hr [a]
          cases hm with
          | recv l' h => rcases h with rfl | rfl <;> trivial
          | spawnFail v => simp only [LoopSays]; rw [collect_snoc hr]; simp [failedSpawns, hl]
          | startedFail v host pid => exact hold
          | soft v st t h1 h2 => simp only [LoopSays]; rw [collect_snoc hr]; simp [softStops, hl]
          | hard v st h => exact ⟨as, [_], s, rfl, hr, h⟩
          | output v st code values => simp only [LoopSays]; rw [collect_snoc hr]; simp [outputs, hl]
          | _ => trivial
    · rcases step_handlers hs with e | ⟨r, x, rfl, e, ha⟩ | ⟨h, x, x', hx, e, hm⟩
      · rw [e]; exact fun x hx => (ih2 x hx).more hr _
      · rw [e]
        intro y hy
        rcases List.mem_append.1 hy with hy | hy
        · exact (ih2 y hy).more hr _
        · simp only [List.mem_singleton] at hy
          subst hy
          cases ha with
          | ending txn conn code values next h1 h2 h3 h4 =>
            refine ⟨txn, ?_⟩
            rw [collect_snoc hr]
            simp [endRequests, h4, h2, h1, h3]
          | _ => trivial
      · rw [e]
        intro y hy
        rcases mem_set_cases hy with hy | rfl
        · exact (ih2 y hy).more hr _
        · have hold := (ih2 x (List.mem_of_getElem? hx)).more hr [a]
          cases hm with
          | cancel conn code values next => exact hold
          | _ => trivial

/-- Where finish reports come from. -/
def FinishTrue (c : Cfg) (s0 : State) (as : List Act) (e : Fin) : Prop :=
  (∃ code, e.status = .code code ∧ (e.id, code, e.values) ∈ collect outputs c s0 as) ∨
  (∃ code txn, e.status = .code code ∧ (txn, e.id, code, e.values) ∈ collect (endRequests c) c s0 as) ∨
  (e.status = .code (-1) ∧ e.values = [] ∧ e.id ∈ collect failedSpawns c s0 as) ∨
  (e.status = .cancelled ∧ e.values = [] ∧ e.id ∈ collect softStops c s0 as) ∨
  (e.status = .disconnected ∧ e.values = [] ∧ (e.id, .disconnected) ∈ collect reportObs c s0 as)

theorem FinishTrue.more (hr : Runs c s0 as s) {e : Fin} (h : FinishTrue c s0 as e) (bs : List Act) : FinishTrue c s0 (as ++ bs) e := by
  rcases h with ⟨code, h1, h2⟩ | ⟨code, txn, h1, h2⟩ | ⟨h1, h2, h3⟩ | ⟨h1, h2, h3⟩ | ⟨h1, h2, h3⟩
  · exact .inl ⟨code, h1, mem_more hr h2 bs⟩
  · exact .inr (.inl ⟨code, txn, h1, mem_more hr h2 bs⟩)
  · exact .inr (.inr (.inl ⟨h1, h2, mem_more hr h3 bs⟩))
  · exact .inr (.inr (.inr (.inl ⟨h1, h2, mem_more hr h3 bs⟩)))
  · exact .inr (.inr (.inr (.inr ⟨h1, h2, mem_more hr h3 bs⟩)))

theorem finish_true (hr : Runs c (init c lf now) as s) {e : Fin} (he : .sendFinished e ∈ toTracker c (init c lf now) as) :
    FinishTrue c (init c lf now) as e := by
  refine Runs.snocInd (P := fun as s => .sendFinished e ∈ toTracker c (init c lf now) as → FinishTrue c (init c lf now) as e)
    ?_ ?_ hr he
  · intro h; cases h
  · intro as s a s' hr ih hpol hs he
    obtain ⟨h1, h2⟩ := all_say hr
    unfold toTracker at he
    rw [collect_snoc hr] at he
    rcases List.mem_append.1 he with he | he
    · exact (ih he).more hr _
    · cases a with
      | server b =>
        simp only [trackerAct, List.mem_singleton] at he
        subst he
        simp only [step] at hs
        split at hs
        · rename_i hb; cases hb
        · cases hs
      | loopReport i =>
        simp only [trackerAct] at he
        split at he
        · rename_i v hl
          simp only [List.mem_singleton, Tracker.Act.sendFinished.injEq] at he; subst he
          exact .inr (.inr (.inl ⟨rfl, rfl, mem_more hr (h1 _ (List.mem_of_getElem? hl)) _⟩))
        · rename_i v hl
          simp only [List.mem_singleton, Tracker.Act.sendFinished.injEq] at he; subst he
          exact .inr (.inr (.inr (.inl ⟨rfl, rfl, mem_more hr (h1 _ (List.mem_of_getElem? hl)) _⟩)))
        · rename_i v code values hl
          simp only [List.mem_singleton, Tracker.Act.sendFinished.injEq] at he; subst he
          exact .inl ⟨code, rfl, mem_more hr (h1 _ (List.mem_of_getElem? hl)) _⟩
        · cases he
      | hReport h =>
        simp only [trackerAct] at he
        split at he
        · rename_i conn code values next hx
          simp only [List.mem_singleton, Tracker.Act.sendFinished.injEq] at he; subst he
          obtain ⟨txn, ht⟩ := h2 _ (List.mem_of_getElem? hx)
          exact .inr (.inl ⟨code, txn, rfl, mem_more hr ht _⟩)
        · cases he
      | reapSend =>
        simp only [trackerAct] at he
        split at he
        · rename_i v vs hre
          simp only [List.mem_singleton, Tracker.Act.sendFinished.injEq] at he; subst he
          refine .inr (.inr (.inr (.inr ⟨rfl, rfl, ?_⟩)))
          rw [collect_snoc hr]; simp [reportObs, hre]
        · cases he
      | request r =>
        simp only [trackerAct] at he
        repeat' split at he
        all_goals simp at he
      | loopStarted i host pid =>
        simp only [trackerAct] at he
        repeat' split at he
        all_goals simp at he
      | _ =>
        simp only [trackerAct] at he
        first
          | (simp at he; done)
          | (repeat' split at he
             all_goals simp at he)

/-- Every open connection was made for its task. -/
theorem conns_handed (hr : Runs c (init c lf now) as s) :
    ∀ x ∈ s.conns, (x.1, x.2.node, x.2.start) ∈ collect handedOut c (init c lf now) as := by
  refine Runs.snocInd (P := fun as s => ∀ x ∈ s.conns, (x.1, x.2.node, x.2.start) ∈ collect handedOut c (init c lf now) as) ?_ ?_ hr
  · simp [init]
  · intro as s a s' hr ih hpol hs y hy
    have old : ∀ x ∈ s.conns, y.1 = x.1 → y.2.node = x.2.node → y.2.start = x.2.start →
        (y.1, y.2.node, y.2.start) ∈ collect handedOut c (init c lf now) (as ++ [a]) := by
      intro x hx e1 e2 e3
      rw [e1, e2, e3]; exact mem_more hr (ih x hx) _
    cases hre : isReap a with
    | false =>
      obtain ⟨hv, _⟩ := View.step hre hs
      cases hv with
      | same h0 h1 h2 h3 => exact old y (h2 ▸ hy) rfl rfl rfl
      | map f h0 hff h1 h2 h3 =>
        rw [h2] at hy
        obtain ⟨x, hx, rfl⟩ := List.mem_map.1 hy
        obtain ⟨e1, e2, e3, e4⟩ := hff x
        exact old x hx e1 e3 e4
      | drop txn h0 h1 h2 h3 => rw [h2] at hy; exact old y (List.mem_filter.1 hy).1 rfl rfl rfl
      | cancel k h0 h1 h2 h3 => exact old y (h2 ▸ hy) rfl rfl rfl
      | ping txn cn k hcn h0 hi h2 h3 =>
        rw [h2] at hy
        obtain ⟨x, hx, rfl⟩ := List.mem_map.1 hy
        refine old x hx ?_ ?_ ?_ <;> split <;> rfl
      | timer i txn k hi hd h2 h3 => exact old y (h2 ▸ hy) rfl rfl rfl
      | insert i txn cn h1 h2 hd h0 h3 =>
        rw [h2] at hy
        rcases List.mem_append.1 hy with hy | hy
        · exact old y (List.mem_filter.1 hy).1 rfl rfl rfl
        · simp only [List.mem_singleton] at hy
          subst hy
          rw [collect_snoc hr, hd]; simp
    | true =>
      have hsub : ∀ y ∈ s'.conns, y ∈ s.conns := by
        cases a with
        | reapTick | reapCheck _ | reapSend | reapStop | reapRemove =>
          simp only [step] at hs
          repeat' split at hs
          all_goals first
            | (cases hs; done)
            | (obtain ⟨t, _, rfl⟩ := trk_ok.1 hs; exact fun _ h => h)
            | (simp only [Res.ok.injEq] at hs; subst hs; exact fun _ h => h)
            | (simp only [Res.ok.injEq] at hs; subst hs; exact fun _ h => (List.mem_filter.1 h).1)
        | _ => cases hre
      exact old y (hsub y hy) rfl rfl rfl

theorem endRequests_handed (hr : Runs c (init c lf now) as s) {txn v : Nat} {code : Int} {values : List (List (String × String))}
    (h : (txn, v, code, values) ∈ collect (endRequests c) c (init c lf now) as) :
    ∃ st, (txn, v, st) ∈ collect handedOut c (init c lf now) as := by
  refine Runs.snocInd (P := fun as s => (txn, v, code, values) ∈ collect (endRequests c) c (init c lf now) as →
    ∃ st, (txn, v, st) ∈ collect handedOut c (init c lf now) as) ?_ ?_ hr h
  · intro h; cases h
  · intro as s a s' hr ih hpol hs h
    rw [collect_snoc hr] at h
    rcases List.mem_append.1 h with h | h
    · exact (ih h).imp (fun _ hx => mem_more hr hx _)
    · cases a with
      | request r =>
        simp only [endRequests] at h
        split at h
        · split at h
          · rename_i conn hl
            split at h
            · simp only [List.mem_singleton, Prod.mk.injEq] at h
              obtain ⟨rfl, rfl, _⟩ := h
              exact ⟨conn.start, mem_more hr (conns_handed hr _ (mem_of_lookup hl)) _⟩
            · cases h
          · cases h
        · cases h
      | _ => cases h

/-! ### next tasks -/

theorem takeRequest_nextFlag {r : Request} (hs : takeRequest c s r = .ok s') : s'.nextFlag = s.nextFlag := by
  unfold takeRequest at hs
  repeat' split at hs
  all_goals first
    | (simp only [Res.ok.injEq] at hs; subst hs; rfl)
    | (cases hs; done)
    | skip
  · simp only [Res.ok.injEq] at hs; subst hs; unfold startH; repeat' split
    all_goals rfl
  · unfold begunH at hs
    split at hs
    · simp only [Res.ok.injEq] at hs; subst hs; rfl
    · split at hs
      · obtain ⟨t, _, rfl⟩ := trk_ok.1 hs; rfl
      · simp only [Res.ok.injEq] at hs; subst hs; rfl
  · simp only [Res.ok.injEq] at hs; subst hs; unfold endH; repeat' split
    all_goals rfl
  · unfold pingH at hs
    split at hs
    · simp only [Res.ok.injEq] at hs; subst hs; rfl
    · obtain ⟨⟨w', k⟩, hi, hs⟩ := Res.bind_ok.1 hs
      simp only [Res.ok.injEq] at hs; subst hs; rfl

theorem step_nextFlag (hs : step c s a = .ok s') :
    (s'.nextFlag = s.nextFlag ∧ ∀ h, a ≠ .hReport h) ∨
    ∃ h conn code values next, a = .hReport h ∧ s.handlers[h]? = some (.reporting conn code values next) ∧ s'.nextFlag = s.nextFlag + 1 := by
  cases a with
  | hReport h =>
    right
    simp only [step] at hs
    split at hs
    · rename_i conn code values next hx
      obtain ⟨t, _, rfl⟩ := trk_ok.1 hs
      exact ⟨h, conn, code, values, next, rfl, hx, rfl⟩
    · cases hs
  | request r =>
    left
    simp only [step] at hs
    split at hs
    · cases hs
    · exact ⟨takeRequest_nextFlag hs, by simp⟩
  | hTimer i txn =>
    left
    simp only [step] at hs
    split at hs
    · obtain ⟨⟨w', k⟩, hi, hs⟩ := Res.bind_ok.1 hs
      simp only [Res.ok.injEq] at hs; subst hs
      exact ⟨rfl, by simp⟩
    · cases hs
  | loopDie i =>
    left
    simp only [step] at hs
    split at hs
    · simp only [Res.ok.injEq] at hs; subst hs
      split <;> exact ⟨rfl, by simp⟩
    · cases hs
  | _ =>
    left
    refine ⟨?_, by simp⟩
    simp only [step] at hs
    repeat' split at hs
    all_goals first
      | (cases hs; done)
      | (obtain ⟨t, _, rfl⟩ := trk_ok.1 hs; rfl)
      | (simp only [Res.ok.injEq] at hs; subst hs; rfl)

/-- Flags are numbered; flagged reports are those of `/end`. -/
theorem flags_numbered (hr : Runs c (init c lf now) as s) :
    ((collect endReports c (init c lf now) as).map (·.2.2)).Nodup ∧
    (∀ x ∈ collect endReports c (init c lf now) as, x.2.2 < s.nextFlag) ∧
    ∀ e f, .sendFinished e ∈ toTracker c (init c lf now) as → e.flag = some f →
      ∃ h, (h, e.id, f) ∈ collect endReports c (init c lf now) as := by
  refine Runs.snocInd (P := fun as s => ((collect endReports c (init c lf now) as).map (·.2.2)).Nodup ∧
    (∀ x ∈ collect endReports c (init c lf now) as, x.2.2 < s.nextFlag) ∧
    ∀ e f, .sendFinished e ∈ toTracker c (init c lf now) as → e.flag = some f →
      ∃ h, (h, e.id, f) ∈ collect endReports c (init c lf now) as) ?_ ?_ hr
  · refine ⟨by simp [collect], by simp [collect], ?_⟩
    intro e f h; cases h
  · intro as s a s' hr ⟨ih1, ih2, ih3⟩ hpol hs
    unfold toTracker at ih3 ⊢
    simp only [collect_snoc hr]
    rcases step_nextFlag hs with ⟨e1, hne⟩ | ⟨h, conn, code, values, next, rfl, hx, e1⟩
    · have e2 : endReports s a = [] := by cases a <;> first | rfl | exact absurd rfl (hne _)
      rw [e2, List.append_nil]
      refine ⟨ih1, by rw [e1]; exact ih2, ?_⟩
      intro e f he hf
      rcases List.mem_append.1 he with he | he
      · exact ih3 e f he hf
      · exfalso
        cases a with
        | hReport h => exact hne h rfl
        | server b =>
          simp only [trackerAct, List.mem_singleton] at he
          subst he
          simp only [step] at hs
          split at hs
          · rename_i hb; cases hb
          · cases hs
        | _ =>
          simp only [trackerAct] at he
          first
            | (simp at he; done)
            | (repeat' split at he
               all_goals first
                | (simp at he; done)
                | (simp only [List.mem_singleton, Tracker.Act.sendFinished.injEq] at he; subst he; cases hf))
    · have e2 : endReports s (.hReport h) = [(h, conn.node, s.nextFlag)] := by simp [endReports, hx]
      have e3 : trackerAct c s (.hReport h) = [.sendFinished ⟨conn.node, .code code, values, some s.nextFlag⟩] := by
        simp [trackerAct, hx]
      rw [e2, e3]
      refine ⟨?_, ?_, ?_⟩
      · rw [List.map_append, List.nodup_append]
        refine ⟨ih1, by simp, ?_⟩
        intro x hx' y hy
        obtain ⟨z, hz, rfl⟩ := List.mem_map.1 hx'
        simp only [List.map_cons, List.map_nil, List.mem_singleton] at hy
        subst hy
        have := ih2 z hz
        omega
      · intro x hx'
        rw [e1]
        rcases List.mem_append.1 hx' with hx' | hx'
        · have := ih2 x hx'; omega
        · simp only [List.mem_singleton] at hx'; subst hx'; exact Nat.lt_succ_self _
      · intro e f he hf
        rcases List.mem_append.1 he with he | he
        · obtain ⟨h', hh⟩ := ih3 e f he hf
          exact ⟨h', List.mem_append_left _ hh⟩
        · simp only [List.mem_singleton, Tracker.Act.sendFinished.injEq] at he
          subst he
          simp only [Option.some.injEq] at hf
          subst hf
          exact ⟨h, List.mem_append_right _ (by simp)⟩

/-- What is known about a handler that has reported the end of task `v` with flag `f`. -/
def AfterEnd (c : Cfg) (s0 : State) (as : List Act) (t : Tracker.State) (v f : Nat) : Handler → Prop
  | .waiting f' _ _ => f' = f
  | .done none | .done (some .ended) => True
  | .ending _ _ _ _ | .reporting _ _ _ _ => False
  | _ => v ∈ t.processed.map (·.1) ∨ WasHard c s0 as

theorem processed_grows (hs : step c s a = .ok s') {v : Nat} (h : v ∈ s.tr.processed.map (·.1)) : v ∈ s'.tr.processed.map (·.1) := by
  rcases step_tr hs with ⟨e, _⟩ | ⟨b, _, hb, _⟩
  · rw [e]; exact h
  · rw [(step_ghosts hb).2, List.map_append]; exact List.mem_append_left _ h

theorem AfterEnd.more {v f : Nat} {x : Handler} (hs : step c s a = .ok s') (h : AfterEnd c s0 as s.tr v f x) :
    AfterEnd c s0 (as ++ [a]) s'.tr v f x := by
  have key : (v ∈ s.tr.processed.map (·.1) ∨ WasHard c s0 as) → (v ∈ s'.tr.processed.map (·.1) ∨ WasHard c s0 (as ++ [a])) :=
    fun h => h.imp (processed_grows hs) (fun h => h.more _)
  unfold AfterEnd at h ⊢
  split <;> simp_all

theorem flag_inj {l : List (Nat × Nat × Nat)} (hk : (l.map (·.2.2)).Nodup) {x y : Nat × Nat × Nat} (hx : x ∈ l) (hy : y ∈ l)
    (e : x.2.2 = y.2.2) : x = y := by
  induction l with
  | nil => cases hx
  | cons z l ih =>
    simp only [List.map_cons, List.nodup_cons] at hk
    rcases List.mem_cons.1 hx with h1 | h1 <;> rcases List.mem_cons.1 hy with h2 | h2
    · rw [h1, h2]
    · exact absurd (List.mem_map.2 ⟨y, h2, by rw [← e, h1]⟩) hk.1
    · exact absurd (List.mem_map.2 ⟨x, h1, by rw [e, h2]⟩) hk.1
    · exact ih hk.2 h1 h2

theorem after_end (hg : Good c.tr) (hr : Runs c (init c lf now) as s) : ∀ h v f, (h, v, f) ∈ collect endReports c (init c lf now) as →
    ∃ x, s.handlers[h]? = some x ∧ AfterEnd c (init c lf now) as s.tr v f x := by
  refine Runs.snocInd (P := fun as s => ∀ h v f, (h, v, f) ∈ collect endReports c (init c lf now) as →
    ∃ x, s.handlers[h]? = some x ∧ AfterEnd c (init c lf now) as s.tr v f x) ?_ ?_ hr
  · intro h v f hm; cases hm
  · intro as s a s' hr ih hpol hs h v f hm
    rw [collect_snoc hr] at hm
    have hrt := hr.toInit hg
    have hri := RInv.run hrt (rinv_init lf now)
    have hfl := flags_numbered hr
    rcases List.mem_append.1 hm with hm1 | hm
    · obtain ⟨x, hx, hA⟩ := ih h v f hm1
      have hA' := hA.more hs
      rcases step_handlers hs with e | ⟨r, y, rfl, e, _⟩ | ⟨h', y, y', hy, e, hmv⟩
      · rw [e]; exact ⟨x, hx, hA'⟩
      · rw [e]; exact ⟨x, by rw [List.getElem?_append_left (List.getElem?_eq_some_iff.1 hx).1]; exact hx, hA'⟩
      · rw [e]
        by_cases hh : h' = h
        · subst hh
          rw [hy] at hx
          simp only [Option.some.injEq] at hx
          subst hx
          refine ⟨y', List.getElem?_set_self (List.getElem?_eq_some_iff.1 hy).1, ?_⟩
          cases hmv with
          | flag f' rt j =>
            have hff : f' = f := hA
            subst hff
            simp only [step, hy] at hs
            split at hs
            · rename_i hg'
              simp only [Res.ok.injEq] at hs
              show v ∈ s'.tr.processed.map (·.1) ∨ _
              rcases hg' with hg' | hg'
              · left
                obtain ⟨ev, h1, h2, h3⟩ := hri.set f' hg'
                obtain ⟨k, hk⟩ := hfl.2.2 ev f' (by simpa [toTracker] using h1) h2
                have : (k, ev.id, f') = (h', v, f') := by
                  have hn := hfl.1
                  exact flag_inj hn hk hm1 rfl
                simp only [Prod.mk.injEq] at this
                subst hs
                exact List.mem_map.2 ⟨_, h3, this.2.1⟩
              · right
                exact ⟨as, [_], s, rfl, hr, hg'⟩
            · cases hs
          | recv rt j => exact hA'
          | refused rt j r hr' => rcases hr' with rfl | rfl <;> exact hA'
          | leave0 k rt t j r hr' => rcases hr' with rfl | rfl <;> exact hA'
          | leave k rt t j r hr' => rcases hr' with rfl | rfl <;> exact hA'
          | drop0 => trivial
          | drop1 => trivial
          | drop2 => trivial
          | got => exact hA'
          | timer => exact hA'
          | die => exact hA'
          | insert => exact hA'
          | cancel => exact hA
          | reportNext => exact hA.elim
          | report => trivial
        · exact ⟨x, by rw [List.getElem?_set_ne hh]; exact hx, hA'⟩
    · cases a with
      | hReport h0 =>
        simp only [endReports] at hm
        split at hm
        · rename_i conn code values next hx
          simp only [List.mem_singleton, Prod.mk.injEq] at hm
          obtain ⟨rfl, rfl, rfl⟩ := hm
          simp only [step, hx] at hs
          obtain ⟨t, _, rfl⟩ := trk_ok.1 hs
          refine ⟨_, List.getElem?_set_self (List.getElem?_eq_some_iff.1 hx).1, ?_⟩
          cases next <;> simp [AfterEnd]
        · cases hm
      | _ => cases hm

/-! ### the end of `execute` -/

/-- All runners have ended. -/
def Quit (s : State) : Prop := allExited s.loops = true ∧ allDone s.handlers = true ∧ reaperEnded s.reaper = true

theorem pc_joined {tc : Tracker.Cfg} {t t' : Tracker.State} {b : Tracker.Act} (hs : Tracker.step tc t b = .ok t') (hb : b ≠ .joinDone)
    (hp : t'.pc = .joined ∨ t'.pc = .done) : t.pc = .joined ∨ t.pc = .done := by
  have half : ∀ {s1 s2 : Tracker.State} {x : SysTime} {e : Fin}, finishHalf tc x s1 e = .ok s2 → ¬ (s2.pc = .joined ∨ s2.pc = .done) := by
    intro s1 s2 x e h
    obtain ⟨lf, ⟨_, rfl⟩ | ⟨_, rfl⟩⟩ := finishHalf_cases h <;> simp [leaveLoop, zeroReady]
  cases b with
  | joinDone => exact absurd rfl hb
  | «begin» order x =>
    simp only [Tracker.step] at hs
    split at hs
    · cases hs
    · split at hs
      · cases hs
      · split at hs
        · simp only [Res.ok.injEq] at hs; subst hs; simp at hp
        · obtain ⟨_, _, _, _, rfl⟩ := addReady_ok hs; simp at hp
  | sendDone x =>
    simp only [Tracker.step] at hs
    split at hs
    · split at hs
      · simp only [Res.ok.injEq] at hs; subst hs; simp at hp
      · exact absurd hp (half hs)
    · cases hs
  | recvStarted x =>
    simp only [Tracker.step] at hs
    split at hs
    · cases hs
    · split at hs
      · obtain ⟨s1, h1, h2⟩ := Res.bind_ok.1 hs
        obtain ⟨lf, _, rfl⟩ := writeLog_ok.1 h1
        split at h2
        · cases h2
        · simp only [Res.ok.injEq] at h2; subst h2; exact hp
      · cases hs
  | recvFinished order x =>
    simp only [Tracker.step] at hs
    split at hs
    · cases hs
    · split at hs
      · obtain ⟨sn, um, po, _, h | ⟨vs, _, _, h⟩⟩ := handleFinished_cases hs
        · exact absurd hp (half h)
        · obtain ⟨_, _, _, _, rfl⟩ := addReady_ok h
          simp at hp
      · cases hs
  | drain order x =>
    simp only [Tracker.step] at hs
    split at hs
    · cases hs
    · rename_i h; exact .inl (by simpa using h)
  | _ =>
    simp only [Tracker.step] at hs
    repeat' split at hs
    all_goals first
      | cases hs; done
      | (simp only [Res.ok.injEq] at hs; subst hs; first | exact hp | (simp at hp; done) | (simp [leaveLoop, zeroReady] at hp; done))

theorem quit_when_joined (hg : Good c.tr) (hr : Runs c (init c lf now) as s) (hp : s.tr.pc = .joined ∨ s.tr.pc = .done) : Quit s := by
  refine Runs.snocInd (P := fun _ s => s.tr.pc = .joined ∨ s.tr.pc = .done → Quit s) ?_ ?_ hr hp
  · intro h; rcases h with h | h <;> cases h
  · intro as s a s' hr ih hpol hs hp
    by_cases hold : s.tr.pc = .joined ∨ s.tr.pc = .done
    · obtain ⟨q1, q2, q3⟩ := ih hold
      have hlive : live s.tr = false := by unfold live; rcases hold with h | h <;> simp [h]
      refine ⟨?_, ?_, ?_⟩
      · rcases step_loops hs with ⟨e, _⟩ | ⟨i, l, l', o, hl, e, hm, _⟩
        · rw [e]; exact q1
        · have := List.all_eq_true.1 q1 l (List.mem_of_getElem? hl)
          cases hm <;> simp at this
      · rcases step_handlers hs with e | ⟨r, x, rfl, e, _⟩ | ⟨h, x, x', hx, e, hm⟩
        · rw [e]; exact q2
        · simp only [step] at hs
          split at hs
          · cases hs
          · rename_i hn; exact absurd (.inr hlive) hn
        · have := List.all_eq_true.1 q2 x (List.mem_of_getElem? hx)
          cases hm <;> simp at this
      · cases hre : isReap a with
        | false => rw [(View.step hre hs).2]; exact q3
        | true =>
          exfalso
          cases a with
          | reapTick | reapCheck _ | reapSend | reapStop | reapRemove =>
            simp only [step] at hs
            repeat' split at hs
            all_goals first
              | (cases hs; done)
              | (simp_all [reaperEnded]; done)
          | _ => cases hre
    · cases a with
      | joinDone =>
        simp only [step] at hs
        split at hs
        · rename_i hc
          simp only [Bool.and_eq_true] at hc
          obtain ⟨t, _, rfl⟩ := trk_ok.1 hs
          exact ⟨hc.1.1, hc.1.2, hc.2⟩
        · cases hs
      | _ =>
        exfalso
        rcases step_tr hs with ⟨e, _⟩ | ⟨b, hb0, hb, h4⟩
        · exact hold (e ▸ hp)
        · refine hold (pc_joined hb ?_ hp)
          rintro rfl
          rcases h4 with ⟨_, h4⟩ | ⟨h4, _⟩
          · cases h4
          · first
              | (simp [trackerAct] at hb0; done)
              | (simp [trackerAct] at hb0; exact h4 _ (by rw [hb0]); done)
              | (simp only [trackerAct] at hb0
                 repeat' split at hb0
                 all_goals simp at hb0; done)

end Verif.Sys
