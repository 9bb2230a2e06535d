import Verif.Proof.System8

/-!
# Transactions in handlers, begun connections, preamble calls (proofs)
-/

namespace Verif.Sys
open Verif Verif.Tracker

variable {c : Cfg} {lf : LogFile} {now : Int} {s s' s0 : State} {as : List Act} {a : Act}

/-- Transaction and task a handler has answered with or is about to. -/
def tok : Handler → List (Nat × Nat)
  | .timed v _ txn _ => [(txn, v)]
  | .done (some (.task txn v)) => [(txn, v)]
  | _ => []

def tokT (x : Handler) : List Nat := (tok x).map (·.1)
def tokV (x : Handler) : List Nat := (tok x).map (·.2)

theorem Adds.tok {r : Request} {x : Handler} (h : Adds c s r x) : tok x = [] := by
  cases h with
  | done x hx => cases x <;> first | rfl | (exact absurd rfl (hx _ _))
  | start => rfl
  | ending => rfl

theorem HMoves.tok {h : Nat} {x x' : Handler} (hm : HMoves c s h a x x') (ha : ∀ txn, a ≠ .hTimer h txn) : tok x' = tok x := by
  cases hm with
  | timer v txn j tm => exact absurd rfl (ha txn)
  | refused rt j r hr => rcases hr with rfl | rfl <;> rfl
  | leave0 k rt t j r hr => rcases hr with rfl | rfl <;> rfl
  | leave k rt t j r hr => rcases hr with rfl | rfl <;> rfl
  | _ => rfl

/-- A transaction is in as many handlers as times it was drawn. -/
theorem tokT_drawn (hr : Runs c (init c lf now) as s) (T : Nat) :
    (s.handlers.flatMap tokT).count T = (collect drawn c (init c lf now) as).count T := by
  refine Runs.snocInd (P := fun as s => (s.handlers.flatMap tokT).count T = (collect drawn c (init c lf now) as).count T) ?_ ?_ hr
  · rfl
  · intro as s a s' hr ih hp hs
    rw [collect_snoc hr, List.count_append, ← ih]
    rcases step_handlers hs with e | ⟨r, x, rfl, e, hadd⟩ | ⟨h, x, x', hx, e, hm⟩
    · have : drawn s a = [] := by
        cases a with
        | hTimer h txn =>
          simp only [drawn]
          split
          · rename_i v j hj
            exfalso
            simp only [step, hj] at hs
            cases hi : TimeWheel.insert s.wheel pingTimeout txn with
            | ok r =>
              rw [hi] at hs
              simp only [Res.bind, Res.ok.injEq] at hs
              subst hs
              have := congrArg (·[h]?) e
              obtain ⟨hlt, e2⟩ := List.getElem?_eq_some_iff.1 hj
              simp [setH, hlt, e2] at this
            | err x => rw [hi] at hs; cases hs
            | panic x => rw [hi] at hs; cases hs
          · rfl
        | _ => rfl
      rw [e, this]; rfl
    · rw [e, List.flatMap_append, List.count_append]
      simp [tokT, hadd.tok, drawn]
    · rw [e]
      have h1 := count_set (f := tokT) (v := T) (b := x') hx
      by_cases ha : ∃ txn, a = .hTimer h txn
      · obtain ⟨txn, rfl⟩ := ha
        cases hm
        simp only [drawn, hx]
        simp only [tokT, tok, List.map_nil, List.map_cons, List.count_nil] at h1
        omega
      · have e1 : tokT x' = tokT x := by unfold tokT; rw [hm.tok (fun t ht => ha ⟨t, ht⟩)]
        have e2 : drawn s a = [] := by
          cases hm with
          | timer v txn j tm => exact absurd ⟨txn, rfl⟩ ha
          | _ => rfl
        rw [e1] at h1
        rw [e2, List.count_nil]
        omega

/-- Calls of the preamble are kept. -/
theorem step_pre (hs : step c s a = .ok s') : ∃ l, s'.preCalls = s.preCalls ++ l := by
  cases a with
  | request r =>
    simp only [step] at hs
    split at hs
    · cases hs
    · exact ⟨[], by rw [takeRequest_pre hs, List.append_nil]⟩
  | loopDie i =>
    simp only [step] at hs
    split at hs
    · simp only [Res.ok.injEq] at hs; subst hs
      split
      · exact ⟨_, rfl⟩
      · exact ⟨[], by simp [setLoop]⟩
    · cases hs
  | hTimer h txn =>
    simp only [step] at hs
    split at hs
    · cases hi : TimeWheel.insert s.wheel pingTimeout txn with
      | ok r => rw [hi] at hs; simp only [Res.bind, Res.ok.injEq] at hs; subst hs; exact ⟨_, rfl⟩
      | err x => rw [hi] at hs; cases hs
      | panic x => rw [hi] at hs; cases hs
    · cases hs
  | _ =>
    simp only [step] at hs
    repeat' split at hs
    all_goals first
      | (cases hs; done)
      | (obtain ⟨t, _, rfl⟩ := trk_ok.1 hs; exact ⟨[], by simp [setLoop, setH]⟩)
      | (simp only [Res.ok.injEq] at hs; subst hs; exact ⟨_, rfl⟩)
      | (simp only [Res.ok.injEq] at hs; subst hs; exact ⟨[], by simp [setLoop, setH]⟩)

/-- Processes started by loops and transactions in handlers are covered by calls of the preamble. -/
theorem starts_pre (hr : Runs c (init c lf now) as s) (v : Nat) :
    (collect loopStarts c (init c lf now) as).count v + (s.handlers.flatMap tokV).count v ≤ s.preCalls.count v := by
  refine Runs.snocInd (P := fun as s => (collect loopStarts c (init c lf now) as).count v +
    (s.handlers.flatMap tokV).count v ≤ s.preCalls.count v) ?_ ?_ hr
  · simp [init, collect]
  · intro as s a s' hr ih hp hs
    rw [collect_snoc hr, List.count_append]
    obtain ⟨l, hl⟩ := step_pre hs
    have hl' := congrArg (List.count v) hl
    rw [List.count_append] at hl'
    by_cases h1 : ∃ i, a = .loopSpawn i true
    · obtain ⟨i, rfl⟩ := h1
      simp only [step] at hs
      split at hs
      · rename_i w hw
        split at hs
        · simp only [Res.ok.injEq] at hs; subst hs
          simp only [loopStarts, hw, setLoop, List.count_append]
          omega
        · cases hs
      · cases hs
    · have e0 : loopStarts s a = [] := by
        unfold loopStarts
        split
        · exact absurd ⟨_, rfl⟩ h1
        · rfl
      rw [e0, List.count_nil]
      rcases step_handlers hs with e | ⟨r, x, rfl, e, hadd⟩ | ⟨h, x, x', hx, e, hm⟩
      · rw [e]; omega
      · rw [e, List.flatMap_append, List.count_append]
        simp only [List.flatMap_cons, List.flatMap_nil, List.append_nil, tokV, hadd.tok, List.map_nil, List.count_nil]
        omega
      · have h2 := count_set (f := tokV) (v := v) (b := x') hx
        by_cases ha : ∃ txn, a = .hTimer h txn
        · obtain ⟨txn, rfl⟩ := ha
          cases hm with
          | timer w _ j tm =>
          rw [e]
          simp only [tokV, tok, List.map_nil, List.map_cons, List.count_nil] at h2
          have : l = [w] := by
            simp only [step, hx] at hs
            cases hi : TimeWheel.insert s.wheel pingTimeout txn with
            | ok r =>
              rw [hi] at hs
              simp only [Res.bind, Res.ok.injEq] at hs
              subst hs
              simpa [setH] using hl.symm
            | err x => rw [hi] at hs; cases hs
            | panic x => rw [hi] at hs; cases hs
          rw [this] at hl'
          omega
        · have e1 : tokV x' = tokV x := by unfold tokV; rw [hm.tok (fun t ht => ha ⟨t, ht⟩)]
          rw [e1] at h2
          rw [e]
          omega

/-- At most one of all local processes and transactions is for `v`. -/
theorem starts_le (hg : Good c.tr) (hr : Runs c (init c lf now) as s) (v : Nat) :
    (collect loopStarts c (init c lf now) as).count v + (s.handlers.flatMap tokV).count v ≤ 1 := by
  have h1 := starts_pre hr v
  have h2 := preCalls_balance hr v
  have h3 := List.nodup_iff_count.1 ((Reachable.inv hg ⟨as, hr⟩).reach.obtained_nodup hg) v
  omega

/-- A handler that has answered stays so. -/
theorem done_keeps (hs : step c s a = .ok s') {h : Nat} {r : Option Reply} (hh : s.handlers[h]? = some (.done r)) :
    s'.handlers[h]? = some (.done r) := by
  obtain ⟨hlt, _⟩ := List.getElem?_eq_some_iff.1 hh
  rcases step_handlers hs with e | ⟨r, x, rfl, e, hadd⟩ | ⟨h', x, x', hx, e, hm⟩
  · rw [e, hh]
  · rw [e, List.getElem?_append_left hlt, hh]
  · by_cases he : h' = h
    · subst he
      rw [hh] at hx
      cases hx
      cases hm
    · rw [e, List.getElem?_set_ne he, hh]

theorem handlers_length (hs : step c s a = .ok s') (ha : ∀ r, a ≠ .request r) : s'.handlers.length = s.handlers.length := by
  rcases step_handlers hs with e | ⟨r, x, rfl, e, hadd⟩ | ⟨h', x, x', hx, e, hm⟩
  · rw [e]
  · exact absurd rfl (ha r)
  · rw [e, List.length_set]

theorem handlers_request {r : Request} (hs : step c s (.request r) = .ok s') : s'.handlers.length = s.handlers.length + 1 := by
  simp only [step] at hs
  split at hs
  · cases hs
  · obtain ⟨x, e, _⟩ := takeRequest_handlers hs
    rw [e, List.length_append]; rfl

/-- What an action does to connections. -/
inductive CView (c : Cfg) (s : State) : Act → Nat × Conn → Prop
  /-- It was there, with the same node and `begun` before. -/
  | old {a : Act} (x y : Nat × Conn) : x ∈ s.conns → y.1 = x.1 → y.2.node = x.2.node → y.2.jobid = x.2.jobid → y.2.begun = x.2.begun → CView c s a y
  | begun {r : Request} (x y : Nat × Conn) (host : String) (pid : Nat) : x ∈ s.conns → y.1 = x.1 → y.2.node = x.2.node → y.2.jobid = x.2.jobid →
      r.auth = some c.secret → r.body = .begun x.1 host pid → CView c s (.request r) y
  | new (h : Nat) (y : Nat × Conn) (tm : TimeWheel.TimerID) : y.2.begun = false → s.handlers[h]? = some (.timed y.2.node y.2.jobid y.1 tm) →
      CView c s (.hInsert h) y

theorem cview_takeRequest {r : Request} (hs : takeRequest c s r = .ok s') : ∀ y ∈ s'.conns, CView c s (.request r) y := by
  have same : s'.conns = s.conns → ∀ y ∈ s'.conns, CView c s (.request r) y :=
    fun e y hy => .old y y (e ▸ hy) rfl rfl rfl rfl
  unfold takeRequest at hs
  split at hs
  · simp only [Res.ok.injEq] at hs; subst hs; exact same rfl
  · rename_i t ht
    split at hs
    · simp only [Res.ok.injEq] at hs; subst hs; exact same rfl
    · split at hs
      · simp only [Res.ok.injEq] at hs; subst hs; exact same rfl
      · rename_i hsec
        simp only [ne_eq, not_not] at hsec
        subst hsec
        split at hs
        · simp only [Res.ok.injEq] at hs; subst hs
          unfold startH at same ⊢
          repeat' split
          all_goals exact fun y hy => .old y y hy rfl rfl rfl rfl
        · rename_i txn host pid hb
          unfold begunH at hs
          split at hs
          · simp only [Res.ok.injEq] at hs; subst hs; exact same rfl
          · split at hs
            · obtain ⟨t, _, rfl⟩ := trk_ok.1 hs
              intro y hy
              simp only [reply, modifyKey] at hy
              obtain ⟨x, hx, rfl⟩ := List.mem_map.1 hy
              split
              · rename_i e
                subst e
                exact .begun x _ host pid hx rfl rfl rfl ht hb
              · exact .old x x hx rfl rfl rfl rfl
            · simp only [Res.ok.injEq] at hs; subst hs; exact same rfl
        · simp only [Res.ok.injEq] at hs; subst hs
          unfold endH
          repeat' split
          all_goals first
            | exact fun y hy => .old y y hy rfl rfl rfl rfl
            | exact fun y hy => .old y y (List.mem_filter.1 hy).1 rfl rfl rfl rfl
        · unfold pingH at hs
          split at hs
          · simp only [Res.ok.injEq] at hs; subst hs; exact same rfl
          · rename_i txn _ _ conn hl
            cases hi : TimeWheel.insert (TimeWheel.cancel s.wheel conn.timer) pingTimeout txn with
            | ok r =>
              rw [hi] at hs
              simp only [Res.bind, Res.ok.injEq] at hs
              subst hs
              intro y hy
              simp only [reply, modifyKey] at hy
              obtain ⟨x, hx, rfl⟩ := List.mem_map.1 hy
              refine .old x _ hx ?_ ?_ ?_ ?_ <;> split <;> rfl
            | err x => rw [hi] at hs; cases hs
            | panic x => rw [hi] at hs; cases hs
        · simp only [Res.ok.injEq] at hs; subst hs; exact same rfl
        · cases hs

theorem cview (hs : step c s a = .ok s') : ∀ y ∈ s'.conns, CView c s a y := by
  have old : ∀ y, y ∈ s.conns → CView c s a y := fun y hy => .old y y hy rfl rfl rfl rfl
  cases a with
  | request r =>
    simp only [step] at hs
    split at hs
    · cases hs
    · exact cview_takeRequest hs
  | hTimer h txn =>
    simp only [step] at hs
    split at hs
    · cases hi : TimeWheel.insert s.wheel pingTimeout txn with
      | ok r => rw [hi] at hs; simp only [Res.bind, Res.ok.injEq] at hs; subst hs; exact old
      | err x => rw [hi] at hs; cases hs
      | panic x => rw [hi] at hs; cases hs
    · cases hs
  | hInsert h =>
    simp only [step] at hs
    split at hs
    · rename_i v j txn tm hx
      simp only [Res.ok.injEq] at hs; subst hs
      intro y hy
      simp only [setH] at hy
      rcases List.mem_append.1 hy with hy | hy
      · exact old y (List.mem_filter.1 hy).1
      · simp only [List.mem_singleton] at hy
        subst hy
        exact .new h _ tm rfl hx
    · cases hs
  | loopDie i =>
    simp only [step] at hs
    split at hs
    · simp only [Res.ok.injEq] at hs; subst hs
      split <;> exact old
    · cases hs
  | _ =>
    simp only [step] at hs
    repeat' split at hs
    all_goals first
      | (cases hs; done)
      | (obtain ⟨t, _, rfl⟩ := trk_ok.1 hs; exact old)
      | (simp only [Res.ok.injEq] at hs; subst hs; exact old)
      | (simp only [Res.ok.injEq] at hs; subst hs; exact fun y hy => old y (List.mem_filter.1 hy).1)

/-- An open connection was announced in the answer of a handler. -/
theorem conns_done (hr : Runs c (init c lf now) as s) :
    ∀ x ∈ s.conns, ∃ h : Nat, s.handlers[h]? = some (.done (some (.task x.1 x.2.node))) := by
  refine Runs.snocInd (P := fun _ s => ∀ x ∈ s.conns, ∃ h : Nat, s.handlers[h]? = some (.done (some (.task x.1 x.2.node)))) ?_ ?_ hr
  · simp [init]
  · intro as s a s' hr ih hp hs y hy
    cases cview hs y hy with
    | old x _ hx e1 e2 _ e3 =>
      obtain ⟨h, hh⟩ := ih x hx
      exact ⟨h, by rw [e1, e2]; exact done_keeps hs hh⟩
    | begun x _ host pid hx e1 e2 _ _ _ =>
      obtain ⟨h, hh⟩ := ih x hx
      exact ⟨h, by rw [e1, e2]; exact done_keeps hs hh⟩
    | new h _ tm hb hh =>
      refine ⟨h, ?_⟩
      simp only [step, hh, Res.ok.injEq] at hs
      subst hs
      obtain ⟨hlt, _⟩ := List.getElem?_eq_some_iff.1 hh
      simp [setH, hlt]

end Verif.Sys
