import Verif.Proof.TrackerInv

/-!
# Invariants of the tracker, continued: queue counters, start events, log states
-/

namespace Verif.Tracker
open Verif
open scoped List

/-- Does task `v` have affinity mask `a`? -/
def affIs (g : DiGraph Cmd) (a : BitVec 64) (v : Nat) : Bool := decide ((cmdOf g v).affinity = a)

/-- Queue counters. `pend`: tasks made ready and not yet moved to inflight; `busy`: tasks moved to inflight and not yet
finished. -/
structure Qs (g : DiGraph Cmd) (qs : BitVec 64 → Option Snap) (made pend busy : List Nat) (isOpen : Bool) : Prop where
  isSome : ∀ v ∈ made, (qs (cmdOf g v).affinity).isSome
  busyEq : ∀ a sn, qs a = some sn → sn.numInflight = busy.countP (affIs g a)
  readyEq : isOpen = true → ∀ a sn, qs a = some sn → sn.numReady = pend.countP (affIs g a)
  sub : ∀ v ∈ pend ++ busy, v ∈ made

theorem Qs.perm {g qs made pend busy o} (h : Qs g qs made pend busy o) {made' pend' busy' : List Nat} (hm : made ~ made')
    (hp : pend ~ pend') (hb : busy ~ busy') : Qs g qs made' pend' busy' o := by
  refine ⟨fun v hv => h.isSome v (hm.mem_iff.2 hv), fun a sn e => ?_, fun ho a sn e => ?_, fun v hv => ?_⟩
  · rw [h.busyEq a sn e, hb.countP_eq]
  · rw [h.readyEq ho a sn e, hp.countP_eq]
  · exact hm.mem_iff.1 (h.sub v ((hp.append hb).mem_iff.2 hv))

theorem Qs.close {g qs made pend busy o} (h : Qs g qs made pend busy o) : Qs g qs made pend busy false :=
  ⟨h.isSome, h.busyEq, by simp, h.sub⟩

theorem Qs.zero {g qs made pend busy o} (h : Qs g qs made pend busy o) :
    Qs g (fun a => (qs a).map (fun sn => { sn with numReady := 0 })) made pend busy false := by
  refine ⟨fun v hv => by simpa using h.isSome v hv, fun a sn e => ?_, by simp, h.sub⟩
  simp only [Option.map_eq_some_iff] at e
  obtain ⟨sn', h1, rfl⟩ := e
  exact h.busyEq a sn' h1

theorem Qs.countP_of_none {g qs made pend busy o} (h : Qs g qs made pend busy o) {a : BitVec 64} (ha : qs a = none) :
    pend.countP (affIs g a) = 0 ∧ busy.countP (affIs g a) = 0 := by
  have key : ∀ v ∈ pend ++ busy, ¬ affIs g a v = true := by
    intro v hv hf
    have h1 := h.isSome v (h.sub v hv)
    simp only [affIs, decide_eq_true_eq] at hf
    rw [hf, ha] at h1; simp at h1
  constructor
  · rw [List.countP_eq_zero]; intro v hv; exact key v (by simp [hv])
  · rw [List.countP_eq_zero]; intro v hv; exact key v (by simp [hv])

theorem Qs.bump {g qs made pend busy o} (h : Qs g qs made pend busy o) (v : Nat) (hl : pend.length + 1 < 2 ^ 32) :
    Qs g (bumpQ g qs v) (made ++ [v]) (pend ++ [v]) busy o := by
  have hcount : ∀ a, (pend ++ [v]).countP (affIs g a) =
      pend.countP (affIs g a) + if a = (cmdOf g v).affinity then 1 else 0 := by
    intro a
    rw [List.countP_append, List.countP_singleton]
    simp only [affIs, decide_eq_true_eq]
    congr 1
    by_cases ha : a = (cmdOf g v).affinity
    · rw [if_pos ha, if_pos ha.symm]
    · rw [if_neg ha, if_neg (Ne.symm ha)]
  refine ⟨fun w hw => ?_, fun a sn e => ?_, fun ho a sn e => ?_, fun w hw => ?_⟩
  · unfold bumpQ
    split
    · rfl
    · rename_i hne
      rcases List.mem_append.1 hw with hw | hw
      · exact h.isSome w hw
      · simp only [List.mem_singleton] at hw; subst hw; exact absurd rfl hne
  · unfold bumpQ at e
    split at e
    · rename_i ha
      subst ha
      simp only [Option.some.injEq] at e
      subst e
      cases hq : qs (cmdOf g v).affinity with
      | none => simp [(h.countP_of_none hq).2]
      | some sn => simpa using h.busyEq _ sn hq
    · exact h.busyEq a sn e
  · rw [hcount]
    unfold bumpQ at e
    split at e
    · rename_i ha
      subst ha
      simp only [Option.some.injEq] at e
      subst e
      rw [if_pos rfl]
      have hle : pend.countP (affIs g (cmdOf g v).affinity) ≤ pend.length := List.countP_le_length
      cases hq : qs (cmdOf g v).affinity with
      | none => simp [(h.countP_of_none hq).1]
      | some sn =>
        have := h.readyEq ho _ sn hq
        simp only [Option.getD_some]
        rw [this, Nat.mod_eq_of_lt (by omega)]
    · rename_i ha
      rw [if_neg ha]
      exact h.readyEq ho a sn e
  · simp only [List.append_assoc, List.mem_append, List.mem_singleton] at hw ⊢
    rcases hw with hw | hw | hw
    · exact .inl (h.sub w (by simp [hw]))
    · exact .inr hw
    · exact .inl (h.sub w (by simp [hw]))

theorem Qs.bumpAll {g busy o} : ∀ {vs : List Nat} {qs made pend}, Qs g qs made pend busy o →
    pend.length + vs.length < 2 ^ 32 → Qs g (vs.foldl (bumpQ g) qs) (made ++ vs) (pend ++ vs) busy o := by
  intro vs
  induction vs with
  | nil => intro qs made pend h _; simpa using h
  | cons v vs ih =>
    intro qs made pend h hl
    simp only [List.length_cons] at hl
    have h1 := h.bump v (by omega)
    have h2 := ih h1 (by simp; omega)
    simpa using h2

theorem countP_cons_aff (g : DiGraph Cmd) (a : BitVec 64) (v : Nat) (l : List Nat) :
    (v :: l).countP (affIs g a) = l.countP (affIs g a) + if a = (cmdOf g v).affinity then 1 else 0 := by
  rw [List.countP_cons]
  simp only [affIs, decide_eq_true_eq]
  congr 1
  by_cases ha : a = (cmdOf g v).affinity
  · rw [if_pos ha, if_pos ha.symm]
  · rw [if_neg ha, if_neg (Ne.symm ha)]

theorem Qs.account {g qs made pend busy o v sn} (h : Qs g qs made (v :: pend) busy o)
    (hq : qs (cmdOf g v).affinity = some sn) (hl : pend.length + 1 < 2 ^ 32) :
    Qs g (fun x => if x = (cmdOf g v).affinity then some ⟨(sn.numReady + (2 ^ 32 - 1)) % 2 ^ 32, sn.numInflight + 1⟩
      else qs x) made pend (v :: busy) o := by
  refine ⟨fun w hw => ?_, fun a sn' e => ?_, fun ho a sn' e => ?_, fun w hw => ?_⟩
  · try simp only
    split
    · rfl
    · exact h.isSome w hw
  · rw [countP_cons_aff]
    try simp only at e
    split at e
    · rename_i ha
      simp only [Option.some.injEq] at e
      subst e ha
      rw [if_pos rfl, ← h.busyEq _ sn hq]
    · rename_i ha
      rw [if_neg ha]; exact h.busyEq a sn' e
  · try simp only at e
    split at e
    · rename_i ha
      simp only [Option.some.injEq] at e
      subst e ha
      have h1 := h.readyEq ho _ sn hq
      rw [countP_cons_aff, if_pos rfl] at h1
      have hle : pend.countP (affIs g (cmdOf g v).affinity) ≤ pend.length := List.countP_le_length
      simp only
      rw [h1]
      have : pend.countP (affIs g (cmdOf g v).affinity) + 1 + (2 ^ 32 - 1) =
        pend.countP (affIs g (cmdOf g v).affinity) + 2 ^ 32 := by omega
      rw [this, Nat.add_mod_right, Nat.mod_eq_of_lt (by omega)]
    · rename_i ha
      have h1 := h.readyEq ho a sn' e
      rwa [countP_cons_aff, if_neg ha] at h1
  · simp only [List.mem_append, List.mem_cons] at hw
    apply h.sub
    simp only [List.mem_append, List.mem_cons]
    tauto

theorem Qs.fin {g qs made pend busy o v sn} (h : Qs g qs made pend (v :: busy) o)
    (hq : qs (cmdOf g v).affinity = some sn) :
    Qs g (fun x => if x = (cmdOf g v).affinity then some { sn with numInflight := sn.numInflight - 1 } else qs x)
      made pend busy o := by
  refine ⟨fun w hw => ?_, fun a sn' e => ?_, fun ho a sn' e => ?_, fun w hw => ?_⟩
  · try simp only
    split
    · rfl
    · exact h.isSome w hw
  · try simp only at e
    split at e
    · rename_i ha
      simp only [Option.some.injEq] at e
      subst e ha
      have h1 := h.busyEq _ sn hq
      rw [countP_cons_aff, if_pos rfl] at h1
      simp only; omega
    · rename_i ha
      have h1 := h.busyEq a sn' e
      rwa [countP_cons_aff, if_neg ha] at h1
  · try simp only at e
    split at e
    · rename_i ha
      simp only [Option.some.injEq] at e
      subst e ha
      exact h.readyEq ho _ sn hq
    · exact h.readyEq ho a sn' e
  · simp only [List.mem_append] at hw
    apply h.sub
    simp only [List.mem_append, List.mem_cons]
    tauto

/-- The counter of a busy task is there and positive. -/
theorem Qs.busy_pos {g qs made pend busy o v} (h : Qs g qs made pend busy o) (hv : v ∈ busy) :
    ∃ sn, qs (cmdOf g v).affinity = some sn ∧ sn.numInflight ≠ 0 := by
  have h1 := h.isSome v (h.sub v (by simp [hv]))
  obtain ⟨sn, hs⟩ := Option.isSome_iff_exists.1 h1
  refine ⟨sn, hs, ?_⟩
  rw [h.busyEq _ sn hs]
  have : 0 < busy.countP (affIs g (cmdOf g v).affinity) := List.countP_pos_iff.2 ⟨v, hv, by simp [affIs]⟩
  omega

/-! ### start events and log states -/

/-- Start events, inflight tasks and what the log says. `op`: tasks held by runners or lost; `closed`: tasks whose finish
was processed; `cur`: the task whose finish is being processed and not yet logged. -/
structure Tr (g : DiGraph Cmd) (rc0 rc : StrMap RuncountStatus) (made infl sent : List Nat) (chan : List Event)
    (op : List Nat) (closed : List (Nat × ExitStatus)) (cur : Option Nat) : Prop where
  nodup : (startIds chan ++ infl).Nodup
  sentOf : ∀ v ∈ startIds chan ++ infl, v ∈ sent
  startOpen : ∀ v ∈ startIds chan, v ∈ op ++ finIds chan
  inflOpen : ∀ v ∈ infl, v ∈ op ++ finIds chan ∨ cur = some v
  order : chan.Pairwise (fun a b => ∀ e, a = .finished e → ∀ h p j, b ≠ .started e.id h p j)
  conv : ∀ v ∈ sent, (v ∈ op ++ finIds chan ∨ cur = some v) → v ∈ startIds chan ++ infl
  sentIn : ∀ v ∈ sent, v ∈ op ++ finIds chan ++ closed.map (·.1)
  curIn : ∀ v, cur = some v → v ∈ closed.map (·.1)
  logInfl : ∀ v ∈ infl, rc (cmdOf g v).key = some (.started (cmdOf g v).runcount (cmdOf g v).storageRoot)
  logReady : ∀ v ∈ made, v ∉ infl → (v ∉ closed.map (·.1) ∨ cur = some v) →
    rc (cmdOf g v).key = some (.ready (cmdOf g v).runcount (cmdOf g v).storageRoot)
  logFin : ∀ x ∈ closed, cur ≠ some x.1 →
    rc (cmdOf g x.1).key = some (.finished (cmdOf g x.1).runcount (cmdOf g x.1).storageRoot x.2.isSuccess)
  logOther : ∀ k, (∀ v ∈ made, (cmdOf g v).key ≠ k) → rc k = rc0 k

/-- Where every task is; consequences of the accounting. -/
structure Place (g : DiGraph Cmd) (made : List Nat) (chan : List Event) (op : List Nat)
    (closed : List (Nat × ExitStatus)) : Prop where
  inMade : ∀ v ∈ op ++ finIds chan ++ closed.map (·.1), v ∈ made
  uniq : (op ++ finIds chan ++ closed.map (·.1)).Nodup
  keys : ∀ u ∈ made, ∀ v ∈ made, (cmdOf g u).key = (cmdOf g v).key → u = v

variable {g : DiGraph Cmd} {rc0 rc : StrMap RuncountStatus} {made infl sent : List Nat} {chan : List Event}
  {op : List Nat} {closed : List (Nat × ExitStatus)} {cur : Option Nat}

theorem Tr.congr (h : Tr g rc0 rc made infl sent chan op closed cur) {made' infl' op' : List Nat}
    {closed' : List (Nat × ExitStatus)} (hm : ∀ v, v ∈ made ↔ v ∈ made') (hi : infl ~ infl')
    (ho : ∀ v, v ∈ op ↔ v ∈ op') (hc : ∀ x, x ∈ closed ↔ x ∈ closed') :
    Tr g rc0 rc made' infl' sent chan op' closed' cur := by
  have hc' : ∀ v, v ∈ closed.map (·.1) ↔ v ∈ closed'.map (·.1) := by
    intro v; simp only [List.mem_map, hc]
  refine ⟨(List.Perm.append_left _ hi).nodup_iff.1 h.nodup, ?_, ?_, ?_, h.order, ?_, ?_, ?_, ?_, ?_, ?_, ?_⟩
  · intro v hv; apply h.sentOf; rw [List.mem_append] at hv ⊢; rw [hi.mem_iff]; exact hv
  · intro v hv; have := h.startOpen v hv; rw [List.mem_append] at this ⊢; rwa [← ho]
  · intro v hv; have := h.inflOpen v (hi.mem_iff.2 hv); rw [List.mem_append] at this ⊢; rwa [← ho]
  · intro v hv hx
    have := h.conv v hv (by rw [List.mem_append] at hx ⊢; rwa [ho])
    rw [List.mem_append] at this ⊢; rwa [← hi.mem_iff]
  · intro v hv; have := h.sentIn v hv
    simp only [List.mem_append] at this ⊢; rwa [← ho, ← hc']
  · intro v hv; rw [← hc']; exact h.curIn v hv
  · intro v hv; exact h.logInfl v (hi.mem_iff.2 hv)
  · intro v hv hn hx
    exact h.logReady v ((hm v).2 hv) (fun h' => hn (hi.mem_iff.1 h')) (by rwa [hc'])
  · intro x hx; exact h.logFin x ((hc x).2 hx)
  · intro k hk; exact h.logOther k (fun v hv => hk v ((hm v).1 hv))

theorem foldl_set_other {g : DiGraph Cmd} (k : String) : ∀ {vs : List Nat} {rc : StrMap RuncountStatus},
    (∀ v ∈ vs, (cmdOf g v).key ≠ k) →
    vs.foldl (fun m v => StrMap.set m (cmdOf g v).key (.ready (cmdOf g v).runcount (cmdOf g v).storageRoot)) rc k = rc k := by
  intro vs
  induction vs with
  | nil => intro rc _; rfl
  | cons v vs ih =>
    intro rc h
    rw [List.foldl_cons, ih (fun w hw => h w (by simp [hw]))]
    simp only [StrMap.set]
    rw [if_neg (fun e => h v (by simp) e.symm)]

theorem foldl_set_mem {g : DiGraph Cmd} {w : Nat} : ∀ {vs : List Nat} {rc : StrMap RuncountStatus},
    w ∈ vs → (∀ v ∈ vs, (cmdOf g v).key = (cmdOf g w).key → v = w) →
    vs.foldl (fun m v => StrMap.set m (cmdOf g v).key (.ready (cmdOf g v).runcount (cmdOf g v).storageRoot)) rc
      (cmdOf g w).key = some (.ready (cmdOf g w).runcount (cmdOf g w).storageRoot) := by
  intro vs
  induction vs with
  | nil => intro rc h; simp at h
  | cons v vs ih =>
    intro rc hw h
    rw [List.foldl_cons]
    by_cases hm : w ∈ vs
    · exact ih hm (fun u hu => h u (by simp [hu]))
    · have hvw : w = v := by
        rcases List.mem_cons.1 hw with e | e
        · exact e
        · exact absurd e hm
      subst hvw
      rw [foldl_set_other]
      · simp [StrMap.set]
      · intro u hu e
        exact hm (h u (by simp [hu]) e ▸ hu)

theorem Tr.addReady (h : Tr g rc0 rc made infl sent chan op closed cur) (hp : Place g made chan op closed)
    {vs : List Nat} (hnew : ∀ v ∈ vs, v ∉ made)
    (hkeys : ∀ u ∈ made ++ vs, ∀ v ∈ made ++ vs, (cmdOf g u).key = (cmdOf g v).key → u = v) :
    Tr g rc0 (vs.foldl (fun m v => StrMap.set m (cmdOf g v).key (.ready (cmdOf g v).runcount (cmdOf g v).storageRoot)) rc)
      (made ++ vs) infl sent chan op closed cur := by
  have hold : ∀ v ∈ made, vs.foldl (fun m v => StrMap.set m (cmdOf g v).key
      (.ready (cmdOf g v).runcount (cmdOf g v).storageRoot)) rc (cmdOf g v).key = rc (cmdOf g v).key := by
    intro v hv
    apply foldl_set_other
    intro w hw e
    have := hkeys w (by simp [hw]) v (by simp [hv]) e
    subst this
    exact hnew w hw hv
  have hinfl : ∀ v ∈ infl, v ∈ made := by
    intro v hv
    apply hp.inMade
    rcases h.inflOpen v hv with h1 | h1
    · exact List.mem_append_left _ h1
    · exact List.mem_append_right _ (h.curIn v h1)
  refine ⟨h.nodup, h.sentOf, h.startOpen, h.inflOpen, h.order, h.conv, h.sentIn, h.curIn, ?_, ?_, ?_, ?_⟩
  · intro v hv; rw [hold v (hinfl v hv)]; exact h.logInfl v hv
  · intro v hv hn hx
    rcases List.mem_append.1 hv with hv | hv
    · rw [hold v hv]; exact h.logReady v hv hn hx
    · exact foldl_set_mem hv (fun u hu e => hkeys u (by simp [hu]) v (by simp [hv]) e)
  · intro x hx hc
    rw [hold x.1 (hp.inMade _ (List.mem_append_right _ (List.mem_map.2 ⟨x, hx, rfl⟩)))]
    exact h.logFin x hx hc
  · intro k hk
    rw [foldl_set_other k (fun v hv => hk v (by simp [hv]))]
    exact h.logOther k (fun v hv => hk v (by simp [hv]))

theorem Tr.sendStarted (h : Tr g rc0 rc made infl sent chan op closed cur) (hp : Place g made chan op closed)
    {v : Nat} (hv : v ∈ op) (hn : v ∉ sent) (ho : String) (p : Nat) (j : String) :
    Tr g rc0 rc made infl (sent ++ [v]) (chan ++ [.started v ho p j]) op closed cur := by
  have hnot : v ∉ startIds chan ++ infl := fun h1 => hn (h.sentOf v h1)
  have hnf : v ∉ finIds chan := by
    have := hp.uniq
    rw [List.nodup_append, List.nodup_append] at this
    intro h1; exact this.1.2.2 v hv v h1 rfl
  refine ⟨?_, ?_, ?_, ?_, ?_, ?_, ?_, h.curIn, h.logInfl, h.logReady, h.logFin, h.logOther⟩
  · have e : startIds (chan ++ [.started v ho p j]) ++ infl ~ v :: (startIds chan ++ infl) := by
      rw [startIds_append]
      simp only [startIds_st, startIds_nil, List.append_assoc]
      exact List.perm_middle
    rw [e.nodup_iff, List.nodup_cons]
    exact ⟨hnot, h.nodup⟩
  · intro w hw
    simp only [startIds_append, startIds_st, startIds_nil, List.mem_append, List.mem_singleton] at hw ⊢
    rcases hw with (hw | hw) | hw
    · exact .inl (h.sentOf w (by simp [hw]))
    · exact .inr hw
    · exact .inl (h.sentOf w (by simp [hw]))
  · intro w hw
    simp only [startIds_append, startIds_st, startIds_nil, List.mem_append, List.mem_singleton, finIds_append, finIds_st,
      finIds_nil, List.not_mem_nil, or_false] at hw ⊢
    rcases hw with hw | hw
    · simpa using h.startOpen w hw
    · subst hw; exact .inl hv
  · intro w hw
    simpa using h.inflOpen w hw
  · rw [List.pairwise_append]
    refine ⟨h.order, by simp, ?_⟩
    intro a ha b hb e he ho' p' j'
    simp only [List.mem_singleton] at hb
    subst hb he
    intro hbad
    simp only [Event.started.injEq] at hbad
    apply hnf
    rw [hbad.1]
    exact List.mem_filterMap.2 ⟨_, ha, rfl⟩
  · intro w hw hx
    simp only [startIds_append, startIds_st, startIds_nil, List.mem_append, List.mem_singleton, finIds_append, finIds_st,
      finIds_nil, List.not_mem_nil, or_false] at hw hx ⊢
    rcases hw with hw | hw
    · have := h.conv w hw (by simpa using hx)
      simp only [List.mem_append] at this
      tauto
    · subst hw; exact .inl (.inr rfl)
  · intro w hw
    simp only [List.mem_append, List.mem_singleton, finIds_append, finIds_st,
      finIds_nil, List.not_mem_nil, or_false] at hw ⊢
    rcases hw with hw | hw
    · have := h.sentIn w hw
      simpa only [List.mem_append] using this
    · subst hw; exact .inl (.inl hv)

theorem Tr.sendFinished (h : Tr g rc0 rc made infl sent chan op closed cur)
    {e : Fin} {op' : List Nat} (hop : op ~ e.id :: op') :
    Tr g rc0 rc made infl sent (chan ++ [.finished e]) op' closed cur := by
  have hm : ∀ w, w ∈ op' ++ finIds (chan ++ [.finished e]) ↔ w ∈ op ++ finIds chan := by
    intro w
    simp only [finIds_append, finIds_fin, finIds_nil, List.mem_append, List.mem_singleton, hop.mem_iff, List.mem_cons]
    tauto
  have hs : startIds (chan ++ [.finished e]) = startIds chan := by simp
  refine ⟨by rw [hs]; exact h.nodup, by rw [hs]; exact h.sentOf, ?_, ?_, ?_, ?_, ?_, h.curIn, h.logInfl, h.logReady,
    h.logFin, h.logOther⟩
  · intro w hw; rw [hm]; rw [hs] at hw; exact h.startOpen w hw
  · intro w hw; rw [hm]; exact h.inflOpen w hw
  · rw [List.pairwise_append]
    refine ⟨h.order, by simp, ?_⟩
    intro a _ b hb e' _ ho p j
    simp only [List.mem_singleton] at hb
    subst hb; simp
  · intro w hw hx; rw [hm] at hx; rw [hs]; exact h.conv w hw hx
  · intro w hw
    have := h.sentIn w hw
    rw [List.mem_append] at this ⊢
    rwa [hm]

theorem Tr.account (h : Tr g rc0 rc made infl sent chan op closed cur) {v : Nat}
    (hn : v ∉ op ++ finIds chan ++ closed.map (·.1)) :
    Tr g rc0 rc made infl sent chan (v :: op) closed cur := by
  refine ⟨h.nodup, h.sentOf, ?_, ?_, h.order, ?_, ?_, h.curIn, h.logInfl, h.logReady, h.logFin, h.logOther⟩
  · intro w hw; exact List.mem_cons_of_mem _ (h.startOpen w hw)
  · intro w hw; exact (h.inflOpen w hw).imp (List.mem_cons_of_mem _) id
  · intro w hw hx
    by_cases hwv : w = v
    · subst hwv; exact absurd (h.sentIn w hw) hn
    · apply h.conv w hw
      simpa [hwv] using hx
  · intro w hw; exact List.mem_cons_of_mem _ (h.sentIn w hw)

theorem Tr.recvStarted {v : Nat} {ho : String} {p : Nat} {j : String} {rest : List Event}
    (h : Tr g rc0 rc made infl sent (.started v ho p j :: rest) op closed none)
    (hp : Place g made (.started v ho p j :: rest) op closed) :
    v ∉ infl ∧ rc (cmdOf g v).key = some (.ready (cmdOf g v).runcount (cmdOf g v).storageRoot) ∧
    Tr g rc0 (rc.set (cmdOf g v).key (.started (cmdOf g v).runcount (cmdOf g v).storageRoot)) made (v :: infl) sent rest
      op closed none := by
  have hnd := h.nodup
  simp only [startIds_st, List.cons_append, List.nodup_cons, List.mem_append, not_or] at hnd
  have hopen := h.startOpen v (by simp)
  simp only [finIds_st] at hopen
  have hvm : v ∈ made := hp.inMade v (List.mem_append_left _ (by simpa using hopen))
  have hncl : v ∉ closed.map (·.1) := by
    have := hp.uniq
    rw [List.nodup_append] at this
    intro h1; exact this.2.2 v (by simpa using hopen) v h1 rfl
  refine ⟨hnd.1.2, h.logReady v hvm hnd.1.2 (.inl hncl), ?_⟩
  have hother : ∀ w ∈ made, w ≠ v → (rc.set (cmdOf g v).key
      (.started (cmdOf g v).runcount (cmdOf g v).storageRoot)) (cmdOf g w).key = rc (cmdOf g w).key := by
    intro w hw hne
    simp only [StrMap.set]
    rw [if_neg (fun e => hne (hp.keys w hw v hvm e))]
  have hinfl : ∀ w ∈ infl, w ∈ made := by
    intro w hw
    apply hp.inMade
    rcases h.inflOpen w hw with h1 | h1
    · exact List.mem_append_left _ h1
    · cases h1
  refine ⟨?_, ?_, ?_, ?_, ?_, ?_, ?_, by simp, ?_, ?_, ?_, ?_⟩
  · have e : startIds rest ++ v :: infl ~ v :: (startIds rest ++ infl) := List.perm_middle
    rw [e.nodup_iff, List.nodup_cons, List.mem_append, not_or]
    exact hnd
  · intro w hw
    apply h.sentOf
    simp only [startIds_st, List.mem_append, List.mem_cons] at hw ⊢
    tauto
  · intro w hw; simpa using h.startOpen w (by simp [hw])
  · intro w hw
    rcases List.mem_cons.1 hw with rfl | hw
    · exact .inl hopen
    · simpa using h.inflOpen w hw
  · exact (List.pairwise_cons.1 h.order).2
  · intro w hw hx
    have := h.conv w hw (by simpa using hx)
    simp only [startIds_st, List.mem_append, List.mem_cons] at this ⊢
    tauto
  · intro w hw; simpa using h.sentIn w hw
  · intro w hw
    by_cases hwv : w = v
    · subst hwv; simp [StrMap.set]
    · have hw' := (List.mem_cons.1 hw).resolve_left hwv
      rw [hother w (hinfl w hw') hwv]; exact h.logInfl w hw'
  · intro w hw hn hx
    simp only [List.mem_cons, not_or] at hn
    rw [hother w hw hn.1]; exact h.logReady w hw hn.2 hx
  · intro x hx hc
    have hxm : x.1 ∈ closed.map (·.1) := List.mem_map.2 ⟨x, hx, rfl⟩
    rw [hother x.1 (hp.inMade _ (List.mem_append_right _ hxm)) (fun e => hncl (e ▸ hxm))]
    exact h.logFin x hx hc
  · intro k hk
    simp only [StrMap.set]
    rw [if_neg (fun e => hk v hvm e.symm)]
    exact h.logOther k hk

theorem Tr.popFin {e : Fin} {rest : List Event}
    (h : Tr g rc0 rc made infl sent (.finished e :: rest) op closed none)
    (hp : Place g made (.finished e :: rest) op closed) :
    Tr g rc0 rc made infl sent rest op (closed ++ [(e.id, e.status)]) (some e.id) := by
  have hns : e.id ∉ startIds rest := by
    intro hm
    obtain ⟨ev, h1, h2⟩ := List.mem_filterMap.1 hm
    have := (List.pairwise_cons.1 h.order).1 ev h1 e rfl
    cases ev with
    | finished f => simp at h2
    | started w a b c => simp only [Option.some.injEq] at h2; subst h2; exact this a b c rfl
  have hno : e.id ∉ op := by
    have := hp.uniq
    rw [List.nodup_append, List.nodup_append] at this
    intro h1; exact this.1.2.2 e.id h1 e.id (by simp) rfl
  have hcl : ∀ w, w ∈ (closed ++ [(e.id, e.status)]).map (·.1) ↔ w ∈ closed.map (·.1) ∨ w = e.id := by
    intro w; simp only [List.map_append, List.mem_append, List.map_cons, List.map_nil, List.mem_singleton]
  refine ⟨h.nodup, h.sentOf, ?_, ?_, (List.pairwise_cons.1 h.order).2, ?_, ?_, ?_, h.logInfl, ?_, ?_, h.logOther⟩
  · intro w hw
    have := h.startOpen w hw
    simp only [finIds_fin, List.mem_append, List.mem_cons] at this ⊢
    rcases this with h1 | h1 | h1
    · exact .inl h1
    · subst h1; exact absurd hw hns
    · exact .inr h1
  · intro w hw
    rcases h.inflOpen w hw with h1 | h1
    · simp only [finIds_fin, List.mem_append, List.mem_cons] at h1 ⊢
      rcases h1 with h1 | h1 | h1
      · exact .inl (.inl h1)
      · subst h1; exact .inr rfl
      · exact .inl (.inr h1)
    · cases h1
  · intro w hw hx
    have := h.conv w hw (by
      left
      simp only [finIds_fin, List.mem_append, List.mem_cons, Option.some.injEq] at hx ⊢
      rcases hx with (h1 | h1) | h1
      · exact .inl h1
      · exact .inr (.inr h1)
      · exact .inr (.inl h1.symm))
    simpa using this
  · intro w hw
    have := h.sentIn w hw
    simp only [finIds_fin, List.mem_append, List.mem_cons, hcl] at this ⊢
    tauto
  · intro w hw
    simp only [Option.some.injEq] at hw
    rw [hcl]; exact .inr hw.symm
  · intro w hw hn hx
    apply h.logReady w hw hn
    left
    rcases hx with hx | hx
    · rw [hcl] at hx; exact fun h1 => hx (.inl h1)
    · simp only [Option.some.injEq] at hx
      subst hx
      have := hp.uniq
      rw [List.nodup_append] at this
      intro h1; exact this.2.2 e.id (by simp) e.id h1 rfl
  · intro x hx hc
    rcases List.mem_append.1 hx with hx | hx
    · exact h.logFin x hx (by simp)
    · simp only [List.mem_singleton] at hx; subst hx; simp at hc

/-- The finish of `v` is logged: its status was Ready or Started before. -/
theorem Tr.finHalf {v : Nat} {st : ExitStatus} (h : Tr g rc0 rc made infl sent chan op closed (some v))
    (hp : Place g made chan op closed) (hst : (v, st) ∈ closed) (hu : ∀ st', (v, st') ∈ closed → st' = st) {infl' : List Nat}
    (hi : infl' = infl.filter (fun x => x != v)) :
    Tr g rc0 (rc.set (cmdOf g v).key (.finished (cmdOf g v).runcount (cmdOf g v).storageRoot st.isSuccess)) made infl' sent
      chan op closed none := by
  have hcl := h.curIn v rfl
  have hvm : v ∈ made := hp.inMade v (List.mem_append_right _ hcl)
  have hnop : v ∉ op ++ finIds chan := by
    have := hp.uniq
    rw [List.nodup_append] at this
    intro h1; exact this.2.2 v h1 v hcl rfl
  have hns : v ∉ startIds chan := fun h1 => hnop (h.startOpen v h1)
  have hother : ∀ w ∈ made, w ≠ v → (rc.set (cmdOf g v).key
      (.finished (cmdOf g v).runcount (cmdOf g v).storageRoot st.isSuccess)) (cmdOf g w).key = rc (cmdOf g w).key := by
    intro w hw hne
    simp only [StrMap.set]
    rw [if_neg (fun e => hne (hp.keys w hw v hvm e))]
  have hmi : ∀ w, w ∈ infl' ↔ w ∈ infl ∧ w ≠ v := by
    intro w; rw [hi]; simp [List.mem_filter]
  have hinfl : ∀ w ∈ infl, w ∈ made := by
    intro w hw
    apply hp.inMade
    rcases h.inflOpen w hw with h1 | h1
    · exact List.mem_append_left _ h1
    · simp only [Option.some.injEq] at h1; subst h1; exact List.mem_append_right _ hcl
  refine ⟨?_, ?_, h.startOpen, ?_, h.order, ?_, h.sentIn, by simp, ?_, ?_, ?_, ?_⟩
  · rw [hi]
    exact h.nodup.sublist (List.Sublist.append (List.Sublist.refl _) List.filter_sublist)
  · intro w hw
    apply h.sentOf
    rw [List.mem_append] at hw ⊢
    exact hw.imp id (fun h1 => ((hmi w).1 h1).1)
  · intro w hw
    rcases h.inflOpen w ((hmi w).1 hw).1 with h1 | h1
    · exact .inl h1
    · simp only [Option.some.injEq] at h1; subst h1; exact absurd rfl ((hmi _).1 hw).2
  · intro w hw hx
    have hx' : w ∈ op ++ finIds chan := hx.resolve_right (by simp)
    have hwv : w ≠ v := fun e => hnop (e ▸ hx')
    have := h.conv w hw (.inl hx')
    rw [List.mem_append] at this ⊢
    exact this.imp id (fun h1 => (hmi w).2 ⟨h1, hwv⟩)
  · intro w hw
    obtain ⟨h1, h2⟩ := (hmi w).1 hw
    rw [hother w (hinfl w h1) h2]; exact h.logInfl w h1
  · intro w hw hn hx
    have hx' : w ∉ closed.map (·.1) := hx.resolve_right (by simp)
    have hwv : w ≠ v := fun e => hx' (e ▸ hcl)
    rw [hother w hw hwv]
    exact h.logReady w hw (fun h1 => hn ((hmi w).2 ⟨h1, hwv⟩)) (.inl hx')
  · intro x hx _
    by_cases hxv : x.1 = v
    · have : x.2 = st := hu x.2 (by rw [← hxv]; exact hx)
      rw [hxv, this]; simp [StrMap.set]
    · rw [hother x.1 (hp.inMade _ (List.mem_append_right _ (List.mem_map.2 ⟨x, hx, rfl⟩))) hxv]
      exact h.logFin x hx (fun e => hxv (Option.some.inj e).symm)
  · intro k hk
    simp only [StrMap.set]
    rw [if_neg (fun e => hk v hvm e.symm)]
    exact h.logOther k hk

/-- `v`, inflight with no finish event, is closed as disconnected during `drain` (channel empty). -/
theorem Tr.disconnect {v : Nat} {op' : List Nat} (h : Tr g rc0 rc made (v :: infl) sent [] op closed none)
    (hp : Place g made [] op closed) (hop : op ~ v :: op') (st : ExitStatus) :
    Tr g rc0 (rc.set (cmdOf g v).key (.finished (cmdOf g v).runcount (cmdOf g v).storageRoot st.isSuccess)) made infl sent
      [] op' (closed ++ [(v, st)]) none := by
  have h1 := (h.sendFinished (e := ⟨v, st, [], none⟩) hop)
  have hp1 : Place g made [.finished ⟨v, st, [], none⟩] op' closed := by
    have hperm : op' ++ finIds [.finished ⟨v, st, [], none⟩] ++ closed.map (·.1) ~ op ++ finIds [] ++ closed.map (·.1) := by
      simp only [finIds_fin, finIds_nil, List.append_nil]
      apply List.Perm.append_right
      exact (List.perm_append_comm (l₁ := op') (l₂ := [v])).trans hop.symm
    exact ⟨fun w hw => hp.inMade w (hperm.mem_iff.1 hw), hperm.nodup_iff.2 hp.uniq, hp.keys⟩
  have h2 := h1.popFin hp1
  have hp2 : Place g made [] op' (closed ++ [(v, st)]) := by
    have hperm : op' ++ finIds [] ++ (closed ++ [(v, st)]).map (·.1) ~ op ++ finIds [] ++ closed.map (·.1) := by
      simp only [finIds_nil, List.append_nil, List.map_append, List.map_cons, List.map_nil]
      rw [← List.append_assoc]
      refine (List.perm_append_comm (l₁ := op' ++ closed.map (·.1)) (l₂ := [v])).trans ?_
      exact List.Perm.append_right _ hop.symm
    exact ⟨fun w hw => hp.inMade w (hperm.mem_iff.1 hw), hperm.nodup_iff.2 hp.uniq, hp.keys⟩
  refine h2.finHalf hp2 (st := st) (by simp) ?_ ?_
  · intro st' hm
    rcases List.mem_append.1 hm with hm | hm
    · have := hp2.uniq
      rw [List.map_append, ← List.append_assoc, List.nodup_append] at this
      exact absurd rfl (this.2.2 v (List.mem_append_right _ (List.mem_map.2 ⟨_, hm, rfl⟩)) v (by simp))
    · simpa using hm
  · have := h.nodup
    simp only [startIds_nil, List.nil_append, List.nodup_cons] at this
    rw [List.filter_cons, if_neg (by simp)]
    symm
    apply List.filter_eq_self.2
    intro x hx
    simp only [bne_iff_ne, ne_eq]
    intro e; exact this.1 (e ▸ hx)

end Verif.Tracker
