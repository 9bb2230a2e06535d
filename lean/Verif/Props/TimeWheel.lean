import Verif.Proof.TimeWheel

/-!
# C55, C56, C57: the timer wheel

`run (new D) os = .ok (w, rs)`: the operations `os` on a new wheel of duration `D` returned `rs`. `outs rs` are the
results of the ticks, in order.
-/

namespace Verif.Props.TimeWheel
open Verif.TimeWheel

variable {α : Type}

/-- The result of a tick. -/
def fired? : Ret α → Option (List (TimerID × α)) | .fired l => some l | _ => none

/-- The results of the ticks, in order. -/
def outs (rs : List (Ret α)) : List (List (TimerID × α)) := rs.filterMap fired?

/-- Is it a tick? -/
def isTick : Op α → Bool | .tick => true | _ => false

/-- Number of ticks. -/
def ticks (os : List (Op α)) : Nat := os.countP isTick

@[simp] theorem ticks_nil : ticks ([] : List (Op α)) = 0 := rfl
@[simp] theorem ticks_tick (os : List (Op α)) : ticks (.tick :: os) = ticks os + 1 := by
  unfold ticks; exact List.countP_cons_of_pos rfl
@[simp] theorem ticks_insert (os : List (Op α)) (d : Nat) (e : α) : ticks (.insert d e :: os) = ticks os := by
  unfold ticks; exact List.countP_cons_of_neg (by simp [isTick])
@[simp] theorem ticks_cancel (os : List (Op α)) (k : TimerID) : ticks (.cancel k :: os) = ticks os := by
  unfold ticks; exact List.countP_cons_of_neg (by simp [isTick])
@[simp] theorem outs_nil : outs ([] : List (Ret α)) = [] := rfl
@[simp] theorem outs_fired (rs : List (Ret α)) (l : List (TimerID × α)) : outs (.fired l :: rs) = l :: outs rs := rfl
@[simp] theorem outs_id (rs : List (Ret α)) (k : TimerID) : outs (.id k :: rs) = outs rs := rfl
@[simp] theorem outs_unit (rs : List (Ret α)) : outs (.unit :: rs) = outs rs := rfl
@[simp] theorem outs_append (rs rs' : List (Ret α)) : outs (rs ++ rs') = outs rs ++ outs rs' := by simp [outs]

/-- No insertion of entry `e`. -/
def NoInsert (e : α) (os : List (Op α)) : Prop := ∀ d, Op.insert d e ∉ os

/-- No cancellation with id `k`. -/
def NoCancel (k : TimerID) (os : List (Op α)) : Prop := Op.cancel k ∉ os

/-- **C56 (refinement).** Whatever the operations, the wheel answers as the specification `SpecRuns` says: a tick returns
exactly the timers with one tick left, each once; an insertion adds a timer with `ticksFor` ticks left under an id no other
pending timer has; a cancellation removes exactly the timer with that id. -/
theorem wheel_refines (D : Nat) (os : List (Op α)) (w : Wheel α) (rs : List (Ret α))
    (h : run (new D) os = .ok (w, rs)) : ∃ p, SpecRuns D [] os rs p := by
  obtain ⟨p, h1, _⟩ := run_spec (Rel.new D) h
  exact ⟨p, h1⟩

/-- The wheel panics iff some delay exceeds its duration (or it has duration 0). -/
theorem wheel_panics_iff (w : Wheel α) (os : List (Op α)) :
    (∃ m, run w os = .panic m) ↔ ∃ d e, Op.insert d e ∈ os ∧ (w.duration < d ∨ w.duration = 0) := by
  induction os generalizing w with
  | nil => simp [run]
  | cons o os ih =>
    have hgo : ∀ w1 r, step w o = .ok (w1, r) → ((∃ m, run w (o :: os) = .panic m) ↔ ∃ m, run w1 os = .panic m) := by
      intro w1 r hs
      simp only [run, hs, Res.bind]
      cases run w1 os <;> simp
    cases o with
    | tick =>
      have hs : step w .tick = .ok ((tick w).1, Ret.fired (tick w).2) := rfl
      rw [hgo _ _ hs, ih, step_duration hs]
      simp
    | cancel k =>
      have hs : step w (.cancel k) = .ok (cancel w k, Ret.unit) := rfl
      rw [hgo _ _ hs, ih, step_duration hs]
      simp
    | insert d e =>
      by_cases hb : w.duration < d ∨ w.duration = 0
      · refine ⟨fun _ => ⟨d, e, by simp, hb⟩, fun _ => ?_⟩
        simp only [run, step, Verif.TimeWheel.insert]
        split
        · exact ⟨_, rfl⟩
        · rw [if_pos (by omega)]; exact ⟨_, rfl⟩
      · obtain ⟨w1, r, hs⟩ : ∃ w1 r, step w (.insert d e) = .ok (w1, r) := by
          simp only [step, Verif.TimeWheel.insert]
          rw [if_neg (by omega), if_neg (by omega)]
          exact ⟨_, _, rfl⟩
        rw [hgo _ _ hs, ih, step_duration hs]
        constructor
        · rintro ⟨d', e', h1, h2⟩; exact ⟨d', e', List.mem_cons_of_mem _ h1, h2⟩
        · rintro ⟨d', e', h1, h2⟩
          rcases List.mem_cons.1 h1 with h1 | h1
          · cases h1; exact absurd h2 hb
          · exact ⟨d', e', h1, h2⟩

/-! ## One timer -/

theorem spec_never {D : Nat} {p p' : List (Timer α)} {os : List (Op α)} {rs : List (Ret α)} {e : α}
    (h : SpecRuns D p os rs p') (hp : ∀ t ∈ p, t.entry ≠ e) (hi : NoInsert e os) :
    ∀ l ∈ outs rs, ∀ k, (k, e) ∉ l := by
  induction h with
  | nil => simp [outs]
  | @cons p p' o os r rs hr _ ih =>
    have hi' : NoInsert e os := fun d hd => hi d (List.mem_cons_of_mem _ hd)
    have hnext : ∀ t ∈ specNext D p o r, t.entry ≠ e := by
      intro t ht
      cases o with
      | tick =>
        simp only [specNext, List.mem_map, List.mem_filter] at ht
        obtain ⟨t', ⟨h1, _⟩, rfl⟩ := ht
        exact hp t' h1
      | cancel k =>
        simp only [specNext, List.mem_filter] at ht
        exact hp t ht.1
      | insert d e' =>
        cases r with
        | id k =>
          simp only [specNext, List.mem_append, List.mem_singleton] at ht
          rcases ht with ht | rfl
          · exact hp t ht
          · intro he; exact hi d (by simp only at he; subst he; simp)
        | fired l => exact hp t ht
        | unit => exact hp t ht
    intro l hl k hk
    cases r with
    | fired l' =>
      simp only [outs, List.filterMap_cons, fired?, List.mem_cons] at hl
      rcases hl with rfl | hl
      · cases o with
        | tick =>
          simp only [specRet] at hr
          have := hr.mem_iff.1 hk
          simp only [List.mem_map, List.mem_filter, Prod.mk.injEq] at this
          obtain ⟨t, ⟨h1, _⟩, _, h2⟩ := this
          exact hp t h1 h2
        | insert d e' => exact hr
        | cancel k => exact hr
      · exact ih hnext hi' l hl k hk
    | id _ => exact ih hnext hi' l hl k hk
    | unit => exact ih hnext hi' l hl k hk

theorem spec_fires {D : Nat} {p p' : List (Timer α)} {os : List (Op α)} {rs : List (Ret α)} {e : α} {k : TimerID}
    {n : Nat} (h : SpecRuns D p os rs p') (hn : 1 ≤ n) (hmem : (⟨k, e, n⟩ : Timer α) ∈ p)
    (huniq : ∀ t ∈ p, t.entry = e → t = ⟨k, e, n⟩) (hi : NoInsert e os) (hc : NoCancel k os) :
    (∀ j l, (outs rs)[j]? = some l → ((∃ k', (k', e) ∈ l) ↔ j + 1 = n)) ∧
    (ticks os < n → (⟨k, e, n - ticks os⟩ : Timer α) ∈ p' ∧ ∀ t ∈ p', t.entry = e → t = ⟨k, e, n - ticks os⟩) := by
  induction h generalizing n with
  | nil => exact ⟨by simp [outs], fun _ => ⟨by simpa using hmem, by simpa using huniq⟩⟩
  | @cons p p' o os r rs hr hrest ih =>
    have hi' : NoInsert e os := fun d hd => hi d (List.mem_cons_of_mem _ hd)
    have hc' : NoCancel k os := fun hd => hc (List.mem_cons_of_mem _ hd)
    cases o with
    | tick =>
      cases r with
      | fired l =>
        simp only [specRet] at hr
        have hout : outs (Ret.fired l :: rs) = l :: outs rs := by simp [outs, fired?]
        have hl : (∃ k', (k', e) ∈ l) ↔ n = 1 := by
          constructor
          · rintro ⟨k', hk'⟩
            have := hr.mem_iff.1 hk'
            simp only [List.mem_map, List.mem_filter, beq_iff_eq, Prod.mk.injEq] at this
            obtain ⟨t, ⟨h1, h2⟩, _, h3⟩ := this
            have := huniq t h1 h3
            rw [this] at h2; exact h2
          · intro h1
            refine ⟨k, hr.mem_iff.2 ?_⟩
            simp only [List.mem_map, List.mem_filter, beq_iff_eq, Prod.mk.injEq]
            exact ⟨_, ⟨hmem, h1⟩, rfl, rfl⟩
        have htk : ticks (Op.tick :: os) = ticks os + 1 := by simp
        by_cases h1 : n = 1
        · subst h1
          refine ⟨?_, fun hlt => by omega⟩
          have hnever := spec_never (e := e) hrest (by
            intro t ht
            simp only [specNext, List.mem_map, List.mem_filter, bne_iff_ne] at ht
            obtain ⟨t', ⟨h1, h2⟩, rfl⟩ := ht
            intro he
            have := huniq t' h1 he
            rw [this] at h2; exact h2 rfl) hi'
          rw [hout]
          intro j l' hj
          cases j with
          | zero => simp only [List.getElem?_cons_zero, Option.some.injEq] at hj; subst hj; simpa using hl
          | succ j =>
            simp only [List.getElem?_cons_succ] at hj
            constructor
            · rintro ⟨k', hk'⟩; exact absurd hk' (hnever l' (List.mem_of_getElem? hj) k')
            · intro hh; omega
        · have hx := ih (n := n - 1) (by omega) (by
              simp only [specNext, List.mem_map, List.mem_filter, bne_iff_ne]
              exact ⟨_, ⟨hmem, h1⟩, rfl⟩) (by
              intro t ht he
              simp only [specNext, List.mem_map, List.mem_filter, bne_iff_ne] at ht
              obtain ⟨t', ⟨h2, _⟩, rfl⟩ := ht
              have := huniq t' h2 he
              rw [this]) hi' hc'
          refine ⟨?_, fun hlt => ?_⟩
          · rw [hout]
            intro j l' hj
            cases j with
            | zero =>
              simp only [List.getElem?_cons_zero, Option.some.injEq] at hj; subst hj
              rw [hl]; omega
            | succ j =>
              simp only [List.getElem?_cons_succ] at hj
              rw [hx.1 j l' hj]; omega
          · have := hx.2 (by omega)
            rw [htk]
            rwa [show n - (ticks os + 1) = n - 1 - ticks os by omega]
      | id _ => exact absurd hr id
      | unit => exact absurd hr id
    | insert d e' =>
      cases r with
      | id k' =>
        have hne : e' ≠ e := fun he => hi d (by subst he; simp)
        have hx := ih (n := n) hn (by simp [specNext, hmem]) (by
          intro t ht he
          simp only [specNext, List.mem_append, List.mem_singleton] at ht
          rcases ht with ht | rfl
          · exact huniq t ht he
          · exact absurd he hne) hi' hc'
        simpa using hx
      | fired _ => exact absurd hr id
      | unit => exact absurd hr id
    | cancel k' =>
      cases r with
      | unit =>
        have hne : k ≠ k' := fun he => hc (by subst he; simp)
        have hx := ih (n := n) hn (by simp [specNext, hmem, hne]) (by
          intro t ht he
          simp only [specNext, List.mem_filter] at ht
          exact huniq t ht.1 he) hi' hc'
        simpa using hx
      | fired _ => exact absurd hr id
      | id _ => exact absurd hr id

theorem spec_append {D : Nat} {os₁ os₂ : List (Op α)} : ∀ {p p' : List (Timer α)} {rs : List (Ret α)},
    SpecRuns D p (os₁ ++ os₂) rs p' → ∃ rs₁ rs₂ p1, rs = rs₁ ++ rs₂ ∧ rs₁.length = os₁.length ∧ SpecRuns D p os₁ rs₁ p1 ∧
      SpecRuns D p1 os₂ rs₂ p' := by
  induction os₁ with
  | nil => intro p p' rs h; exact ⟨[], rs, p, rfl, rfl, .nil p, h⟩
  | cons o os ih =>
    intro p p' rs h
    cases h with
    | cons hr hrest =>
      obtain ⟨rs₁, rs₂, p1, rfl, hl, h1, h2⟩ := ih hrest
      exact ⟨_, rs₂, p1, rfl, by simp [hl], .cons hr h1, h2⟩

theorem spec_length {D : Nat} {p p' : List (Timer α)} {os : List (Op α)} {rs : List (Ret α)} (h : SpecRuns D p os rs p') :
    rs.length = os.length := by
  induction h with
  | nil => rfl
  | cons _ _ ih => simp [ih]

theorem spec_no_entry {D : Nat} {p p' : List (Timer α)} {os : List (Op α)} {rs : List (Ret α)} {e : α}
    (h : SpecRuns D p os rs p') (hp : ∀ t ∈ p, t.entry ≠ e) (hi : NoInsert e os) : ∀ t ∈ p', t.entry ≠ e := by
  induction h with
  | nil => exact hp
  | @cons p p' o os r rs hr _ ih =>
    refine ih ?_ (fun d hd => hi d (List.mem_cons_of_mem _ hd))
    intro t ht
    cases o with
    | tick =>
      simp only [specNext, List.mem_map, List.mem_filter] at ht
      obtain ⟨t', ⟨h1, _⟩, rfl⟩ := ht
      exact hp t' h1
    | cancel k =>
      simp only [specNext, List.mem_filter] at ht
      exact hp t ht.1
    | insert d e' =>
      cases r with
      | id k =>
        simp only [specNext, List.mem_append, List.mem_singleton] at ht
        rcases ht with ht | rfl
        · exact hp t ht
        · intro he; exact hi d (by simp only at he; subst he; simp)
      | fired l => exact hp t ht
      | unit => exact hp t ht

theorem ticksFor_pos (D d : Nat) : 1 ≤ ticksFor D d := by
  unfold ticksFor; split
  · omega
  · exact Nat.pos_of_ne_zero ‹_›

/-- **C56 (exactness).** On a wheel of any duration, after any operations `before`: insert entry `e` with delay `d`, getting
id `k`, and go on with any operations `after` among which there is neither a cancellation with that id nor another insertion
of `e`. Then, counting the ticks in `after` from 1, tick number `j` returns `e` iff `j = ticksFor D d`. In particular it
fires once; other timers, whether inserted, cancelled or fired, have no influence. -/
theorem fires_exactly (D d : Nat) (before after : List (Op α)) (e : α) (k : TimerID) (w : Wheel α)
    (rs₁ rs₂ : List (Ret α)) (hl : rs₁.length = before.length)
    (h : run (new D) (before ++ .insert d e :: after) = .ok (w, rs₁ ++ .id k :: rs₂))
    (hb : NoInsert e before) (ha : NoInsert e after) (hc : NoCancel k after) (j : Nat) (l : List (TimerID × α))
    (hj : (outs rs₂)[j]? = some l) : (∃ k', (k', e) ∈ l) ↔ j + 1 = ticksFor D d := by
  obtain ⟨p, hs⟩ := wheel_refines D _ w _ h
  obtain ⟨r1, r2, p1, heq, hl1, hs1, hs2⟩ := spec_append hs
  obtain ⟨rfl, rfl⟩ := List.append_inj heq (by omega)
  cases hs2 with
  | cons hr hrest =>
    have hp1 := spec_no_entry (e := e) hs1 (by simp) hb
    refine (spec_fires (k := k) (n := ticksFor D d) hrest (ticksFor_pos D d) (by simp [specNext]) ?_ ha hc).1 j l hj
    intro t ht he
    simp only [specNext, List.mem_append, List.mem_singleton] at ht
    rcases ht with ht | rfl
    · exact absurd he (hp1 t ht)
    · rfl

/-- A delay of at least one tick and less than the duration fires after as many ticks as fit into it; a shorter delay
(down to 0), and the full duration, only after a whole revolution of 256 ticks. -/
theorem ticks_for_delay (D d : Nat) (hD : 0 < D) (hd : d ≤ D) :
    (d < D → D ≤ 256 * d → ticksFor D d < 256 ∧ ticksFor D d * D ≤ 256 * d ∧ 256 * d < (ticksFor D d + 1) * D) ∧
    (256 * d < D → ticksFor D d = 256) ∧ (d = D → ticksFor D d = 256) := by
  refine ⟨fun h1 h2 => ?_, fun h => ?_, fun h => ?_⟩
  · have hpos : 0 < 256 * d / D := Nat.div_pos h2 hD
    unfold ticksFor
    rw [if_neg (by omega)]
    refine ⟨(Nat.div_lt_iff_lt_mul hD).2 (by omega), Nat.div_mul_le_self _ _, ?_⟩
    have := Nat.lt_div_mul_add (a := 256 * d) hD
    rw [Nat.add_mul]
    omega
  · unfold ticksFor
    rw [if_pos (Nat.div_eq_of_lt h)]
  · subst h
    unfold ticksFor
    rw [Nat.mul_div_cancel _ hD]
    rfl

/-- Non-trivial case: wheel of duration 256 (a tick per unit), delay 3, another timer in the same slot is cancelled. -/
example : ∃ w, run (new 256) [.tick, .insert 3 "x", .insert 3 "a", .tick, .cancel ⟨⟨1, 1⟩, 4⟩, .insert 0 "y", .tick, .tick]
    = .ok (w, [.fired [], .id ⟨⟨1, 1⟩, 4⟩, .id ⟨⟨2, 1⟩, 4⟩, .fired [], .unit, .id ⟨⟨1, 1⟩, 2⟩, .fired [],
        .fired [(⟨⟨2, 1⟩, 4⟩, "a")]]) := ⟨_, rfl⟩
example : ticksFor 256 3 = 3 := by decide

/-! ## Cancellation -/

/-- **C57.** A pending timer that is cancelled never fires; nothing else is needed. (That other timers are not touched is
`fires_exactly`, which allows any cancellation with another id.) -/
theorem cancelled_never_fires (D d : Nat) (before mid after : List (Op α)) (e : α) (k : TimerID) (w : Wheel α)
    (rs₁ rs₂ rs₃ : List (Ret α)) (hl : rs₁.length = before.length) (hl2 : rs₂.length = mid.length)
    (h : run (new D) (before ++ .insert d e :: (mid ++ .cancel k :: after)) = .ok (w, rs₁ ++ .id k :: (rs₂ ++ .unit :: rs₃)))
    (hb : NoInsert e before) (hm : NoInsert e mid) (ha : NoInsert e after) (hc : NoCancel k mid)
    (hpend : ticks mid < ticksFor D d) : ∀ l ∈ outs rs₃, ∀ k', (k', e) ∉ l := by
  obtain ⟨p, hs⟩ := wheel_refines D _ w _ h
  obtain ⟨r1, r2, p1, heq, hl1, hs1, hs2⟩ := spec_append hs
  obtain ⟨rfl, rfl⟩ := List.append_inj heq (by omega)
  cases hs2 with
  | cons hr hrest =>
    have hp1 := spec_no_entry (e := e) hs1 (by simp) hb
    obtain ⟨r3, r4, p2, heq2, hl3, hs3, hs4⟩ := spec_append hrest
    obtain ⟨rfl, rfl⟩ := List.append_inj heq2 (by omega)
    have hf := (spec_fires (k := k) (n := ticksFor D d) hs3 (ticksFor_pos D d) (by simp [specNext]) (by
      intro t ht he
      simp only [specNext, List.mem_append, List.mem_singleton] at ht
      rcases ht with ht | rfl
      · exact absurd he (hp1 t ht)
      · rfl) hm hc).2 hpend
    cases hs4 with
    | cons hr4 hrest4 =>
      refine spec_never hrest4 ?_ ha
      intro t ht he
      simp only [specNext, List.mem_filter, bne_iff_ne] at ht
      have := hf.2 t ht.1 he
      exact ht.2 (by rw [this])

/-- The slot still belongs to the same bucket, and the key is no longer valid there. -/
def Dead (w : Wheel α) (k : TimerID) : Prop :=
  ∃ m v c, w.slots k.slot = some m ∧ m.slots[k.key.idx]? = some (v, c) ∧ k.key.version < v

theorem insert_dead {w w' : Wheel α} {d : Nat} {e : α} {k k' : TimerID} (h : Dead w k) (hi : Verif.TimeWheel.insert w d e = .ok (w', k')) :
    k' ≠ k ∧ Dead w' k := by
  obtain ⟨m, v, c, h1, h2, h3⟩ := h
  unfold Verif.TimeWheel.insert at hi
  split at hi
  · cases hi
  · split at hi
    · cases hi
    · simp only [Res.ok.injEq, Prod.mk.injEq] at hi
      obtain ⟨rfl, rfl⟩ := hi
      generalize (w.current + stepOf w.duration d) % 256 = pos
      by_cases hp : pos = k.slot
      · subst hp
        rw [h1]
        simp only [Option.getD_some]
        have key : ∃ v' c', (m.insert e).1.slots[k.key.idx]? = some (v', c') ∧ k.key.version < v' ∧
            (m.insert e).2 ≠ k.key := by
          cases hf : m.free with
          | nil =>
            have hlt := lt_of_getElem?_some h2
            simp only [SlotMap.insert, hf]
            refine ⟨v, c, by rw [List.getElem?_append_left hlt]; exact h2, h3, fun he => ?_⟩
            have := congrArg Key.idx he
            simp only at this
            omega
          | cons i fs =>
            simp only [SlotMap.insert, hf]
            by_cases hik : i = k.key.idx
            · subst hik
              rw [h2]
              simp only [Option.map_some, Option.getD_some]
              refine ⟨v + 1, some e, by rw [List.getElem?_set_self (lt_of_getElem?_some h2)], by omega, fun he => ?_⟩
              have := congrArg Key.version he
              simp only at this
              omega
            · refine ⟨v, c, by rw [List.getElem?_set_ne hik]; exact h2, h3, fun he => ?_⟩
              exact hik (congrArg Key.idx he)
        obtain ⟨v', c', k1, k2, k3⟩ := key
        exact ⟨fun he => k3 (congrArg TimerID.key he), (m.insert e).1, v', c', by simp [upd], k1, k2⟩
      · refine ⟨fun he => hp (by rw [← he]), m, v, c, ?_, h2, h3⟩
        simp [upd, Ne.symm hp, h1]

theorem cancel_dead {w : Wheel α} {k k' : TimerID} (h : Dead w k) : Dead (cancel w k') k := by
  obtain ⟨m, v, c, h1, h2, h3⟩ := h
  unfold cancel
  cases hs : w.slots k'.slot with
  | none => exact ⟨m, v, c, h1, h2, h3⟩
  | some m' =>
    by_cases hp : k.slot = k'.slot
    · rw [← hp, h1] at hs
      cases hs
      have key : ∃ v' c', (m.remove k'.key).slots[k.key.idx]? = some (v', c') ∧ k.key.version < v' := by
        unfold SlotMap.remove
        cases hg : m.get k'.key with
        | none => exact ⟨v, c, h2, h3⟩
        | some e =>
          rw [get_eq_some] at hg
          by_cases hi : k'.key.idx = k.key.idx
          · rw [hi, h2] at hg
            simp only [Option.some.injEq, Prod.mk.injEq] at hg
            refine ⟨k'.key.version + 1, none, ?_, by omega⟩
            simp only; rw [hi, List.getElem?_set_self (lt_of_getElem?_some h2)]
          · exact ⟨v, c, by simp only; rw [List.getElem?_set_ne hi]; exact h2, h3⟩
      obtain ⟨v', c', k1, k2⟩ := key
      exact ⟨m.remove k'.key, v', c', by simp [upd, hp], k1, k2⟩
    · exact ⟨m, v, c, by simp [upd, hp, h1], h2, h3⟩

theorem tick_dead {w : Wheel α} {k : TimerID} (h : Dead w k) (hne : (w.current + 1) % 256 ≠ k.slot) :
    Dead (tick w).1 k := by
  obtain ⟨m, v, c, h1, h2, h3⟩ := h
  exact ⟨m, v, c, by simp [tick, upd, Ne.symm hne, h1], h2, h3⟩

theorem cancel_makes_dead {w : Wheel α} {k : TimerID} {e : α} (h : look w k = some e) : Dead (cancel w k) k := by
  unfold look at h
  unfold cancel
  cases hs : w.slots k.slot with
  | none => rw [hs] at h; cases h
  | some m =>
    rw [hs] at h
    simp only [Option.bind_some] at h
    have hg := get_eq_some.1 h
    refine ⟨m.remove k.key, k.key.version + 1, none, by simp [upd], ?_, by omega⟩
    unfold SlotMap.remove
    rw [h]
    simp only
    rw [List.getElem?_set_self (lt_of_getElem?_some hg)]

theorem run_dead {os : List (Op α)} {k : TimerID} : ∀ {w w' : Wheel α} {rs : List (Ret α)} {n : Nat},
    run w os = .ok (w', rs) → Dead w k → w.current < 256 → (w.current + n) % 256 = k.slot → 1 ≤ n → n ≤ 256 →
    ticks os < n → Ret.id k ∉ rs ∧ Dead w' k := by
  induction os with
  | nil =>
    intro w w' rs n h hd _ _ _ _ _
    simp only [run, Res.ok.injEq, Prod.mk.injEq] at h
    obtain ⟨rfl, rfl⟩ := h
    exact ⟨by simp, hd⟩
  | cons o os ih =>
    intro w w' rs n h hd hcur hslot h1 h2 ht
    simp only [run] at h
    cases hs : step w o with
    | ok x =>
      obtain ⟨w1, r⟩ := x
      rw [hs] at h
      simp only [Res.bind] at h
      cases hr2 : run w1 os with
      | ok y =>
        obtain ⟨w2, rs2⟩ := y
        rw [hr2] at h
        simp only [Res.ok.injEq, Prod.mk.injEq] at h
        obtain ⟨rfl, rfl⟩ := h
        cases o with
        | tick =>
          have htk : ticks (Op.tick :: os) = ticks os + 1 := by simp
          simp only [step, Res.ok.injEq, Prod.mk.injEq] at hs
          obtain ⟨rfl, rfl⟩ := hs
          have hx := ih (n := n - 1) hr2 (tick_dead hd (by omega)) (by simp only [tick]; omega)
            (by simp only [tick]; omega) (by omega) (by omega) (by omega)
          exact ⟨by simp [hx.1], hx.2⟩
        | cancel k' =>
          have htk : ticks (Op.cancel k' :: os) = ticks os := by simp
          simp only [step, Res.ok.injEq, Prod.mk.injEq] at hs
          obtain ⟨rfl, rfl⟩ := hs
          have hx := ih (n := n) hr2 (cancel_dead hd) (by rw [cancel_current]; exact hcur)
            (by rw [cancel_current]; exact hslot) h1 h2 (by omega)
          exact ⟨by simp [hx.1], hx.2⟩
        | insert d e =>
          have htk : ticks (Op.insert d e :: os) = ticks os := by simp
          simp only [step] at hs
          cases hi : Verif.TimeWheel.insert w d e with
          | ok z =>
            obtain ⟨w3, k3⟩ := z
            rw [hi] at hs
            simp only [Res.bind, Res.ok.injEq, Prod.mk.injEq] at hs
            obtain ⟨rfl, rfl⟩ := hs
            have hdi := insert_dead hd hi
            have hc3 : w3.current = w.current := by
              unfold Verif.TimeWheel.insert at hi
              split at hi
              · cases hi
              · split at hi
                · cases hi
                · simp only [Res.ok.injEq, Prod.mk.injEq] at hi; rw [← hi.1]
            have hx := ih (n := n) hr2 hdi.2 (by omega) (by rw [hc3]; exact hslot) h1 h2 (by omega)
            refine ⟨?_, hx.2⟩
            simp only [List.mem_cons, not_or]
            exact ⟨fun he => hdi.1 (by cases he; rfl), hx.1⟩
          | err z => rw [hi] at hs; cases hs
          | panic z => rw [hi] at hs; cases hs
      | err x => rw [hr2] at h; cases h
      | panic x => rw [hr2] at h; cases h
    | err x => rw [hs] at h; cases h
    | panic x => rw [hs] at h; cases h

/-- A dead id is not in use, so cancelling it changes no pending timer. -/
theorem dead_not_looked {w : Wheel α} {k : TimerID} (h : Dead w k) : look w k = none := by
  obtain ⟨m, v, c, h1, h2, h3⟩ := h
  simp only [look, h1, Option.bind_some]
  cases hg : m.get k.key with
  | none => rfl
  | some e => rw [get_eq_some, h2] at hg; simp at hg; omega

theorem run_append {os₁ os₂ : List (Op α)} : ∀ {w w' : Wheel α} {rs : List (Ret α)}, run w (os₁ ++ os₂) = .ok (w', rs) →
    ∃ w1 rs₁ rs₂, rs = rs₁ ++ rs₂ ∧ rs₁.length = os₁.length ∧ run w os₁ = .ok (w1, rs₁) ∧ run w1 os₂ = .ok (w', rs₂) := by
  induction os₁ with
  | nil => intro w w' rs h; exact ⟨w, [], rs, rfl, rfl, rfl, h⟩
  | cons o os ih =>
    intro w w' rs h
    simp only [List.cons_append, run] at h ⊢
    cases hs : step w o with
    | ok x =>
      rw [hs] at h
      simp only [Res.bind] at h ⊢
      cases hr : run x.1 (os ++ os₂) with
      | ok y =>
        rw [hr] at h
        simp only [Res.ok.injEq, Prod.mk.injEq] at h
        obtain ⟨rfl, rfl⟩ := h
        obtain ⟨w1, rs₁, rs₂, h1, h2, h3, h4⟩ := ih (w' := y.1) (rs := y.2) hr
        exact ⟨w1, x.2 :: rs₁, rs₂, by simp [h1], by simp [h2], by rw [h3], h4⟩
      | err y => rw [hr] at h; cases h
      | panic y => rw [hr] at h; cases h
    | err x => rw [hs] at h; cases h
    | panic x => rw [hs] at h; cases h

/-- **C57 (an id cancelled before).** A timer is inserted under id `k` and cancelled while pending. As long as fewer ticks
have passed than the timer needed from its insertion, no insertion returns `k` again, so that a further cancellation with
`k` finds no timer and the wheel returns to every later operation the same as without it. -/
theorem cancelled_id_not_reused (D d : Nat) (before mid after : List (Op α)) (e : α) (k : TimerID) (w : Wheel α)
    (rs₁ rs₂ rs₃ : List (Ret α)) (hl : rs₁.length = before.length) (hl2 : rs₂.length = mid.length)
    (h : run (new D) (before ++ .insert d e :: (mid ++ .cancel k :: after)) = .ok (w, rs₁ ++ .id k :: (rs₂ ++ .unit :: rs₃)))
    (hc : NoCancel k mid) (hpend : ticks mid + ticks after < ticksFor D d) :
    Ret.id k ∉ rs₃ ∧ look w k = none := by
  obtain ⟨w1, r1, r2, heq, hlr, hrun1, hrun2⟩ := run_append h
  obtain ⟨rfl, rfl⟩ := List.append_inj heq (by omega)
  obtain ⟨p1, hs1, hrel1⟩ := run_spec (Rel.new D) hrun1
  have hD : w1.duration = D := by
    have : ∀ (os : List (Op α)) (w w' : Wheel α) rs, run w os = .ok (w', rs) → w'.duration = w.duration := by
      intro os
      induction os with
      | nil => intro w w' rs h; simp only [run, Res.ok.injEq, Prod.mk.injEq] at h; rw [h.1]
      | cons o os ih =>
        intro w w' rs h
        simp only [run] at h
        cases hs : step w o with
        | ok x =>
          rw [hs] at h; simp only [Res.bind] at h
          cases hr : run x.1 os with
          | ok y =>
            rw [hr] at h; simp only [Res.ok.injEq, Prod.mk.injEq] at h
            rw [← h.1, ih _ _ _ hr, step_duration (r := x.2) (w' := x.1) hs]
          | err y => rw [hr] at h; cases h
          | panic y => rw [hr] at h; cases h
        | err x => rw [hs] at h; cases h
        | panic x => rw [hs] at h; cases h
    exact this _ _ _ _ hrun1
  -- the insertion
  have h2 : run w1 ([.insert d e] ++ (mid ++ .cancel k :: after)) = .ok (w, [.id k] ++ (rs₂ ++ .unit :: rs₃)) := hrun2
  obtain ⟨w2, r3, r4, heq2, hlr2, hrun3, hrun4⟩ := run_append h2
  obtain ⟨rfl, rfl⟩ := List.append_inj heq2 (by simpa using hlr2.symm)
  obtain ⟨w3, r5, r6, heq3, hlr3, hrun5, hrun6⟩ := run_append hrun4
  obtain ⟨rfl, rfl⟩ := List.append_inj heq3 (by omega)
  obtain ⟨p2, hs2, hrel2⟩ := run_spec hrel1 hrun3
  obtain ⟨p3, hs3, hrel3⟩ := run_spec hrel2 hrun5
  -- the timer is pending when it is cancelled
  have hk2 : (⟨k, e, ticksFor D d⟩ : Timer α) ∈ p2 := by
    cases hs2 with
    | cons hr hrest => cases hrest; rw [hD]; simp [specNext]
  have hpending : ∀ {n : Nat} {p p' : List (Timer α)} {os : List (Op α)} {rs : List (Ret α)} {D' : Nat},
      SpecRuns D' p os rs p' → (⟨k, e, n⟩ : Timer α) ∈ p → NoCancel k os → ticks os < n →
      (⟨k, e, n - ticks os⟩ : Timer α) ∈ p' := by
    intro n p p' os rs D' hs
    induction hs generalizing n with
    | nil => intro hm _ _; simpa using hm
    | @cons p p' o os r rs hr _ ih =>
      intro hm hc ht
      have hc' : NoCancel k os := fun hd => hc (List.mem_cons_of_mem _ hd)
      cases o with
      | tick =>
        have htk : ticks (Op.tick :: os) = ticks os + 1 := by simp
        rw [htk, show n - (ticks os + 1) = n - 1 - ticks os by omega]
        refine ih ?_ hc' (by omega)
        simp only [specNext, List.mem_map, List.mem_filter, bne_iff_ne]
        exact ⟨_, ⟨hm, by show n ≠ 1; omega⟩, rfl⟩
      | insert d' e' =>
        have htk : ticks (Op.insert d' e' :: os) = ticks os := by simp
        rw [htk]
        refine ih ?_ hc' (by omega)
        cases r with
        | id k' => simp [specNext, hm]
        | fired _ => exact hm
        | unit => exact hm
      | cancel k' =>
        have htk : ticks (Op.cancel k' :: os) = ticks os := by simp
        rw [htk]
        refine ih ?_ hc' (by omega)
        simp only [specNext, List.mem_filter, bne_iff_ne]
        exact ⟨hm, fun he => hc (by subst he; simp)⟩
  have hk3 := hpending hs3 hk2 hc (by omega)
  have hlook := (hrel3.look k e).2 ⟨_, hk3, rfl, rfl⟩
  have hleft := hrel3.left _ hk3
  -- the cancellation
  have h6 : run w3 ([.cancel k] ++ after) = .ok (w, [.unit] ++ rs₃) := hrun6
  obtain ⟨w4, r7, r8, heq4, hlr4, hrun7, hrun8⟩ := run_append h6
  obtain ⟨rfl, rfl⟩ := List.append_inj heq4 (by simpa using hlr4.symm)
  simp only [run, step, Res.bind, Res.ok.injEq, Prod.mk.injEq] at hrun7
  obtain ⟨rfl, _⟩ := hrun7
  have hx := run_dead (n := ticksFor D d - ticks mid) hrun8 (cancel_makes_dead hlook)
    (by rw [cancel_current]; exact hrel3.cur) (by rw [cancel_current]; exact hleft.2.2) hleft.1 hleft.2.1 (by omega)
  exact ⟨hx.1, dead_not_looked hx.2⟩

/-- Non-trivial case: `a` is cancelled, `b` then reuses the place in the slot under another id; cancelling `a` again leaves
`b` alone. -/
example : ∃ w, run (new 256) [.insert 5 "a", .tick, .cancel ⟨⟨1, 1⟩, 5⟩, .insert 4 "b", .cancel ⟨⟨1, 1⟩, 5⟩, .tick, .tick, .tick, .tick]
    = .ok (w, [.id ⟨⟨1, 1⟩, 5⟩, .fired [], .unit, .id ⟨⟨1, 3⟩, 5⟩, .unit, .fired [], .fired [], .fired [],
        .fired [(⟨⟨1, 3⟩, 5⟩, "b")]]) := ⟨_, rfl⟩

/-- **C57 (violated after firing).** With the id of a timer that has fired, `cancel` can remove another timer: `a` fires,
`b` is inserted into the same slot and gets the id `a` had; cancelling `a`'s id makes `b` never fire in the whole following
revolution, although without that cancellation it would. -/
theorem cancel_after_fire_violated :
    let ops (c : List (Op String)) : List (Op String) :=
      [.insert 3 "a", .tick, .tick, .tick, .tick, .insert 255 "b"] ++ c ++ List.replicate 256 .tick
    (∃ w rs, run (new 256) (ops []) = .ok (w, rs) ∧ (outs rs)[4 + 254]? = some [(⟨⟨1, 1⟩, 3⟩, "b")]) ∧
    ∃ w rs, run (new 256) (ops [.cancel ⟨⟨1, 1⟩, 3⟩]) = .ok (w, rs) ∧
      rs[0]? = some (.id ⟨⟨1, 1⟩, 3⟩) ∧ rs[3]? = some (.fired [(⟨⟨1, 1⟩, 3⟩, "a")]) ∧
      ∀ l ∈ outs (rs.drop 4), l = [] := by
  have get : ∀ (os : List (Op String)) (P : List (Ret String) → Bool),
      (match run (new 256) os with | .ok (_, rs) => P rs | _ => false) = true →
      ∃ w rs, run (new 256) os = .ok (w, rs) ∧ P rs = true := by
    intro os P h
    split at h
    · exact ⟨_, _, by assumption, h⟩
    · cases h
  intro ops
  obtain ⟨w, rs, h1, h2⟩ := get (ops []) (fun rs => decide ((outs rs)[4 + 254]? = some [((⟨⟨1, 1⟩, 3⟩ : TimerID), "b")]))
    (by decide +kernel)
  obtain ⟨w', rs', h1', h2'⟩ := get (ops [.cancel ⟨⟨1, 1⟩, 3⟩]) (fun rs => decide (rs[0]? = some (Ret.id (⟨⟨1, 1⟩, 3⟩ : TimerID)) ∧
      rs[3]? = some (Ret.fired [((⟨⟨1, 1⟩, 3⟩ : TimerID), "a")]) ∧ ∀ l ∈ outs (rs.drop 4), l = [])) (by decide +kernel)
  exact ⟨⟨w, rs, h1, of_decide_eq_true h2⟩, w', rs', h1', of_decide_eq_true h2'⟩

/-! ## Pings -/

/-- `PING_TIMEOUT_MSECS` (constants.rs) and the duration of the wheel (server.rs:36), in nanoseconds. -/
def pingTimeout : Nat := 35000 * 1000000
/-- See `pingTimeout`. -/
def wheelDuration : Nat := 35001 * 1000000

/-- The operations a runner's timer sees: stretches of less than 255 ticks (with operations on other timers), each ended by
a ping, which cancels the timer and inserts it again; then an open stretch. -/
inductive KeepsPinging (e : α) : TimerID → List (Op α) → List (Ret α) → Prop
  | last {k : TimerID} {os : List (Op α)} {rs : List (Ret α)} : rs.length = os.length → NoInsert e os → NoCancel k os →
      ticks os < 255 → KeepsPinging e k os rs
  | ping {k k' : TimerID} {os os' : List (Op α)} {rs rs' : List (Ret α)} : rs.length = os.length → NoInsert e os →
      NoCancel k os → ticks os < 255 → KeepsPinging e k' os' rs' →
      KeepsPinging e k (os ++ .cancel k :: .insert pingTimeout e :: os') (rs ++ .unit :: .id k' :: rs')

theorem ping_ticks : ticksFor wheelDuration pingTimeout = 255 := by decide

theorem spec_outs_length {D : Nat} {p p' : List (Timer α)} {os : List (Op α)} {rs : List (Ret α)}
    (h : SpecRuns D p os rs p') : (outs rs).length = ticks os := by
  induction h with
  | nil => rfl
  | @cons p p' o os r rs hr _ ih =>
    cases o <;> cases r <;> simp_all [specRet]

theorem spec_pinging {p p' : List (Timer α)} {e : α} {k : TimerID} {os : List (Op α)} {rs : List (Ret α)}
    (hk : KeepsPinging e k os rs) (h : SpecRuns wheelDuration p os rs p') (hmem : (⟨k, e, 255⟩ : Timer α) ∈ p)
    (huniq : ∀ t ∈ p, t.entry = e → t = ⟨k, e, 255⟩) : ∀ l ∈ outs rs, ∀ k', (k', e) ∉ l := by
  induction hk generalizing p p' with
  | @last k os rs hl hi hc ht =>
    intro l hm k' hk'
    obtain ⟨j, hj⟩ := List.getElem?_of_mem hm
    have := ((spec_fires h (by omega) hmem huniq hi hc).1 j l hj).1 ⟨k', hk'⟩
    have hlt := lt_of_getElem?_some hj
    rw [spec_outs_length h] at hlt
    omega
  | @ping k k2 os os' rs rs' hl hi hc ht _ ih =>
    obtain ⟨r1, r2, p1, heq, hl1, hs1, hs2⟩ := spec_append h
    obtain ⟨rfl, rfl⟩ := List.append_inj heq (by omega)
    have hf := spec_fires hs1 (by omega) hmem huniq hi hc
    have hf2 := hf.2 ht
    cases hs2 with
    | cons _ hs3 =>
      cases hs3 with
      | cons hr4 hs4 =>
        have hnone : ∀ t ∈ specNext wheelDuration p1 (.cancel k) (.unit : Ret α), t.entry ≠ e := by
          intro t ht' he
          simp only [specNext, List.mem_filter, bne_iff_ne] at ht'
          have := hf2.2 t ht'.1 he
          exact ht'.2 (by rw [this])
        have hx := ih hs4 (by simp [specNext, ping_ticks]) (by
          intro t ht' he
          simp only [specNext, List.mem_append, List.mem_singleton] at ht'
          rcases ht' with ht' | rfl
          · exact absurd he (hnone t (by simpa [specNext] using ht'))
          · simp [ping_ticks])
        intro l hm k' hk'
        simp only [outs_append, outs_unit, outs_id, List.mem_append] at hm
        rcases hm with hm | hm
        · obtain ⟨j, hj⟩ := List.getElem?_of_mem hm
          have := (hf.1 j l hj).1 ⟨k', hk'⟩
          have hlt := lt_of_getElem?_some hj
          rw [spec_outs_length hs1] at hlt
          omega
        · exact hx l hm k' hk'

/-- **C55 (pinging runners).** A runner whose connection `e` gets its timer after any operations `before`, and which pings
at least once in every 254 ticks, is never reported by a tick. -/
theorem pinging_never_fires (before after : List (Op α)) (e : α) (k : TimerID) (w : Wheel α) (rs₁ rs₂ : List (Ret α))
    (hl : rs₁.length = before.length)
    (h : run (new wheelDuration) (before ++ .insert pingTimeout e :: after) = .ok (w, rs₁ ++ .id k :: rs₂))
    (hb : NoInsert e before) (hk : KeepsPinging e k after rs₂) : ∀ l ∈ outs rs₂, ∀ k', (k', e) ∉ l := by
  obtain ⟨p, hs⟩ := wheel_refines _ _ w _ h
  obtain ⟨r1, r2, p1, heq, hl1, hs1, hs2⟩ := spec_append hs
  obtain ⟨rfl, rfl⟩ := List.append_inj heq (by omega)
  cases hs2 with
  | cons hr hrest =>
    have hp1 := spec_no_entry (e := e) hs1 (by simp) hb
    refine spec_pinging hk hrest (by simp [specNext, ping_ticks]) ?_
    intro t ht he
    simp only [specNext, List.mem_append, List.mem_singleton] at ht
    rcases ht with ht | rfl
    · exact absurd he (hp1 t ht)
    · simp [ping_ticks]

/-- **C55 (silent runners).** A connection whose timer is set and which neither pings nor ends is reported exactly by the
255th following tick, and by no other. -/
theorem silent_fires_at_255 (before after : List (Op α)) (e : α) (k : TimerID) (w : Wheel α) (rs₁ rs₂ : List (Ret α))
    (hl : rs₁.length = before.length)
    (h : run (new wheelDuration) (before ++ .insert pingTimeout e :: after) = .ok (w, rs₁ ++ .id k :: rs₂))
    (hb : NoInsert e before) (ha : NoInsert e after) (hc : NoCancel k after) (j : Nat) (l : List (TimerID × α))
    (hj : (outs rs₂)[j]? = some l) : (∃ k', (k', e) ∈ l) ↔ j + 1 = 255 := by
  rw [fires_exactly _ _ before after e k w rs₁ rs₂ hl h hb ha hc j l hj, ping_ticks]

/-- **C55 (the documented timeout is undercut).** 255 ticks of the wheel (its duration divided by 256, in nanoseconds) are
34.864 s, less than the 35 s of `PING_TIMEOUT`; even 255 whole tick intervals plus almost one more, the longest possible
wait, are 35.0009 s at most. -/
theorem timeout_in_ticks : 255 * (wheelDuration / 256) = 34864277280 ∧ 255 * (wheelDuration / 256) < pingTimeout ∧
    256 * (wheelDuration / 256) ≤ wheelDuration := by decide

/-- Non-trivial case: the timer is set, 200 ticks, a ping, 200 ticks: nothing fires; 55 ticks more and it does. -/
example : (match run (new wheelDuration) ([.insert pingTimeout "a"] ++ List.replicate 200 .tick ++
      [.cancel ⟨⟨1, 1⟩, 255⟩, .insert pingTimeout "a"] ++ List.replicate 255 .tick) with
    | .ok (_, rs) => decide ((outs rs).take 454 = List.replicate 454 [] ∧
        (outs rs).drop 454 = [[(⟨⟨1, 1⟩, 199⟩, "a")]])
    | _ => false) = true := by decide +kernel

end Verif.Props.TimeWheel
