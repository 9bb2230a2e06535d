import Verif.Spec.WheelRace
import Verif.Proof.TimeWheel

/-!
# A wheel used by several threads answers as its serial execution
-/

namespace Verif.WheelRace
open Verif.TimeWheel

variable {α : Type}

/-- The state after `a` ticks begun and `b` complete. -/
structure Rel (D : Nat) (a b : Nat) (m : Nat → Option (Nat × α)) (s : State α) (w : Wheel α) : Prop where
  dur : s.wheel.duration = D
  cur : s.wheel.current = a % 256
  cnt : (s.ticking = none ∧ a = b) ∨ (s.ticking = some (a % 256) ∧ a = b + 1)
  wdur : w.duration = 256
  wcur : w.current = b % 256
  slots : w.slots = s.wheel.slots
  map : ∀ t, s.loaded t = (m t).map (fun x => (x.1 % 256, x.2))

theorem Rel.init (D : Nat) : Rel D 0 0 (fun _ => none) (WheelRace.init D : State α) (new 256) :=
  ⟨rfl, rfl, .inl ⟨rfl, rfl⟩, rfl, rfl, rfl, fun _ => rfl⟩

/-- Threads in the middle of an insertion, after some actions. -/
def inside (D a : Nat) (m : Nat → Option (Nat × α)) : List (Act α) → Nat → Option (Nat × α)
  | [] => m
  | .advance :: os => inside D (a + 1) m os
  | .take :: os => inside D a m os
  | .load t d e :: os => inside D a (upd m t (some (a + ticksFor D d, e))) os
  | .put t :: os => inside D a (upd m t none) os
  | .cancel _ :: os => inside D a m os

theorem run_serial {D : Nat} : ∀ {os : List (Act α)} {a b : Nat} {m : Nat → Option (Nat × α)} {s s' : State α} {w : Wheel α}
    {rs : List (Option (Ret α))}, Rel D a b m s w → run s os = .ok (s', rs) →
    ∃ w', TimeWheel.run w (serial D a b m os) = .ok (w', rs.filterMap id) ∧
      Rel D (a + begun os) (b + complete os) (inside D a m os) s' w' := by
  intro os
  induction os with
  | nil =>
    intro a b m s s' w rs hR h
    cases h
    exact ⟨w, rfl, hR⟩
  | cons o os ih =>
    intro a b m s s' w rs hR h
    simp only [run] at h
    cases hs : step s o with
    | err _ => rw [hs] at h; cases h
    | panic _ => rw [hs] at h; cases h
    | ok r =>
      obtain ⟨s1, r1⟩ := r
      rw [hs] at h
      simp only [Res.bind] at h
      cases hq : run s1 os with
      | err _ => rw [hq] at h; cases h
      | panic _ => rw [hq] at h; cases h
      | ok q =>
        obtain ⟨s2, rs2⟩ := q
        rw [hq] at h
        cases h
        obtain ⟨hd, hc, hk, hwd, hwc, hsl, hm⟩ := hR
        cases o with
        | advance =>
          simp only [step] at hs
          split at hs
          · cases hs
          · rename_i hti
            cases hs
            have hab : a = b := by rcases hk with h | h <;> simp_all
            have e1 : a + begun (Act.advance :: os) = a + 1 + begun os := by
              simp [begun, List.countP_cons, isAdvance, Nat.add_assoc, Nat.add_comm 1]
            have e2 : complete (Act.advance :: os) = complete os := by simp [complete, List.countP_cons, isTake]
            rw [e1, e2]
            refine ih (a := a + 1) (b := b) (m := m) (rs := rs2) (s := { s with
                wheel := { s.wheel with current := (s.wheel.current + 1) % 256 }
                ticking := some ((s.wheel.current + 1) % 256) }) ⟨hd, ?_, .inr ⟨?_, by omega⟩, hwd, hwc, hsl, hm⟩ hq
            · show (s.wheel.current + 1) % 256 = _
              rw [hc]; omega
            · show some ((s.wheel.current + 1) % 256) = _
              rw [hc]; congr 1; omega
        | take =>
          simp only [step] at hs
          split at hs
          · cases hs
          · rename_i index hti
            cases hs
            have hab : a = b + 1 ∧ index = a % 256 := by rcases hk with h | h <;> simp_all
            obtain ⟨hab, rfl⟩ := hab
            have hidx : (w.current + 1) % 256 = a % 256 := by rw [hwc]; omega
            have e1 : begun (Act.take :: os) = begun os := by simp [begun, List.countP_cons, isAdvance]
            have e2 : b + complete (Act.take :: os) = b + 1 + complete os := by
              simp [complete, List.countP_cons, isTake, Nat.add_assoc, Nat.add_comm 1]
            rw [e1, e2]
            obtain ⟨w', hw', hR'⟩ := ih (a := a) (b := b + 1) (m := m) (s := { s with
                wheel := { s.wheel with slots := upd s.wheel.slots (a % 256) none }
                ticking := none }) (w := (TimeWheel.tick w).1)
              ⟨hd, hc, .inl ⟨rfl, hab⟩, hwd, by simp only [TimeWheel.tick]; rw [hwc]; omega,
                by simp only [TimeWheel.tick, hidx, hsl], hm⟩ hq
            refine ⟨w', ?_, hR'⟩
            simp only [serial, TimeWheel.run, TimeWheel.step, Res.bind, hw', List.filterMap_cons, id]
            simp only [TimeWheel.tick, hidx, hsl]
            cases s.wheel.slots (a % 256) <;> rfl
        | load t d e =>
          simp only [step] at hs
          split at hs
          · cases hs
          · split at hs
            · cases hs
            · split at hs
              · cases hs
              · rename_i h1 h2 h3
                cases hs
                have e1 : begun (Act.load t d e :: os) = begun os := by simp [begun, List.countP_cons, isAdvance]
                have e2 : complete (Act.load t d e :: os) = complete os := by simp [complete, List.countP_cons, isTake]
                rw [e1, e2]
                refine ih (a := a) (b := b) (m := upd m t (some (a + ticksFor D d, e))) (rs := rs2) (s := { s with
                  loaded := upd s.loaded t (some ((s.wheel.current + stepOf s.wheel.duration d) % 256, e)) }) ⟨hd, hc, hk, hwd, hwc, hsl, ?_⟩ hq
                intro t'
                show upd s.loaded t _ t' = _
                unfold upd
                split
                · simp only [Option.map_some, Option.some.injEq, Prod.mk.injEq, and_true]
                  have := (ticksFor_step (D := D) (d := d) (by omega) (by omega)).2.2 (a % 256)
                  rw [hc, hd]
                  omega
                · exact hm t'
        | put t =>
          simp only [step] at hs
          split at hs
          · cases hs
          · rename_i pos e hl
            cases hs
            have hmt := hm t
            rw [hl] at hmt
            cases hmm : m t with
            | none => rw [hmm] at hmt; cases hmt
            | some x =>
              obtain ⟨n, e'⟩ := x
              rw [hmm] at hmt
              simp only [Option.map_some, Option.some.injEq, Prod.mk.injEq] at hmt
              obtain ⟨rfl, rfl⟩ := hmt
              have hpos : (w.current + stepOf w.duration (ticksUntil n b)) % 256 = n % 256 := by
                rw [hwc, hwd]
                unfold stepOf ticksUntil
                rw [Nat.mul_div_cancel_left _ (by omega)]
                omega
              have hle : ticksUntil n b ≤ 256 := by unfold ticksUntil; omega
              have hins : TimeWheel.insert w (ticksUntil n b) e = .ok ({ w with
                  slots := upd w.slots (n % 256) (some (((w.slots (n % 256)).getD .empty).insert e).1) },
                  ⟨(((w.slots (n % 256)).getD .empty).insert e).2, n % 256⟩) := by
                unfold TimeWheel.insert
                rw [if_neg (by omega), if_neg (by omega)]
                simp only [hpos]
              have e1 : begun (Act.put t :: os) = begun os := by simp [begun, List.countP_cons, isAdvance]
              have e2 : complete (Act.put t :: os) = complete os := by simp [complete, List.countP_cons, isTake]
              rw [e1, e2]
              obtain ⟨w', hw', hR'⟩ := ih (a := a) (b := b) (m := upd m t none) (s := { s with
                  wheel := { s.wheel with
                    slots := upd s.wheel.slots (n % 256) (some (((s.wheel.slots (n % 256)).getD .empty).insert e).1) }
                  loaded := upd s.loaded t none }) (w := { w with
                  slots := upd w.slots (n % 256) (some (((w.slots (n % 256)).getD .empty).insert e).1) })
                ⟨hd, hc, hk, hwd, hwc, by simp only [hsl], by
                  intro t'
                  show upd s.loaded t _ t' = _
                  unfold upd
                  split
                  · rfl
                  · exact hm t'⟩ hq
              refine ⟨w', ?_, hR'⟩
              simp only [serial, hmm, TimeWheel.run, TimeWheel.step, hins, Res.bind, hw', List.filterMap_cons, id]
              rw [hsl]
        | cancel k =>
          simp only [step] at hs
          cases hs
          have hsl' : (TimeWheel.cancel w k).slots = (TimeWheel.cancel s.wheel k).slots := by
            simp only [TimeWheel.cancel, hsl]
            split <;> simp [hsl]
          have hd' : ∀ w : Wheel α, (TimeWheel.cancel w k).duration = w.duration := by
            intro w; simp only [TimeWheel.cancel]; split <;> rfl
          have e1 : begun (Act.cancel k :: os) = begun os := by simp [begun, List.countP_cons, isAdvance]
          have e2 : complete (Act.cancel k :: os) = complete os := by simp [complete, List.countP_cons, isTake]
          rw [e1, e2]
          obtain ⟨w', hw', hR'⟩ := ih (a := a) (b := b) (m := m) (s := { s with wheel := TimeWheel.cancel s.wheel k })
            (w := TimeWheel.cancel w k)
            ⟨(hd' _).trans hd, (cancel_current _ _).trans hc, hk, (hd' _).trans hwd, (cancel_current _ _).trans hwc, hsl', hm⟩ hq
          refine ⟨w', ?_, hR'⟩
          simp only [serial, TimeWheel.run, TimeWheel.step, Res.bind, hw', List.filterMap_cons, id]

theorem run_append {os₁ os₂ : List (Act α)} : ∀ {s s' : State α} {rs : List (Option (Ret α))},
    run s (os₁ ++ os₂) = .ok (s', rs) → ∃ s1 rs1 rs2, run s os₁ = .ok (s1, rs1) ∧ run s1 os₂ = .ok (s', rs2) ∧
      rs = rs1 ++ rs2 ∧ rs1.length = os₁.length := by
  induction os₁ with
  | nil => intro s s' rs h; exact ⟨s, [], rs, rfl, h, rfl, rfl⟩
  | cons o os ih =>
    intro s s' rs h
    simp only [List.cons_append, run] at h ⊢
    cases hs : step s o with
    | err _ => rw [hs] at h; cases h
    | panic _ => rw [hs] at h; cases h
    | ok r =>
      rw [hs] at h
      simp only [Res.bind] at h ⊢
      cases hq : run r.1 (os ++ os₂) with
      | err _ => rw [hq] at h; cases h
      | panic _ => rw [hq] at h; cases h
      | ok q =>
        rw [hq] at h
        cases h
        obtain ⟨s1, rs1, rs2, h1, h2, h3, h4⟩ := ih hq
        refine ⟨s1, r.2 :: rs1, rs2, by rw [h1], h2, by rw [h3]; rfl, by simp [h4]⟩

theorem upd_none {β : Type} {m : Nat → Option β} {t : Nat} (h : m t = none) : upd m t none = m := by
  funext i; unfold upd; split
  · subst_vars; exact h.symm
  · rfl

theorem serial_append (D : Nat) (os₁ os₂ : List (Act α)) : ∀ (a b : Nat) (m : Nat → Option (Nat × α)),
    serial D a b m (os₁ ++ os₂) =
      serial D a b m os₁ ++ serial D (a + begun os₁) (b + complete os₁) (inside D a m os₁) os₂ := by
  induction os₁ with
  | nil => intro a b m; simp [serial, inside, begun, complete]
  | cons o os ih =>
    intro a b m
    cases o with
    | advance =>
      simp only [List.cons_append, serial, inside, ih, begun, complete, List.countP_cons, isAdvance, isTake]
      simp [Nat.add_assoc, Nat.add_comm 1]
    | take =>
      simp only [List.cons_append, serial, inside, ih, begun, complete, List.countP_cons, isAdvance, isTake]
      simp [Nat.add_assoc, Nat.add_comm 1]
    | load t d e =>
      simp only [List.cons_append, serial, inside, ih, begun, complete, List.countP_cons, isAdvance, isTake]
      simp
    | cancel k =>
      simp only [List.cons_append, serial, inside, ih, begun, complete, List.countP_cons, isAdvance, isTake]
      simp
    | put t =>
      simp only [List.cons_append, serial, inside]
      cases hm : m t with
      | none =>
        simp only [ih, begun, complete, List.countP_cons, isAdvance, isTake, upd_none hm]
        simp
      | some x =>
        simp only [ih, begun, complete, List.countP_cons, isAdvance, isTake]
        simp

theorem inside_append (D : Nat) (os₁ os₂ : List (Act α)) : ∀ (a : Nat) (m : Nat → Option (Nat × α)),
    inside D a m (os₁ ++ os₂) = inside D (a + begun os₁) (inside D a m os₁) os₂ := by
  induction os₁ with
  | nil => intro a m; rfl
  | cons o os ih =>
    intro a m
    cases o <;> simp [inside, ih, begun, List.countP_cons, isAdvance, Nat.add_assoc, Nat.add_comm 1]

theorem run_length : ∀ {os : List (Op α)} {w w' : Wheel α} {rs : List (Ret α)},
    TimeWheel.run w os = .ok (w', rs) → rs.length = os.length := by
  intro os
  induction os with
  | nil => intro w w' rs h; cases h; rfl
  | cons o os ih =>
    intro w w' rs h
    simp only [TimeWheel.run] at h
    cases hs : TimeWheel.step w o with
    | err _ => rw [hs] at h; cases h
    | panic _ => rw [hs] at h; cases h
    | ok r =>
      rw [hs] at h
      simp only [Res.bind] at h
      cases hq : TimeWheel.run r.1 os with
      | err _ => rw [hq] at h; cases h
      | panic _ => rw [hq] at h; cases h
      | ok q =>
        rw [hq] at h
        cases h
        simp [ih hq]

/-- As many answers as operations in the serial execution, at any point. -/
theorem serial_length {D : Nat} {os₁ os₂ : List (Act α)} {s s1 s2 : State α} {rs₁ rs₂ : List (Option (Ret α))} {a b : Nat}
    {m : Nat → Option (Nat × α)} {w : Wheel α} (hR : Rel D a b m s w) (h1 : run s os₁ = .ok (s1, rs₁))
    (h2 : run s1 os₂ = .ok (s2, rs₂)) : (rs₂.filterMap id).length =
      (serial D (a + begun os₁) (b + complete os₁) (inside D a m os₁) os₂).length := by
  obtain ⟨w1, _, hR1⟩ := run_serial hR h1
  obtain ⟨w2, h, _⟩ := run_serial hR1 h2
  exact run_length h

/-- What the others do does not touch the insertion of thread `t`. -/
theorem inside_other {D : Nat} {t : Nat} {os : List (Act α)} : ∀ {a : Nat} {m : Nat → Option (Nat × α)},
    (∀ d e, Act.load t d e ∉ os) → Act.put t ∉ os → inside D a m os t = m t := by
  induction os with
  | nil => intro a m _ _; rfl
  | cons o os ih =>
    intro a m hl hp
    have hl' : ∀ d e, Act.load t d e ∉ os := fun d e h => hl d e (List.mem_cons_of_mem _ h)
    have hp' : Act.put t ∉ os := fun h => hp (List.mem_cons_of_mem _ h)
    cases o with
    | advance => exact ih hl' hp'
    | take => exact ih hl' hp'
    | cancel k => exact ih hl' hp'
    | load t' d e =>
      have : t ≠ t' := by rintro rfl; exact hl d e (by simp)
      simp only [inside, ih hl' hp', upd, if_neg this]
    | put t' =>
      have : t ≠ t' := by rintro rfl; exact hp (by simp)
      simp only [inside, ih hl' hp', upd, if_neg this]

/-- Ticks begun and complete differ by at most one. -/
theorem begun_complete {D : Nat} {os : List (Act α)} : ∀ {s s' : State α} {rs : List (Option (Ret α))} {a b : Nat}
    {m : Nat → Option (Nat × α)} {w : Wheel α}, Rel D a b m s w →
    run s os = .ok (s', rs) → b + complete os ≤ a + begun os ∧ a + begun os ≤ b + complete os + 1 := by
  have key : ∀ (os : List (Act α)) (s s' : State α) (rs : List (Option (Ret α))) (a b : Nat),
      (s.ticking = none ∧ a = b) ∨ (s.ticking ≠ none ∧ a = b + 1) → run s os = .ok (s', rs) →
      b + complete os ≤ a + begun os ∧ a + begun os ≤ b + complete os + 1 := by
    intro os
    induction os with
    | nil => intro s s' rs a b h _; simp only [begun, complete, List.countP_nil]; omega
    | cons o os ih =>
      intro s s' rs a b hk h
      simp only [run] at h
      cases hs : step s o with
      | err _ => rw [hs] at h; cases h
      | panic _ => rw [hs] at h; cases h
      | ok r =>
        obtain ⟨s1, r1⟩ := r
        rw [hs] at h
        simp only [Res.bind] at h
        cases hq : run s1 os with
        | err _ => rw [hq] at h; cases h
        | panic _ => rw [hq] at h; cases h
        | ok q =>
          simp only [begun, complete, List.countP_cons]
          cases o with
          | advance =>
            simp only [step] at hs
            split at hs
            · cases hs
            · cases hs
              have := ih _ _ _ (a + 1) b (.inr ⟨by simp, by rcases hk with h | h <;> simp_all⟩) hq
              simp only [begun, complete] at this
              simp only [isAdvance, isTake]
              simp; omega
          | take =>
            simp only [step] at hs
            split at hs
            · cases hs
            · cases hs
              have := ih _ _ _ a (b + 1) (.inl ⟨rfl, by rcases hk with h | h <;> simp_all⟩) hq
              simp only [begun, complete] at this
              simp only [isAdvance, isTake]
              simp; omega
          | load t d e =>
            have ht : s1.ticking = s.ticking := by
              simp only [step] at hs
              split at hs
              · cases hs
              · split at hs
                · cases hs
                · split at hs
                  · cases hs
                  · cases hs; rfl
            have := ih _ _ _ a b (by rw [ht]; exact hk) hq
            simp only [begun, complete] at this
            simp only [isAdvance, isTake]
            simpa using this
          | put t =>
            have ht : s1.ticking = s.ticking := by
              simp only [step] at hs
              split at hs
              · cases hs
              · cases hs; rfl
            have := ih _ _ _ a b (by rw [ht]; exact hk) hq
            simp only [begun, complete] at this
            simp only [isAdvance, isTake]
            simpa using this
          | cancel k =>
            cases hs
            have := ih { s with wheel := TimeWheel.cancel s.wheel k } _ _ a b hk hq
            simp only [begun, complete] at this
            simp only [isAdvance, isTake]
            simpa using this
  intro s s' rs a b m w hR h
  refine key os s s' rs a b ?_ h
  rcases hR.cnt with h | h
  · exact .inl h
  · exact .inr ⟨by rw [h.1]; simp, h.2⟩

end Verif.WheelRace
