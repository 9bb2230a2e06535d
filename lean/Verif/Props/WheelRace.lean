import Mathlib.Data.List.Permutation
import Verif.Proof.WheelRace
import Verif.Props.TimeWheel

/-!
# C147: the timer wheel used by several threads

`run (init D) os = .ok (s, rs)`: the actions `os` of one ticker and any number of inserting and cancelling threads, in any order,
with the answers `rs` (one for each action, `none` where no call returns). `begun` and `complete` count the ticks begun and
completed in a list of actions.
-/

namespace Verif.Props.WheelRace
open Verif.TimeWheel
open Verif.WheelRace

variable {α : Type}

/-- The results of the ticks, in order. -/
def results (rs : List (Option (Ret α))) : List (List (TimerID × α)) := TimeWheel.outs (rs.filterMap id)

/-- **C147 (the threads do not disturb each other).** Whatever the threads do, all answers are those of the operations executed
one at a time in the order in which they take the locks, if each inserted timer waits for the tick `serial` says. -/
theorem serialisable (D : Nat) (os : List (Act α)) (s : State α) (rs : List (Option (Ret α)))
    (h : run (init D) os = .ok (s, rs)) :
    ∃ w, TimeWheel.run (new 256) (serial D 0 0 (fun _ => none) os) = .ok (w, rs.filterMap id) := by
  obtain ⟨w, h1, _⟩ := run_serial (Rel.init D) h
  exact ⟨w, h1⟩

theorem serial_no_insert {D : Nat} {e : α} {os : List (Act α)} : ∀ {a b : Nat} {m : Nat → Option (Nat × α)},
    (∀ t d, Act.load t d e ∉ os) → (∀ t n, m t = some (n, e) → Act.put t ∉ os) →
    TimeWheel.NoInsert e (serial D a b m os) := by
  induction os with
  | nil => intro a b m _ _ d hd; simp [serial] at hd
  | cons o os ih =>
    intro a b m hl hm
    have hl' : ∀ t d, Act.load t d e ∉ os := fun t d h => hl t d (List.mem_cons_of_mem _ h)
    have hm' : ∀ t n, m t = some (n, e) → Act.put t ∉ os := fun t n h h' => hm t n h (List.mem_cons_of_mem _ h')
    intro d hd
    cases o with
    | advance => exact ih hl' hm' d hd
    | take =>
      simp only [serial, List.mem_cons] at hd
      rcases hd with hd | hd
      · cases hd
      · exact ih hl' hm' d hd
    | cancel k =>
      simp only [serial, List.mem_cons] at hd
      rcases hd with hd | hd
      · cases hd
      · exact ih hl' hm' d hd
    | load t d' e' =>
      simp only [serial] at hd
      refine ih hl' ?_ d hd
      intro t' n hn
      unfold upd at hn
      split at hn
      · simp only [Option.some.injEq, Prod.mk.injEq] at hn
        exact absurd (by simp [hn.2]) (hl t d')
      · exact hm' t' n hn
    | put t =>
      have hup : ∀ t' n, upd m t none t' = some (n, e) → Act.put t' ∉ os := by
        intro t' n hn
        unfold upd at hn
        split at hn
        · cases hn
        · exact hm' t' n hn
      simp only [serial] at hd
      cases hmm : m t with
      | none => rw [hmm] at hd; exact ih hl' hm' d hd
      | some x =>
        rw [hmm] at hd
        simp only [List.mem_cons] at hd
        rcases hd with hd | hd
        · cases hd
          exact hm t x.1 hmm (by simp)
        · exact ih hl' hup d hd

theorem serial_no_cancel {D : Nat} {k : TimerID} {os : List (Act α)} : ∀ {a b : Nat} {m : Nat → Option (Nat × α)},
    Act.cancel k ∉ os → TimeWheel.NoCancel k (serial D a b m os) := by
  induction os with
  | nil => intro a b m _ hd; simp [serial] at hd
  | cons o os ih =>
    intro a b m hc hd
    have hc' : Act.cancel k ∉ os := fun h => hc (List.mem_cons_of_mem _ h)
    cases o with
    | advance => exact ih hc' hd
    | take =>
      simp only [serial, List.mem_cons] at hd
      rcases hd with hd | hd
      · cases hd
      · exact ih hc' hd
    | cancel k' =>
      simp only [serial, List.mem_cons] at hd
      rcases hd with hd | hd
      · cases hd; exact hc (by simp)
      · exact ih hc' hd
    | load t d' e' => exact ih hc' hd
    | put t =>
      simp only [serial] at hd
      cases hmm : m t with
      | none => rw [hmm] at hd; exact ih hc' hd
      | some x =>
        rw [hmm] at hd
        simp only [List.mem_cons] at hd
        rcases hd with hd | hd
        · cases hd
        · exact ih hc' hd

theorem inside_no_entry {D : Nat} {e : α} {t : Nat} {os : List (Act α)} : ∀ {a : Nat} {m : Nat → Option (Nat × α)},
    (∀ t d, Act.load t d e ∉ os) → (∀ n, m t ≠ some (n, e)) → ∀ n, inside D a m os t ≠ some (n, e) := by
  induction os with
  | nil => intro a m _ hm; exact hm
  | cons o os ih =>
    intro a m hl hm
    have hl' : ∀ t d, Act.load t d e ∉ os := fun t d h => hl t d (List.mem_cons_of_mem _ h)
    cases o with
    | advance => exact ih hl' hm
    | take => exact ih hl' hm
    | cancel k => exact ih hl' hm
    | load t' d e' =>
      refine ih hl' ?_
      intro n hn
      unfold upd at hn
      split at hn
      · simp only [Option.some.injEq, Prod.mk.injEq] at hn
        exact absurd (by simp [hn.2]) (hl t' d)
      · exact hm n hn
    | put t' =>
      refine ih hl' ?_
      intro n hn
      unfold upd at hn
      split at hn
      · cases hn
      · exact hm n hn

theorem results_append (rs rs' : List (Option (Ret α))) : results (rs ++ rs') = results rs ++ results rs' := by
  simp [results]

/-- The serial execution of one insertion with something before, in the middle and after. -/
theorem serial_of {D d t : Nat} {before mid after : List (Act α)} {e : α} {k : TimerID} {s : State α}
    {rs₁ rs₂ rs₃ : List (Option (Ret α))} (hl1 : rs₁.length = before.length) (hl2 : rs₂.length = mid.length)
    (h : run (init D) (before ++ .load t d e :: (mid ++ .put t :: after)) = .ok (s, rs₁ ++ none :: (rs₂ ++ some (.id k) :: rs₃)))
    (hm : ∀ d e, Act.load t d e ∉ mid) (hm' : Act.put t ∉ mid)
    (hb : ∀ t d, Act.load t d e ∉ before) (hmm : ∀ t d, Act.load t d e ∉ mid) :
    ∃ w ob m s1, TimeWheel.run (new 256) (ob ++ .insert (ticksUntil (begun before + ticksFor D d) (complete (before ++ mid))) e ::
        serial D (begun (before ++ mid)) (complete (before ++ mid)) m after)
        = .ok (w, (rs₁ ++ rs₂).filterMap id ++ .id k :: rs₃.filterMap id) ∧
      ((rs₁ ++ rs₂).filterMap id).length = ob.length ∧ TimeWheel.NoInsert e ob ∧ (∀ t n, m t ≠ some (n, e)) ∧
      run s1 after = .ok (s, rs₃) ∧ ∃ w, Rel D (begun (before ++ mid)) (complete (before ++ mid)) m s1 w := by
  have hpre : before ++ .load t d e :: (mid ++ .put t :: after) = (before ++ .load t d e :: mid) ++ ([.put t] ++ after) := by simp
  have hcut : rs₁ ++ none :: (rs₂ ++ some (.id k) :: rs₃) = (rs₁ ++ none :: rs₂) ++ (some (.id k) :: rs₃) := by simp
  obtain ⟨w, hw⟩ := serialisable D _ s _ h
  rw [hpre, hcut] at h
  obtain ⟨s1, r1, r2, h1, h2, h3, h4⟩ := run_append h
  obtain ⟨rfl, rfl⟩ := List.append_inj h3 (by simp only [List.length_append, List.length_cons] at h4 ⊢; omega)
  obtain ⟨s2, r3, r4, h5, h6, h7, h8⟩ := run_append h2
  obtain ⟨w1, hw1, hR1⟩ := run_serial (Rel.init D) h1
  obtain ⟨w2, hw2, hR2⟩ := run_serial hR1 h5
  have hr34 : r4 = rs₃ := by
    match r3, h8, h7 with
    | [x], _, h7 => simp only [List.cons_append, List.nil_append, List.cons.injEq] at h7; exact h7.2.symm
  rw [hr34] at h6
  have hin : inside D 0 (fun _ => none) (before ++ .load t d e :: mid) t = some (begun before + ticksFor D d, e) := by
    rw [inside_append]
    simp only [inside, inside_other hm hm', upd]
    simp
  have hcount : complete (before ++ .load t d e :: mid) = complete (before ++ mid) := by
    simp [complete, List.countP_append, List.countP_cons, isTake]
  have hcount2 : begun (before ++ .load t d e :: mid) = begun (before ++ mid) := by
    simp [begun, List.countP_append, List.countP_cons, isAdvance]
  have hput1 : begun ([.put t] : List (Act α)) = 0 := rfl
  have hput2 : complete ([.put t] : List (Act α)) = 0 := rfl
  rw [hpre, serial_append] at hw
  simp only [List.cons_append, List.nil_append, serial, Nat.zero_add, hin, hcount, hcount2] at hw
  simp only [Nat.zero_add, hput1, hput2, Nat.add_zero, hcount, hcount2, inside] at hR2
  refine ⟨w, serial D 0 0 (fun _ => none) (before ++ .load t d e :: mid), _, s2, ?_, ?_, ?_, ?_, h6, w2, hR2⟩
  · rw [hw]; simp
  · rw [← run_length hw1]; simp
  · rw [serial_append]
    intro d' hd'
    rcases List.mem_append.1 hd' with hd' | hd'
    · exact serial_no_insert hb (by simp) d' hd'
    · simp only [serial] at hd'
      refine serial_no_insert hmm ?_ d' hd'
      intro t' n hn
      unfold upd at hn
      split at hn
      · rename_i heq; rw [heq]; exact hm'
      · exact absurd hn (inside_no_entry hb (by simp) n)
  · intro t' n hn
    unfold upd at hn
    split at hn
    · cases hn
    · rename_i hne
      rw [inside_append] at hn
      refine inside_no_entry (os := mid) hmm ?_ n hn
      intro n hn
      simp only [upd, if_neg hne] at hn
      exact inside_no_entry hb (by simp) n hn

/-- **C147 (when a timer fires).** Among any actions of other threads, thread `t` inserts `e` with delay `d`: it reads the clock
after `before` and locks the slot after `mid`, getting id `k`. If `e` is not inserted a second time and `k` is not cancelled,
then the `j + 1`st tick completed afterwards (tick number `complete (before ++ mid) + (j + 1)` from the beginning; a tick is
complete when it empties its slot) returns `e` iff it is the first one whose number is, modulo 256, the number of ticks begun when the clock was read plus the delay. In
particular `e` is returned exactly once, by one of the next 256 ticks. -/
theorem race_fires (D d t : Nat) (before mid after : List (Act α)) (e : α) (k : TimerID) (s : State α)
    (rs₁ rs₂ rs₃ : List (Option (Ret α))) (hl1 : rs₁.length = before.length) (hl2 : rs₂.length = mid.length)
    (h : run (init D) (before ++ .load t d e :: (mid ++ .put t :: after)) = .ok (s, rs₁ ++ none :: (rs₂ ++ some (.id k) :: rs₃)))
    (hm : ∀ d e, Act.load t d e ∉ mid) (hm' : Act.put t ∉ mid)
    (hb : ∀ t d, Act.load t d e ∉ before) (hmm : ∀ t d, Act.load t d e ∉ mid) (ha : ∀ t d, Act.load t d e ∉ after)
    (hc : Act.cancel k ∉ after) (j : Nat) (l : List (TimerID × α)) (hj : (results rs₃)[j]? = some l) :
    (∃ k', (k', e) ∈ l) ↔
      j + 1 ≤ 256 ∧ (complete (before ++ mid) + (j + 1)) % 256 = (begun before + ticksFor D d) % 256 := by
  obtain ⟨w, ob, m, s1, hrun, hlen, hnb, hm1, _, _⟩ := serial_of hl1 hl2 h hm hm' hb hmm
  have := TimeWheel.fires_exactly 256 _ ob _ e k w _ _ hlen hrun hnb
    (serial_no_insert ha (fun t n hn => absurd hn (hm1 t n))) (serial_no_cancel hc) j l hj
  rw [this]
  have hT : ticksFor 256 (ticksUntil (begun before + ticksFor D d) (complete (before ++ mid)))
      = ticksUntil (begun before + ticksFor D d) (complete (before ++ mid)) := by
    unfold ticksFor ticksUntil
    rw [Nat.mul_div_cancel_left _ (by omega)]
    rw [if_neg (by omega)]
  rw [hT, ticksUntil_spec]
  simp

/-- **C147 (on time).** If the delay is less than the whole revolution (and at least a tick), and the tick it ends with has
not emptied its slot before the inserting thread locks it, the timer fires at exactly the tick whose number is that of the
ticks begun when the thread read the clock plus the delay, whatever other threads do in the middle. -/
theorem race_on_time (D d t : Nat) (before mid after : List (Act α)) (e : α) (k : TimerID) (s : State α)
    (rs₁ rs₂ rs₃ : List (Option (Ret α))) (hl1 : rs₁.length = before.length) (hl2 : rs₂.length = mid.length)
    (h : run (init D) (before ++ .load t d e :: (mid ++ .put t :: after)) = .ok (s, rs₁ ++ none :: (rs₂ ++ some (.id k) :: rs₃)))
    (hm : ∀ d e, Act.load t d e ∉ mid) (hm' : Act.put t ∉ mid)
    (hb : ∀ t d, Act.load t d e ∉ before) (hmm : ∀ t d, Act.load t d e ∉ mid) (ha : ∀ t d, Act.load t d e ∉ after)
    (hc : Act.cancel k ∉ after) (hd : ticksFor D d ≤ 255)
    (hin : complete (before ++ mid) < begun before + ticksFor D d)
    (j : Nat) (l : List (TimerID × α)) (hj : (results rs₃)[j]? = some l) :
    (∃ k', (k', e) ∈ l) ↔ complete (before ++ mid) + (j + 1) = begun before + ticksFor D d := by
  rw [race_fires D d t before mid after e k s rs₁ rs₂ rs₃ hl1 hl2 h hm hm' hb hmm ha hc j l hj]
  obtain ⟨s1, r1, r2, h1, _, _, _⟩ := run_append h
  have := begun_complete (Rel.init D) h1
  have hcm : complete (before ++ mid) = complete before + complete mid := by simp [complete]
  omega

/-- **C147 (cancellation).** A timer that is cancelled before its tick has emptied the slot never fires, whatever other threads
do, even if that tick has begun. -/
theorem race_cancelled (D d t : Nat) (before mid wait after : List (Act α)) (e : α) (k : TimerID) (s : State α)
    (rs₁ rs₂ rs₃ rs₄ : List (Option (Ret α))) (hl1 : rs₁.length = before.length) (hl2 : rs₂.length = mid.length)
    (hl3 : rs₃.length = wait.length)
    (h : run (init D) (before ++ .load t d e :: (mid ++ .put t :: (wait ++ .cancel k :: after)))
      = .ok (s, rs₁ ++ none :: (rs₂ ++ some (.id k) :: (rs₃ ++ some .unit :: rs₄))))
    (hm : ∀ d e, Act.load t d e ∉ mid) (hm' : Act.put t ∉ mid)
    (hb : ∀ t d, Act.load t d e ∉ before) (hmm : ∀ t d, Act.load t d e ∉ mid)
    (hw : ∀ t d, Act.load t d e ∉ wait) (ha : ∀ t d, Act.load t d e ∉ after) (hc : Act.cancel k ∉ wait)
    (hin : ∀ l ∈ results rs₃, ∀ k', (k', e) ∉ l) : ∀ l ∈ results rs₄, ∀ k', (k', e) ∉ l := by
  obtain ⟨w, ob, m, s1, hrun, hlen, hnb, hm1, hrest, w0, hR⟩ := serial_of hl1 hl2 h hm hm' hb hmm
  obtain ⟨s2, r1, r2, h1, h2, h3, h4⟩ := run_append hrest
  obtain ⟨rfl, rfl⟩ := List.append_inj h3 (by omega)
  have hlw : (rs₃.filterMap id).length = (serial D (begun (before ++ mid)) (complete (before ++ mid)) m wait).length :=
    serial_length hR (os₁ := []) rfl h1
  have hni : TimeWheel.NoInsert e (serial D (begun (before ++ mid)) (complete (before ++ mid)) m (wait ++ .cancel k :: after)) := by
    refine serial_no_insert ?_ (fun t n hn => absurd hn (hm1 t n))
    intro t d hh
    simp only [List.mem_append, List.mem_cons] at hh
    rcases hh with hh | hh | hh
    · exact hw t d hh
    · cases hh
    · exact ha t d hh
  rw [serial_append] at hrun hni
  simp only [serial] at hrun hni
  have hfm : (rs₃ ++ some .unit :: rs₄).filterMap id = rs₃.filterMap id ++ .unit :: rs₄.filterMap id := by simp
  rw [hfm] at hrun
  have hsplit : ∀ d, Op.insert d e ∉ serial D (begun (before ++ mid)) (complete (before ++ mid)) m wait :=
    fun d hd => hni d (List.mem_append_left _ hd)
  have hncw := serial_no_cancel (D := D) (a := begun (before ++ mid)) (b := complete (before ++ mid)) (m := m) hc
  refine TimeWheel.cancelled_never_fires 256 _ ob _ _ e k w _ _ _ hlen hlw hrun hnb hsplit
    (fun d hd => hni d (by simp [hd])) hncw ?_
  refine Classical.byContradiction fun hpend => ?_
  have hre : ∀ (x : Op α) (oc : List (Op α)), ob ++ x :: (serial D (begun (before ++ mid)) (complete (before ++ mid)) m wait ++ oc)
      = (ob ++ x :: serial D (begun (before ++ mid)) (complete (before ++ mid)) m wait) ++ oc := by intros; simp
  rw [hre] at hrun
  obtain ⟨w1, q1, q2, hq, hql, hq1, hq2⟩ := TimeWheel.run_append hrun
  have hre2 : ∀ (oc : List (Ret α)), (rs₁ ++ rs₂).filterMap id ++ .id k :: (rs₃.filterMap id ++ oc)
      = ((rs₁ ++ rs₂).filterMap id ++ .id k :: rs₃.filterMap id) ++ oc := by intros; simp
  rw [hre2] at hq
  obtain ⟨rfl, _⟩ := List.append_inj hq (by rw [hql]; simp only [List.length_append, List.length_cons, hlen, hlw])
  obtain ⟨p, hs⟩ := TimeWheel.wheel_refines _ _ _ _ hq1
  obtain ⟨ra, rb, p1, hra, hrl, hs1, hs2⟩ := TimeWheel.spec_append hs
  obtain ⟨rfl, rfl⟩ := List.append_inj hra (by rw [hrl, hlen])
  cases hs2 with
  | cons hr hs3 =>
    have hout := TimeWheel.spec_outs_length hs3
    have hpos := TimeWheel.ticksFor_pos 256 (ticksUntil (begun before + ticksFor D d) (complete (before ++ mid)))
    have hlt : ticksFor 256 (ticksUntil (begun before + ticksFor D d) (complete (before ++ mid))) - 1
        < (TimeWheel.outs (rs₃.filterMap id)).length := by rw [hout]; omega
    have := TimeWheel.fires_exactly 256 _ ob _ e k w1 _ _ hlen hq1 hnb hsplit hncw _ _ (List.getElem?_eq_getElem hlt)
    obtain ⟨k', hk'⟩ := this.2 (by omega)
    exact hin _ (List.getElem_mem hlt) k' hk'

/-! ## What the race can do -/

/-- Read off an execution. -/
theorem runs_of {os : List (Act String)} {D : Nat} {P : List (Option (Ret String)) → Prop} [DecidablePred P]
    (h : (match run (init D) os with | .ok (_, rs) => decide (P rs) | _ => false) = true) :
    ∃ s rs, run (init D) os = .ok (s, rs) ∧ P rs := by
  split at h
  · exact ⟨_, _, by assumption, of_decide_eq_true h⟩
  · cases h

/-- A tick: both its actions. -/
def tick2 : List (Act String) := [.advance, .take]

/-- **C147 (delays shorter than a tick).** A delay of less than a tick means a whole revolution when only one thread uses the
wheel (C56). If the thread reads the clock while a tick is in progress, the timer fires with that very tick. The server does
not use such delays. -/
theorem zero_delay_early : ticksFor 256 0 = 256 ∧
    ∃ s rs, run (init 256) [.advance, .load 0 0 "a", .put 0, .take] = .ok (s, rs) ∧
      rs = [none, none, some (.id ⟨⟨1, 1⟩, 1⟩), some (.fired [(⟨⟨1, 1⟩, 1⟩, "a")])] :=
  ⟨by decide, runs_of (P := fun rs => rs = _) (by decide +kernel)⟩

/-- 254 ticks, the last of which has only begun. -/
def lateOps (n : Nat) : List (Act String) :=
  .load 0 255 "a" :: ((List.replicate n tick2).flatten ++ .put 0 :: (List.replicate 256 tick2).flatten)

/-- **C147 (a stalled thread).** A thread that is stalled in `insert` for less than the delay (here 254 ticks of 255) changes
nothing: the timer fires at tick 255. One stalled for as long as the delay gets a timer that fires a whole revolution late, at
tick 511. (For pings: a runner that fell silent is noticed after up to 70 s instead of 35 s.) -/
theorem stalled_insert_late :
    (∃ s rs, run (init 256) (lateOps 254) = .ok (s, rs) ∧ (results rs)[254]? = some [(⟨⟨1, 1⟩, 255⟩, "a")]) ∧
    ∃ s rs, run (init 256) (lateOps 255) = .ok (s, rs) ∧ (results rs)[510]? = some [(⟨⟨1, 1⟩, 255⟩, "a")] ∧
      ∀ l ∈ (results rs).take 510, l = [] :=
  ⟨runs_of (P := fun rs => (results rs)[254]? = some [(⟨⟨1, 1⟩, 255⟩, "a")]) (by decide +kernel),
    runs_of (P := fun rs => (results rs)[510]? = some [(⟨⟨1, 1⟩, 255⟩, "a")] ∧ ∀ l ∈ (results rs).take 510, l = []) (by decide +kernel)⟩

/-- A timer is inserted and the tick it waits for begins; then another timer is inserted, and after that the first is
cancelled; then the tick is completed, and another one. -/
def raceOps : List (Act String) :=
  [.load 0 1 "a", .put 0, .advance, .load 1 1 "b", .put 1, .cancel ⟨⟨1, 1⟩, 1⟩, .take, .advance, .take]

/-- The answers. -/
def raceRets : List (Option (Ret String)) :=
  [none, some (.id ⟨⟨1, 1⟩, 1⟩), none, none, some (.id ⟨⟨1, 1⟩, 2⟩), some .unit, some (.fired []), none,
    some (.fired [(⟨⟨1, 1⟩, 2⟩, "b")])]

/-- **C147 (not linearizable).** `tick` and `insert` do not look atomic to other threads: in this execution the tick in progress
comes before the insertion of `b` (which counts from it) and after the cancellation of `a` (which it does not return any more), but
the insertion had returned before the cancellation began. No order of the calls explains the answers. -/
theorem not_linearizable : ∃ os s rs, run (init 256 : State String) os = .ok (s, rs) ∧ ¬ Linearizable 256 (calls 0 (os.zip rs)) := by
  obtain ⟨s, rs, h1, h2⟩ := runs_of (os := raceOps) (D := 256) (P := fun rs => rs = raceRets) (by decide +kernel)
  refine ⟨raceOps, s, rs, h1, ?_⟩
  subst h2
  have hc : calls 0 (raceOps.zip raceRets) = [⟨.insert 1 "a", .id ⟨⟨1, 1⟩, 1⟩, 0, 1⟩, ⟨.tick, .fired [], 2, 6⟩,
      ⟨.insert 1 "b", .id ⟨⟨1, 1⟩, 2⟩, 3, 4⟩, ⟨.cancel ⟨⟨1, 1⟩, 1⟩, .unit, 5, 5⟩,
      ⟨.tick, .fired [(⟨⟨1, 1⟩, 2⟩, "b")], 7, 8⟩] := by decide +kernel
  rw [hc]
  rintro ⟨l, hp, ho, w, hw⟩
  have hall : ∀ l ∈ List.permutations' [(⟨.insert 1 "a", .id ⟨⟨1, 1⟩, 1⟩, 0, 1⟩ : Call String), ⟨.tick, .fired [], 2, 6⟩,
      ⟨.insert 1 "b", .id ⟨⟨1, 1⟩, 2⟩, 3, 4⟩, ⟨.cancel ⟨⟨1, 1⟩, 1⟩, .unit, 5, 5⟩,
      ⟨.tick, .fired [(⟨⟨1, 1⟩, 2⟩, "b")], 7, 8⟩], l.Pairwise (fun x y => ¬ y.ended < x.started) →
      (match TimeWheel.run (new 256) (l.map (·.op)) with | .ok (_, rs) => decide (rs = l.map (·.ret)) | _ => false) = false := by
    decide +kernel
  have := hall l (List.mem_permutations'.2 hp) ho
  rw [hw] at this
  simp at this

/-- Non-trivial case of `race_on_time`: another thread inserts, a tick falls between the two halves of the insertion. -/
example : ∃ s rs, run (init 256) ([.advance, .take, .advance] ++ .load 0 3 "a" :: ([.take, .load 1 7 "b", .advance, .take] ++ .put 0 ::
    [.advance, .put 1, .take, .advance, .take])) = .ok (s, rs) ∧
    rs = [none, some (.fired []), none] ++ none :: ([some (.fired []), none, none, some (.fired [])] ++ some (.id ⟨⟨1, 1⟩, 5⟩) ::
      [none, some (.id ⟨⟨1, 1⟩, 9⟩), some (.fired []), none, some (.fired [(⟨⟨1, 1⟩, 5⟩, "a")])]) :=
  runs_of (P := fun rs => rs = _) (by decide +kernel)

/-- Non-trivial case of `race_cancelled`: the tick has begun when the timer is cancelled. -/
example : ∃ s rs, run (init 256) ([] ++ .load 0 1 "a" :: ([] ++ .put 0 :: ([.advance] ++ .cancel ⟨⟨1, 1⟩, 1⟩ :: [.take, .advance, .take])))
    = .ok (s, rs) ∧ rs = [] ++ none :: ([] ++ some (.id ⟨⟨1, 1⟩, 1⟩) :: ([none] ++ some .unit :: [some (.fired []), none, some (.fired [])])) :=
  runs_of (P := fun rs => rs = _) (by decide +kernel)

end Verif.Props.WheelRace
