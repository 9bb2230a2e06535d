import Verif.Proof.System

/-! # Traces of system runs, moves of the loops, abandoned tasks (helper lemmas for `Verif.Props.System`) -/

namespace Verif.Sys
open Verif Verif.Tracker
open scoped List

variable {c : Cfg} {lf : LogFile} {now : Int} {s s' : State}

theorem Runs.append {s1 s2 s3 : State} {as bs : List Act} (h1 : Runs c s1 as s2) (h2 : Runs c s2 bs s3) :
    Runs c s1 (as ++ bs) s3 := by
  induction h1 with
  | nil => exact h2
  | cons hd hs _ ih => exact .cons hd hs (ih h2)

theorem Runs.snoc {s1 s2 s3 : State} {as : List Act} {a : Act} (h1 : Runs c s1 as s2) (hd : polite c s2 a = true)
    (hs : step c s2 a = .ok s3) : Runs c s1 (as ++ [a]) s3 := h1.append (.cons hd hs (.nil _))

theorem Reachable.later {as : List Act} (h : Reachable c lf now s) (h2 : Runs c s as s') : Reachable c lf now s' := by
  obtain ⟨bs, h⟩ := h
  exact ⟨_, h.append h2⟩

theorem Runs.snocInd {s0 : State} {P : List Act → State → Prop} (h0 : P [] s0)
    (hstep : ∀ as s a s', Runs c s0 as s → P as s → polite c s a = true → step c s a = .ok s' → P (as ++ [a]) s')
    {as : List Act} {s : State} (hr : Runs c s0 as s) : P as s := by
  suffices h : ∀ bs, Runs c s0 bs s0 → P bs s0 → P (bs ++ as) s by simpa using h [] (.nil _) h0
  have gen : ∀ {t : State} {as : List Act} {s : State}, Runs c t as s → ∀ bs, Runs c s0 bs t → P bs t → P (bs ++ as) s := by
    intro t as s h
    induction h with
    | nil => intro bs _ hp; simpa using hp
    | @cons s s1 s' a as hd hs _ ih =>
      intro bs hb hp
      have := ih (bs ++ [a]) (hb.snoc hd hs) (hstep bs s a s1 hb hp hd hs)
      simpa using this
  exact fun bs hb hp => gen hr bs hb hp

theorem collect_append {β : Type} {f : State → Act → List β} {as bs : List Act} (hr : Runs c s as s') :
    collect f c s (as ++ bs) = collect f c s as ++ collect f c s' bs := by
  induction hr with
  | nil => rfl
  | cons hd hs _ ih => simp only [List.cons_append, collect, hs, ih, List.append_assoc]

theorem collect_snoc {β : Type} {f : State → Act → List β} {as : List Act} {a : Act} (hr : Runs c s as s') :
    collect f c s (as ++ [a]) = collect f c s as ++ f s' a := by
  rw [collect_append hr]
  simp only [collect]
  cases step c s' a <;> simp

/-! ### moves of the loops -/

/-- The moves of a local loop. -/
inductive Moves (c : Cfg) (s : State) (i : Nat) : Act → Loop → Loop → List LoopObs → Prop
  | recv (l' : Loop) : l' = .inRecv ∨ l' = .exited → Moves c s i (.loopRecv i) .top l' []
  | closed (k : Nat) : Moves c s i (.loopClosed i k) .inRecv .exited []
  | got (k : Nat) (it : Item) : s.tr.claimed[k]? = some (loopType c i, it) →
      Moves c s i (.loopGot i k) .inRecv (.got it.id) [.got it.id]
  | spawn (v : Nat) : Moves c s i (.loopSpawn i true) (.got v) (.spawned v s.tr.now) [.spawn v true]
  | spawnFail (v : Nat) : Moves c s i (.loopSpawn i false) (.got v) (.failing v) [.spawn v false]
  | dieGot (v : Nat) : Moves c s i (.loopDie i) (.got v) (.dead v) []
  | dieSpawned (v : Nat) (st : Int) : Moves c s i (.loopDie i) (.spawned v st) (.dead v) []
  | dieFailing (v : Nat) : Moves c s i (.loopDie i) (.failing v) (.dead v) []
  | started (v : Nat) (st : Int) (host : String) (pid : Nat) :
      Moves c s i (.loopStarted i host pid) (.spawned v st) (.running v st) [.started v]
  | startedFail (v : Nat) (host : String) (pid : Nat) :
      Moves c s i (.loopStarted i host pid) (.failing v) (.failed v) [.started v]
  | soft (v : Nat) (st t : Int) : s.tr.token = some (.afterTime t) → st > t →
      Moves c s i (.loopSoft i) (.running v st) (.cancelled v) []
  | hard (v : Nat) (st : Int) : s.tr.token = some .hard → Moves c s i (.loopHard i) (.running v st) (.killed v) []
  | output (v : Nat) (st : Int) (code : Int) (values : List (List (String × String))) :
      Moves c s i (.loopOutput i code values) (.running v st) (.ended v code values) []
  | reportFail (v : Nat) : Moves c s i (.loopReport i) (.failed v) .top [.finished v (.code (-1))]
  | reportCancel (v : Nat) : Moves c s i (.loopReport i) (.cancelled v) .exited [.finished v .cancelled]
  | report (v : Nat) (code : Int) (values : List (List (String × String))) :
      Moves c s i (.loopReport i) (.ended v code values) .top [.finished v (.code code)]

theorem endH_loops (s : State) (j : Option (Option String)) (txn : Nat) (code : Int) (values : List (List (String × String)))
    (next : Option Nat) : (endH s j txn code values next).loops = s.loops := by
  unfold endH
  repeat' split
  all_goals rfl

theorem startH_loops (s : State) (j : Option (Option String)) (rt : Nat) : (startH s j rt).loops = s.loops := by
  unfold startH
  repeat' split
  all_goals rfl

theorem takeRequest_loops {r : Request} (hs : takeRequest c s r = .ok s') : s'.loops = s.loops := by
  unfold takeRequest at hs
  split at hs
  · simp only [Res.ok.injEq] at hs; subst hs; rfl
  · split at hs
    · simp only [Res.ok.injEq] at hs; subst hs; rfl
    · split at hs
      · simp only [Res.ok.injEq] at hs; subst hs; rfl
      · split at hs
        · simp only [Res.ok.injEq] at hs; subst hs; exact startH_loops _ _ _
        · unfold begunH at hs
          repeat' split at hs
          · simp only [Res.ok.injEq] at hs; subst hs; rfl
          · obtain ⟨t, _, rfl⟩ := trk_ok.1 hs; rfl
          · simp only [Res.ok.injEq] at hs; subst hs; rfl
        · simp only [Res.ok.injEq] at hs; subst hs; exact endH_loops _ _ _ _ _ _
        · unfold pingH at hs
          split at hs
          · simp only [Res.ok.injEq] at hs; subst hs; rfl
          · obtain ⟨_, _, hs⟩ := Res.bind_ok.1 hs
            simp only [Res.ok.injEq] at hs; subst hs; rfl
        · simp only [Res.ok.injEq] at hs; subst hs; rfl
        · cases hs

theorem step_loops {a : Act} (hs : step c s a = .ok s') :
    (s'.loops = s.loops ∧ loopObs s a = []) ∨
    ∃ i l l' o, s.loops[i]? = some l ∧ s'.loops = s.loops.set i l' ∧ Moves c s i a l l' o ∧
      loopObs s a = o.map (fun x => (i, x)) := by
  cases a with
  | loopRecv i =>
    right
    simp only [step] at hs
    split at hs
    · rename_i hi
      split at hs
      · obtain ⟨t, _, rfl⟩ := trk_ok.1 hs
        exact ⟨i, _, _, _, hi, rfl, .recv _ (.inl rfl), rfl⟩
      · simp only [Res.ok.injEq] at hs; subst hs
        exact ⟨i, _, _, _, hi, rfl, .recv _ (.inr rfl), rfl⟩
    · cases hs
  | loopClosed i k =>
    right
    simp only [step] at hs
    split at hs
    · rename_i hi
      split at hs
      · obtain ⟨t, _, rfl⟩ := trk_ok.1 hs
        exact ⟨i, _, _, _, hi, rfl, .closed k, rfl⟩
      · cases hs
    · cases hs
  | loopGot i k =>
    right
    simp only [step] at hs
    split at hs
    · rename_i r it hi hk
      split at hs
      · rename_i hr
        subst hr
        obtain ⟨t, _, rfl⟩ := trk_ok.1 hs
        exact ⟨i, _, _, _, hi, rfl, .got k it hk, by simp [loopObs, hk]⟩
      · cases hs
    · cases hs
  | loopSpawn i ok =>
    right
    simp only [step] at hs
    split at hs
    · rename_i v hi
      split at hs
      · simp only [Res.ok.injEq] at hs; subst hs
        cases ok
        · exact ⟨i, _, _, _, hi, rfl, .spawnFail v, by simp [loopObs, hi]⟩
        · exact ⟨i, _, _, _, hi, rfl, .spawn v, by simp [loopObs, hi]⟩
      · cases hs
    · cases hs
  | loopDie i =>
    right
    simp only [step] at hs
    split at hs
    · rename_i v hv
      simp only [Res.ok.injEq] at hs; subst hs
      obtain ⟨l, hi, hm⟩ := Option.bind_eq_some_iff.1 hv
      cases l <;> simp only [mayDie] at hm <;> try (cases hm; done)
      all_goals (split at hm <;> cases hm)
      · exact ⟨i, _, _, _, hi, (by simp only [setLoop]; split <;> rfl), .dieGot v, rfl⟩
      · exact ⟨i, _, _, _, hi, (by simp only [setLoop]; split <;> rfl), .dieSpawned v _, rfl⟩
      · exact ⟨i, _, _, _, hi, (by simp only [setLoop]; split <;> rfl), .dieFailing v, rfl⟩
    · cases hs
  | loopStarted i host pid =>
    right
    simp only [step] at hs
    split at hs
    · rename_i v st hi
      obtain ⟨t, _, rfl⟩ := trk_ok.1 hs
      exact ⟨i, _, _, _, hi, rfl, .started v st host pid, by simp [loopObs, hi]⟩
    · rename_i v hi
      obtain ⟨t, _, rfl⟩ := trk_ok.1 hs
      exact ⟨i, _, _, _, hi, rfl, .startedFail v host pid, by simp [loopObs, hi]⟩
    · cases hs
  | loopSoft i =>
    right
    simp only [step] at hs
    split at hs
    · rename_i v st t hi ht
      split at hs
      · rename_i hgt
        simp only [Res.ok.injEq] at hs; subst hs
        exact ⟨i, _, _, _, hi, rfl, .soft v st t ht hgt, rfl⟩
      · cases hs
    · cases hs
  | loopHard i =>
    right
    simp only [step] at hs
    split at hs
    · rename_i v st hi ht
      simp only [Res.ok.injEq] at hs; subst hs
      exact ⟨i, _, _, _, hi, rfl, .hard v st ht, rfl⟩
    · cases hs
  | loopOutput i code values =>
    right
    simp only [step] at hs
    split at hs
    · rename_i v st hi
      simp only [Res.ok.injEq] at hs; subst hs
      exact ⟨i, _, _, _, hi, rfl, .output v st code values, rfl⟩
    · cases hs
  | loopReport i =>
    right
    simp only [step] at hs
    split at hs
    · rename_i v hi
      obtain ⟨t, _, rfl⟩ := trk_ok.1 hs
      exact ⟨i, _, _, _, hi, rfl, .reportFail v, by simp [loopObs, hi]⟩
    · rename_i v hi
      obtain ⟨t, _, rfl⟩ := trk_ok.1 hs
      exact ⟨i, _, _, _, hi, rfl, .reportCancel v, by simp [loopObs, hi]⟩
    · rename_i v code values hi
      obtain ⟨t, _, rfl⟩ := trk_ok.1 hs
      exact ⟨i, _, _, _, hi, rfl, .report v code values, by simp [loopObs, hi]⟩
    · cases hs
  | request r =>
    left
    simp only [step] at hs
    split at hs
    · cases hs
    · exact ⟨takeRequest_loops hs, rfl⟩
  | server a =>
    left
    simp only [step] at hs
    split at hs
    · obtain ⟨t, _, rfl⟩ := trk_ok.1 hs; exact ⟨rfl, rfl⟩
    · cases hs
  | hTimer h txn =>
    left
    simp only [step] at hs
    split at hs
    · obtain ⟨_, _, hs⟩ := Res.bind_ok.1 hs
      simp only [Res.ok.injEq] at hs; subst hs; exact ⟨rfl, rfl⟩
    · cases hs
  | _ =>
    left
    simp only [step] at hs
    repeat' split at hs
    all_goals first
      | cases hs; done
      | (simp only [Res.ok.injEq] at hs; subst hs; exact ⟨rfl, rfl⟩)
      | (obtain ⟨t, _, rfl⟩ := trk_ok.1 hs; exact ⟨rfl, rfl⟩)

/-! ### the trace of a loop -/

/-- What a loop has done with its current task. -/
inductive Pend : Loop → List LoopObs → Prop
  | top : Pend .top []
  | inRecv : Pend .inRecv []
  | exited : Pend .exited []
  | got (v : Nat) : Pend (.got v) [.got v]
  | spawned (v : Nat) (st : Int) : Pend (.spawned v st) [.got v, .spawn v true]
  | failing (v : Nat) : Pend (.failing v) [.got v, .spawn v false]
  | running (v : Nat) (st : Int) : Pend (.running v st) [.got v, .spawn v true, .started v]
  | failed (v : Nat) : Pend (.failed v) [.got v, .spawn v false, .started v]
  | cancelled (v : Nat) : Pend (.cancelled v) [.got v, .spawn v true, .started v]
  | ended (v : Nat) (code : Int) (values : List (List (String × String))) :
      Pend (.ended v code values) [.got v, .spawn v true, .started v]
  | killed (v : Nat) : Pend (.killed v) [.got v, .spawn v true, .started v]
  | deadGot (v : Nat) : Pend (.dead v) [.got v]
  | deadSpawned (v : Nat) (ok : Bool) : Pend (.dead v) [.got v, .spawn v ok]

theorem Moves.pend {i : Nat} {a : Act} {l l' : Loop} {o p : List LoopObs} (h : Moves c s i a l l' o) (hp : Pend l p) :
    ∃ (rounds : List (Nat × Option ExitStatus)) (rest : List LoopObs), p ++ o = rounds.flatMap round ++ rest ∧ Pend l' rest := by
  cases h with
  | recv _ h => cases hp; rcases h with rfl | rfl; exacts [⟨[], [], rfl, .inRecv⟩, ⟨[], [], rfl, .exited⟩]
  | closed k => cases hp; exact ⟨[], [], rfl, .exited⟩
  | got k it hk => cases hp; exact ⟨[], _, rfl, .got _⟩
  | spawn v => cases hp; exact ⟨[], _, rfl, .spawned _ _⟩
  | spawnFail v => cases hp; exact ⟨[], _, rfl, .failing _⟩
  | dieGot v => cases hp; exact ⟨[], _, rfl, .deadGot _⟩
  | dieSpawned v st => cases hp; exact ⟨[], _, rfl, .deadSpawned _ _⟩
  | dieFailing v => cases hp; exact ⟨[], _, rfl, .deadSpawned _ _⟩
  | started v st host pid => cases hp; exact ⟨[], _, rfl, .running _ _⟩
  | startedFail v host pid => cases hp; exact ⟨[], _, rfl, .failed _⟩
  | soft v st t ht hgt => cases hp; exact ⟨[], _, rfl, .cancelled _⟩
  | hard v st ht => cases hp; exact ⟨[], _, rfl, .killed _⟩
  | output v st code values => cases hp; exact ⟨[], _, rfl, .ended _ _ _⟩
  | reportFail v => cases hp; exact ⟨[(v, none)], [], rfl, .top⟩
  | reportCancel v => cases hp; exact ⟨[(v, some .cancelled)], [], rfl, .exited⟩
  | report v code values => cases hp; exact ⟨[(v, some (.code code))], [], rfl, .top⟩

theorem filter_same (i : Nat) (o : List LoopObs) : ((o.map (fun x => (i, x))).filter (fun x => x.1 == i)).map (·.2) = o := by
  rw [List.filter_eq_self.2 (by simp), List.map_map]
  exact List.map_id _

theorem filter_other {i j : Nat} (h : i ≠ j) (o : List LoopObs) :
    ((o.map (fun x => (i, x))).filter (fun x => x.1 == j)).map (·.2) = [] := by
  rw [List.filter_eq_nil_iff.2]
  · rfl
  · simp [h]

theorem trace_pend {as : List Act} (hr : Runs c (init c lf now) as s) (i : Nat) :
    (s.loops.length = (init c lf now).loops.length) ∧
    (∀ l, s.loops[i]? = some l → ∃ (rounds : List (Nat × Option ExitStatus)) (rest : List LoopObs), loopTrace c (init c lf now) as i = rounds.flatMap round ++ rest ∧ Pend l rest) ∧
    (s.loops[i]? = none → loopTrace c (init c lf now) as i = []) := by
  refine Runs.snocInd (P := fun as s => (s.loops.length = (init c lf now).loops.length) ∧
    (∀ l, s.loops[i]? = some l → ∃ (rounds : List (Nat × Option ExitStatus)) (rest : List LoopObs), loopTrace c (init c lf now) as i = rounds.flatMap round ++ rest ∧ Pend l rest) ∧
    (s.loops[i]? = none → loopTrace c (init c lf now) as i = [])) ?_ ?_ hr
  · refine ⟨rfl, fun l hl => ⟨[], [], rfl, ?_⟩, fun _ => rfl⟩
    have hm := List.mem_of_getElem? hl
    simp only [init] at hm
    split at hm
    · simp at hm
    · rw [List.mem_replicate] at hm
      rw [hm.2]; exact .top
  · intro as s a s' hr ih hp hs
    obtain ⟨h1, h2, h3⟩ := ih
    have htr : loopTrace c (init c lf now) (as ++ [a]) i = loopTrace c (init c lf now) as i ++
        ((loopObs s a).filter (fun x => x.1 == i)).map (·.2) := by
      unfold loopTrace
      rw [collect_snoc hr, List.filter_append, List.map_append]
    rcases step_loops hs with ⟨e1, e2⟩ | ⟨j, l, l', o, hj, e1, hm, e2⟩
    · rw [htr, e2, e1, List.filter_nil, List.map_nil, List.append_nil]; exact ⟨h1, h2, h3⟩
    · rw [htr, e2, e1]
      refine ⟨by rw [List.length_set]; exact h1, ?_⟩
      by_cases hij : j = i
      · subst hij
        rw [filter_same]
        have hlt := (List.getElem?_eq_some_iff.1 hj).1
        rw [List.getElem?_set_self hlt]
        refine ⟨?_, fun h => by cases h⟩
        intro x hx
        cases hx
        obtain ⟨rounds, rest, he, hpd⟩ := h2 l hj
        obtain ⟨rounds', rest', he', hpd'⟩ := hm.pend hpd
        refine ⟨rounds ++ rounds', rest', ?_, hpd'⟩
        rw [he, List.append_assoc, he', List.flatMap_append, List.append_assoc]
      · rw [filter_other hij, List.getElem?_set_ne hij, List.append_nil]
        exact ⟨h2, h3⟩

theorem length_set {α : Type} {f : α → List Nat} : ∀ {l : List α} {i : Nat} {a b : α}, l[i]? = some a →
    ((l.set i b).flatMap f).length + (f a).length = (l.flatMap f).length + (f b).length
  | [], i, a, b, h => by simp at h
  | x :: l, 0, a, b, h => by
    simp only [List.getElem?_cons_zero, Option.some.injEq] at h
    subst h
    simp only [List.set_cons_zero, List.flatMap_cons, List.length_append]
    omega
  | x :: l, i + 1, a, b, h => by
    simp only [List.getElem?_cons_succ] at h
    have := length_set (f := f) (b := b) h
    simp only [List.set_cons_succ, List.flatMap_cons, List.length_append]
    omega

theorem taken_append (n : Nat) (a b : List (Nat × LoopObs)) : taken n (a ++ b) = taken n a + taken n b := List.countP_append
theorem givenBack_append (n : Nat) (a b : List (Nat × LoopObs)) : givenBack n (a ++ b) = givenBack n a + givenBack n b :=
  List.countP_append

theorem Moves.balance {i : Nat} {a : Act} {l l' : Loop} {o : List LoopObs} (h : Moves c s i a l l' o) {n : Nat} (hi : i < n) :
    (ownL l').length + givenBack n (o.map (fun x => (i, x))) = (ownL l).length + taken n (o.map (fun x => (i, x))) := by
  cases h with
  | recv _ h => rcases h with rfl | rfl <;> simp [ownL, taken, givenBack]
  | _ => simp [ownL, taken, givenBack, hi]

theorem balance {as : List Act} (hr : Runs c (init c lf now) as s) (n : Nat) :
    taken n (collect loopObs c (init c lf now) as) =
      givenBack n (collect loopObs c (init c lf now) as) + ((s.loops.take n).flatMap ownL).length := by
  refine Runs.snocInd (P := fun as s => taken n (collect loopObs c (init c lf now) as) =
      givenBack n (collect loopObs c (init c lf now) as) + ((s.loops.take n).flatMap ownL).length) ?_ ?_ hr
  · have : (init c lf now).loops.take n = List.replicate ((init c lf now).loops.take n).length .top := by
      rw [List.eq_replicate_iff]
      refine ⟨rfl, fun b hb => ?_⟩
      have := List.mem_of_mem_take hb
      simp only [init] at this
      split at this
      · simp at this
      · exact (List.mem_replicate.1 this).2
    rw [this]
    simp [collect, taken, givenBack, List.flatMap_replicate, ownL]
  · intro as s a s' hr ih hp hs
    rw [collect_snoc hr, taken_append, givenBack_append]
    rcases step_loops hs with ⟨e1, e2⟩ | ⟨j, l, l', o, hj, e1, hm, e2⟩
    · rw [e1, e2]; simpa [taken, givenBack] using ih
    · rw [e1, e2, List.take_set]
      by_cases hjn : j < n
      · have h1 : (s.loops.take n)[j]? = some l := by rw [List.getElem?_take, if_pos hjn]; exact hj
        have h2 := length_set (f := ownL) (b := l') h1
        have h3 := hm.balance hjn
        omega
      · have h1 : (s.loops.take n).set j l' = s.loops.take n := by
          rw [List.set_eq_of_length_le]
          rw [List.length_take]; omega
        rw [h1]
        have h2 : taken n (o.map (fun x => (j, x))) = 0 := by
          unfold taken; rw [List.countP_eq_zero]; simp; omega
        have h3 : givenBack n (o.map (fun x => (j, x))) = 0 := by
          unfold givenBack; rw [List.countP_eq_zero]; simp; omega
        omega

theorem ownL_le (l : Loop) : (ownL l).length ≤ 1 := by cases l <;> simp [ownL]

theorem flatMap_ownL_le : ∀ l : List Loop, (l.flatMap ownL).length ≤ l.length
  | [] => by simp
  | x :: l => by
    have := flatMap_ownL_le l
    have := ownL_le x
    simp only [List.flatMap_cons, List.length_append, List.length_cons]
    omega

end Verif.Sys
