import Verif.Proof.Construct
import Verif.Proof.Copy

/-!
# C179: constructors that fail

What the constructor does with the log, the lock, the callback and the mirror file, whatever fails; when it can be tried again; and the failure after which the process cannot
construct, print or flush any more.
-/

namespace Verif.Props.Construct
open Verif Verif.Json Verif.Construct

variable {s s' : Proc} {a : Args} {e : Env} {o : Outcome} {x : Exc} {g : Graph} {asked : Bool}

/-- When the constructor succeeds. -/
theorem succeeds_iff : (∃ g, (construct s a e).2.res = .ok g) ↔
    ∃ n lf key, Reads s a e n lf ∧ s.poisoned = false ∧ e.mirrorOpens = true ∧ KeyOf lf a key ∧ e.cwd2 = true ∧ e.header = none := by
  rcases construct_cases s a e with ⟨x, logs, hc, _, hx, hn⟩ | ⟨n, lf, hr, hc⟩
  · rw [hc]
    simp only [reduceCtorEq, exists_false, false_iff]
    rintro ⟨n, lf, key, hr, _⟩
    exact hn n lf hr
  · have huniq : ∀ {n' lf'}, Reads s a e n' lf' → lf' = lf := by
      intro n' lf' h
      have := h.log
      rw [hr.log] at this
      exact (Res.ok.inj this).symm
    rw [hc]
    rcases mirrored_cases (t := { s with logs := touched s.logs a.path }) (bs := (s.logs a.path).getD []) hr with
      ⟨hp, hm⟩ | ⟨hp, hmo, hm⟩ | ⟨hp, hmo, hm⟩
    · rw [hm]
      simp only [reduceCtorEq, exists_false, false_iff]
      rintro ⟨n, lf, key, _, h, _⟩
      simp only at hp
      rw [hp] at h
      cases h
    · rw [hm]
      simp only [reduceCtorEq, exists_false, false_iff]
      rintro ⟨n, lf, key, _, _, h, _⟩
      rw [hmo] at h
      cases h
    · rw [hm]
      rcases finish_cases (t := { { s with logs := touched s.logs a.path } with mirror := some a.path.1 }) (bs := (s.logs a.path).getD []) hr with
        ⟨u, hu, hno, hf⟩ | ⟨asked, key, hk, _, ⟨hc2, hf⟩ | ⟨hc2, m, hh, hf⟩ | ⟨hc2, hh, lf', hw, hf⟩⟩
      · rw [hf]
        simp only [reduceCtorEq, exists_false, false_iff]
        rintro ⟨n, lf', key, hr', _, _, hk, _⟩
        cases huniq hr'
        rcases hk with ⟨h, h1, _⟩ | ⟨_, h | h⟩
        · exact hno h h1
        · rw [hu] at h; cases h
        · rw [hu] at h; cases h.1
      · rw [hf]
        simp only [reduceCtorEq, exists_false, false_iff]
        rintro ⟨n, lf', key, _, _, _, _, h, _⟩
        rw [hc2] at h
        cases h
      · rw [hf]
        simp only [reduceCtorEq, exists_false, false_iff]
        rintro ⟨n, lf', key, _, _, _, _, _, h⟩
        rw [hh] at h
        cases h
      · rw [hf]
        exact ⟨fun _ => ⟨n, lf, key, hr, hp, hmo, hk, hc2, hh⟩, fun _ => ⟨_, rfl⟩⟩

/-- What a successful constructor makes: the graph has the log's key, or a new one; the header is written behind what was there, into the buffer only; the callback
was called exactly if the log had no header; the graph is the one with which the histories of Model/World go on. -/
theorem what_it_makes (h : construct s a e = (s', ⟨asked, .ok g⟩)) :
    ∃ n lf, Reads s a e n lf ∧ KeyOf lf a g.key ∧ (asked = true ↔ a.newKeyFn.isSome ∧ ∀ h, LogEntry.header h ∉ lf.entries) ∧
      g.path = a.path ∧ g.numParallel = n ∧ g.failuresAllowed = (if a.failuresAllowed = 0 then 2 ^ 32 - 1 else a.failuresAllowed) ∧
      g.rerunFailures = a.rerunFailures ∧
      pyNew lf.entries a.path.1 a.storageRoots g.key a.header = .ok g.g ∧
      g.g.logfile.entries = lf.entries ++ [.header { a.header with
        version := logfileVersion
        workflowKey := g.key
        storageRoots := a.storageRoots.map (expandRoot g.key) }] ∧
      s'.logs a.path = some ((s.logs a.path).getD []) ∧ (∀ q, q ≠ a.path → s'.logs q = s.logs q) ∧
      (∀ d, s'.locked d = true ↔ d = a.path.1 ∨ s.locked d = true) ∧ s'.mirror = some a.path.1 ∧ s'.poisoned = false := by
  rcases construct_cases s a e with ⟨x, logs, hc, _, hx, hn⟩ | ⟨n, lf, hr, hc⟩
  · rw [hc] at h
    cases h
  · rw [hc] at h
    rcases mirrored_cases (t := { s with logs := touched s.logs a.path }) (bs := (s.logs a.path).getD []) hr with
      ⟨hp, hm⟩ | ⟨hp, hmo, hm⟩ | ⟨hp, hmo, hm⟩
    · rw [hm] at h; cases h
    · rw [hm] at h; cases h
    · rw [hm] at h
      rcases finish_cases (t := { { s with logs := touched s.logs a.path } with mirror := some a.path.1 }) (bs := (s.logs a.path).getD []) hr with
        ⟨u, hu, hno, hf⟩ | ⟨asked', key, hk, hask, ⟨hc2, hf⟩ | ⟨hc2, m, hh, hf⟩ | ⟨hc2, hh, lf', hw, hf⟩⟩
      · rw [hf] at h; cases h
      · rw [hf] at h; cases h
      · rw [hf] at h; cases h
      · rw [hf] at h
        cases h
        refine ⟨n, lf, hr, hk, hask, rfl, rfl, rfl, rfl, ?_, ?_, ?_, ?_, ?_, rfl, hp⟩
        · obtain ⟨_, ho, _⟩ := Copy.openBytes_ok hr.log
          unfold pyNew
          rw [ho]
          simp only [Res.bind]
          have hkey : lf.mem.workflowKey.getD key = key := by
            obtain ⟨wk, hd⟩ := heads_of_open hr.log
            rcases hk with ⟨h, h1, h2⟩ | ⟨hno, _⟩
            · cases hm0 : lf.mem.header with
              | none => exact absurd h1 (hd.none hm0 h)
              | some h0 =>
                have e1 := (hd.all h h1).2
                have e2 := (hd.all h0 (hd.some h0 hm0)).2
                rw [e1] at e2
                simp only [LogMem.workflowKey, hm0, Option.map_some, Option.getD_some]
                rw [← h2]
                exact (Option.some.inj e2).symm
            · cases hm0 : lf.mem.header with
              | none => simp [LogMem.workflowKey, hm0]
              | some h0 => exact absurd (hd.some h0 hm0) (hno h0)
          rw [hkey]
          have hw' := hw
          unfold headerOf at hw'
          rw [hw']
        · simp only [LogFile.write, headerOf, LogMem.write, Res.bind, Res.ok.injEq] at hw
          rw [← hw]
          rfl
        · simp [touched]
        · intro q hq
          simp [touched, hq]
        · intro d
          simp

/-- What a failing constructor leaves: the lock is as before; no log is changed, but a log that was not there may have been created, empty; only if writing the header fails,
a beginning of its line may be there, behind what was there. -/
theorem failed_leaves_log (h : construct s a e = (s', ⟨asked, .error x⟩)) :
    s'.locked = s.locked ∧ (∀ q, q ≠ a.path → s'.logs q = s.logs q) ∧
    (s'.logs a.path = s.logs a.path ∨ s.logs a.path = none ∧ s'.logs a.path = some [] ∨
      ∃ m key, e.header = some m ∧ s'.logs a.path = some ((s.logs a.path).getD [] ++ (lineBytes (.header { a.header with
        version := logfileVersion
        workflowKey := key
        storageRoots := a.storageRoots.map (expandRoot key) })).take m)) := by
  have ht : ∀ logs, (logs = s.logs ∨ logs = touched s.logs a.path) → (∀ q, q ≠ a.path → logs q = s.logs q) ∧
      (logs a.path = s.logs a.path ∨ s.logs a.path = none ∧ logs a.path = some []) := by
    rintro logs (rfl | rfl)
    · exact ⟨fun _ _ => rfl, .inl rfl⟩
    · refine ⟨fun q hq => by simp [touched, hq], ?_⟩
      cases hl : s.logs a.path with
      | none => exact .inr ⟨rfl, by simp [touched, hl]⟩
      | some b => exact .inl (by simp [touched, hl])
  suffices hs : (∃ logs, (logs = s.logs ∨ logs = touched s.logs a.path) ∧ s'.locked = s.locked ∧ s'.logs = logs) ∨
      s'.locked = s.locked ∧ ∃ m key, e.header = some m ∧
        s'.logs = fun q => if q = a.path then some ((s.logs a.path).getD [] ++ (lineBytes (headerOf a key)).take m) else touched s.logs a.path q by
    rcases hs with ⟨logs, hl, h1, h2⟩ | ⟨h1, m, key, hm, h2⟩
    · have := ht logs hl
      rw [← h2] at this
      exact ⟨h1, this.1, this.2.elim .inl (fun h => .inr (.inl h))⟩
    · refine ⟨h1, fun q hq => by rw [h2]; simp [hq, touched], .inr (.inr ⟨m, key, hm, ?_⟩)⟩
      rw [h2]
      simp [headerOf]
  rcases construct_cases s a e with ⟨y, logs, hc, hl, hx, hn⟩ | ⟨n, lf, hr, hc⟩
  · rw [hc] at h
    cases h
    exact .inl ⟨logs, hl, rfl, rfl⟩
  · rw [hc] at h
    rcases mirrored_cases (t := { s with logs := touched s.logs a.path }) (bs := (s.logs a.path).getD []) hr with
      ⟨hp, hm⟩ | ⟨hp, hmo, hm⟩ | ⟨hp, hmo, hm⟩
    · rw [hm] at h; cases h; exact .inl ⟨_, .inr rfl, rfl, rfl⟩
    · rw [hm] at h; cases h; exact .inl ⟨_, .inr rfl, rfl, rfl⟩
    · rw [hm] at h
      rcases finish_cases (t := { { s with logs := touched s.logs a.path } with mirror := some a.path.1 }) (bs := (s.logs a.path).getD []) hr with
        ⟨u, hu, hno, hf⟩ | ⟨asked', key, hk, hask, ⟨hc2, hf⟩ | ⟨hc2, m, hh, hf⟩ | ⟨hc2, hh, lf', hw, hf⟩⟩
      · rw [hf] at h; cases h; exact .inl ⟨_, .inr rfl, rfl, rfl⟩
      · rw [hf] at h; cases h; exact .inl ⟨_, .inr rfl, rfl, rfl⟩
      · rw [hf] at h
        cases h
        exact .inr ⟨rfl, m, key, hh, rfl⟩
      · rw [hf] at h; cases h

/-- The second check of the version (pylib.rs:86-92) never fails. -/
theorem second_check_is_dead : (construct s a e).2.res ≠ .error .version2 := by
  rcases construct_cases s a e with ⟨x, logs, hc, _, hx, _⟩ | ⟨n, lf, hr, hc⟩
  · rw [hc]
    simpa using hx
  · rw [hc]
    rcases mirrored_cases (t := { s with logs := touched s.logs a.path }) (bs := (s.logs a.path).getD []) hr with
      ⟨hp, hm⟩ | ⟨hp, hmo, hm⟩ | ⟨hp, hmo, hm⟩
    · rw [hm]; simp
    · rw [hm]; simp
    · rw [hm]
      rcases finish_cases (t := { { s with logs := touched s.logs a.path } with mirror := some a.path.1 }) (bs := (s.logs a.path).getD []) hr with
        ⟨u, hu, hno, hf⟩ | ⟨asked', key, hk, hask, ⟨hc2, hf⟩ | ⟨hc2, m, hh, hf⟩ | ⟨hc2, hh, lf', hw, hf⟩⟩ <;> rw [hf] <;> simp

/-- Which constructors move the mirror, and which spoil it: printed lines go to the new `log.txt` also if the constructor fails afterwards (its callback raises, say); if `log.txt`
cannot be opened the mutex is poisoned. -/
theorem mirror_and_poison :
    ((∃ n lf, Reads s a e n lf) → s.poisoned = false → e.mirrorOpens = true → (construct s a e).1.mirror = some a.path.1 ∧ (construct s a e).1.poisoned = false) ∧
    ((∃ n lf, Reads s a e n lf) → e.mirrorOpens = false → (construct s a e).1.mirror = s.mirror ∧ (construct s a e).1.poisoned = true) ∧
    (¬ (∃ n lf, Reads s a e n lf) ∨ s.poisoned = true → (construct s a e).1.mirror = s.mirror ∧ (construct s a e).1.poisoned = s.poisoned) := by
  rcases construct_cases s a e with ⟨x, logs, hc, _, hx, hn⟩ | ⟨n, lf, hr, hc⟩
  · rw [hc]
    exact ⟨fun ⟨n, lf, hr⟩ => absurd hr (hn n lf), fun ⟨n, lf, hr⟩ => absurd hr (hn n lf), fun _ => ⟨rfl, rfl⟩⟩
  · rw [hc]
    rcases mirrored_cases (t := { s with logs := touched s.logs a.path }) (bs := (s.logs a.path).getD []) hr with
      ⟨hp, hm⟩ | ⟨hp, hmo, hm⟩ | ⟨hp, hmo, hm⟩
    · simp only at hp
      rw [hm]
      exact ⟨fun _ h => by (rw [hp] at h; cases h), fun _ _ => ⟨rfl, hp⟩, fun _ => ⟨rfl, rfl⟩⟩
    · simp only at hp
      rw [hm]
      exact ⟨fun _ _ h => by (rw [hmo] at h; cases h), fun _ _ => ⟨rfl, rfl⟩, fun h => h.elim (fun h => absurd ⟨n, lf, hr⟩ h) (fun h => by (rw [hp] at h; cases h))⟩
    · simp only at hp
      rw [hm]
      refine ⟨fun _ _ _ => ?_, fun _ h => by (rw [hmo] at h; cases h), fun h => h.elim (fun h => absurd ⟨n, lf, hr⟩ h) (fun h => by (rw [hp] at h; cases h))⟩
      rcases finish_cases (t := { { s with logs := touched s.logs a.path } with mirror := some a.path.1 }) (bs := (s.logs a.path).getD []) hr with
        ⟨u, hu, hno, hf⟩ | ⟨asked', key, hk, hask, ⟨hc2, hf⟩ | ⟨hc2, m, hh, hf⟩ | ⟨hc2, hh, lf', hw, hf⟩⟩ <;> rw [hf] <;> exact ⟨rfl, hp⟩

theorem poisoned_step (h : s.poisoned = true) (op : Op) : (step s op).1.poisoned = true := by
  cases op with
  | new a e => exact ((mirror_and_poison (s := s) (a := a) (e := e)).2.2 (.inr h)).2.trans h
  | drop p bs => exact h
  | print => exact h
  | flush => exact h

theorem poisoned_run (ops : List Op) : ∀ {s : Proc}, s.poisoned = true → (run s ops).1.poisoned = true := by
  induction ops with
  | nil => exact fun h => h
  | cons o ops ih => exact fun h => ih (poisoned_step h o)

/-- After a constructor that could not open its `log.txt`, whatever the process does: no constructor succeeds, for whatever log, and every print and every flush panics
(and with them every `execute`, which flushes at its end). -/
theorem poisoned_forever (hr : ∃ n lf, Reads s a e n lf) (hm : e.mirrorOpens = false) (ops : List Op) :
    (∀ a' e', ¬ ∃ g, (construct (run (construct s a e).1 ops).1 a' e').2.res = .ok g) ∧
    (step (run (construct s a e).1 ops).1 .print).2 = .panicked ∧ (step (run (construct s a e).1 ops).1 .flush).2 = .panicked := by
  have hp : (run (construct s a e).1 ops).1.poisoned = true := poisoned_run ops ((mirror_and_poison (s := s) (a := a) (e := e)).2.1 hr hm).2
  refine ⟨fun a' e' h => ?_, by simp [step, hp], by simp [step, hp]⟩
  obtain ⟨n, lf, key, _, h, _⟩ := succeeds_iff.1 h
  rw [hp] at h
  cases h

theorem run_append (ops ops' : List Op) : ∀ {s : Proc}, (run s (ops ++ ops')).1 = (run (run s ops).1 ops').1 := by
  induction ops with
  | nil => exact rfl
  | cons o ops ih => exact ih

/-- Nothing else spoils printing: it panics only if some earlier constructor of the process could not open its `log.txt`. -/
theorem print_panics_iff (ops : List Op) : (step (run init ops).1 .print).2 = .panicked ↔
    ∃ pre a e post, ops = pre ++ .new a e :: post ∧ (∃ n lf, Reads (run init pre).1 a e n lf) ∧ e.mirrorOpens = false := by
  have hiff : (step (run init ops).1 .print).2 = .panicked ↔ (run init ops).1.poisoned = true := by
    simp only [step]
    split <;> simp_all
  rw [hiff]
  constructor
  · suffices H : ∀ (ops : List Op) (pre : List Op), (run init pre).1.poisoned = false → (run init (pre ++ ops)).1.poisoned = true →
        ∃ p a e post, pre ++ ops = p ++ .new a e :: post ∧ (∃ n lf, Reads (run init p).1 a e n lf) ∧ e.mirrorOpens = false by
      exact fun h => H ops [] rfl h
    intro ops
    induction ops with
    | nil =>
      intro pre h1 h2
      rw [List.append_nil, h1] at h2
      cases h2
    | cons o ops ih =>
      intro pre h1 h2
      have hsnoc : pre ++ o :: ops = (pre ++ [o]) ++ ops := by simp
      cases hp : (run init (pre ++ [o])).1.poisoned with
      | false =>
        rw [hsnoc] at h2 ⊢
        exact ih (pre ++ [o]) hp h2
      | true =>
        rw [run_append] at hp
        cases o with
        | new a e =>
          have hp' : (construct (run init pre).1 a e).1.poisoned = true := hp
          refine ⟨pre, a, e, ops, rfl, ?_⟩
          obtain ⟨m1, m2, m3⟩ := mirror_and_poison (s := (run init pre).1) (a := a) (e := e)
          refine Classical.byContradiction fun hc => ?_
          cases hmo : e.mirrorOpens with
          | false =>
            have := (m3 (.inl fun h => hc ⟨h, hmo⟩)).2
            rw [this, h1] at hp'
            cases hp'
          | true =>
            refine Classical.byCases (p := ∃ n lf, Reads (run init pre).1 a e n lf) (fun h => ?_) (fun h => ?_)
            · rw [(m1 h h1 hmo).2] at hp'
              cases hp'
            · rw [(m3 (.inl h)).2, h1] at hp'
              cases hp'
        | drop p bs =>
          have hp' : (run init pre).1.poisoned = true := hp
          rw [h1] at hp'
          cases hp'
        | print =>
          have hp' : (run init pre).1.poisoned = true := hp
          rw [h1] at hp'
          cases hp'
        | flush =>
          have hp' : (run init pre).1.poisoned = true := hp
          rw [h1] at hp'
          cases hp'
  · rintro ⟨pre, a, e, post, rfl, hr, hm⟩
    rw [run_append]
    exact poisoned_run post ((mirror_and_poison (s := (run init pre).1) (a := a) (e := e)).2.1 hr hm).2

/-- The outcome of the constructor depends only on the bytes of its log, its lock and the mutex. -/
theorem same_outcome {t : Proc} (h1 : (s.logs a.path).getD [] = (t.logs a.path).getD []) (h2 : s.locked a.path.1 = t.locked a.path.1)
    (h3 : s.poisoned = t.poisoned) : (construct s a e).2 = (construct t a e).2 := by
  have hm : ∀ (u v : Proc) n bs lf, u.poisoned = v.poisoned → (mirrored u a e n bs lf).2 = (mirrored v a e n bs lf).2 := by
    intro u v n bs lf hp
    unfold mirrored finish
    rw [hp]
    repeat' split
    all_goals simp_all
  unfold construct
  rw [h1, h2]
  cases parallel a.numParallel e with
  | error x => rfl
  | ok n =>
    simp only [h3]
    repeat' split
    all_goals first
      | rfl
      | exact hm _ _ _ _ _ rfl

/-- A constructor that failed can be tried again: unless its header could not be written or its `log.txt` not be opened, every later constructor has the outcome it would
have had without the failed one. -/
theorem retry {a' : Args} {e' : Env} (h : construct s a e = (s', ⟨asked, .error x⟩)) (hh : e.header = none) (hm : e.mirrorOpens = true ∨ s.poisoned = true) :
    (construct s' a' e').2 = (construct s a' e').2 := by
  obtain ⟨h1, h2, h3⟩ := failed_leaves_log h
  have hp : s'.poisoned = s.poisoned := by
    obtain ⟨m1, m2, m3⟩ := mirror_and_poison (s := s) (a := a) (e := e)
    rw [h] at m1 m2 m3
    refine Classical.byCases (p := (∃ n lf, Reads s a e n lf) ∧ s.poisoned = false) (fun hc => ?_) (fun hc => ?_)
    · rcases hm with hm | hm
      · rw [(m1 hc.1 hc.2 hm).2, hc.2]
      · rw [hc.2] at hm; cases hm
    · refine (m3 ?_).2
      cases hb : s.poisoned with
      | true => exact .inr rfl
      | false => exact .inl fun hr => hc ⟨hr, hb⟩
  refine same_outcome ?_ (by rw [h1]) hp
  refine Classical.byCases (p := a'.path = a.path) (fun hq => ?_) (fun hq => by rw [h2 _ hq])
  rw [hq]
  rcases h3 with h3 | ⟨h3, h4⟩ | ⟨m, key, h3, _⟩
  · rw [h3]
  · rw [h3, h4]; rfl
  · rw [hh] at h3; cases h3

/-- While a graph is open no other is constructed in its directory, even for another log, and the attempt changes nothing. -/
theorem one_per_directory (h : construct s a e = (s', ⟨asked, .ok g⟩)) (ops : List Op) (hd : ∀ p bs, Op.drop p bs ∈ ops → p.1 ≠ a.path.1)
    {a' : Args} {e' : Env} (ha : a'.path.1 = a.path.1) :
    (∃ x, (construct (run s' ops).1 a' e').2.res = .error x) ∧ (construct (run s' ops).1 a' e').1 = (run s' ops).1 := by
  have hl : s'.locked a.path.1 = true := by
    obtain ⟨_, _, _, _, _, _, _, _, _, _, _, _, _, hl, _⟩ := what_it_makes h
    exact (hl a.path.1).2 (.inl rfl)
  have hrun : ∀ (ops : List Op) (t : Proc), t.locked a.path.1 = true → (∀ p bs, Op.drop p bs ∈ ops → p.1 ≠ a.path.1) →
      (run t ops).1.locked a.path.1 = true := by
    intro ops
    induction ops with
    | nil => exact fun t h _ => h
    | cons o ops ih =>
      intro t ht hd
      refine ih _ ?_ (fun p bs hp => hd p bs (List.mem_cons_of_mem _ hp))
      cases o with
      | new b f =>
        simp only [step]
        generalize hc : construct t b f = r
        obtain ⟨t', k, res⟩ := r
        cases res with
        | error y => rw [(failed_leaves_log hc).1]; exact ht
        | ok g' =>
          obtain ⟨_, _, _, _, _, _, _, _, _, _, _, _, _, hl, _⟩ := what_it_makes hc
          exact (hl _).2 (.inr ht)
      | drop p bs =>
        have := hd p bs List.mem_cons_self
        simp only [step]
        simp [ht, Ne.symm this]
      | print => exact ht
      | flush => exact ht
  have hk := hrun ops s' hl hd
  rw [← ha] at hk
  unfold construct
  cases parallel a'.numParallel e' with
  | error x => exact ⟨⟨x, rfl⟩, rfl⟩
  | ok n =>
    simp only [hk, Bool.or_true, if_true]
    exact ⟨⟨_, rfl⟩, trivial⟩

/-- Whatever a process constructs, closes, prints: a log changes only by a constructor for it or by the graph it belongs to. -/
theorem others_untouched {q : Path} (ops : List Op) : ∀ {s : Proc}, (∀ a e, Op.new a e ∈ ops → a.path ≠ q) → (∀ p bs, Op.drop p bs ∈ ops → p ≠ q) →
    (run s ops).1.logs q = s.logs q := by
  induction ops with
  | nil => intro s _ _; rfl
  | cons o ops ih =>
    intro s h1 h2
    refine (ih (s := (step s o).1) (fun a e h => h1 a e (List.mem_cons_of_mem _ h)) (fun p bs h => h2 p bs (List.mem_cons_of_mem _ h))).trans ?_
    cases o with
    | new a e =>
      have hne : q ≠ a.path := Ne.symm (h1 a e List.mem_cons_self)
      show (construct s a e).1.logs q = s.logs q
      rcases hc : construct s a e with ⟨s', asked, res⟩
      cases res with
      | error x => exact (failed_leaves_log hc).2.1 q hne
      | ok g =>
        obtain ⟨_, _, _, _, _, _, _, _, _, _, _, _, hl, _⟩ := what_it_makes hc
        exact hl q hne
    | drop p bs =>
      have hne : q ≠ p := Ne.symm (h2 p bs List.mem_cons_self)
      show (if q = p then some bs else s.logs q) = s.logs q
      rw [if_neg hne]
    | print => rfl
    | flush => rfl

/-- Once the graph is closed the directory is free, and the next constructor reads what the graph left: on a machine where nothing fails it succeeds exactly if these
bytes are a log that can be read, there is a key for it, and the mirror is not spoilt. -/
theorem reopen {p : Path} {bs : List UInt8} (ha : a.path = p) (hn : 0 ≤ a.numParallel) (he : e = Env.good) :
    (∃ g, (construct (step s (.drop p bs)).1 a e).2.res = .ok g) ↔
      s.poisoned = false ∧ ∃ lf key, openBytes bs p.1 = .ok lf ∧ KeyOf lf a key := by
  subst ha he
  rw [succeeds_iff]
  constructor
  · rintro ⟨n, lf, key, hr, hp, _, hk, _⟩
    have := hr.log
    simp only [step, if_true, Option.getD_some] at this
    exact ⟨hp, lf, key, this, hk⟩
  · rintro ⟨hp, lf, key, ho, hk⟩
    exact ⟨a.numParallel.toNat, lf, key, ⟨.inl ⟨hn, rfl⟩, ⟨rfl, by simp [step]⟩, ⟨rfl, rfl, rfl, rfl, rfl, rfl⟩, by simpa [step] using ho⟩, hp, rfl, hk, rfl, rfl⟩

/-! ## Demonstration -/

/-- Short of a spoilt process, a `log.txt` that cannot be opened, arguments that are not Unicode and a log whose entries are out of order, a constructor that fails raises an ordinary
exception: it does not panic. -/
theorem no_panic (hp : s.poisoned = false) (hm : e.mirrorOpens = true) (hu : e.argsUnicode = true)
    (hl : ∀ m, openBytes ((s.logs a.path).getD []) a.path.1 ≠ .panic m) : (construct s a e).2.res ≠ .error .panic := by
  rcases construct_cases s a e with ⟨_, _, _, _, _, hn⟩ | ⟨n, lf, hr, hc⟩
  · unfold construct
    cases hpar : parallel a.numParallel e with
    | error x =>
      have : x = .cores := by
        unfold parallel at hpar
        split at hpar
        · split at hpar
          · split at hpar <;> cases hpar
            rfl
          · cases hpar
            rfl
        · cases hpar
      simp [this]
    | ok n =>
      simp only [hu, Bool.not_true, Bool.false_eq_true, if_false]
      split
      · simp
      · rename_i hl1
        split
        · simp
        · rename_i hl2
          split
          · simp
          · rename_i hl3
            cases ho : openBytes ((s.logs a.path).getD []) a.path.1 with
            | err x =>
              simp only [readExc, hp]
              split <;> simp
            | panic m => exact absurd ho (hl m)
            | ok lf =>
              simp only
              split
              · simp
              · rename_i hl4
                simp only [Bool.or_eq_true, Bool.not_eq_true', not_or, Bool.not_eq_false] at hl1 hl2 hl3 hl4
                exact absurd ⟨parallel_ok.1 hpar, ⟨hl1.1, by simpa using hl1.2⟩, ⟨hu, hl2.1.1, hl2.1.2, hl2.2, hl3, hl4⟩, ho⟩ (hn n lf)
  · rw [hc]
    rcases mirrored_cases (t := { s with logs := touched s.logs a.path }) (bs := (s.logs a.path).getD []) hr with ⟨h, _⟩ | ⟨_, h, _⟩ | ⟨_, _, h⟩
    · rw [show _ = s.poisoned from rfl, hp] at h; cases h
    · rw [hm] at h; cases h
    · rw [h]
      rcases finish_cases (t := { { s with logs := touched s.logs a.path } with mirror := some a.path.1 }) (bs := (s.logs a.path).getD []) hr with
        ⟨u, _, _, hf⟩ | ⟨asked, key, _, _, ⟨_, hf⟩ | ⟨_, m, _, hf⟩ | ⟨_, _, lf', _, hf⟩⟩ <;> rw [hf] <;> simp

/-- A constructor for a log. -/
def demoArgs (dir name : String) (fn : Option (Except Nat String)) : Args :=
  ⟨(dir, name), -1, ["$KEY"], 0, fn, true, ⟨0, ⟨0, 0⟩, "u", "h", "", [], "/", 1, []⟩⟩

/-- What a list of constructors does: the outcomes, and whether the mirror is spoilt. -/
def demoRun (ops : List Op) : List (Bool × Option Exc × Option String) × Option String × Bool :=
  ((run init ops).2.map (fun o => match o with
    | .new ⟨b, .ok g⟩ => (b, none, some g.key)
    | .new ⟨b, .error x⟩ => (b, some x, none)
    | .done => (false, none, none)
    | .panicked => (false, some .panic, none)), (run init ops).1.mirror, (run init ops).1.poisoned)

/-- The callback raises, which moves the mirror; the second attempt succeeds; another log in the same directory is refused; then `log.txt` of another directory cannot be
opened, after which printing and a constructor in a third directory panic. -/
theorem demo : demoRun [.new (demoArgs "/w" "wf.log" (some (.error 7))) .good, .new (demoArgs "/w" "wf.log" (some (.ok "k1"))) .good, .print,
      .new (demoArgs "/w" "other.log" none) .good,
      .new (demoArgs "/x" "wf.log" (some (.ok "k2"))) { Env.good with mirrorOpens := false }, .print, .new (demoArgs "/y" "wf.log" none) .good] =
    ([(true, some (.user 7), none), (true, none, some "k1"), (false, none, none), (false, some .io, none), (false, some .panic, none),
      (false, some .panic, none), (false, some .panic, none)], some "/w", true) := by
  decide +kernel

/-- Non-trivial case of `no_panic`: a log with a line that is no entry. -/
example : (match openBytes [0x78, 0x0A] "/w" with | .err x => decide (x = .log .json) | _ => false) = true ∧
    (demoRun [.new (demoArgs "/w" "wf.log" none) .good, .drop ("/w", "wf.log") [0x78, 0x0A], .new (demoArgs "/w" "wf.log" none) .good]).1 =
    [(false, none, some "default-key-value"), (false, none, none), (false, some .io, none)] :=
  ⟨by decide +kernel, by decide +kernel⟩

/-- Non-trivial case of `others_untouched` and `reopen`: a graph is closed leaving the header it has written, another log in the same directory is constructed, then the first again:
its key comes from the log. -/
example : let h : LogEntry := .header ⟨4, ⟨0, 0⟩, "u", "h", "k1", [], "/", 1, ["k1"]⟩
    (demoRun [.new (demoArgs "/w" "wf.log" (some (.ok "k1"))) .good, .drop ("/w", "wf.log") (lineBytes h), .new (demoArgs "/w" "other.log" none) .good,
      .drop ("/w", "other.log") [], .new (demoArgs "/w" "wf.log" (some (.ok "k2"))) .good]).1 =
    [(true, none, some "k1"), (false, none, none), (false, none, some "default-key-value"), (false, none, none), (false, none, some "k1")] := by
  decide +kernel

end Verif.Props.Construct
