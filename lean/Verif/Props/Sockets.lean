import Verif.Proof.Sockets

/-!
# The socket files of the admin servers (C129-C132)

`Runs nd ok init as s`: sessions, cleaners and others have used the directory; `ok` restricts what has happened. `nd` says which characters are
digits for Unicode; `Digits nd`: on ASCII it is what one thinks.
-/

namespace Verif.Props.Sockets
open Verif Verif.Sockets

variable {nd : Char → Bool} {s s' : State} {as : List Act}

/-- The hypothesis on `nd` can be met, with and without a digit beyond ASCII. -/
example : Digits Json.isDigit ∧ Digits (fun c => Json.isDigit c || c == '٣') := by
  refine ⟨⟨fun _ _ => rfl⟩, ⟨fun c h => ?_⟩⟩
  have : (c == '٣') = false := by
    rw [beq_eq_false_iff_ne]
    intro e
    rw [e] at h
    exact absurd h (by decide)
  simp [this]

/-! ### names -/

/-- C129: a cleaner reads from the name of a session's file the number of the process that is in it. -/
theorem name_round_trip (hd : Digits nd) {p : Nat} (hp : p < 2 ^ 22) :
    ∃ ds, capture nd (sockName p) = some ds ∧ parsePid ds = some p ∧ toPid p = p :=
  ⟨_, capture_sockName hd p, parsePid_decimal (Nat.lt_trans hp (by decide)), Nat.mod_eq_of_lt (Nat.lt_trans hp (by decide))⟩

/-- C129: different processes have different names. -/
theorem name_injective {p q : Nat} (h : sockName p = sockName q) : p = q := sockName_inj h

/-- C129: a cleaner takes an interest in exactly those names that contain `wrk-`, at least one digit, one more character and `sock`, and what it
takes for the number are such digits. -/
theorem name_match (name : List Char) : (capture nd name ≠ none ↔ ∃ ds, Looks nd name ds) ∧
    (∀ ds, capture nd name = some ds → Looks nd name ds) := by
  refine ⟨⟨?_, ?_⟩, fun _ h => capture_some h⟩
  · intro h
    cases hc : capture nd name with
    | none => exact absurd hc h
    | some ds => exact ⟨ds, capture_some hc⟩
  · rintro ⟨ds, h⟩ e
    obtain ⟨_, h'⟩ := capture_isSome h
    rw [e] at h'; cases h'

/-- Non-trivial cases: the name of a session; a name with more around it; a digit in place of the dot; no name of a session. -/
example : sockName 4711 = "wrk-4711.sock".toList ∧ capture Json.isDigit "wrk-4711.sock".toList = some "4711".toList ∧
    capture Json.isDigit "teamwrk-8080-socket".toList = some "8080".toList ∧ capture Json.isDigit "wrk-123sock".toList = some "12".toList ∧
    capture Json.isDigit "wrk-.sock".toList = none := by decide +kernel

/-! ### reaching a session -/

/-- C130: as long as there is one machine, one session at a time in each process, nobody else touches the files, and no number of a process is given
away between a cleaner's look and its removal, every session that is served can be reached under the number of its process, and no
session panics over its socket file. -/
theorem reachable_partial (hd : Digits nd) (hr : Runs nd calm init as s) :
    (∀ i x, s.sess[i]? = some x → x.st = .serving → Reachable s i) ∧ ∀ x ∈ s.sess, x.st ≠ .panicked := by
  have hi := hr.inv hd
  refine ⟨?_, ?_⟩
  · intro i x hx hst
    have hm := hi.serve i x hx hst
    refine ⟨x, hx, hm, ?_⟩
    intro e he hn
    rw [hi.uniq.eq he hm hn]
  · intro x hx
    obtain ⟨i, h⟩ := List.getElem?_of_mem hx
    exact hi.fine i x h

/-- Three processes; the first is killed, the cleaner of the third removes its file; the second ends as it should. -/
def story : List Act :=
  [.spawn 0 11, .spawn 0 12, .start 0 11, .bind 0, .start 0 12, .bind 1, .die 0 11, .spawn 0 13, .start 0 13, .bind 2, .list 2, .look 2,
    .remove 2, .finish 1, .look 2, .look 2, .look 2, .spawn 0 11, .start 0 11, .bind 3]

/-- Non-trivial case: after `story` two sessions are served, one of them with the number of the killed process. -/
example : ∃ s, Runs Json.isDigit calm init story s ∧ s.sess.map (·.st) = [.killed, .over, .serving, .serving] ∧
    s.dir.map (·.name) = [sockName 13, sockName 11] := by
  refine ⟨_, runs_of_checks (okb := fun s a => oneBoxB a && oneSessionB s a && noForeignB a && noReuseB s a) ⟨fun _ _ => rfl⟩ ?_
    (by decide +kernel) (s' := ⟨[(0, 11), (0, 13), (0, 12)], [⟨sockName 13, true, some 2⟩, ⟨sockName 11, true, some 3⟩],
      [⟨0, 11, .killed⟩, ⟨0, 12, .over⟩, ⟨0, 13, .serving⟩, ⟨0, 11, .serving⟩],
      [⟨0, .ready⟩, ⟨0, .ready⟩, ⟨0, .finished⟩, ⟨0, .ready⟩]⟩) (by decide +kernel) (by decide +kernel), by decide +kernel, by decide +kernel⟩
  intro s a h
  simp only [Bool.and_eq_true] at h
  exact ⟨oneBox_of h.1.1.1, oneSession_of h.1.1.2, noForeign_of h.1.2, noReuse_of h.2⟩

/-- C130, first violation: a process that gets the number of a killed one while a cleaner is about to remove the old file may lose its own
file; its session cannot be reached and panics in the end. -/
theorem pid_reuse_violated (hd : Digits nd) : ∃ as s s', Runs nd (fun s a => oneBox s a ∧ oneSession s a ∧ noForeign s a) init as s ∧
    s.sess[2]? = some ⟨0, 11, .serving⟩ ∧ ¬ Reachable s 2 ∧ step nd s (.finish 2) = .ok s' ∧ s'.sess[2]? = some ⟨0, 11, .panicked⟩ := by
  have h := runs_of_checks (nd := nd) hd (ok := fun s a => oneBox s a ∧ oneSession s a ∧ noForeign s a)
    (okb := fun s a => oneBoxB a && oneSessionB s a && noForeignB a)
    (by
      intro s a h
      simp only [Bool.and_eq_true] at h
      exact ⟨oneBox_of h.1.1, oneSession_of h.1.2, noForeign_of h.2⟩)
    (as := [.spawn 0 11, .spawn 0 12, .start 0 11, .bind 0, .start 0 12, .bind 1, .die 0 11, .list 1, .look 1, .spawn 0 11, .start 0 11, .bind 2,
      .remove 1])
    (s' := ⟨[(0, 11), (0, 12)], [⟨sockName 12, true, some 1⟩], [⟨0, 11, .killed⟩, ⟨0, 12, .serving⟩, ⟨0, 11, .serving⟩],
      [⟨0, .ready⟩, ⟨0, .scanning [⟨sockName 12, true, some 1⟩]⟩, ⟨0, .ready⟩]⟩)
    (by decide) (by decide +kernel) (by decide +kernel)
  refine ⟨_, _, ⟨[(0, 11), (0, 12)], [⟨sockName 12, true, some 1⟩], [⟨0, 11, .killed⟩, ⟨0, 12, .serving⟩, ⟨0, 11, .panicked⟩],
      [⟨0, .ready⟩, ⟨0, .scanning [⟨sockName 12, true, some 1⟩]⟩, ⟨0, .ready⟩]⟩, h, rfl, ?_, ?_, rfl⟩
  · rintro ⟨x, hx, hm, _⟩
    exact absurd (congrArg Entry.owner (List.mem_singleton.1 hm)) (by simp)
  · simp only [step]
    have : has [(⟨sockName 12, true, some 1⟩ : Entry)] (sockName 11) = false := by decide +kernel
    simp [this]

/-- C130, second violation: two sessions in one process (`execute` lets other Python threads run) share a path. The second takes the first
one's file away; when the first ends, it removes the second one's file, and the second panics in the end. -/
theorem two_sessions_violated (hd : Digits nd) : ∃ as s s', Runs nd (fun s a => oneBox s a ∧ noForeign s a ∧ noReuse s a) init as s ∧
    s.sess[0]? = some ⟨0, 11, .serving⟩ ∧ ¬ Reachable s 0 ∧ Runs nd (fun s a => oneBox s a ∧ noForeign s a ∧ noReuse s a) s [.finish 0, .finish 1] s' ∧
    s'.sess = [⟨0, 11, .over⟩, ⟨0, 11, .panicked⟩] := by
  have hb : ∀ s a, (oneBoxB a && noForeignB a && noReuseB s a) = true → oneBox s a ∧ noForeign s a ∧ noReuse s a := by
    intro s a h
    simp only [Bool.and_eq_true] at h
    exact ⟨oneBox_of h.1.1, noForeign_of h.1.2, noReuse_of h.2⟩
  have h := runs_of_checks (nd := nd) hd hb
    (as := [.spawn 0 11, .start 0 11, .bind 0, .start 0 11, .bind 1])
    (s' := ⟨[(0, 11)], [⟨sockName 11, true, some 1⟩], [⟨0, 11, .serving⟩, ⟨0, 11, .serving⟩], [⟨0, .ready⟩, ⟨0, .ready⟩]⟩)
    (by decide) (by decide +kernel) (by decide +kernel)
  refine ⟨_, _, ⟨[(0, 11)], [], [⟨0, 11, .over⟩, ⟨0, 11, .panicked⟩], [⟨0, .ready⟩, ⟨0, .ready⟩]⟩, h, rfl, ?_, ?_, rfl⟩
  · rintro ⟨x, hx, hm, _⟩
    exact absurd (congrArg Entry.owner (List.mem_singleton.1 hm)) (by simp)
  · have h1 : step nd ⟨[(0, 11)], [⟨sockName 11, true, some 1⟩], [⟨0, 11, .serving⟩, ⟨0, 11, .serving⟩], [⟨0, .ready⟩, ⟨0, .ready⟩]⟩ (.finish 0) =
        .ok ⟨[(0, 11)], [], [⟨0, 11, .over⟩, ⟨0, 11, .serving⟩], [⟨0, .ready⟩, ⟨0, .ready⟩]⟩ := by
      simp [step, has, unlink]
    have h2 : step nd ⟨[(0, 11)], [], [⟨0, 11, .over⟩, ⟨0, 11, .serving⟩], [⟨0, .ready⟩, ⟨0, .ready⟩]⟩ (.finish 1) =
        .ok ⟨[(0, 11)], [], [⟨0, 11, .over⟩, ⟨0, 11, .panicked⟩], [⟨0, .ready⟩, ⟨0, .ready⟩]⟩ := by
      simp [step, has]
    exact .snoc (.snoc (.nil _) ⟨trivial, trivial, trivial⟩ h1) ⟨trivial, trivial, trivial⟩ h2

/-- C130, third violation: if the directory is shared by two machines (`/scratch/slurm/...`), a cleaner on one removes the files of the
other one's sessions. -/
theorem two_machines_violated (hd : Digits nd) : ∃ as s, Runs nd (fun s a => oneSession s a ∧ noForeign s a ∧ noReuse s a) init as s ∧
    s.sess[0]? = some ⟨0, 11, .serving⟩ ∧ (0, 11) ∈ s.procs ∧ ¬ Reachable s 0 := by
  have h := runs_of_checks (nd := nd) hd (ok := fun s a => oneSession s a ∧ noForeign s a ∧ noReuse s a)
    (okb := fun s a => oneSessionB s a && noForeignB a && noReuseB s a)
    (by
      intro s a h
      simp only [Bool.and_eq_true] at h
      exact ⟨oneSession_of h.1.1, noForeign_of h.1.2, noReuse_of h.2⟩)
    (as := [.spawn 0 11, .spawn 1 12, .start 0 11, .bind 0, .start 1 12, .bind 1, .list 1, .look 1, .remove 1])
    (s' := ⟨[(1, 12), (0, 11)], [⟨sockName 12, true, some 1⟩], [⟨0, 11, .serving⟩, ⟨1, 12, .serving⟩],
      [⟨0, .ready⟩, ⟨1, .scanning [⟨sockName 12, true, some 1⟩]⟩]⟩)
    (by decide) (by decide +kernel) (by decide +kernel)
  refine ⟨_, _, h, rfl, by decide, ?_⟩
  rintro ⟨x, hx, hm, _⟩
  exact absurd (congrArg Entry.owner (List.mem_singleton.1 hm)) (by simp)

/-! ### what a cleaner removes -/

/-- C131: whatever goes on, a file that a cleaner removes has a name with a number `n` as in the names of sessions; there was a socket of that name
before, and since then there was a moment without process `n` on the cleaner's machine. -/
theorem removes_only {c : Nat} {e : Entry} (hr : Runs nd anything init as s) (hs : step nd s (.remove c) = .ok s') (he : e ∈ s.dir)
    (hg : e ∉ s'.dir) :
    ∃ ds b, Looks nd e.name ds ∧ (∀ x ∈ ds, Json.isDigit x = true) ∧ s.cleaners[c]?.map (·.box) = some b ∧
      (∃ as1 as2 s1, as = as1 ++ as2 ∧ Runs nd anything init as1 s1 ∧ ∃ e1 ∈ s1.dir, e1.name = e.name ∧ e1.socket = true) ∧
      (∃ as1 as2 s1, as = as1 ++ as2 ∧ Runs nd anything init as1 s1 ∧ (b, toPid (Json.ofDigits ds)) ∉ s1.procs) := by
  simp only [step] at hs
  split at hs
  · rename_i b name todo hcl
    obtain ⟨⟨h1, ds, n, h2, h3, h4⟩, _⟩ := (seen hr).doom c b name todo hcl
    have hn : e.name = name := by
      split at hs
      · simp only [Res.ok.injEq] at hs; subst hs
        refine Classical.byContradiction fun hne => hg (mem_unlink.2 ⟨he, hne⟩)
      · simp only [Res.ok.injEq] at hs; subst hs
        exact absurd he hg
    subst hn
    unfold parsePid at h3
    split at h3
    · rename_i hc
      simp only [Bool.and_eq_true, List.all_eq_true] at hc
      cases h3
      exact ⟨ds, b, capture_some h2, hc.1, by rw [hcl]; rfl, h1, h4⟩
    · cases h3
  · cases hs

/-- C131, the violation: it need not be the file of a session. A socket of somebody else is removed if its name contains something similar. -/
theorem foreign_socket_violated (hd : Digits nd) : ∃ as s, Runs nd anything init as s ∧ Act.create "teamwrk-8080-socket".toList true ∈ as ∧
    (∀ a ∈ as, ∀ n, a ≠ .delete n) ∧ (∀ p, "teamwrk-8080-socket".toList ≠ sockName p) ∧ ∀ e ∈ s.dir, e.name ≠ "teamwrk-8080-socket".toList := by
  have h := runs_of_replay' (nd := nd) hd
    (as := [.create "teamwrk-8080-socket".toList true, .spawn 0 11, .start 0 11, .bind 0, .list 0, .look 0, .remove 0])
    (s' := ⟨[(0, 11)], [⟨sockName 11, true, some 0⟩], [⟨0, 11, .serving⟩], [⟨0, .scanning [⟨sockName 11, true, some 0⟩]⟩]⟩)
    (by decide) (by decide +kernel)
  refine ⟨_, _, h, by simp, by intro a ha n e; subst e; simp at ha, ?_, ?_⟩
  · intro p e
    have := congrArg List.head? e
    have h2 : (sockName p).head? = some 'w' := rfl
    rw [h2] at this
    exact absurd this (by decide)
  · intro e he
    rw [List.mem_singleton.1 he]
    intro e
    have := congrArg List.head? e
    have h2 : (sockName 11).head? = some 'w' := rfl
    rw [h2] at this
    exact absurd this (by decide)

/-! ### a whole pass -/

/-- C132: a cleaner that is left alone comes to an end. If it does so normally, exactly the files of processes that are gone are gone, and no
file it would panic on was there; else it has panicked, at the first such file, and has removed exactly the stale files before that. -/
theorem pass {c b : Nat} (hr : Runs nd anything init as s) (hc : s.cleaners[c]? = some ⟨b, .ready⟩) :
    (∃ bs s' st, Runs nd (alone c) s bs s' ∧ s'.cleaners[c]? = some ⟨b, st⟩ ∧ (st = .finished ∨ st = .panicked)) ∧
    (∀ bs s', Runs nd (alone c) s bs s' → s'.cleaners[c]? = some ⟨b, .finished⟩ →
      s'.dir = s.dir.filter (fun e => !stale nd s b e) ∧ ∀ e ∈ s.dir, bad nd e = false) ∧
    (∀ bs s', Runs nd (alone c) s bs s' → s'.cleaners[c]? = some ⟨b, .panicked⟩ →
      ∃ l e r, s.dir = l ++ e :: r ∧ (∀ x ∈ l, bad nd x = false) ∧ bad nd e = true ∧
        s'.dir = l.filter (fun e => !stale nd s b e) ++ e :: r) := by
  have hu := uniq_runs hr
  refine ⟨alone_ends hu hc _ [] s .ready (Nat.le_refl _) (.nil s) hc, ?_, ?_⟩
  · intro bs s' hr' hf
    obtain ⟨_, st, h2, h3⟩ := alone_runs hu hc hr'
    rw [hf] at h2; cases h2
    exact h3
  · intro bs s' hr' hf
    obtain ⟨_, st, h2, h3⟩ := alone_runs hu hc hr'
    rw [hf] at h2; cases h2
    obtain ⟨l, e, r, h4, h5, h6, h7⟩ := h3
    exact ⟨l, e, r, h4, h6, h7, h5⟩

/-- C132: so, if no such file is there, a pass leaves no socket of a process that is gone, and leaves the sockets of running processes and all
files that are no sockets. -/
theorem pass_partial {c b : Nat} (hd : Digits nd) (hr : Runs nd anything init as s) (hc : s.cleaners[c]? = some ⟨b, .ready⟩)
    (hb : ∀ e ∈ s.dir, bad nd e = false) : ∃ bs s', Runs nd (alone c) s bs s' ∧ s'.cleaners[c]? = some ⟨b, .finished⟩ ∧
      (∀ e ∈ s'.dir, e ∈ s.dir) ∧ (∀ e ∈ s.dir, e.socket = false → e ∈ s'.dir) ∧
      ∀ e ∈ s.dir, ∀ p, p < 2 ^ 22 → e.name = sockName p → e.socket = true → (e ∈ s'.dir ↔ (b, p) ∈ s.procs) := by
  obtain ⟨⟨bs, s', st, h1, h2, h3⟩, h4, h5⟩ := pass hr hc
  have hfin : st = .finished := by
    rcases h3 with h3 | h3
    · exact h3
    · subst h3
      obtain ⟨l, e, r, h6, _, h7, _⟩ := h5 bs s' h1 h2
      rw [hb e (by rw [h6]; simp)] at h7; cases h7
  subst hfin
  obtain ⟨h6, _⟩ := h4 bs s' h1 h2
  refine ⟨bs, s', h1, h2, ?_, ?_, ?_⟩
  · intro e he; rw [h6] at he; exact (List.mem_filter.1 he).1
  · intro e he hk
    rw [h6]
    exact List.mem_filter.2 ⟨he, by simp [stale, hk]⟩
  · intro e he p hp hn hk
    rw [h6, List.mem_filter]
    obtain ⟨ds, g1, g2, g3⟩ := name_round_trip hd hp
    have hst : stale nd s b e = !running s b p := by simp [stale, hk, hn, g1, g2, g3]
    rw [hst, Bool.not_not, running_iff]
    exact ⟨fun h => h.2, fun h => ⟨he, h⟩⟩

/-- A process is killed; a regular file and another session are there. -/
def killed : List Act :=
  [.spawn 0 11, .start 0 11, .bind 0, .die 0 11, .create "wrk-99.sock".toList false, .spawn 0 12, .start 0 12, .bind 1]

/-- Non-trivial case: the hypotheses are met after `killed`, and the pass removes one file of three. -/
example : ∃ s, Runs Json.isDigit anything init killed s ∧ s.cleaners[1]? = some ⟨0, .ready⟩ ∧ (∀ e ∈ s.dir, bad Json.isDigit e = false) ∧
    s.dir.map (·.name) = [sockName 11, sockName 99, sockName 12] ∧
    (s.dir.filter (fun e => !stale Json.isDigit s 0 e)).map (·.name) = [sockName 99, sockName 12] := by
  refine ⟨_, runs_of_replay' ⟨fun _ _ => rfl⟩ (by decide +kernel) (s' := ⟨[(0, 12)],
    [⟨sockName 11, true, some 0⟩, ⟨sockName 99, false, none⟩, ⟨sockName 12, true, some 1⟩], [⟨0, 11, .killed⟩, ⟨0, 12, .serving⟩],
    [⟨0, .ready⟩, ⟨0, .ready⟩]⟩) (by decide +kernel), rfl, by decide +kernel, rfl, by decide +kernel⟩

/-- C132, the violation: one socket with too large a number in its name, and no pass of any cleaner gets behind it: the socket of a
process that is gone stays. -/
theorem pass_stops_violated (hd : Digits nd) : ∃ as s, Runs nd anything init as s ∧ s.cleaners[1]? = some ⟨0, .ready⟩ ∧ (0, 11) ∉ s.procs ∧
    ∃ e ∈ s.dir, e.name = sockName 11 ∧ e.socket = true ∧ ∀ bs s', Runs nd (alone 1) s bs s' → e ∈ s'.dir := by
  have h := runs_of_replay' (nd := nd) hd
    (as := [.create "wrk-18446744073709551616.sock".toList true, .spawn 0 11, .start 0 11, .bind 0, .die 0 11, .spawn 0 12, .start 0 12, .bind 1])
    (s' := ⟨[(0, 12)], [⟨"wrk-18446744073709551616.sock".toList, true, none⟩, ⟨sockName 11, true, some 0⟩, ⟨sockName 12, true, some 1⟩],
      [⟨0, 11, .killed⟩, ⟨0, 12, .serving⟩], [⟨0, .ready⟩, ⟨0, .ready⟩]⟩) (by decide +kernel) (by decide +kernel)
  refine ⟨_, _, h, rfl, by decide, ⟨sockName 11, true, some 0⟩, by simp, rfl, rfl, ?_⟩
  intro bs s' hr'
  have hbad : bad nd ⟨"wrk-18446744073709551616.sock".toList, true, none⟩ = true := by
    have : capture nd "wrk-18446744073709551616.sock".toList = capture Json.isDigit "wrk-18446744073709551616.sock".toList :=
      capture_congr fun x hx => hd.ascii x ((by decide +kernel : Ascii "wrk-18446744073709551616.sock".toList) x hx)
    unfold bad
    rw [this]
    decide +kernel
  obtain ⟨_, st, _, h3⟩ := alone_runs (uniq_runs h) rfl hr'
  have first : ∀ {l t : List Entry}, (⟨"wrk-18446744073709551616.sock".toList, true, none⟩ :: ⟨sockName 11, true, some 0⟩ :: [⟨sockName 12, true, some 1⟩] : List Entry) =
      l ++ t → (∀ e ∈ l, bad nd e = false) → l = [] := by
    intro l t e hl
    cases l with
    | nil => rfl
    | cons x l =>
      simp only [List.cons_append, List.cons.injEq] at e
      have := hl x (by simp)
      rw [← e.1, hbad] at this
      cases this
  cases st with
  | ready => rw [show s'.dir = _ from h3]; simp
  | scanning todo =>
    obtain ⟨l, h4, h5, h6⟩ := h3
    have := first h4 h6
    subst this
    rw [h5, show todo = _ from h4.symm]
    simp [keep]
  | doomed n todo =>
    obtain ⟨l, e, h4, h5, h6, _⟩ := h3
    have := first h4 h6
    subst this
    rw [h5, show e :: todo = _ from h4.symm]
    simp [keep]
  | finished =>
    have := h3.2 ⟨"wrk-18446744073709551616.sock".toList, true, none⟩ (by simp)
    rw [hbad] at this; cases this
  | failed => exact absurd h3 id
  | panicked =>
    obtain ⟨l, e, todo, h4, h5, h6, _⟩ := h3
    have := first h4 h6
    subst this
    rw [h5, show e :: todo = _ from h4.symm]
    simp [keep]

end Verif.Props.Sockets
