import Verif.Proof.Lifetime
import Verif.Props.System

/-!
# The lifetime of the tracker (C145)

`Runs c (init c lf now) as s`: an `execute` call with everything it spawns, to its return or panic (`unwind`) and beyond, until the runtime is dropped.
Clients may send any requests. `s.dangling`: a spawned task has used the tracker or a command after `execute` was gone.
-/

namespace Verif.Props.Lifetime
open Verif Verif.Tracker Verif.Lifetime
open Verif.Props.System (job local2 serve2 handOut loopRun req)
open Verif.Props.Tracker (t0)

variable {c : Sys.Cfg} {lf : LogFile} {now : Int} {as : List Lifetime.Act} {s : Lifetime.State}

/-- **C145 (return).** When `execute` has returned all spawned tasks have ended, nothing can be done any more in which the tracker would be used, and
nothing was: the extended lifetimes did no harm, whatever the clients have sent. -/
theorem return_is_safe (hr : Lifetime.Runs c (Lifetime.init c lf now) as s) (hf : s.frame = .returned) :
    TasksEnded s.sys ∧ s.dangling = false ∧ ∀ a, uses a = true → ∀ s', Lifetime.step c s (.sys a) ≠ .ok s' := by
  obtain ⟨hp, hd⟩ := (frameInv_runs hr).returned hf
  have hq := joinInv_runs hr hp
  refine ⟨hq.quit, hd, fun a hu s' hs => ?_⟩
  simp only [Lifetime.step] at hs
  split at hs
  · cases hs
  · obtain ⟨t, ht, _⟩ := Res.bind_ok.1 hs
    exact quiet_no_use hq hp hu ht

/-- **C145 (the end of `execute`).** After `execute` has returned or panicked nothing of it goes on: no event is handled, nothing is handed out, no shutdown is
seen, nothing is drained and nobody is joined. Only the spawned tasks, and people outside, do something. -/
theorem execute_is_over (hf : s.frame ≠ .active) (s' : Lifetime.State) (roots order : List Nat) (t : SysTime) :
    Lifetime.step c s (.sys (.server (.begin roots t))) ≠ .ok s' ∧ Lifetime.step c s (.sys (.server .sendNext)) ≠ .ok s' ∧
    Lifetime.step c s (.sys (.server (.sendDone t))) ≠ .ok s' ∧ Lifetime.step c s (.sys (.server (.recvStarted t))) ≠ .ok s' ∧
    Lifetime.step c s (.sys (.server (.recvFinished order t))) ≠ .ok s' ∧ Lifetime.step c s (.sys (.server .seeTrigger)) ≠ .ok s' ∧
    Lifetime.step c s (.sys (.server .seeHard)) ≠ .ok s' ∧ Lifetime.step c s (.sys (.server .ctrlC)) ≠ .ok s' ∧
    Lifetime.step c s (.sys (.server (.drain order t))) ≠ .ok s' ∧ Lifetime.step c s (.sys .joinDone) ≠ .ok s' := by
  simp [Lifetime.step, byExecute, hf]

/-- **C145 (only if).** The tracker or a command is used after its end only if `execute` has panicked before `join_all` had returned, that is, in
`background_serve`. In particular a panic or an error of `drain` is harmless. -/
theorem dangling_only_if (hr : Lifetime.Runs c (Lifetime.init c lf now) as s) (hd : s.dangling = true) :
    ∃ as1 s1 as2, as = as1 ++ .unwind :: as2 ∧ Lifetime.Runs c (Lifetime.init c lf now) as1 s1 ∧ s1.frame = .active ∧
      s1.sys.tr.pc ≠ .joined ∧ s1.sys.tr.pc ≠ .done := by
  have hi := frameInv_runs hr
  cases hf : s.frame with
  | active => rw [hi.active hf] at hd; cases hd
  | returned => rw [(hi.returned hf).2] at hd; cases hd
  | unwound =>
    rcases hi.unwound hf with ⟨_, h⟩ | ⟨as1, s1, as2, e, h1, h2, h3⟩
    · rw [h] at hd; cases hd
    · refine ⟨as1, s1, as2, e, h1, ?_, h2, h3⟩
      rw [e] at hr
      obtain ⟨s2, hr1, hr2⟩ := runs_append.1 hr
      rw [runs_det h1 hr1]
      cases hr2 with
      | cons hs _ =>
        simp only [Lifetime.step] at hs
        split at hs
        · rename_i hc; exact hc.1
        · cases hs

/-- **C145 (violated), in general: local loops.** Whenever `execute` panics while a local loop waits for its process, the loop may report the end
of the process to a tracker that is gone, before the runtime is dropped. -/
theorem dangling_loop_violated (hr : Lifetime.Runs c (Lifetime.init c lf now) as s) (hf : s.frame = .active) (hrt : s.runtime = true)
    {i v : Nat} {start : Int} (hl : s.sys.loops[i]? = some (.running v start)) (code : Int) (values : List (List (String × String))) :
    ∃ s', Lifetime.Runs c (Lifetime.init c lf now) (as ++ [.unwind, .sys (.loopOutput i code values), .sys (.loopReport i)]) s' ∧ s'.dangling = true := by
  have hpc : ¬ (s.sys.tr.pc = .joined ∨ s.sys.tr.pc = .done) := by
    intro hp
    have := List.all_eq_true.1 (joinInv_runs hr hp).quit.1 _ (List.mem_of_getElem? hl)
    simp at this
  have hlt : i < s.sys.loops.length := (List.getElem?_eq_some_iff.1 hl).1
  have hlive : live s.sys.tr = true := by
    unfold live
    simp only [not_or] at hpc
    simp [hpc.1, hpc.2]
  have h1 : Lifetime.step c s .unwind = .ok { s with frame := .unwound } := by
    simp only [Lifetime.step]
    rw [if_pos ⟨hf, fun h => hpc (.inr h)⟩]
  have h2 : Lifetime.step c { s with frame := .unwound } (.sys (.loopOutput i code values)) =
      .ok { s with frame := .unwound, sys := Sys.setLoop i (.ended v code values) s.sys } := by
    simp [Lifetime.step, hrt, byExecute, Sys.step, hl, Res.bind, uses]
  obtain ⟨t, ht⟩ : ∃ t, Tracker.step c.tr s.sys.tr (.sendFinished ⟨v, .code code, values, none⟩) = .ok t := by
    simp [Tracker.step, hlive]
  have h3 : ∃ s', Lifetime.step c { s with frame := .unwound, sys := Sys.setLoop i (.ended v code values) s.sys } (.sys (.loopReport i)) = .ok s' ∧
      s'.dangling = true := by
    have hg : (Sys.setLoop i (.ended v code values) s.sys).loops[i]? = some (.ended v code values) := by
      simp only [Sys.setLoop]; exact List.getElem?_set_self hlt
    have ht' : Tracker.step c.tr (Sys.setLoop i (.ended v code values) s.sys).tr (.sendFinished ⟨v, .code code, values, none⟩) = .ok t := ht
    simp [Lifetime.step, hrt, byExecute, Sys.step, hg, Sys.trk, ht', Res.bind, uses]
  obtain ⟨s', h3, h4⟩ := h3
  exact ⟨s', runs_append.2 ⟨s, hr, .cons h1 (.cons h2 (.cons h3 (.nil _)))⟩, h4⟩

/-- **C145 (violated), in general: requests.** Whenever `execute` panics in `background_serve` while the server answers requests: a `/begun` for an
open connection makes the server use the tracker (and the command) after its end. -/
theorem dangling_request_violated (hr : Lifetime.Runs c (Lifetime.init c lf now) as s) (hf : s.frame = .active) (hrt : s.runtime = true)
    (hp : s.sys.tr.pc ≠ .joined) (hp' : s.sys.tr.pc ≠ .done) (hsrv : s.sys.reaper ≠ .stopped) {txn : Nat} {conn : Sys.Conn}
    (hc : s.sys.conns.lookup txn = some conn) (host : String) (pid : Nat) (j : String) :
    ∃ s', Lifetime.Runs c (Lifetime.init c lf now)
        (as ++ [.unwind, .sys (.request ⟨some c.secret, some (some j), .begun txn host pid⟩)]) s' ∧ s'.dangling = true := by
  have hlive : live s.sys.tr = true := by unfold live; simp [hp, hp']
  have h1 : Lifetime.step c s .unwind = .ok { s with frame := .unwound } := by
    simp only [Lifetime.step]
    rw [if_pos ⟨hf, hp'⟩]
  obtain ⟨t, ht⟩ : ∃ t, Tracker.step c.tr s.sys.tr (.sendStarted conn.node host pid j) = .ok t := by
    simp [Tracker.step, hlive]
  have h2 : ∃ s', Lifetime.step c { s with frame := .unwound } (.sys (.request ⟨some c.secret, some (some j), .begun txn host pid⟩)) = .ok s' ∧
      s'.dangling = true := by
    simp [Lifetime.step, hrt, byExecute, Sys.step, hsrv, hlive, Sys.takeRequest, Sys.begunH, hc, Sys.trk, ht, Res.bind, uses]
  obtain ⟨s', h2, h3⟩ := h2
  exact ⟨s', runs_append.2 ⟨s, hr, .cons h1 (.cons h2 (.nil _))⟩, h3⟩

/-- A spawned task makes use of the tracker or of a command: the tracker is different afterwards, a preamble is called, or a command is sent to a
remote runner. -/
def MakesUse (s s' : Sys.State) : Prop :=
  s'.tr ≠ s.tr ∨ s'.preCalls ≠ s.preCalls ∨
    ∃ h txn v : Nat, s'.handlers[h]? = some (.done (some (.task txn v))) ∧ s.handlers[h]? ≠ some (.done (some (.task txn v)))

/-- **C145 (what counts as use).** `dangling` leaves nothing out: if after the end of `execute` a loop, a request or the reaper makes use of the tracker or of
a command, it is noted. (Not noted: that time goes by, requests for a shutdown, and that a request is dropped while it waits.) -/
theorem use_is_noted {a : Sys.Act} {s' : Lifetime.State} (hs : Lifetime.step c s (.sys a) = .ok s') (hf : s.frame ≠ .active)
    (hu : MakesUse s.sys s'.sys) (h1 : ∀ h k, a ≠ .hDrop h k)
    (h2 : ∀ b, a = .server b → (∀ d, b ≠ .tick d) ∧ b ≠ .trigger ∧ b ≠ .cancel .hard) : s'.dangling = true := by
  simp only [Lifetime.step] at hs
  split at hs
  · cases hs
  · rename_i hc
    obtain ⟨y, hy, h⟩ := Res.bind_ok.1 hs
    simp only [Res.ok.injEq] at h
    subst h
    have hb : byExecute a = false := by
      cases hb : byExecute a with
      | false => rfl
      | true => exact absurd (.inr ⟨hb, hf⟩) hc
    have key : uses a = true := by
      cases hua : uses a with
      | true => rfl
      | false =>
        exfalso
        have same : y.tr = s.sys.tr ∧ y.preCalls = s.sys.preCalls := by
          cases a with
          | server b =>
            obtain ⟨g1, g2, g3⟩ := h2 b rfl
            simp only [Sys.step] at hy
            split at hy
            · rename_i hsv
              unfold Sys.serverAct at hsv
              split at hsv <;> simp_all [byExecute, uses]
            · cases hy
          | request r =>
            obtain ⟨au, j, body⟩ := r
            simp only [Sys.step] at hy
            split at hy
            · cases hy
            · unfold Sys.takeRequest at hy
              split at hy
              · simp only [Res.ok.injEq] at hy; subst hy; exact ⟨rfl, rfl⟩
              · split at hy
                · simp only [Res.ok.injEq] at hy; subst hy; exact ⟨rfl, rfl⟩
                · split at hy
                  · simp only [Res.ok.injEq] at hy; subst hy; exact ⟨rfl, rfl⟩
                  · cases body with
                    | start rt =>
                      simp only [Sys.startH, Res.ok.injEq] at hy
                      repeat' split at hy
                      all_goals (subst hy; exact ⟨rfl, rfl⟩)
                    | begun txn host pid => simp [uses] at hua
                    | finish txn code values next =>
                      simp only [Sys.endH, Res.ok.injEq] at hy
                      repeat' split at hy
                      all_goals (subst hy; exact ⟨rfl, rfl⟩)
                    | ping txn =>
                      simp only [Sys.pingH] at hy
                      split at hy
                      · simp only [Res.ok.injEq] at hy; subst hy; exact ⟨rfl, rfl⟩
                      · obtain ⟨q, _, hy⟩ := Res.bind_ok.1 hy
                        simp only [Res.ok.injEq] at hy; subst hy; exact ⟨rfl, rfl⟩
                    | mark js => simp only [Sys.markH, Res.ok.injEq] at hy; subst hy; exact ⟨rfl, rfl⟩
                    | bad => cases hy
          | hDrop h k => exact absurd rfl (h1 h k)
          | loopSoft | loopHard | loopOutput | hCancel | hFlag | reapTick | reapRemove | reapCheck | reapStop =>
            simp only [Sys.step] at hy
            repeat' split at hy
            all_goals first
              | (cases hy; done)
              | (simp only [Res.ok.injEq] at hy; subst hy; exact ⟨rfl, rfl⟩)
          | joinDone => simp [byExecute] at hb
          | _ => simp [uses] at hua
        rcases hu with h | h | ⟨h, txn, v, g1, g2⟩
        · exact h same.1
        · exact h same.2
        · simp only at g1
          rcases Sys.step_handlers hy with e | ⟨r, x, _, e, ad⟩ | ⟨i, x, x', hx, e, mv⟩
          · rw [e] at g1; exact g2 g1
          · rw [e] at g1
            rcases Nat.lt_or_ge h s.sys.handlers.length with hlt | hge
            · rw [List.getElem?_append_left hlt] at g1; exact g2 g1
            · rw [List.getElem?_append_right hge] at g1
              have : x = .done (some (.task txn v)) := by
                cases hz : h - s.sys.handlers.length with
                | zero => rw [hz] at g1; simpa using g1
                | succ n => rw [hz] at g1; simp at g1
              subst this
              cases ad with
              | done _ hne => exact hne _ _ rfl
          · rw [e] at g1
            by_cases hi : i = h
            · subst hi
              rw [List.getElem?_set_self (List.getElem?_eq_some_iff.1 hx).1] at g1
              simp only [Option.some.injEq] at g1
              subst g1
              cases mv <;> first | (simp [uses] at hua; done) | exact absurd rfl (h1 _ _)
            · rw [List.getElem?_set_ne hi] at g1; exact g2 g1
    simp only [key, Bool.true_and, Bool.or_eq_true, bne_iff_ne, ne_eq]
    exact .inr hf

/-! ### concrete cases -/

/-- Tasks `a` and `b`; `b` can only be run on the console; there are local loops and a server. -/
def mixed2 : Sys.Cfg := { local2 with remote := true }

/-- A remote runner gets `a` and reports its start; the console loop starts `b`; the remote runner reports its start again. -/
def twice : List Sys.Act := serve2 ++ handOut 0 0 5 "j" ++ [req "j" (.begun 5 "h" 1), .server (.recvStarted t0)] ++ loopRun 2 0 ++
  [.server (.recvStarted t0), req "j" (.begun 5 "h" 1)]

/-- **C145 (violated).** A remote runner repeats `/begun`: `background_serve` panics; after that the loop in which `b` runs reports to a tracker
that does not exist any more. No other misbehaviour is needed. -/
theorem dangling_violated : ∃ s m, Lifetime.Runs mixed2 (Lifetime.init mixed2 emptyLog 0) (twice.map .sys) s ∧
    Sys.step mixed2 s.sys (.server (.recvStarted t0)) = .panic m ∧
    ∃ s', Lifetime.Runs mixed2 (Lifetime.init mixed2 emptyLog 0)
      (twice.map .sys ++ [.unwind, .sys (.loopOutput 2 0 []), .sys (.loopReport 2)]) s' ∧ s'.dangling = true := by
  obtain ⟨s, h1, h2⟩ := Lifetime.runs_of_after (c := mixed2) (as := twice.map .sys) (p := fun s => decide (s.frame = .active) && s.runtime &&
    decide (s.sys.loops[2]? = some (.running 1 0)) &&
    (match Sys.step mixed2 s.sys (.server (.recvStarted t0)) with | .panic _ => true | _ => false)) (by decide +kernel)
  simp only [Bool.and_eq_true, decide_eq_true_eq] at h2
  obtain ⟨⟨⟨hf, hrt⟩, hl⟩, hp⟩ := h2
  cases hm : Sys.step mixed2 s.sys (.server (.recvStarted t0)) with
  | panic m => exact ⟨s, m, h1, hm, dangling_loop_violated h1 hf hrt hl 0 []⟩
  | ok x => rw [hm] at hp; cases hp
  | err x => rw [hm] at hp; cases hp

/-- The hypotheses of `dangling_request_violated` are met there, too. -/
example : Lifetime.after mixed2 (twice.map .sys) (fun s => decide (s.frame = .active) && s.runtime && decide (s.sys.tr.pc ≠ .joined) &&
    decide (s.sys.tr.pc ≠ .done) && decide (s.sys.reaper ≠ .stopped) && (s.sys.conns.lookup 5).isSome) = true := by decide +kernel

/-- Non-trivial case for `use_is_noted`: the same remote runner reports the start once more after the panic. -/
example : Lifetime.after mixed2 (twice.map .sys ++ [.unwind]) (fun s => decide (s.frame ≠ .active) &&
    (match Lifetime.step mixed2 s (.sys (req "j" (.begun 5 "h" 1))) with
    | .ok s' => decide (s'.sys.tr.chan.length = s.sys.tr.chan.length + 1) && s'.dangling && !s.dangling
    | _ => false)) = true := by decide +kernel

/-- A run to the end: `a` by loop 0, `b` on the console. -/
def whole : List Sys.Act := serve2 ++ loopRun 0 0 ++ loopRun 2 0 ++ [.server (.recvStarted t0), .server (.recvStarted t0),
  .loopOutput 0 0 [], .loopReport 0, .server (.recvFinished [] t0), .loopOutput 2 0 [], .loopReport 2, .server (.recvFinished [] t0),
  .loopRecv 0, .loopRecv 1, .loopRecv 2, .joinDone, .server (.drain [] t0)]

/-- Non-trivial case for `return_is_safe`. -/
example : Lifetime.after local2 (whole.map .sys ++ [.ret, .drop]) (fun s => decide (s.frame = .returned)) = true := by decide +kernel

/-- Non-trivial case for `dangling_only_if`: the run of `dangling_violated`. -/
example : Lifetime.after mixed2 (twice.map .sys ++ [.unwind, .sys (.loopOutput 2 0 []), .sys (.loopReport 2), .drop])
    (fun s => s.dangling && !s.runtime) = true := by decide +kernel

/-- `drain` fails after the join (the log can not be written): nothing dangles. -/
example : Lifetime.after local2 (whole.dropLast.map .sys ++ [.unwind, .drop]) (fun s => decide (s.frame = .unwound) && !s.dangling) = true := by
  decide +kernel

end Verif.Props.Lifetime
