import Verif.Spec.Admin
import Verif.Props.Mirror
import Verif.Props.Rate
import Verif.Props.Terminate

/-!
# Requests to the admin socket
-/

namespace Verif.Props.Admin
open Verif Verif.Admin
open Verif.Tracker (emptyLog)
open Verif.Props.Terminate (localDiamond diamondRun)

/-- At the beginning of the execute: rate limit 5, no provisioner info, a mirror file. -/
def morning : State := ⟨Sys.init localDiamond emptyLog 0, Gcra.mkNew 0 5, none, Mirror.demo false [] []⟩

/-- Seven threads at noon. -/
def noon : Env := ⟨100, 7, "Tue, 17 Nov 2026 12:00:00 +0000"⟩

/-- Runs some actions; `none` if one is impossible. -/
def play (c : Sys.Cfg) : State → List Act → Option (State × List Answer)
  | s, [] => some (s, [])
  | s, a :: as =>
    match step c s a with
    | .ok (s1, o) => (play c s1 as).map (fun x => (x.1, o.toList ++ x.2))
    | _ => none

private theorem shutdown_steps (c : Sys.Cfg) (y : Sys.State) (soft : Bool) :
    Sys.step c y (shutdownAct soft) = .ok { y with tr := if soft then { y.tr with trigger := true } else { y.tr with token := some .hard } } := by
  cases soft
  · have : Tracker.tokenCancel y.tr.token .hard = some .hard := by
      cases y.tr.token with
      | none => rfl
      | some t => cases t <;> rfl
    simp [shutdownAct, Sys.step, Sys.serverAct, Sys.trk, Tracker.step, Res.bind, this]
  · simp [shutdownAct, Sys.step, Sys.serverAct, Sys.trk, Tracker.step, Res.bind]

private theorem shutdown_eq (c : Sys.Cfg) (e : Env) (user : String) (soft : Bool) (s : State) :
    (shutdown c e user soft s).2.good =
        (Mirror.rawlog s.out (raw (warning e.date user soft))).2.good ∧
      (shutdown c e user soft s).1.info = s.info ∧ (shutdown c e user soft s).1.lim = s.lim ∧
      (shutdown c e user soft s).1.out = (Mirror.rawlog s.out (raw (warning e.date user soft))).1 ∧
      (∀ rl i, (shutdown c e user soft s).2 = .status rl i → answer s = .status rl i) ∧
      (shutdown c e user soft s).1.sys =
        (if (shutdown c e user soft s).2.good then
          { s.sys with tr := if soft then { s.sys.tr with trigger := true } else { s.sys.tr with token := some .hard } } else s.sys) := by
  unfold shutdown nowLocal
  simp only [refusesThreads, Bool.false_and, Bool.false_eq_true, if_false]
  generalize hr : Mirror.rawlog s.out (raw (warning e.date user soft)) = r
  obtain ⟨out, io⟩ := r
  cases io <;> simp [shutdown_steps, Answer.good, Mirror.Io.good, answer]

/-- **C154 (an answered request has been carried out, one without an answer has not).** In every execute with any number of requests to the admin socket, the scheduler and its runners go through exactly
their own actions and the shutdowns the admin got an answer for, each at the moment of the request. Everything proved about `Sys.Runs` therefore holds. -/
theorem carried_out {c : Sys.Cfg} {s s' : State} {as : List Act} {r : List Answer} (hr : Runs c s as r s') :
    Sys.Runs c s.sys (effects as r) s'.sys := by
  induction hr with
  | nil s => exact .nil _
  | @sys s s1 s2 a as r hp hs _ ih =>
    simp only [step] at hs
    split at hs
    · cases h : Sys.step c s.sys a with
      | ok y =>
        rw [h] at hs
        simp only [Res.bind, Res.ok.injEq, Prod.mk.injEq] at hs
        obtain ⟨rfl, _⟩ := hs
        exact .cons hp h ih
      | err e => rw [h] at hs; cases hs
      | panic m => rw [h] at hs; cases hs
    · cases hs
  | @permit s s1 s2 now as r hs _ ih =>
    simp only [step, Res.ok.injEq, Prod.mk.injEq] at hs
    obtain ⟨rfl, _⟩ := hs
    exact ih
  | @print s s1 s2 ps as r hs _ ih =>
    simp only [step, Res.ok.injEq, Prod.mk.injEq] at hs
    obtain ⟨rfl, _⟩ := hs
    exact ih
  | @admin s s1 s2 e q as o r hs _ ih =>
    simp only [step, Res.ok.injEq, Prod.mk.injEq, Option.some.injEq] at hs
    obtain ⟨rfl, rfl⟩ := hs
    cases q with
    | shutdown user soft =>
      have h := (shutdown_eq c e user soft s).2.2.2.2.2
      have hh : handle c e s (.shutdown user soft) = shutdown c e user soft s := rfl
      rw [hh] at ih ⊢
      rw [h] at ih
      rw [effects]
      by_cases hg : (shutdown c e user soft s).2.good = true
      · rw [if_pos hg] at ih
        rw [if_pos hg]
        refine .cons ?_ (shutdown_steps c s.sys soft) ih
        cases soft <;> rfl
      · rw [if_neg hg] at ih
        rw [if_neg hg]
        exact ih
    | _ => exact ih

/-- **C154 (what is set is what is shown).** Every answer shows the provisioner info that was asked for last, and the rate limit asked for last if it is at most 31622 per second (see C65), whatever else
happened. -/
theorem settings_shown {c : Sys.Cfg} {s s' : State} {as : List Act} {r : List Answer} (hr : Runs c s as r s') {t r0 : Nat} (h0 : s.lim.tau = (Gcra.mkNew t r0).tau)
    (e : Env) (q : Req) {rl : Nat} {i : Option String} (ha : (handle c e s' q).2 = .status rl i) :
    i = lastInfo s.info (as ++ [.admin e q]) ∧
      (lastRate r0 (as ++ [.admin e q]) * lastRate r0 (as ++ [.admin e q]) ≤ 1000000000 → rl = lastRate r0 (as ++ [.admin e q])) := by
  have key : ∀ (s : State) (t r0 : Nat), s.lim.tau = (Gcra.mkNew t r0).tau → ∀ rl i, answer s = .status rl i → i = s.info ∧ (r0 * r0 ≤ 1000000000 → rl = r0) := by
    intro s t r0 h0 rl i ha
    simp only [answer, Answer.status.injEq] at ha
    refine ⟨ha.2.symm, fun hb => ?_⟩
    have h1 := Rate.rate_readback t r0 hb
    have h2 : Gcra.ratePerSecond s.lim = Gcra.ratePerSecond (Gcra.mkNew t r0) := by simp only [Gcra.ratePerSecond, h0]
    rw [h2, h1] at ha
    have : r0 < 2 ^ 32 := by
      rcases Nat.lt_or_ge r0 (2 ^ 32) with h | h
      · exact h
      · have := Nat.mul_le_mul h h; omega
    rw [Nat.mod_eq_of_lt this] at ha
    exact ha.1.symm
  induction hr generalizing t r0 with
  | nil s =>
    cases q with
    | ratelimit p => exact key { s with lim := Gcra.mkNew e.now p } e.now p rfl rl i ha
    | info j => exact key { s with info := j } t r0 h0 rl i ha
    | status => exact key s t r0 h0 rl i ha
    | shutdown u soft => exact key s t r0 h0 rl i ((shutdown_eq c e u soft s).2.2.2.2.1 rl i ha)
    | bad => cases ha
  | @sys s s1 s2 a as r hp hs _ ih =>
    simp only [step] at hs
    split at hs
    · cases h : Sys.step c s.sys a with
      | ok y =>
        rw [h] at hs
        simp only [Res.bind, Res.ok.injEq, Prod.mk.injEq] at hs
        obtain ⟨rfl, _⟩ := hs
        exact ih h0 ha
      | err e => rw [h] at hs; cases hs
      | panic m => rw [h] at hs; cases hs
    · cases hs
  | @permit s s1 s2 now as r hs _ ih =>
    simp only [step, Res.ok.injEq, Prod.mk.injEq] at hs
    obtain ⟨rfl, _⟩ := hs
    exact ih h0 ha
  | @print s s1 s2 ps as r hs _ ih =>
    simp only [step, Res.ok.injEq, Prod.mk.injEq] at hs
    obtain ⟨rfl, _⟩ := hs
    exact ih h0 ha
  | @admin s s1 s2 e' q' as o r hs _ ih =>
    simp only [step, Res.ok.injEq, Prod.mk.injEq, Option.some.injEq] at hs
    obtain ⟨rfl, rfl⟩ := hs
    cases q' with
    | ratelimit p => exact ih (t := e'.now) (r0 := p) rfl ha
    | shutdown user soft =>
      obtain ⟨_, h1, h2, _⟩ := shutdown_eq c e' user soft s
      have := ih (t := t) (r0 := r0) (by simp only [handle]; rw [h2]; exact h0) ha
      simp only [handle, h1] at this
      exact this
    | _ => exact ih h0 ha

/-- Non-trivial case: the limit is read before and after a change, with a permit taken in between; the info is set, and removed again. -/
example : (play localDiamond morning [.admin noon .status, .permit 50, .admin noon (.ratelimit 20), .admin noon (.info (some "queue=long")), .permit 60,
    .admin noon .bad, .admin noon (.info none)]).map (·.2) =
      some [.status 5 none, .status 20 none, .status 20 (some "queue=long"), .refused, .status 20 none] := by decide +kernel

/-- **C154.** Requests other than `/shutdown` are always answered if they are understood, and change neither the scheduler nor the output. -/
theorem others_answered (c : Sys.Cfg) (e : Env) (s : State) (q : Req) (hq : ∀ u soft, q ≠ .shutdown u soft) :
    ((handle c e s q).2.good = true ↔ q ≠ .bad) ∧ (handle c e s q).1.sys = s.sys ∧ (handle c e s q).1.out = s.out := by
  cases q with
  | shutdown u soft => exact absurd rfl (hq u soft)
  | _ => simp [handle, answer, Answer.good]

/-- **C154 (when a shutdown request is carried out).** Exactly if the warning can be printed. -/
theorem shutdown_iff (c : Sys.Cfg) (e : Env) (s : State) (user : String) (soft : Bool) :
    (handle c e s (.shutdown user soft)).2.good = true ↔ (Mirror.rawlog s.out (raw (warning e.date user soft))).2.good = true := by
  simp only [handle]
  rw [(shutdown_eq c e user soft s).1]

private theorem warning_bytes (date user : String) (soft : Bool) :
    (raw (warning date user soft)).flatten = (shutdownLine date user soft).toByteArray.data.toList := by
  cases soft <;> simp [raw, warning, shutdownLine, ByteArray.toList_data_append]

/-- **C154 (a shutdown that works).** If there is a mirror file (there is one once a graph was constructed, C141) and the operating system does not refuse to write: the request is
answered, however many threads the process has, the trigger is set or the token cancelled, and `log.txt` gets exactly the line that says who asked for it. -/
theorem shutdown_works_partial (c : Sys.Cfg) (e : Env) (s : State) (user : String) (soft : Bool)
    (f : Mirror.Buf) (hf : s.out.file = some f) (hc : Mirror.Willing s.out.console.fd.plan) (hp : Mirror.Willing f.fd.plan) :
    (handle c e s (.shutdown user soft)).2.good = true ∧
      (if soft then (handle c e s (.shutdown user soft)).1.sys.tr.trigger = true else (handle c e s (.shutdown user soft)).1.sys.tr.token = some .hard) ∧
      ∃ f', (handle c e s (.shutdown user soft)).1.out.file = some f' ∧ f'.all = f.all ++ (shutdownLine e.date user soft).toByteArray.data.toList := by
  have hg := Mirror.succeeds_if_taken s.out f hf hc hp (raw (warning e.date user soft))
  have ha := (shutdown_iff c e s user soft).2 hg
  obtain ⟨_, _, _, h4, _, h6⟩ := shutdown_eq c e user soft s
  refine ⟨ha, ?_, ?_⟩
  · simp only [handle] at ha ⊢
    rw [h6, if_pos ha]
    cases soft <;> rfl
  · obtain ⟨f', t, h1, h2, _, h3, _⟩ := Mirror.file_exact s.out f hf (raw (warning e.date user soft))
    refine ⟨f', ?_, ?_⟩
    · simp only [handle]
      rw [h4]
      exact h1
    · rw [h2, h3 hg, warning_bytes]

/-- Non-trivial case: the hypotheses hold for a terminal that takes one byte at first; the execute then ends although nothing was started. -/
example : (play localDiamond { morning with out := Mirror.demo false [.took 1, .intr] [] } ((diamondRun.take 3).map .sys ++ [.admin noon (.shutdown "root" false), .sys (.server .seeHard)])).map
    (fun x => (x.2, x.1.sys.tr.pc, x.1.sys.tr.token)) = some ([.status 5 none], .joining, some .hard) := by decide +kernel

private theorem lift {c : Sys.Cfg} {s : State} {as : List Sys.Act} {y : Sys.State} (hr : Sys.Runs c s.sys as y) (ho : ∀ a ∈ as, own a = true)
    {bs : List Act} {r : List Answer} {s2 : State} (hb : Runs c { s with sys := y } bs r s2) : Runs c s (as.map .sys ++ bs) r s2 := by
  generalize hy : s.sys = y0 at hr
  induction hr generalizing s with
  | nil _ => subst hy; exact hb
  | @cons y0 y1 y2 a as hp hs _ ih =>
    subst hy
    refine .sys hp (s1 := { s with sys := y1 }) ?_ (ih (fun a ha => ho a (.tail _ ha)) (s := { s with sys := y1 }) hb rfl)
    simp [step, ho a (.head _), hs, Res.bind]

/-- Everything but a soft shutdown is up to the rest of the execute. -/
theorem own_iff {a : Sys.Act} : own a = true ↔ a ≠ .server .trigger := by
  unfold own
  split <;> simp_all

/-- **C154 (soft only by the admin).** Only an answered request for a soft shutdown makes the scheduler begin one: without it the execute is one without soft shutdown
requests, as assumed in C113-C116 and C177. -/
theorem soft_only_by_admin {c : Sys.Cfg} {s s' : State} {as : List Act} {r : List Answer} (hr : Runs c s as r s')
    (hno : ∀ e user, .admin e (.shutdown user true) ∉ as) : ∀ a ∈ effects as r, Sys.isTrigger a = false := by
  have hsys : ∀ a, own a = true → Sys.isTrigger a = false := by
    intro a ha
    cases hx : Sys.isTrigger a with
    | false => rfl
    | true =>
      exfalso
      refine own_iff.1 ha ?_
      unfold Sys.isTrigger at hx
      split at hx
      · rfl
      · cases hx
  induction hr with
  | nil s => intro a ha; simp [effects] at ha
  | @sys s s1 s2 b as r hp hs _ ih =>
    have ih := ih (fun e u h => hno e u (.tail _ h))
    intro a ha
    simp only [effects, List.mem_cons] at ha
    rcases ha with rfl | ha
    · simp only [step] at hs
      split at hs
      · rename_i ho; exact hsys _ ho
      · cases hs
    · exact ih a ha
  | permit hs _ ih => exact ih (fun e u h => hno e u (.tail _ h))
  | print hs _ ih => exact ih (fun e u h => hno e u (.tail _ h))
  | @admin s s1 s2 e q o as r hs _ ih =>
    have ih := ih (fun e u h => hno e u (.tail _ h))
    intro a ha
    cases q with
    | shutdown user soft =>
      cases soft with
      | true => exact absurd (.head _) (hno e user)
      | false =>
        simp only [effects] at ha
        split at ha
        · simp only [Bool.false_eq_true, if_false, List.mem_cons] at ha
          rcases ha with rfl | ha
          · rfl
          · exact ih a ha
        · exact ih a ha
    | _ => exact ih a (by simpa [effects] using ha)

/-- Non-trivial case: a hard shutdown is asked for in the middle of the run of the diamond. -/
example : (play localDiamond morning ((diamondRun.take 12).map .sys ++ [.admin noon (.shutdown "root" false)])).isSome = true ∧
    (effects ((diamondRun.take 12).map .sys ++ [.admin noon (.shutdown "root" false)]) [.status 5 none]).length = 13 := by decide +kernel

/-- **C154 is violated where the warning cannot be printed.** The claim would be that `/shutdown` stops the execute. But the handler prints first, and panics if it cannot (the reader of a pipe is gone, the
disk is full). So whatever is possible without the request, up to the return of `execute`, is possible with it, hard or soft, at any moment; the admin gets no answer. -/
theorem shutdown_ignored_violated (c : Sys.Cfg) (s : State) (as bs : List Sys.Act) (y : Sys.State) (hr : Sys.Runs c s.sys (as ++ bs) y)
    (ht : ∀ a ∈ as ++ bs, a ≠ .server .trigger) (e : Env) (user : String) (soft : Bool)
    (hw : (Mirror.rawlog s.out (raw (warning e.date user soft))).2.good = false) :
    Runs c s (as.map .sys ++ (.admin e (.shutdown user soft) :: bs.map .sys)) [.panic]
      { s with sys := y, out := (Mirror.rawlog s.out (raw (warning e.date user soft))).1 } := by
  have ho : ∀ a ∈ as ++ bs, own a = true := fun a h => own_iff.2 (ht a h)
  obtain ⟨m, h1, h2⟩ : ∃ m, Sys.Runs c s.sys as m ∧ Sys.Runs c m bs y := by
    clear ho ht
    generalize s.sys = s0 at hr
    induction as generalizing s0 with
    | nil => exact ⟨s0, .nil _, hr⟩
    | cons a as ih =>
      cases hr with
      | cons hp hs hr =>
        obtain ⟨m, h1, h2⟩ := ih _ hr
        exact ⟨m, .cons hp hs h1, h2⟩
  refine lift h1 (fun a ha => ho a (by simp [ha])) ?_
  have h3 := lift (c := c) (s := { s with sys := m, out := (Mirror.rawlog s.out (raw (warning e.date user soft))).1 }) h2
    (fun a ha => ho a (by simp [ha])) (bs := []) (r := []) (.nil _)
  refine .admin (s1 := { s with sys := m, out := (Mirror.rawlog s.out (raw (warning e.date user soft))).1 }) ?_ (by simpa using h3)
  generalize hx : Mirror.rawlog s.out (raw (warning e.date user soft)) = x at hw ⊢
  obtain ⟨out, io⟩ := x
  cases io <;> simp_all [step, handle, shutdown, nowLocal, refusesThreads, Mirror.Io.good]

/-- Non-trivial case: the reader of the standard output is gone. Two requests after the first 12 actions of the run of the diamond, both printing in vain; nevertheless all four tasks succeed. -/
example : (Mirror.rawlog (Mirror.demo false [.fail] []) (raw (warning noon.date "root" true))).2.good = false ∧
    (play localDiamond { morning with out := Mirror.demo false [.fail, .fail] [] } ((diamondRun.take 12).map .sys ++
      ([(noon, "root", false), (noon, "root", true)].map (fun q => .admin q.1 (.shutdown q.2.1 q.2.2)) ++
    (diamondRun.drop 12).map .sys))).map (fun x => (x.2, x.1.sys.tr.pc, x.1.sys.tr.processed)) =
      some ([.panic, .panic], .done, [(0, .code 0), (1, .code 0), (2, .code 0), (3, .code 0)]) ∧ (∀ a ∈ diamondRun, a ≠ .server .trigger) := by
  refine ⟨by decide +kernel, by decide +kernel, fun a h => own_iff.1 ?_⟩
  exact List.all_eq_true.1 (by decide +kernel : diamondRun.all own = true) a h

end Verif.Props.Admin
