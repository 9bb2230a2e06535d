import Verif.Spec.Family
import Verif.Proof.ChildIo3
import Verif.Proof.Terminate2
import Verif.Proof.System8

/-!
# Local loops together with their processes: what is known about a process
-/

namespace Verif.Family
open Verif Verif.Tracker

variable {P : Type} {c : Cfg P} {lf : LogFile} {now : Int} {s s' : State P} {a : Act} {as : List Act}

theorem Runs.append {s1 s2 s3 : State P} {as bs : List Act} (h1 : Runs c s1 as s2) (h2 : Runs c s2 bs s3) : Runs c s1 (as ++ bs) s3 := by
  induction h1 with
  | nil => exact h2
  | cons hp hs _ ih => exact .cons hp hs (ih h2)

theorem Runs.snoc {s1 s2 s3 : State P} (h1 : Runs c s1 as s2) (hp : polite c s2 a = true) (hs : step c s2 a = .ok s3) :
    Runs c s1 (as ++ [a]) s3 := h1.append (.cons hp hs (.nil _))

theorem Runs.snocInd {s0 : State P} {Q : List Act → State P → Prop} (h0 : Q [] s0)
    (hstep : ∀ as s a s', Runs c s0 as s → Q as s → polite c s a = true → step c s a = .ok s' → Q (as ++ [a]) s') :
    ∀ {as s}, Runs c s0 as s → Q as s := by
  intro as s hr
  have gen : ∀ {s1 as2 s2}, Runs c s1 as2 s2 → ∀ as1, Runs c s0 as1 s1 → Q as1 s1 → Q (as1 ++ as2) s2 := by
    intro s1 as2 s2 h
    induction h with
    | nil => intro as1 _ hq; simpa using hq
    | @cons s s1 s' a as hp hs _ ih =>
      intro as1 hb hq
      have := ih (as1 ++ [a]) (hb.snoc hp hs) (hstep as1 s a s1 hb hq hp hs)
      simpa using this
  simpa using gen hr [] (.nil _) h0

theorem sysActs_append (as bs : List Act) : sysActs (as ++ bs) = sysActs as ++ sysActs bs := by
  induction as with
  | nil => rfl
  | cons a as ih => cases a <;> simp [sysActs, ih]

theorem kidActs_append (i : Nat) (as bs : List Act) : kidActs i (as ++ bs) = kidActs i as ++ kidActs i bs := by
  simp [kidActs]

/-! ### the kinds of steps -/

/-- What happens in a step. -/
inductive FStep (c : Cfg P) (s : State P) : Act → State P → Prop
  | spawn (i v : Nat) (t : Sys.State) : s.sys.loops[i]? = some (.got v) → Sys.step c.sys s.sys (.loopSpawn i true) = .ok t →
      FStep c s (.sys (.loopSpawn i true)) ⟨t, s.kids.set i (some ⟨v, ChildIo.init (childCfg c i v)⟩)⟩
  | joint (a : Sys.Act) (i : Nat) (b : ChildIo.Act) (k : Kid P) (st : ChildIo.State P) (t : Sys.State) : kidOf s i = some k →
      ChildIo.step (childCfg c i k.task) k.st b = .ok st → Sys.step c.sys s.sys a = .ok t →
      ((∃ h p v x, a = .loopStarted i h p ∧ b = .started ∧ s.sys.loops[i]? = some (.spawned v x)) ∨
        (a = .loopSoft i ∧ b = .cancel) ∨ (a = .loopHard i ∧ b = .cancel) ∨
        ∃ code values, a = .loopOutput i code values ∧ b = .finish ∧ reports code values ⟨k.task, st⟩ = true) →
      FStep c s (.sys a) ⟨t, s.kids.set i (some ⟨k.task, st⟩)⟩
  | die (i v : Nat) (x : Int) (k k' : Kid P) (t : Sys.State) : s.sys.loops[i]? = some (.spawned v x) → kidOf s i = some k →
      Sys.step c.sys s.sys (.loopDie i) = .ok t → k'.task = k.task → panicked k' = true →
      (k.st.stage = .starting ∧ k'.st = ChildIo.killChild { k.st with stage := .panicked } ∨
        ChildIo.step (childCfg c i k.task) k.st .feed = .ok k'.st) →
      FStep c s (.sys (.loopDie i)) ⟨t, s.kids.set i (some k')⟩
  | alone (a : Sys.Act) (t : Sys.State) : Sys.step c.sys s.sys a = .ok t → (∀ j, spawns j (.sys a) = false) →
      (∀ j, kidAct j (.sys a) = [] ∨ ∃ v, s.sys.loops[j]? = some (.failing v)) →
      (∀ i, a = .loopDie i → ∀ v x, s.sys.loops[i]? ≠ some (.spawned v x)) →
      FStep c s (.sys a) ⟨t, s.kids⟩
  | kid (i : Nat) (a : ChildIo.Act) (k : Kid P) (st : ChildIo.State P) : private_ a = true → kidOf s i = some k →
      ChildIo.step (childCfg c i k.task) k.st a = .ok st → (panicked ⟨k.task, st⟩ = true → panicked k = true) →
      FStep c s (.kid i a) ⟨s.sys, s.kids.set i (some ⟨k.task, st⟩)⟩

theorem both_ok {a : Sys.Act} {i : Nat} {k : Kid P} : both c s a i k = .ok s' ↔
    ∃ t, Sys.step c.sys s.sys a = .ok t ∧ s' = ⟨t, s.kids.set i (some k)⟩ := by
  unfold both
  rw [Res.bind_ok]
  constructor
  · rintro ⟨t, h1, h2⟩; cases h2; exact ⟨t, h1, rfl⟩
  · rintro ⟨t, h1, rfl⟩; exact ⟨t, h1, rfl⟩

theorem alone_ok {a : Sys.Act} : alone c s a = .ok s' ↔ ∃ t, Sys.step c.sys s.sys a = .ok t ∧ s' = ⟨t, s.kids⟩ := by
  unfold alone
  rw [Res.bind_ok]
  constructor
  · rintro ⟨t, h1, h2⟩; cases h2; exact ⟨t, h1, rfl⟩
  · rintro ⟨t, h1, rfl⟩; exact ⟨t, h1, rfl⟩

theorem withKid_ok {a : Sys.Act} {i : Nat} {b : ChildIo.Act} {q : Kid P → Bool} : withKid c s a i b q = .ok s' ↔
    ∃ k st t, kidOf s i = some k ∧ ChildIo.step (childCfg c i k.task) k.st b = .ok st ∧ q ⟨k.task, st⟩ = true ∧
      Sys.step c.sys s.sys a = .ok t ∧ s' = ⟨t, s.kids.set i (some ⟨k.task, st⟩)⟩ := by
  unfold withKid
  constructor
  · intro h
    split at h
    · rename_i k hk
      split at h
      · rename_i st hst
        split at h
        · rename_i hq
          obtain ⟨t, h1, h2⟩ := both_ok.1 h
          exact ⟨k, st, t, hk, hst, hq, h1, h2⟩
        · cases h
      · cases h
    · cases h
  · rintro ⟨k, st, t, h1, h2, h3, h4, h5⟩
    rw [h1]; simp only [h2, h3, if_true]
    exact both_ok.2 ⟨t, h4, h5⟩

theorem fstep (hs : step c s a = .ok s') : FStep c s a s' := by
  cases a with
  | kid i a =>
    simp only [step] at hs
    split at hs
    · rename_i hp
      split at hs
      · rename_i k hk
        split at hs
        · rename_i st hst
          split at hs
          · cases hs
          · rename_i hq
            cases hs
            refine .kid i a k st hp hk hst ?_
            intro h; cases h2 : panicked k <;> simp_all
        · cases hs
      · cases hs
    · cases hs
  | sys a =>
    cases a with
    | loopSpawn i ok =>
      cases ok with
      | true =>
        simp only [step] at hs
        split at hs
        · rename_i v hv
          obtain ⟨t, h1, rfl⟩ := both_ok.1 hs
          exact .spawn i v t hv h1
        · cases hs
      | false =>
        obtain ⟨t, h1, rfl⟩ := alone_ok.1 hs
        exact .alone _ t h1 (fun j => rfl) (fun j => .inl rfl) (fun i h => by cases h)
    | loopStarted i h p =>
      simp only [step] at hs
      split at hs
      · rename_i v x hv
        obtain ⟨k, st, t, h1, h2, _, h4, rfl⟩ := withKid_ok.1 hs
        exact .joint _ i _ k st t h1 h2 h4 (.inl ⟨h, p, v, x, rfl, rfl, hv⟩)
      · rename_i hno
        obtain ⟨t, h1, rfl⟩ := alone_ok.1 hs
        refine .alone _ t h1 (fun j => rfl) (fun j => ?_) (fun i h => by cases h)
        by_cases hj : i = j
        · subst hj
          right
          simp only [Sys.step] at h1
          split at h1
          · rename_i v x hv; exact absurd hv (hno v x)
          · rename_i v hv; exact ⟨v, hv⟩
          · cases h1
        · left; simp [kidAct, hj]
    | loopDie i =>
      simp only [step] at hs
      split at hs
      · rename_i v x hv
        split at hs
        · rename_i k hk
          split at hs
          · rename_i hst
            split at hs
            · obtain ⟨t, h1, rfl⟩ := both_ok.1 hs
              refine .die i v x k _ t hv hk h1 rfl ?_ (.inl ⟨hst, rfl⟩)
              simp only [panicked, (ChildIo.kill_stage _).1]
            · cases hs
          · obtain ⟨k2, st, t, h1, h2, h3, h4, rfl⟩ := withKid_ok.1 hs
            rw [hk] at h1; cases h1
            exact .die i v x k ⟨k.task, st⟩ t hv hk h4 rfl h3 (.inr h2)
        · cases hs
      · rename_i hno
        obtain ⟨t, h1, rfl⟩ := alone_ok.1 hs
        refine .alone _ t h1 (fun j => rfl) (fun j => .inl rfl) (fun i' h v x => ?_)
        cases h; exact hno v x
    | loopSoft i =>
      have hs : withKid c s (.loopSoft i) i .cancel (fun _ => true) = .ok s' := hs
      obtain ⟨k, st, t, h1, h2, _, h4, rfl⟩ := withKid_ok.1 hs
      exact .joint _ i _ k st t h1 h2 h4 (.inr (.inl ⟨rfl, rfl⟩))
    | loopHard i =>
      have hs : withKid c s (.loopHard i) i .cancel (fun _ => true) = .ok s' := hs
      obtain ⟨k, st, t, h1, h2, _, h4, rfl⟩ := withKid_ok.1 hs
      exact .joint _ i _ k st t h1 h2 h4 (.inr (.inr (.inl ⟨rfl, rfl⟩)))
    | loopOutput i code values =>
      obtain ⟨k, st, t, h1, h2, h3, h4, rfl⟩ := withKid_ok.1 hs
      exact .joint _ i _ k st t h1 h2 h4 (.inr (.inr (.inr ⟨code, values, rfl, rfl, h3⟩)))
    | _ =>
      obtain ⟨t, h1, rfl⟩ := alone_ok.1 hs
      exact .alone _ t h1 (fun j => rfl) (fun j => .inl rfl) (fun i h => by cases h)

/-- A step of both is a step of the system, or none. -/
theorem sys_step {a : Sys.Act} (hs : step c s (.sys a) = .ok s') : Sys.step c.sys s.sys a = .ok s'.sys := by
  have h := fstep hs
  cases h <;> assumption

theorem sys_kid {i : Nat} {a : ChildIo.Act} (hs : step c s (.kid i a) = .ok s') : s'.sys = s.sys := by
  have h := fstep hs
  cases h; rfl

/-- A run of both is a run of the system. -/
theorem Runs.sys {s0 : State P} (hr : Runs c s0 as s) : Sys.Runs c.sys s0.sys (sysActs as) s.sys := by
  induction hr with
  | nil => exact .nil _
  | @cons s s1 s' a as hp hs _ ih =>
    cases a with
    | sys a => exact .cons hp (sys_step hs) ih
    | kid i a => rw [sys_kid hs] at ih; exact ih

/-! ### loops and processes go together -/

/-- See `Did`; up to now. -/
def Since (c : Cfg P) (s0 : State P) (as : List Act) (i v : Nat) (hist : List ChildIo.Act) : Prop :=
  ∃ pre mid s1, as = pre ++ .sys (.loopSpawn i true) :: mid ∧ Runs c s0 pre s1 ∧ s1.sys.loops[i]? = some (.got v) ∧
    (∀ a ∈ mid, spawns i a = false) ∧ hist = kidActs i mid

theorem Since.snoc {s0 : State P} {i v : Nat} {hist : List ChildIo.Act} (h : Since c s0 as i v hist) (ha : spawns i a = false) :
    Since c s0 (as ++ [a]) i v (hist ++ kidAct i a) := by
  obtain ⟨pre, mid, s1, rfl, h2, h3, h4, rfl⟩ := h
  refine ⟨pre, mid ++ [a], s1, by simp, h2, h3, ?_, ?_⟩
  · intro x hx
    rcases List.mem_append.1 hx with h | h
    · exact h4 x h
    · rw [List.mem_singleton.1 h]; exact ha
  · simp [kidActs]

theorem Since.did {s0 : State P} {i v : Nat} {hist : List ChildIo.Act} (h : Since c s0 as i v hist) (bs : List Act) :
    Did c s0 (as ++ bs) i v hist := by
  obtain ⟨pre, mid, s1, rfl, h2, h3, h4, rfl⟩ := h
  exact ⟨pre, mid, bs, s1, by simp, h2, h3, h4, rfl⟩

/-- The task `v` of loop `i` with its pipes and processes in state `st`, and how they came there. -/
def Live (c : Cfg P) (lf : LogFile) (now : Int) (as : List Act) (i v : Nat) (k : Option (Kid P)) (q : ChildIo.Stage → Prop) : Prop :=
  ∃ st hist, k = some ⟨v, st⟩ ∧ Since c (init c lf now) as i v hist ∧
    ChildIo.Runs (childCfg c i v) (ChildIo.init (childCfg c i v)) hist st ∧ q st.stage

/-- Before `send_started`. -/
def early (x : ChildIo.Stage) : Prop := ChildIo.writing x = true ∨ x = .starting

/-- In the `select!`. -/
def atSelect (x : ChildIo.Stage) : Prop := x = .waiting

/-- What is known about the process of loop `i`. -/
def Tied (c : Cfg P) (lf : LogFile) (now : Int) (as : List Act) (i : Nat) (k : Option (Kid P)) : Sys.Loop → Prop
  | .spawned v _ => Live c lf now as i v k early
  | .running v _ => Live c lf now as i v k atSelect
  | _ => True

theorem Live.snoc {i v : Nat} {k : Option (Kid P)} {q : ChildIo.Stage → Prop} (h : Live c lf now as i v k q)
    (h1 : spawns i a = false) (h2 : kidAct i a = []) : Live c lf now (as ++ [a]) i v k q := by
  obtain ⟨st, hist, e, h3, h4, h5⟩ := h
  refine ⟨st, hist, e, ?_, h4, h5⟩
  have := h3.snoc h1
  rwa [h2, List.append_nil] at this

theorem Tied.snoc {i : Nat} {k : Option (Kid P)} {l : Sys.Loop} (h : Tied c lf now as i k l)
    (h1 : spawns i a = false) (h2 : kidAct i a = []) : Tied c lf now (as ++ [a]) i k l := by
  cases l <;> first | trivial | exact Live.snoc h h1 h2

theorem kidOf_set {s : State P} {t : Sys.State} {i j : Nat} {k : Option (Kid P)} (h : i < s.kids.length) :
    kidOf ⟨t, s.kids.set i k⟩ j = if i = j then k else kidOf s j := by
  unfold kidOf
  simp only [List.getElem?_set]
  split
  · subst_vars; simp [h]
  · rfl

theorem init_stage (cc : ChildIo.Cfg P) : early (ChildIo.init cc).stage := by
  unfold early ChildIo.init
  cases h : cc.input <;> simp [ChildIo.writing]

theorem stage_private {cc : ChildIo.Cfg P} {st st' : ChildIo.State P} {a : ChildIo.Act} (hp : private_ a = true)
    (hs : ChildIo.step cc st a = .ok st') (hn : st'.stage ≠ .panicked) :
    (early st.stage → early st'.stage) ∧ (st.stage = .waiting → st'.stage = .waiting) := by
  cases a with
  | started => cases hp
  | finish => cases hp
  | cancel => cases hp
  | run i => rw [(ChildIo.stage_run hs).1]; exact ⟨id, id⟩
  | kill i sig =>
    simp only [ChildIo.step] at hs
    split at hs
    · cases hs; exact ⟨id, id⟩
    · cases hs
  | feed =>
    simp only [ChildIo.step] at hs
    split at hs
    · rename_i hst
      split at hs
      · split at hs
        · cases hs; exact ⟨fun _ => .inl rfl, fun h => by rw [hst] at h; cases h⟩
        · cases hs
      · simp only [Res.ok.injEq] at hs
        have := (ChildIo.kill_stage { st with stage := .panicked }).1
        rw [hs] at this
        exact absurd this hn
    · cases hs
  | fed =>
    simp only [ChildIo.step] at hs
    split at hs
    · rename_i hst
      cases hs; exact ⟨fun _ => .inr rfl, fun h => by rw [hst] at h; cases h⟩
    · cases hs
  | collect o =>
    simp only [ChildIo.step] at hs
    split at hs
    · cases hs; exact ⟨id, id⟩
    · cases hs
  | eof o =>
    simp only [ChildIo.step] at hs
    split at hs
    · split at hs
      · cases hs; exact ⟨id, id⟩
      · cases hs
    · cases hs
  | reap =>
    simp only [ChildIo.step] at hs
    split at hs
    · split at hs
      · cases hs
      · cases hs; exact ⟨id, id⟩
    · cases hs

theorem started_stage {cc : ChildIo.Cfg P} {st st' : ChildIo.State P} (hs : ChildIo.step cc st .started = .ok st') :
    st'.stage = .waiting := by
  simp only [ChildIo.step] at hs
  split at hs
  · cases hs; rfl
  · cases hs

theorem early_panicked {x : ChildIo.Stage} (h : early x) : x ≠ .panicked := by
  rcases h with h | h <;> intro e <;> rw [e] at h <;> cases h

theorem not_panicked {k : Kid P} (h : k.st.stage ≠ .panicked) : panicked k = false := by
  unfold panicked
  cases hs : k.st.stage <;> simp_all

theorem panicked_iff {k : Kid P} : panicked k = true ↔ k.st.stage = .panicked := by
  unfold panicked
  cases hs : k.st.stage <;> simp

theorem set_ne {l : List Sys.Loop} {i : Nat} {x y : Sys.Loop} (h : l[i]? = some x) (hne : y ≠ x) : l.set i y ≠ l := by
  intro e
  have h1 := List.getElem?_set_self (l := l) (a := y) (List.getElem?_eq_some_iff.1 h).1
  rw [e, h] at h1
  exact hne (Option.some.inj h1).symm

theorem tied_step (hr : Runs c (init c lf now) as s) (hlen : s.kids.length = s.sys.loops.length)
    (h : ∀ i l, s.sys.loops[i]? = some l → Tied c lf now as i (kidOf s i) l) (hf : FStep c s a s') :
    s'.kids.length = s'.sys.loops.length ∧
      ∀ i l, s'.sys.loops[i]? = some l → Tied c lf now (as ++ [a]) i (kidOf s' i) l := by
  cases hf with
  | spawn i v t hv ht =>
    have hi : i < s.kids.length := by rw [hlen]; exact (List.getElem?_eq_some_iff.1 hv).1
    have e : t.loops = s.sys.loops.set i (.spawned v s.sys.tr.now) := by
      simp only [Sys.step, hv] at ht
      split at ht
      · cases ht; rfl
      · cases ht
    refine ⟨by simp only [List.length_set, e]; exact hlen, fun j l hl => ?_⟩
    rw [kidOf_set hi]
    simp only [e, List.getElem?_set] at hl
    by_cases hij : i = j
    · subst hij
      rw [if_pos rfl]
      simp only [if_true] at hl
      split at hl
      · cases hl
        refine ⟨_, [], rfl, ⟨as, [], s, rfl, hr, hv, by simp, rfl⟩, .nil _, init_stage _⟩
      · cases hl
    · rw [if_neg hij]
      rw [if_neg hij] at hl
      refine (h j l hl).snoc ?_ rfl
      simp [spawns, hij]
  | joint b i x k st t hk hst ht hor =>
    have hi : i < s.kids.length := by
      unfold kidOf at hk
      cases hg : s.kids[i]? with
      | none => rw [hg] at hk; cases hk
      | some y => exact (List.getElem?_eq_some_iff.1 hg).1
    have hsp : ∀ j, spawns j (.sys b) = false := by
      rcases hor with ⟨_, _, _, _, rfl, _⟩ | ⟨rfl, _⟩ | ⟨rfl, _⟩ | ⟨_, _, rfl, _⟩ <;> intro j <;> rfl
    have hka : ∀ j, kidAct j (.sys b) = if i = j then [x] else [] := by
      rcases hor with ⟨_, _, _, _, rfl, rfl, _⟩ | ⟨rfl, rfl⟩ | ⟨rfl, rfl⟩ | ⟨_, _, rfl, rfl, _⟩ <;> intro j <;> rfl
    rcases Sys.step_loops ht with ⟨e1, e2⟩ | ⟨i', l, l', o, hj, e1, hm, e2⟩
    · exfalso
      rcases hor with ⟨_, _, v, z, rfl, _, hv⟩ | ⟨rfl, _⟩ | ⟨rfl, _⟩ | ⟨_, _, rfl, _⟩
      · simp [Sys.loopObs, hv] at e2
      · simp only [Sys.step] at ht
        split at ht
        · rename_i hv _
          split at ht
          · simp only [Res.ok.injEq] at ht; subst ht; exact set_ne hv (by simp) e1
          · cases ht
        · cases ht
      · simp only [Sys.step] at ht
        split at ht
        · rename_i hv _
          simp only [Res.ok.injEq] at ht; subst ht; exact set_ne hv (by simp) e1
        · cases ht
      · simp only [Sys.step] at ht
        split at ht
        · rename_i hv
          simp only [Res.ok.injEq] at ht; subst ht; exact set_ne hv (by simp) e1
        · cases ht
    · have hii : i' = i := by
        rcases hor with ⟨_, _, v, z, rfl, _, hv⟩ | ⟨rfl, _⟩ | ⟨rfl, _⟩ | ⟨_, _, rfl, _⟩ <;> cases hm <;> rfl
      subst hii
      refine ⟨by simp only [List.length_set, e1]; exact hlen, fun j l2 hl => ?_⟩
      rw [kidOf_set hi]
      simp only [e1, List.getElem?_set] at hl
      by_cases hij : i' = j
      · subst hij
        rw [if_pos rfl]
        simp only [if_true] at hl
        split at hl
        · cases hl
          rcases hor with ⟨_, _, v, z, rfl, rfl, hv⟩ | ⟨rfl, rfl⟩ | ⟨rfl, rfl⟩ | ⟨_, _, rfl, rfl, _⟩ <;> cases hm <;> try trivial
          have hlive := h _ _ hj
          rw [hk] at hlive
          obtain ⟨st0, hist, e, h3, h4, h5⟩ := hlive
          cases e
          refine ⟨st, hist ++ [.started], rfl, ?_, h4.snoc hst, started_stage hst⟩
          have := h3.snoc (hsp i')
          rwa [hka i', if_pos rfl] at this
        · cases hl
      · rw [if_neg hij]
        rw [if_neg hij] at hl
        exact (h j l2 hl).snoc (hsp j) (by rw [hka j, if_neg hij])
  | die i v x k k' t hv hk ht htask hpan hor =>
    have hi : i < s.kids.length := by rw [hlen]; exact (List.getElem?_eq_some_iff.1 hv).1
    have e : t.loops = s.sys.loops.set i (.dead v) := by
      simp only [Sys.step, hv, Option.bind_some, Sys.mayDie] at ht
      by_cases hc : ((cmdOf c.sys.tr.g v).preamble.isSome || (cmdOf c.sys.tr.g v).fdInput.isSome) = true
      · rw [if_pos hc] at ht
        simp only [Res.ok.injEq] at ht; subst ht
        simp only [Sys.setLoop]
        split <;> rfl
      · rw [if_neg hc] at ht
        cases ht
    refine ⟨by simp only [List.length_set, e]; exact hlen, fun j l hl => ?_⟩
    rw [kidOf_set hi]
    simp only [e, List.getElem?_set] at hl
    by_cases hij : i = j
    · subst hij
      simp only [if_true] at hl
      split at hl
      · cases hl; trivial
      · cases hl
    · rw [if_neg hij]
      rw [if_neg hij] at hl
      exact (h j l hl).snoc rfl rfl
  | alone b t ht hsp hka hdie =>
    have key : ∀ j l, s.sys.loops[j]? = some l → Tied c lf now (as ++ [.sys b]) j (kidOf s j) l := by
      intro j l hl
      rcases hka j with h0 | ⟨v, hv⟩
      · exact (h j l hl).snoc (hsp j) h0
      · rw [hv] at hl; cases hl; trivial
    rcases Sys.step_loops ht with ⟨e1, e2⟩ | ⟨i', l, l', o, hj, e1, hm, e2⟩
    · refine ⟨by simp only [e1]; exact hlen, fun j l hl => ?_⟩
      simp only [e1] at hl
      exact key j l hl
    · refine ⟨by simp only [e1, List.length_set]; exact hlen, fun j l2 hl => ?_⟩
      simp only [e1, List.getElem?_set] at hl
      by_cases hij : i' = j
      · subst hij
        simp only [if_true] at hl
        split at hl
        · cases hl
          cases hm <;> try trivial
          · rename_i ho; rcases ho with rfl | rfl <;> trivial
          · have := hsp i'; simp [spawns] at this
          · rename_i v st _ _
            rcases hka i' with h0 | ⟨w, hw⟩
            · simp [kidAct] at h0
            · rw [hj] at hw; cases hw
        · cases hl
      · rw [if_neg hij] at hl
        exact key j l2 hl
  | kid i b k st hp hk hst hpan =>
    have hi : i < s.kids.length := by
      unfold kidOf at hk
      cases hg : s.kids[i]? with
      | none => rw [hg] at hk; cases hk
      | some y => exact (List.getElem?_eq_some_iff.1 hg).1
    refine ⟨by simp only [List.length_set]; exact hlen, fun j l hl => ?_⟩
    rw [kidOf_set hi]
    by_cases hij : i = j
    · subst hij
      rw [if_pos rfl]
      have hlive := h i l hl
      rw [hk] at hlive
      have go : ∀ (v : Nat) (q : ChildIo.Stage → Prop), (∀ x, q x → x ≠ .panicked) →
          (st.stage ≠ .panicked → q k.st.stage → q st.stage) →
          Live c lf now as i v (some k) q → Live c lf now (as ++ [.kid i b]) i v (some ⟨k.task, st⟩) q := by
        rintro v q hq1 hq2 ⟨st0, hist, e, h3, h4, h5⟩
        cases e
        refine ⟨st, hist ++ [b], rfl, ?_, h4.snoc hst, hq2 (fun hx => ?_) h5⟩
        · have := h3.snoc (a := .kid i b) rfl
          simpa [kidAct] using this
        · have := hpan (panicked_iff.2 hx)
          exact hq1 _ h5 (panicked_iff.1 this)
      cases l <;> try trivial
      · exact go _ _ (fun x hx => early_panicked hx) (fun hx => (stage_private hp hst hx).1) hlive
      · exact go _ _ (fun x (hx : atSelect x) hx2 => by rw [hx2] at hx; cases hx) (fun hx => (stage_private hp hst hx).2) (show Live c lf now as i _ (some k) atSelect from hlive)
    · rw [if_neg hij]
      exact (h j l hl).snoc rfl (by simp [kidAct, hij])

/-- In every run: every loop whose process runs has the pipes and processes of this task. -/
theorem tied (hr : Runs c (init c lf now) as s) : s.kids.length = s.sys.loops.length ∧
    ∀ i l, s.sys.loops[i]? = some l → Tied c lf now as i (kidOf s i) l := by
  refine Runs.snocInd (Q := fun as s => s.kids.length = s.sys.loops.length ∧
    ∀ i l, s.sys.loops[i]? = some l → Tied c lf now as i (kidOf s i) l) ?_ ?_ hr
  · refine ⟨by simp [init], fun i l hl => ?_⟩
    have hm := List.mem_of_getElem? hl
    simp only [init, Sys.init] at hm
    split at hm
    · simp at hm
    · rw [List.mem_replicate] at hm
      rw [hm.2]; trivial
  · intro as s a s' hr ih _ hs
    exact tied_step hr ih.1 ih.2 (fstep hs)

end Verif.Family
