import Verif.Spec.Remote

/-!
# Lemmas on the remote runner
-/

namespace Verif.Remote
open Verif

/-! ## Cleanup -/

/-- The SIGTERMs among the signals. -/
def termsOf (l : List Sent) : List (Nat × Int) :=
  l.filterMap (fun s => match s.signal with | .term => some (s.proc, s.time) | .kill => none)

theorem termsOf_append (l l' : List Sent) : termsOf (l ++ l') = termsOf l ++ termsOf l' := List.filterMap_append

theorem mem_termsOf {l : List Sent} {x : Nat} {t : Int} : (x, t) ∈ termsOf l ↔ ⟨x, .term, t⟩ ∈ l := by
  unfold termsOf
  rw [List.mem_filterMap]
  constructor
  · rintro ⟨⟨p, sg, u⟩, h1, h2⟩
    cases sg with
    | term => simp only [Option.some.injEq, Prod.mk.injEq] at h2; obtain ⟨rfl, rfl⟩ := h2; exact h1
    | kill => cases h2
  · intro h; exact ⟨_, h, rfl⟩

/-- `m` records the SIGTERMs of the past. -/
structure Past (m : List (Nat × Int)) (past : List Sent) : Prop where
  perm : (termsOf past).Perm m
  keys : (m.map (·.1)).Nodup

theorem lookup_iff {m : List (Nat × Int)} (h : (m.map (·.1)).Nodup) {x : Nat} {t : Int} : m.lookup x = some t ↔ (x, t) ∈ m := by
  induction m with
  | nil => simp
  | cons a m ih =>
    obtain ⟨k, v⟩ := a
    rw [List.map_cons, List.nodup_cons] at h
    rw [List.lookup_cons]
    by_cases hx : x = k
    · subst hx
      simp only [beq_self_eq_true, Option.some.injEq, List.mem_cons, Prod.mk.injEq, true_and]
      constructor
      · intro e; exact .inl e.symm
      · rintro (e | e)
        · exact e.symm
        · exact absurd (List.mem_map_of_mem (f := (·.1)) e) h.1
    · have : (x == k) = false := by simpa using hx
      rw [this]
      simp only [List.mem_cons, Prod.mk.injEq, hx, false_and, false_or]
      exact ih h.2

theorem Past.lookup (h : Past m past) {x : Nat} {t : Int} : m.lookup x = some t ↔ ⟨x, .term, t⟩ ∈ past := by
  rw [lookup_iff h.keys, ← h.perm.mem_iff, mem_termsOf]

theorem lookup_none {m : List (Nat × Int)} {x : Nat} (h : m.lookup x = none) : x ∉ m.map (·.1) := by
  induction m with
  | nil => simp
  | cons a m ih =>
    obtain ⟨k, v⟩ := a
    rw [List.lookup_cons] at h
    by_cases hx : x = k
    · subst hx; simp at h
    · have : (x == k) = false := by simpa using hx
      rw [this] at h
      simp only [List.map_cons, List.mem_cons, hx, false_or]
      exact ih h

theorem signalAll_spec {cutoff : Int} {ps : List Child} (hn : ∀ p ∈ ps, p.proc = p.pid) {m : List (Nat × Int)} {past : List Sent}
    (h : Past m past) :
    Past (signalAll cutoff m ps).1 (past ++ (signalAll cutoff m ps).2) ∧
    (∀ x u, ⟨x, .kill, u⟩ ∈ (signalAll cutoff m ps).2 → ∃ t, ⟨x, .term, t⟩ ∈ past ++ (signalAll cutoff m ps).2 ∧ t < cutoff) ∧
    (∀ p ∈ ps, (∀ t, ⟨p.pid, .term, t⟩ ∉ past) → ∃ t, ⟨p.pid, .term, t⟩ ∈ (signalAll cutoff m ps).2) ∧
    (∀ p ∈ ps, ∀ t, ⟨p.pid, .term, t⟩ ∈ past → t < cutoff → ⟨p.pid, .kill, p.time⟩ ∈ (signalAll cutoff m ps).2) ∧
    (∀ s ∈ (signalAll cutoff m ps).2, ∃ p ∈ ps, s.proc = p.pid ∧ s.time = p.time) := by
  induction ps generalizing m past with
  | nil =>
    simp only [signalAll, List.append_nil]
    exact ⟨h, by simp, by simp, by simp, by simp⟩
  | cons p ps ih =>
    have hp := hn p (by simp)
    have hn' : ∀ p ∈ ps, p.proc = p.pid := fun q hq => hn q (by simp [hq])
    cases hl : m.lookup p.pid with
    | none =>
      have hm : Past ((p.pid, p.time) :: m) (past ++ [⟨p.proc, .term, p.time⟩]) := by
        constructor
        · rw [termsOf_append]
          have : termsOf [⟨p.proc, .term, p.time⟩] = [(p.pid, p.time)] := by rw [hp]; rfl
          rw [this]
          exact (List.perm_append_comm).trans (h.perm.cons _)
        · rw [List.map_cons, List.nodup_cons]
          exact ⟨lookup_none hl, h.keys⟩
      obtain ⟨i1, i2, i3, i4, i5⟩ := ih hn' hm
      have e : signalAll cutoff m (p :: ps) = ((signalAll cutoff ((p.pid, p.time) :: m) ps).1,
          ⟨p.proc, .term, p.time⟩ :: (signalAll cutoff ((p.pid, p.time) :: m) ps).2) := by
        simp only [signalAll, hl, choose]
      rw [e]
      simp only [List.append_assoc, List.singleton_append] at i1 i2
      refine ⟨i1, ?_, ?_, ?_, ?_⟩
      · intro x u hx
        rcases List.mem_cons.1 hx with hx | hx
        · simp at hx
        · exact i2 x u hx
      · intro q hq hno
        by_cases hqp : q.pid = p.pid
        · exact ⟨p.time, by rw [hqp, ← hp]; exact List.mem_cons_self⟩
        · rcases List.mem_cons.1 hq with rfl | hq
          · exact absurd rfl hqp
          · obtain ⟨t, ht⟩ := i3 q hq (by
              intro t ht
              rcases List.mem_append.1 ht with ht | ht
              · exact hno t ht
              · simp only [List.mem_singleton, Sent.mk.injEq] at ht
                exact hqp (by rw [ht.1, hp]))
            exact ⟨t, List.mem_cons_of_mem _ ht⟩
      · intro q hq t ht hc
        rcases List.mem_cons.1 hq with rfl | hq
        · have := h.lookup.2 ht
          rw [hl] at this; cases this
        · exact List.mem_cons_of_mem _ (i4 q hq t (List.mem_append_left _ ht) hc)
      · intro s hs
        rcases List.mem_cons.1 hs with rfl | hs
        · exact ⟨p, by simp, hp, rfl⟩
        · obtain ⟨q, hq, h1⟩ := i5 s hs
          exact ⟨q, by simp [hq], h1⟩
    | some t0 =>
      have ht0 := h.lookup.1 hl
      by_cases hc : t0 < cutoff
      · have hm : Past m (past ++ [⟨p.proc, .kill, p.time⟩]) := by
          refine ⟨?_, h.keys⟩
          rw [termsOf_append]
          have : termsOf [⟨p.proc, .kill, p.time⟩] = [] := rfl
          rw [this, List.append_nil]
          exact h.perm
        obtain ⟨i1, i2, i3, i4, i5⟩ := ih hn' hm
        have e : signalAll cutoff m (p :: ps) = ((signalAll cutoff m ps).1,
            ⟨p.proc, .kill, p.time⟩ :: (signalAll cutoff m ps).2) := by
          simp only [signalAll, hl, choose, if_pos hc]
        rw [e]
        simp only [List.append_assoc, List.singleton_append] at i1 i2
        refine ⟨i1, ?_, ?_, ?_, ?_⟩
        · intro x u hx
          rcases List.mem_cons.1 hx with hx | hx
          · simp only [Sent.mk.injEq] at hx
            exact ⟨t0, List.mem_append_left _ (by rw [hx.1, hp]; exact ht0), hc⟩
          · exact i2 x u hx
        · intro q hq hno
          rcases List.mem_cons.1 hq with rfl | hq
          · exact absurd ht0 (hno t0)
          · obtain ⟨t, ht⟩ := i3 q hq (by
              intro t ht
              rcases List.mem_append.1 ht with ht | ht
              · exact hno t ht
              · simp at ht)
            exact ⟨t, List.mem_cons_of_mem _ ht⟩
        · intro q hq t ht hc'
          rcases List.mem_cons.1 hq with rfl | hq
          · rw [← hp]; exact List.mem_cons_self
          · exact List.mem_cons_of_mem _ (i4 q hq t (List.mem_append_left _ ht) hc')
        · intro s hs
          rcases List.mem_cons.1 hs with rfl | hs
          · exact ⟨p, by simp, hp, rfl⟩
          · obtain ⟨q, hq, h1⟩ := i5 s hs
            exact ⟨q, by simp [hq], h1⟩
      · obtain ⟨i1, i2, i3, i4, i5⟩ := ih hn' h
        have e : signalAll cutoff m (p :: ps) = signalAll cutoff m ps := by
          simp only [signalAll, hl, choose, if_neg hc]
        rw [e]
        refine ⟨i1, i2, ?_, ?_, ?_⟩
        · intro q hq hno
          rcases List.mem_cons.1 hq with rfl | hq
          · exact absurd ht0 (hno t0)
          · exact i3 q hq hno
        · intro q hq t ht hc'
          rcases List.mem_cons.1 hq with rfl | hq
          · exfalso
            have := h.lookup.2 ht
            rw [hl] at this
            simp only [Option.some.injEq] at this
            omega
          · exact i4 q hq t ht hc'
        · intro s hs
          obtain ⟨q, hq, h1⟩ := i5 s hs
          exact ⟨q, by simp [hq], h1⟩

/-- The turns with what was sent before them. -/
theorem cleanup_turn {ts : List Turn} (hn : NoReuse ts) {m : List (Nat × Int)} {past : List Sent} (h : Past m past) {i : Nat}
    {l : List Sent} (hl : (cleanup m ts).1[i]? = some l) :
    ∃ t m', ts[i]? = some t ∧ t.children ≠ [] ∧ Past m' (past ++ ((cleanup m ts).1.take i).flatten) ∧
      l = (signalAll (t.now - 5 * sec) m' t.children).2 := by
  induction ts generalizing m past i with
  | nil => simp [cleanup] at hl
  | cons t ts ih =>
    simp only [cleanup] at hl ⊢
    split at hl
    · simp at hl
    · rename_i hne
      rw [if_neg hne]
      have hs := signalAll_spec (cutoff := t.now - 5 * sec) (hn t (by simp)) h
      split at hl
      · rename_i hw
        rw [if_pos hw]
        cases i with
        | zero =>
          simp only [List.getElem?_cons_zero, Option.some.injEq] at hl
          exact ⟨t, m, rfl, hne, by simpa using h, hl.symm⟩
        | succ i => simp at hl
      · rename_i hw
        rw [if_neg hw]
        cases i with
        | zero =>
          simp only [List.getElem?_cons_zero, Option.some.injEq] at hl
          exact ⟨t, m, rfl, hne, by simpa using h, hl.symm⟩
        | succ i =>
          simp only [List.getElem?_cons_succ] at hl
          obtain ⟨t', m', h1, h2, h3, h4⟩ := ih (fun t ht => hn t (by simp [ht])) hs.1 hl
          refine ⟨t', m', by simpa using h1, h2, ?_, h4⟩
          simpa using h3

theorem cleanup_past {ts : List Turn} (hn : NoReuse ts) {m : List (Nat × Int)} {past : List Sent} (h : Past m past) :
    ∃ m', Past m' (past ++ (cleanup m ts).1.flatten) := by
  induction ts generalizing m past with
  | nil => exact ⟨m, by simpa [cleanup] using h⟩
  | cons t ts ih =>
    simp only [cleanup]
    split
    · exact ⟨m, by simpa using h⟩
    · have hs := signalAll_spec (cutoff := t.now - 5 * sec) (hn t (by simp)) h
      split
      · exact ⟨_, by simpa using hs.1⟩
      · obtain ⟨m', hm⟩ := ih (fun t ht => hn t (by simp [ht])) hs.1
        exact ⟨m', by simpa using hm⟩

theorem Past.nil : Past [] [] := ⟨by simp [termsOf], by simp⟩

/-! ## The runner -/

/-- The part of the trace that belongs to the present task. -/
inductive Open : Phase → List Obs → Prop where
  | got (r : StartResp) : Open (.got r) [.received r]
  | feeding (r : StartResp) (p : Nat) : Open (.feeding r p) [.received r, .spawn (some p)]
  | beginning (r : StartResp) (p : Option Nat) : Open (.beginning r p) [.received r, .spawn p]
  | begun (r : StartResp) (p : Option Nat) : Open (.begun r p) [.received r, .spawn p, .begun r.txn (p.getD 0)]
  | waiting (r : StartResp) (p : Nat) (late : Bool) (k : Nat) :
      Open (.waiting r p late) ([.received r, .spawn (some p), .begun r.txn p] ++ List.replicate k (.sigterm p))
  | gasping (r : StartResp) (p k : Nat) : Open (.gasping r) ([.received r, .spawn (some p), .begun r.txn p] ++
      List.replicate k (.sigterm p) ++ [.sigterm p, .finish r.txn (-15) [] false])
  | finishing (r : StartResp) (p k : Nat) (out : Output) : Open (.finishing r (some out))
      ([.received r, .spawn (some p), .begun r.txn p] ++ List.replicate k (.sigterm p) ++ [.output p out])
  | failing (r : StartResp) : Open (.finishing r none) [.received r, .spawn none, .begun r.txn 0]
  | ending {r : StartResp} {asked : Bool} {l : List Obs} : Round asked l → Open (.ending r asked) l
  | closed {p : Phase} {l : List Obs} : p = .cleaning ∨ p = .exited ∨ p = .panicked ∨ p = .stuck → Last l → Open p l

theorem round_ran_prefix (r : StartResp) (p k : Nat) {l : List Obs}
    (h : l <+: [.received r, .spawn (some p), .begun r.txn p] ++ List.replicate k (.sigterm p) ++ [.output p ⟨0, []⟩, .finish r.txn 0 [] false]) :
    Last l := .part (.ran r p k ⟨0, []⟩ false) h

theorem Open.last {p : Phase} {l : List Obs} (h : Open p l) : Last l := by
  cases h with
  | got r => exact .part (.failed r true) ⟨[.spawn none, .begun r.txn 0, .finish r.txn 13 [] true], rfl⟩
  | feeding r p => exact .part (.ran r p 0 ⟨0, []⟩ true) ⟨[.begun r.txn p, .output p ⟨0, []⟩, .finish r.txn 0 [] true], rfl⟩
  | beginning r p =>
    cases p with
    | none => exact .part (.failed r true) ⟨[.begun r.txn 0, .finish r.txn 13 [] true], rfl⟩
    | some p => exact .part (.ran r p 0 ⟨0, []⟩ true) ⟨[.begun r.txn p, .output p ⟨0, []⟩, .finish r.txn 0 [] true], rfl⟩
  | begun r p =>
    cases p with
    | none => exact .part (.failed r true) ⟨[.finish r.txn 13 [] true], rfl⟩
    | some p => exact .part (.ran r p 0 ⟨0, []⟩ true) ⟨[.output p ⟨0, []⟩, .finish r.txn 0 [] true], rfl⟩
  | waiting r p late k => exact .part (.ran r p k ⟨0, []⟩ true) (List.prefix_append _ _)
  | gasping r p k => exact .slurm r p k
  | finishing r p k out => exact .part (.ran r p k out true) ⟨[.finish r.txn out.code out.values true], by simp⟩
  | failing r => exact .part (.failed r true) ⟨[.finish r.txn 13 [] true], rfl⟩
  | ending h => exact .part h (List.prefix_refl _)
  | closed _ h => exact h

/-- The whole trace. -/
def Traced (p : Phase) (tr : List Obs) : Prop :=
  (p = .top ∧ tr = []) ∨
  (tr = [.start] ∧ (p = .starting ∨ p = .cleaning ∨ p = .exited)) ∨
  ∃ (rounds : List (List Obs)) (rest : List Obs), (∀ x ∈ rounds, Round true x) ∧ Open p rest ∧ tr = .start :: (rounds.flatten ++ rest)

theorem Traced.move {p p' : Phase} {tr obs : List Obs} (h : Traced p tr) (h1 : p ≠ .top) (h2 : p ≠ .starting) (h3 : p ≠ .cleaning)
    (h4 : p ≠ .exited) (hm : ∀ l, Open p l → Open p' (l ++ obs)) : Traced p' (tr ++ obs) := by
  rcases h with ⟨e, _⟩ | ⟨_, h⟩ | ⟨rounds, rest, hr, ho, e⟩
  · exact absurd e h1
  · rcases h with h | h | h
    · exact absurd h h2
    · exact absurd h h3
    · exact absurd h h4
  · exact .inr (.inr ⟨rounds, rest ++ obs, hr, hm rest ho, by rw [e]; simp⟩)

theorem Traced.clean {p p' : Phase} {tr : List Obs} (h : Traced p tr) (h1 : p ≠ .top) (h2 : p ≠ .starting) (h3 : p ≠ .cleaning)
    (h4 : p ≠ .exited) (hp : p' = .cleaning ∨ p' = .exited ∨ p' = .panicked ∨ p' = .stuck) : Traced p' (tr ++ []) :=
  h.move h1 h2 h3 h4 (fun l hl => by rw [List.append_nil]; exact .closed hp hl.last)

theorem Traced.step (h : Traced s.phase s.trace) (hs : step c s a = .ok s') : Traced s'.phase s'.trace := by
  have mv : ∀ {p : Phase} {s1 : State} (p' : Phase) (obs : List Obs), s.phase = p → p ≠ .top → p ≠ .starting → p ≠ .cleaning →
      p ≠ .exited → s1.trace = s.trace → (∀ l, Open p l → Open p' (l ++ obs)) → Traced (s1.goto p' obs).phase (s1.goto p' obs).trace := by
    intro p s1 p' obs e h1 h2 h3 h4 et hm
    rw [e] at h
    simp only [State.goto, et]
    exact h.move h1 h2 h3 h4 hm
  have cl : ∀ {p : Phase} (p' : Phase), s.phase = p → p ≠ .top → p ≠ .starting → p ≠ .cleaning →
      p ≠ .exited → (p' = .cleaning ∨ p' = .exited ∨ p' = .panicked ∨ p' = .stuck) → Traced (s.goto p' []).phase (s.goto p' []).trace := by
    intro p p' e h1 h2 h3 h4 hp
    rw [e] at h
    exact h.clean h1 h2 h3 h4 hp
  cases a with
  | tick d => cases hs; exact h
  | usr1 => cases hs; exact h
  | lose => cases hs; exact h
  | childEnds pid =>
    simp only [Remote.step] at hs
    split at hs <;> cases hs
    exact h
  | sendStart =>
    simp only [Remote.step] at hs
    split at hs
    · rename_i hp
      cases hs
      rw [hp] at h
      rcases h with ⟨_, e⟩ | ⟨_, h⟩ | ⟨_, _, _, ho, _⟩
      · exact .inr (.inl ⟨by simp [State.goto, e], .inl rfl⟩)
      · rcases h with h | h | h <;> cases h
      · cases ho with
        | closed hp _ => rcases hp with h | h | h | h <;> cases h
    · cases hs
  | startReply r =>
    cases r with
    | none =>
      simp only [Remote.step] at hs
      split at hs
      · rename_i hp
        cases hs
        rw [hp] at h
        rcases h with ⟨e, _⟩ | ⟨e, h⟩ | ⟨_, _, _, ho, _⟩
        · cases e
        · exact .inr (.inl ⟨by simp [State.goto, e], .inr (.inl rfl)⟩)
        · cases ho with
          | closed hp _ => rcases hp with h | h | h | h <;> cases h
      · cases hs
    | some r =>
      simp only [Remote.step] at hs
      split at hs
      · rename_i hp
        cases hs
        rw [hp] at h
        rcases h with ⟨e, _⟩ | ⟨e, h⟩ | ⟨_, _, _, ho, _⟩
        · cases e
        · exact .inr (.inr ⟨[], _, by simp, .got r, by simp [State.goto, e]⟩)
        · cases ho with
          | closed hp _ => rcases hp with h | h | h | h <;> cases h
      · cases hs
  | spawn pid =>
    simp only [Remote.step] at hs
    split at hs
    · rename_i r hp
      split at hs
      · cases hs
        exact cl _ hp (by simp) (by simp) (by simp) (by simp) (by simp)
      · split at hs
        · cases hs
          refine mv _ _ hp (by simp) (by simp) (by simp) (by simp) rfl ?_
          intro l hl
          cases hl with
          | got => exact .beginning r none
          | closed hp _ => rcases hp with h | h | h | h <;> cases h
        · split at hs
          · cases hs
          · cases hs
            refine mv _ _ hp (by simp) (by simp) (by simp) (by simp) rfl ?_
            intro l hl
            cases hl with
            | got =>
              split
              · exact .feeding r _
              · exact .beginning r (some _)
            | closed hp _ => rcases hp with h | h | h | h <;> cases h
    · cases hs
  | fed ok =>
    simp only [Remote.step] at hs
    split at hs
    · rename_i r p hp
      split at hs
      · cases hs
        refine mv _ _ hp (by simp) (by simp) (by simp) (by simp) rfl ?_
        intro l hl
        cases hl with
        | feeding => exact .beginning r (some p)
        | closed hp _ => rcases hp with h | h | h | h <;> cases h
      · cases hs
        exact cl _ hp (by simp) (by simp) (by simp) (by simp) (by simp)
    · cases hs
  | sendBegun =>
    simp only [Remote.step] at hs
    split at hs
    · rename_i r p hp
      cases hs
      refine mv _ _ hp (by simp) (by simp) (by simp) (by simp) rfl ?_
      intro l hl
      cases hl with
      | beginning => exact .begun r p
      | closed hp _ => rcases hp with h | h | h | h <;> cases h
    · cases hs
  | begunReply ok =>
    simp only [Remote.step] at hs
    split at hs
    · rename_i r p hp
      split at hs
      · split at hs
        · cases hs
          refine mv _ _ hp (by simp) (by simp) (by simp) (by simp) rfl ?_
          intro l hl
          cases hl with
          | begun => exact .waiting r _ false 0
          | closed hp _ => rcases hp with h | h | h | h <;> cases h
        · cases hs
          refine mv _ _ hp (by simp) (by simp) (by simp) (by simp) rfl ?_
          intro l hl
          cases hl with
          | begun => exact .failing r
          | closed hp _ => rcases hp with h | h | h | h <;> cases h
      · cases hs
        exact cl _ hp (by simp) (by simp) (by simp) (by simp) (by simp)
    · cases hs
  | giveUp =>
    simp only [Remote.step] at hs
    split at hs
    · split at hs
      all_goals first
        | (cases hs; done)
        | (rename_i hp; cases hs; exact cl _ hp (by simp) (by simp) (by simp) (by simp) (by simp))
    · cases hs
  | output out =>
    simp only [Remote.step] at hs
    split at hs
    · rename_i r p late hp
      split at hs
      · cases hs
      · cases hs
        refine mv _ _ hp (by simp) (by simp) (by simp) (by simp) rfl ?_
        intro l hl
        cases hl with
        | waiting _ _ _ k => exact .finishing r p k out
        | closed hp _ => rcases hp with h | h | h | h <;> cases h
    · cases hs
  | waitFails =>
    simp only [Remote.step] at hs
    split at hs
    · rename_i hp
      cases hs
      exact cl _ hp (by simp) (by simp) (by simp) (by simp) (by simp)
    · cases hs
  | slurm =>
    simp only [Remote.step] at hs
    split at hs
    · rename_i r p late hp
      cases hs
      refine mv _ _ hp (by simp) (by simp) (by simp) (by simp) rfl ?_
      intro l hl
      cases hl with
      | waiting _ _ _ k => exact .gasping r p k
      | closed hp _ => rcases hp with h | h | h | h <;> cases h
    · cases hs
  | gasped =>
    simp only [Remote.step] at hs
    split at hs
    · rename_i hp
      cases hs
      exact cl _ hp (by simp) (by simp) (by simp) (by simp) (by simp)
    · cases hs
  | deadline =>
    simp only [Remote.step] at hs
    split at hs
    · rename_i r p late hp
      split at hs
      · cases hs
        refine mv _ _ hp (by simp) (by simp) (by simp) (by simp) rfl ?_
        intro l hl
        cases hl with
        | waiting _ _ _ k =>
          rw [List.append_assoc, ← List.replicate_succ']
          exact .waiting r p true (k + 1)
        | closed hp _ => rcases hp with h | h | h | h <;> cases h
      · cases hs
    · cases hs
  | sendEnd =>
    simp only [Remote.step] at hs
    split at hs
    · rename_i r out hp
      cases hs
      refine mv _ _ hp (by simp) (by simp) (by simp) (by simp) rfl ?_
      intro l hl
      cases hl with
      | finishing _ p k out =>
        have := Round.ran r p k out (accepting c s)
        refine .ending ?_
        simpa [endRequest] using this
      | failing =>
        refine .ending ?_
        exact .failed r _
      | closed hp _ => rcases hp with h | h | h | h <;> cases h
    · cases hs
  | endReply r =>
    simp only [Remote.step] at hs
    split at hs
    · rename_i r0 asked hp
      split at hs
      · cases hs
        exact cl _ hp (by simp) (by simp) (by simp) (by simp) (by simp)
      · cases hs
        exact cl _ hp (by simp) (by simp) (by simp) (by simp) (by simp)
      · split at hs
        · rename_i r' hasked
          cases hs
          rw [hp] at h
          rcases h with ⟨e, _⟩ | ⟨_, h⟩ | ⟨rounds, rest, hr, ho, e⟩
          · cases e
          · rcases h with h | h | h <;> cases h
          · cases ho with
            | ending hround =>
              refine .inr (.inr ⟨rounds ++ [rest], _, ?_, .got r', by simp [State.goto, e]⟩)
              intro x hx
              rcases List.mem_append.1 hx with hx | hx
              · exact hr x hx
              · simp only [List.mem_singleton] at hx; subst hx; rw [hasked] at hround; exact hround
            | closed hp _ => rcases hp with h | h | h | h <;> cases h
        · cases hs
    · cases hs
  | cleaned =>
    simp only [Remote.step] at hs
    split at hs
    · rename_i hp
      split at hs
      · cases hs
        rw [hp] at h
        simp only [State.goto, List.append_nil]
        rcases h with ⟨e, _⟩ | ⟨e, _⟩ | ⟨rounds, rest, hr, ho, e⟩
        · cases e
        · exact .inr (.inl ⟨e, .inr (.inr rfl)⟩)
        · exact .inr (.inr ⟨rounds, rest, hr, .closed (.inr (.inl rfl)) ho.last, e⟩)
      · cases hs
    · cases hs

theorem Reach.run {c : Cfg} {as bs : List Act} {s s' : State} (h : Reach c as s) (hr : run c s bs = some s') : Reach c (as ++ bs) s' := by
  induction bs generalizing as s with
  | nil => cases hr; simpa using h
  | cons b bs ih =>
    simp only [Remote.run] at hr
    split at hr
    · rename_i s1 h1
      have := ih (.snoc h h1) hr
      simpa using this
    · cases hr

theorem run_append {c : Cfg} {s : State} {as bs : List Act} : run c s (as ++ bs) = (run c s as).bind (run c · bs) := by
  induction as generalizing s with
  | nil => rfl
  | cons a as ih =>
    simp only [List.cons_append, run]
    split
    · exact ih
    · rfl

/-- What each step keeps is kept by runs. -/
theorem run_induct {c : Cfg} {P : State → Prop} (h : ∀ {s a s'}, P s → step c s a = .ok s' → P s') {s s' : State} {bs : List Act}
    (h0 : P s) (hr : run c s bs = some s') : P s' := by
  induction bs generalizing s with
  | nil => cases hr; exact h0
  | cons b bs ih =>
    simp only [run] at hr
    split at hr
    · rename_i h1; exact ih (h h0 h1) hr
    · cases hr

theorem Reach.traced (h : Reach c as s) : Traced s.phase s.trace := by
  induction h with
  | init => exact Or.inl ⟨rfl, rfl⟩
  | snoc _ hs ih => exact ih.step hs

/-- A task is on its way. -/
def pending : Phase → Nat
  | .top => 1
  | .starting => 1
  | .ending _ true => 1
  | _ => 0

theorem received_append (l l' : List Obs) : received (l ++ l') = received l + received l' := List.countP_append

theorem sigterms_append (p : Nat) (l l' : List Obs) : sigterms p (l ++ l') = sigterms p l + sigterms p l' := List.countP_append

/-- Solves goals on single steps by cases. -/
local macro "by_steps" h:ident : tactic =>
  `(tactic| (simp only [Remote.step] at $h:ident; repeat' split at $h:ident))

theorem not_accepting {c : Cfg} {s s' : State} {a : Act} (h : accepting c s = false) (hs : step c s a = .ok s') : accepting c s' = false := by
  have key : (s.usr1 = true → s'.usr1 = true) ∧ s.now ≤ s'.now := by
    cases a <;> by_steps hs <;> (try (cases hs; done)) <;> cases hs <;> simp [State.goto] <;> omega
  unfold accepting at h ⊢
  rw [Bool.and_eq_false_iff] at h ⊢
  rcases h with h | h
  · left; simp at h ⊢; exact key.1 h
  · right
    split at h
    · cases h
    · simp at h ⊢; omega

theorem pending_step {c : Cfg} {s s' : State} {a : Act} (h : accepting c s = false) (hs : step c s a = .ok s') :
    received s'.trace + pending s'.phase ≤ received s.trace + pending s.phase := by
  cases a <;> by_steps hs <;> (try (cases hs; done)) <;> cases hs <;> simp_all [State.goto, received_append, pending, received, endRequest]
  rename_i out _
  cases out <;> simp

theorem received_mono {c : Cfg} {s s' : State} {a : Act} (hs : step c s a = .ok s') : received s.trace ≤ received s'.trace := by
  have : ∃ l, s'.trace = s.trace ++ l := by
    cases a with
    | startReply r =>
      cases r <;> by_steps hs <;> (try (cases hs; done)) <;> cases hs <;> exact ⟨_, rfl⟩
    | tick d => cases hs; exact ⟨[], by simp⟩
    | usr1 => cases hs; exact ⟨[], by simp⟩
    | lose => cases hs; exact ⟨[], by simp⟩
    | childEnds p => by_steps hs <;> cases hs; exact ⟨[], by simp⟩
    | _ => by_steps hs <;> (try (cases hs; done)) <;> cases hs <;> exact ⟨_, rfl⟩
  obtain ⟨l, e⟩ := this
  rw [e, received_append]
  omega

theorem frozen {c : Cfg} {s s' : State} {a : Act} (h : s.phase = .panicked ∨ s.phase = .stuck) (hs : step c s a = .ok s') :
    s'.phase = s.phase ∧ s'.trace = s.trace := by
  rcases h with h | h <;> cases a <;> by_steps hs <;> (try (cases hs; done)) <;> cases hs <;> simp_all

theorem feeding_step {c : Cfg} {s s' : State} {a : Act} {r : StartResp} {p : Nat} (h : s.phase = .feeding r p) (ha : ∀ ok, a ≠ .fed ok)
    (hs : step c s a = .ok s') : s'.phase = .feeding r p ∧ s'.trace = s.trace := by
  cases a <;> by_steps hs <;> (try (cases hs; done)) <;> cases hs <;> simp_all

theorem exited_step {c : Cfg} {s s' : State} {a : Act} (ih : s.phase = .exited → s.running = []) (hs : step c s a = .ok s')
    (h : s'.phase = .exited) : s'.running = [] := by
  cases a <;> by_steps hs <;> (try (cases hs; done)) <;> cases hs <;> simp_all [State.goto]

theorem sigterm_step {c : Cfg} {s s' : State} {a : Act} {pid : Nat} (hs : step c s a = .ok s')
    (h : sigterms pid s.trace < sigterms pid s'.trace) :
    Remote.deadline c.startTime c.duration ≤ s.now ∨
    ∃ r : StartResp, s'.trace = s.trace ++ [.sigterm pid, .finish r.txn (-15) [] false] := by
  have one : ∀ {l : List Obs}, s'.trace = s.trace ++ l → sigterms pid l ≠ 0 := by
    intro l e h0
    rw [e, sigterms_append, h0] at h
    omega
  cases a with
  | slurm =>
    by_steps hs
    · rename_i r p late hp
      cases hs
      by_cases e : p = pid
      · exact .inr ⟨r, by rw [e]; rfl⟩
      · exact absurd (by simp [sigterms, e]) (one rfl)
    · cases hs
  | deadline =>
    by_steps hs
    · left; assumption
    · cases hs
    · cases hs
  | sendEnd =>
    by_steps hs
    · rename_i r out hp
      cases hs
      exact absurd (by cases out <;> simp [sigterms, endRequest]) (one rfl)
    · cases hs
  | startReply r =>
    cases r <;> by_steps hs
    all_goals first
      | (cases hs; done)
      | (cases hs; simp [State.goto, sigterms] at h; done)
  | _ =>
    by_steps hs
    all_goals first
      | (cases hs; done)
      | (cases hs; simp [State.goto, sigterms] at h; done)

theorem storm {c : Cfg} (n : Nat) {s : State} {r : StartResp} {p : Nat} (hp : ∃ l, s.phase = .waiting r p l)
    (hd : Remote.deadline c.startTime c.duration ≤ s.now) :
    ∃ s', run c s (List.replicate n .deadline) = some s' ∧ s'.now = s.now ∧ sigterms p s'.trace = sigterms p s.trace + n := by
  induction n generalizing s with
  | zero => exact ⟨s, rfl, rfl, rfl⟩
  | succ n ih =>
    obtain ⟨l, hp⟩ := hp
    have h1 : step c s .deadline = .ok (s.goto (.waiting r p true) [.sigterm p]) := by
      simp only [step, hp, if_pos hd]
    obtain ⟨s', g1, g2, g3⟩ := ih (s := s.goto (.waiting r p true) [.sigterm p]) ⟨true, rfl⟩ hd
    refine ⟨s', ?_, g2, ?_⟩
    · simp only [List.replicate_succ, run, h1]; exact g1
    · rw [g3]
      simp only [State.goto, sigterms_append]
      simp [sigterms]; omega

theorem hole {c : Cfg} (n : Nat) {s : State} {r : StartResp} (hc : c.maxTimeAccepting = none)
    (hs : s.phase = .ending r true ∧ s.running = [] ∧ s.usr1 = false)
    (hd : Remote.deadline c.startTime c.duration ≤ s.now) {r' : StartResp} (hcmd : r'.cmdline ≠ []) (hfd : r'.inputFd = none) :
    ∃ bs s', run c s bs = some s' ∧ s'.now = s.now ∧ received s'.trace = received s.trace + n ∧
      sigterms 10 s'.trace = sigterms 10 s.trace + n := by
  induction n generalizing s r with
  | zero => exact ⟨[], s, rfl, rfl, rfl, rfl⟩
  | succ n ih =>
    obtain ⟨now, usr1, lost, phase, running, trace⟩ := s
    simp only at hs hd
    obtain ⟨rfl, rfl, rfl⟩ := hs
    have e : run c ⟨now, false, lost, .ending r true, [], trace⟩ [.endReply (some (some r')), .spawn (some 10), .sendBegun,
        .begunReply true, .deadline, .childEnds 10, .output ⟨-15, []⟩, .sendEnd] =
        some ⟨now, false, false, .ending r' true, [], trace ++ [.received r', .spawn (some 10), .begun r'.txn 10, .sigterm 10,
          .output 10 ⟨-15, []⟩, .finish r'.txn (-15) [] true]⟩ := by
      simp [run, step, State.goto, hcmd, hfd, hd, accepting, hc, endRequest]
    obtain ⟨bs, s', h1, h2, h3, h4⟩ := ih (s := ⟨now, false, false, .ending r' true, [], trace ++ [.received r', .spawn (some 10), .begun r'.txn 10, .sigterm 10,
          .output 10 ⟨-15, []⟩, .finish r'.txn (-15) [] true]⟩) ⟨rfl, rfl, rfl⟩ hd
    refine ⟨_ ++ bs, s', by rw [run_append, e]; exact h1, h2, ?_, ?_⟩
    · rw [h3, received_append]; simp [received]; omega
    · rw [h4, sigterms_append]; simp [sigterms]; omega

end Verif.Remote
