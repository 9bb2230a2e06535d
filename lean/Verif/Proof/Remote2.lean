import Verif.Proof.Remote
import Verif.Spec.Cluster

/-!
# What a runner has received, and how its requests come about (proofs)
-/

namespace Verif.Remote
open Verif

variable {c : Cfg} {s s' : State} {a : Act} {as : List Act}

/-- Tasks received. -/
def recvs (l : List Obs) : List StartResp := l.filterMap (fun o => match o with | .received r => some r | _ => none)

theorem recvs_append (l l' : List Obs) : recvs (l ++ l') = recvs l ++ recvs l' := List.filterMap_append

theorem mem_recvs {l : List Obs} {q : StartResp} : q ∈ recvs l ↔ .received q ∈ l := by
  unfold recvs
  rw [List.mem_filterMap]
  constructor
  · rintro ⟨o, ho, h⟩
    cases o <;> simp at h
    subst h; exact ho
  · intro h; exact ⟨_, h, rfl⟩

/-- What an action adds to the trace, if it is not an answer. -/
theorem step_obs (ha : Cluster.isAnswer a = false) (hs : step c s a = .ok s') :
    ∃ l, s'.trace = s.trace ++ l ∧ recvs l = [] ∧ (∀ q, s'.phase = .got q → s.phase = .got q ∧ l = []) ∧
      (∀ T pid, .begun T pid ∈ l → ∃ r p, s.phase = .beginning r p ∧ r.txn = T ∧ pid = p.getD 0 ∧ l = [.begun T pid]) := by
  cases a with
  | startReply r => cases ha
  | begunReply r => cases ha
  | endReply r => cases ha
  | gasped => cases ha
  | sendEnd =>
    simp only [Remote.step] at hs
    split at hs
    · rename_i r out hp
      simp only [Res.ok.injEq] at hs; subst hs
      refine ⟨_, rfl, ?_, ?_, ?_⟩
      · cases out <;> rfl
      · intro q h; cases h
      · intro T pid h; cases out <;> simp [endRequest] at h
    · cases hs
  | _ =>
    simp only [Remote.step] at hs
    repeat' split at hs
    all_goals first
      | (cases hs; done)
      | (simp only [Res.ok.injEq] at hs; subst hs
         refine ⟨_, rfl, rfl, ?_, ?_⟩
         · intro q h
           first | (cases h; done) | (split at h <;> cases h)
         · intro T pid h
           first
             | (simp at h; done)
             | (simp only [List.mem_singleton, Obs.begun.injEq] at h
                obtain ⟨rfl, rfl⟩ := h
                exact ⟨_, _, by assumption, rfl, rfl, rfl⟩))
      | (simp only [Res.ok.injEq] at hs; subst hs
         exact ⟨[], by simp, rfl, fun q h => ⟨h, rfl⟩, fun T pid h => by simp at h⟩)

theorem Reach.got (h : Reach c as s) {q : StartResp} (hp : s.phase = .got q) : ∃ pre, s.trace = pre ++ [.received q] := by
  have := h.traced
  rw [hp] at this
  rcases this with ⟨e, _⟩ | ⟨_, e⟩ | ⟨rounds, rest, hr, ho, e⟩
  · cases e
  · rcases e with e | e | e <;> cases e
  · cases ho with
    | got => exact ⟨.start :: rounds.flatten, by rw [e]; simp⟩
    | closed h _ => rcases h with e | e | e | e <;> cases e

theorem Round.begun {next : Bool} {l : List Obs} (h : Round next l) {T pid : Nat} (hb : .begun T pid ∈ l) :
    ∃ q, .received q ∈ l ∧ q.txn = T := by
  cases h with
  | failed r n => simp at hb; exact ⟨r, by simp, hb.1.symm⟩
  | ran r p k out n => simp at hb; exact ⟨r, by simp, hb.1.symm⟩

theorem Reach.beginning (h : Reach c as s) {q : StartResp} {p : Option Nat} (hp : s.phase = .beginning q p) :
    ∃ pre, s.trace = pre ++ [.received q, .spawn p] ∧ ∀ T pid, .begun T pid ∈ pre → ∃ q', q' ∈ recvs pre ∧ q'.txn = T := by
  have := h.traced
  rw [hp] at this
  rcases this with ⟨e, _⟩ | ⟨_, e⟩ | ⟨rounds, rest, hr, ho, e⟩
  · cases e
  · rcases e with e | e | e <;> cases e
  · cases ho with
    | beginning =>
      refine ⟨.start :: rounds.flatten, by rw [e]; simp, ?_⟩
      intro T pid hm
      simp only [List.mem_cons, reduceCtorEq, List.mem_flatten, false_or] at hm
      obtain ⟨x, hx, hb⟩ := hm
      obtain ⟨q', h1, h2⟩ := (hr x hx).begun hb
      exact ⟨q', mem_recvs.2 (List.mem_cons_of_mem _ (List.mem_flatten.2 ⟨x, hx, h1⟩)), h2⟩
    | closed h _ => rcases h with e | e | e | e <;> cases e

/-- Everything but the first request belongs to the work on one task. -/
theorem Reach.part (h : Reach c as s) {o : Obs} (ho : o ∈ s.trace) (hs : o ≠ .start) : ∃ l, Last l ∧ o ∈ l ∧ l <:+: s.trace := by
  rcases h.traced with ⟨_, e⟩ | ⟨e, _⟩ | ⟨rounds, rest, hr, hop, e⟩
  · rw [e] at ho; cases ho
  · rw [e, List.mem_singleton] at ho; exact absurd ho hs
  · rw [e] at ho ⊢
    simp only [List.mem_cons, List.mem_append, List.mem_flatten] at ho
    rcases ho with ho | ⟨x, hx, hox⟩ | ho
    · exact absurd ho hs
    · refine ⟨x, .part (hr x hx) (List.prefix_refl _), hox, ?_⟩
      obtain ⟨l1, l2, rfl⟩ := List.append_of_mem hx
      exact ⟨.start :: l1.flatten, l2.flatten ++ rest, by simp⟩
    · exact ⟨rest, hop.last, ho, ⟨.start :: rounds.flatten, [], by simp⟩⟩

theorem begun_prefix {q : StartResp} {p : Option Nat} {l rest : List Obs} {T pid : Nat}
    (h : l <+: [.received q, .spawn p, .begun q.txn (p.getD 0)] ++ rest) (hr : ∀ T pid, .begun T pid ∉ rest) (hb : .begun T pid ∈ l) :
    q.txn = T ∧ pid = p.getD 0 ∧ [.received q, .spawn p, .begun T pid] <:+: l := by
  have hmem := h.subset hb
  have hq : q.txn = T ∧ pid = p.getD 0 := by
    rcases List.mem_append.1 hmem with hm | hm
    · simp at hm; exact ⟨hm.1.symm, hm.2⟩
    · exact absurd hm (hr T pid)
  obtain ⟨rfl, rfl⟩ := hq
  refine ⟨rfl, rfl, ?_⟩
  rcases List.prefix_or_prefix_of_prefix h (List.prefix_append _ _) with h1 | h1
  · have h2 : l <+: [Obs.received q, .spawn p] ++ [.begun q.txn (p.getD 0)] := h1
    rcases List.prefix_concat_iff.1 h2 with e | h3
    · rw [e]; exact List.infix_rfl
    · have := h3.subset hb
      simp at this
  · exact h1.isInfix

theorem Last.begun {l : List Obs} (h : Last l) {T pid : Nat} (hb : .begun T pid ∈ l) :
    ∃ q p, q.txn = T ∧ pid = p.getD 0 ∧ [.received q, .spawn p, .begun T pid] <:+: l := by
  cases h with
  | @part nx _ _ hr hp =>
    cases hr with
    | failed r =>
      obtain ⟨h1, h2, h3⟩ := begun_prefix (q := r) (p := none) (rest := [.finish r.txn 13 [] nx]) hp (by simp) hb
      exact ⟨r, none, h1, h2, h3⟩
    | ran r p k out =>
      rw [List.append_assoc] at hp
      obtain ⟨h1, h2, h3⟩ := begun_prefix (q := r) (p := some p) hp (by simp [List.mem_replicate]) hb
      exact ⟨r, some p, h1, h2, h3⟩
  | slurm r p k =>
    rw [List.append_assoc] at hb ⊢
    obtain ⟨h1, h2, h3⟩ := begun_prefix (q := r) (p := some p) (List.prefix_refl _) (by simp [List.mem_replicate]) hb
    exact ⟨r, some p, h1, h2, h3⟩

theorem Last.finish {l : List Obs} (h : Last l) {T : Nat} {code : Int} {values : List (List (String × String))} {n : Bool}
    (hb : .finish T code values n ∈ l) : ∃ q story, q.txn = T ∧ Cluster.Story q code values story ∧ story <:+: l := by
  cases h with
  | @part nx _ _ hr hp =>
    cases hr with
    | failed r =>
      have h2 : l <+: [Obs.received r, .spawn none, .begun r.txn 0] ++ [.finish r.txn 13 [] nx] := hp
      rcases List.prefix_concat_iff.1 h2 with e | h3
      · rw [e] at hb ⊢
        simp at hb
        obtain ⟨rfl, rfl, rfl, rfl⟩ := hb
        exact ⟨r, _, rfl, .failed _, List.infix_rfl⟩
      · have := h3.subset hb; simp at this
    | ran r p k out =>
      have h2 : l <+: ([Obs.received r, .spawn (some p), .begun r.txn p] ++ List.replicate k (.sigterm p) ++ [.output p out]) ++
          [.finish r.txn out.code out.values nx] := by rw [List.append_assoc _ [_] [_]]; exact hp
      rcases List.prefix_concat_iff.1 h2 with e | h3
      · rw [e] at hb ⊢
        simp [List.mem_replicate] at hb
        obtain ⟨rfl, rfl, rfl, rfl⟩ := hb
        exact ⟨r, _, rfl, .ran p k out _, by rw [List.append_assoc _ [_] [_]]; exact List.infix_rfl⟩
      · have := h3.subset hb; simp [List.mem_replicate] at this
  | slurm r p k =>
    simp [List.mem_replicate] at hb
    obtain ⟨rfl, rfl, rfl, rfl⟩ := hb
    exact ⟨r, _, rfl, .slurm p k, List.infix_rfl⟩

/-- Before every announcement the task was received and its process started. -/
theorem Reach.begunOf (h : Reach c as s) {T pid : Nat} (hb : .begun T pid ∈ s.trace) :
    ∃ q p, q.txn = T ∧ pid = p.getD 0 ∧ [.received q, .spawn p, .begun T pid] <:+: s.trace := by
  obtain ⟨l, h1, h2, h3⟩ := h.part hb (by simp)
  obtain ⟨q, p, e1, e2, h4⟩ := h1.begun h2
  exact ⟨q, p, e1, e2, h4.trans h3⟩

/-- Every report tells what happened. -/
theorem Reach.finishOf (h : Reach c as s) {T : Nat} {code : Int} {values : List (List (String × String))} {n : Bool}
    (hb : .finish T code values n ∈ s.trace) : ∃ q story, q.txn = T ∧ Cluster.Story q code values story ∧ story <:+: s.trace := by
  obtain ⟨l, h1, h2, h3⟩ := h.part hb (by simp)
  obtain ⟨q, st, e1, e2, h4⟩ := h1.finish h2
  exact ⟨q, st, e1, e2, h4.trans h3⟩

end Verif.Remote
