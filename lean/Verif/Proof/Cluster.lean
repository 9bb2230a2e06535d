import Verif.Proof.Remote2
import Verif.Proof.System9

/-!
# Server and runners together (proofs)
-/

namespace Verif.Cluster
open Verif

variable {c : Sys.Cfg} {lf : LogFile} {now : Int} {s s' : State} {as : List Act} {a : Act}

/-! ### runs -/

theorem Runs.append {s1 s2 s3 : State} {as bs : List Act} (h1 : Runs c s1 as s2) (h2 : Runs c s2 bs s3) :
    Runs c s1 (as ++ bs) s3 := by
  induction h1 with
  | nil => exact h2
  | cons hs _ ih => exact .cons hs (ih h2)

theorem Runs.snoc {s1 s2 s3 : State} {as : List Act} {a : Act} (h1 : Runs c s1 as s2) (hs : step c s2 a = .ok s3) :
    Runs c s1 (as ++ [a]) s3 := h1.append (.cons hs (.nil _))

theorem Runs.snocInd {s0 : State} {P : List Act → State → Prop} (h0 : P [] s0)
    (hstep : ∀ as s a s', Runs c s0 as s → P as s → step c s a = .ok s' → P (as ++ [a]) s') {as : List Act} {s : State}
    (hr : Runs c s0 as s) : P as s := by
  suffices h : ∀ {s1 bs s2}, Runs c s1 bs s2 → ∀ as, Runs c s0 as s1 → P as s1 → P (as ++ bs) s2 by
    have := h hr [] (.nil _) h0
    simpa using this
  intro s1 bs s2 hr
  induction hr with
  | nil => intro as _ h; simpa using h
  | cons hs _ ih =>
    intro as h1 h2
    have := ih (as ++ [_]) (h1.snoc hs) (hstep _ _ _ _ h1 h2 hs)
    simpa using this

theorem collect_append {β : Type} {f : State → Act → List β} {as bs : List Act} (hr : Runs c s as s') :
    collect f c s (as ++ bs) = collect f c s as ++ collect f c s' bs := by
  induction hr with
  | nil => rfl
  | cons hs _ ih => simp only [List.cons_append, collect, hs, ih, List.append_assoc]

theorem collect_snoc {β : Type} {f : State → Act → List β} {as : List Act} {a : Act} (hr : Runs c s as s') :
    collect f c s (as ++ [a]) = collect f c s as ++ f s' a := by
  rw [collect_append hr]
  simp only [collect]
  cases step c s' a <;> simp

/-! ### lists -/

theorem unique_index {α : Type} {f : α → List Nat} {x : Nat} : ∀ {l : List α} {i j : Nat} {a b : α},
    (l.flatMap f).count x ≤ 1 → l[i]? = some a → l[j]? = some b → x ∈ f a → x ∈ f b → i = j
  | [], i, j, a, b, _, h, _, _, _ => by simp at h
  | y :: l, 0, 0, a, b, _, _, _, _, _ => rfl
  | y :: l, 0, j + 1, a, b, hc, hi, hj, ha, hb => by
    exfalso
    simp only [List.getElem?_cons_zero, Option.some.injEq] at hi
    simp only [List.getElem?_cons_succ] at hj
    subst hi
    rw [List.flatMap_cons, List.count_append] at hc
    have h1 := List.count_pos_iff.2 ha
    have h2 : 0 < (l.flatMap f).count x := List.count_pos_iff.2 (List.mem_flatMap.2 ⟨b, List.mem_of_getElem? hj, hb⟩)
    omega
  | y :: l, i + 1, 0, a, b, hc, hi, hj, ha, hb => by
    exfalso
    simp only [List.getElem?_cons_zero, Option.some.injEq] at hj
    simp only [List.getElem?_cons_succ] at hi
    subst hj
    rw [List.flatMap_cons, List.count_append] at hc
    have h1 := List.count_pos_iff.2 hb
    have h2 : 0 < (l.flatMap f).count x := List.count_pos_iff.2 (List.mem_flatMap.2 ⟨a, List.mem_of_getElem? hi, ha⟩)
    omega
  | y :: l, i + 1, j + 1, a, b, hc, hi, hj, ha, hb => by
    simp only [List.getElem?_cons_succ] at hi hj
    rw [List.flatMap_cons, List.count_append] at hc
    rw [unique_index (l := l) (i := i) (j := j) (by omega) hi hj ha hb]

theorem mem_set_iff {α : Type} {l : List α} {i : Nat} {a x : α} (h : x ∈ l.set i a) : x = a ∨ ∃ j, j ≠ i ∧ l[j]? = some x := by
  obtain ⟨j, hj⟩ := List.mem_iff_getElem?.1 h
  by_cases e : i = j
  · subst e
    rw [List.getElem?_set_self'] at hj
    cases hl : l[i]? with
    | none => rw [hl] at hj; cases hj
    | some y => rw [hl] at hj; simp at hj; exact .inl hj.symm
  · rw [List.getElem?_set_ne e] at hj; exact .inr ⟨j, Ne.symm e, hj⟩

theorem getElem?_set_cases {α : Type} {l : List α} {i j : Nat} {a x : α} (h : (l.set i a)[j]? = some x) :
    (j = i ∧ x = a ∧ i < l.length) ∨ (j ≠ i ∧ l[j]? = some x) := by
  by_cases e : i = j
  · subst e
    by_cases hl : i < l.length
    · rw [List.getElem?_set_self hl] at h; simp at h; exact .inl ⟨rfl, h.symm, hl⟩
    · rw [List.getElem?_eq_none (by simpa using hl)] at h; cases h
  · rw [List.getElem?_set_ne e] at h; exact .inr ⟨Ne.symm e, h⟩

/-! ### the invariant -/

/-- Handlers whose answers a runner has taken. -/
def hs (r : Runner) : List Nat := r.tasks.map (·.1)

structure Inv (c : Sys.Cfg) (lf : LogFile) (now : Int) (as : List Act) (s : State) : Prop where
  run : Sys.Runs c (Sys.init c lf now) (served c lf now as) s.sys
  reach : ∀ (i : Nat) (r : Runner), s.runners[i]? = some r → ∃ bs, Remote.Reach r.cfg.rem bs r.st
  sent : ∀ (k : Nat) (p : Packet), s.packets[k]? = some p → ∃ r o, s.runners[p.sender]? = some r ∧ o ∈ r.st.trace ∧ request c r.cfg o = some p.req
  hlt : ∀ (k : Nat) (p : Packet) (h : Nat), s.packets[k]? = some p → p.handler = some h → h < s.sys.handlers.length
  hinj : ∀ (k k' : Nat) (p p' : Packet) (h : Nat), s.packets[k]? = some p → s.packets[k']? = some p' → p.handler = some h →
    p'.handler = some h → k = k'
  waits : ∀ (i : Nat) (r : Runner) (k : Nat), s.runners[i]? = some r → r.waits = some k → ∃ p, s.packets[k]? = some p ∧ p.sender = i
  tasks : ∀ (i : Nat) (r : Runner) (h T v : Nat), s.runners[i]? = some r → (h, T, v) ∈ r.tasks →
    s.sys.handlers[h]? = some (.done (some (.task T v))) ∧
    ∃ k p, s.packets[k]? = some p ∧ p.handler = some h ∧ ∀ (j : Nat) (r' : Runner), s.runners[j]? = some r' → r'.waits ≠ some k
  nodup : (s.runners.flatMap hs).Nodup
  recv : ∀ (i : Nat) (r : Runner), s.runners[i]? = some r → Remote.recvs r.st.trace = r.tasks.map (fun x => resp c.tr.g x.2.1 x.2.2)
  begun : ∀ x ∈ s.sys.conns, x.2.begun = true → ∃ (k : Nat) (p : Packet), s.packets[k]? = some p ∧ p.handler ≠ none ∧
    ∃ host pid, p.req.body = .begun x.1 host pid
  once : ∀ (k k' : Nat) (p p' : Packet) (T : Nat) (h h' : String) (n n' : Nat), s.packets[k]? = some p → s.packets[k']? = some p' →
    p.req.body = .begun T h n → p'.req.body = .begun T h' n' → k = k'

theorem resp_txn (g : DiGraph Cmd) (T v : Nat) : (resp g T v).txn = T := rfl

theorem sysCollect_prefix {β : Type} {f : Sys.State → Sys.Act → List β} {bs : List Sys.Act} : ∀ {as : List Sys.Act} {t : Sys.State},
    Sys.collect f c t as <+: Sys.collect f c t (as ++ bs) := by
  intro as
  induction as with
  | nil => intro t; exact List.nil_prefix
  | cons a as ih =>
    intro t
    simp only [List.cons_append, Sys.collect]
    refine (List.prefix_append_right_inj _).2 ?_
    split
    · exact ih
    · exact List.nil_prefix

theorem Fresh.prefix (hr : Runs c (init c lf now) as s) (h : Fresh c lf now (as ++ [a])) : Fresh c lf now as := by
  unfold Fresh Sys.FreshTxns served at *
  rw [collect_snoc hr] at h
  exact h.sublist sysCollect_prefix.sublist

/-- A transaction is in one handler only. -/
theorem Inv.txn (h : Inv c lf now as s) (hf : Fresh c lf now as) {h1 h2 T v1 v2 : Nat}
    (e1 : s.sys.handlers[h1]? = some (.done (some (.task T v1)))) (e2 : s.sys.handlers[h2]? = some (.done (some (.task T v2)))) :
    h1 = h2 := by
  refine unique_index (f := Sys.tokT) (x := T) ?_ e1 e2 (by simp [Sys.tokT, Sys.tok]) (by simp [Sys.tokT, Sys.tok])
  rw [Sys.tokT_drawn h.run]
  exact List.nodup_iff_count.1 hf T

/-- A handler's answer is taken by one runner only. -/
theorem Inv.owner (h : Inv c lf now as s) {i j : Nat} {r r' : Runner} (hi : s.runners[i]? = some r) (hj : s.runners[j]? = some r')
    {x : Nat} (h1 : x ∈ hs r) (h2 : x ∈ hs r') : i = j :=
  unique_index (f := hs) (x := x) (List.nodup_iff_count.1 h.nodup x) hi hj h1 h2

theorem Inv.hsNodup (h : Inv c lf now as s) {i : Nat} {r : Runner} (hi : s.runners[i]? = some r) : (hs r).Nodup := by
  have : (hs r).Sublist (s.runners.flatMap hs) := by
    rw [List.flatMap_def]
    exact List.sublist_flatten_of_mem (List.mem_map.2 ⟨r, List.mem_of_getElem? hi, rfl⟩)
  exact h.nodup.sublist this

theorem Inv.recvTask (h : Inv c lf now as s) {i : Nat} {r : Runner} (hi : s.runners[i]? = some r) {q : Remote.StartResp}
    (hq : .received q ∈ r.st.trace) : ∃ x T v, (x, T, v) ∈ r.tasks ∧ q = resp c.tr.g T v := by
  have h1 := Remote.mem_recvs.2 hq
  rw [h.recv i r hi] at h1
  obtain ⟨⟨x, T, v⟩, h2, e⟩ := List.mem_map.1 h1
  exact ⟨x, T, v, h2, e.symm⟩

theorem request_begun {r : RCfg} {o : Remote.Obs} {q : Sys.Request} (h : request c r o = some q) {T : Nat} {host : String} {pid : Nat}
    (hb : q.body = .begun T host pid) : o = .begun T pid ∧ host = r.host := by
  cases o <;> simp only [request, Option.some.injEq, reduceCtorEq] at h
  · subst h; cases hb
  · subst h; simp only [Sys.Body.begun.injEq] at hb; exact ⟨by rw [hb.1, hb.2.2], hb.2.1.symm⟩
  · subst h; cases hb

/-- A runner that is about to announce a transaction has not done so before, nor has any other. -/
theorem Inv.notBegun (h : Inv c lf now as s) (hf : Fresh c lf now as) {i : Nat} {r : Runner} (hi : s.runners[i]? = some r)
    {q : Remote.StartResp} {o : Option Nat} (hp : r.st.phase = .beginning q o) {k : Nat} {p : Packet} (hk : s.packets[k]? = some p)
    {host : String} {n : Nat} (hb : p.req.body = .begun q.txn host n) : False := by
  obtain ⟨bs, hre⟩ := h.reach i r hi
  obtain ⟨pre, e, hpre⟩ := hre.beginning hp
  obtain ⟨r', o', hj, ho, hreq⟩ := h.sent k p hk
  obtain ⟨rfl, _⟩ := request_begun hreq hb
  obtain ⟨bs', hre'⟩ := h.reach _ _ hj
  obtain ⟨q', p', e1, e2, hin⟩ := hre'.begunOf ho
  obtain ⟨x', T', v', hx', e3⟩ := h.recvTask hj (q := q') (hin.subset (by simp))
  obtain ⟨x, T, v, hx, e4⟩ := h.recvTask hi (q := q) (by rw [e]; simp)
  have eT : T' = T := by
    have : q'.txn = q.txn := e1
    rw [e3, e4, resp_txn, resp_txn] at this; exact this
  subst eT
  have ex := h.txn hf (h.tasks _ _ _ _ _ hj hx').1 (h.tasks _ _ _ _ _ hi hx).1
  subst ex
  have eij := h.owner hj hi (List.mem_map.2 ⟨_, hx', rfl⟩) (List.mem_map.2 ⟨_, hx, rfl⟩)
  rw [eij, hi] at hj
  cases hj
  rw [e] at ho
  have ho' : .begun q.txn n ∈ pre := by
    simp only [List.mem_append, List.mem_cons, reduceCtorEq, List.not_mem_nil, or_self, or_false] at ho
    exact ho
  obtain ⟨q2, hq2, e5⟩ := hpre _ _ ho'
  have hrec := h.recv i r hi
  rw [e, Remote.recvs_append] at hrec
  obtain ⟨l1, l2, el, m1, m2⟩ := List.map_eq_append_iff.1 hrec.symm
  rw [← m1] at hq2
  obtain ⟨⟨y, U, w⟩, hy, rfl⟩ := List.mem_map.1 hq2
  obtain ⟨z, rfl, ez⟩ : ∃ z, l2 = [z] ∧ resp c.tr.g z.2.1 z.2.2 = q := by
    cases l2 with
    | nil => simp [Remote.recvs] at m2
    | cons z l =>
      cases l with
      | nil => simp [Remote.recvs] at m2; exact ⟨z, rfl, m2⟩
      | cons _ _ => simp [Remote.recvs] at m2
  obtain ⟨z1, z2, z3⟩ := z
  have hzU : z2 = U := by
    have : (resp c.tr.g U w).txn = q.txn := e5
    rw [← ez, resp_txn, resp_txn] at this
    exact this.symm
  subst hzU
  have eyz := h.txn hf (h.tasks _ _ _ _ _ hi (by rw [el]; exact List.mem_append_left _ hy)).1
    (h.tasks i r z1 z2 z3 hi (by rw [el]; simp)).1
  subst eyz
  have hnd := h.hsNodup hi
  unfold hs at hnd
  rw [el, List.map_append, List.nodup_append] at hnd
  exact hnd.2.2 y (List.mem_map.2 ⟨_, hy, rfl⟩) y (by simp) rfl

/-- The first `/begun` for a transaction. -/
theorem Inv.polite (h : Inv c lf now as s) {k : Nat} {p : Packet} (hk : s.packets[k]? = some p) (hn : p.handler = none) :
    Sys.polite c s.sys (.request p.req) = true := by
  simp only [Sys.polite]
  split
  · rename_i t T host n e1 e2
    cases hl : s.sys.conns.lookup T with
    | none => simp
    | some conn =>
      cases hbg : conn.begun with
      | false => simp [hbg]
      | true =>
        obtain ⟨k', p', hk', hn', host', pid', hb'⟩ := h.begun _ (Sys.mem_of_lookup hl) hbg
        have := h.once _ _ _ _ _ _ _ _ _ hk hk' e2 hb'
        subst this
        rw [hk] at hk'
        cases hk'
        exact absurd hn hn'
  · rfl

/-! ### preservation -/

theorem served_snoc (hr : Runs c (init c lf now) as s) : served c lf now (as ++ [a]) = served c lf now as ++ sysAct s a := collect_snoc hr

/-- A server action that is not a request of a runner. -/
theorem Inv.sysStep (h : Inv c lf now as s) (hr : Runs c (init c lf now) as s) {b : Sys.Act} {t : Sys.State}
    (he : sysAct s a = [b]) (hs : Sys.step c s.sys b = .ok t) (hpol : Sys.polite c s.sys b = true)
    (hb : ∀ r T host pid, b = .request r → r.auth = some c.secret → r.body ≠ .begun T host pid) :
    Inv c lf now (as ++ [a]) { s with sys := t } where
  run := by rw [served_snoc hr, he]; exact h.run.snoc hpol hs
  reach := h.reach
  sent := h.sent
  hlt := by
    intro k p x hk hx
    have h1 := h.hlt k p x hk hx
    have h2 : s.sys.handlers.length ≤ t.handlers.length := by
      by_cases hq : ∃ r, b = .request r
      · obtain ⟨r, rfl⟩ := hq
        have := Sys.handlers_request hs
        omega
      · have := Sys.handlers_length hs (fun r e => hq ⟨r, e⟩)
        omega
    exact Nat.lt_of_lt_of_le h1 h2
  hinj := h.hinj
  waits := h.waits
  tasks := by
    intro i r x T v hi hx
    obtain ⟨h1, h2⟩ := h.tasks i r x T v hi hx
    exact ⟨Sys.done_keeps hs h1, h2⟩
  nodup := h.nodup
  recv := h.recv
  begun := by
    intro x hx hbg
    cases Sys.cview hs x hx with
    | old y _ hy e1 e2 _ e3 => rw [e1]; exact h.begun y hy (by rw [← e3]; exact hbg)
    | begun y _ host pid hy e1 e2 _ ha hbody => exact absurd hbody (hb _ _ _ _ rfl ha)
    | new n _ tm hf _ => rw [hf] at hbg; cases hbg
  once := h.once

theorem Inv.server (h : Inv c lf now as s) (hr : Runs c (init c lf now) as s) {b : Sys.Act}
    (hs : step c s (.server b) = .ok s') : Inv c lf now (as ++ [.server b]) s' := by
  simp only [step] at hs
  split at hs
  · cases hs
  · rename_i hq
    cases hst : Sys.step c s.sys b with
    | ok t =>
      rw [hst] at hs
      simp only [Res.bind, Res.ok.injEq] at hs
      subst hs
      refine h.sysStep hr rfl hst ?_ ?_
      · cases b <;> first | rfl | (exact absurd rfl hq)
      · rintro r T host pid rfl; exact absurd rfl hq
    | err x => rw [hst] at hs; cases hs
    | panic x => rw [hst] at hs; cases hs

theorem Inv.other (h : Inv c lf now as s) (hr : Runs c (init c lf now) as s) {r : Sys.Request}
    (hs : step c s (.other r) = .ok s') : Inv c lf now (as ++ [.other r]) s' := by
  simp only [step] at hs
  split at hs
  · rename_i hh
    cases hst : Sys.step c s.sys (.request r) with
    | ok t =>
      rw [hst] at hs
      simp only [Res.bind, Res.ok.injEq] at hs
      subst hs
      simp only [harmless, Bool.or_eq_true, decide_eq_true_eq] at hh
      refine h.sysStep hr rfl hst ?_ ?_
      · simp only [Sys.polite]
        split
        · rename_i t' T host n e1 e2
          rcases hh with hh | hh
          · rw [e1] at hh
            simp only [ne_eq, Option.some.injEq] at hh
            simp [hh]
          · rw [e2] at hh; cases hh
        · rfl
      · rintro r' T host pid e ha hb
        cases e
        rcases hh with hh | hh
        · exact hh ha
        · rw [hb] at hh; cases hh
    | err x => rw [hst] at hs; cases hs
    | panic x => rw [hst] at hs; cases hs
  · cases hs

theorem getElem?_snoc_cases {α : Type} {l : List α} {x y : α} {i : Nat} (h : (l ++ [x])[i]? = some y) :
    l[i]? = some y ∨ (i = l.length ∧ y = x) := by
  rw [List.getElem?_append] at h
  split at h
  · exact .inl h
  · rename_i hl
    right
    have : i - l.length = 0 := by
      rcases Nat.eq_zero_or_pos (i - l.length) with e | e
      · exact e
      · rw [List.getElem?_eq_none (by simp; omega)] at h; cases h
    rw [this] at h
    simp at h
    exact ⟨by omega, h.symm⟩

theorem Inv.join (h : Inv c lf now as s) (hr : Runs c (init c lf now) as s) {cfg : RCfg}
    (hs : step c s (.join cfg) = .ok s') : Inv c lf now (as ++ [.join cfg]) s' := by
  simp only [step, Res.ok.injEq] at hs
  subst hs
  have keep : ∀ {i : Nat} {r : Runner} {x : Runner}, s.runners[i]? = some r → (s.runners ++ [x])[i]? = some r := by
    intro i r x hi
    obtain ⟨hl, _⟩ := List.getElem?_eq_some_iff.1 hi
    rw [List.getElem?_append_left hl, hi]
  constructor
  · rw [served_snoc hr]; simpa [sysAct] using h.run
  · intro i r hi
    rcases getElem?_snoc_cases hi with hi | ⟨_, rfl⟩
    · exact h.reach i r hi
    · exact ⟨[], .init⟩
  · intro k p hk
    obtain ⟨r, o, h1, h2, h3⟩ := h.sent k p hk
    exact ⟨r, o, keep h1, h2, h3⟩
  · exact h.hlt
  · exact h.hinj
  · intro i r k hi hw
    rcases getElem?_snoc_cases hi with hi | ⟨_, rfl⟩
    · exact h.waits i r k hi hw
    · cases hw
  · intro i r x T v hi hx
    rcases getElem?_snoc_cases hi with hi | ⟨_, rfl⟩
    · obtain ⟨h1, k, p, h2, h3, h4⟩ := h.tasks i r x T v hi hx
      refine ⟨h1, k, p, h2, h3, ?_⟩
      intro j r' hj
      rcases getElem?_snoc_cases hj with hj | ⟨_, rfl⟩
      · exact h4 j r' hj
      · simp
    · cases hx
  · rw [List.flatMap_append]; simpa [Cluster.hs] using h.nodup
  · intro i r hi
    rcases getElem?_snoc_cases hi with hi | ⟨_, rfl⟩
    · exact h.recv i r hi
    · rfl
  · exact h.begun
  · exact h.once

theorem Inv.arrive (h : Inv c lf now as s) (hr : Runs c (init c lf now) as s) {k : Nat}
    (hs : step c s (.arrive k) = .ok s') : Inv c lf now (as ++ [.arrive k]) s' := by
  simp only [step] at hs
  split at hs
  · rename_i i q hk
    cases hst : Sys.step c s.sys (.request q) with
    | ok t =>
      rw [hst] at hs
      simp only [Res.bind, Res.ok.injEq] at hs
      subst hs
      have hlen := Sys.handlers_request hst
      have hpol := h.polite hk rfl
      obtain ⟨hkl, _⟩ := List.getElem?_eq_some_iff.1 hk
      -- packets are the same but for the handler of `k`
      have back : ∀ (k' : Nat) (p' : Packet), (s.packets.set k ⟨i, q, some s.sys.handlers.length⟩)[k']? = some p' →
          ∃ p, s.packets[k']? = some p ∧ p.sender = p'.sender ∧ p.req = p'.req ∧ (k' ≠ k → p = p') := by
        intro k' p' hp'
        rcases getElem?_set_cases hp' with ⟨rfl, rfl, _⟩ | ⟨hne, hp'⟩
        · exact ⟨_, hk, rfl, rfl, fun e => absurd rfl e⟩
        · exact ⟨p', hp', rfl, rfl, fun _ => rfl⟩
      have other : ∀ {k' : Nat} {p : Packet}, k' ≠ k → s.packets[k']? = some p →
          (s.packets.set k ⟨i, q, some s.sys.handlers.length⟩)[k']? = some p := by
        intro k' p hne hp
        rw [List.getElem?_set_ne (Ne.symm hne), hp]
      constructor
      · rw [served_snoc hr]
        simp only [sysAct, hk]
        exact h.run.snoc hpol hst
      · exact h.reach
      · intro k' p' hp'
        obtain ⟨p, hp, e1, e2, _⟩ := back k' p' hp'
        obtain ⟨r, o, h1, h2, h3⟩ := h.sent k' p hp
        exact ⟨r, o, by rw [← e1]; exact h1, h2, by rw [← e2]; exact h3⟩
      · intro k' p' x hp' hx
        rcases getElem?_set_cases hp' with ⟨rfl, rfl, _⟩ | ⟨hne, hp'⟩
        · simp only [Option.some.injEq] at hx; subst hx; simp only; omega
        · have := h.hlt k' p' x hp' hx; simp only; omega
      · intro k1 k2 p1 p2 x h1 h2 e1 e2
        rcases getElem?_set_cases h1 with ⟨f1, g1, _⟩ | ⟨hne1, j1⟩ <;>
          rcases getElem?_set_cases h2 with ⟨f2, g2, _⟩ | ⟨hne2, j2⟩
        · rw [f1, f2]
        · rw [g1] at e1
          simp only [Option.some.injEq] at e1
          have := h.hlt k2 p2 x j2 e2
          omega
        · rw [g2] at e2
          simp only [Option.some.injEq] at e2
          have := h.hlt k1 p1 x j1 e1
          omega
        · exact h.hinj k1 k2 p1 p2 x j1 j2 e1 e2
      · intro j r k' hj hw
        obtain ⟨p, hp, e⟩ := h.waits j r k' hj hw
        by_cases hkk : k' = k
        · subst hkk
          rw [hk] at hp; cases hp
          exact ⟨_, List.getElem?_set_self hkl, e⟩
        · exact ⟨p, other hkk hp, e⟩
      · intro j r x T v hj hx
        obtain ⟨h1, k', p', h2, h3, h4⟩ := h.tasks j r x T v hj hx
        refine ⟨Sys.done_keeps hst h1, k', p', other ?_ h2, h3, h4⟩
        rintro rfl
        rw [hk] at h2; cases h2; cases h3
      · exact h.nodup
      · exact h.recv
      · intro x hx hbg
        have oldPacket : ∀ {T : Nat}, (∃ (k : Nat) (p : Packet), s.packets[k]? = some p ∧ p.handler ≠ none ∧ ∃ host pid, p.req.body = .begun T host pid) →
            ∃ (k' : Nat) (p : Packet), (s.packets.set k ⟨i, q, some s.sys.handlers.length⟩)[k']? = some p ∧ p.handler ≠ none ∧
              ∃ host pid, p.req.body = .begun T host pid := by
          rintro T ⟨k', p, h1, h2, h3⟩
          refine ⟨k', p, other ?_ h1, h2, h3⟩
          rintro rfl
          rw [hk] at h1; cases h1; exact absurd rfl h2
        cases Sys.cview hst x hx with
        | old y _ hy e1 e2 _ e3 =>
          rw [e1]
          exact oldPacket (h.begun y hy (by rw [← e3]; exact hbg))
        | begun y _ host pid hy e1 e2 _ ha hbody =>
          rw [e1]
          exact ⟨k, _, List.getElem?_set_self hkl, by simp, host, pid, hbody⟩
      · intro k1 k2 p1 p2 T h1' h2' n1 n2 h1 h2 e1 e2
        obtain ⟨q1, hq1, _, f1, _⟩ := back k1 p1 h1
        obtain ⟨q2, hq2, _, f2, _⟩ := back k2 p2 h2
        exact h.once k1 k2 q1 q2 T h1' h2' n1 n2 hq1 hq2 (by rw [f1]; exact e1) (by rw [f2]; exact e2)
    | err x => rw [hst] at hs; cases hs
    | panic x => rw [hst] at hs; cases hs
  · cases hs

end Verif.Cluster
