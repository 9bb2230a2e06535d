import Verif.Proof.Family2

/-!
# Local loops together with their processes: everything comes to an end
-/

namespace Verif.Family
open Verif Verif.Tracker

variable {P : Type} {c : Cfg P} {lf : LogFile} {now : Int} {s s' : State P} {a : Act} {as : List Act}

/-- What is to be done for the task of a loop. -/
def kidWork (k : Nat) (rank : Nat → P → Nat) : Option (Kid P) → Nat
  | none => 0
  | some x => work k (rank x.task) x.st

/-- What is to be done for the tasks of all loops. -/
def kidsWork (k : Nat) (rank : Nat → P → Nat) (l : List (Option (Kid P))) : Nat := (l.map (kidWork k rank)).sum

theorem kids_set {k : Nat} {rank : Nat → P → Nat} {l : List (Option (Kid P))} {i : Nat} (h : i < l.length) (y : Option (Kid P)) :
    kidsWork k rank (l.set i y) + kidWork k rank ((l[i]?).getD none) = kidsWork k rank l + kidWork k rank y := by
  unfold kidsWork
  induction l generalizing i with
  | nil => simp at h
  | cons x l ih =>
    cases i with
    | zero => simp only [List.set_cons_zero, List.map_cons, List.sum_cons, List.getElem?_cons_zero, Option.getD_some]; omega
    | succ i =>
      simp only [List.length_cons] at h
      have := ih (i := i) (by omega)
      simp only [List.set_cons_succ, List.map_cons, List.sum_cons, List.getElem?_cons_succ]; omega

theorem kid_lt {i : Nat} {k : Kid P} (hk : kidOf s i = some k) : i < s.kids.length := by
  unfold kidOf at hk
  cases hg : s.kids[i]? with
  | none => rw [hg] at hk; cases hk
  | some y => exact (List.getElem?_eq_some_iff.1 hg).1

/-- Everything that is to be done. -/
def total (c : Cfg P) (k : Nat) (rank : Nat → P → Nat) (b : Nat) (s : State P) : Nat :=
  (b + 1) * Sys.left c.sys s.sys + kidsWork k rank s.kids

/-- Tasks are in the graph. -/
theorem got_lt (hg : Good c.sys.tr) {t : Sys.State} {bs : List Sys.Act} (hr : Sys.Runs c.sys (Sys.init c.sys lf now) bs t) {i v : Nat}
    (hl : t.loops[i]? = some (.got v)) : v < c.sys.tr.g.n := by
  have hm := List.mem_of_getElem? hl
  have hd : t.tr.pc ≠ .done := by
    intro hd
    obtain ⟨h1, _⟩ := Sys.quit_when_joined hg hr (.inr hd)
    have := List.all_eq_true.1 h1 _ hm
    simp at this
  have ho : v ∈ Sys.owned t := by
    unfold Sys.owned
    simp only [List.append_assoc]
    exact List.mem_append_left _ (List.mem_flatMap.2 ⟨_, hm, by simp [Sys.ownL]⟩)
  have hh := (Sys.owned_held hg ⟨bs, hr⟩ hd).1 ho
  have hre : Tracker.Reachable c.sys.tr lf now t.tr := ⟨_, hr.toInit hg⟩
  exact ((hre.inv hg).1).core.deps.lt v (hre.busy_made hg (by simp [hh]))

/-- The input of task `v`. -/
theorem work_init (c : Cfg P) (i v k : Nat) (rank : P → Nat) :
    work k rank (ChildIo.init (childCfg c i v)) ≤
      2 * rank (c.start v) + (2 * k + 3) * (((cmdOf c.sys.tr.g v).fdInput.map (·.2)).getD []).length + 8 := by
  have h1 := ChildIo.todo_init (childCfg c i v)
  have h2 : unread (ChildIo.init (childCfg c i v)) = (((cmdOf c.sys.tr.g v).fdInput.map (·.2)).getD []).length := by
    unfold unread ChildIo.init childCfg
    cases hi : (cmdOf c.sys.tr.g v).fdInput <;> simp
  have h3 : ranks rank (ChildIo.init (childCfg c i v)).procs = rank (c.start v) := by simp [ChildIo.init, ranks, childCfg]
  have h4 : (childCfg c i v).input = (cmdOf c.sys.tr.g v).fdInput.map (·.2) := rfl
  unfold work
  rw [h2, h3]
  rw [h4] at h1
  generalize (((cmdOf c.sys.tr.g v).fdInput.map (·.2)).getD []).length = n at *
  have e1 : 2 * (k + 1) * n = 2 * k * n + 2 * n := by rw [Nat.mul_add, Nat.add_mul]
  have e2 : (2 * k + 3) * n = 2 * k * n + 3 * n := by rw [Nat.add_mul]
  omega

/-- Every action inside makes it less. -/
theorem total_step (hg : Good c.sys.tr) (hl : c.sys.remote = false) {k b : Nat} {rank : Nat → P → Nat}
    (he : ∀ v, v < c.sys.tr.g.n → Ends (c.op v) k (rank v))
    (hb : ∀ v, v < c.sys.tr.g.n →
      2 * rank v (c.start v) + (2 * k + 3) * (((cmdOf c.sys.tr.g v).fdInput.map (·.2)).getD []).length + 8 ≤ b)
    (hr : Runs c (init c lf now) as s) (hk : ∀ i x, kidOf s i = some x → x.task < c.sys.tr.g.n)
    (hp : polite c s a = true) (hs : step c s a = .ok s') :
    total c k rank b s' + (internal a).toNat ≤ total c k rank b s + (b + 1) * (isTrigger a).toNat ∧
    (∀ i x, kidOf s' i = some x → x.task < c.sys.tr.g.n) := by
  have hrs := Runs.sys hr
  have hi : Sys.Inv c.sys lf now s.sys := Sys.Reachable.inv hg ⟨_, hrs⟩
  have hn : Sys.NoServer s.sys := (Sys.NoServer.init hl).runs hrs
  have tasks : ∀ (t : Sys.State) (i : Nat) (y : Kid P), i < s.kids.length → y.task < c.sys.tr.g.n →
      ∀ j x, kidOf ⟨t, s.kids.set i (some y)⟩ j = some x → x.task < c.sys.tr.g.n := by
    intro t i y hlt hy j x hx
    rw [kidOf_set hlt] at hx
    split at hx
    · cases hx; exact hy
    · exact hk j x hx
  have swap : ∀ (t : Sys.State) (b' : Sys.Act) (i : Nat) (y : Kid P), i < s.kids.length → polite c s (.sys b') = true →
      Sys.step c.sys s.sys b' = .ok t → (Sys.internal b').toNat = 1 → (Sys.isTrigger b').toNat = 0 →
      kidWork k rank (some y) ≤ kidWork k rank (kidOf s i) + b →
      total c k rank b ⟨t, s.kids.set i (some y)⟩ + 1 ≤ total c k rank b s := by
    intro t b' i y hlt hp' ht h1 h2 h3
    have h4 := Sys.left_step hg hi hn hp' ht
    rw [h1, h2, Nat.add_zero (Sys.left c.sys s.sys)] at h4
    have h5 := kids_set (k := k) (rank := rank) hlt (some y)
    have h6 : (s.kids[i]?).getD none = kidOf s i := rfl
    rw [h6] at h5
    have h7 := Nat.mul_le_mul_left (b + 1) h4
    rw [Nat.mul_add] at h7
    unfold total
    simp only
    omega
  have hf := fstep hs
  cases hf with
  | spawn i v t hv ht =>
    have hlt : i < s.kids.length := by rw [(tied hr).1]; exact (List.getElem?_eq_some_iff.1 hv).1
    have hvn := got_lt hg hrs hv
    refine ⟨?_, tasks t i _ hlt hvn⟩
    have := swap t _ i ⟨v, ChildIo.init (childCfg c i v)⟩ hlt hp ht rfl rfl ?_
    · simpa [internal, isTrigger, Sys.internal, Sys.isTrigger] using this
    · have h1 := work_init c i v k (rank v)
      have h2 := hb v hvn
      simp only [kidWork]
      omega
  | joint b' i x y st t hy hst ht hor =>
    have hlt := kid_lt hy
    have hyn := hk i y hy
    have h1 := work_step (cc := childCfg c i y.task) (he y.task hyn) hst
    refine ⟨?_, tasks t i _ hlt hyn⟩
    have := swap t b' i ⟨y.task, st⟩ hlt hp ht ?_ ?_ ?_
    · rcases hor with ⟨_, _, _, _, rfl, _⟩ | ⟨rfl, _⟩ | ⟨rfl, _⟩ | ⟨_, _, rfl, _⟩ <;>
        simpa [internal, isTrigger, Sys.internal, Sys.isTrigger] using this
    · rcases hor with ⟨_, _, _, _, rfl, _⟩ | ⟨rfl, _⟩ | ⟨rfl, _⟩ | ⟨_, _, rfl, _⟩ <;> rfl
    · rcases hor with ⟨_, _, _, _, rfl, _⟩ | ⟨rfl, _⟩ | ⟨rfl, _⟩ | ⟨_, _, rfl, _⟩ <;> rfl
    · rw [hy]; simp only [kidWork]; omega
  | die i v x y y' t hv hy ht htask hpan hor =>
    have hlt := kid_lt hy
    have hyn := hk i y hy
    refine ⟨?_, tasks t i _ hlt (by rw [htask]; exact hyn)⟩
    have := swap t _ i y' hlt hp ht rfl rfl ?_
    · simpa [internal, isTrigger, Sys.internal, Sys.isTrigger] using this
    · rw [hy]
      simp only [kidWork, htask]
      rcases hor with ⟨_, e⟩ | h
      · have := work_kill (k := k) (rank := rank y.task) (st := y.st) (x := .panicked) rfl
        have h2 : work k (rank y.task) y.st =
            2 * ranks (rank y.task) y.st.procs + 2 * (k + 1) * unread y.st + ChildIo.todo y.st := rfl
        rw [← e] at this
        omega
      · have := work_step (cc := childCfg c i y.task) (he y.task hyn) h
        omega
  | alone b' t ht _ _ _ =>
    refine ⟨?_, hk⟩
    have h4 := Sys.left_step hg hi hn hp ht
    have h7 := Nat.mul_le_mul_left (b + 1) h4
    rw [Nat.mul_add, Nat.mul_add] at h7
    have h8 : (Sys.internal b').toNat ≤ (b + 1) * (Sys.internal b').toNat := Nat.le_mul_of_pos_left _ (Nat.succ_pos b)
    unfold total
    simp only [internal, isTrigger]
    omega
  | kid i b' y st _ hy hst _ =>
    have hlt := kid_lt hy
    have hyn := hk i y hy
    refine ⟨?_, tasks _ i _ hlt hyn⟩
    have h1 := work_step (cc := childCfg c i y.task) (he y.task hyn) hst
    have h5 := kids_set (k := k) (rank := rank) hlt (some ⟨y.task, st⟩)
    have h6 : (s.kids[i]?).getD none = kidOf s i := rfl
    rw [h6, hy] at h5
    simp only [kidWork] at h5
    have h7 : (internal (.kid i b')).toNat = (!ChildIo.isKill b').toNat := by cases b' <;> rfl
    rw [h7]
    unfold total
    simp only [isTrigger, Bool.toNat_false]
    omega

theorem toNat_if (b : Bool) : (if b = true then 1 else 0) = b.toNat := by cases b <;> rfl

theorem total_runs (hg : Good c.sys.tr) (hl : c.sys.remote = false) {k b : Nat} {rank : Nat → P → Nat}
    (he : ∀ v, v < c.sys.tr.g.n → Ends (c.op v) k (rank v))
    (hb : ∀ v, v < c.sys.tr.g.n →
      2 * rank v (c.start v) + (2 * k + 3) * (((cmdOf c.sys.tr.g v).fdInput.map (·.2)).getD []).length + 8 ≤ b)
    (hr : Runs c (init c lf now) as s) :
    as.countP internal + total c k rank b s ≤ (b + 1) * (201 * c.sys.tr.g.n + 2 * c.sys.numParallel + 7 + as.countP isTrigger) := by
  have main : as.countP internal + total c k rank b s ≤ total c k rank b (init c lf now) + (b + 1) * as.countP isTrigger ∧
      ∀ i x, kidOf s i = some x → x.task < c.sys.tr.g.n := by
    refine Runs.snocInd (Q := fun as s => as.countP internal + total c k rank b s ≤
      total c k rank b (init c lf now) + (b + 1) * as.countP isTrigger ∧
      ∀ i x, kidOf s i = some x → x.task < c.sys.tr.g.n) ?_ ?_ hr
    · refine ⟨by simp, fun i x hx => ?_⟩
      unfold kidOf init at hx
      simp only [List.getElem?_map] at hx
      cases h : (Sys.init c.sys lf now).loops[i]? <;> rw [h] at hx <;> simp at hx
    · intro as s a s' hr ih hp hs
      obtain ⟨h1, h2⟩ := total_step hg hl he hb hr ih.2 hp hs
      refine ⟨?_, h2⟩
      rw [List.countP_append, List.countP_append]
      simp only [List.countP_cons, List.countP_nil, toNat_if, Nat.zero_add]
      have := ih.1
      rw [Nat.mul_add]
      omega
  have h0 : total c k rank b (init c lf now) ≤ (b + 1) * (201 * c.sys.tr.g.n + 2 * c.sys.numParallel + 7) := by
    have h1 := Nat.mul_le_mul_left (b + 1) (Sys.left_init c.sys lf now)
    have h2 : kidsWork k rank (init c lf now).kids = 0 := by
      unfold kidsWork init
      simp only [List.map_map]
      have : (kidWork k rank ∘ fun _ : Sys.Loop => (none : Option (Kid P))) = fun _ => 0 := rfl
      rw [this]
      generalize (Sys.init c.sys lf now).loops = l
      induction l with
      | nil => rfl
      | cons x l ih => simpa using ih
    unfold total
    rw [h2]
    exact h1
  have h1 := main.1
  rw [Nat.mul_add]
  omega

end Verif.Family
