import Verif.Model.Snapshot
import Verif.Spec.Snapshot

namespace Verif.Snapshot
open Verif Spec

theorem inLastAttempt_congr {B B' : List String} (h : ∀ k, k ∈ B ↔ k ∈ B') (e : LogEntry) (l : List LogEntry) :
    InLastAttempt B e l ↔ InLastAttempt B' e l := by
  unfold InLastAttempt
  simp only [h]

theorem lastAttempts_congr {B B' : List String} (h : ∀ k, k ∈ B ↔ k ∈ B') (l : List LogEntry) :
    lastAttempts B l = lastAttempts B' l ∧ otherEntries B l = otherEntries B' l := by
  induction l with
  | nil => exact ⟨rfl, rfl⟩
  | cons e l ih =>
    simp only [lastAttempts, otherEntries, ih.1, ih.2]
    by_cases hc : InLastAttempt B e l
    · have hc' := (inLastAttempt_congr h e l).1 hc
      simp [hc, hc']
    · have hc' : ¬ InLastAttempt B' e l := fun x => hc ((inLastAttempt_congr h e l).2 x)
      simp [hc, hc']

/-- The keys still wanted before the entry `e`. -/
def before (B : List String) (e : LogEntry) : List String :=
  match e with
  | .ready r => B.erase r.key
  | _ => B

/-- Is `e`, as the last entry, part of a last attempt? -/
def wanted (B : List String) (e : LogEntry) : Bool :=
  match e with
  | .ready r => decide (r.key ∈ B)
  | .started r => decide (r.key ∈ B)
  | .finished r => decide (r.key ∈ B)
  | _ => false

theorem wanted_iff (B : List String) (e : LogEntry) : wanted B e = true ↔ InLastAttempt B e [] := by
  unfold InLastAttempt
  cases e <;> simp [wanted, about]

theorem inLastAttempt_snoc {B : List String} (hn : B.Nodup) (e x : LogEntry) (l : List LogEntry) :
    InLastAttempt B e (l ++ [x]) ↔ InLastAttempt (before B x) e l := by
  unfold InLastAttempt
  constructor
  · rintro ⟨k, hk, ha, hl⟩
    refine ⟨k, ?_, ha, fun y hy => hl y (by simp [hy])⟩
    have := hl x (by simp)
    cases x with
    | ready r =>
      simp only [before]
      have hne : r.key ≠ k := by
        intro h; exact this (by simp [isReady, about, h])
      exact (List.mem_erase_of_ne (Ne.symm hne)).2 hk
    | _ => exact hk
  · rintro ⟨k, hk, ha, hl⟩
    cases x with
    | ready r =>
      simp only [before] at hk
      have := (hn.mem_erase_iff).1 hk
      refine ⟨k, this.2, ha, ?_⟩
      intro y hy
      rcases List.mem_append.1 hy with hy | hy
      · exact hl y hy
      · simp only [List.mem_singleton] at hy
        subst hy
        rintro ⟨_, h⟩
        simp only [about, beq_iff_eq] at h
        exact this.1 h.symm
    | _ =>
      refine ⟨k, hk, ha, ?_⟩
      intro y hy
      rcases List.mem_append.1 hy with hy | hy
      · exact hl y hy
      · simp only [List.mem_singleton] at hy
        subst hy
        simp [isReady]

theorem attempts_snoc {B : List String} (hn : B.Nodup) (l : List LogEntry) (x : LogEntry) :
    lastAttempts B (l ++ [x]) = lastAttempts (before B x) l ++ (if wanted B x = true then [x] else []) ∧
    otherEntries B (l ++ [x]) = otherEntries (before B x) l ++ (if wanted B x = true then [] else [x]) := by
  induction l with
  | nil =>
    simp only [List.nil_append, lastAttempts, otherEntries]
    by_cases hc : InLastAttempt B x []
    · have hc' := (wanted_iff B x).2 hc
      simp [hc, hc']
    · have hc' : ¬ wanted B x = true := fun h => hc ((wanted_iff B x).1 h)
      simp [hc, hc']
  | cons e l ih =>
    simp only [List.cons_append, lastAttempts, otherEntries, ih.1, ih.2]
    by_cases hc : InLastAttempt B e (l ++ [x])
    · have hc' := (inLastAttempt_snoc hn e x l).1 hc
      simp [hc, hc']
    · have hc' : ¬ InLastAttempt (before B x) e l := fun h => hc ((inLastAttempt_snoc hn e x l).2 h)
      simp [hc, hc']

theorem loop1_spec (l : List LogEntry) : ∀ (cur : List LogEntry) (pend : List String),
    (∀ e ∈ l, isHeader e = false) → ∀ tail : List LogEntry, (∀ hd ∈ tail.head?, isHeader hd = true) →
    loop1 (l ++ tail) cur pend =
      (cur ++ l.filter (fun e => !isBackref e), (backrefKeys l).foldl setInsert pend, tail.head?, tail.tail) := by
  induction l with
  | nil =>
    intro cur pend _ tail ht
    cases tail with
    | nil => simp [loop1, backrefKeys]
    | cons e tail =>
      have := ht e (by simp)
      cases e <;> simp [isHeader] at this
      simp [loop1, backrefKeys]
  | cons e l ih =>
    intro cur pend hl tail ht
    have he := hl e (by simp)
    have ih' := ih
    cases e with
    | header h => simp [isHeader] at he
    | backref b =>
      simp only [List.cons_append, loop1]
      rw [ih _ _ (fun x hx => hl x (by simp [hx])) tail ht]
      simp [isBackref, backrefKeys]
    | _ =>
      simp only [List.cons_append, loop1]
      rw [ih _ _ (fun x hx => hl x (by simp [hx])) tail ht]
      simp [isBackref, backrefKeys]

theorem setInsert_mem (s : List String) (k x : String) : x ∈ setInsert s k ↔ x ∈ s ∨ x = k := by
  unfold setInsert
  split
  · rename_i h
    constructor
    · exact .inl
    · rintro (h' | rfl)
      · exact h'
      · exact h
  · simp

theorem setInsert_nodup {s : List String} (h : s.Nodup) (k : String) : (setInsert s k).Nodup := by
  unfold setInsert
  split
  · exact h
  · rename_i hk
    rw [List.nodup_append]
    exact ⟨h, by simp, fun a ha b hb hab => hk (by simp only [List.mem_singleton] at hb; subst hb; subst hab; exact ha)⟩

theorem foldl_setInsert (ks : List String) : ∀ s : List String, s.Nodup →
    (ks.foldl setInsert s).Nodup ∧ (∀ x, x ∈ ks.foldl setInsert s ↔ x ∈ s ∨ x ∈ ks) ∧
    (ks.foldl setInsert s).length ≤ s.length + ks.length ∧
    ((ks.foldl setInsert s).length = s.length + ks.length ↔ ks.Nodup ∧ ∀ x ∈ ks, x ∉ s) := by
  induction ks with
  | nil => intro s h; simp [h]
  | cons k ks ih =>
    intro s h
    simp only [List.foldl_cons]
    obtain ⟨h1, h2, h3, h4⟩ := ih (setInsert s k) (setInsert_nodup h k)
    refine ⟨h1, ?_, ?_, ?_⟩
    · intro x; rw [h2, setInsert_mem]; simp [or_assoc]
    · have : (setInsert s k).length ≤ s.length + 1 := by unfold setInsert; split <;> simp
      simp only [List.length_cons]; omega
    · by_cases hk : k ∈ s
      · have e : setInsert s k = s := by unfold setInsert; rw [if_pos hk]
        rw [e] at h3 ⊢
        simp only [List.length_cons]
        constructor
        · intro h; omega
        · rintro ⟨_, h⟩; exact absurd hk (h k (by simp))
      · have e : (setInsert s k).length = s.length + 1 := by unfold setInsert; rw [if_neg hk]; simp
        rw [e] at h4
        simp only [List.length_cons]
        have : (ks.foldl setInsert (setInsert s k)).length = s.length + (ks.length + 1) ↔
            (ks.foldl setInsert (setInsert s k)).length = s.length + 1 + ks.length := by omega
        rw [this, h4, List.nodup_cons]
        constructor
        · rintro ⟨a, b⟩
          refine ⟨⟨fun hks => b k hks ((setInsert_mem s k k).2 (.inr rfl)), a⟩, ?_⟩
          intro x hx
          simp only [List.mem_cons] at hx
          rcases hx with rfl | hx
          · exact hk
          · exact fun hs => b x hx ((setInsert_mem s k x).2 (.inl hs))
        · rintro ⟨⟨a, b⟩, c⟩
          refine ⟨b, fun x hx hs => ?_⟩
          rcases (setInsert_mem s k x).1 hs with hs | rfl
          · exact c x (by simp [hx]) hs
          · exact a hx

theorem body2_eq (e : LogEntry) (cur out : List LogEntry) (pend : List String) :
    body2 e cur out pend =
      (cur ++ (if wanted pend e = true then [e] else []), out ++ (if wanted pend e = true then [] else [e]),
        before pend e) := by
  cases e with
  | ready r =>
    by_cases h : r.key ∈ pend
    · simp [body2, wanted, before, h]
    · simp [body2, wanted, before, h, List.erase_of_not_mem h]
  | started r => by_cases h : r.key ∈ pend <;> simp [body2, wanted, before, h]
  | finished r => by_cases h : r.key ∈ pend <;> simp [body2, wanted, before, h]
  | header h => simp [body2, wanted, before]
  | backref b => simp [body2, wanted, before]

theorem attempts_none (l : List LogEntry) : lastAttempts [] l = [] ∧ otherEntries [] l = l := by
  induction l with
  | nil => exact ⟨rfl, rfl⟩
  | cons e l ih =>
    have : ¬ InLastAttempt [] e l := by simp [InLastAttempt]
    simp [lastAttempts, otherEntries, this, ih.1, ih.2]

/-- What the second loop does to the (reversed) older entries. -/
theorem loop2_spec (l : List LogEntry) : ∀ (cur out : List LogEntry) (pend : List String), pend.Nodup →
    ∃ c o r, loop2 l cur out pend = (c, o, r) ∧ c = cur ++ (lastAttempts pend l.reverse).reverse ∧
      o ++ r = out ++ (otherEntries pend l.reverse).reverse := by
  induction l with
  | nil => intro cur out pend _; exact ⟨cur, out, [], rfl, by simp [lastAttempts], by simp [otherEntries]⟩
  | cons e l ih =>
    intro cur out pend hn
    have hs := attempts_snoc hn l.reverse e
    have hbn : (before pend e).Nodup := by
      cases e with
      | ready r => exact hn.erase _
      | _ => exact hn
    simp only [List.reverse_cons, hs.1, hs.2, List.reverse_append]
    simp only [loop2, body2_eq]
    split
    · rename_i hemp
      have hnil : before pend e = [] := List.isEmpty_iff.1 hemp
      refine ⟨_, _, _, rfl, ?_, ?_⟩
      · rw [hnil, (attempts_none l.reverse).1]
        split <;> simp
      · rw [hnil, (attempts_none l.reverse).2]
        split <;> simp
    · obtain ⟨c, o, r, h1, h2, h3⟩ := ih (cur ++ (if wanted pend e = true then [e] else []))
        (out ++ (if wanted pend e = true then [] else [e])) _ hbn
      refine ⟨c, o, r, h1, ?_, ?_⟩
      · rw [h2]; split <;> simp
      · rw [h3]; split <;> simp

theorem attempts_length (B : List String) (l : List LogEntry) :
    (lastAttempts B l).length + (otherEntries B l).length = l.length := by
  induction l with
  | nil => rfl
  | cons e l ih =>
    simp only [lastAttempts, otherEntries]
    split <;> simp only [List.length_cons] <;> omega

theorem backref_length (l : List LogEntry) :
    (l.filter (fun e => !isBackref e)).length + (backrefKeys l).length = l.length := by
  induction l with
  | nil => rfl
  | cons e l ih =>
    have h1 : ∀ x, backrefKeys (x :: l) = backrefKeys [x] ++ backrefKeys l := by
      intro x; cases x <;> rfl
    rw [h1, List.filter_cons]
    cases e <;> simp only [isBackref, backrefKeys, List.filterMap_cons, List.filterMap_nil, List.length_append,
      List.length_cons, List.length_nil, Bool.not_false, Bool.not_true, if_true, Bool.false_eq_true, if_false] at * <;>
      omega

theorem backrefKeys_reverse (l : List LogEntry) : backrefKeys l.reverse = (backrefKeys l).reverse := by
  simp [backrefKeys]

theorem entryKey_eq (e : LogEntry) : entryKey e = keyOf e := by cases e <;> rfl

open Classical in
/-- The whole function, in terms of the split of the file at the newest header. -/
theorem currentAndOutdated_spec (old sess : List LogEntry) (hd : Option HeaderEntry)
    (hold : hd = none → old = []) (hs : ∀ e ∈ sess, isHeader e = false) :
    let B := backrefKeys sess
    let current := (hd.toList.map LogEntry.header) ++ lastAttempts B old ++ sess.filter (fun e => !isBackref e)
    currentAndOutdated (old ++ hd.toList.map LogEntry.header ++ sess) =
      if B.Nodup then
        .ok (current, (otherEntries B old).filter
          (fun x => decide (∀ k, keyOf x = some k → ∀ y ∈ current, keyOf y ≠ some k)))
      else .panic "assertion failed" := by
  intro B current
  have hrev : (old ++ hd.toList.map LogEntry.header ++ sess).reverse =
      sess.reverse ++ (hd.toList.map LogEntry.header ++ old.reverse) := by
    cases hd <;> simp
  have hl1 := loop1_spec sess.reverse [] [] (fun e he => hs e (by simpa using he))
    (hd.toList.map LogEntry.header ++ old.reverse) (by
      intro e he
      cases hd with
      | none => rw [hold rfl] at he; simp at he
      | some h => simp at he; subst he; rfl)
  have htail : (hd.toList.map LogEntry.header ++ old.reverse).tail = old.reverse := by
    cases hd with
    | none => rw [hold rfl]; rfl
    | some h => rfl
  have hhead : (hd.toList.map LogEntry.header ++ old.reverse).head? = hd.map LogEntry.header := by
    cases hd with
    | none => rw [hold rfl]; rfl
    | some h => rfl
  rw [htail, hhead] at hl1
  obtain ⟨f1, f2, f3, f4⟩ := foldl_setInsert (backrefKeys sess.reverse) [] (by simp)
  generalize hP : (backrefKeys sess.reverse).foldl setInsert [] = P at *
  obtain ⟨c, o, r, h1, h2, h3⟩ := loop2_spec old.reverse ([] ++ sess.reverse.filter (fun e => !isBackref e)) [] P f1
  have hPB : ∀ k, k ∈ P ↔ k ∈ B := by
    intro k; rw [f2, backrefKeys_reverse]; simp [B]
  rw [List.reverse_reverse, (lastAttempts_congr hPB old).1] at h2
  rw [List.reverse_reverse, (lastAttempts_congr hPB old).2] at h3
  simp only [List.nil_append] at h2 h3
  have hnod : P.length = (backrefKeys sess).length ↔ B.Nodup := by
    have : (backrefKeys sess.reverse).length = (backrefKeys sess).length := by rw [backrefKeys_reverse]; simp
    rw [this] at f4
    simp only [List.length_nil, Nat.zero_add, List.not_mem_nil, not_false_eq_true, implies_true, and_true] at f4
    rw [f4, backrefKeys_reverse]
    exact List.pairwise_reverse.trans ⟨fun h => h.imp Ne.symm, fun h => h.imp Ne.symm⟩
  have hle : P.length ≤ (backrefKeys sess).length := by
    have : (backrefKeys sess.reverse).length = (backrefKeys sess).length := by rw [backrefKeys_reverse]; simp
    rw [this] at f3; simpa using f3
  unfold currentAndOutdated
  rw [hrev, hl1]
  simp only [h1]
  have hcur : (c ++ (hd.map LogEntry.header).toList).reverse = current := by
    rw [h2]
    cases hd with
    | none => simp [current, ← List.filter_reverse]
    | some h => simp [current, ← List.filter_reverse]
  have hout : (o ++ r).reverse = otherEntries B old := by rw [h3]; simp
  rw [hcur, hout]
  have hlen : (old ++ hd.toList.map LogEntry.header ++ sess).length =
      current.length + (otherEntries B old).length + (backrefKeys sess).length := by
    have a := attempts_length B old
    have b := backref_length sess
    simp only [current, List.length_append]
    omega
  rw [hlen]
  by_cases hN : B.Nodup
  · rw [if_neg (by rw [hnod.2 hN]; simp), if_pos hN]
    congr 2
    apply List.filter_congr
    intro x _
    rw [entryKey_eq]
    cases hk : keyOf x with
    | none => simp
    | some k =>
      rw [Bool.eq_iff_iff]
      simp only [Bool.not_eq_true', List.contains_iff_mem, Bool.not_eq_true, decide_eq_true_eq, ← Bool.not_eq_true]
      constructor
      · intro h k' hk' y hy hyk
        cases hk'
        exact h (by simpa using List.mem_filterMap.2 ⟨y, hy, by rw [entryKey_eq]; exact hyk⟩)
      · intro h hm
        obtain ⟨y, hy, hyk⟩ := List.mem_filterMap.1 (by simpa using hm)
        exact h k rfl y hy (by rw [← entryKey_eq]; exact hyk)
  · rw [if_pos, if_neg hN]
    have : P.length ≠ (backrefKeys sess).length := fun h => hN (hnod.1 h)
    omega

end Verif.Snapshot
