import Verif.Spec.Copy
import Verif.Props.LogBytes
import Verif.Props.Snapshot
import Verif.Proof.LogHistory

/-!
# Copying logs: proofs
-/

namespace Verif.Copy
open Verif Spec Verif.Json Verif.Props
open Verif.World (history_append)

/-! ## What is read can be written -/

theorem asInt_some {lo hi : Int} {j : Json} {i : Int} (h : asInt lo hi j = some i) : lo ≤ i ∧ i < hi := by
  unfold asInt at h
  split at h
  · split at h
    · rename_i hc; simp only [Option.some.injEq] at h; subst h; exact hc
    · cases h
  · cases h

theorem asU32_some {j : Json} {n : Nat} (h : asU32 j = some n) : n < 4294967296 := by
  unfold asU32 at h
  obtain ⟨i, hi, rfl⟩ := Option.map_eq_some_iff.1 h
  have := asInt_some hi
  omega

theorem asTime_some {j : Json} {t : SysTime} (h : asTime j = some t) : t.secs < 9223372036854775808 ∧ t.nanos < 1000000000 := by
  unfold asTime at h
  obtain ⟨a, _, h⟩ := Option.bind_eq_some_iff.1 h
  split at h
  · obtain ⟨s, _, h⟩ := Option.bind_eq_some_iff.1 h
    obtain ⟨n, _, h⟩ := Option.bind_eq_some_iff.1 h
    unfold carry at h
    split at h
    · rename_i hc
      simp only [Option.some.injEq] at h
      subst h
      exact ⟨hc, Nat.mod_lt _ (by decide)⟩
    · cases h
  · cases h

theorem put_nodup {m : List (String × String)} (kv : String × String) (h : (m.map (·.1)).Nodup) : ((put m kv).map (·.1)).Nodup := by
  unfold put
  rw [List.map_append, List.nodup_append]
  refine ⟨h.sublist ((List.filter_sublist).map _), by simp, ?_⟩
  intro a ha b hb
  simp only [List.map_cons, List.map_nil, List.mem_singleton] at hb
  obtain ⟨x, hx, rfl⟩ := List.mem_map.1 ha
  have := (List.mem_filter.1 hx).2
  simp only [bne_iff_ne, ne_eq] at this
  rw [hb]; exact this

theorem asMap_nodup {j : Json} {m : List (String × String)} (h : asMap j = some m) : (m.map (·.1)).Nodup := by
  unfold asMap at h
  split at h
  · obtain ⟨l, _, rfl⟩ := Option.map_eq_some_iff.1 h
    have key : ∀ (l m0 : List (String × String)), (m0.map (·.1)).Nodup → ((l.foldl put m0).map (·.1)).Nodup := by
      intro l
      induction l with
      | nil => intro m0 h; exact h
      | cons x l ih => intro m0 h; exact ih _ (put_nodup x h)
    exact key l [] (by simp)
  · cases h

theorem mapM_mem {α β : Type} {f : α → Option β} : ∀ {l : List α} {l' : List β}, l.mapM f = some l' → ∀ y ∈ l', ∃ x ∈ l, f x = some y := by
  intro l
  induction l with
  | nil => intro l' h y hy; simp at h; subst h; cases hy
  | cons a l ih =>
    intro l' h y hy
    rw [List.mapM_cons] at h
    obtain ⟨b, hb, h⟩ := Option.bind_eq_some_iff.1 h
    obtain ⟨bs, hbs, h⟩ := Option.bind_eq_some_iff.1 h
    have h : b :: bs = l' := by simpa using h
    subst h
    rcases List.mem_cons.1 hy with rfl | hy
    · exact ⟨a, by simp, hb⟩
    · obtain ⟨x, hx, hxy⟩ := ih hbs y hy
      exact ⟨x, List.mem_cons_of_mem _ hx, hxy⟩

theorem ofJson_writable {j : Json} {e : LogEntry} (h : ofJson j = some e) : Writable e := by
  unfold ofJson at h
  split at h
  · rename_i n j
    repeat' split at h
    · obtain ⟨x, hx, rfl⟩ := Option.map_eq_some_iff.1 h
      unfold asHeader at hx
      obtain ⟨a, _, hx⟩ := Option.bind_eq_some_iff.1 hx
      split at hx
      · obtain ⟨v, h1, hx⟩ := Option.bind_eq_some_iff.1 hx
        obtain ⟨t, h2, hx⟩ := Option.bind_eq_some_iff.1 hx
        obtain ⟨_, _, hx⟩ := Option.bind_eq_some_iff.1 hx
        obtain ⟨_, _, hx⟩ := Option.bind_eq_some_iff.1 hx
        obtain ⟨_, _, hx⟩ := Option.bind_eq_some_iff.1 hx
        obtain ⟨_, _, hx⟩ := Option.bind_eq_some_iff.1 hx
        obtain ⟨_, _, hx⟩ := Option.bind_eq_some_iff.1 hx
        obtain ⟨p, h3, hx⟩ := Option.bind_eq_some_iff.1 hx
        obtain ⟨_, _, hx⟩ := Option.bind_eq_some_iff.1 hx
        cases hx
        exact ⟨asU32_some h1, asU32_some h3, asTime_some h2⟩
      · cases hx
    · obtain ⟨x, hx, rfl⟩ := Option.map_eq_some_iff.1 h
      unfold asReady at hx
      obtain ⟨a, _, hx⟩ := Option.bind_eq_some_iff.1 hx
      split at hx
      · obtain ⟨t, h1, hx⟩ := Option.bind_eq_some_iff.1 hx
        obtain ⟨_, _, hx⟩ := Option.bind_eq_some_iff.1 hx
        obtain ⟨n, h2, hx⟩ := Option.bind_eq_some_iff.1 hx
        obtain ⟨_, _, hx⟩ := Option.bind_eq_some_iff.1 hx
        obtain ⟨r, h3, hx⟩ := Option.bind_eq_some_iff.1 hx
        cases hx
        refine ⟨asU32_some h2, ?_, asTime_some h1⟩
        simp only
        unfold orDefault at h3
        split at h3
        · simp only [Option.some.injEq] at h3; omega
        · exact asU32_some h3
      · cases hx
    · obtain ⟨x, hx, rfl⟩ := Option.map_eq_some_iff.1 h
      unfold asStarted at hx
      obtain ⟨a, _, hx⟩ := Option.bind_eq_some_iff.1 hx
      split at hx
      · obtain ⟨t, h1, hx⟩ := Option.bind_eq_some_iff.1 hx
        obtain ⟨_, _, hx⟩ := Option.bind_eq_some_iff.1 hx
        obtain ⟨_, _, hx⟩ := Option.bind_eq_some_iff.1 hx
        obtain ⟨n, h2, hx⟩ := Option.bind_eq_some_iff.1 hx
        obtain ⟨_, _, hx⟩ := Option.bind_eq_some_iff.1 hx
        cases hx
        exact ⟨asU32_some h2, asTime_some h1⟩
      · cases hx
    · obtain ⟨x, hx, rfl⟩ := Option.map_eq_some_iff.1 h
      unfold asFinished at hx
      obtain ⟨a, _, hx⟩ := Option.bind_eq_some_iff.1 hx
      split at hx
      · obtain ⟨t, h1, hx⟩ := Option.bind_eq_some_iff.1 hx
        obtain ⟨_, _, hx⟩ := Option.bind_eq_some_iff.1 hx
        obtain ⟨s, h2, hx⟩ := Option.bind_eq_some_iff.1 hx
        obtain ⟨v, h3, hx⟩ := Option.bind_eq_some_iff.1 hx
        cases hx
        refine ⟨(asInt_some h2).1, (asInt_some h2).2, (asTime_some h1).1, (asTime_some h1).2, ?_⟩
        simp only
        unfold orDefault at h3
        split at h3
        · simp only [Option.some.injEq] at h3; subst h3; simp
        · unfold asMaps at h3
          split at h3
          · intro m hm
            obtain ⟨x, _, hx⟩ := mapM_mem h3 m hm
            exact asMap_nodup hx
          · cases h3
      · cases hx
    · obtain ⟨x, hx, rfl⟩ := Option.map_eq_some_iff.1 h
      trivial
    · cases h
  · cases h

theorem fromStr_writable {cs : List Char} {e : LogEntry} (h : fromStr cs = some e) : Writable e := by
  obtain ⟨j, _, h⟩ := Option.bind_eq_some_iff.1 h
  exact ofJson_writable h

/-! ## The strict and the tolerant reader -/

theorem loadLines_readAll : ∀ {ls : List (List UInt8)} {st st' : LoadState} {acc es' : List LogEntry},
    loadLines st acc ls = .ok (st', es') → ∃ es, es' = acc ++ es ∧ readAll ls = .ok es ∧ loadLoop st es = .ok st' ∧ ∀ e ∈ es, Writable e := by
  intro ls
  induction ls with
  | nil =>
    intro st st' acc es' h
    simp only [loadLines, Res.ok.injEq, Prod.mk.injEq] at h
    obtain ⟨rfl, rfl⟩ := h
    exact ⟨[], by simp, rfl, rfl, by simp⟩
  | cons l ls ih =>
    intro st st' acc es' h
    simp only [loadLines] at h
    cases hu : unutf8 l with
    | none => rw [hu] at h; cases h
    | some cs =>
      rw [hu] at h
      simp only at h
      cases hf : fromStr (trimEnd cs) with
      | none => rw [hf] at h; cases h
      | some e =>
        rw [hf] at h
        simp only at h
        cases hs : loadStep st e with
        | err x => rw [hs] at h; cases h
        | panic x => rw [hs] at h; cases h
        | ok st1 =>
          rw [hs] at h
          simp only at h
          obtain ⟨es, h1, h2, h3, h4⟩ := ih h
          refine ⟨e :: es, by rw [h1]; simp, ?_, ?_, ?_⟩
          · simp only [readAll, hu, hf, h2, Res.bind]; rfl
          · simp only [loadLoop, hs, Res.bind]; exact h3
          · intro x hx
            rcases List.mem_cons.1 hx with rfl | hx
            · exact fromStr_writable hf
            · exact h4 x hx

theorem openBytes_ok {bs : List UInt8} {dir : String} {lf : LogFile} (h : openBytes bs dir = .ok lf) :
    readBytes bs = .ok lf.entries ∧ LogFile.open lf.entries dir = .ok lf ∧ ∀ e ∈ lf.entries, Writable e := by
  unfold openBytes at h
  cases hl : loadLines ⟨.empty, none⟩ [] (rawLines bs) with
  | err x => rw [hl] at h; cases h
  | panic x => rw [hl] at h; cases h
  | ok r =>
    rw [hl] at h
    simp only [Res.bind, Res.ok.injEq] at h
    subst h
    obtain ⟨st', es'⟩ := r
    obtain ⟨es, h1, h2, h3, h4⟩ := loadLines_readAll hl
    simp only [List.nil_append] at h1
    subst h1
    exact ⟨h2, open_ok_iff.2 ⟨loadRuncounts_ok_iff.2 ⟨st', h3, rfl⟩, rfl, rfl⟩, h4⟩

/-- Whatever the tolerant reader returns can be written. -/
theorem readAll_writable : ∀ {ls : List (List UInt8)} {es : List LogEntry}, readAll ls = .ok es → ∀ e ∈ es, Writable e := by
  intro ls
  induction ls with
  | nil => intro es h e he; simp only [readAll, Res.ok.injEq] at h; subst h; cases he
  | cons l ls ih =>
    intro es h e he
    simp only [readAll] at h
    cases hu : unutf8 l with
    | none => rw [hu] at h; cases h
    | some cs =>
      rw [hu] at h
      simp only at h
      cases hr : readAll ls with
      | err x => rw [hr] at h; cases h
      | panic x => rw [hr] at h; cases h
      | ok es1 =>
        rw [hr] at h
        simp only [Res.bind, Res.ok.injEq] at h
        subst h
        rcases List.mem_append.1 he with he | he
        · cases hf : fromStr (trimEnd cs) with
          | none => rw [hf] at he; cases he
          | some x =>
            rw [hf] at he
            simp only [Option.toList_some, List.mem_singleton] at he
            subst he
            exact fromStr_writable hf
        · exact ih hr e he

theorem openBytes_file {es : List LogEntry} (hw : ∀ e ∈ es, Writable e) (dir : String) : openBytes (fileOf es) dir = lift (LogFile.open es dir) := by
  have := openBytes_fileOf hw dir []
  rw [List.append_nil] at this
  rw [this, lift_open]
  cases loadLoop ⟨.empty, none⟩ es <;> rfl

/-! ## Histories of single keys -/

/-- The protocol for the entries of one key. -/
def PL (l : List LogEntry) : Prop := ∀ pre e post, l = pre ++ e :: post →
    (isStarted e = true → ∃ p, pre.getLast? = some p ∧ isReady p = true) ∧
    (isFinished e = true → ∃ p, pre.getLast? = some p ∧ isStarted p = true)

theorem protocol_iff {es : List LogEntry} : Protocol es ↔ ∀ k, PL (history k es) :=
  ⟨fun h k pre e post he => h k pre e post he, fun h k pre e post he => h k pre e post he⟩

/-- Empty, or starting with a Ready entry. -/
def ReadyFirst (l : List LogEntry) : Prop := l = [] ∨ ∃ r m, l = .ready r :: m

theorem PL.suffix {a b : List LogEntry} (h : PL (a ++ b)) (hb : ReadyFirst b) : PL b := by
  intro pre e post he
  have := h (a ++ pre) e post (by rw [he]; simp)
  cases pre with
  | nil =>
    rcases hb with rfl | ⟨r, m, rfl⟩
    · cases he
    · simp only [List.nil_append, List.cons.injEq] at he
      obtain ⟨rfl, _⟩ := he
      exact ⟨fun h => by simp [isStarted] at h, fun h => by simp [isFinished] at h⟩
  | cons x pre =>
    have hl : (a ++ x :: pre).getLast? = (x :: pre).getLast? := by
      rw [List.getLast?_append]
      cases hg : (x :: pre).getLast? with
      | none => simp at hg
      | some y => rfl
    rw [hl] at this
    exact this

theorem PL.append {a b : List LogEntry} (ha : PL a) (hb : PL b) (hr : ReadyFirst b) : PL (a ++ b) := by
  intro pre e post he
  rcases List.append_eq_append_iff.1 he with ⟨c, h1, h2⟩ | ⟨c, h1, h2⟩
  · -- `e` in `b`
    have hb' := hb c e post h2
    cases c with
    | nil =>
      rcases hr with rfl | ⟨r, m, rfl⟩
      · cases h2
      · simp only [List.nil_append, List.cons.injEq] at h2
        obtain ⟨rfl, _⟩ := h2
        exact ⟨fun h => by simp [isStarted] at h, fun h => by simp [isFinished] at h⟩
    | cons x c =>
      have hl : pre.getLast? = (x :: c).getLast? := by
        rw [h1, List.getLast?_append]
        cases hg : (x :: c).getLast? with
        | none => simp at hg
        | some y => rfl
      rw [hl]; exact hb'
  · cases c with
    | nil =>
      simp only [List.append_nil, List.nil_append] at h1 h2
      subst h1
      rcases hr with rfl | ⟨r, m, rfl⟩
      · cases h2
      · simp only [List.cons.injEq] at h2
        obtain ⟨rfl, _⟩ := h2
        exact ⟨fun h => by simp [isStarted] at h, fun h => by simp [isFinished] at h⟩
    | cons x c =>
      simp only [List.cons_append, List.cons.injEq] at h2
      obtain ⟨rfl, _⟩ := h2
      exact ha pre e c h1

theorem PL.first {l : List LogEntry} (h : PL l) (hk : ∀ e ∈ l, isReady e = true ∨ isStarted e = true ∨ isFinished e = true) : ReadyFirst l := by
  cases l with
  | nil => exact .inl rfl
  | cons e l =>
    right
    obtain ⟨h1, h2⟩ := h [] e l rfl
    cases e with
    | ready r => exact ⟨r, l, rfl⟩
    | started s => obtain ⟨p, hp, _⟩ := h1 rfl; cases hp
    | finished s => obtain ⟨p, hp, _⟩ := h2 rfl; cases hp
    | header x => have := hk _ (List.mem_cons_self ..); simp [isReady, isStarted, isFinished] at this
    | backref x => have := hk _ (List.mem_cons_self ..); simp [isReady, isStarted, isFinished] at this

theorem history_kind {k : String} {es : List LogEntry} : ∀ e ∈ history k es, isReady e = true ∨ isStarted e = true ∨ isFinished e = true := by
  intro e he
  have := (List.mem_filter.1 he).2
  cases e <;> simp_all [about, isReady, isStarted, isFinished]

theorem readyFirst_history {es : List LogEntry} (h : Protocol es) (k : String) : ReadyFirst (history k es) :=
  (protocol_iff.1 h k).first history_kind

/-- `statusOf` from the history. -/
def st (l : List LogEntry) : Option RuncountStatus :=
  match l.getLast?, lastReady l with
  | some (.ready _), some r => some (.ready r.runcount r.storageRoot)
  | some (.started _), some r => some (.started r.runcount r.storageRoot)
  | some (.finished f), some r => some (.finished r.runcount r.storageRoot (decide (f.status = 0)))
  | _, _ => none

theorem statusOf_eq (k : String) (es : List LogEntry) : statusOf k es = st (history k es) := rfl

theorem st_append {a : List LogEntry} {r : ReadyEntry} {m : List LogEntry} : st (a ++ .ready r :: m) = st (.ready r :: m) := by
  have h1 : (a ++ .ready r :: m).getLast? = (LogEntry.ready r :: m).getLast? := by
    rw [List.getLast?_append]
    cases hg : (LogEntry.ready r :: m).getLast? with
    | none => simp at hg
    | some y => rfl
  have h2 : lastReady (a ++ .ready r :: m) = lastReady (.ready r :: m) := by
    unfold lastReady
    rw [List.filterMap_append, List.getLast?_append]
    cases hg : ((LogEntry.ready r :: m).filterMap ready?).getLast? with
    | none => simp [ready?] at hg
    | some y => rfl
  unfold st
  rw [h1, h2]

theorem mentions_iff {k : String} {es : List LogEntry} : Mentions k es ↔ history k es ≠ [] := by
  unfold Mentions history
  rw [ne_eq, List.filter_eq_nil_iff]
  constructor
  · rintro ⟨e, he, hk⟩ h; exact h e he hk
  · intro h
    refine Classical.byContradiction fun hn => h fun e he hk => hn ⟨e, he, hk⟩

/-- A log whose keys have the last parts of their histories, each beginning with a Ready entry. -/
theorem tail_status {es cur : List LogEntry} (hp : Protocol es)
    (h : ∀ k, ∃ a, history k es = a ++ history k cur ∧ ReadyFirst (history k cur)) :
    Protocol cur ∧ ∀ k, statusOf k cur = if Mentions k cur then statusOf k es else none := by
  refine ⟨protocol_iff.2 fun k => ?_, fun k => ?_⟩
  · obtain ⟨a, h1, h2⟩ := h k
    have := protocol_iff.1 hp k
    rw [h1] at this
    exact this.suffix h2
  · obtain ⟨a, h1, h2⟩ := h k
    rw [statusOf_eq, statusOf_eq, h1]
    rcases h2 with h2 | ⟨r, m, h2⟩
    · rw [if_neg (fun hm => mentions_iff.1 hm h2), h2]; rfl
    · rw [if_pos (mentions_iff.2 (by rw [h2]; simp)), h2, st_append]

/-- Two logs one after the other. -/
theorem append_status {a b : List LogEntry} (ha : Protocol a) (hb : Protocol b) :
    Protocol (a ++ b) ∧ ∀ k, statusOf k (a ++ b) = if Mentions k b then statusOf k b else statusOf k a := by
  refine ⟨protocol_iff.2 fun k => ?_, fun k => ?_⟩
  · rw [history_append]
    exact (protocol_iff.1 ha k).append (protocol_iff.1 hb k) (readyFirst_history hb k)
  · rw [statusOf_eq, statusOf_eq, statusOf_eq, history_append]
    rcases readyFirst_history hb k with h2 | ⟨r, m, h2⟩
    · rw [if_neg (fun hm => mentions_iff.1 hm h2), h2, List.append_nil]
    · rw [if_pos (mentions_iff.2 (by rw [h2]; simp)), h2, st_append]

/-! ## "current" -/

theorem about_eq {k k' : String} {e : LogEntry} (h : about k e = true) (h' : about k' e = true) : k = k' := by
  cases e <;> simp_all [about]

theorem history_lastAttempts_not {B : List String} {k : String} (hk : k ∉ B) : ∀ (l : List LogEntry), history k (lastAttempts B l) = [] := by
  intro l
  induction l with
  | nil => rfl
  | cons e l ih =>
    simp only [lastAttempts]
    split
    · rename_i hl
      obtain ⟨k', hk', ha, _⟩ := hl
      have : about k e = false := by
        cases h : about k e with
        | false => rfl
        | true => rw [about_eq h ha] at hk; exact absurd hk' hk
      simp only [history, List.filter_cons, this] at ih ⊢
      simpa using ih
    · exact ih

theorem history_lastAttempts_all {B : List String} {k : String} (hk : k ∈ B) : ∀ {l : List LogEntry},
    (∀ x ∈ l, ¬ (isReady x = true ∧ about k x = true)) → history k (lastAttempts B l) = history k l := by
  intro l
  induction l with
  | nil => intro _; rfl
  | cons e l ih =>
    intro h
    have ih' := ih (fun x hx => h x (List.mem_cons_of_mem _ hx))
    simp only [lastAttempts]
    cases ha : about k e with
    | true =>
      rw [if_pos ⟨k, hk, ha, fun x hx => h x (List.mem_cons_of_mem _ hx)⟩]
      simp only [history, List.filter_cons, ha, if_true] at ih' ⊢
      rw [ih']
    | false =>
      split
      · simp only [history, List.filter_cons, ha] at ih' ⊢; simpa using ih'
      · simp only [history, List.filter_cons, ha] at ih' ⊢; simpa using ih'

theorem history_lastAttempts {B : List String} {k : String} (hk : k ∈ B) : ∀ {l : List LogEntry},
    (∃ x ∈ l, isReady x = true ∧ about k x = true) →
    ∃ a r m, history k l = a ++ .ready r :: m ∧ history k (lastAttempts B l) = .ready r :: m := by
  intro l
  induction l with
  | nil => rintro ⟨x, hx, _⟩; cases hx
  | cons e l ih =>
    rintro ⟨x, hx, hxr⟩
    by_cases hl : ∃ x ∈ l, isReady x = true ∧ about k x = true
    · obtain ⟨a, r, m, h1, h2⟩ := ih hl
      cases ha : about k e with
      | true =>
        have : ¬ InLastAttempt B e l := by
          rintro ⟨k', _, hk', hno⟩
          rw [← about_eq ha hk'] at hno
          obtain ⟨y, hy, hyr⟩ := hl
          exact hno y hy hyr
        refine ⟨e :: a, r, m, ?_, ?_⟩
        · simp only [history, List.filter_cons, ha, if_true] at h1 ⊢; rw [h1]; rfl
        · simp only [lastAttempts, if_neg this]; exact h2
      | false =>
        refine ⟨a, r, m, ?_, ?_⟩
        · simp only [history, List.filter_cons, ha] at h1 ⊢; simpa using h1
        · simp only [lastAttempts]
          split
          · simp only [history, List.filter_cons, ha] at h2 ⊢; simpa using h2
          · exact h2
    · rcases List.mem_cons.1 hx with rfl | hx
      · have hno : ∀ y ∈ l, ¬ (isReady y = true ∧ about k y = true) := fun y hy hyr => hl ⟨y, hy, hyr⟩
        cases x with
        | ready r =>
          refine ⟨[], r, history k l, ?_, ?_⟩
          · simp only [history, List.filter_cons, hxr.2, if_true, List.nil_append]
          · simp only [lastAttempts]
            rw [if_pos ⟨k, hk, hxr.2, hno⟩]
            have := history_lastAttempts_all hk hno
            simp only [history, List.filter_cons, hxr.2, if_true] at this ⊢
            rw [this]
        | _ => simp [isReady] at hxr
      · exact absurd ⟨x, hx, hxr⟩ hl

/-- In a session's own entries each Started or Finished has a Ready of its key before it. -/
def OwnReady (l : List LogEntry) : Prop :=
  ∀ pre e post, l = pre ++ e :: post → ∀ k, about k e = true → isReady e = false → ∃ x ∈ pre, isReady x = true ∧ about k x = true

theorem OwnReady.first {l : List LogEntry} (h : OwnReady l) (k : String) : ReadyFirst (history k l) := by
  cases hh : history k l with
  | nil => exact .inl rfl
  | cons e m =>
    right
    have hsplit : ∃ pre post, l = pre ++ e :: post ∧ (∀ x ∈ pre, about k x = false) ∧ about k e = true := by
      clear h
      induction l with
      | nil => simp [history] at hh
      | cons x l ih =>
        simp only [history, List.filter_cons] at hh ih
        cases hx : about k x with
        | true =>
          simp only [hx, if_true, List.cons.injEq] at hh
          exact ⟨[], l, by rw [hh.1]; rfl, by simp, by rw [← hh.1]; exact hx⟩
        | false =>
          simp only [hx, Bool.false_eq_true, if_false] at hh
          obtain ⟨pre, post, h1, h2, h3⟩ := ih hh
          refine ⟨x :: pre, post, by rw [h1]; rfl, ?_, h3⟩
          intro y hy
          rcases List.mem_cons.1 hy with rfl | hy
          · exact hx
          · exact h2 y hy
    obtain ⟨pre, post, h1, h2, h3⟩ := hsplit
    cases e with
    | ready r => exact ⟨r, m, rfl⟩
    | started s =>
      obtain ⟨x, hx, _, hk⟩ := h pre _ post h1 k h3 rfl
      rw [h2 x hx] at hk; cases hk
    | finished s =>
      obtain ⟨x, hx, _, hk⟩ := h pre _ post h1 k h3 rfl
      rw [h2 x hx] at hk; cases hk
    | header s => simp [about] at h3
    | backref s => simp [about] at h3

theorem history_notBackref (k : String) : ∀ (l : List LogEntry), history k (l.filter (fun e => !isBackref e)) = history k l := by
  intro l
  induction l with
  | nil => rfl
  | cons e l ih =>
    cases e with
    | backref b => simp only [history, List.filter_cons, isBackref, about] at ih ⊢; simpa using ih
    | _ => simp only [history, List.filter_cons, isBackref, Bool.not_false, if_true] at ih ⊢; rw [ih]

/-- "current" has the last part of each history. -/
theorem current_tail {old sess : List LogEntry} {h : HeaderEntry} (hp : Protocol (old ++ .header h :: sess)) (ho : OwnReady sess)
    (B : List String) (k : String) :
    ∃ a, history k (old ++ .header h :: sess) = a ++ history k (.header h :: (lastAttempts B old ++ sess.filter (fun e => !isBackref e))) ∧
      ReadyFirst (history k (.header h :: (lastAttempts B old ++ sess.filter (fun e => !isBackref e)))) := by
  have e1 : history k (old ++ .header h :: sess) = history k old ++ history k sess := by
    rw [history_append]; simp [history, List.filter_cons, about]
  have e2 : history k (.header h :: (lastAttempts B old ++ sess.filter (fun e => !isBackref e))) =
      history k (lastAttempts B old) ++ history k sess := by
    have : ∀ l, history k (LogEntry.header h :: l) = history k l := by intro l; simp [history, List.filter_cons, about]
    rw [this, history_append, history_notBackref]
  rw [e1, e2]
  by_cases hk : k ∈ B
  · have hpo : Protocol old := protocol_prefix hp
    rcases readyFirst_history hpo k with hn | ⟨r, m, hn⟩
    · have hno : ∀ x ∈ old, ¬ (isReady x = true ∧ about k x = true) := by
        rintro x hx ⟨_, hxk⟩
        have : x ∈ history k old := List.mem_filter.2 ⟨hx, hxk⟩
        rw [hn] at this; cases this
      rw [history_lastAttempts_all hk hno, hn]
      exact ⟨[], rfl, ho.first k⟩
    · have hr : LogEntry.ready r ∈ history k old := by rw [hn]; simp
      obtain ⟨a, r', m', h1, h2⟩ := history_lastAttempts hk (l := old) ⟨_, (List.mem_filter.1 hr).1, rfl, (List.mem_filter.1 hr).2⟩
      rw [h1, h2]
      exact ⟨a, by simp, .inr ⟨r', m' ++ history k sess, rfl⟩⟩
  · rw [history_lastAttempts_not hk, List.nil_append]
    exact ⟨history k old, rfl, ho.first k⟩

theorem history_current (B : List String) (h : HeaderEntry) (old sess : List LogEntry) (k : String) :
    history k (.header h :: (lastAttempts B old ++ sess.filter (fun e => !isBackref e))) = history k (lastAttempts B old) ++ history k sess := by
  have : ∀ l, history k (LogEntry.header h :: l) = history k l := by intro l; simp [history, about]
  rw [this, history_append, history_notBackref]

/-- Which keys "current" mentions. -/
theorem current_keys {old sess : List LogEntry} {h : HeaderEntry} (hp : Protocol (old ++ .header h :: sess)) (k : String) :
    history k (.header h :: (lastAttempts (backrefKeys sess) old ++ sess.filter (fun e => !isBackref e))) ≠ [] ↔
      history k (old ++ .header h :: sess) ≠ [] ∧ ∃ e ∈ sess, keyOf e = some k := by
  have e1 : history k (old ++ .header h :: sess) = history k old ++ history k sess := by
    rw [history_append]; simp [history, about]
  rw [e1, history_current]
  have mem_b : k ∈ backrefKeys sess ↔ LogEntry.backref ⟨k⟩ ∈ sess := by
    unfold backrefKeys
    rw [List.mem_filterMap]
    constructor
    · rintro ⟨e, he, hk⟩
      cases e with
      | backref b =>
        simp only [Option.some.injEq] at hk
        obtain ⟨x⟩ := b
        simp only at hk
        subst hk
        exact he
      | _ => cases hk
    · intro he; exact ⟨_, he, rfl⟩
  have key_about : ∀ e, about k e = true → keyOf e = some k := by
    intro e he; cases e <;> simp_all [about, keyOf]
  by_cases hs : history k sess = []
  · rw [hs, List.append_nil, List.append_nil]
    constructor
    · intro hne
      have hk : k ∈ backrefKeys sess := Classical.byContradiction fun hk => hne (history_lastAttempts_not hk old)
      refine ⟨fun ho => ?_, .backref ⟨k⟩, mem_b.1 hk, rfl⟩
      have hno : ∀ x ∈ old, ¬ (isReady x = true ∧ about k x = true) := by
        rintro x hx ⟨_, hxk⟩
        have : x ∈ history k old := List.mem_filter.2 ⟨hx, hxk⟩
        rw [ho] at this; cases this
      rw [history_lastAttempts_all hk hno] at hne
      exact hne ho
    · rintro ⟨hne, e, he, hek⟩
      have hk : k ∈ backrefKeys sess := by
        have hna : about k e = false := by
          cases ha : about k e with
          | false => rfl
          | true =>
            have : e ∈ history k sess := List.mem_filter.2 ⟨he, ha⟩
            rw [hs] at this; cases this
        cases e with
        | backref b =>
          obtain ⟨x⟩ := b
          simp only [keyOf, Option.some.injEq] at hek
          subst hek
          exact mem_b.2 he
        | header x => cases hek
        | ready x => simp_all [keyOf, about]
        | started x => simp_all [keyOf, about]
        | finished x => simp_all [keyOf, about]
      rcases readyFirst_history (protocol_prefix hp) k with hn | ⟨r, m, hn⟩
      · exact absurd hn hne
      · have hr : LogEntry.ready r ∈ history k old := by rw [hn]; simp
        obtain ⟨a, r', m', _, h2⟩ := history_lastAttempts hk (l := old) ⟨_, (List.mem_filter.1 hr).1, rfl, (List.mem_filter.1 hr).2⟩
        rw [h2]; simp
  · refine ⟨fun _ => ⟨by simp [hs], ?_⟩, fun _ => by simp [hs]⟩
    cases hh : history k sess with
    | nil => exact absurd hh hs
    | cons e m =>
      have : e ∈ history k sess := by rw [hh]; simp
      exact ⟨e, (List.mem_filter.1 this).1, key_about e (List.mem_filter.1 this).2⟩

end Verif.Copy
