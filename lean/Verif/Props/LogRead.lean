import Verif.Proof.Json3
import Verif.Proof.JsonGrammar3

/-!
# C160: a line of the log is read as an entry only if it says so
-/

namespace Verif.Props.LogRead
open Verif Verif.Json

/-! ### Specification -/

/-- `j` has the value `v` in the field `name`, of a struct whose field number `pos` this is (serde also reads arrays as structs). -/
def HasField (j : Json) (pos : Nat) (name : String) (v : Json) : Prop :=
  (∃ l, j = .obj l ∧ (name, v) ∈ l) ∨ ∃ l, j = .arr l ∧ l[pos]? = some v

/-- `j` does not have the field. -/
def Lacks (j : Json) (pos : Nat) (name : String) : Prop :=
  (∃ l, j = .obj l ∧ ∀ v, (name, v) ∉ l) ∨ ∃ l, j = .arr l ∧ l.length ≤ pos

/-- The time, up to a carry of nanoseconds. -/
def SaysTime (j : Json) (t : SysTime) : Prop :=
  ∃ s n : Nat, HasField j 0 "secs_since_epoch" (.int s) ∧ HasField j 1 "nanos_since_epoch" (.int n) ∧
    s * 1000000000 + n = t.secs * 1000000000 + t.nanos ∧ t.nanos < 1000000000

/-- A list of strings. -/
def SaysStrs (j : Json) (l : List String) : Prop := j = .arr (l.map .str)

/-- A map of strings: the fields of the object; of a repeated one the last. -/
def SaysMap (j : Json) (m : List (String × String)) : Prop :=
  ∃ l, j = .obj l ∧ (m.map (·.1)).Nodup ∧
    ∀ k v, (k, v) ∈ m ↔ ∃ l1 l2, l = l1 ++ (k, .str v) :: l2 ∧ ∀ w, (k, w) ∉ l2

/-- What the values of a task look like. -/
def SaysMaps (j : Json) (ms : List (List (String × String))) : Prop :=
  ∃ l, j = .arr l ∧ l.length = ms.length ∧ ∀ (i : Nat) x m, l[i]? = some x → ms[i]? = some m → SaysMap x m

/-- `j` says that entry `e` was written. -/
def Says (j : Json) : LogEntry → Prop
  | .header h => ∃ x, j = .obj [("Header", x)] ∧ HasField x 0 "version" (.int h.version) ∧ (∃ t, HasField x 1 "time" t ∧ SaysTime t h.time) ∧
      HasField x 2 "user" (.str h.user) ∧ HasField x 3 "hostname" (.str h.hostname) ∧ HasField x 4 "workflow_key" (.str h.workflowKey) ∧
      (∃ c, HasField x 5 "cmdline" c ∧ SaysStrs c h.cmdline) ∧ HasField x 6 "workdir" (.str h.workdir) ∧ HasField x 7 "pid" (.int h.pid) ∧
      ((∃ r, HasField x 8 "storage_roots" r ∧ SaysStrs r h.storageRoots) ∨ Lacks x 8 "storage_roots" ∧ h.storageRoots = [])
  | .ready r => ∃ x, j = .obj [("Ready", x)] ∧ (∃ t, HasField x 0 "time" t ∧ SaysTime t r.time) ∧ HasField x 1 "key" (.str r.key) ∧
      HasField x 2 "runcount" (.int r.runcount) ∧ HasField x 3 "command" (.str r.command) ∧
      (HasField x 4 "r" (.int r.storageRoot) ∨ Lacks x 4 "r" ∧ r.storageRoot = 0)
  | .started s => ∃ x, j = .obj [("Started", x)] ∧ (∃ t, HasField x 0 "time" t ∧ SaysTime t s.time) ∧ HasField x 1 "key" (.str s.key) ∧
      HasField x 2 "host" (.str s.host) ∧ HasField x 3 "pid" (.int s.pid) ∧
      (HasField x 4 "slurm_jobid" (.str s.slurmJobid) ∨ Lacks x 4 "slurm_jobid" ∧ s.slurmJobid = "")
  | .finished f => ∃ x, j = .obj [("Finished", x)] ∧ (∃ t, HasField x 0 "time" t ∧ SaysTime t f.time) ∧ HasField x 1 "key" (.str f.key) ∧
      HasField x 2 "status" (.int f.status) ∧
      ((∃ v, HasField x 3 "values" v ∧ SaysMaps v f.values) ∨ Lacks x 3 "values" ∧ f.values = [])
  | .backref b => ∃ x, j = .obj [("Backref", x)] ∧ HasField x 0 "key" (.str b.key)

/-! ### Helpers -/

theorem field_some {l : List (String × Json)} {n : String} {v : Json} (h : field l n = some (some v)) : (n, v) ∈ l := by
  unfold field at h
  split at h
  · cases h
  · rename_i x hx
    simp only [Option.some.injEq] at h
    have : x ∈ l.filter (fun x => x.1 == n) := by rw [hx]; simp
    rw [List.mem_filter, beq_iff_eq] at this
    rw [← h, ← this.2]
    exact this.1
  · cases h

theorem field_none {l : List (String × Json)} {n : String} (h : field l n = some none) (v : Json) : (n, v) ∉ l := by
  unfold field at h
  split at h
  · rename_i hx
    intro hm
    have : (n, v) ∈ l.filter (fun x => x.1 == n) := by simp [hm]
    rw [hx] at this
    cases this
  · cases h
  · cases h

theorem mapM_get {α β : Type} {f : α → Option β} : ∀ {l : List α} {r : List β}, l.mapM f = some r →
    r.length = l.length ∧ ∀ (i : Nat) y, r[i]? = some y → ∃ x, l[i]? = some x ∧ f x = some y
  | [], r, h => by
    simp only [List.mapM_nil] at h
    cases h
    simp
  | a :: l, r, h => by
    rw [List.mapM_cons] at h
    simp only [Option.bind_eq_bind, Option.bind_eq_some_iff] at h
    obtain ⟨b, hb, q, hq, hr⟩ := h
    cases hr
    obtain ⟨h1, h2⟩ := mapM_get hq
    refine ⟨by simp [h1], fun i y hy => ?_⟩
    cases i with
    | zero => simp only [List.getElem?_cons_zero, Option.some.injEq] at hy; exact ⟨a, by simp, hy ▸ hb⟩
    | succ i => simpa using h2 i y (by simpa using hy)

theorem args_get {strict : Bool} {names : List String} {j : Json} {a : List (Option Json)} (h : args strict names j = some a)
    {i : Nat} {n : String} (hn : names[i]? = some n) :
    (∀ v, a[i]? = some (some v) → HasField j i n v) ∧ (a[i]? = some none → Lacks j i n) := by
  cases j with
  | obj l =>
    simp only [args] at h
    split at h
    · cases h
    · obtain ⟨_, h2⟩ := mapM_get h
      refine ⟨fun v hv => .inl ⟨l, rfl, ?_⟩, fun hv => .inl ⟨l, rfl, ?_⟩⟩
      · obtain ⟨x, hx, hf⟩ := h2 i _ hv
        rw [hn] at hx
        cases hx
        exact field_some hf
      · obtain ⟨x, hx, hf⟩ := h2 i _ hv
        rw [hn] at hx
        cases hx
        exact field_none hf
  | arr l =>
    simp only [args] at h
    split at h
    · cases h
    · simp only [Option.some.injEq] at h
      subst h
      have hi : i < names.length := (List.getElem?_eq_some_iff.1 hn).1
      refine ⟨fun v hv => .inr ⟨l, rfl, ?_⟩, fun hv => .inr ⟨l, rfl, ?_⟩⟩
      · simpa [hi] using hv
      · simpa [hi] using hv
  | _ => simp [args] at h

theorem asStr_eq {j : Json} {s : String} (h : asStr j = some s) : j = .str s := by
  cases j <;> simp_all [asStr]

theorem asInt_eq {lo hi : Int} {j : Json} {i : Int} (h : asInt lo hi j = some i) : j = .int i ∧ lo ≤ i ∧ i < hi := by
  cases j <;> simp only [asInt, reduceCtorEq] at h
  split at h
  · cases h; rename_i h; exact ⟨rfl, h⟩
  · cases h

theorem asU32_eq {j : Json} {n : Nat} (h : asU32 j = some n) : j = .int n := by
  simp only [asU32, Option.map_eq_some_iff] at h
  obtain ⟨i, hi, rfl⟩ := h
  obtain ⟨h1, h2, _⟩ := asInt_eq hi
  rw [h1, Int.toNat_of_nonneg h2]

theorem asStrs_says {j : Json} {l : List String} (h : asStrs j = some l) : SaysStrs j l := by
  cases j <;> simp only [asStrs, reduceCtorEq] at h
  rename_i x
  unfold SaysStrs
  congr 1
  obtain ⟨h1, h2⟩ := mapM_get h
  refine List.ext_getElem? fun i => ?_
  rw [List.getElem?_map]
  cases hl : l[i]? with
  | none =>
    rw [List.getElem?_eq_none_iff] at hl
    simp only [Option.map_none, List.getElem?_eq_none_iff]
    omega
  | some s =>
    obtain ⟨y, hy, hs⟩ := h2 i s hl
    rw [hy, asStr_eq hs]
    rfl

theorem fold_put : ∀ (l m0 : List (String × String)), (m0.map (·.1)).Nodup →
    ((l.foldl put m0).map (·.1)).Nodup ∧
    ∀ k v, (k, v) ∈ l.foldl put m0 ↔ (∃ l1 l2, l = l1 ++ (k, v) :: l2 ∧ ∀ w, (k, w) ∉ l2) ∨ (k, v) ∈ m0 ∧ ∀ w, (k, w) ∉ l
  | [], m0, h => by simpa using h
  | (k0, v0) :: l, m0, h => by
    have hn : ((put m0 (k0, v0)).map (·.1)).Nodup := by
      unfold put
      rw [List.map_append, List.nodup_append]
      refine ⟨?_, by simp, ?_⟩
      · exact List.Nodup.sublist (List.Sublist.map _ List.filter_sublist) h
      · simp
    obtain ⟨h1, h2⟩ := fold_put l (put m0 (k0, v0)) hn
    refine ⟨h1, fun k v => ?_⟩
    rw [List.foldl_cons, h2 k v]
    have hp : (k, v) ∈ put m0 (k0, v0) ↔ ((k, v) ∈ m0 ∧ k ≠ k0) ∨ (k = k0 ∧ v = v0) := by simp [put]
    rw [hp]
    constructor
    · rintro (⟨l1, l2, rfl, h⟩ | ⟨⟨h3, h4⟩ | ⟨rfl, rfl⟩, h5⟩)
      · exact .inl ⟨(k0, v0) :: l1, l2, rfl, h⟩
      · refine .inr ⟨h3, fun w hw => ?_⟩
        rcases List.mem_cons.1 hw with e | hw
        · cases e; exact h4 rfl
        · exact h5 w hw
      · exact .inl ⟨[], l, rfl, h5⟩
    · rintro (⟨l1, l2, e, h⟩ | ⟨h3, h4⟩)
      · cases l1 with
        | nil =>
          simp only [List.nil_append, List.cons.injEq, Prod.mk.injEq] at e
          obtain ⟨⟨rfl, rfl⟩, rfl⟩ := e
          exact .inr ⟨.inr ⟨rfl, rfl⟩, h⟩
        | cons x l1 =>
          simp only [List.cons_append, List.cons.injEq] at e
          exact .inl ⟨l1, l2, e.2, h⟩
      · refine .inr ⟨.inl ⟨h3, ?_⟩, fun w hw => h4 w (by simp [hw])⟩
        rintro rfl
        exact h4 v0 (by simp)

theorem asMap_says {j : Json} {m : List (String × String)} (h : asMap j = some m) : SaysMap j m := by
  cases j <;> simp only [asMap, reduceCtorEq] at h
  rename_i l
  simp only [Option.map_eq_some_iff] at h
  obtain ⟨q, hq, rfl⟩ := h
  have hl : l = q.map (fun x => (x.1, Json.str x.2)) := by
    obtain ⟨h1, h2⟩ := mapM_get hq
    refine List.ext_getElem? fun i => ?_
    rw [List.getElem?_map]
    cases hl : q[i]? with
    | none =>
      rw [List.getElem?_eq_none_iff] at hl
      simp only [Option.map_none, List.getElem?_eq_none_iff]
      omega
    | some s =>
      obtain ⟨y, hy, hs⟩ := h2 i s hl
      simp only [Option.map_eq_some_iff] at hs
      obtain ⟨v, hv, rfl⟩ := hs
      rw [hy, Option.map_some, ← asStr_eq hv]
  obtain ⟨h1, h2⟩ := fold_put q [] (by simp)
  refine ⟨l, rfl, h1, fun k v => ?_⟩
  rw [h2 k v, hl]
  simp only [List.not_mem_nil, false_and, or_false]
  constructor
  · rintro ⟨l1, l2, rfl, h⟩
    refine ⟨l1.map (fun x => (x.1, Json.str x.2)), l2.map (fun x => (x.1, Json.str x.2)), by simp, fun w hw => ?_⟩
    rw [List.mem_map] at hw
    obtain ⟨⟨a, b⟩, hm, e⟩ := hw
    cases e
    exact h _ hm
  · rintro ⟨l1, l2, e, h⟩
    rw [List.map_eq_append_iff] at e
    obtain ⟨p1, p2, rfl, rfl, e⟩ := e
    rw [List.map_eq_cons_iff] at e
    obtain ⟨⟨a, b⟩, p3, rfl, e, rfl⟩ := e
    cases e
    exact ⟨p1, p3, rfl, fun w hw => h _ (List.mem_map.2 ⟨(_, w), hw, rfl⟩)⟩

theorem asMaps_says {j : Json} {ms : List (List (String × String))} (h : asMaps j = some ms) : SaysMaps j ms := by
  cases j <;> simp only [asMaps, reduceCtorEq] at h
  obtain ⟨h1, h2⟩ := mapM_get h
  refine ⟨_, rfl, h1.symm, fun i x m hx hm => ?_⟩
  obtain ⟨y, hy, hs⟩ := h2 i m hm
  rw [hx] at hy
  cases hy
  exact asMap_says hs

theorem asTime_says {j : Json} {t : SysTime} (h : asTime j = some t) : SaysTime j t := by
  simp only [asTime, Option.bind_eq_some_iff] at h
  obtain ⟨a, ha, h⟩ := h
  split at h
  · rename_i x y
    simp only [Option.bind_eq_some_iff] at h
    obtain ⟨s, hs, n, hn, hc⟩ := h
    obtain ⟨rfl, s1, _⟩ := asInt_eq hs
    obtain ⟨rfl, n1, _⟩ := asInt_eq hn
    unfold carry at hc
    split at hc
    · cases hc
      refine ⟨s.toNat, n.toNat, ?_, ?_, ?_, ?_⟩
      · rw [Int.toNat_of_nonneg s1]; exact (args_get ha (i := 0) rfl).1 _ rfl
      · rw [Int.toNat_of_nonneg n1]; exact (args_get ha (i := 1) rfl).1 _ rfl
      · simp only; omega
      · simp only; omega
    · cases hc
  · cases h

/-! ### C160 -/

/-- **C160.** What is read as an entry says so: every field of the entry is in the line, under its name (or at its place), with
this value; only the fields added in later versions may be missing, and then have their default. -/
theorem read_says {j : Json} {e : LogEntry} (h : ofJson j = some e) : Says j e := by
  unfold ofJson at h
  split at h
  · rename_i n j
    split at h
    · rename_i hn
      subst hn
      rw [Option.map_eq_some_iff] at h
      obtain ⟨x, hx, rfl⟩ := h
      simp only [asHeader, Option.bind_eq_some_iff] at hx
      obtain ⟨a, ha, hx⟩ := hx
      split at hx
      · simp only [Option.bind_eq_bind, Option.bind_eq_some_iff, Option.pure_def, Option.some.injEq] at hx
        obtain ⟨v, hv, t, ht, u, hu, hh, hhh, k, hk, c, hc, w, hw, p, hp, r, hr, rfl⟩ := hx
        refine ⟨j, rfl, ?_, ⟨_, (args_get ha (i := 1) rfl).1 _ rfl, asTime_says ht⟩, ?_, ?_, ?_, ⟨_, (args_get ha (i := 5) rfl).1 _ rfl, asStrs_says hc⟩, ?_, ?_, ?_⟩
        · rw [← asU32_eq hv]; exact (args_get ha (i := 0) rfl).1 _ rfl
        · rw [← asStr_eq hu]; exact (args_get ha (i := 2) rfl).1 _ rfl
        · rw [← asStr_eq hhh]; exact (args_get ha (i := 3) rfl).1 _ rfl
        · rw [← asStr_eq hk]; exact (args_get ha (i := 4) rfl).1 _ rfl
        · rw [← asStr_eq hw]; exact (args_get ha (i := 6) rfl).1 _ rfl
        · rw [← asU32_eq hp]; exact (args_get ha (i := 7) rfl).1 _ rfl
        · rename_i r0
          cases r0 with
          | none => cases hr; exact .inr ⟨(args_get ha (i := 8) rfl).2 rfl, rfl⟩
          | some r0 => exact .inl ⟨r0, (args_get ha (i := 8) rfl).1 _ rfl, asStrs_says hr⟩
      · cases hx
    · split at h
      · rename_i hn
        subst hn
        rw [Option.map_eq_some_iff] at h
        obtain ⟨x, hx, rfl⟩ := h
        simp only [asReady, Option.bind_eq_some_iff] at hx
        obtain ⟨a, ha, hx⟩ := hx
        split at hx
        · simp only [Option.bind_eq_bind, Option.bind_eq_some_iff, Option.pure_def, Option.some.injEq] at hx
          obtain ⟨t, ht, k, hk, n, hn, c, hc, r, hr, rfl⟩ := hx
          refine ⟨j, rfl, ⟨_, (args_get ha (i := 0) rfl).1 _ rfl, asTime_says ht⟩, ?_, ?_, ?_, ?_⟩
          · rw [← asStr_eq hk]; exact (args_get ha (i := 1) rfl).1 _ rfl
          · rw [← asU32_eq hn]; exact (args_get ha (i := 2) rfl).1 _ rfl
          · rw [← asStr_eq hc]; exact (args_get ha (i := 3) rfl).1 _ rfl
          · rename_i r0
            cases r0 with
            | none => cases hr; exact .inr ⟨(args_get ha (i := 4) rfl).2 rfl, rfl⟩
            | some r0 => left; rw [← asU32_eq hr]; exact (args_get ha (i := 4) rfl).1 _ rfl
        · cases hx
      · split at h
        · rename_i hn
          subst hn
          rw [Option.map_eq_some_iff] at h
          obtain ⟨x, hx, rfl⟩ := h
          simp only [asStarted, Option.bind_eq_some_iff] at hx
          obtain ⟨a, ha, hx⟩ := hx
          split at hx
          · simp only [Option.bind_eq_bind, Option.bind_eq_some_iff, Option.pure_def, Option.some.injEq] at hx
            obtain ⟨t, ht, k, hk, hh, hhh, p, hp, r, hr, rfl⟩ := hx
            refine ⟨j, rfl, ⟨_, (args_get ha (i := 0) rfl).1 _ rfl, asTime_says ht⟩, ?_, ?_, ?_, ?_⟩
            · rw [← asStr_eq hk]; exact (args_get ha (i := 1) rfl).1 _ rfl
            · rw [← asStr_eq hhh]; exact (args_get ha (i := 2) rfl).1 _ rfl
            · rw [← asU32_eq hp]; exact (args_get ha (i := 3) rfl).1 _ rfl
            · rename_i r0
              cases r0 with
              | none => cases hr; exact .inr ⟨(args_get ha (i := 4) rfl).2 rfl, rfl⟩
              | some r0 => left; rw [← asStr_eq hr]; exact (args_get ha (i := 4) rfl).1 _ rfl
          · cases hx
        · split at h
          · rename_i hn
            subst hn
            rw [Option.map_eq_some_iff] at h
            obtain ⟨x, hx, rfl⟩ := h
            simp only [asFinished, Option.bind_eq_some_iff] at hx
            obtain ⟨a, ha, hx⟩ := hx
            split at hx
            · simp only [Option.bind_eq_bind, Option.bind_eq_some_iff, Option.pure_def, Option.some.injEq] at hx
              obtain ⟨t, ht, k, hk, p, hp, r, hr, rfl⟩ := hx
              refine ⟨j, rfl, ⟨_, (args_get ha (i := 0) rfl).1 _ rfl, asTime_says ht⟩, ?_, ?_, ?_⟩
              · rw [← asStr_eq hk]; exact (args_get ha (i := 1) rfl).1 _ rfl
              · rw [← (asInt_eq hp).1]; exact (args_get ha (i := 2) rfl).1 _ rfl
              · rename_i r0
                cases r0 with
                | none => cases hr; exact .inr ⟨(args_get ha (i := 3) rfl).2 rfl, rfl⟩
                | some r0 => exact .inl ⟨r0, (args_get ha (i := 3) rfl).1 _ rfl, asMaps_says hr⟩
            · cases hx
          · split at h
            · rename_i hn
              subst hn
              rw [Option.map_eq_some_iff] at h
              obtain ⟨x, hx, rfl⟩ := h
              simp only [asBackref, Option.bind_eq_some_iff] at hx
              obtain ⟨a, ha, hx⟩ := hx
              split at hx
              · rw [Option.map_eq_some_iff] at hx
                obtain ⟨k, hk, rfl⟩ := hx
                refine ⟨j, rfl, ?_⟩
                rw [← asStr_eq hk]; exact (args_get ha (i := 0) rfl).1 _ rfl
              · cases hx
            · cases h
  · cases h

theorem loadLines_says : ∀ {ls : List (List UInt8)} {st st' : LoadState} {es es' : List LogEntry},
    loadLines st es ls = .ok (st', es') → ∃ new, es' = es ++ new ∧ new.length = ls.length ∧
      ∀ (i : Nat) (l : List UInt8) (e : LogEntry), ls[i]? = some l → new[i]? = some e →
        ∃ cs j, unutf8 l = some cs ∧ IsText (trimEnd cs) j ∧ Says j e
  | [], st, st', es, es', h => by
    cases h
    exact ⟨[], by simp⟩
  | l :: ls, st, st', es, es', h => by
    simp only [loadLines] at h
    split at h
    · cases h
    · rename_i cs hcs
      split at h
      · cases h
      · rename_i e he
        split at h
        · obtain ⟨new, h1, h2, h3⟩ := loadLines_says h
          refine ⟨e :: new, by simp [h1], by simp [h2], fun i l' e' hl he' => ?_⟩
          cases i with
          | zero =>
            cases hl
            cases he'
            simp only [fromStr, Option.bind_eq_some_iff] at he
            obtain ⟨j, hj, he⟩ := he
            exact ⟨cs, j, hcs, parse_iff.1 hj, read_says he⟩
          | succ i => exact h3 i l' e' hl he'
        · cases h
        · cases h

/-- **C160.** If the file can be opened then every line of it, without exception, says the entry it is read as; there are as many
entries as lines. -/
theorem opened_says {bs : List UInt8} {dir : String} {lf : LogFile} (h : openBytes bs dir = .ok lf) :
    lf.entries.length = (rawLines bs).length ∧
    ∀ (i : Nat) (l : List UInt8) (e : LogEntry), (rawLines bs)[i]? = some l → lf.entries[i]? = some e →
      ∃ cs j, unutf8 l = some cs ∧ IsText (trimEnd cs) j ∧ Says j e := by
  unfold openBytes at h
  cases hl : loadLines ⟨.empty, none⟩ [] (rawLines bs) with
  | ok r =>
    rw [hl] at h
    cases h
    obtain ⟨new, h1, h2, h3⟩ := loadLines_says hl
    rw [List.nil_append] at h1
    rw [show r.2 = new from h1]
    exact ⟨h2, h3⟩
  | err _ => rw [hl] at h; cases h
  | panic _ => rw [hl] at h; cases h

/-- **C160.** `read_logfile`: every entry returned is said by a line; in the order of the lines. -/
theorem snapshot_says {bs : List UInt8} {es : List LogEntry} (h : readBytes bs = .ok es) :
    ∃ ls : List (List UInt8), ls.Sublist (rawLines bs) ∧ ls.length = es.length ∧
    ∀ (i : Nat) (l : List UInt8) (e : LogEntry), ls[i]? = some l → es[i]? = some e →
      ∃ cs j, unutf8 l = some cs ∧ IsText (trimEnd cs) j ∧ Says j e := by
  unfold readBytes at h
  revert h
  generalize rawLines bs = lines
  intro h
  induction lines generalizing es with
  | nil => cases h; exact ⟨[], by simp⟩
  | cons l lines ih =>
    simp only [readAll] at h
    split at h
    · cases h
    · rename_i cs hcs
      cases hr : readAll lines with
      | ok rest =>
        rw [hr] at h
        simp only [Res.bind, Res.ok.injEq] at h
        obtain ⟨ls, h1, h2, h3⟩ := ih hr
        cases hf : fromStr (trimEnd cs) with
        | none =>
          rw [hf] at h
          simp only [Option.toList_none, List.nil_append] at h
          subst h
          exact ⟨ls, h1.cons _, h2, h3⟩
        | some e =>
          rw [hf] at h
          simp only [Option.toList_some, List.singleton_append] at h
          subst h
          refine ⟨l :: ls, h1.cons_cons _, by simp [h2], fun i l' e' hl he' => ?_⟩
          cases i with
          | zero =>
            cases hl
            cases he'
            simp only [fromStr, Option.bind_eq_some_iff] at hf
            obtain ⟨j, hj, he⟩ := hf
            exact ⟨cs, j, hcs, parse_iff.1 hj, read_says he⟩
          | succ i => exact h3 i l' e' hl he'
      | err _ => rw [hr] at h; cases h
      | panic _ => rw [hr] at h; cases h

/-! ### Non-trivial cases -/

/-- A line of another writer: fields in another order, an unknown one, a repeated key among the values, a carry in the time. -/
def other : Json := .obj [("Finished", .obj [("status", .int 3), ("extra", .null),
  ("values", .arr [.obj [("x", .str "1"), ("x", .str "2")]]), ("key", .str "k"),
  ("time", .arr [.int 5, .int 2000000001])])]

example : ofJson other = some (.finished ⟨⟨7, 1⟩, "k", 3, [[("x", "2")]]⟩) := by decide +kernel

/-- Refused: no key; a status that is no integer. -/
example : ofJson (.obj [("Backref", .obj [])]) = none ∧
    ofJson (.obj [("Finished", .obj [("time", .arr [.int 5, .int 1]), ("key", .str "k"), ("status", .str "0")])]) = none := by
  decide +kernel

example : ∃ es, readBytes (utf8 "{\"Backref\":{\"key\":\"a\"}}\n{\"Backref\":{}}\n{\"Backref\":[\"b\"]}\n".toList) = .ok es ∧
    es = [.backref ⟨"a"⟩, .backref ⟨"b"⟩] := ⟨_, by decide +kernel, rfl⟩

end Verif.Props.LogRead
