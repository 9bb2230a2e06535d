import Verif.Props.LogRead

/-!
# C160: exactly which lines of the log are accepted
-/

namespace Verif.Props.LogRead
open Verif Verif.Json

/-! ### Specification -/

/-- None of the fields is given twice; an array has not more elements than there are fields. -/
def Clean (names : List String) (j : Json) : Prop :=
  (∃ l, j = .obj l ∧ ∀ n ∈ names, (l.map (·.1)).count n ≤ 1) ∨ ∃ l, j = .arr l ∧ l.length ≤ names.length

/-- A time without other fields, of numbers that fit `u64` and `u32`. -/
def CleanTime (j : Json) : Prop :=
  Clean ["secs_since_epoch", "nanos_since_epoch"] j ∧
  (∀ l, j = .obj l → ∀ y ∈ l, y.1 = "secs_since_epoch" ∨ y.1 = "nanos_since_epoch") ∧
  ∀ s n : Nat, HasField j 0 "secs_since_epoch" (.int s) → HasField j 1 "nanos_since_epoch" (.int n) → s < 2 ^ 64 ∧ n < 2 ^ 32

/-- A list of objects with strings only. -/
def CleanMaps (j : Json) : Prop := ∀ l, j = .arr l → ∀ y ∈ l, ∃ q : List (String × String), y = .obj (q.map (fun x => (x.1, .str x.2)))

/-- The numbers fit their types. -/
def InRange : LogEntry → Prop
  | .header h => h.version < 2 ^ 32 ∧ h.pid < 2 ^ 32 ∧ h.time.secs < 2 ^ 63
  | .ready r => r.runcount < 2 ^ 32 ∧ r.storageRoot < 2 ^ 32 ∧ r.time.secs < 2 ^ 63
  | .started s => s.pid < 2 ^ 32 ∧ s.time.secs < 2 ^ 63
  | .finished f => -2 ^ 31 ≤ f.status ∧ f.status < 2 ^ 31 ∧ f.time.secs < 2 ^ 63
  | .backref _ => True

/-- The line has the form serde asks for. -/
def Proper (j : Json) (e : LogEntry) : Prop :=
  ∃ n x, j = .obj [(n, x)] ∧
    match e with
    | .header _ => Clean ["version", "time", "user", "hostname", "workflow_key", "cmdline", "workdir", "pid", "storage_roots"] x ∧
        ∀ t, HasField x 1 "time" t → CleanTime t
    | .ready _ => Clean ["time", "key", "runcount", "command", "r"] x ∧ ∀ t, HasField x 0 "time" t → CleanTime t
    | .started _ => Clean ["time", "key", "host", "pid", "slurm_jobid"] x ∧ ∀ t, HasField x 0 "time" t → CleanTime t
    | .finished _ => Clean ["time", "key", "status", "values"] x ∧ (∀ t, HasField x 0 "time" t → CleanTime t) ∧
        ∀ v, HasField x 3 "values" v → CleanMaps v
    | .backref _ => Clean ["key"] x

/-- The same map. -/
def AlikeMap (m m' : List (String × String)) : Prop := (m.map (·.1)).Nodup ∧ (m'.map (·.1)).Nodup ∧ ∀ kv, kv ∈ m ↔ kv ∈ m'

/-- The same entry; the maps of a finished entry have no order. -/
def Alike : LogEntry → LogEntry → Prop
  | .finished f, .finished g => f.time = g.time ∧ f.key = g.key ∧ f.status = g.status ∧ f.values.length = g.values.length ∧
      ∀ (i : Nat) m m', f.values[i]? = some m → g.values[i]? = some m' → AlikeMap m m'
  | e, e' => e = e'

/-! ### Helpers -/

theorem count_filter (l : List (String × Json)) (n : String) : (l.map (·.1)).count n = (l.filter (fun x => x.1 == n)).length := by
  rw [List.count, List.countP_map, List.countP_eq_length_filter]
  rfl

theorem field_of {l : List (String × Json)} {n : String} (hc : (l.map (·.1)).count n ≤ 1) :
    (∀ v, (n, v) ∈ l → field l n = some (some v)) ∧ ((∀ v, (n, v) ∉ l) → field l n = some none) := by
  rw [count_filter] at hc
  constructor
  · intro v hv
    have hm : (n, v) ∈ l.filter (fun x => x.1 == n) := by simp [hv]
    unfold field
    split
    · rename_i he; rw [he] at hm; cases hm
    · rename_i x he
      rw [he, List.mem_singleton] at hm
      rw [← hm]
    · rename_i h1 h2
      exfalso
      cases hf : l.filter (fun x => x.1 == n) with
      | nil => exact h1 hf
      | cons a t =>
        cases t with
        | nil => exact h2 a hf
        | cons b t => rw [hf] at hc; simp at hc
  · intro h
    have : l.filter (fun x => x.1 == n) = [] := by
      rw [List.filter_eq_nil_iff]
      rintro ⟨k, v⟩ hm hk
      simp only [beq_iff_eq] at hk
      subst hk
      exact h v hm
    unfold field
    rw [this]

theorem mapM_of {α β : Type} {f : α → Option β} : ∀ {l : List α} {r : List β}, r.length = l.length →
    (∀ (i : Nat) x y, l[i]? = some x → r[i]? = some y → f x = some y) → l.mapM f = some r
  | [], r, h, _ => by
    have : r = [] := List.length_eq_zero_iff.1 h
    subst this
    simp
  | a :: l, [], h, _ => by simp at h
  | a :: l, b :: r, h, hp => by
    rw [List.mapM_cons, hp 0 a b rfl rfl]
    have := mapM_of (l := l) (r := r) (by simpa using h) (fun i x y hx hy => hp (i + 1) x y (by simpa using hx) (by simpa using hy))
    simp [this]

/-- The fields of a struct in a clean value. -/
theorem args_of {strict : Bool} {names : List String} {j : Json} {a : List (Option Json)} (hc : Clean names j)
    (hs : strict = true → ∀ l, j = .obj l → ∀ y ∈ l, y.1 ∈ names) (hl : a.length = names.length)
    (h : ∀ (i : Nat) n o, names[i]? = some n → a[i]? = some o → (∀ v, o = some v → HasField j i n v) ∧ (o = none → Lacks j i n)) :
    args strict names j = some a := by
  rcases hc with ⟨l, rfl, hc⟩ | ⟨l, rfl, hc⟩
  · simp only [args]
    rw [if_neg]
    · apply mapM_of hl
      intro i n o hn ho
      obtain ⟨h1, h2⟩ := h i n o hn ho
      obtain ⟨f1, f2⟩ := field_of (hc n (List.mem_of_getElem? hn))
      cases o with
      | some v =>
        rcases h1 v rfl with ⟨l', he, hm⟩ | ⟨l', he, _⟩
        · cases he; exact f1 v hm
        · cases he
      | none =>
        rcases h2 rfl with ⟨l', he, hm⟩ | ⟨l', he, _⟩
        · cases he; exact f2 hm
        · cases he
    · simp only [Bool.and_eq_true, List.any_eq_true, Bool.not_eq_true', not_and, not_exists]
      intro h1 y hy h3
      have := hs h1 l rfl y hy
      rw [← List.contains_iff_mem] at this
      rw [this] at h3
      cases h3
  · simp only [args]
    rw [if_neg (by omega)]
    congr 1
    refine List.ext_getElem? fun i => ?_
    by_cases hi : i < names.length
    · have hn : names[i]? = some names[i] := List.getElem?_eq_getElem hi
      have ha : a[i]? = some (a[i]'(by omega)) := List.getElem?_eq_getElem (by omega)
      obtain ⟨h1, h2⟩ := h i _ _ hn ha
      rw [ha]
      simp only [List.getElem?_map, List.getElem?_range hi, Option.map_some, Option.some.injEq]
      cases ho : a[i]'(by omega) with
      | some v =>
        rcases h1 v ho with ⟨l', he, _⟩ | ⟨l', he, hm⟩
        · cases he
        · cases he; exact hm
      | none =>
        rcases h2 ho with ⟨l', he, _⟩ | ⟨l', he, hm⟩
        · cases he
        · cases he; exact List.getElem?_eq_none hm
    · rw [List.getElem?_eq_none (by simp; omega), List.getElem?_eq_none (by omega)]

theorem args_clean {strict : Bool} {names : List String} {j : Json} {a : List (Option Json)} (h : args strict names j = some a) :
    Clean names j ∧ (strict = true → ∀ l, j = .obj l → ∀ y ∈ l, y.1 ∈ names) := by
  cases j with
  | obj l =>
    simp only [args] at h
    split at h
    · cases h
    · rename_i hs
      constructor
      · refine .inl ⟨l, rfl, fun n hn => ?_⟩
        obtain ⟨h1, h2⟩ := mapM_get h
        obtain ⟨i, hi, hin⟩ := List.getElem_of_mem hn
        have hy : a[i]? = some (a[i]'(by omega)) := List.getElem?_eq_getElem (by omega)
        obtain ⟨x, hx, hf⟩ := h2 i _ hy
        rw [List.getElem?_eq_getElem hi, hin] at hx
        cases hx
        rw [count_filter]
        unfold field at hf
        split at hf
        · rename_i he; rw [he]; simp
        · rename_i he; rw [he]; simp
        · cases hf
      · intro hst l' he y hy
        cases he
        refine Classical.byContradiction fun hn => hs ?_
        simp only [Bool.and_eq_true, List.any_eq_true, Bool.not_eq_true']
        refine ⟨hst, y, hy, ?_⟩
        cases hcn : names.contains y.1 with
        | false => rfl
        | true => exact absurd (List.contains_iff_mem.1 hcn) hn
  | arr l =>
    simp only [args] at h
    split at h
    · cases h
    · exact ⟨.inr ⟨l, rfl, by omega⟩, fun _ l' he => by cases he⟩
  | _ => simp [args] at h

theorem asInt_of {lo hi i : Int} (h1 : lo ≤ i) (h2 : i < hi) : asInt lo hi (.int i) = some i := if_pos ⟨h1, h2⟩

theorem asU32_of {n : Nat} (h : n < 2 ^ 32) : asU32 (.int n) = some n := by
  unfold asU32
  rw [asInt_of (by omega) (by omega)]
  simp

theorem asU32_lt {j : Json} {n : Nat} (h : asU32 j = some n) : n < 2 ^ 32 := by
  simp only [asU32, Option.map_eq_some_iff] at h
  obtain ⟨i, hi, rfl⟩ := h
  obtain ⟨_, h2, h3⟩ := asInt_eq hi
  omega

theorem asStrs_of {j : Json} {l : List String} (h : SaysStrs j l) : asStrs j = some l := by
  unfold SaysStrs at h
  subst h
  exact mapM_of (by simp) (fun i x y hx hy => by
    simp only [List.getElem?_map, hy, Option.map_some, Option.some.injEq] at hx
    subst hx
    rfl)

theorem asTime_of {j : Json} {t : SysTime} (h : SaysTime j t) (hc : CleanTime j) (hb : t.secs < 2 ^ 63) : asTime j = some t := by
  obtain ⟨s, n, h1, h2, h3, h4⟩ := h
  obtain ⟨c1, c2, c3⟩ := hc
  obtain ⟨b1, b2⟩ := c3 s n h1 h2
  have ha : args true ["secs_since_epoch", "nanos_since_epoch"] j = some [some (.int s), some (.int n)] := by
    refine args_of c1 (fun _ l hl y hy => by simpa using c2 l hl y hy) rfl ?_
    intro i m o hm ho
    match i with
    | 0 => cases hm; cases ho; exact ⟨fun v hv => by cases hv; exact h1, fun hv => by cases hv⟩
    | 1 => cases hm; cases ho; exact ⟨fun v hv => by cases hv; exact h2, fun hv => by cases hv⟩
    | i + 2 => simp at hm
  have hcar : carry (s : Int).toNat (n : Int).toNat = some t := by
    unfold carry
    have q1 : s + n / 1000000000 = t.secs := by omega
    have q2 : n % 1000000000 = t.nanos := by omega
    rw [Int.toNat_natCast, Int.toNat_natCast, if_pos (by omega), q1, q2]
  unfold asTime
  exact Option.bind_eq_some_iff.2 ⟨_, ha, Option.bind_eq_some_iff.2 ⟨s, asInt_of (by omega) (by omega),
    Option.bind_eq_some_iff.2 ⟨n, asInt_of (by omega) (by omega), hcar⟩⟩⟩

theorem asTime_clean {j : Json} {t : SysTime} (h : asTime j = some t) : CleanTime j ∧ t.secs < 2 ^ 63 := by
  simp only [asTime, Option.bind_eq_some_iff] at h
  obtain ⟨a, ha, h⟩ := h
  split at h
  · rename_i x y
    simp only [Option.bind_eq_some_iff] at h
    obtain ⟨s, hs, n, hn, hc⟩ := h
    obtain ⟨rfl, s1, s2⟩ := asInt_eq hs
    obtain ⟨rfl, n1, n2⟩ := asInt_eq hn
    obtain ⟨a1, a2⟩ := args_clean ha
    have hu : ∀ (i : Nat) nm v w, ["secs_since_epoch", "nanos_since_epoch"][i]? = some nm → HasField j i nm v → HasField j i nm w → v = w := by
      intro i nm v w hm hv hw
      rcases a1 with ⟨l, rfl, hc⟩ | ⟨l, rfl, _⟩
      · have hf := (field_of (hc nm (List.mem_of_getElem? hm))).1
        rcases hv with ⟨_, he, hv⟩ | ⟨_, he, _⟩
        · cases he
          rcases hw with ⟨_, he, hw⟩ | ⟨_, he, _⟩
          · cases he
            have := (hf v hv).symm.trans (hf w hw)
            simpa using this
          · cases he
        · cases he
      · rcases hv with ⟨_, he, _⟩ | ⟨_, he, hv⟩
        · cases he
        · cases he
          rcases hw with ⟨_, he, _⟩ | ⟨_, he, hw⟩
          · cases he
          · cases he
            rw [hv] at hw
            simpa using hw
    refine ⟨⟨a1, fun l hl y hy => by simpa using a2 rfl l hl y hy, ?_⟩, ?_⟩
    · intro s' n' h1 h2
      have e1 := hu 0 _ _ _ rfl h1 ((args_get ha (i := 0) rfl).1 _ rfl)
      have e2 := hu 1 _ _ _ rfl h2 ((args_get ha (i := 1) rfl).1 _ rfl)
      simp only [Json.int.injEq] at e1 e2
      omega
    · unfold carry at hc
      split at hc
      · cases hc; rename_i hlt; simp only; omega
      · cases hc
  · cases h

theorem asMap_of (q : List (String × String)) : ∃ m, asMap (.obj (q.map (fun x => (x.1, .str x.2)))) = some m := by
  have : (q.map (fun x => (x.1, Json.str x.2))).mapM (fun kv => (asStr kv.2).map (fun v => (kv.1, v))) = some q :=
    mapM_of (by simp) (fun i x y hx hy => by
      simp only [List.getElem?_map, hy, Option.map_some, Option.some.injEq] at hx
      subst hx
      rfl)
  exact ⟨q.foldl put [], by simp [asMap, this]⟩

theorem saysMap_unique {j : Json} {m m' : List (String × String)} (h : SaysMap j m) (h' : SaysMap j m') : AlikeMap m m' := by
  obtain ⟨l, rfl, h1, h2⟩ := h
  obtain ⟨l', he, h3, h4⟩ := h'
  cases he
  exact ⟨h1, h3, fun kv => by obtain ⟨k, v⟩ := kv; rw [h2, h4]⟩

theorem saysMap_alike {j : Json} {m m' : List (String × String)} (h : SaysMap j m') (ha : AlikeMap m m') : SaysMap j m := by
  obtain ⟨l, rfl, h1, h2⟩ := h
  exact ⟨l, rfl, ha.1, fun k v => by rw [ha.2.2, h2]⟩

theorem asMaps_of {j : Json} {ms : List (List (String × String))} (h : SaysMaps j ms) (hc : CleanMaps j) :
    ∃ ms', asMaps j = some ms' ∧ ms.length = ms'.length ∧ ∀ (i : Nat) m m', ms[i]? = some m → ms'[i]? = some m' → AlikeMap m m' := by
  obtain ⟨l, rfl, h1, h2⟩ := h
  have : ∀ k : List Json, (∀ y ∈ k, ∃ q : List (String × String), y = .obj (q.map (fun x => (x.1, .str x.2)))) → ∃ r, k.mapM asMap = some r := by
    intro k
    induction k with
    | nil => intro _; exact ⟨[], rfl⟩
    | cons y k ih =>
      intro hk
      obtain ⟨q, hq⟩ := hk y (List.mem_cons_self ..)
      obtain ⟨m, hm⟩ := asMap_of q
      obtain ⟨r, hr⟩ := ih (fun z hz => hk z (List.mem_cons_of_mem _ hz))
      exact ⟨m :: r, by rw [List.mapM_cons, hq, hm, hr]; rfl⟩
  obtain ⟨r, hr⟩ := this l (hc l rfl)
  obtain ⟨g1, g2⟩ := mapM_get hr
  refine ⟨r, hr, by omega, fun i m m' hm hm' => ?_⟩
  obtain ⟨x, hx, hxm⟩ := g2 i m' hm'
  exact saysMap_unique (h2 i x m hx hm) (asMap_says hxm)

theorem asMaps_clean {j : Json} {ms : List (List (String × String))} (h : asMaps j = some ms) : CleanMaps j := by
  intro l hl y hy
  subst hl
  obtain ⟨h1, h2⟩ := mapM_get h
  obtain ⟨i, hi, hiy⟩ := List.getElem_of_mem hy
  obtain ⟨x, hx, hm⟩ := h2 i _ (List.getElem?_eq_getElem (by omega))
  rw [List.getElem?_eq_getElem hi, hiy] at hx
  cases hx
  cases y with
  | obj l' =>
    simp only [asMap, Option.map_eq_some_iff] at hm
    obtain ⟨q, hq, _⟩ := hm
    refine ⟨q, ?_⟩
    congr 1
    obtain ⟨g1, g2⟩ := mapM_get hq
    refine List.ext_getElem? fun i => ?_
    rw [List.getElem?_map]
    cases hl : q[i]? with
    | none =>
      rw [List.getElem?_eq_none_iff] at hl
      simp only [Option.map_none, List.getElem?_eq_none_iff]
      omega
    | some s =>
      obtain ⟨z, hz, hs⟩ := g2 i s hl
      simp only [Option.map_eq_some_iff] at hs
      obtain ⟨v, hv, rfl⟩ := hs
      rw [hz, Option.map_some, ← asStr_eq hv]
  | _ => simp [asMap] at hm

/-- In a clean struct a field has one value. -/
theorem clean_unique {names : List String} {j : Json} (hc : Clean names j) {i : Nat} {n : String} {v w : Json} (hn : names[i]? = some n)
    (hv : HasField j i n v) (hw : HasField j i n w) : v = w := by
  rcases hc with ⟨l, rfl, hc⟩ | ⟨l, rfl, _⟩
  · have hf := (field_of (hc n (List.mem_of_getElem? hn))).1
    rcases hv with ⟨_, he, hv⟩ | ⟨_, he, _⟩
    · cases he
      rcases hw with ⟨_, he, hw⟩ | ⟨_, he, _⟩
      · cases he
        have := (hf v hv).symm.trans (hf w hw)
        simpa using this
      · cases he
    · cases he
  · rcases hv with ⟨_, he, _⟩ | ⟨_, he, hv⟩
    · cases he
    · cases he
      rcases hw with ⟨_, he, _⟩ | ⟨_, he, hw⟩
      · cases he
      · cases he
        rw [hv] at hw
        simpa using hw

theorem orDefault_some {α : Type} (d : α) (f : Json → Option α) (j : Json) : orDefault d f (some j) = f j := rfl

/-- What field number `i` is read as. -/
def At (j : Json) (i : Nat) (n : String) (o : Option Json) : Prop := (∀ v, o = some v → HasField j i n v) ∧ (o = none → Lacks j i n)

theorem at_some {j : Json} {i : Nat} {n : String} {v : Json} (h : HasField j i n v) : At j i n (some v) :=
  ⟨fun w hw => by cases hw; exact h, fun hw => by cases hw⟩

theorem at_none {j : Json} {i : Nat} {n : String} (h : Lacks j i n) : At j i n none := ⟨fun w hw => (by cases hw), fun _ => h⟩

theorem args4 {j : Json} {n0 n1 n2 n3 : String} {a0 a1 a2 a3 : Option Json} (hc : Clean [n0, n1, n2, n3] j) (h0 : At j 0 n0 a0) (h1 : At j 1 n1 a1)
    (h2 : At j 2 n2 a2) (h3 : At j 3 n3 a3) : args false [n0, n1, n2, n3] j = some [a0, a1, a2, a3] := by
  refine args_of hc (fun h => by cases h) rfl ?_
  intro i m o hm ho
  match i with
  | 0 => cases hm; cases ho; exact h0
  | 1 => cases hm; cases ho; exact h1
  | 2 => cases hm; cases ho; exact h2
  | 3 => cases hm; cases ho; exact h3
  | i + 4 => simp at hm

theorem args5 {j : Json} {n0 n1 n2 n3 n4 : String} {a0 a1 a2 a3 a4 : Option Json} (hc : Clean [n0, n1, n2, n3, n4] j) (h0 : At j 0 n0 a0) (h1 : At j 1 n1 a1)
    (h2 : At j 2 n2 a2) (h3 : At j 3 n3 a3) (h4 : At j 4 n4 a4) : args false [n0, n1, n2, n3, n4] j = some [a0, a1, a2, a3, a4] := by
  refine args_of hc (fun h => by cases h) rfl ?_
  intro i m o hm ho
  match i with
  | 0 => cases hm; cases ho; exact h0
  | 1 => cases hm; cases ho; exact h1
  | 2 => cases hm; cases ho; exact h2
  | 3 => cases hm; cases ho; exact h3
  | 4 => cases hm; cases ho; exact h4
  | i + 5 => simp at hm

theorem args9 {j : Json} {n0 n1 n2 n3 n4 n5 n6 n7 n8 : String} {a0 a1 a2 a3 a4 a5 a6 a7 a8 : Option Json}
    (hc : Clean [n0, n1, n2, n3, n4, n5, n6, n7, n8] j) (h0 : At j 0 n0 a0) (h1 : At j 1 n1 a1)
    (h2 : At j 2 n2 a2) (h3 : At j 3 n3 a3) (h4 : At j 4 n4 a4) (h5 : At j 5 n5 a5) (h6 : At j 6 n6 a6) (h7 : At j 7 n7 a7) (h8 : At j 8 n8 a8) :
    args false [n0, n1, n2, n3, n4, n5, n6, n7, n8] j = some [a0, a1, a2, a3, a4, a5, a6, a7, a8] := by
  refine args_of hc (fun h => by cases h) rfl ?_
  intro i m o hm ho
  match i with
  | 0 => cases hm; cases ho; exact h0
  | 1 => cases hm; cases ho; exact h1
  | 2 => cases hm; cases ho; exact h2
  | 3 => cases hm; cases ho; exact h3
  | 4 => cases hm; cases ho; exact h4
  | 5 => cases hm; cases ho; exact h5
  | 6 => cases hm; cases ho; exact h6
  | 7 => cases hm; cases ho; exact h7
  | 8 => cases hm; cases ho; exact h8
  | i + 9 => simp at hm

/-- What says an entry in the proper form is accepted. -/
theorem accepts {j : Json} {e : LogEntry} (hs : Says j e) (hp : Proper j e) (hr : InRange e) : ∃ e', ofJson j = some e' ∧ Alike e e' := by
  obtain ⟨nm, x, rfl, hp⟩ := hp
  cases e with
  | header h =>
    obtain ⟨x', he, h0, ⟨t, h1, ht⟩, h2, h3, h4, ⟨c, h5, hcm⟩, h6, h7, h8⟩ := hs
    simp only [Json.obj.injEq, List.cons.injEq, Prod.mk.injEq, and_true] at he
    obtain ⟨rfl, rfl⟩ := he
    obtain ⟨hc, hct⟩ := hp
    obtain ⟨r1, r2, r3⟩ := hr
    have kt := asTime_of ht (hct t h1) r3
    have : ∃ r, At x 8 "storage_roots" r ∧ orDefault [] asStrs r = some h.storageRoots := by
      rcases h8 with ⟨r, h8, h9⟩ | ⟨h8, h9⟩
      · exact ⟨some r, at_some h8, asStrs_of h9⟩
      · exact ⟨none, at_none h8, by rw [h9]; rfl⟩
    obtain ⟨r, h8, h9⟩ := this
    have ha := args9 hc (at_some h0) (at_some h1) (at_some h2) (at_some h3) (at_some h4) (at_some h5) (at_some h6) (at_some h7) h8
    refine ⟨.header h, ?_, rfl⟩
    have hh : asHeader x = some h := by
      unfold asHeader
      refine Option.bind_eq_some_iff.2 ⟨_, ha, Option.bind_eq_some_iff.2 ⟨_, asU32_of r1, Option.bind_eq_some_iff.2 ⟨_, kt, Option.bind_eq_some_iff.2 ⟨_, rfl,
        Option.bind_eq_some_iff.2 ⟨_, rfl, Option.bind_eq_some_iff.2 ⟨_, rfl, Option.bind_eq_some_iff.2 ⟨_, asStrs_of hcm, Option.bind_eq_some_iff.2 ⟨_, rfl,
        Option.bind_eq_some_iff.2 ⟨_, asU32_of r2, Option.bind_eq_some_iff.2 ⟨_, h9, rfl⟩⟩⟩⟩⟩⟩⟩⟩⟩⟩
    simp only [ofJson, if_true, hh, Option.map_some]
  | ready h =>
    obtain ⟨x', he, ⟨t, h1, ht⟩, h2, h3, h4, h8⟩ := hs
    simp only [Json.obj.injEq, List.cons.injEq, Prod.mk.injEq, and_true] at he
    obtain ⟨rfl, rfl⟩ := he
    obtain ⟨hc, hct⟩ := hp
    obtain ⟨r1, r2, r3⟩ := hr
    have kt := asTime_of ht (hct t h1) r3
    have : ∃ r, At x 4 "r" r ∧ orDefault 0 asU32 r = some h.storageRoot := by
      rcases h8 with h8 | ⟨h8, h9⟩
      · exact ⟨some (.int h.storageRoot), at_some h8, by rw [orDefault_some]; exact asU32_of r2⟩
      · exact ⟨none, at_none h8, by rw [h9]; rfl⟩
    obtain ⟨r, h8, h9⟩ := this
    have ha := args5 hc (at_some h1) (at_some h2) (at_some h3) (at_some h4) h8
    refine ⟨.ready h, ?_, rfl⟩
    simp only [ofJson, if_true, if_neg (show ¬ "Ready" = "Header" by decide), asReady, ha, Option.bind_some, asU32_of r1, kt, asStr, h9, Option.bind_eq_bind,
      Option.pure_def, Option.map_some]
  | started h =>
    obtain ⟨x', he, ⟨t, h1, ht⟩, h2, h3, h4, h8⟩ := hs
    simp only [Json.obj.injEq, List.cons.injEq, Prod.mk.injEq, and_true] at he
    obtain ⟨rfl, rfl⟩ := he
    obtain ⟨hc, hct⟩ := hp
    obtain ⟨r1, r3⟩ := hr
    have kt := asTime_of ht (hct t h1) r3
    have : ∃ r, At x 4 "slurm_jobid" r ∧ orDefault "" asStr r = some h.slurmJobid := by
      rcases h8 with h8 | ⟨h8, h9⟩
      · exact ⟨_, at_some h8, rfl⟩
      · exact ⟨none, at_none h8, by rw [h9]; rfl⟩
    obtain ⟨r, h8, h9⟩ := this
    have ha := args5 hc (at_some h1) (at_some h2) (at_some h3) (at_some h4) h8
    refine ⟨.started h, ?_, rfl⟩
    simp only [ofJson, if_true, if_neg (show ¬ "Started" = "Header" by decide), if_neg (show ¬ "Started" = "Ready" by decide), asStarted, ha, Option.bind_some,
      asU32_of r1, kt, asStr, h9, Option.bind_eq_bind, Option.pure_def, Option.map_some]
  | finished h =>
    obtain ⟨x', he, ⟨t, h1, ht⟩, h2, h3, h8⟩ := hs
    simp only [Json.obj.injEq, List.cons.injEq, Prod.mk.injEq, and_true] at he
    obtain ⟨rfl, rfl⟩ := he
    obtain ⟨hc, hct, hcm⟩ := hp
    obtain ⟨r1, r2, r3⟩ := hr
    have kt := asTime_of ht (hct t h1) r3
    have : ∃ r ms, At x 3 "values" r ∧ orDefault [] asMaps r = some ms ∧ h.values.length = ms.length ∧
        ∀ (i : Nat) m m', h.values[i]? = some m → ms[i]? = some m' → AlikeMap m m' := by
      rcases h8 with ⟨v, h8, h9⟩ | ⟨h8, h9⟩
      · obtain ⟨ms, m1, m2, m3⟩ := asMaps_of h9 (hcm v h8)
        exact ⟨some v, ms, at_some h8, m1, m2, m3⟩
      · exact ⟨none, [], at_none h8, rfl, by rw [h9], fun i m m' hm hm' => by simp at hm'⟩
    obtain ⟨r, ms, h8, h9, h10, h11⟩ := this
    have ha := args4 hc (at_some h1) (at_some h2) (at_some h3) h8
    have hst : asInt (-2147483648) 2147483648 (.int h.status) = some h.status := asInt_of (by omega) (by omega)
    refine ⟨.finished ⟨h.time, h.key, h.status, ms⟩, ?_, rfl, rfl, rfl, h10, h11⟩
    simp only [ofJson, if_true, if_neg (show ¬ "Finished" = "Header" by decide), if_neg (show ¬ "Finished" = "Ready" by decide),
      if_neg (show ¬ "Finished" = "Started" by decide), asFinished, ha, Option.bind_some, hst, kt, asStr, h9, Option.bind_eq_bind, Option.pure_def, Option.map_some]
  | backref h =>
    obtain ⟨x', he, h1⟩ := hs
    simp only [Json.obj.injEq, List.cons.injEq, Prod.mk.injEq, and_true] at he
    obtain ⟨rfl, rfl⟩ := he
    have ha : args false ["key"] x = some [some (.str h.key)] := by
      refine args_of hp (fun h => by cases h) rfl ?_
      intro i m o hm ho
      match i with
      | 0 => cases hm; cases ho; exact at_some h1
      | i + 1 => simp at hm
    refine ⟨.backref h, ?_, rfl⟩
    simp [ofJson, asBackref, ha, asStr]

/-- What is accepted is in the proper form. -/
theorem accepted_proper {j : Json} {e : LogEntry} (h : ofJson j = some e) : Proper j e ∧ InRange e := by
  unfold ofJson at h
  split at h
  · rename_i n x
    split at h
    · rw [Option.map_eq_some_iff] at h
      obtain ⟨y, hx, rfl⟩ := h
      simp only [asHeader, Option.bind_eq_some_iff] at hx
      obtain ⟨a, ha, hx⟩ := hx
      split at hx
      · simp only [Option.bind_eq_bind, Option.bind_eq_some_iff, Option.pure_def, Option.some.injEq] at hx
        obtain ⟨v, hv, t, ht, u, hu, hh, hhh, k, hk, c, hc, w, hw, p, hp, r, hr, rfl⟩ := hx
        have hcl := (args_clean ha).1
        obtain ⟨t1, t2⟩ := asTime_clean ht
        exact ⟨⟨n, x, rfl, hcl, fun t' ht' => clean_unique hcl (i := 1) rfl ht' ((args_get ha (i := 1) rfl).1 _ rfl) ▸ t1⟩, asU32_lt hv, asU32_lt hp, t2⟩
      · cases hx
    · split at h
      · rw [Option.map_eq_some_iff] at h
        obtain ⟨y, hx, rfl⟩ := h
        simp only [asReady, Option.bind_eq_some_iff] at hx
        obtain ⟨a, ha, hx⟩ := hx
        split at hx
        · simp only [Option.bind_eq_bind, Option.bind_eq_some_iff, Option.pure_def, Option.some.injEq] at hx
          obtain ⟨t, ht, k, hk, m, hm, c, hc, r, hr, rfl⟩ := hx
          have hcl := (args_clean ha).1
          obtain ⟨t1, t2⟩ := asTime_clean ht
          refine ⟨⟨n, x, rfl, hcl, fun t' ht' => clean_unique hcl (i := 0) rfl ht' ((args_get ha (i := 0) rfl).1 _ rfl) ▸ t1⟩, asU32_lt hm, ?_, t2⟩
          rename_i r0
          cases r0 with
          | none => cases hr; simp
          | some r0 => exact asU32_lt hr
        · cases hx
      · split at h
        · rw [Option.map_eq_some_iff] at h
          obtain ⟨y, hx, rfl⟩ := h
          simp only [asStarted, Option.bind_eq_some_iff] at hx
          obtain ⟨a, ha, hx⟩ := hx
          split at hx
          · simp only [Option.bind_eq_bind, Option.bind_eq_some_iff, Option.pure_def, Option.some.injEq] at hx
            obtain ⟨t, ht, k, hk, hh, hhh, p, hp, r, hr, rfl⟩ := hx
            have hcl := (args_clean ha).1
            obtain ⟨t1, t2⟩ := asTime_clean ht
            exact ⟨⟨n, x, rfl, hcl, fun t' ht' => clean_unique hcl (i := 0) rfl ht' ((args_get ha (i := 0) rfl).1 _ rfl) ▸ t1⟩, asU32_lt hp, t2⟩
          · cases hx
        · split at h
          · rw [Option.map_eq_some_iff] at h
            obtain ⟨y, hx, rfl⟩ := h
            simp only [asFinished, Option.bind_eq_some_iff] at hx
            obtain ⟨a, ha, hx⟩ := hx
            split at hx
            · simp only [Option.bind_eq_bind, Option.bind_eq_some_iff, Option.pure_def, Option.some.injEq] at hx
              obtain ⟨t, ht, k, hk, p, hp, r, hr, rfl⟩ := hx
              have hcl := (args_clean ha).1
              obtain ⟨t1, t2⟩ := asTime_clean ht
              obtain ⟨rfl, p1, p2⟩ := asInt_eq hp
              refine ⟨⟨n, x, rfl, hcl, fun t' ht' => clean_unique hcl (i := 0) rfl ht' ((args_get ha (i := 0) rfl).1 _ rfl) ▸ t1, ?_⟩, p1, p2, t2⟩
              rename_i r0
              intro v hv
              cases r0 with
              | none =>
                rcases (args_get ha (i := 3) rfl).2 rfl with ⟨l, rfl, hl⟩ | ⟨l, rfl, hl⟩
                · rcases hv with ⟨_, he, hv⟩ | ⟨_, he, _⟩
                  · cases he; exact absurd hv (hl v)
                  · cases he
                · rcases hv with ⟨_, he, _⟩ | ⟨_, he, hv⟩
                  · cases he
                  · cases he
                    rw [List.getElem?_eq_none hl] at hv
                    cases hv
              | some r0 =>
                have := clean_unique hcl (i := 3) rfl hv ((args_get ha (i := 3) rfl).1 _ rfl)
                subst this
                exact asMaps_clean hr
            · cases hx
          · split at h
            · rw [Option.map_eq_some_iff] at h
              obtain ⟨y, hx, rfl⟩ := h
              simp only [asBackref, Option.bind_eq_some_iff] at hx
              obtain ⟨a, ha, hx⟩ := hx
              split at hx
              · rw [Option.map_eq_some_iff] at hx
                obtain ⟨k, hk, rfl⟩ := hx
                exact ⟨⟨n, x, rfl, (args_clean ha).1⟩, trivial⟩
              · cases hx
            · cases h
  · cases h

/-! ### C160 -/

/-- **C160.** Exactly which values are read as an entry: those that say it, without a repeated field (or superfluous element) and with numbers in range. -/
theorem accepted_iff {j : Json} {e : LogEntry} : (∃ e', ofJson j = some e' ∧ Alike e e') ↔ Says j e ∧ Proper j e ∧ InRange e := by
  refine ⟨?_, fun ⟨h1, h2, h3⟩ => accepts h1 h2 h3⟩
  rintro ⟨e', h, ha⟩
  have h1 := read_says h
  obtain ⟨h2, h3⟩ := accepted_proper h
  cases e with
  | finished f =>
    cases e' with
    | finished g =>
      obtain ⟨a1, a2, a3, a4, a5⟩ := ha
      obtain ⟨x, he, ⟨t, ht, hst⟩, q2, q3, q4⟩ := h1
      refine ⟨⟨x, he, ⟨t, ht, a1 ▸ hst⟩, a2 ▸ q2, a3 ▸ q3, ?_⟩, h2, ?_⟩
      · rcases q4 with ⟨v, hv, l, rfl, hl, hm⟩ | ⟨hv, hn⟩
        · refine .inl ⟨_, hv, l, rfl, by omega, fun i y m hy hfm => ?_⟩
          have hi := (List.getElem?_eq_some_iff.1 hfm).1
          have hg : g.values[i]? = some (g.values[i]'(by omega)) := List.getElem?_eq_getElem (by omega)
          exact saysMap_alike (hm i y _ hy hg) (a5 i _ _ hfm hg)
        · refine .inr ⟨hv, ?_⟩
          rw [hn] at a4
          exact List.length_eq_zero_iff.1 a4
      · obtain ⟨r1, r2, r3⟩ := h3
        exact ⟨by rw [a3]; exact r1, by rw [a3]; exact r2, by rw [a1]; exact r3⟩
    | _ => cases ha
  | header _ => cases ha; exact ⟨h1, h2, h3⟩
  | ready _ => cases ha; exact ⟨h1, h2, h3⟩
  | started _ => cases ha; exact ⟨h1, h2, h3⟩
  | backref _ => cases ha; exact ⟨h1, h2, h3⟩

/-- **C160.** Exactly which texts are read as an entry: the JSON texts of such values. -/
theorem line_accepted_iff {cs : List Char} {e : LogEntry} :
    (∃ e', fromStr cs = some e' ∧ Alike e e') ↔ ∃ j, IsText cs j ∧ Says j e ∧ Proper j e ∧ InRange e := by
  constructor
  · rintro ⟨e', h, ha⟩
    simp only [fromStr, Option.bind_eq_some_iff] at h
    obtain ⟨j, hj, h⟩ := h
    exact ⟨j, parse_iff.1 hj, accepted_iff.1 ⟨e', h, ha⟩⟩
  · rintro ⟨j, hj, h⟩
    obtain ⟨e', h1, h2⟩ := accepted_iff.2 h
    exact ⟨e', by simp only [fromStr, parse_iff.2 hj, Option.bind_some, h1], h2⟩

/-- Non-trivial case: a finished entry as an array with all its four elements, the time as an array, nanoseconds carried, a map with a repeated key. -/
example : ofJson (.obj [("Finished", .arr [.arr [.int 5, .int 1000000007], .str "k", .int (-1),
      .arr [.obj [("a", .str "x"), ("b", .str "y"), ("a", .str "z")]]])]) = some (.finished ⟨⟨6, 7⟩, "k", -1, [[("b", "y"), ("a", "z")]]⟩) := by
  decide +kernel

/-- Non-trivial case: it is the same as the one with the map in another order. -/
example : Alike (.finished ⟨⟨6, 7⟩, "k", -1, [[("a", "z"), ("b", "y")]]⟩) (.finished ⟨⟨6, 7⟩, "k", -1, [[("b", "y"), ("a", "z")]]⟩) := by
  refine ⟨rfl, rfl, rfl, rfl, fun i m m' hm hm' => ?_⟩
  match i with
  | 0 =>
    cases hm; cases hm'
    refine ⟨by decide, by decide, fun kv => ?_⟩
    simp only [List.mem_cons, List.not_mem_nil, or_false]
    exact Or.comm
  | i + 1 => simp at hm

/-- Non-trivial cases of refusing: an element too many, a field given twice, another field in the time. -/
example : ofJson (.obj [("Backref", .arr [.str "k", .str "l"])]) = none ∧ ofJson (.obj [("Backref", .obj [("key", .str "k"), ("key", .str "k")])]) = none ∧
    ofJson (.obj [("Started", .obj [("time", .obj [("secs_since_epoch", .int 1), ("nanos_since_epoch", .int 1), ("zone", .null)]), ("key", .str "k"),
      ("host", .str "h"), ("pid", .int 1)])]) = none := by decide +kernel

end Verif.Props.LogRead
