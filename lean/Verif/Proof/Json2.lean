import Verif.Proof.Json
import Verif.Spec.LogBytes

/-!
# JSON lines: what is printed is parsed again
-/

namespace Verif.Json
open Verif

/-- What begins a value. -/
def starts (c : Char) : Bool := !isWs c && c != ']' && c != '}' && c != ',' && c != ':'

theorem starts_digit {c : Char} (h : isDigit c = true) : starts c = true := by
  have hc : 48 ≤ c.toNat ∧ c.toNat ≤ 57 := of_decide_eq_true h
  have hne : ∀ d : Char, (d.toNat < 48 ∨ 57 < d.toNat) → c ≠ d := by
    rintro d hd rfl
    omega
  have h1 := hne ' ' (by decide)
  have h2 := hne '\n' (by decide)
  have h3 := hne '\t' (by decide)
  have h4 := hne '\r' (by decide)
  have h5 := hne ']' (by decide)
  have h6 := hne '}' (by decide)
  have h7 := hne ',' (by decide)
  have h8 := hne ':' (by decide)
  simp [starts, isWs, h1, h2, h3, h4, h5, h6, h7, h8]

theorem quoted_cons (s : String) : quoted s = '"' :: (s.toList.flatMap escape ++ ['"']) := rfl

theorem print_head (v : Json) : ∃ c t, print v = c :: t ∧ starts c = true := by
  cases v with
  | null => exact ⟨'n', "ull".toList, rfl, by decide⟩
  | bool b => cases b
              · exact ⟨'f', "alse".toList, rfl, by decide⟩
              · exact ⟨'t', "rue".toList, rfl, by decide⟩
  | int i =>
    simp only [print, printInt]
    split
    · exact ⟨'-', _, rfl, by decide⟩
    · obtain ⟨c, t, e, hc⟩ := head_decimal i.natAbs
      exact ⟨c, t, e, starts_digit hc⟩
  | real => exact ⟨'0', ".5".toList, rfl, by decide⟩
  | str s => exact ⟨'"', s.toList.flatMap escape ++ ['"'], by rw [print, quoted_cons], by decide⟩
  | arr l => exact ⟨'[', commas (printList l) ++ [']'], by rw [print]; rfl, by decide⟩
  | obj l => exact ⟨'{', commas (printFields l) ++ ['}'], by rw [print]; rfl, by decide⟩

theorem skipWs_starts {c : Char} (h : starts c = true) (t : List Char) : skipWs (c :: t) = c :: t := by
  have : isWs c = false := by
    simp only [starts, Bool.and_eq_true] at h
    simpa using h.1.1.1.1
  simp [skipWs, this]

theorem skipWs_print (v : Json) (r : List Char) : skipWs (print v ++ r) = print v ++ r := by
  obtain ⟨c, t, e, hc⟩ := print_head v
  rw [e, List.cons_append, skipWs_starts hc]

theorem stop_of {c : Char} (h : c = ',' ∨ c = ']' ∨ c = '}') (t : List Char) : Stop (c :: t) := by
  intro d hd
  simp only [List.head?_cons, Option.some.injEq] at hd
  subst hd
  rcases h with rfl | rfl | rfl <;> decide

theorem commas_cons (x : List Char) (l : List (List Char)) (h : l ≠ []) : commas (x :: l) = x ++ ',' :: commas l := by
  cases l with
  | nil => exact absurd rfl h
  | cons y l => rfl

theorem skipWs_sep {c : Char} (h : c = ',' ∨ c = ']' ∨ c = '}' ∨ c = ':' ∨ c = '"') (t : List Char) : skipWs (c :: t) = c :: t := by
  rcases h with rfl | rfl | rfl | rfl | rfl <;> simp [skipWs, isWs]

theorem word_self (w : List Char) (v : Json) (r : List Char) : word w v (w ++ r) = some (v, r) := by
  unfold word
  rw [if_pos (List.isPrefixOf_iff_prefix.2 ⟨r, rfl⟩), List.drop_left]

mutual
theorem value_print : ∀ (v : Json), noReal v = true → ∀ (f : Nat) (r : List Char), Stop r → (print v).length ≤ f →
    value f (print v ++ r) = some (v, r)
  | .null, _, f, r, _, hf => by
    cases f with
    | zero => simp [print] at hf
    | succ f =>
      rw [value, skipWs_print]
      exact word_self "null".toList .null r
  | .bool b, _, f, r, _, hf => by
    cases f with
    | zero => cases b <;> simp [print] at hf
    | succ f =>
      rw [value, skipWs_print]
      cases b
      · exact word_self "false".toList (.bool false) r
      · exact word_self "true".toList (.bool true) r
  | .int i, _, f, r, hr, hf => by
    cases f with
    | zero =>
      obtain ⟨c, t, e, _⟩ := print_head (.int i)
      rw [e] at hf
      simp at hf
    | succ f =>
      rw [value, skipWs_print]
      have hn := number_print i hr
      have hp : print (.int i) = printInt i := by rw [print]
      rw [hp]
      have hh : ∃ c t, printInt i = c :: t ∧ (c = '-' ∨ isDigit c = true) := by
        unfold printInt
        split
        · exact ⟨'-', _, rfl, .inl rfl⟩
        · obtain ⟨c, t, e, hc⟩ := head_decimal i.natAbs
          exact ⟨c, t, e, .inr hc⟩
      obtain ⟨c, t, e, hc⟩ := hh
      rw [e] at hn ⊢
      simp only [List.cons_append] at hn ⊢
      have hne : ∀ d : Char, d ≠ '-' → isDigit d = false → c ≠ d := by
        rintro d h1 h2 rfl
        rcases hc with hc | hc
        · exact h1 hc
        · rw [hc] at h2; cases h2
      rw [if_neg (hne _ (by decide) (by decide)), if_neg (hne _ (by decide) (by decide)), if_neg (hne _ (by decide) (by decide)),
        if_neg (hne _ (by decide) (by decide)), if_neg (hne _ (by decide) (by decide)), if_neg (hne _ (by decide) (by decide)), hn]
  | .real, h, _, _, _, _ => by simp [noReal] at h
  | .str s, _, f, r, _, hf => by
    cases f with
    | zero => simp [print, quoted] at hf
    | succ f =>
      rw [value, skipWs_print, print, quoted_cons]
      simp only [List.cons_append, List.append_assoc, List.nil_append, if_true]
      rw [stringGo_print]
      simp
  | .arr l, h, f, r, hr, hf => by
    cases f with
    | zero => simp [print] at hf
    | succ f =>
      rw [value, skipWs_print, print]
      simp only [List.cons_append, List.append_assoc, List.nil_append]
      rw [if_neg (by decide), if_pos trivial]
      cases l with
      | nil => simp [printList, commas, skipWs_sep]
      | cons v l =>
        rw [noReal] at h
        have he := elems_print (v :: l) h (by simp) f r (by
          simp only [print, List.cons_append, List.length_cons, List.length_append, List.length_nil] at hf
          omega)
        obtain ⟨c, t, e, hc⟩ := print_head v
        have hcc : ∃ t', commas (printList (v :: l)) = c :: t' := by
          rw [printList]
          cases hl : printList l with
          | nil => exact ⟨t, by rw [commas, e]⟩
          | cons a b => exact ⟨t ++ ',' :: commas (a :: b), by rw [commas, e]; rfl⟩
        obtain ⟨t', e'⟩ := hcc
        rw [e'] at he ⊢
        simp only [List.cons_append] at he ⊢
        rw [skipWs_starts hc]
        simp only
        have hne : c ≠ ']' := by rintro rfl; revert hc; decide
        rw [if_neg hne, he]
        rfl
  | .obj l, h, f, r, hr, hf => by
    cases f with
    | zero => simp [print] at hf
    | succ f =>
      rw [value, skipWs_print, print]
      simp only [List.cons_append, List.append_assoc, List.nil_append]
      rw [if_neg (by decide), if_neg (by decide), if_pos trivial]
      cases l with
      | nil => simp [printFields, commas, skipWs_sep]
      | cons kv l =>
        rw [noReal] at h
        have he := fields_print (kv :: l) h (by simp) f r (by
          simp only [print, List.cons_append, List.length_cons, List.length_append, List.length_nil] at hf
          omega)
        have hcc : ∃ t', commas (printFields (kv :: l)) = '"' :: t' := by
          obtain ⟨k, v⟩ := kv
          rw [printFields, quoted_cons]
          cases hl : printFields l with
          | nil => exact ⟨_, by rw [commas]; rfl⟩
          | cons a b => exact ⟨_, by rw [commas]; rfl⟩
        obtain ⟨t', e'⟩ := hcc
        rw [e'] at he ⊢
        simp only [List.cons_append] at he ⊢
        rw [skipWs_sep (by simp)]
        simp only
        rw [if_neg (by decide), he]
        rfl
theorem elems_print : ∀ (l : List Json), noReals l = true → l ≠ [] → ∀ (f : Nat) (r : List Char),
    (commas (printList l)).length + 1 ≤ f → elems f (commas (printList l) ++ ']' :: r) = some (l, r)
  | [], _, h, _, _, _ => absurd rfl h
  | v :: l, h, _, f, r, hf => by
    cases f with
    | zero => omega
    | succ f =>
      rw [noReals, Bool.and_eq_true] at h
      rw [elems]
      cases l with
      | nil =>
        simp only [printList, commas] at hf ⊢
        rw [value_print v h.1 f _ (stop_of (by simp) r) (by omega)]
        simp only [Option.bind_some]
        rw [skipWs_sep (by simp)]
        simp
      | cons w l =>
        have hpl : printList (v :: w :: l) = print v :: printList (w :: l) := by rw [printList]
        rw [hpl] at hf ⊢
        have hne : printList (w :: l) ≠ [] := by rw [printList]; simp
        rw [commas_cons _ _ hne] at hf ⊢
        simp only [List.append_assoc, List.length_append, List.length_cons, List.cons_append] at hf ⊢
        rw [value_print v h.1 f _ (stop_of (by simp) _) (by omega)]
        simp only [Option.bind_some]
        rw [skipWs_sep (by simp)]
        simp only
        rw [if_neg (by decide), if_pos trivial, elems_print (w :: l) h.2 (by simp) f r (by omega)]
        rfl
theorem fields_print : ∀ (l : List (String × Json)), noRealFields l = true → l ≠ [] → ∀ (f : Nat) (r : List Char),
    (commas (printFields l)).length + 1 ≤ f → fields f (commas (printFields l) ++ '}' :: r) = some (l, r)
  | [], _, h, _, _, _ => absurd rfl h
  | (k, v) :: l, h, _, f, r, hf => by
    cases f with
    | zero => omega
    | succ f =>
      rw [noRealFields, Bool.and_eq_true] at h
      rw [fields]
      cases l with
      | nil =>
        simp only [printFields, commas, List.length_append, List.length_cons] at hf ⊢
        rw [quoted_cons]
        simp only [List.cons_append, List.append_assoc, List.nil_append]
        rw [skipWs_sep (by simp)]
        simp only [if_true]
        rw [stringGo_print]
        simp only [Option.bind_some]
        rw [skipWs_sep (by simp)]
        simp only [if_true]
        rw [value_print v h.1 f _ (stop_of (by simp) r) (by omega)]
        simp only [Option.bind_some]
        rw [skipWs_sep (by simp)]
        simp
      | cons w l =>
        have hpl : printFields ((k, v) :: w :: l) = (quoted k ++ ':' :: print v) :: printFields (w :: l) := by rw [printFields]
        rw [hpl] at hf ⊢
        have hne : printFields (w :: l) ≠ [] := by obtain ⟨a, b⟩ := w; rw [printFields]; simp
        rw [commas_cons _ _ hne] at hf ⊢
        simp only [List.append_assoc, List.length_append, List.length_cons, List.cons_append] at hf ⊢
        rw [quoted_cons]
        simp only [List.cons_append, List.append_assoc, List.nil_append]
        rw [skipWs_sep (by simp)]
        simp only [if_true]
        rw [stringGo_print]
        simp only [Option.bind_some]
        rw [skipWs_sep (by simp)]
        simp only [if_true]
        rw [value_print v h.1 f _ (stop_of (by simp) _) (by omega)]
        simp only [Option.bind_some]
        rw [skipWs_sep (by simp)]
        simp only
        rw [if_neg (by decide), if_pos trivial, fields_print (w :: l) h.2 (by simp) f r (by omega)]
        simp
end

theorem stop_nil : Stop [] := by intro c hc; cases hc

/-- What is printed is parsed again. -/
theorem parse_print {v : Json} (h : noReal v = true) : parse (print v) = some v := by
  have := value_print v h ((print v).length + 1) [] stop_nil (by omega)
  rw [List.append_nil] at this
  simp [parse, this, skipWs]

/-- A strict prefix of the text of an object is not JSON. -/
theorem parse_prefix {l : List (String × Json)} (h : noReal (.obj l) = true) {p q : List Char} (hp : print (.obj l) = p ++ q)
    (hq : q ≠ []) : parse p = none := by
  cases hr : parse p with
  | none => rfl
  | some v =>
    exfalso
    unfold parse at hr
    obtain ⟨⟨w, r⟩, hv, hr⟩ := Option.bind_eq_some_iff.1 hr
    have hnum : isNum w = false := by
      cases p with
      | nil => simp [value, skipWs] at hv
      | cons c p =>
        rw [print] at hp
        simp only [List.cons_append, List.cons.injEq] at hp
        obtain ⟨rfl, _⟩ := hp
        rw [value, skipWs_starts (by decide)] at hv
        simp only at hv
        rw [if_neg (by decide), if_neg (by decide), if_pos trivial] at hv
        split at hv
        · cases hv
        · split at hv
          · simp only [Option.some.injEq, Prod.mk.injEq] at hv
            rw [← hv.1]
            rfl
          · obtain ⟨_, _, hv⟩ := Option.map_eq_some_iff.1 hv
            simp only [Prod.mk.injEq] at hv
            rw [← hv.1]
            rfl
    have h1 := value_ext _ _ _ _ hv (.inr hnum) q
    rw [← hp] at h1
    have h2 := value_print _ h (print (.obj l)).length [] stop_nil (Nat.le_refl _)
    rw [List.append_nil] at h2
    have h3 := value_more (Nat.le_max_left (p.length + 1) (print (.obj l)).length) h1
    have h4 := value_more (Nat.le_max_right (p.length + 1) (print (.obj l)).length) h2
    rw [h3] at h4
    simp only [Option.some.injEq, Prod.mk.injEq] at h4
    exact hq (List.append_eq_nil_iff.1 h4.2).2

/-- Two values one after the other are not JSON. -/
theorem parse_glued {l : List (String × Json)} (h : noReal (.obj l) = true) (v : Json) : parse (print (.obj l) ++ print v) = none := by
  have h2 := value_print _ h (print (.obj l)).length [] stop_nil (Nat.le_refl _)
  rw [List.append_nil] at h2
  have h3 := value_ext _ _ _ _ h2 (.inr rfl) (print v)
  have h4 := value_more (f' := (print (.obj l) ++ print v).length + 1) (by rw [List.length_append]; omega) h3
  unfold parse
  rw [h4]
  simp only [Option.bind_some, List.nil_append]
  obtain ⟨c, t, e, hc⟩ := print_head v
  rw [e, skipWs_starts hc]
  simp

/-! ### Entries -/

theorem carry_id {t : SysTime} (h1 : t.secs < 9223372036854775808) (h2 : t.nanos < 1000000000) :
    carry t.secs t.nanos = some t := by
  have : t.nanos / 1000000000 = 0 := by omega
  unfold carry
  rw [if_pos (by omega), this, Nat.mod_eq_of_lt h2, Nat.add_zero]

theorem args_time (x y : Json) : args true ["secs_since_epoch", "nanos_since_epoch"]
    (.obj [("secs_since_epoch", x), ("nanos_since_epoch", y)]) = some [some x, some y] := by simp [args, field]

theorem asTime_args {j x y : Json} (h : args true ["secs_since_epoch", "nanos_since_epoch"] j = some [some x, some y]) :
    asTime j = (asInt 0 18446744073709551616 x).bind (fun s => (asInt 0 4294967296 y).bind (fun n => carry s.toNat n.toNat)) := by
  rw [asTime, h, Option.bind_some]

theorem asInt_nat {hi : Int} {n : Nat} (h : n < hi) : asInt 0 hi (.int n) = some (n : Int) := by
  simp only [asInt]
  rw [if_pos ⟨by omega, h⟩]

theorem asTime_timeJ {t : SysTime} (h1 : t.secs < 9223372036854775808) (h2 : t.nanos < 1000000000) :
    asTime (timeJ t) = some t := by
  rw [timeJ, asTime_args (args_time _ _), asInt_nat (by omega), asInt_nat (by omega), Option.bind_some, Option.bind_some,
    Int.toNat_natCast, Int.toNat_natCast, carry_id h1 h2]

theorem asU32_int {n : Nat} (h : n < 4294967296) : asU32 (.int n) = some n := by
  simp only [asU32, asInt]
  rw [if_pos (by omega)]
  simp

theorem asStrs_strsJ (l : List String) : asStrs (strsJ l) = some l := by
  simp only [asStrs, strsJ]
  induction l with
  | nil => rfl
  | cons a l ih => simp [ih, asStr]

theorem mapM_fields (m : List (String × String)) :
    (m.map (fun kv => (kv.1, Json.str kv.2))).mapM (fun kv => (asStr kv.2).map (fun v => (kv.1, v))) = some m := by
  induction m with
  | nil => rfl
  | cons a m ih => rw [List.map_cons, List.mapM_cons, ih]; rfl

theorem foldl_put (m : List (String × String)) : ∀ (acc : List (String × String)), ((acc ++ m).map (·.1)).Nodup →
    m.foldl put acc = acc ++ m := by
  induction m with
  | nil => simp
  | cons a m ih =>
    intro acc h
    have hp : put acc a = acc ++ [a] := by
      unfold put
      rw [List.filter_eq_self.2]
      intro x hx
      simp only [bne_iff_ne, ne_eq]
      intro he
      rw [List.map_append, List.nodup_append] at h
      exact h.2.2 x.1 (List.mem_map_of_mem hx) a.1 (by simp) he
    rw [List.foldl_cons, hp, ih _ (by simpa using h)]
    simp

theorem asMaps_valuesJ {l : List (List (String × String))} (h : ∀ m ∈ l, (m.map (·.1)).Nodup) : asMaps (valuesJ l) = some l := by
  simp only [asMaps, valuesJ]
  induction l with
  | nil => rfl
  | cons m l ih =>
    have h1 : asMap (.obj (m.map (fun kv => (kv.1, .str kv.2)))) = some m := by
      simp only [asMap]
      rw [mapM_fields]
      simp only [Option.map_some]
      rw [foldl_put m [] (by simpa using h m (by simp))]
      rfl
    rw [List.map_cons, List.mapM_cons, h1]
    simp [ih (fun m hm => h m (List.mem_cons_of_mem _ hm))]

theorem header_back {x : HeaderEntry} (h : Writable (.header x)) : ofJson (toJson (.header x)) = some (.header x) := by
  obtain ⟨h1, h2, h3, h4⟩ := h
  have ha : args false ["version", "time", "user", "hostname", "workflow_key", "cmdline", "workdir", "pid", "storage_roots"]
        (.obj [("version", .int x.version), ("time", timeJ x.time), ("user", .str x.user),
      ("hostname", .str x.hostname), ("workflow_key", .str x.workflowKey), ("cmdline", strsJ x.cmdline),
      ("workdir", .str x.workdir), ("pid", .int x.pid), ("storage_roots", strsJ x.storageRoots)]) =
        some [some (.int x.version), some (timeJ x.time), some (.str x.user),
      some (.str x.hostname), some (.str x.workflowKey), some (strsJ x.cmdline),
      some (.str x.workdir), some (.int x.pid), some (strsJ x.storageRoots)] := by
    simp [args, field]
  rw [toJson, ofJson, if_pos rfl, asHeader, ha, Option.bind_some]
  dsimp only
  rw [asU32_int h1, asTime_timeJ h3 h4, asStrs_strsJ, asU32_int h2, orDefault,
    asStrs_strsJ]
  rfl

theorem ready_back {x : ReadyEntry} (h : Writable (.ready x)) : ofJson (toJson (.ready x)) = some (.ready x) := by
  obtain ⟨h1, h2, h3, h4⟩ := h
  have ha : args false ["time", "key", "runcount", "command", "r"]
        (.obj [("time", timeJ x.time), ("key", .str x.key), ("runcount", .int x.runcount),
      ("command", .str x.command), ("r", .int x.storageRoot)]) =
        some [some (timeJ x.time), some (.str x.key), some (.int x.runcount), some (.str x.command), some (.int x.storageRoot)] := by
    simp [args, field]
  rw [toJson, ofJson, if_neg (by decide), if_pos rfl, asReady, ha, Option.bind_some]
  dsimp only
  rw [asU32_int h1, asTime_timeJ h3 h4, orDefault, asU32_int h2]
  rfl

theorem started_back {x : StartedEntry} (h : Writable (.started x)) : ofJson (toJson (.started x)) = some (.started x) := by
  obtain ⟨h1, h3, h4⟩ := h
  have ha : args false ["time", "key", "host", "pid", "slurm_jobid"]
        (.obj [("time", timeJ x.time), ("key", .str x.key), ("host", .str x.host),
      ("pid", .int x.pid), ("slurm_jobid", .str x.slurmJobid)]) =
        some [some (timeJ x.time), some (.str x.key), some (.str x.host), some (.int x.pid), some (.str x.slurmJobid)] := by
    simp [args, field]
  rw [toJson, ofJson, if_neg (by decide), if_neg (by decide), if_pos rfl, asStarted, ha, Option.bind_some]
  dsimp only
  rw [asU32_int h1, asTime_timeJ h3 h4]
  rfl

theorem finished_back {x : FinishedEntry} (h : Writable (.finished x)) : ofJson (toJson (.finished x)) = some (.finished x) := by
  obtain ⟨h1, h2, h3, h4, h5⟩ := h
  have ha : args false ["time", "key", "status", "values"]
        (.obj [("time", timeJ x.time), ("key", .str x.key), ("status", .int x.status), ("values", valuesJ x.values)]) =
        some [some (timeJ x.time), some (.str x.key), some (.int x.status), some (valuesJ x.values)] := by
    simp [args, field]
  have hs : asInt (-2147483648) 2147483648 (.int x.status) = some x.status := by
    simp only [asInt]; rw [if_pos ⟨h1, h2⟩]
  rw [toJson, ofJson, if_neg (by decide), if_neg (by decide), if_neg (by decide), if_pos rfl, asFinished, ha, Option.bind_some]
  dsimp only
  rw [hs,
    asTime_timeJ h3 h4, orDefault, asMaps_valuesJ h5]
  rfl

theorem ofJson_toJson {e : LogEntry} (h : Writable e) : ofJson (toJson e) = some e := by
  cases e with
  | header x => exact header_back h
  | ready x => exact ready_back h
  | started x => exact started_back h
  | finished x => exact finished_back h
  | backref x => simp [toJson, ofJson, asBackref, args, field, asStr]

theorem noReals_map {α : Type} {f : α → Json} (hf : ∀ a, noReal (f a) = true) (l : List α) : noReals (l.map f) = true := by
  induction l with
  | nil => rfl
  | cons a l ih => simp [noReals, hf, ih]

theorem noRealFields_map {α : Type} {f : α → String × Json} (hf : ∀ a, noReal (f a).2 = true) (l : List α) :
    noRealFields (l.map f) = true := by
  induction l with
  | nil => rfl
  | cons a l ih => simp [noRealFields, hf, ih]

theorem toJson_plain (e : LogEntry) : noReal (toJson e) = true := by
  have hs : ∀ l, noReal (strsJ l) = true := fun l => by
    simp only [strsJ, noReal]
    exact noReals_map (fun _ => by simp [noReal]) l
  have hv : ∀ l, noReal (valuesJ l) = true := fun l => by
    simp only [valuesJ, noReal]
    refine noReals_map (fun m => ?_) l
    simp only [noReal]
    exact noRealFields_map (fun _ => by simp [noReal]) m
  cases e <;> simp [toJson, noReal, noRealFields, timeJ, hs, hv]

theorem toJson_obj (e : LogEntry) : ∃ l, toJson e = .obj l := by cases e <;> exact ⟨_, rfl⟩

theorem fromStr_entryText {e : LogEntry} (h : Writable e) : fromStr (entryText e) = some e := by
  rw [fromStr, entryText, parse_print (toJson_plain e), Option.bind_some, ofJson_toJson h]

theorem fromStr_prefix {e : LogEntry} {p q : List Char} (h : entryText e = p ++ q) (hq : q ≠ []) : fromStr p = none := by
  obtain ⟨l, hl⟩ := toJson_obj e
  have hp := toJson_plain e
  rw [entryText] at h
  rw [hl] at h hp
  rw [fromStr, parse_prefix hp h hq]
  rfl

theorem fromStr_glued (e e' : LogEntry) : fromStr (entryText e ++ entryText e') = none := by
  obtain ⟨l, hl⟩ := toJson_obj e
  have hp := toJson_plain e
  rw [fromStr, entryText, entryText, hl] at *
  rw [parse_glued hp]
  rfl

end Verif.Json
