import Verif.Proof.Json2

/-!
# JSON lines: the file
-/

namespace Verif.Json
open Verif

/-! ### UTF-8 -/

theorem toByteArray_utf8 (cs : List Char) : (utf8 cs).toByteArray = cs.utf8Encode := rfl

theorem utf8_append (a b : List Char) : utf8 (a ++ b) = utf8 a ++ utf8 b := by simp [utf8]

theorem utf8_cons (c : Char) (b : List Char) : utf8 (c :: b) = String.utf8EncodeChar c ++ utf8 b := by simp [utf8]

theorem utf8_prefix {p m : List Char} {b : List UInt8} (h : utf8 p ++ b = utf8 m) : ∃ q, m = p ++ q ∧ b = utf8 q := by
  have h1 : p.utf8Encode ++ b.toByteArray = m.utf8Encode := by
    rw [← toByteArray_utf8, ← toByteArray_utf8, ← h, List.toByteArray_append]
  obtain ⟨q, rfl⟩ := List.isPrefix_of_utf8Encode_append_eq_utf8Encode _ h1
  refine ⟨q, rfl, ?_⟩
  rw [utf8_append] at h
  exact List.append_cancel_left h

theorem utf8_inj {a b : List Char} (h : utf8 a = utf8 b) : a = b := by
  obtain ⟨q, rfl, hq⟩ := utf8_prefix (p := a) (m := b) (b := []) (by simpa using h)
  cases q with
  | nil => simp
  | cons c q =>
    rw [utf8_cons] at hq
    have := (List.append_eq_nil_iff.1 hq.symm).1
    exact absurd this String.utf8EncodeChar_ne_nil

theorem toByteArray_inj {a b : List UInt8} (h : a.toByteArray = b.toByteArray) : a = b := by
  have := congrArg (fun x => x.data.toList) h
  simpa using this

theorem unutf8_some {bs : List UInt8} {cs : List Char} (h : unutf8 bs = some cs) : bs = utf8 cs := by
  unfold unutf8 at h
  obtain ⟨s, h1, rfl⟩ := Option.map_eq_some_iff.1 h
  unfold String.fromUTF8? at h1
  split at h1
  · simp only [Option.some.injEq] at h1
    have h2 := String.utf8Encode_toList (b := s)
    rw [← toByteArray_utf8] at h2
    apply toByteArray_inj
    rw [h2, ← h1]
    rfl
  · cases h1

theorem unutf8_utf8 (cs : List Char) : unutf8 (utf8 cs) = some cs := by
  have hv : (utf8 cs).toByteArray.IsValidUTF8 := ⟨cs, rfl⟩
  have h : ∃ ds, unutf8 (utf8 cs) = some ds := by
    unfold unutf8 String.fromUTF8?
    rw [dif_pos hv]
    exact ⟨_, rfl⟩
  obtain ⟨ds, hd⟩ := h
  rw [hd, utf8_inj (unutf8_some hd)]

theorem utf8_byte {c : Char} {b : UInt8} (hb : b.toNat < 128) (h : b ∈ String.utf8EncodeChar c) : c.toNat = b.toNat := by
  unfold String.utf8EncodeChar at h
  simp only at h
  have key : ∀ n : Nat, 128 ≤ n → n < 256 → b ≠ UInt8.ofNat n := by
    rintro n h1 h2 rfl
    rw [UInt8.toNat_ofNat_of_lt' (by simpa using h2)] at hb
    omega
  split at h
  · rename_i hle
    rw [List.mem_singleton.1 h, UInt8.toNat_ofNat_of_lt' (by show c.val.toNat < 256; omega)]
    rfl
  · rename_i hle
    exfalso
    have hv : c.val.toNat < 0x110000 := by
      rcases c.valid with hv | hv
      · exact Nat.lt_trans hv (by decide)
      · exact hv.2
    split at h
    · simp only [List.mem_cons, List.not_mem_nil, or_false] at h
      rcases h with h | h
      · exact key _ (by omega) (by omega) h
      · exact key _ (by omega) (by omega) h
    · split at h
      · simp only [List.mem_cons, List.not_mem_nil, or_false] at h
        rcases h with h | h | h
        · exact key _ (by omega) (by omega) h
        · exact key _ (by omega) (by omega) h
        · exact key _ (by omega) (by omega) h
      · simp only [List.mem_cons, List.not_mem_nil, or_false] at h
        rcases h with h | h | h | h
        · exact key _ (by omega) (by omega) h
        · exact key _ (by omega) (by omega) h
        · exact key _ (by omega) (by omega) h
        · exact key _ (by omega) (by omega) h

/-! ### No control characters in the text of an entry -/

theorem escape_visible (c : Char) : ∀ d ∈ escape c, 32 ≤ d.toNat := by
  intro d hd
  have hh : ∀ n < 16, 32 ≤ (hexDigit n).toNat := by decide
  unfold escape at hd
  have hb : 32 ≤ ('\\' : Char).toNat := by decide
  split at hd
  · revert d; decide
  split at hd
  · revert d; decide
  split at hd
  · revert d; decide
  split at hd
  · revert d; decide
  split at hd
  · revert d; decide
  split at hd
  · revert d; decide
  split at hd
  · revert d; decide
  split at hd
  · rename_i hl
    simp only [List.mem_cons, List.not_mem_nil, or_false] at hd
    rcases hd with rfl | rfl | rfl | rfl | rfl | rfl
    · decide
    · decide
    · decide
    · decide
    · exact hh _ (by omega)
    · exact hh _ (by omega)
  · rename_i hl
    rw [List.mem_singleton.1 hd]
    omega

theorem quoted_visible (s : String) : ∀ d ∈ quoted s, 32 ≤ d.toNat := by
  intro d hd
  rw [quoted_cons] at hd
  simp only [List.mem_cons, List.mem_append, List.mem_flatMap, List.not_mem_nil, or_false] at hd
  rcases hd with rfl | ⟨c, _, hc⟩ | rfl
  · decide
  · exact escape_visible c d hc
  · decide

theorem commas_visible {l : List (List Char)} (h : ∀ x ∈ l, ∀ d ∈ x, 32 ≤ d.toNat) : ∀ d ∈ commas l, 32 ≤ d.toNat := by
  induction l with
  | nil => simp [commas]
  | cons x l ih =>
    cases l with
    | nil => simpa [commas] using h
    | cons y l =>
      intro d hd
      simp only [commas, List.mem_append, List.mem_cons] at hd
      rcases hd with hd | rfl | hd
      · exact h x (by simp) d hd
      · decide
      · exact ih (fun x hx => h x (List.mem_cons_of_mem _ hx)) d hd

theorem decimal_visible (n : Nat) : ∀ d ∈ decimal n, 32 ≤ d.toNat := by
  intro d hd
  have := decimal_digits n d hd
  have : 48 ≤ d.toNat ∧ d.toNat ≤ 57 := of_decide_eq_true this
  omega

mutual
theorem print_visible : ∀ (v : Json), ∀ d ∈ print v, 32 ≤ d.toNat
  | .null => by decide
  | .bool b => by cases b <;> decide
  | .int i => by
    intro d hd
    simp only [print, printInt] at hd
    split at hd
    · rcases List.mem_cons.1 hd with rfl | hd
      · decide
      · exact decimal_visible _ d hd
    · exact decimal_visible _ d hd
  | .real => by decide
  | .str s => by rw [print]; exact quoted_visible s
  | .arr l => by
    intro d hd
    rw [print] at hd
    simp only [List.cons_append, List.mem_cons, List.mem_append, List.not_mem_nil, or_false] at hd
    rcases hd with rfl | hd | rfl
    · decide
    · exact commas_visible (printList_visible l) d hd
    · decide
  | .obj l => by
    intro d hd
    rw [print] at hd
    simp only [List.cons_append, List.mem_cons, List.mem_append, List.not_mem_nil, or_false] at hd
    rcases hd with rfl | hd | rfl
    · decide
    · exact commas_visible (printFields_visible l) d hd
    · decide
theorem printList_visible : ∀ (l : List Json), ∀ x ∈ printList l, ∀ d ∈ x, 32 ≤ d.toNat
  | [] => by simp [printList]
  | v :: l => by
    intro x hx
    rw [printList] at hx
    rcases List.mem_cons.1 hx with rfl | hx
    · exact print_visible v
    · exact printList_visible l x hx
theorem printFields_visible : ∀ (l : List (String × Json)), ∀ x ∈ printFields l, ∀ d ∈ x, 32 ≤ d.toNat
  | [] => by simp [printFields]
  | (k, v) :: l => by
    intro x hx
    rw [printFields] at hx
    rcases List.mem_cons.1 hx with rfl | hx
    · intro d hd
      simp only [List.mem_append, List.mem_cons] at hd
      rcases hd with hd | rfl | hd
      · exact quoted_visible k d hd
      · decide
      · exact print_visible v d hd
    · exact printFields_visible l x hx
end

theorem bytes_visible {cs : List Char} (h : ∀ d ∈ cs, 32 ≤ d.toNat) : ∀ b ∈ utf8 cs, 32 ≤ b.toNat := by
  intro b hb
  obtain ⟨c, hc, hb⟩ := List.mem_flatMap.1 hb
  by_cases hlt : b.toNat < 128
  · rw [← utf8_byte hlt hb]
    exact h c hc
  · omega

/-! ### Lines -/

theorem linesGo_line {bs : List UInt8} (h : ∀ b ∈ bs, 32 ≤ b.toNat) (l rest : List UInt8) :
    linesGo l (bs ++ 10 :: rest) = (l ++ bs ++ [10]) :: linesGo [] rest := by
  induction bs generalizing l with
  | nil => simp [linesGo]
  | cons b bs ih =>
    have hb : b ≠ 10 := by
      rintro rfl
      have := h 10 (by simp)
      revert this
      decide
    rw [List.cons_append, linesGo, if_neg hb, ih (fun b hb => h b (List.mem_cons_of_mem _ hb))]
    simp

theorem linesGo_last {bs : List UInt8} (h : ∀ b ∈ bs, 32 ≤ b.toNat) (l : List UInt8) :
    linesGo l bs = if l ++ bs = [] then [] else [l ++ bs] := by
  induction bs generalizing l with
  | nil => simp [linesGo]
  | cons b bs ih =>
    have hb : b ≠ 10 := by
      rintro rfl
      have := h 10 (by simp)
      revert this
      decide
    rw [linesGo, if_neg hb, ih (fun b hb => h b (List.mem_cons_of_mem _ hb))]
    simp

theorem entryText_visible (e : LogEntry) : ∀ d ∈ entryText e, 32 ≤ d.toNat := print_visible _

theorem rawLines_fileOf (es : List LogEntry) {rest : List UInt8} :
    rawLines (fileOf es ++ rest) = es.map lineBytes ++ rawLines rest := by
  induction es with
  | nil => rfl
  | cons e es ih =>
    have : fileOf (e :: es) ++ rest = utf8 (entryText e) ++ 10 :: (fileOf es ++ rest) := by
      simp [fileOf, lineBytes]
    rw [this, rawLines, linesGo_line (bytes_visible (entryText_visible e))]
    rw [rawLines] at ih
    rw [ih]
    simp [lineBytes]

theorem rawLines_last {bs : List UInt8} (h : ∀ b ∈ bs, 32 ≤ b.toNat) (hn : bs ≠ []) : rawLines bs = [bs] := by
  rw [rawLines, linesGo_last h, List.nil_append, if_neg hn]

theorem trimEnd_visible {cs : List Char} (h : ∀ d ∈ cs, 32 ≤ d.toNat) : trimEnd cs = cs := by
  unfold trimEnd
  cases hc : cs.reverse with
  | nil => rw [List.dropWhile_nil]; rw [List.reverse_eq_nil_iff] at hc; simp [hc]
  | cons d t =>
    have hd := h d (by rw [← List.mem_reverse, hc]; simp)
    have h1 : d ≠ '\r' := by rintro rfl; revert hd; decide
    have h2 : d ≠ '\n' := by rintro rfl; revert hd; decide
    rw [List.dropWhile_cons_of_neg (by simp [h1, h2]), ← hc, List.reverse_reverse]

theorem trimEnd_newline {cs : List Char} (h : ∀ d ∈ cs, 32 ≤ d.toNat) : trimEnd (cs ++ ['\n']) = cs := by
  have := trimEnd_visible h
  unfold trimEnd at this ⊢
  rw [List.reverse_append]
  simpa using this

theorem unutf8_line (e : LogEntry) : unutf8 (lineBytes e) = some (entryText e ++ ['\n']) := by
  have : lineBytes e = utf8 (entryText e ++ ['\n']) := by
    rw [utf8_append, lineBytes]
    congr 1
  rw [this, unutf8_utf8]

/-- Reading the lines of entries. -/
theorem loadLines_map {es : List LogEntry} (hw : ∀ e ∈ es, Writable e) (st : LoadState) (acc : List LogEntry)
    (ls : List (List UInt8)) :
    loadLines st acc (es.map lineBytes ++ ls) = (lift (loadLoop st es)).bind (fun st' => loadLines st' (acc ++ es) ls) := by
  induction es generalizing st acc with
  | nil => simp [loadLoop, lift, Res.bind]
  | cons e es ih =>
    rw [List.map_cons, List.cons_append, loadLines, unutf8_line]
    simp only
    rw [trimEnd_newline (entryText_visible e), fromStr_entryText (hw e (by simp)), loadLoop]
    simp only
    cases hs : loadStep st e with
    | ok st1 =>
      show loadLines st1 (acc ++ [e]) (es.map lineBytes ++ ls) = _
      rw [ih (fun e he => hw e (List.mem_cons_of_mem _ he)), List.append_assoc]
      rfl
    | err x => rfl
    | panic m => rfl

theorem readAll_map {es : List LogEntry} (hw : ∀ e ∈ es, Writable e) (ls : List (List UInt8)) :
    readAll (es.map lineBytes ++ ls) = (readAll ls).bind (fun l => .ok (es ++ l)) := by
  induction es with
  | nil => simp; cases readAll ls <;> rfl
  | cons e es ih =>
    rw [List.map_cons, List.cons_append, readAll, unutf8_line]
    simp only
    rw [trimEnd_newline (entryText_visible e), fromStr_entryText (hw e (by simp)), ih (fun e he => hw e (List.mem_cons_of_mem _ he))]
    cases readAll ls <;> rfl

theorem lift_open (es : List LogEntry) (dir : String) :
    lift (LogFile.open es dir) = (lift (loadLoop ⟨.empty, none⟩ es)).bind (fun st => .ok ⟨st.mem, es, dir⟩) := by
  unfold LogFile.open loadRuncounts
  cases loadLoop ⟨.empty, none⟩ es <;> rfl

theorem loop_of_open {es : List LogEntry} {dir : String} {lf : LogFile} (h : LogFile.open es dir = .ok lf) :
    ∃ st, loadLoop ⟨.empty, none⟩ es = .ok st := by
  unfold LogFile.open loadRuncounts at h
  cases hl : loadLoop ⟨.empty, none⟩ es with
  | ok st => exact ⟨st, rfl⟩
  | err x => rw [hl] at h; cases h
  | panic m => rw [hl] at h; cases h

theorem openBytes_fileOf {es : List LogEntry} (hw : ∀ e ∈ es, Writable e) (dir : String) (rest : List UInt8) :
    openBytes (fileOf es ++ rest) dir = (lift (loadLoop ⟨.empty, none⟩ es)).bind (fun st =>
      (loadLines st es (rawLines rest)).bind (fun r => .ok ⟨r.1.mem, r.2, dir⟩)) := by
  unfold openBytes
  rw [rawLines_fileOf, loadLines_map hw]
  cases loadLoop ⟨.empty, none⟩ es <;> simp [lift, Res.bind]

theorem take_visible {e : LogEntry} {m : Nat} : ∀ b ∈ (utf8 (entryText e)).take m, 32 ≤ b.toNat :=
  fun b hb => bytes_visible (entryText_visible e) b (List.mem_of_mem_take hb)

/-- The beginning of a line, if it is text at all, is the beginning of the text. -/
theorem take_text {e : LogEntry} {m : Nat} {cs : List Char} (h : unutf8 ((utf8 (entryText e)).take m) = some cs) :
    ∃ q, entryText e = cs ++ q ∧ (utf8 (entryText e)).drop m = utf8 q := by
  have h1 := unutf8_some h
  exact utf8_prefix (by rw [← h1]; exact List.take_append_drop m _)

theorem cut_not_entry {e : LogEntry} {m : Nat} (hm : m < (utf8 (entryText e)).length) {cs : List Char}
    (h : unutf8 ((utf8 (entryText e)).take m) = some cs) : fromStr (trimEnd cs) = none := by
  obtain ⟨q, h1, h2⟩ := take_text h
  have hv : ∀ d ∈ cs, 32 ≤ d.toNat := fun d hd => entryText_visible e d (by rw [h1]; simp [hd])
  rw [trimEnd_visible hv]
  refine fromStr_prefix h1 ?_
  rintro rfl
  have := congrArg List.length h2
  rw [List.length_drop] at this
  simp [utf8] at this
  simp [utf8] at hm
  omega

/-! ### Order of fields, unknown and missing fields -/

theorem filter_perm {names : List String} {n : String} (hn : n ∈ names) {l l0 : List (String × Json)}
    (h : (l.filter (fun x => names.contains x.1)).Perm l0) (hd : (l0.map (·.1)).Nodup) :
    l.filter (fun x => x.1 == n) = l0.filter (fun x => x.1 == n) := by
  have h1 : l.filter (fun x => x.1 == n) = (l.filter (fun x => names.contains x.1)).filter (fun x => x.1 == n) := by
    rw [List.filter_filter]
    apply List.filter_congr
    intro x _
    by_cases hx : x.1 = n
    · simp [hx, hn]
    · simp [hx]
  have h2 := h.filter (fun x => x.1 == n)
  rw [← h1] at h2
  have h3 : (l0.filter (fun x => x.1 == n)).length ≤ 1 := by
    clear h h1 h2
    induction l0 with
    | nil => simp
    | cons a l0 ih =>
      rw [List.map_cons, List.nodup_cons] at hd
      rw [List.filter_cons]
      split
      · rename_i ha
        have : l0.filter (fun x => x.1 == n) = [] := by
          rw [List.filter_eq_nil_iff]
          intro x hx hxn
          apply hd.1
          rw [show a.1 = n by simpa using ha, ← show x.1 = n by simpa using hxn]
          exact List.mem_map_of_mem hx
        simp [this]
      · exact ih hd.2
  cases hl : l0.filter (fun x => x.1 == n) with
  | nil => rw [hl] at h2; exact h2.eq_nil
  | cons a t =>
    rw [hl] at h2 h3
    have ht : t = [] := by
      cases t with
      | nil => rfl
      | cons b t => simp at h3
    subst ht
    exact List.perm_singleton.1 h2

theorem args_perm {names : List String} {l l0 : List (String × Json)}
    (h : (l.filter (fun x => names.contains x.1)).Perm l0) (hd : (l0.map (·.1)).Nodup) :
    args false names (.obj l) = args false names (.obj l0) := by
  simp only [args, Bool.false_and]
  rw [if_neg (by simp), if_neg (by simp)]
  have : ∀ ns : List String, (∀ n ∈ ns, n ∈ names) → ns.mapM (field l) = ns.mapM (field l0) := by
    intro ns
    induction ns with
    | nil => intro _; rfl
    | cons n ns ih =>
      intro hs
      have hf : field l n = field l0 n := by
        unfold field
        rw [filter_perm (hs n (by simp)) h hd]
      rw [List.mapM_cons, List.mapM_cons, hf, ih (fun n hn => hs n (List.mem_cons_of_mem _ hn))]
  exact this names (fun _ h => h)

end Verif.Json
