import Verif.Spec.Disk
import Verif.Props.LogBytes
import Verif.Props.World

/-!
# Histories over bytes: how they follow the histories over entries
-/

namespace Verif.Json
open Verif

theorem parse_tail {l : List (String × Json)} (h : noReal (.obj l) = true) {c : Char} (hc : starts c = true) (t : List Char) :
    parse (print (.obj l) ++ c :: t) = none := by
  have h2 := value_print _ h (print (.obj l)).length [] stop_nil (Nat.le_refl _)
  rw [List.append_nil] at h2
  have h3 := value_ext _ _ _ _ h2 (.inr rfl) (c :: t)
  have h4 := value_more (f' := (print (.obj l) ++ c :: t).length + 1) (by rw [List.length_append]; omega) h3
  unfold parse
  rw [h4]
  simp only [Option.bind_some, List.nil_append]
  rw [skipWs_starts hc]
  simp

theorem fromStr_tail (e : LogEntry) {c : Char} (hc : starts c = true) (t : List Char) : fromStr (entryText e ++ c :: t) = none := by
  obtain ⟨l, hl⟩ := toJson_obj e
  have hp := toJson_plain e
  rw [fromStr, entryText, hl] at *
  rw [parse_tail hp hc]
  rfl

theorem text_ne_nil (e : LogEntry) : utf8 (entryText e) ≠ [] := by
  obtain ⟨c, t, h, _⟩ := print_head (toJson e)
  rw [entryText, h, utf8_cons]
  intro hc
  exact String.utf8EncodeChar_ne_nil (List.append_eq_nil_iff.1 hc).1

theorem fileOf_append (a b : List LogEntry) : fileOf (a ++ b) = fileOf a ++ fileOf b := by simp [fileOf]

theorem fileOf_cons (e : LogEntry) (b : List LogEntry) : fileOf (e :: b) = utf8 (entryText e) ++ 10 :: fileOf b := by
  simp [fileOf, lineBytes]

/-- A line that goes on after a complete entry is no entry. -/
theorem glued_refused {es : List LogEntry} {e e' : LogEntry} {more : List LogEntry} (hw : ∀ x ∈ es, Writable x) {dir : String} {lf : LogFile}
    (ho : LogFile.open es dir = .ok lf) {k : Nat} (hk : 0 < k) :
    ∃ x, openBytes (fileOf es ++ (utf8 (entryText e) ++ (fileOf (e' :: more)).take k)) dir = .err x := by
  obtain ⟨st, hst⟩ := loop_of_open ho
  rw [openBytes_fileOf hw, hst]
  simp only [lift, Res.bind]
  obtain ⟨c, t, hct, hcs⟩ := print_head (toJson e')
  have hct : entryText e' = c :: t := hct
  by_cases hle : k ≤ (utf8 (entryText e')).length
  · have e1 : (fileOf (e' :: more)).take k = (utf8 (entryText e')).take k := by
      rw [fileOf_cons, List.take_append_of_le_length hle]
    have hne : (utf8 (entryText e')).take k ≠ [] := by
      intro h
      have := congrArg List.length h
      rw [List.length_take, List.length_nil] at this
      have := List.length_pos_iff.2 (text_ne_nil e')
      omega
    have hv : ∀ b ∈ utf8 (entryText e) ++ (utf8 (entryText e')).take k, 32 ≤ b.toNat := by
      intro b hb
      rcases List.mem_append.1 hb with h | h
      · exact bytes_visible (entryText_visible e) b h
      · exact take_visible b h
    rw [e1, rawLines_last hv (by simp [text_ne_nil e])]
    simp only [loadLines]
    cases hu : unutf8 (utf8 (entryText e) ++ (utf8 (entryText e')).take k) with
    | none => exact ⟨_, rfl⟩
    | some cs =>
      have h1 := unutf8_some hu
      obtain ⟨p, h2, h3⟩ := utf8_prefix h1
      have h4 : utf8 p ++ (utf8 (entryText e')).drop k = utf8 (entryText e') := by
        rw [← h3, List.take_append_drop]
      obtain ⟨q, h5, _⟩ := utf8_prefix h4
      have hp : p ≠ [] := by
        rintro rfl
        exact hne (by rw [h3]; rfl)
      obtain ⟨c', t', rfl⟩ := List.exists_cons_of_ne_nil hp
      rw [hct] at h5
      simp only [List.cons_append, List.cons.injEq] at h5
      have hvc : ∀ d ∈ cs, 32 ≤ d.toNat := by
        intro d hd
        rw [h2] at hd
        rcases List.mem_append.1 hd with h | h
        · exact entryText_visible e d h
        · refine entryText_visible e' d ?_
          rw [hct, h5.1, h5.2]
          simp only [List.mem_cons, List.mem_append] at h ⊢
          rcases h with h | h
          · exact .inl h
          · exact .inr (.inl h)
      have : fromStr (trimEnd cs) = none := by
        rw [trimEnd_visible hvc, h2]
        exact fromStr_tail e (by rw [← h5.1]; exact hcs) t'
      simp [this]
  · obtain ⟨j, hj⟩ : ∃ j, k = (utf8 (entryText e')).length + 1 + j := ⟨k - ((utf8 (entryText e')).length + 1), by omega⟩
    have e1 : utf8 (entryText e) ++ (fileOf (e' :: more)).take k = utf8 (entryText e ++ entryText e') ++ 10 :: (fileOf more).take j := by
      rw [fileOf_cons, utf8_append, hj, Nat.add_assoc, List.take_length_add_append, Nat.add_comm 1 j, List.take_succ_cons]
      simp
    have hv : ∀ d ∈ entryText e ++ entryText e', 32 ≤ d.toNat := by
      intro d hd
      rcases List.mem_append.1 hd with h | h
      · exact entryText_visible e d h
      · exact entryText_visible e' d h
    have hu : unutf8 (utf8 (entryText e ++ entryText e') ++ [10]) = some (entryText e ++ entryText e' ++ ['\n']) := by
      have : utf8 (entryText e ++ entryText e') ++ [10] = utf8 (entryText e ++ entryText e' ++ ['\n']) := by
        rw [utf8_append (entryText e ++ entryText e')]
        congr 1
      rw [this, unutf8_utf8]
    have hf : fromStr (trimEnd (entryText e ++ entryText e' ++ ['\n'])) = none := by
      rw [trimEnd_newline hv, hct]
      exact fromStr_tail e hcs t
    rw [e1, rawLines, linesGo_line (bytes_visible hv), List.nil_append]
    simp only [loadLines, hu, hf]
    exact ⟨_, rfl⟩

end Verif.Json

namespace Verif.Disk
open Verif Verif.Json

variable {d d' : State} {w w' : World.World} {as : List Act}

/-- The file can not be opened. -/
def Broken (bs : List UInt8) : Prop := ∀ dir, ∃ x, openBytes bs dir = .err x

/-- How a state over bytes follows a world over entries. -/
structure Sim (d : State) (w : World.World) : Prop where
  reach : World.Reachable w
  same : d.world.sess.isSome = true → d.world = w
  sess : w.sess = d.world.sess
  multi : w.multi = d.world.multi
  writable : ∀ e ∈ w.log, Writable e
  status : d.bytes = fileOf w.file ∨ d.bytes ++ [10] = fileOf w.file ∨ (d.world.sess = none ∧ Broken d.bytes)

theorem file_log (h : World.Reachable w) : w.file <+: w.log := by
  unfold World.World.log
  cases hs : w.sess with
  | none => exact List.prefix_refl _
  | some s =>
    have hS := h.inv.sess s hs
    have h1 : w.file <+: s.g.logfile.entries := hS.onDisk.trans (List.take_prefix _ _)
    cases hr : s.run with
    | none => simp only [hr]; exact h1
    | some r => simp only [hr]; exact h1.trans (World.RunInv.log hS (hS.run r hr)).2.2

theorem flushed_le (h : World.Reachable w) {s : World.Sess} (hs : w.sess = some s) : w.file.length ≤ s.flushed ∧ s.flushed ≤ w.log.length := by
  have hS := h.inv.sess s hs
  have h0 := hS.onDisk.length_le
  have h1 := hS.flushed
  rw [List.length_take] at h0
  refine ⟨by omega, ?_⟩
  have : s.g.logfile.entries.length ≤ w.log.length := by
    unfold World.World.log
    simp only [hs]
    cases hr : s.run with
    | none => simp only [hr]; exact Nat.le_refl _
    | some r => simp only [hr]; exact (World.RunInv.log hS (hS.run r hr)).2.2.length_le
  omega

theorem Sim.wfile (h : Sim d w) : ∀ e ∈ w.file, Writable e := fun e he => h.writable e ((file_log h.reach).subset he)

theorem lineEnd_fileOf (es : List LogEntry) : LineEnd (fileOf es) := by
  rcases List.eq_nil_or_concat es with rfl | ⟨l, e, rfl⟩
  · exact .inl rfl
  · right
    rw [List.concat_eq_append, fileOf_append, fileOf_cons]
    have : fileOf [] = [] := rfl
    rw [this, ← List.append_assoc, List.getLast?_append]
    simp

theorem bare_iff {bs : List UInt8} {es : List LogEntry} (h : bs ++ [10] = fileOf es) :
    ∃ pre e, es = pre ++ [e] ∧ bs = fileOf pre ++ utf8 (entryText e) := by
  rcases List.eq_nil_or_concat es with rfl | ⟨l, e, rfl⟩
  · simp [fileOf] at h
  · refine ⟨l, e, by simp, ?_⟩
    rw [List.concat_eq_append, fileOf_append, fileOf_cons] at h
    have : fileOf [] = [] := rfl
    rw [this, ← List.append_assoc] at h
    exact List.append_cancel_right h

theorem not_lineEnd_text {pre : List LogEntry} {e : LogEntry} {m : Nat} (hm : 0 < m) :
    ¬ LineEnd (fileOf pre ++ (utf8 (entryText e)).take m) := by
  have hne : (utf8 (entryText e)).take m ≠ [] := by
    intro h
    have := congrArg List.length h
    rw [List.length_take, List.length_nil] at this
    have := List.length_pos_iff.2 (text_ne_nil e)
    omega
  rintro (h | h)
  · exact hne (List.append_eq_nil_iff.1 h).2
  · rw [List.getLast?_append, List.getLast?_eq_some_getLast hne] at h
    simp only [Option.some_or, Option.some.injEq] at h
    have := take_visible (e := e) (m := m) _ (List.getLast_mem hne)
    rw [h] at this
    revert this; decide

theorem bare_not_lineEnd {bs : List UInt8} {es : List LogEntry} (h : bs ++ [10] = fileOf es) : ¬ LineEnd bs := by
  obtain ⟨pre, e, _, h2⟩ := bare_iff h
  rw [h2]
  have := not_lineEnd_text (pre := pre) (e := e) (m := (utf8 (entryText e)).length) (List.length_pos_iff.2 (text_ne_nil e))
  rwa [List.take_length] at this

theorem open_of_reachable {es : List LogEntry} (h : World.Reachable w) (hp : es <+: w.log) (dir : String) : ∃ lf, LogFile.open es dir = .ok lf := by
  obtain ⟨_, _, lf, h3⟩ := Props.World.log_always_opens h es.length dir
  have : w.log.take es.length = es := (List.prefix_iff_eq_take.1 hp).symm
  rw [this] at h3
  exact ⟨lf, h3⟩

theorem open_entries {es : List LogEntry} {dir : String} {lf : LogFile} (h : LogFile.open es dir = .ok lf) : lf.entries = es := by
  unfold LogFile.open at h
  obtain ⟨m, _, h2⟩ := Res.bind_ok.1 h
  cases h2; rfl

/-- Reading the bytes gives the entries. -/
theorem Sim.opens (h : Sim d w) (hb : d.bytes = fileOf w.file ∨ d.bytes ++ [10] = fileOf w.file) (dir : String) :
    ∃ lf, openBytes d.bytes dir = .ok lf ∧ lf.entries = w.file := by
  obtain ⟨lf, hlf⟩ := open_of_reachable h.reach (file_log h.reach) dir
  refine ⟨lf, ?_, open_entries hlf⟩
  rcases hb with hb | hb
  · rw [hb, (Props.LogBytes.file_round_trip h.wfile dir).1, hlf]; rfl
  · obtain ⟨pre, e, h1, h2⟩ := bare_iff hb
    have hw := h.wfile
    rw [h1] at hw hlf
    rw [h2, Props.LogBytes.lost_newline_opens hw, hlf]; rfl

theorem step_file {a : World.Act} (ha : a.isStop = false) (hs : World.step w a = .ok w') : w'.file = w.file := by
  cases a with
  | «open» dir roots newKey info =>
    simp only [World.step] at hs
    split at hs
    · cases hs
    · split at hs <;> first | (cases hs; done) | (cases hs; rfl)
  | add cmd deps =>
    simp only [World.step] at hs
    split at hs
    · cases hs
    · split at hs
      · cases hs
      · split at hs
        · cases hs
        · split at hs <;> first | (cases hs; done) | (cases hs; rfl)
  | exec target rerun fizzles ch now =>
    simp only [World.step] at hs
    split at hs
    · cases hs
    · split at hs
      · cases hs
      · unfold World.startExec at hs
        split at hs
        · split at hs <;> (cases hs; rfl)
        · cases hs
        · cases hs
  | trk b =>
    simp only [World.step] at hs
    split at hs
    · cases hs
    · split at hs
      · cases hs
      · split at hs
        · cases hs
        · obtain ⟨st, _, h2⟩ := Res.bind_ok.1 hs
          cases h2; rfl
  | finish =>
    simp only [World.step] at hs
    split at hs
    · cases hs
    · split at hs
      · cases hs
      · split at hs
        · cases hs
        · cases hs; rfl
  | stop k => cases ha

/-- Without a process only the constructor can be called. -/
theorem step_idle {a : World.Act} (hw : w.sess = none) (hs : World.step w a = .ok w') : ∃ dir roots newKey info, a = .open dir roots newKey info := by
  cases a with
  | «open» dir roots newKey info => exact ⟨_, _, _, _, rfl⟩
  | _ => simp [World.step, hw] at hs

theorem step_sess {a : World.Act} (ha : a.isStop = false) (hs : World.step w a = .ok w') : w'.sess.isSome = true := by
  cases a with
  | «open» dir roots newKey info =>
    simp only [World.step] at hs
    split at hs
    · cases hs
    · split at hs <;> first | (cases hs; done) | (cases hs; rfl)
  | add cmd deps =>
    simp only [World.step] at hs
    split at hs
    · cases hs
    · split at hs
      · cases hs
      · split at hs
        · cases hs
        · split at hs <;> first | (cases hs; done) | (cases hs; rfl)
  | exec target rerun fizzles ch now =>
    simp only [World.step] at hs
    split at hs
    · cases hs
    · split at hs
      · cases hs
      · unfold World.startExec at hs
        split at hs
        · split at hs <;> (cases hs; rfl)
        · cases hs
        · cases hs
  | trk b =>
    simp only [World.step] at hs
    split at hs
    · cases hs
    · split at hs
      · cases hs
      · split at hs
        · cases hs
        · obtain ⟨st, _, h2⟩ := Res.bind_ok.1 hs
          cases h2; rfl
  | finish =>
    simp only [World.step] at hs
    split at hs
    · cases hs
    · split at hs
      · cases hs
      · split at hs
        · cases hs
        · cases hs; rfl
  | stop k => cases ha

theorem length_fileOf_mono {a b : List LogEntry} (h : a <+: b) : (fileOf a).length ≤ (fileOf b).length := by
  obtain ⟨c, rfl⟩ := h
  rw [fileOf_append, List.length_append]; omega

/-- Outcomes of the end of a process: `n` bytes are left of the file. -/
inductive Cut (d : State) (n : Nat) : World.World → Prop
  /-- At the end of a line. -/
  | line {w : World.World} (h : (content d).take n = fileOf w.file) (h0 : d.bytes ++ [10] ≠ fileOf d.world.file)
      (hat : n = d.bytes.length ∨ (content d)[n - 1]? = some 10) : Cut d n w
  /-- Before a newline. -/
  | bare {w : World.World} (h : (content d).take n ++ [10] = fileOf w.file)
      (hat : n = d.bytes.length ∨ (d.bytes = fileOf d.world.file ∧ (content d)[n]? = some 10)) : Cut d n w
  /-- Elsewhere, or after something was written behind a line without newline. -/
  | broken {w : World.World} (h : Broken ((content d).take n)) (hne : n ≠ d.bytes.length)
      (hat : d.bytes ++ [10] = fileOf d.world.file ∨ ((content d)[n - 1]? ≠ some 10 ∧ (content d)[n]? ≠ some 10)) : Cut d n w

theorem worldRuns_append {w1 w2 w3 : World.World} {as bs : List World.Act} (h1 : World.Runs w1 as w2) (h2 : World.Runs w2 bs w3) :
    World.Runs w1 (as ++ bs) w3 := by
  induction h1 with
  | nil => exact h2
  | cons hs _ ih => exact .cons hs (ih h2)

theorem lineEnd_take {bs : List UInt8} {n : Nat} (h0 : 0 < n) (hn : n ≤ bs.length) : LineEnd (bs.take n) ↔ bs[n - 1]? = some 10 := by
  have hl : (bs.take n).length = n := by rw [List.length_take]; omega
  have : (bs.take n).getLast? = bs[n - 1]? := by
    rw [List.getLast?_eq_getElem?, hl, List.getElem?_take, if_pos (by omega)]
  unfold LineEnd
  rw [this]
  constructor
  · rintro (h | h)
    · rw [h] at hl; simp at hl; omega
    · exact h
  · exact .inr

theorem Sim.stop (h : Sim d w) {s : World.Sess} (hs : d.world.sess = some s) {n : Nat} (h1 : (durable d s).length ≤ n)
    (h2 : n ≤ (content d).length) : ∃ keep w', World.step w (.stop keep) = .ok w' ∧ Cut d n w' := by
  have hw : d.world = w := h.same (by rw [hs]; rfl)
  have hws : w.sess = some s := by rw [h.sess, hs]
  obtain ⟨hf1, hf2⟩ := flushed_le h.reach hws
  have hstep : ∀ keep, s.flushed ≤ keep → keep ≤ w.log.length →
      World.step w (.stop keep) = .ok { w with file := w.log.take keep, sess := none } := by
    intro keep g1 g2
    simp [World.step, hws, g1, g2]
  obtain ⟨new, hnew⟩ := file_log h.reach
  have hdrop : w.log.drop w.file.length = new := by rw [← hnew, List.drop_left]
  have hcont : content d = d.bytes ++ fileOf new := by rw [content, hw, hdrop]
  have hdur : durable d s = d.bytes ++ fileOf ((w.log.take s.flushed).drop w.file.length) := by rw [durable, hw]
  have hn0 : d.bytes.length ≤ n := by rw [hdur, List.length_append] at h1; omega
  have hlen : ((content d).take n).length = n := by rw [List.length_take]; omega
  rcases h.status with hb | hb | ⟨hb, _⟩
  · -- the file ended with a line
    have hc : content d = fileOf w.log := by rw [hcont, hb, ← fileOf_append, hnew]
    have hpre : w.file <+: w.log.take s.flushed := List.prefix_take_iff.2 ⟨⟨new, hnew⟩, hf1⟩
    have hd : durable d s = fileOf (w.log.take s.flushed) := by
      obtain ⟨x, hx⟩ := hpre
      rw [hdur, hb, ← hx, List.drop_left, fileOf_append]
    have hnb : d.bytes ++ [10] ≠ fileOf d.world.file := by
      rw [hw, ← hb]
      intro e
      have := congrArg List.length e
      simp at this
    have hat : LineEnd ((content d).take n) → n = d.bytes.length ∨ (content d)[n - 1]? = some 10 := by
      intro hl
      by_cases h0 : n = 0
      · left; omega
      · exact .inr ((lineEnd_take (by omega) h2).1 hl)
    rcases Props.LogBytes.cut_somewhere w.log n with hcut | ⟨pre, e, post, m, e1, e2, e3⟩
    · refine ⟨w.log.length, _, hstep _ hf2 (Nat.le_refl _), .line ?_ hnb (hat ?_)⟩
      · rw [hc, hcut, List.take_length]
      · rw [hc, hcut]; exact lineEnd_fileOf _
    · rw [← hc] at e3
      have hn : n = (fileOf pre).length + m := by
        have := congrArg List.length e3
        rw [hlen, List.length_append, List.length_take] at this
        omega
      have hfl : s.flushed ≤ pre.length := by
        rcases Nat.lt_or_ge pre.length s.flushed with hlt | hge
        · exfalso
          have : pre ++ [e] <+: w.log.take s.flushed := by
            refine List.prefix_take_iff.2 ⟨⟨post, by rw [e1]; simp⟩, by simp; omega⟩
          have := length_fileOf_mono this
          rw [← hd, fileOf_append, fileOf_cons] at this
          simp only [List.length_append, List.length_cons] at this
          omega
        · exact hge
      have htake : w.log.take pre.length = pre := by rw [e1, List.take_left]
      have hpl : pre.length + 1 ≤ w.log.length := by rw [e1]; simp
      by_cases hm0 : m = 0
      · refine ⟨pre.length, _, hstep _ hfl (by omega), .line ?_ hnb (hat ?_)⟩
        · rw [e3, hm0, htake]; simp
        · rw [e3, hm0, List.take_zero, List.append_nil]; exact lineEnd_fileOf _
      · by_cases hml : m = (utf8 (entryText e)).length
        · refine ⟨pre.length + 1, _, hstep _ (by omega) hpl, .bare ?_ (.inr ⟨by rw [hw, hb], ?_⟩)⟩
          · have : w.log.take (pre.length + 1) = pre ++ [e] := by rw [e1, List.take_length_add_append]; simp
            simp only [this]
            rw [e3, hml, List.take_length, fileOf_append, fileOf_cons]
            simp [show fileOf [] = [] from rfl]
          · rw [hc, e1, fileOf_append, fileOf_cons, hn, List.getElem?_append_right (by omega), Nat.add_sub_cancel_left, hml,
              List.getElem?_append_right (Nat.le_refl _)]
            simp
        · have hnl : ¬ LineEnd ((content d).take n) := by rw [e3]; exact not_lineEnd_text (by omega)
          refine ⟨pre.length, _, hstep _ hfl (by omega), .broken ?_ ?_ (.inr ⟨?_, ?_⟩)⟩
          · intro dir
            obtain ⟨lf, hlf⟩ := open_of_reachable h.reach (es := pre) ⟨e :: post, e1.symm⟩ dir
            rw [e3]
            rcases Props.LogBytes.torn_line_rejected_violated (e := e) (fun x hx => h.writable x (by rw [e1]; simp [hx])) hlf
              (m := m) (by omega) (by omega) with hx | hx
            · exact ⟨_, hx⟩
            · exact ⟨_, hx⟩
          · rintro rfl
            apply hnl
            rw [hcont, List.take_left, hb]
            exact lineEnd_fileOf _
          · intro hx
            exact hnl ((lineEnd_take (by omega) h2).2 hx)
          · rw [hc, e1, fileOf_append, fileOf_cons, hn, List.getElem?_append_right (by omega), Nat.add_sub_cancel_left,
              List.getElem?_append_left (by omega)]
            intro hx
            have := bytes_visible (entryText_visible e) _ (List.mem_of_getElem? hx)
            revert this; decide
  · -- it ended without newline
    obtain ⟨pre, e, e1, e2⟩ := bare_iff hb
    by_cases hnn : n = d.bytes.length
    · have hfl : s.flushed ≤ w.file.length := by
        rw [hdur, List.length_append] at h1
        have : fileOf ((w.log.take s.flushed).drop w.file.length) = [] := List.length_eq_zero_iff.1 (by omega)
        cases hx : (w.log.take s.flushed).drop w.file.length with
        | nil =>
          have := congrArg List.length hx
          rw [List.length_drop, List.length_take] at this
          simp at this
          omega
        | cons x xs => rw [hx, fileOf_cons] at this; simp at this
      have htake : w.log.take w.file.length = w.file := by rw [← hnew, List.take_left]
      refine ⟨w.file.length, _, hstep _ hfl (by omega), .bare ?_ (.inl hnn)⟩
      simp only [htake]
      rw [hcont, hnn, List.take_left, hb]
    · refine ⟨w.log.length, _, hstep _ hf2 (Nat.le_refl _), .broken ?_ hnn (.inl (by rw [hw, hb]))⟩
      intro dir
      obtain ⟨lf, hlf⟩ := open_of_reachable h.reach (es := pre) ((List.prefix_append pre [e]).trans (e1 ▸ file_log h.reach)) dir
      cases new with
      | nil => rw [hcont] at h2; simp [fileOf] at h2; omega
      | cons e' more =>
        have hk : n = d.bytes.length + (n - d.bytes.length) := by omega
        rw [hcont, hk, List.take_length_add_append, e2, List.append_assoc]
        exact glued_refused (fun x hx => h.wfile x (by rw [e1]; simp [hx])) hlf (by rw [e2] at hk hnn hn0; omega)
  · rw [hb] at hs; cases hs

/-- One action over bytes is some actions over entries. -/
theorem Sim.step (h : Sim d w) {a : Act} (hs : Disk.step d a = .ok d') (hr : inRange d') :
    ∃ ws w', World.Runs w ws w' ∧ Sim d' w' ∧ (d.bytes = fileOf w.file → LineEnd d'.bytes → d'.bytes = fileOf w'.file) := by
  cases a with
  | stop n =>
    simp only [Disk.step] at hs
    split at hs
    · cases hs
    · rename_i s hsess
      split at hs
      · rename_i hb
        cases hs
        obtain ⟨keep, w', g1, g2⟩ := h.stop hsess hb.1 hb.2
        have hlog : ∀ e ∈ w'.log, Writable e := by
          intro e he
          refine h.writable e ?_
          have hws : w.sess = some s := by rw [h.sess, hsess]
          simp only [World.step, hws] at g1
          split at g1
          · cases g1
            simp only [World.World.log] at he ⊢
            exact List.mem_of_mem_take he
          · cases g1
        have hsess' : w'.sess = none ∧ w'.multi = w.multi := by
          have hws : w.sess = some s := by rw [h.sess, hsess]
          simp only [World.step, hws] at g1
          split at g1
          · cases g1; exact ⟨rfl, rfl⟩
          · cases g1
        have hre : World.Reachable w' := by
          obtain ⟨bs, hbs⟩ := h.reach
          exact ⟨bs ++ [.stop keep], worldRuns_append hbs (.cons g1 (.nil _))⟩
        refine ⟨[.stop keep], w', .cons g1 (.nil _), ⟨hre, (by intro e; cases e), hsess'.1, by rw [hsess'.2, h.multi], hlog, ?_⟩, ?_⟩
        · cases g2 with
          | line h1 _ _ => exact .inl h1
          | bare h1 _ => exact .inr (.inl h1)
          | broken h1 _ _ => exact .inr (.inr ⟨rfl, h1⟩)
        · intro hb1 hl
          cases g2 with
          | line h1 _ _ => exact h1
          | bare h1 _ => exact absurd hl (bare_not_lineEnd h1)
          | broken h1 hne hat =>
            exfalso
            have hw : d.world = w := h.same (by rw [hsess]; rfl)
            rcases hat with hat | ⟨hat, _⟩
            · rw [hw, ← hb1] at hat
              have := congrArg List.length hat
              simp at this
            · have hn0 : d.bytes.length ≤ n := by
                have := hb.1
                simp only [durable, List.length_append] at this
                omega
              exact hat ((lineEnd_take (by omega) hb.2).1 hl)
      · cases hs
  | world a =>
    have key : ∀ w', World.step w a = .ok w' → a.isStop = false → d' = ⟨d.bytes, w'⟩ →
        (d.bytes = fileOf w.file ∨ d.bytes ++ [10] = fileOf w.file) →
        ∃ ws w', World.Runs w ws w' ∧ Sim d' w' ∧ (d.bytes = fileOf w.file → LineEnd d'.bytes → d'.bytes = fileOf w'.file) := by
      intro w' g1 g2 g3 g4
      subst g3
      have hf := step_file g2 g1
      have hre : World.Reachable w' := by
        obtain ⟨bs, hbs⟩ := h.reach
        exact ⟨bs ++ [a], worldRuns_append hbs (.cons g1 (.nil _))⟩
      refine ⟨[a], w', .cons g1 (.nil _), ⟨hre, fun _ => rfl, rfl, rfl, hr (step_sess g2 g1), ?_⟩, ?_⟩
      · rw [hf]
        rcases g4 with g4 | g4
        · exact .inl g4
        · exact .inr (.inl g4)
      · intro e _; rw [hf]; exact e
    by_cases ha : ∃ dir roots newKey info, a = .open dir roots newKey info
    · obtain ⟨dir, roots, newKey, info, rfl⟩ := ha
      simp only [Disk.step] at hs
      split at hs
      · rename_i lf hlf
        obtain ⟨w', g1, g2⟩ := Res.bind_ok.1 hs
        simp only [Res.ok.injEq] at g2
        have hnone : d.world.sess = none := by
          cases hx : d.world.sess with
          | none => rfl
          | some s => simp [World.step, hx] at g1
        have hst : d.bytes = fileOf w.file ∨ d.bytes ++ [10] = fileOf w.file := by
          rcases h.status with hb | hb | ⟨_, hb⟩
          · exact .inl hb
          · exact .inr hb
          · obtain ⟨x, hx⟩ := hb dir
            rw [hx] at hlf; cases hlf
        obtain ⟨lf', h1, h2⟩ := h.opens hst dir
        rw [h1] at hlf
        cases hlf
        have hww : ({ d.world with file := lf.entries } : World.World) = w := by
          rw [h2]
          have e1 := h.sess; have e2 := h.multi
          rw [hnone] at e1
          cases w; cases hd : d.world
          simp_all
        rw [hww] at g1
        exact key w' g1 rfl g2.symm hst
      · cases hs
      · cases hs
    · have hs2 : (World.step d.world a).bind (fun w => .ok { d with world := w }) = .ok d' ∧ a.isStop = false := by
        cases a with
        | «open» dir roots newKey info => exact absurd ⟨_, _, _, _, rfl⟩ ha
        | stop k => cases hs
        | _ => exact ⟨hs, rfl⟩
      obtain ⟨w', g1, g2⟩ := Res.bind_ok.1 hs2.1
      simp only [Res.ok.injEq] at g2
      have hsome : d.world.sess.isSome = true := by
        cases hx : d.world.sess with
        | none => exact absurd (step_idle hx g1) ha
        | some s => rfl
      have hw := h.same hsome
      rw [hw] at g1
      refine key w' g1 hs2.2 g2.symm ?_
      rcases h.status with hb | hb | ⟨hb, _⟩
      · exact .inl hb
      · exact .inr hb
      · rw [hb] at hsome; cases hsome

theorem Sim.init : Sim Disk.init World.init where
  reach := ⟨[], .nil _⟩
  same := fun _ => rfl
  sess := rfl
  multi := rfl
  writable := by intro e he; cases he
  status := .inl rfl

theorem Sim.runs (hr : Runs d as d') (h : Sim d w) : ∃ ws w', World.Runs w ws w' ∧ Sim d' w' ∧
    (d.bytes = fileOf w.file → (∀ bs ∈ left d as, LineEnd bs) → d'.bytes = fileOf w'.file) := by
  induction hr generalizing w with
  | nil => exact ⟨[], w, .nil _, h, fun e _ => e⟩
  | @cons d d1 d' a as hs hrng hr ih =>
    obtain ⟨ws, w1, g1, g2, g3⟩ := h.step hs hrng
    obtain ⟨ws', w', g4, g5, g6⟩ := ih g2
    refine ⟨ws ++ ws', w', worldRuns_append g1 g4, g5, fun e hl => ?_⟩
    simp only [left, hs] at hl
    refine g6 (g3 e ?_) (fun bs hbs => hl bs (List.mem_append_right _ hbs))
    cases hst : a.isStop with
    | true => exact hl _ (by simp [hst])
    | false =>
      cases a with
      | stop n => cases hst
      | world a =>
        have : d1.bytes = d.bytes := by
          cases a with
          | «open» dir roots newKey info =>
            simp only [Disk.step] at hs
            split at hs
            · obtain ⟨_, _, k2⟩ := Res.bind_ok.1 hs; cases k2; rfl
            · cases hs
            · cases hs
          | stop k => cases hs
          | _ => obtain ⟨_, _, k2⟩ := Res.bind_ok.1 hs; cases k2; rfl
        rw [this, e]
        exact lineEnd_fileOf _

/-- What can happen over entries within a session can happen over bytes. -/
theorem Sim.lift {ws : List World.Act} (hr : World.Runs w ws w') (hns : ∀ a ∈ ws, a.isStop = false) (hw : ∀ e ∈ w'.log, Writable e)
    (h : Sim d w) (hb : d.bytes = fileOf w.file ∨ d.bytes ++ [10] = fileOf w.file) :
    ∃ d', Runs d (ws.map .world) d' ∧ Sim d' w' ∧ d'.bytes = d.bytes ∧ w'.file = w.file := by
  induction hr generalizing d with
  | nil => exact ⟨d, .nil _, h, rfl, rfl⟩
  | @cons w w1 w' a ws hs hr ih =>
    have ha := hns a (List.mem_cons_self ..)
    have hstep : Disk.step d (.world a) = .ok ⟨d.bytes, w1⟩ := by
      by_cases hso : ∃ dir roots newKey info, a = .open dir roots newKey info
      · obtain ⟨dir, roots, newKey, info, rfl⟩ := hso
        have hn : d.world.sess = none := by
          rw [← h.sess]
          cases hx : w.sess with
          | none => rfl
          | some s => simp [World.step, hx] at hs
        obtain ⟨lf, h1, h2⟩ := h.opens hb dir
        have hww : ({ d.world with file := lf.entries } : World.World) = w := by
          rw [h2]
          have e1 := h.sess; have e2 := h.multi
          rw [hn] at e1
          cases w; cases hd : d.world
          simp_all
        simp only [Disk.step, h1, hww, hs, Res.bind]
      · have hsome : d.world.sess.isSome = true := by
          cases hx : d.world.sess with
          | some s => rfl
          | none => exact absurd (step_idle (by rw [h.sess, hx]) hs) hso
        have hww := h.same hsome
        have : (World.step d.world a).bind (fun w => Res.ok (ε := Unit) { d with world := w }) = .ok ⟨d.bytes, w1⟩ := by
          rw [hww, hs]; rfl
        cases a with
        | «open» dir roots newKey info => exact absurd ⟨_, _, _, _, rfl⟩ hso
        | stop k => cases ha
        | _ => exact this
    have hre : World.Reachable w1 := by
      obtain ⟨bs, hbs⟩ := h.reach
      exact ⟨bs ++ [a], worldRuns_append hbs (.cons hs (.nil _))⟩
    have hns' : ∀ a ∈ ws, a.isStop = false := fun a ha => hns a (List.mem_cons_of_mem _ ha)
    have hw1 : ∀ e ∈ w1.log, Writable e := fun e he => hw e (((World.runs_grow hr hre.inv).1 hns').subset he)
    have hf := step_file ha hs
    obtain ⟨d', g1, g2, g3, g4⟩ := ih hns' hw (d := ⟨d.bytes, w1⟩)
      ⟨hre, fun _ => rfl, rfl, rfl, hw1, by
        rw [hf]
        rcases hb with hb | hb
        · exact .inl hb
        · exact .inr (.inl hb)⟩ (by rw [hf]; exact hb)
    exact ⟨d', .cons hstep (fun _ => hw1) g1, g2, g3, by rw [g4, hf]⟩

theorem Runs.append {d1 d2 d3 : State} {as bs : List Act} (h1 : Runs d1 as d2) (h2 : Runs d2 bs d3) : Runs d1 (as ++ bs) d3 := by
  induction h1 with
  | nil => exact h2
  | cons hs hr _ ih => exact .cons hs hr (ih h2)

end Verif.Disk
