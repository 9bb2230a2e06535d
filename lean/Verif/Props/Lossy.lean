import Verif.Proof.Lossy
import Verif.Props.Codec
import Verif.Props.Print
import Verif.Props.ChildIo

/-!
# What is seen of the output of a task
-/

namespace Verif.Props.Lossy
open Verif Verif.Json Verif.Lossy Verif.Print

/-- **C181.** What is shown of any bytes, exactly: the characters in them, and one U+FFFD for each piece that is none, the pieces as the Unicode standard says. -/
theorem shown_iff {bs : List UInt8} {cs : List Char} : lossy bs = cs ↔ Shown bs cs :=
  ⟨fun h => h ▸ shown_lossy bs.length bs (Nat.le_refl _), lossy_of_shown⟩

/-- Every text is shown as it is. -/
theorem lossy_utf8 (cs : List Char) : lossy (utf8 cs) = cs := by
  induction cs with
  | nil => rfl
  | cons c cs ih => rw [utf8_cons, lossy_char, ih]

/-- **C181.** What is shown are the very bytes of the task exactly if they are UTF-8. -/
theorem exact_iff {bs : List UInt8} : utf8 (lossy bs) = bs ↔ ∃ cs, bs = utf8 cs := by
  constructor
  · intro h
    exact ⟨_, h.symm⟩
  · rintro ⟨cs, rfl⟩
    rw [lossy_utf8]

/-- **C181.** If there is no U+FFFD in what is shown, these are the very bytes of the task. -/
theorem unmarked_exact {bs : List UInt8} (h : '�' ∉ lossy bs) : utf8 (lossy bs) = bs := by
  induction bs using along with
  | nil => rfl
  | char c t ih =>
    rw [lossy_char] at h ⊢
    rw [utf8_cons, ih (fun hm => h (List.mem_cons_of_mem _ hm))]
  | broken b t n hn ih =>
    rw [lossy_broken hn] at h
    exact absurd List.mem_cons_self h

theorem enc_mark : String.utf8EncodeChar '�' = [0xEF, 0xBF, 0xBD] := by decide

/-- **C181.** All ASCII characters of the output, newlines in particular, are shown, in order and no others, whatever stands between them. -/
theorem ascii_kept (bs : List UInt8) : (utf8 (lossy bs)).filter (fun b => decide (b.toNat < 128)) = bs.filter (fun b => decide (b.toNat < 128)) := by
  induction bs using along with
  | nil => rfl
  | char c t ih => rw [lossy_char, utf8_cons, List.filter_append, List.filter_append, ih]
  | broken b t n hn ih =>
    have hh := broken_high hn
    have e : b :: t = (b :: t.take n) ++ t.drop n := by simp
    rw [lossy_broken hn, utf8_cons, List.filter_append, ih, enc_mark, e, List.filter_append]
    have h0 : (b :: t.take n).filter (fun b => decide (b.toNat < 128)) = [] :=
      List.filter_eq_nil_iff.2 (fun x hx => by have := hh x hx; simp; omega)
    rw [h0]
    rfl

/-- **C181.** What is shown is at most three times as long. -/
theorem at_most_three (bs : List UInt8) : (utf8 (lossy bs)).length ≤ 3 * bs.length := by
  induction bs using along with
  | nil => exact Nat.le_refl _
  | char c t ih =>
    rw [lossy_char, utf8_cons]
    simp only [List.length_append]
    omega
  | broken b t n hn ih =>
    rw [lossy_broken hn, utf8_cons, enc_mark]
    simp only [List.length_append, List.length_cons, List.length_nil, List.length_drop] at ih ⊢
    omega

theorem shownBytes_eq (o : Captured) : shownBytes o = utf8 o.stdout.toList ++ utf8 o.stderr.toList := by
  have key : ∀ t : String, t.isEmpty = true → t.toList = [] := by
    intro t h
    rw [String.isEmpty_iff.1 h]
    rfl
  unfold shownBytes outLines
  split
  · rename_i h1
    rw [key _ h1]
    split
    · rename_i h2
      rw [key _ h2]
      rfl
    · simp [pieces, utf8]
  · split
    · rename_i h2
      rw [key _ h2]
      simp [pieces, utf8]
    · simp [pieces, utf8]

/-- **C181.** The output of a local task is printed as it is, stdout before stderr, with nothing between and nothing behind, if it is UTF-8. -/
theorem local_exact {ch : Child} (h1 : ∃ cs, ch.stdout = utf8 cs) (h2 : ∃ cs, ch.stderr = utf8 cs) :
    shownBytes (localReport ch) = ch.stdout ++ ch.stderr := by
  rw [shownBytes_eq]
  simp only [localReport, text, String.toList_ofList]
  rw [exact_iff.2 h1, exact_iff.2 h2]

/-- **C181.** From the processes to the print: when a local task is reported, what is printed is made of everything that its child and all descendants have written to the pipes, stdout before stderr; exactly
these bytes if they are UTF-8. -/
theorem from_processes {P : Type} {c : ChildIo.Cfg P} {as : List ChildIo.Act} {s : ChildIo.State P} {st : Fd3.ProcStatus} {bytes : ChildIo.Out → List UInt8}
    (hr : ChildIo.Runs c (ChildIo.init c) as s) (h : s.stage = .ended st bytes) :
    shownBytes (localReport ⟨st, bytes .out, bytes .err, bytes .val⟩) =
      utf8 (lossy (ChildIo.written c (ChildIo.init c) .out as)) ++ utf8 (lossy (ChildIo.written c (ChildIo.init c) .err as)) ∧
    ((∃ cs, ChildIo.written c (ChildIo.init c) .out as = utf8 cs) → (∃ cs, ChildIo.written c (ChildIo.init c) .err as = utf8 cs) →
      shownBytes (localReport ⟨st, bytes .out, bytes .err, bytes .val⟩) = ChildIo.written c (ChildIo.init c) .out as ++ ChildIo.written c (ChildIo.init c) .err as) := by
  obtain ⟨-, hb, -⟩ := ChildIo.report_exact hr h
  refine ⟨?_, fun h1 h2 => ?_⟩
  · rw [shownBytes_eq]
    simp only [localReport, text, String.toList_ofList, hb]
  · rw [local_exact (by simpa only [hb] using h1) (by simpa only [hb] using h2)]
    simp only [hb]

/-- Non-trivial case: two processes that write to both, through pipes for two bytes. -/
example : ChildIo.after ChildIo.family ChildIo.familyRun (fun s => match s.stage with
    | .ended st b => decide (shownBytes (localReport ⟨st, b .out, b .err, b .val⟩) = [33])
    | _ => false) = true := by decide +kernel

open Verif.Postcard Verif.Props.Codec

theorem fits_text {bs : List UInt8} (h : bs.length < 2 ^ 62) : Fits (text bs) := by
  have : (text bs).utf8ByteSize = (utf8 (lossy bs)).length := by
    show (String.ofList (lossy bs)).toByteArray.size = _
    rw [String.toByteArray_ofList, ← toByteArray_utf8]
    simp
  have h2 := at_most_three bs
  unfold Fits
  omega

theorem toMap_nodup (kvs : List (List Char × List Char)) : ((Fd3.toMap kvs).map (·.1)).Nodup := by
  have : ∀ (l : List (List Char × List Char)) (m : List (String × String)), (m.map (·.1)).Nodup →
      ((l.foldl (fun m kv => Fd3.put m (String.ofList kv.1) (String.ofList kv.2)) m).map (·.1)).Nodup := by
    intro l
    induction l with
    | nil => exact fun m h => h
    | cons kv l ih =>
      intro m h
      refine ih _ ?_
      unfold Fd3.put
      rw [List.map_append, List.nodup_append]
      refine ⟨(List.Sublist.map _ List.filter_sublist).nodup h, by simp, ?_⟩
      intro a ha b hb hab
      obtain ⟨x, hx, rfl⟩ := List.mem_map.1 ha
      obtain ⟨_, hx⟩ := List.mem_filter.1 hx
      simp only [List.map_cons, List.map_nil, List.mem_singleton] at hb
      simp [hab, hb] at hx
  exact this kvs [] (by simp)

theorem values_nodup (b : ByteArray) : ∀ x ∈ Fd3.fd3Values b, (x.map (·.1)).Nodup := by
  intro x hx
  unfold Fd3.fd3Values at hx
  split at hx
  · obtain ⟨l, _, hl⟩ := List.mem_filterMap.1 hx
    obtain ⟨ws, _, rfl⟩ := Option.map_eq_some_iff.1 hl
    exact toMap_nodup _
  · cases hx

/-- The sizes are such as occur: nothing is as long as 2^62 bytes. -/
structure Sized (ch : Child) (note : Option String) (more : Option StartRequest) : Prop where
  code : (match ch.status with | .exited n => n | .signaled n => n) < 2 ^ 31
  stdout : ch.stdout.length < 2 ^ 62
  stderr : (note.getD "").utf8ByteSize + ch.stderr.length < 2 ^ 62
  values : (Fd3.fd3Values ch.fd3.toByteArray).length < 2 ^ 64 ∧ ∀ x ∈ Fd3.fd3Values ch.fd3.toByteArray, x.length < 2 ^ 64 ∧ ∀ kv ∈ x, Fits kv.1 ∧ Fits kv.2
  more : ∀ r, more = some r → Fits r.disconnectErrorMessage

/-- **C181.** A remote task: if the request is not too long, what is printed is what would be printed of the same output of a local task, with the runner's message about the time
limit, if there was one, before stderr. -/
theorem remote_as_local {z : Lz4} (hz : Lossless z) {ch : Child} {note : Option String} {more : Option StartRequest} (hs : Sized ch note more) (txn : UInt32)
    (hb : (clientEncode z endRequest (remoteReport txn note ch more)).bytes.length ≤ bodyLimit) (json : List UInt8 → Option EndRequest) :
    ∃ r, serverDecode z endRequest json (clientEncode z endRequest (remoteReport txn note ch more)) = .ok r ∧
      received r = ⟨(localReport ch).stdout, note.getD "" ++ (localReport ch).stderr⟩ ∧
      shownBytes (received r) = utf8 (lossy ch.stdout) ++ utf8 (note.getD "").toList ++ utf8 (lossy ch.stderr) := by
  have hok : EndRequestOk (remoteReport txn note ch more) := by
    refine ⟨?_, fits_text hs.stdout, ?_, hs.values.1, fun x hx => ⟨values_nodup _ x hx, hs.values.2 x hx⟩, hs.more⟩
    · have := hs.code
      show IsI32 (Fd3.code ch.status).asI32
      unfold IsI32
      cases hst : ch.status with
      | exited n => rw [hst] at this; simp only [Fd3.code, Tracker.ExitStatus.asI32] at this ⊢; omega
      | signaled n => rw [hst] at this; simp only [Fd3.code, Tracker.ExitStatus.asI32] at this ⊢; omega
    · show Fits (note.getD "" ++ text ch.stderr)
      have h1 := hs.stderr
      have h2 : (text ch.stderr).utf8ByteSize = (utf8 (lossy ch.stderr)).length := by
        show (String.ofList (lossy ch.stderr)).toByteArray.size = _
        rw [String.toByteArray_ofList, ← toByteArray_utf8]
        simp
      have h3 := at_most_three ch.stderr
      unfold Fits
      rw [String.utf8ByteSize_append]
      omega
  refine ⟨_, (requests_round_trip_partial hz).2.2.2 _ hok hb json, rfl, ?_⟩
  rw [shownBytes_eq]
  simp [received, remoteReport, text, utf8_append]

/-- **C181.** The last report of a runner ended by Slurm: the text Slurm has written is printed as it is, behind the message about the time limit, if any. -/
theorem slurm_text {z : Lz4} (hz : Lossless z) {note : Option String} {message : String} (hs : (note.getD "").utf8ByteSize + message.utf8ByteSize < 2 ^ 64) (txn : UInt32)
    (hb : (clientEncode z endRequest (lastReport txn note message)).bytes.length ≤ bodyLimit) (json : List UInt8 → Option EndRequest) :
    ∃ r, serverDecode z endRequest json (clientEncode z endRequest (lastReport txn note message)) = .ok r ∧ r.transactionId = txn ∧ r.status = -15 ∧ r.values = [] ∧
      shownBytes (received r) = utf8 (note.getD "").toList ++ utf8 message.toList := by
  have hok : EndRequestOk (lastReport txn note message) :=
    ⟨by show IsI32 (-15); decide, by show Fits ""; decide, by show _ < _; rw [show (lastReport txn note message).stderr = note.getD "" ++ message from rfl, String.utf8ByteSize_append]; exact hs,
      by show 0 < 2 ^ 64; decide, (by intro x hx; cases hx), (by intro r hr; cases hr)⟩
  refine ⟨_, (requests_round_trip_partial hz).2.2.2 _ hok hb json, rfl, rfl, rfl, ?_⟩
  rw [shownBytes_eq]
  simp [received, lastReport, utf8]

/-- **C181 (violated).** Claim: every line about a task stands on a line of its own. False: nothing is put behind the output of a task, so that the next line continues the last line
of an output that does not end in a newline (as the runners' own messages about programs that cannot be started do not). -/
theorem own_line_violated : ∃ as s, Tracker.Runs Tracker.diamond (Tracker.init Tracker.diamond Tracker.emptyLog 0) as s ∧
    ((printed Tracker.diamond 0 (fun v => if v = 0 then localReport ⟨.exited 0, "50%".toUTF8.toList, [], []⟩ else ⟨"", ""⟩)
      (Tracker.init Tracker.diamond Tracker.emptyLog 0) as).flatMap pieces).foldl (· ++ ·) "" = "[1/4] a\n50%[2/4] b\n" := by
  obtain ⟨s, h1, -⟩ := Tracker.runs_of_after (c := Tracker.diamond) (as := Tracker.runB) (p := fun _ => true) (by decide +kernel)
  exact ⟨_, s, h1, by decide +kernel⟩

/-! ## Concrete cases -/

/-- Non-trivial case of `shown_iff`: `a`, a character cut short, `b`, the halves of a surrogate pair (three pieces each), `ä`, an overlong sequence. -/
example : lossy [97, 0xE2, 0x82, 98, 0xED, 0xA0, 0x80, 0xC3, 0xA4, 0xC0, 0x80] =
    ['a', '�', 'b', '�', '�', '�', 'ä', '�', '�'] := by decide +kernel

/-- Non-trivial case of `at_most_three`: it can be three times as long. -/
example : (utf8 (lossy [0xFF, 0xFE])).length = 6 := by decide +kernel

/-- Non-trivial case of `ascii_kept` and of the hypothesis of `unmarked_exact`. -/
example : (utf8 (lossy [0xF0, 10, 0x9F, 65])).filter (fun b => decide (b.toNat < 128)) = [10, 65] ∧ '�' ∉ lossy [0xC3, 0xA4, 10] := by decide +kernel

/-- Non-trivial case of `remote_as_local`: a task that was told to end at the time limit; nothing is compressed. -/
example : let z : Lz4 := ⟨id, some⟩
    let ch : Child := ⟨.signaled 15, "50%\n".toUTF8.toList, [0xC3], "k=v\n".toUTF8.toList⟩
    Sized ch (some "TIME LIMIT\n") none ∧ (clientEncode z endRequest (remoteReport 7 (some "TIME LIMIT\n") ch none)).bytes.length ≤ bodyLimit ∧
      received (remoteReport 7 (some "TIME LIMIT\n") ch none) = ⟨"50%\n", "TIME LIMIT\n�"⟩ :=
  ⟨⟨by decide, by decide +kernel, by decide +kernel, by decide +kernel, by simp⟩, by decide +kernel, by decide +kernel⟩

/-- Non-trivial case of `slurm_text`. -/
example : let z : Lz4 := ⟨id, some⟩
    (clientEncode z endRequest (lastReport 7 none "CANCELLED\n")).bytes.length ≤ bodyLimit ∧ received (lastReport 7 none "CANCELLED\n") = ⟨"", "CANCELLED\n"⟩ := by
  decide +kernel

end Verif.Props.Lossy
