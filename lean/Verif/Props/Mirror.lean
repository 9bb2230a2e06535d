import Verif.Proof.Mirror3
import Verif.Props.Print

/-!
# Console and mirror file
-/

namespace Verif.Props.Mirror
open Verif Verif.Mirror

/-- **C139.** However the operating system answers (short writes, interruptions, errors, on both outputs): when `rawlog!` succeeds exactly the text has gone to the
mirror file, once and in order; when it fails, a beginning of it. What is on disk already stays. -/
theorem file_exact (d : Dual) (f : Buf) (hf : d.file = some f) (ps : List Bytes) :
    ∃ f' t, (rawlog d ps).1.file = some f' ∧ f'.all = f.all ++ t ∧ t <+: ps.flatten ∧ ((rawlog d ps).2.good = true → t = ps.flatten) ∧
      f.fd.got <+: f'.fd.got := by
  have h := (rawlog_spec ps d).2.2
  rw [hf] at h
  obtain ⟨f', k, h1, h2, h3, h4, h5⟩ := h
  refine ⟨f', ps.flatten.take k, h1, h4, List.take_prefix _ _, ?_, h2.grow⟩
  intro hg
  rw [h5 hg, List.take_length]

/-- **C139.** `write_all` always comes to an end. -/
theorem never_stuck (d : Dual) (ps : List Bytes) : (rawlog d ps).2 ≠ .stuck := (rawlog_spec ps d).1

/-- **C139.** With a mirror file, printing fails only if the operating system refuses: short writes and interruptions are not passed on. -/
theorem succeeds_if_taken (d : Dual) (f : Buf) (hf : d.file = some f) (hc : Willing d.console.fd.plan) (hp : Willing f.fd.plan) (ps : List Bytes) :
    (rawlog d ps).2.good = true := rawlog_willing ps d ⟨hc, f, hf, hp⟩

/-- Non-trivial case: the console is interrupted and then takes one byte only. -/
example : (rawlog ⟨true, ⟨⟨[], [.intr, .took 1]⟩, []⟩, some ⟨⟨[], [.took 1]⟩, []⟩⟩ [[72, 105, 10], [72, 105, 10]]).2.good = true :=
  succeeds_if_taken _ _ rfl (fun a ha => by simp only [List.mem_cons, List.not_mem_nil, or_false] at ha; rcases ha with rfl | rfl; exacts [.inl rfl, .inr ⟨0, rfl⟩])
    (fun a ha => by simp only [List.mem_cons, List.not_mem_nil, or_false] at ha; subst ha; exact .inr ⟨0, rfl⟩) _

/-- **C139.** As long as no mirror file is set, printing anything fails (with `WriteZero`, if the console takes it). -/
theorem no_file_fails (d : Dual) (hf : d.file = none) (ps : List Bytes) (hp : ps.flatten ≠ []) : (rawlog d ps).2.good = false := by
  have h := (rawlog_spec ps d).2.2
  rw [hf] at h
  cases hg : (rawlog d ps).2.good with
  | false => rfl
  | true => exact absurd (h.2 hg) hp

/-- A console and a file, both empty, with the given answers. -/
def demo (eager : Bool) (a b : List Ans) : Dual := ⟨eager, ⟨⟨[], a⟩, []⟩, some ⟨⟨[], b⟩, []⟩⟩

/-- Non-trivial case: a terminal that takes one byte, then is interrupted, then takes the rest; the file is in the buffer until flushed. -/
example : let d := (rawlog (demo false [.took 1, .intr] []) [[104, 105, 10], [33]]).1
    (d.file.map (·.all) = some [104, 105, 10, 33]) ∧ d.file.map (·.fd.got) = some [] ∧ d.console.all = [104, 105, 10, 33] := by
  decide +kernel

/-- Non-trivial case of failing: the console fails at the second piece, when it has to write out the first line. -/
example : let r := rawlog (demo false [.took 2, .fail] []) [[104, 10], [105, 10]]
    r.2 = .fail ∧ r.1.file.map (·.all) = some [104, 10] := by decide +kernel

/-- **C140.** What a terminal shows when nothing goes wrong below, exactly: of every piece of text that has 1024 bytes or more after its last newline these are cut off. -/
theorem console_exact (d : Dual) (f : Buf) (hf : d.file = some f) (hc : d.console.fd.plan = []) (hp : f.fd.plan = []) (ps : List Bytes) :
    (rawlog d ps).2.good = true ∧ (rawlog d ps).1.console.all = d.console.all ++ ps.flatMap (kept d.eager) := by
  obtain ⟨h1, _, h2, _⟩ := rawlog_full ps d f hc hf hp
  exact ⟨h1, h2⟩

/-- **C140 (partial).** The terminal shows exactly the text, if nothing goes wrong below and no piece goes on for 1024 bytes or more after its last newline (pieces
without any newline may have any length). -/
theorem console_complete_partial (d : Dual) (f : Buf) (hf : d.file = some f) (hc : d.console.fd.plan = []) (hp : f.fd.plan = []) (ps : List Bytes)
    (hs : ∀ b ∈ ps, ∀ pre t : Bytes, b = pre ++ 10 :: t → 10 ∉ t → t.length < 1024) :
    (rawlog d ps).2.good = true ∧ (rawlog d ps).1.console.all = d.console.all ++ ps.flatten := by
  obtain ⟨h1, h2⟩ := console_exact d f hf hc hp ps
  refine ⟨h1, ?_⟩
  rw [h2]
  congr 1
  rw [← List.flatMap_id]
  apply List.flatMap_congr
  intro b hb
  unfold kept
  simp only
  by_cases hn : (10 : UInt8) ∈ b
  · suffices hlt : ((b.reverse.takeWhile (· != (10 : UInt8))).reverse).length < 1024 by rw [if_pos (.inr hlt)]; rfl
    have hap := splitLast_append b
    have hne := splitLast_ne b hn
    obtain ⟨pre, x, hx⟩ : ∃ pre x, (splitLast b).1 = pre ++ [x] := ⟨_, _, (List.dropLast_append_getLast hne).symm⟩
    have hxn : x = 10 := by
      have ht : b.reverse = (splitLast b).2.reverse ++ x :: pre.reverse := by
        have he : b = pre ++ [x] ++ (splitLast b).2 := by rw [← hx]; exact hap.symm
        conv => lhs; rw [he]
        simp
      have h3 : (splitLast b).2.reverse = b.reverse.takeWhile (· != nl) := by simp [splitLast]
      have h4 : (b.reverse.takeWhile (· != nl)) ++ b.reverse.dropWhile (· != nl) = b.reverse := List.takeWhile_append_dropWhile
      have h5 : b.reverse.dropWhile (· != nl) = x :: pre.reverse := by
        have : (b.reverse.takeWhile (· != nl)) ++ b.reverse.dropWhile (· != nl) = (b.reverse.takeWhile (· != nl)) ++ x :: pre.reverse := by
          rw [h4, ← h3]; exact ht
        exact List.append_cancel_left this
      have h6 := List.head?_dropWhile_not (fun x => x != nl) b.reverse
      rw [h5] at h6
      simpa [nl] using h6
    refine hs b hb pre (splitLast b).2 ?_ ?_
    · rw [← hxn]; conv => lhs; rw [← hap, hx]
      simp
    · intro hm
      simp only [splitLast, List.mem_reverse] at hm
      have := (List.all_eq_true.1 (List.all_takeWhile (p := fun x : UInt8 => x != nl))) _ hm
      simp [nl] at this
  · rw [if_pos (.inl hn)]; rfl

/-- Non-trivial case: a progress line in its pieces and an output of two lines without a final newline. -/
example : let ps : List Bytes := [[91], [49], [47], [50], [93, 32], [97], [10], [120, 10, 121, 10, 122]]
    (∀ b ∈ ps, (kept false b) = b) ∧ (rawlog (demo false [] []) ps).1.console.all = ps.flatten := by decide +kernel

/-- **C140 (violated).** A task whose output has a newline and then a long last line: the mirror file has it, the terminal does not show the end of it, and no error is
reported. This holds for all such texts and both versions of std. -/
theorem console_loses_violated (eager : Bool) (pre t : Bytes) (ht : 10 ∉ t) (hl : 1024 < t.length) :
    (rawlog (demo eager [] []) [pre ++ 10 :: t]).2.good = true ∧
    (∃ f, (rawlog (demo eager [] []) [pre ++ 10 :: t]).1.file = some f ∧ f.all = pre ++ 10 :: t) ∧
    (rawlog (demo eager [] []) [pre ++ 10 :: t]).1.console.all = pre ++ 10 :: (if eager then t.take 1024 else []) ∧
    (rawlog (demo eager [] []) [pre ++ 10 :: t]).1.console.all ≠ pre ++ 10 :: t := by
  obtain ⟨h1, h2⟩ := console_exact (demo eager [] []) _ rfl rfl rfl [pre ++ 10 :: t]
  obtain ⟨f', u, k1, k2, _, k4, _⟩ := file_exact (demo eager [] []) _ rfl [pre ++ 10 :: t]
  have hk : kept eager (pre ++ 10 :: t) = pre ++ 10 :: (if eager then t.take 1024 else []) := by
    have htw : ((pre ++ 10 :: t).reverse.takeWhile (· != (10 : UInt8))).reverse = t := by
      have : (pre ++ 10 :: t).reverse = t.reverse ++ 10 :: pre.reverse := by simp
      rw [this, List.takeWhile_append_of_pos]
      · simp
      · intro x hx
        have : x ≠ 10 := fun he => ht (he ▸ List.mem_reverse.1 hx)
        simpa using this
    unfold kept
    simp only [htw]
    rw [if_neg (by
      rintro (h | h)
      · exact h (by simp)
      · omega)]
    have he : (pre ++ 10 :: t).length - t.length = (pre ++ [10]).length := by simp; omega
    rw [he, show pre ++ 10 :: t = (pre ++ [10]) ++ t by simp, List.take_left]
    simp
  have hc : (rawlog (demo eager [] []) [pre ++ 10 :: t]).1.console.all = pre ++ 10 :: (if eager then t.take 1024 else []) := by
    rw [h2]
    have : (demo eager [] []).eager = eager := rfl
    simp only [List.flatMap_cons, List.flatMap_nil, List.append_nil, this, hk]
    rfl
  refine ⟨h1, ⟨f', k1, ?_⟩, hc, ?_⟩
  · rw [k2, k4 h1]; simp [demo, Buf.all]
  · rw [hc]
    intro he
    have := congrArg List.length he
    simp only [List.length_append, List.length_cons] at this
    cases eager
    · simp only [Bool.false_eq_true, if_false, List.length_nil] at this; omega
    · simp only [if_true, List.length_take] at this; omega

/-- Non-trivial case: the letter `a`, a newline, then 2000 bytes. -/
example : (10 : UInt8) ∉ List.replicate 2000 (120 : UInt8) ∧ 1024 < (List.replicate 2000 (120 : UInt8)).length := by
  constructor
  · intro h; exact absurd (List.eq_of_mem_replicate h) (by decide)
  · rw [List.length_replicate]; omega

/-- **C140 (violated).** When the mirror file takes only `n` bytes of a long output (8192 bytes or more), the rest is written again to both: the file is right, the terminal shows the
text from byte `n` on twice. -/
theorem console_repeats_violated (eager : Bool) (b : Bytes) (n : Nat) (hb : 8192 ≤ b.length) (hn : 0 < n) (hlt : n < b.length) :
    (rawlog (demo eager [] [.took n]) [b]).2.good = true ∧
    (∃ f, (rawlog (demo eager [] [.took n]) [b]).1.file = some f ∧ f.all = b) ∧
    (rawlog (demo eager [] [.took n]) [b]).1.console.all = kept eager b ++ kept eager (b.drop n) := by
  have main : (rawlog (demo eager [] [.took n]) [b]).2.good = true ∧
      (rawlog (demo eager [] [.took n]) [b]).1.console.all = kept eager b ++ kept eager (b.drop n) := by
    obtain ⟨c', m, h1, h2, h3⟩ := Buf.lineWrite_full eager ⟨⟨[], []⟩, []⟩ b rfl
    have hfw : (⟨⟨[], [.took n]⟩, []⟩ : Buf).write fileCap b = (⟨⟨b.take n, []⟩, []⟩, .ok n) := by
      simp only [Buf.write, List.length_nil, Nat.sub_zero]
      rw [if_neg (by simp only [fileCap]; omega)]
      have hp : (⟨⟨[], [.took n]⟩, []⟩ : Buf).put fileCap b = (⟨⟨b.take n, []⟩, []⟩, .ok n) := by
        unfold Buf.put
        rw [if_pos (by simp only [fileCap]; omega)]
        simp [Fd.write, Nat.min_eq_left (Nat.le_of_lt hlt)]
      split
      · simp only [Buf.flush, flushGo]; exact hp
      · exact hp
    obtain ⟨k, rfl⟩ : ∃ k, n = k + 1 := ⟨n - 1, by omega⟩
    have hw : (demo eager [] [.took (k + 1)]).write b = (⟨eager, c', some ⟨⟨b.take (k + 1), []⟩, []⟩⟩, .ok (k + 1)) := by
      simp only [Dual.write, demo, h1, hfw]
    obtain ⟨x, xs, rfl⟩ : ∃ x xs, b = x :: xs := by
      cases b with
      | nil => simp at hb
      | cons x xs => exact ⟨x, xs, rfl⟩
    obtain ⟨d', f', i1, i2, i3, i4, i5, i6⟩ := writeAll_full ((x :: xs).drop (k + 1)) ⟨eager, c', some ⟨⟨(x :: xs).take (k + 1), []⟩, []⟩⟩ _ (k + 1) h2 rfl rfl
    have hfu : (x :: xs).length + (demo eager [] [.took (k + 1)]).answers + 1 = ((x :: xs).drop (k + 1)).length + (k + 1) + 1 + 1 := by
      simp only [List.length_drop, demo, Dual.answers, List.length_nil, List.length_singleton]; omega
    have hr : rawlog (demo eager [] [.took (k + 1)]) [x :: xs] = (d', .ok 0) := by
      simp only [rawlog]
      rw [hfu]
      simp only [writeAll, hw, i1]
    rw [hr]
    refine ⟨rfl, ?_⟩
    simp only
    rw [i4]
    simp only
    rw [h3]
    simp [Buf.all]
  obtain ⟨f', u, k1, k2, _, k4, _⟩ := file_exact (demo eager [] [.took n]) _ rfl [b]
  exact ⟨main.1, ⟨f', k1, by rw [k2, k4 main.1]; simp [demo, Buf.all]⟩, main.2⟩

/-- Non-trivial case: 10000 bytes of which the file takes 5000. -/
example : 8192 ≤ (List.replicate 10000 (120 : UInt8)).length ∧ 0 < 5000 ∧ 5000 < (List.replicate 10000 (120 : UInt8)).length := by
  rw [List.length_replicate]; omega

/-- **C141.** A process that constructs graphs, prints and flushes, in any order, everything succeeding: every mirror file has what was there before and then exactly
what was printed while its path was the one set last, in order and once. -/
theorem files_exact (eager : Bool) (disk : String → Fd) (console : Fd) (os : List Op) (p : String)
    (hg : ∀ r ∈ ((Proc.fresh eager disk console).run os).2, r.good = true) :
    ((Proc.fresh eager disk console).run os).1.text p = (disk p).got ++ routed p none os :=
  (Proc.run_spec os (Proc.fresh eager disk console) rfl p).2.2.2 hg

/-- **C141.** What a reader sees on disk is a beginning of that; after a flush it is all of it. -/
theorem on_disk (eager : Bool) (disk : String → Fd) (console : Fd) (os : List Op) (p : String)
    (hg : ∀ r ∈ ((Proc.fresh eager disk console).run (os ++ [.flush])).2, r.good = true) :
    ((Proc.fresh eager disk console).run os).1.disk p <+: (disk p).got ++ routed p none os ∧
    ((Proc.fresh eager disk console).run (os ++ [.flush])).1.disk p = (disk p).got ++ routed p none os := by
  have hsnoc : ∀ (os : List Op) (s : Proc), s.run (os ++ [.flush]) = (((s.run os).1.step .flush).1, (s.run os).2 ++ [((s.run os).1.step .flush).2]) := by
    intro os
    induction os with
    | nil => intro s; rfl
    | cons o os ih => intro s; simp only [List.cons_append, Proc.run, ih]
  have hc := (Proc.run_spec os (Proc.fresh eager disk console) rfl p).1
  rw [hsnoc] at hg ⊢
  simp only [List.mem_append, List.mem_singleton] at hg
  have h1 := files_exact eager disk console os p (fun r hr => hg r (.inl hr))
  have h2 := Proc.step_spec hc .flush p
  refine ⟨by rw [← h1]; exact Proc.disk_sub _ _, ?_⟩
  simp only
  rw [h2.flush rfl (hg _ (.inr rfl)), h2.text (hg _ (.inr rfl)), h1]
  simp [routed]

/-- **C141.** Whatever fails: a mirror file on disk only ever grows, and what is in it was printed, in that order, while its path was set. -/
theorem append_only (eager : Bool) (disk : String → Fd) (console : Fd) (os os' : List Op) (p : String) :
    ((Proc.fresh eager disk console).run os).1.disk p <+: ((Proc.fresh eager disk console).run (os ++ os')).1.disk p ∧
    (((Proc.fresh eager disk console).run os).1.disk p).Sublist ((disk p).got ++ routed p none os) := by
  have happ : ∀ (os : List Op) (s : Proc), (s.run (os ++ os')).1 = ((s.run os).1.run os').1 := by
    intro os
    induction os with
    | nil => intro s; rfl
    | cons o os ih => intro s; simp only [List.cons_append, Proc.run, ih]
  obtain ⟨h1, _, h3, _⟩ := Proc.run_spec os (Proc.fresh eager disk console) rfl p
  refine ⟨?_, (Proc.disk_sub _ p).sublist.trans h3⟩
  rw [happ]
  exact (Proc.run_spec os' _ h1 p).2.1

/-- Empty disk. -/
def noDisk : String → Fd := fun _ => ⟨[], []⟩

/-- Two graphs in one process: the first, then the second, then the first prints `A`, the second `B`. -/
def twoGraphs : List Op := [.setPath none, .setPath (some "one"), .setPath (some "two"), .raw [[65]], .raw [[66]], .flush]

/-- Non-trivial case of `files_exact` and `on_disk`. -/
example : (∀ r ∈ ((Proc.fresh false noDisk ⟨[], []⟩).run twoGraphs).2, r.good = true) ∧
    ((Proc.fresh false noDisk ⟨[], []⟩).run twoGraphs).1.disk "two" = [65, 66] := by decide +kernel

/-- **C141 (violated).** With two graphs in one process the file beside the log of the older one stays empty: its output goes to the other file. -/
theorem own_output_violated : ∃ os : List Op, os = [.setPath (some "one"), .setPath (some "two"), .raw [[65]], .flush] ∧
    (∀ r ∈ ((Proc.fresh false noDisk ⟨[], []⟩).run os).2, r.good = true) ∧
    ((Proc.fresh false noDisk ⟨[], []⟩).run os).1.text "one" = [] ∧ ((Proc.fresh false noDisk ⟨[], []⟩).run os).1.disk "two" = [65] :=
  ⟨_, rfl, by decide +kernel⟩

/-- A process that dies between a print and the next flush leaves the mirror file without that text (non-trivial case of the first half of `on_disk`). -/
example : ((Proc.fresh false noDisk ⟨[], []⟩).run [.setPath (some "one"), .raw [[65]]]).1.disk "one" = [] := by decide +kernel

/-- Bytes of a text. -/
def bytes (t : String) : Bytes := t.toUTF8.toList

/-- **C141.** Together with C138: an execute whose graph is the one constructed last, whose printing succeeds and which flushes at its end leaves in its mirror file exactly
the lines of its finish reports, in order. Each printed line is one `rawlog!`; between them there may be flushes. -/
theorem execute_mirrored {c : Tracker.Cfg} {lf : LogFile} {now : Int} {s : Tracker.State} {as : List Tracker.Act}
    (hr : Tracker.Runs c (Tracker.init c lf now) as s) (off : Nat) (out : Nat → Print.Captured)
    (eager : Bool) (disk : String → Fd) (console : Fd) (before os : List Op) (p : String)
    (hos : os.filter (· != .flush) = (Print.printed c off out (Tracker.init c lf now) as).map (fun l => .raw ((Print.pieces l).map bytes)))
    (hg : ∀ r ∈ ((Proc.fresh eager disk console).run ((before ++ .setPath (some p) :: os) ++ [.flush])).2, r.good = true) :
    ∃ rs : List Print.Report, rs.map (fun r => (r.task, r.status)) = Tracker.closedTasks s ∧
      ((Proc.fresh eager disk console).run ((before ++ .setPath (some p) :: os) ++ [.flush])).1.disk p =
        (disk p).got ++ routed p none before ++
          (rs.zipIdx.flatMap (fun q => Print.shown c off q.2 q.1)).flatMap (fun l => ((Print.pieces l).map bytes).flatten) := by
  obtain ⟨rs, h1, h2, _⟩ := Print.lines_exact hr off out
  refine ⟨rs, h1, ?_⟩
  rw [(on_disk eager disk console _ p hg).2, ← h2, List.append_assoc]
  congr 1
  have hraw : ∀ (os : List Op) (ls : List Print.Line), os.filter (· != .flush) = ls.map (fun l => Op.raw ((Print.pieces l).map bytes)) →
      routed p (some p) os = ls.flatMap (fun l => ((Print.pieces l).map bytes).flatten) := by
    intro os
    induction os with
    | nil => intro ls h; cases ls <;> simp_all [routed]
    | cons o os ih =>
      intro ls h
      by_cases ho : o = .flush
      · subst ho
        rw [routed]
        exact ih ls (by simpa using h)
      · rw [List.filter_cons_of_pos (by simpa using ho)] at h
        cases ls with
        | nil => simp at h
        | cons l ls =>
          simp only [List.map_cons, List.cons.injEq] at h
          obtain ⟨rfl, h⟩ := h
          rw [routed, ih ls h, if_pos rfl, List.flatMap_cons]
  have happ : ∀ (b : List Op) (cur : Option String), routed p cur (b ++ .setPath (some p) :: os) = routed p cur b ++ routed p (some p) os := by
    intro b
    induction b with
    | nil => intro cur; simp [routed]
    | cons o b ih =>
      intro cur
      cases o with
      | setPath q => cases q <;> simp [routed, ih]
      | raw ps => simp [routed, ih]
      | flush => simp [routed, ih]
  rw [happ, hraw os _ hos]

/-- The lines of the diamond with a success and a failure, and the operations of the process. -/
def demoLines : List Print.Line := Print.printed Tracker.diamond 5 Print.outDemo (Tracker.init Tracker.diamond Tracker.emptyLog 0) Print.twoFail
def demoOps : List Op := [.flush] ++ demoLines.map (fun l => .raw ((Print.pieces l).map bytes))
def demoProc : Proc × List Io := (Proc.fresh false noDisk ⟨[], []⟩).run (([.setPath none] ++ .setPath (some "one") :: demoOps) ++ [.flush])

/-- Non-trivial case of `execute_mirrored`, and what is in the file at the end. -/
example : demoOps.filter (· != .flush) = demoLines.map (fun l => .raw ((Print.pieces l).map bytes)) ∧ (∀ x ∈ demoProc.2, x.good = true) ∧
    demoProc.1.disk "one" = bytes "[6/9] a\n\x1b[1;31mFIZZLED:\x1b[0m wrk/b.0: b\nhello\n" := by
  decide +kernel

end Verif.Props.Mirror
