import Verif.Proof.Piped
import Verif.Props.Mirror

/-!
# Standard output that is not a terminal
-/

namespace Verif.Props.Piped
open Verif Verif.Mirror

/-- **C180.** Whatever the operating system answers, if no piece has 8192 bytes or more: when `rawlog!` succeeds, exactly the text has gone to stdout and to the mirror
file, once and in order; when it fails, whole pieces only, and stdout is at most one piece ahead. -/
theorem exact (d : PDual) (ps : List Bytes) (hs : ∀ b ∈ ps, b.length < 8192) :
    ∃ k j, (d.rawlog ps).1.file.all = d.file.all ++ (ps.take k).flatten ∧ (d.rawlog ps).1.console.all = d.console.all ++ (ps.take j).flatten ∧
      (j = k ∨ j = k + 1) ∧
      ((d.rawlog ps).2.good = true ∧ k = ps.length ∧ j = ps.length ∨ ((d.rawlog ps).2 = .zero ∨ (d.rawlog ps).2 = .fail) ∧ k < ps.length) := by
  obtain ⟨k, j, h1, h2, h3, h4, _⟩ := PDual.rawlog_short ps d hs
  exact ⟨k, j, h1, h2, h3, h4⟩

/-- **C180.** It fails only if the operating system refuses. -/
theorem succeeds_if_taken (d : PDual) (ps : List Bytes) (hs : ∀ b ∈ ps, b.length < 8192) (hc : Willing d.console.inner.fd.plan)
    (hp : Willing d.file.fd.plan) : (d.rawlog ps).2.good = true := by
  obtain ⟨_, _, _, _, _, _, h⟩ := PDual.rawlog_short ps d hs
  exact h hc hp

/-- A console with nothing in its buffers and an empty file, with the given answers. -/
def demo (eager : Bool) (a b : List Ans) : PDual := ⟨eager, ⟨[], ⟨⟨[], a⟩, []⟩⟩, ⟨⟨[], b⟩, []⟩⟩

/-- Non-trivial case: 9000 bytes in two pieces, and a pipe that is interrupted and takes 5 bytes at first. -/
example : ∃ k j, ((demo true [.intr, .took 5] []).rawlog [List.replicate 5000 120, List.replicate 4000 10]).1.file.all =
      [] ++ (([List.replicate 5000 120, List.replicate 4000 10] : List Bytes).take k).flatten ∧
    ((demo true [.intr, .took 5] []).rawlog [List.replicate 5000 120, List.replicate 4000 10]).1.console.all =
      [] ++ (([List.replicate 5000 120, List.replicate 4000 10] : List Bytes).take j).flatten ∧ k = 2 ∧ j = 2 := by
  have hs : ∀ b ∈ ([List.replicate 5000 120, List.replicate 4000 10] : List Bytes), b.length < 8192 := by
    intro b hb
    simp only [List.mem_cons, List.not_mem_nil, or_false] at hb
    rcases hb with rfl | rfl <;> simp only [List.length_replicate] <;> omega
  have hg := succeeds_if_taken (demo true [.intr, .took 5] []) _ hs
    (fun a ha => by simp only [demo, List.mem_cons, List.not_mem_nil, or_false] at ha; rcases ha with rfl | rfl; exacts [.inl rfl, .inr ⟨4, rfl⟩])
    (fun a ha => by cases ha)
  obtain ⟨k, j, h1, h2, h3, h4⟩ := exact (demo true [.intr, .took 5] []) _ hs
  refine ⟨k, j, h1, h2, ?_⟩
  rcases h4 with ⟨_, h4, h5⟩ | ⟨h4, _⟩
  · exact ⟨h4, h5⟩
  · rcases h4 with h4 | h4 <;> rw [h4] at hg <;> cases hg

/-- Non-trivial case of failing: the file fails when its buffer is full, stdout has the piece already. -/
example : (((⟨true, ⟨[], ⟨⟨[], []⟩, []⟩⟩, ⟨⟨[], [.fail]⟩, List.replicate 8192 120⟩⟩ : PDual).rawlog [[72, 10]]).2 = .fail) ∧
    ((⟨true, ⟨[], ⟨⟨[], []⟩, []⟩⟩, ⟨⟨[], [.fail]⟩, List.replicate 8192 120⟩⟩ : PDual).rawlog [[72, 10]]).1.console.all = [72, 10] := by
  decide +kernel

/-- **C180.** What is in the pipe is always a beginning of what was printed, it only grows by flushing, and after a successful flush it is everything; likewise the file.
Flushing succeeds unless the operating system refuses. -/
theorem flushed (d : PDual) :
    (∃ rest, d.console.all = d.console.seen ++ rest) ∧
    d.flush.1.console.all = d.console.all ∧ d.flush.1.file.all = d.file.all ∧ d.console.seen <+: d.flush.1.console.seen ∧
    (d.flush.2.good = true → d.flush.1.console.seen = d.console.all ∧ d.flush.1.file.fd.got = d.file.all) ∧
    (Willing d.console.inner.fd.plan → Willing d.file.fd.plan → d.flush.2.good = true) := by
  obtain ⟨h1, h2, h3, h4, h5⟩ := d.flush_spec
  exact ⟨⟨d.console.inner.pend ++ d.console.outer, by simp [Piped.all, Piped.seen, Buf.all]⟩, h1, h2, h3,
    fun h => ⟨by rw [(h4 h).1, h1], by rw [(h4 h).2, h2]⟩, h5⟩

/-- Non-trivial case: before the flush a short line is nowhere, after it in both. -/
example : let d := ((demo false [.took 1, .intr] []).rawlog [[104, 105, 10], [33]]).1
    d.console.seen = [] ∧ d.file.fd.got = [] ∧ d.flush.1.console.seen = [104, 105, 10, 33] ∧ d.flush.1.file.fd.got = [104, 105, 10, 33] := by
  decide +kernel

/-- **C180.** What comes through when the operating system takes everything, exactly: of a piece of 8192 bytes or more, those that are 1024 or more after the
last newline are cut off as on a terminal; shorter pieces are complete. -/
theorem console_exact (d : PDual) (hc : d.console.inner.fd.plan = []) (hp : d.file.fd.plan = []) (ps : List Bytes) :
    (d.rawlog ps).2.good = true ∧ (d.rawlog ps).1.file.all = d.file.all ++ ps.flatten ∧
    (d.rawlog ps).1.console.all = d.console.all ++ ps.flatMap (fun b => if b.length < 8192 then b else kept d.eager b) := by
  obtain ⟨h1, h2, h3⟩ := PDual.rawlog_full ps d hc hp
  exact ⟨h1, h3, h2⟩

/-- **C180 (violated).** The end of an output of 8192 bytes or more whose last line has more than 1024 is missing in a redirected stdout too, though not in the mirror
file; a shorter output with the same last line is complete there and cut off on a terminal only. -/
theorem console_loses_violated (eager : Bool) (pre t : Bytes) (ht : 10 ∉ t) (hl : 1024 < t.length) :
    ((demo eager [] []).rawlog [pre ++ 10 :: t]).2.good = true ∧
    ((demo eager [] []).rawlog [pre ++ 10 :: t]).1.file.all = pre ++ 10 :: t ∧
    ((demo eager [] []).rawlog [pre ++ 10 :: t]).1.console.all =
      (if (pre ++ 10 :: t).length < 8192 then pre ++ 10 :: t else pre ++ 10 :: (if eager then t.take 1024 else [])) ∧
    ((rawlog (Mirror.demo eager [] []) [pre ++ 10 :: t]).1.console.all = pre ++ 10 :: (if eager then t.take 1024 else [])) ∧
    pre ++ 10 :: (if eager then t.take 1024 else []) ≠ pre ++ 10 :: t := by
  obtain ⟨h1, h2, h3⟩ := console_exact (demo eager [] []) rfl rfl [pre ++ 10 :: t]
  obtain ⟨_, _, k3, k4⟩ := Mirror.console_loses_violated eager pre t ht hl
  have hk : kept eager (pre ++ 10 :: t) = pre ++ 10 :: (if eager then t.take 1024 else []) := by
    have := (Mirror.console_exact (Mirror.demo eager [] []) _ rfl rfl rfl [pre ++ 10 :: t]).2
    rw [k3] at this
    simpa [Mirror.demo, Buf.all] using this.symm
  refine ⟨h1, by rw [h2]; simp [demo, Buf.all], ?_, k3, k3 ▸ k4⟩
  rw [h3, ← hk]
  simp only [List.flatMap_cons, List.flatMap_nil, List.append_nil]
  rfl

/-- Non-trivial case: a newline and 9000 bytes. -/
example : (10 : UInt8) ∉ List.replicate 9000 (120 : UInt8) ∧ 1024 < (List.replicate 9000 (120 : UInt8)).length ∧
    ¬ (([] : Bytes) ++ 10 :: List.replicate 9000 (120 : UInt8)).length < 8192 := by
  refine ⟨?_, by simp only [List.length_replicate]; omega, by simp only [List.nil_append, List.length_cons, List.length_replicate]; omega⟩
  intro h
  exact absurd (List.eq_of_mem_replicate h) (by decide)

end Verif.Props.Piped
