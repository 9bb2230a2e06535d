import Verif.Proof.LogIo
import Verif.Proof.Json4
import Verif.Props.Disk

/-!
# Failing writes to the log file
-/

namespace Verif.Props.LogIo
open Verif Verif.Json Verif.LogIo
open Verif.Mirror hiding Op writeAll

variable {cap : Nat} {l l' : Log} {ops : List (Op × Io)}

/-- **C143.** However the operating system splits or interrupts writes: as long as no operation on the log has failed, the file together with the buffer is the file found and the
lines of the entries written, in order; after a successful flush all of it is in the file. No operation hangs, and what is in the file stays. -/
theorem file_exact (hc : 0 < cap) (h : Runs cap l ops l') : l.killed <+: l'.killed ∧ (∀ x ∈ ops, x.2 ≠ .stuck) ∧
    (AllGood ops → l'.f.all = l.f.all ++ fileOf (entries ops)) ∧
    (AllGood ops → (∃ io, ops.getLast? = some (.flush, io)) → l'.killed = l.f.all ++ fileOf (entries ops)) := by
  refine ⟨(h.kept hc).grow, ?_, h.good hc, ?_⟩
  · induction h with
    | nil => intro x hx; cases hx
    | cons hw hs _ ih =>
      intro x hx
      rcases List.mem_cons.1 hx with rfl | hx
      · exact (step_spec hc hw hs).1
      · exact ih x hx
  · rintro hg ⟨io, hl⟩
    have e := h.good hc hg
    obtain ⟨pre, rfl⟩ := List.getLast?_eq_some_iff.1 hl
    obtain ⟨l1, _, h2⟩ := h.split
    cases h2 with
    | cons hw hs hr =>
      cases hr
      have hp := (step_spec hc hw hs).2.2.2.2.1 (hg _ (List.mem_append_right _ (List.mem_cons_self ..))) rfl
      rw [← e, Buf.all, hp, List.append_nil]
      rfl

/-- **C143.** As long as the operating system does not refuse - short writes and interruptions are no refusals - every operation succeeds, and a process that drops the log leaves all
of it on disk. -/
theorem succeeds_if_taken (hc : 0 < cap) (h : Runs cap l ops l') (hp : Willing l.f.fd.plan) : AllGood ops ∧ l'.dropped = l.f.all ++ fileOf (entries ops) := by
  have key : AllGood ops ∧ Willing l'.f.fd.plan := by
    induction h with
    | nil => exact ⟨(fun x hx => by cases hx), hp⟩
    | cons hw hs _ ih =>
      obtain ⟨h1, h2⟩ := step_willing hc hs hp
      obtain ⟨i1, i2⟩ := ih h2
      refine ⟨fun x hx => ?_, i2⟩
      rcases List.mem_cons.1 hx with rfl | hx
      · exact h1
      · exact i1 x hx
  refine ⟨key.1, ?_⟩
  rw [← h.good hc key.1]
  obtain ⟨i1, i2, _⟩ := l'.f.flush_spec
  have := flushGo_willing l'.f.fd.plan l'.f.fd.got l'.f.pend key.2
  have hpend := i2 (by rw [Buf.flush, this.1]; rfl)
  rw [← i1, Buf.all, hpend, List.append_nil]
  rfl

/-- **C143.** The memory does not notice failures: it is as if all entries were in the file. -/
theorem memory_first {lf : LogFile} {f f' : Buf} {op : Op} {io : Io} (h : step cap ⟨lf, f⟩ op = .ok (l, io)) :
    ∃ l' io', step cap ⟨lf, f'⟩ op = .ok (l', io') ∧ l'.lf = l.lf := by
  cases op with
  | flush =>
    simp only [step, Res.ok.injEq, Prod.mk.injEq] at h
    exact ⟨_, _, rfl, by rw [← h.1]⟩
  | write e ps =>
    simp only [step] at h ⊢
    cases hw : lf.write e with
    | ok lf' =>
      rw [hw] at h
      simp only [Res.ok.injEq, Prod.mk.injEq] at h
      exact ⟨_, _, rfl, by rw [← h.1]⟩
    | err x => rw [hw] at h; cases h
    | panic x => rw [hw] at h; cases h

/-- **C143.** A process that ends when an operation on the log has failed for the first time, or before that, leaves a beginning of what it meant to write, whether it is killed or
drops the log (which flushes): for every history over the bytes of the file (C110-C112) this is the end of a process as considered there, and what was flushed is
kept. -/
theorem ends_like_kill {as : List Disk.Act} {d : Disk.State} (hr : Disk.Runs Disk.init as d) {s : World.Sess} (hs : d.world.sess = some s)
    (hc : 0 < cap) {pre : List (Op × Io)} {l1 : Log} (h0 : l.f.all = d.bytes) (h1 : Runs cap l pre l1) (hg1 : AllGood pre)
    (he1 : entries pre = (d.world.log.take s.flushed).drop d.world.file.length) (hp : l1.f.pend = [])
    (h2 : Runs cap l1 ops l') (hg2 : AllGood ops.dropLast) (he2 : entries (pre ++ ops) <+: d.world.log.drop d.world.file.length) :
    ∀ file, file = l'.killed ∨ file = l'.dropped → ∃ n d', Disk.step d (.stop n) = .ok d' ∧
      Disk.Runs Disk.init (as ++ [.stop n]) d' ∧ d'.bytes = file := by
  intro file hfile
  have e1 : l1.f.all = Disk.durable d s := by rw [h1.good hc hg1, h0, he1]; rfl
  obtain ⟨t, t1, t2⟩ := h2.almost hc hg2
  have hle : Disk.durable d s <+: file := by
    have : Disk.durable d s <+: l'.killed := by
      rw [← e1, Buf.all, hp, List.append_nil]; exact (h2.kept hc).grow
    rcases hfile with rfl | rfl
    · exact this
    · exact this.trans (dropped_prefix l').1
  have hge : file <+: Disk.content d := by
    have : l'.f.all <+: Disk.content d := by
      rw [t2, e1]
      obtain ⟨u, hu⟩ := he2
      obtain ⟨v, hv⟩ := t1
      rw [entries_append, he1] at hu
      unfold Disk.durable Disk.content
      rw [← hu, LogIo.fileOf_append, LogIo.fileOf_append, ← hv]
      exact ⟨v ++ fileOf u, by simp⟩
    rcases hfile with rfl | rfl
    · exact (killed_prefix l').trans this
    · exact (dropped_prefix l').2.trans this
  have hstep : Disk.step d (.stop file.length) = .ok ⟨(Disk.content d).take file.length, { d.world with file := [], sess := none }⟩ := by
    simp only [Disk.step, hs]
    rw [if_pos ⟨hle.length_le, hge.length_le⟩]
  refine ⟨_, _, hstep, ?_, (List.prefix_iff_eq_take.1 hge).symm⟩
  have snoc : ∀ {x y z : Disk.State} {as : List Disk.Act} {a : Disk.Act}, Disk.Runs x as y → Disk.step y a = .ok z → Disk.inRange z → Disk.Runs x (as ++ [a]) z := by
    intro x y z as a h
    induction h with
    | nil => intro h1 h2; exact .cons h1 h2 (.nil _)
    | cons g1 g2 _ ih => intro h1 h2; exact .cons g1 g2 (ih h1 h2)
  exact snoc hr hstep (fun h => by cases h)

/-- A file with a line made of the beginning of one entry and another entry. -/
theorem torn_refused {es : List LogEntry} (hw : ∀ x ∈ es, Writable x) {e e' : LogEntry} {m : Nat} (h0 : 0 < m) (hm : m ≤ (utf8 (entryText e)).length)
    (rest : List UInt8) (dir : String) : ¬ ∃ lf, openBytes (fileOf es ++ (utf8 (entryText e)).take m ++ lineBytes e' ++ rest) dir = .ok lf := by
  rintro ⟨lf, h⟩
  have hv : ∀ b ∈ (utf8 (entryText e)).take m ++ utf8 (entryText e'), 32 ≤ b.toNat := by
    intro b hb
    rcases List.mem_append.1 hb with hb | hb
    · exact take_visible b hb
    · exact bytes_visible (entryText_visible e') b hb
  have hraw : rawLines ((utf8 (entryText e)).take m ++ lineBytes e' ++ rest) = ((utf8 (entryText e)).take m ++ lineBytes e') :: rawLines rest := by
    unfold rawLines
    have := linesGo_line hv [] rest
    simp only [lineBytes]
    simp only [List.append_assoc, List.nil_append, List.cons_append] at this ⊢
    exact this
  have hbad : ∀ cs, unutf8 ((utf8 (entryText e)).take m ++ lineBytes e') = some cs → fromStr (trimEnd cs) = none := by
    intro cs hcs
    rcases Nat.lt_or_ge m (utf8 (entryText e)).length with hlt | hge
    · exact spliced_not_entry h0 hlt hcs
    · have : m = (utf8 (entryText e)).length := Nat.le_antisymm hm hge
      rw [this, List.take_length] at hcs
      have hb := unutf8_some hcs
      have e1 : utf8 (entryText e) ++ lineBytes e' = utf8 ((entryText e ++ entryText e') ++ ['\n']) := by
        rw [utf8_append, utf8_append, List.append_assoc]; rfl
      rw [e1] at hb
      have := utf8_inj hb
      rw [← this, trimEnd_newline]
      · exact fromStr_glued e e'
      · intro x hx
        rcases List.mem_append.1 hx with hx | hx
        · exact entryText_visible e x hx
        · exact entryText_visible e' x hx
  have hob := openBytes_fileOf hw dir ((utf8 (entryText e)).take m ++ lineBytes e' ++ rest)
  rw [List.append_assoc, List.append_assoc] at h
  rw [List.append_assoc] at hob
  rw [hob] at h
  rw [List.append_assoc] at hraw
  cases hl : loadLoop ⟨.empty, none⟩ es with
  | ok st =>
    rw [hl] at h
    simp only [hraw, loadLines] at h
    cases hu : unutf8 ((utf8 (entryText e)).take m ++ lineBytes e') with
    | none => rw [hu] at h; cases h
    | some cs =>
      rw [hu] at h
      simp only [hbad cs hu] at h
      cases h
  | err x => rw [hl] at h; cases h
  | panic x => rw [hl] at h; cases h

/-- **C143 (violated).** If the process goes on after a failed write that left part of a line (or a line without its newline), and the next entry is written and anything else happens until a successful flush,
the log can never be opened again. -/
theorem goes_on_violated (hc : 0 < cap) {es : List LogEntry} (hw : ∀ x ∈ es, Writable x) {e e' : LogEntry} {ps ps' : List Bytes} {io io' io'' : Io} {l1 l2 : Log}
    (h0 : l.f.all = fileOf es) (h1 : step cap l (.write e ps) = .ok (l1, io)) (hps : ps.flatten = utf8 (entryText e)) (ht : l1.f.all ≠ l.f.all)
    (ht' : l1.f.all ≠ l.f.all ++ lineBytes e) (h2 : Runs cap l1 ((.write e' ps', io') :: ops ++ [(.flush, io'')]) l2) (hg : io'.good = true) (hg' : io''.good = true)
    (dir : String) : ¬ ∃ lf, openBytes l2.killed dir = .ok lf := by
  obtain ⟨_, _, _, _, _, t, t1, t2⟩ := step_spec hc (op := .write e ps) hps h1
  have hl1 : fileOf (Op.write e ps).entry.toList = lineBytes e := by simp [Op.entry, fileOf]
  rw [hl1] at t1
  have htake : t = (lineBytes e).take t.length := List.prefix_iff_eq_take.1 t1
  have hlen : t.length ≤ (utf8 (entryText e)).length := by
    refine Nat.le_of_not_lt (fun hlt => ht' ?_)
    have : t.length = (lineBytes e).length := by
      have := t1.length_le
      simp only [lineBytes, List.length_append, List.length_cons, List.length_nil] at this ⊢
      omega
    rw [t2, htake, this, List.take_length]
  have hpos : 0 < t.length := by
    refine Nat.pos_of_ne_zero (fun hz => ht ?_)
    rw [t2, List.length_eq_zero_iff.1 hz, List.append_nil]
  have ht3 : t = (utf8 (entryText e)).take t.length := by
    rw [lineBytes, List.take_append_of_le_length hlen] at htake
    exact htake
  have hends : ∃ rest, l2.killed = fileOf es ++ t ++ lineBytes e' ++ rest := by
    cases h2 with
    | @cons _ l3 _ _ _ _ hw3 hs3 hr3 =>
      have a3 := (step_spec hc hw3 hs3).2.2.2.1 hg
      have e3 : fileOf (Op.write e' ps').entry.toList = lineBytes e' := by simp [Op.entry, fileOf]
      rw [e3, t2, h0] at a3
      rw [← a3]
      obtain ⟨l4, h4, h5⟩ := hr3.split
      have grow : ∀ {a b : Log} {os : List (Op × Io)}, Runs cap a os b → a.f.all <+: b.f.all := by
        intro a b os h
        induction h with
        | nil => exact List.prefix_refl _
        | cons hw hs _ ih =>
          obtain ⟨_, _, _, _, _, u, _, u2⟩ := step_spec hc hw hs
          refine List.IsPrefix.trans ?_ ih
          rw [u2]; exact List.prefix_append _ _
      obtain ⟨u, hu⟩ := (grow h4).trans (grow h5)
      refine ⟨u, ?_⟩
      rw [hu]
      cases h5 with
      | cons hw5 hs5 hr5 =>
        cases hr5
        have hp := (step_spec hc hw5 hs5).2.2.2.2.1 hg' rfl
        rw [Buf.all, hp, List.append_nil]
        rfl
  obtain ⟨rest, hrest⟩ := hends
  rw [hrest, ht3]
  exact torn_refused hw hpos hlen rest dir

/-- Pieces that fit into the buffer go there. -/
theorem pieces_fit {bs : List Bytes} : ∀ {f : Buf}, f.pend.length + bs.flatten.length < cap → (bs' : List Bytes) →
    pieces cap f (bs ++ bs') = pieces cap ⟨f.fd, f.pend ++ bs.flatten⟩ bs' := by
  induction bs with
  | nil => intro f _ bs'; simp
  | cons b bs ih =>
    intro f h bs'
    rw [List.flatten_cons, List.length_append] at h
    have hw : writeAll cap (b.length + f.fd.plan.length) f b = (⟨f.fd, f.pend ++ b⟩, .ok 0) := by
      cases b with
      | nil => cases hn : ([] : Bytes).length + f.fd.plan.length <;> simp [writeAll]
      | cons x xs =>
        have e : (x :: xs).length + f.fd.plan.length = (xs.length + f.fd.plan.length) + 1 := by rw [List.length_cons]; omega
        rw [e, writeAll]
        have hb : f.write cap (x :: xs) = (⟨f.fd, f.pend ++ x :: xs⟩, .ok (xs.length + 1)) := by
          unfold Buf.write
          rw [if_pos (by omega)]
          simp
        rw [hb]
        simp only
        have : (x :: xs).drop (xs.length + 1) = [] := by simp
        rw [this]
        cases xs.length + f.fd.plan.length <;> rfl
    rw [List.cons_append, pieces, hw]
    simp only
    rw [ih (f := ⟨f.fd, f.pend ++ b⟩) (by simp only [List.length_append]; omega) bs', List.flatten_cons, List.append_assoc]

theorem writeAll_taken (hc : 0 < cap) {f : Buf} (hp : f.fd.plan = []) (b : Bytes) (k : Nat) (hk : b.length ≤ k) : ∃ f', writeAll cap k f b = (f', .ok 0) ∧
    f'.fd.plan = [] := by
  cases b with
  | nil => exact ⟨f, by cases k <;> simp [writeAll], hp⟩
  | cons x xs =>
    cases k with
    | zero => simp at hk
    | succ k =>
      obtain ⟨f', h1, h2, _⟩ := Buf.write_full (cap := cap) f (x :: xs) hp hc
      refine ⟨f', ?_, h2⟩
      rw [writeAll, h1]
      simp only [List.length_cons]
      have : (x :: xs).drop (xs.length + 1) = [] := by simp
      rw [this]
      cases k <;> rfl

theorem pieces_taken (hc : 0 < cap) : ∀ (bs : List Bytes) {f : Buf}, f.fd.plan = [] → ∃ f', pieces cap f bs = (f', .ok 0) ∧ f'.fd.plan = [] := by
  intro bs
  induction bs with
  | nil => intro f hp; exact ⟨f, rfl, hp⟩
  | cons b bs ih =>
    intro f hp
    obtain ⟨f1, h1, h2⟩ := writeAll_taken hc hp b (b.length + f.fd.plan.length) (by omega)
    obtain ⟨f2, h3, h4⟩ := ih h2
    exact ⟨f2, by rw [pieces, h1]; exact h3, h4⟩

/-- **C143 (violated).** One refused `write(2)` is enough: whenever an entry with a piece as long as the buffer (a command of 8192 bytes, say) is written with an empty buffer and the first `write(2)` fails
- everything later is taken - the next entry and a flush make a log that can never be opened again. -/
theorem one_refused_write_violated (hc : 0 < cap) {es : List LogEntry} (hw : ∀ x ∈ es, Writable x) {lf lf1 lf2 : LogFile} {e e' : LogEntry}
    {as cs ps' : List Bytes} {big : Bytes} (hps : (as ++ big :: cs).flatten = utf8 (entryText e)) (ha : as.flatten ≠ []) (ha' : as.flatten.length < cap)
    (hb : cap ≤ big.length) (hps' : ps'.flatten = utf8 (entryText e')) (hm : lf.write e = .ok lf1) (hm' : lf1.write e' = .ok lf2) :
    ∃ l1 l2, step cap ⟨lf, ⟨⟨fileOf es, [.fail]⟩, []⟩⟩ (.write e (as ++ big :: cs)) = .ok (l1, .fail) ∧ l1.lf = lf1 ∧
      Runs cap l1 [(.write e' ps', .ok 0), (.flush, .ok 0)] l2 ∧ l2.lf = lf2 ∧ ∀ dir, ¬ ∃ lf', openBytes l2.killed dir = .ok lf' := by
  have hp1 : pieces cap ⟨⟨fileOf es, [.fail]⟩, []⟩ ((as ++ big :: cs) ++ [[10]]) = (⟨⟨fileOf es, []⟩, as.flatten⟩, .fail) := by
    rw [List.append_assoc, pieces_fit (by simpa using ha')]
    cases hbig : big with
    | nil => rw [hbig] at hb; simp at hb; omega
    | cons x xs =>
      simp only [List.cons_append, pieces, List.nil_append, List.length_cons]
      have hwr : Buf.write cap ⟨⟨fileOf es, [.fail]⟩, as.flatten⟩ (x :: xs) = (⟨⟨fileOf es, []⟩, as.flatten⟩, .fail) := by
        have hpos := List.length_pos_iff.2 ha
        rw [hbig] at hb
        unfold Buf.write
        rw [if_neg (by omega), if_pos (by simp only; omega)]
        cases hfl : as.flatten with
        | nil => exact absurd hfl ha
        | cons y ys => simp [Buf.flush, flushGo]
      rw [Nat.add_right_comm, writeAll, hwr]
  obtain ⟨f2, hp2, hp2'⟩ := pieces_taken hc (ps' ++ [[10]]) (f := ⟨⟨fileOf es, []⟩, as.flatten⟩) rfl
  have hs1 : step cap ⟨lf, ⟨⟨fileOf es, [.fail]⟩, []⟩⟩ (.write e (as ++ big :: cs)) = .ok (⟨lf1, ⟨⟨fileOf es, []⟩, as.flatten⟩⟩, .fail) := by
    simp only [step, hm, hp1]
  have hr : Runs cap ⟨lf1, ⟨⟨fileOf es, []⟩, as.flatten⟩⟩ [(.write e' ps', .ok 0), (.flush, .ok 0)] ⟨lf2, f2.flush.1⟩ := by
    refine .cons (l1 := ⟨lf2, f2⟩) hps' ?_ (.cons (l1 := ⟨lf2, f2.flush.1⟩) trivial ?_ (.nil _))
    · simp only [step, hm', hp2]
    · simp only [step, (f2.flush_spec).2.2.2.2.2 hp2']
  refine ⟨_, _, hs1, rfl, hr, rfl, fun dir => ?_⟩
  refine goes_on_violated (ops := []) hc hw (by simp [Buf.all]) hs1 hps ?_ ?_ hr rfl rfl dir
  · simpa [Buf.all] using ha
  · simp only [Buf.all, List.append_nil]
    intro he
    have := List.append_cancel_left he
    have h1 := congrArg List.length this
    have h2 := congrArg List.length hps
    simp only [List.flatten_append, List.flatten_cons, List.length_append, lineBytes, List.length_cons, List.length_nil] at h1 h2
    omega

/-- A key of 9000 bytes. -/
def longKey : String := String.ofList (List.replicate 9000 'a')

/-- The pieces in which `serde_json` writes a Backref. -/
def backrefPieces (k : String) : List Bytes :=
  [utf8 "{".toList, utf8 "\"".toList, utf8 "Backref".toList, utf8 "\"".toList, utf8 ":".toList, utf8 "{".toList, utf8 "\"".toList, utf8 "key".toList,
    utf8 "\"".toList, utf8 ":".toList, utf8 "\"".toList] ++ utf8 (k.toList.flatMap escape) :: [utf8 "\"".toList, utf8 "}".toList, utf8 "}".toList]

theorem backrefPieces_whole (k : String) : (backrefPieces k).flatten = utf8 (entryText (.backref ⟨k⟩)) := by
  have : entryText (.backref ⟨k⟩) = "{\"Backref\":{\"key\":\"".toList ++ (k.toList.flatMap escape) ++ "\"}}".toList := by
    simp [entryText, toJson, print, printFields, commas, quoted, escape]
  rw [this, utf8_append, utf8_append]
  simp [backrefPieces, utf8]

/-- Non-trivial case: the session of one task `a`, and a Backref of a long key. -/
example : ∃ l1 l2, step fileCap ⟨Tracker.emptyLog, ⟨⟨[], [.fail]⟩, []⟩⟩ (.write (.backref ⟨longKey⟩) (backrefPieces longKey)) = .ok (l1, .fail) ∧
    Runs fileCap l1 [(.write (.backref ⟨"b"⟩) (backrefPieces "b"), .ok 0), (.flush, .ok 0)] l2 ∧ ∀ dir, ¬ ∃ lf', openBytes l2.killed dir = .ok lf' := by
  have hlen : fileCap ≤ (utf8 (longKey.toList.flatMap escape)).length := by
    have h1 : longKey.toList = List.replicate 9000 'a' := String.toList_ofList
    have h2 : ∀ n, (utf8 ((List.replicate n 'a').flatMap escape)).length = n := by
      intro n
      induction n with
      | zero => rfl
      | succ n ih =>
        rw [List.replicate_succ, List.flatMap_cons, utf8_append, List.length_append, ih]
        have : (utf8 (escape 'a')).length = 1 := by decide
        omega
    rw [h1, h2]
    decide
  obtain ⟨l1, l2, h1, _, h2, _, h3⟩ := one_refused_write_violated (cap := fileCap) (by decide) (es := []) (by simp) (lf := Tracker.emptyLog)
    (e := .backref ⟨longKey⟩) (e' := .backref ⟨"b"⟩) (backrefPieces_whole longKey) (by decide) (by decide) hlen (backrefPieces_whole "b") rfl rfl
  exact ⟨l1, l2, h1, h2, h3⟩

/-- Non-trivial case: a small buffer, interrupted and short writes; all three operations succeed, and the line is in the file. -/
example : ∃ l', Runs 16 ⟨Tracker.emptyLog, ⟨⟨[], [.took 3, .intr, .took 2]⟩, []⟩⟩
    [(.write (.backref ⟨"b"⟩) (backrefPieces "b"), .ok 0), (.write (.backref ⟨"c"⟩) (backrefPieces "c"), .ok 0), (.flush, .ok 0)] l' ∧
    l'.killed = fileOf [.backref ⟨"b"⟩, .backref ⟨"c"⟩] := by
  refine ⟨_, .cons (backrefPieces_whole "b") rfl (.cons (backrefPieces_whole "c") rfl (.cons trivial rfl (.nil _))), ?_⟩
  decide +kernel

/-- A header. -/
def demoHead : LogEntry := .header ⟨4, ⟨0, 0⟩, "u", "h", "k", [], "/w", 1, []⟩

/-- Non-trivial case of `ends_like_kill`: the header of a new log; the system takes 5 bytes and then refuses. -/
example : ∃ d s l' io, Disk.Runs Disk.init [.world (.open "/d" [] "k" World.info)] d ∧ d.world.sess = some s ∧
    Runs 8 ⟨Tracker.emptyLog, ⟨⟨[], [.took 5, .fail]⟩, []⟩⟩ [(.write demoHead [utf8 (entryText demoHead)], io)] l' ∧
    entries [(.write demoHead [utf8 (entryText demoHead)], io)] <+: d.world.log.drop d.world.file.length ∧
    (d.world.log.take s.flushed).drop d.world.file.length = [] ∧ l'.killed = utf8 "{\"Hea".toList := by
  refine ⟨_, _, _, _, .cons rfl (fun _ e he => ?_) (.nil _), rfl, .cons (by simp [Op.whole]) rfl (.nil _), ⟨[], ?_⟩, ?_, ?_⟩
  · revert e; decide +kernel
  · decide +kernel
  · decide +kernel
  · decide +kernel

end Verif.Props.LogIo
