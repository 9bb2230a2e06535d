import Verif.Model.Mirror

/-!
# Vocabulary for console and mirror file (specification side)
-/

namespace Verif.Mirror
open Verif

/-- What has gone through a writer: written and still buffered. -/
def Buf.all (f : Buf) : Bytes := f.fd.got ++ f.pend

/-- What of a piece of text reaches a line buffered console: all of it, unless 1024 bytes or more follow its last newline; of these the first
1024 or nothing is kept, depending on the version of std. -/
def kept (eager : Bool) (b : Bytes) : Bytes :=
  let tail := (b.reverse.takeWhile (· != 10)).reverse
  if 10 ∉ b ∨ tail.length < 1024 then b
  else b.take (b.length - tail.length) ++ (if eager then tail.take 1024 else [])

/-- The operation succeeded. -/
def Io.good : Io → Bool
  | .ok _ => true
  | _ => false

/-- The mirror file `p` as it is on disk. -/
def Proc.disk (s : Proc) (p : String) : Bytes :=
  match s.cur, s.dual.file with
  | some q, some f => if q = p then f.fd.got else (s.closed p).got
  | _, _ => (s.closed p).got

/-- The mirror file `p` together with what is still to be written to it. -/
def Proc.text (s : Proc) (p : String) : Bytes :=
  match s.cur, s.dual.file with
  | some q, some f => if q = p then f.all else (s.closed p).got
  | _, _ => (s.closed p).got

/-- What belongs into the file `p` when `cur` is the path set last: everything printed while `p` is the path set last. -/
def routed (p : String) : Option String → List Op → Bytes
  | _, [] => []
  | _, .setPath (some q) :: os => routed p (some q) os
  | cur, .setPath none :: os => routed p cur os
  | cur, .raw ps :: os => (if cur = some p then ps.flatten else []) ++ routed p cur os
  | cur, .flush :: os => routed p cur os

/-- The state right after `import`: no mirror file. -/
def Proc.fresh (eager : Bool) (disk : String → Fd) (console : Fd) : Proc := ⟨disk, none, ⟨eager, ⟨console, []⟩, none⟩⟩

/-- The operating system never refuses: it takes at least one byte or was interrupted. -/
def Willing (plan : List Ans) : Prop := ∀ a ∈ plan, a = .intr ∨ ∃ n, a = .took (n + 1)

end Verif.Mirror
