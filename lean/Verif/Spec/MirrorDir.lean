import Verif.Spec.Construct

/-! # Spec: constructors that open their `log.txt` -/

namespace Verif.Construct
open Verif Verif.Json

/-- A constructor gets to its `log.txt` and opens it (whatever happens to it afterwards). -/
structure OpensMirror (s : Proc) (a : Args) (e : Env) : Prop where
  reads : ∃ n lf, Reads s a e n lf
  healthy : s.poisoned = false
  opens : e.mirrorOpens = true

end Verif.Construct
