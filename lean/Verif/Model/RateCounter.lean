import Mathlib.Analysis.SpecialFunctions.Exp

/-!
# The rate counter (time/ratecounter.rs)

Behind `rate` in the answer to a status request (server.rs:230, sync.rs:585-587, 637). Simplification: real numbers instead of `f64`, a moment is
a real number of seconds. The mutex makes each operation atomic.
-/

namespace Verif.RateCounter

/-- `RateCounter` with its `Inner` (ratecounter.rs:3-11). -/
structure Counter where
  t0 : ℝ
  tLast : ℝ
  lambda : ℝ
  k : ℝ

/-- `new` (ratecounter.rs:22-31); `Instant::now()` is called twice. -/
noncomputable def new (tau now now' : ℝ) : Counter := ⟨now, now', 0, 1 / tau⟩

/-- `(a - b).as_secs_f64()` on `Instant`: never negative. -/
noncomputable def since (a b : ℝ) : ℝ := max (a - b) 0

/-- `update` (ratecounter.rs:32-37). -/
noncomputable def update (c : Counter) (now : ℝ) : Counter :=
  { c with
    lambda := c.k + Real.exp (-c.k * since now c.tLast) * c.lambda
    tLast := now }

/-- `get_rate` (ratecounter.rs:38-49). -/
noncomputable def getRate (c : Counter) (now : ℝ) : ℝ :=
  let numerator := Real.exp (-c.k * since now c.tLast) * c.lambda
  let denominator := 1 - Real.exp (-c.k * since now c.t0)
  if denominator > 0 then numerator / denominator else 0

end Verif.RateCounter
