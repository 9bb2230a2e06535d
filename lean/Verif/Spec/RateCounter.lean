import Verif.Model.RateCounter

/-!
# Vocabulary for the rate counter (specification side)
-/

namespace Verif.RateCounter

/-- The counter after events at the moments `ts`, in this order. -/
noncomputable def after (c : Counter) (ts : List ℝ) : Counter := ts.foldl update c

/-- The moments `ts` come one after the other (or at the same time), the first one not before `t`. -/
def InOrder (t : ℝ) : List ℝ → Prop
  | [] => True
  | x :: ts => t ≤ x ∧ InOrder x ts

/-- Every two neighbours in `t :: ts` are related by `R` of their distance. -/
def Gaps (R : ℝ → Prop) (t : ℝ) : List ℝ → Prop
  | [] => True
  | x :: ts => R (x - t) ∧ Gaps R x ts

/-- The last of the moments `t :: ts`. -/
def last (t : ℝ) : List ℝ → ℝ
  | [] => t
  | x :: ts => last x ts

end Verif.RateCounter
