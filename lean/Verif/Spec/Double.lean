/-
Specification of double precision numbers (without bounds on the exponent), independent of the rounding function of the model.
-/
import Mathlib.Data.Real.Basic

namespace SeismoStats.Spec.Double

/-- A number with at most 53 significant binary digits. -/
def IsDouble (x : ℝ) : Prop := ∃ n g : ℤ, |n| ≤ 2 ^ 53 ∧ x = n * (2 : ℝ) ^ g

/-- `y` is a double nearest to `x`: what Python makes of the literal `x`. -/
def Nearest (x y : ℝ) : Prop := IsDouble y ∧ ∀ z, IsDouble z → |x - y| ≤ |x - z|

/-- `k` is the number of bins of size `w` nearest to `a`, of two the larger one (all in units of the last decimal place). -/
def HalfUp (a w k : ℤ) : Prop := (2 * k - 1) * w ≤ 2 * a ∧ 2 * a < (2 * k + 1) * w

end SeismoStats.Spec.Double
