/-
Specification vocabulary for binning (C05-C10); no code of the model is used.
-/
import Mathlib.Algebra.Order.Field.Basic
import Mathlib.Algebra.Order.Ring.Abs
import Mathlib.Algebra.BigOperators.Group.List.Basic
import Mathlib.Order.Bounds.Basic

namespace SeismoStats.Spec
variable {K : Type} [Field K] [LinearOrder K]

/-- `y` is the result of rounding `x` to a multiple of `δ`, with the slack `e`
(relative to `δ`) that moves the tie point: `y` is a multiple of `δ` and
`x` lies in `[y - (1/2+e)δ, y + (1/2-e)δ)`; `e = 0` is rounding half up. -/
def RoundsTo (e δ x y : K) : Prop :=
  (∃ k : ℤ, y = (k : K) * δ) ∧ y - (1 / 2 + e) * δ ≤ x ∧ x < y + (1 / 2 - e) * δ

/-- Total weight of the events whose (binned) magnitude satisfies `p`. -/
def weightOf (mags w : List K) (p : K → Prop) [DecidablePred p] : K :=
  ((List.zip mags w).map fun q => if p q.1 then q.2 else 0).sum

/-- What `get_fmd` promises: `centers` are consecutive multiples of `δ` from the
smallest to the largest binned magnitude, `counts` their weights. -/
structure IsFmd (δ : K) (mb w centers counts : List K) : Prop where
  nonempty : centers ≠ []
  length : counts.length = centers.length
  multiple : ∀ c ∈ centers, ∃ k : ℤ, c = (k : K) * δ
  step : ∀ i (h : i + 1 < centers.length), centers[i + 1] = centers[i] + δ
  first : ∀ h : 0 < centers.length, IsLeast {v | v ∈ mb} centers[0]
  last : ∀ h : centers.length - 1 < centers.length,
    IsGreatest {v | v ∈ mb} centers[centers.length - 1]
  count : ∀ i (h : i < centers.length) (h' : i < counts.length),
    counts[i] = weightOf mb w (· = centers[i])

end SeismoStats.Spec
