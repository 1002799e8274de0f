/-
What C116 says about a-values computed in double precision: the size of the error. Independent of how the values are computed.
-/
import Verif.Model.AValue

namespace SeismoStats.Spec

/-- Half the distance of doubles next to 1, rounded up: the relative error of one operation (`2 ^ -53 = 1.11e-16`). -/
noncomputable def u : ℝ := 12 / 10 ^ 17

/-- Two results of Python functions agree: two finite numbers whose difference is at most `E` of the second one, or the same special value (NaN, an infinity) or
exception. -/
def PyClose (E : ℝ → ℝ) (x y : Py (Fl ℝ)) : Prop :=
  (∃ a b, x = .ok (.fin a) ∧ y = .ok (.fin b) ∧ |a - b| ≤ E b) ∨ (x = y ∧ ∀ b, y ≠ .ok (.fin b))

/-- The size of the correction for the reference magnitude: `|b| (|m_ref| + |mc|)`. -/
noncomputable def refSize (x : AValue.Args) : ℝ :=
  match x.mref with
  | none => 0
  | some r => |x.b.getD 0| * (|r| + |x.mc|)

/-- The size of the correction for the reference time or volume: `|log10(scaling_factor)|`. -/
noncomputable def volSize (x : AValue.Args) : ℝ :=
  match x.scaling with
  | none => 0
  | some f => |Real.log f / Real.log 10|

/-- Relative error of the estimated number of events: none for counting; one rounding for each waiting time that is added, and a few more; with the more-positive
class also the error of the powers of ten (`η`, and the rounding of an exponent of size up to `|b| S`). -/
noncomputable def rateErr (c : AValue.Cls) (n : ℕ) (η b S : ℝ) : ℝ :=
  match c with
  | .classic => 0
  | .positive => (n + 4) * u
  | .morePositive => 2 * η + (n + 5 + 21 * (|b| * S)) * u

/-- The error of an a-value: `θ` is the relative error of the number of events, `η` the one of the logarithm, `size` the size of the corrections. -/
noncomputable def aErr (θ η size a : ℝ) : ℝ := 4 * θ + (4 * η + 8 * u) * (|a| + size)

end SeismoStats.Spec
