/-
Specification vocabulary for random event times (C105, C106).
-/
import Verif.Spec.Law
import Mathlib.MeasureTheory.Function.L2Space

namespace SeismoStats.Spec
open MeasureTheory ProbabilityTheory

/-- Random magnitudes and times on the probability space `(Ω, P)`: besides the random generator `g` of the magnitudes there are waiting times `w 0, w 1, …` that are
positive, independent, all with the same law of mean `τ` and finite variance, and independent of the generator's exponential draws. -/
structure RandomTimes {Ω : Type} [MeasurableSpace Ω] (P : Measure Ω) (g : Ω → Simulate.Rng) (w : ℕ → Ω → ℝ) (τ : ℝ) : Prop where
  draws : RandomDraws P g
  wait_measurable : ∀ i, Measurable (w i)
  wait_indep : iIndepFun w P
  wait_law : ∀ i, P.map (w i) = P.map (w 0)
  wait_positive : ∀ᵐ ω ∂P, 0 < w 0 ω
  wait_variance : MemLp (w 0) 2 P
  wait_mean : ∫ ω, w 0 ω ∂P = τ
  independent : IndepFun (fun ω => (g ω).expo) (fun ω i => w i ω) P

/-- Time of event `i`: the sum of the waiting times up to it. -/
noncomputable def eventTime {Ω : Type} (w : ℕ → Ω → ℝ) (ω : Ω) (i : ℕ) : ℝ := ∑ k ∈ Finset.range (i + 1), w k ω

end SeismoStats.Spec
