/-
Specification vocabulary for probability laws (C95-C97): what it means that the random generator is random.
-/
import Verif.Model.Simulate
import Mathlib.Probability.Distributions.Exponential
import Mathlib.Probability.Independence.Basic

namespace SeismoStats.Spec
open MeasureTheory ProbabilityTheory

/-- A random generator on the probability space `(Ω, P)`: the uniform draws are independent and uniform on `[0, 1)`, and the exponential draws are independent and
standard exponential, `P(E ≤ x) = 1 - e^{-x}`. -/
structure RandomDraws {Ω : Type} [MeasurableSpace Ω] (P : Measure Ω) (g : Ω → Simulate.Rng) : Prop where
  uniform_measurable : ∀ i, Measurable fun ω => (g ω).uniform i
  uniform_indep : iIndepFun (fun i ω => (g ω).uniform i) P
  uniform_law : ∀ i, P.map (fun ω => (g ω).uniform i) = volume.restrict (Set.Ico 0 1)
  expo_measurable : ∀ i, Measurable fun ω => (g ω).expo i
  expo_indep : iIndepFun (fun i ω => (g ω).expo i) P
  expo_law : ∀ i, P.map (fun ω => (g ω).expo i) = expMeasure 1

/-- Distribution function of the exponential law with rate `β` above `mc`. -/
noncomputable def expCdf (β mc x : ℝ) : ℝ := if x < mc then 0 else 1 - Real.exp (-β * (x - mc))

/-- Distribution function of the exponential law with rate `β` above `mc`, truncated at `M`. -/
noncomputable def truncCdf (β mc M x : ℝ) : ℝ :=
  if x < mc then 0 else if M ≤ x then 1 else (1 - Real.exp (-β * (x - mc))) / (1 - Real.exp (-β * (M - mc)))

end SeismoStats.Spec
