/-
Specification vocabulary for the b-value estimators (C11-C27). Does not use the model.
-/
import Mathlib.Analysis.SpecialFunctions.Log.Basic
import Mathlib.Algebra.BigOperators.Group.List.Basic

namespace SeismoStats.Spec
noncomputable section

/-- The events `(magnitude, weight)` with a magnitude (not NaN) of at least `thr`, in order. -/
def selected (mags : List (Option ℝ)) (w : List ℝ) (thr : ℝ) : List (ℝ × ℝ) :=
  (List.zip mags w).filterMap fun p =>
    match p.1 with
    | some m => if thr ≤ m then some (m, p.2) else none
    | none => none

/-- `idx` lists, in increasing order, exactly the positions holding a magnitude (not
NaN) of at least `thr`. -/
structure Positions (mags : List (Option ℝ)) (thr : ℝ) (idx : List ℕ) : Prop where
  increasing : idx.Pairwise (· < ·)
  mem : ∀ i, i ∈ idx ↔ ∃ m, mags[i]? = some (some m) ∧ thr ≤ m

/-- Weighted mean magnitude. -/
def wmean (l : List (ℝ × ℝ)) : ℝ := (l.map fun p => p.2 * p.1).sum / (l.map Prod.snd).sum

/-- Total weight. -/
def total (l : List (ℝ × ℝ)) : ℝ := (l.map Prod.snd).sum

/-- Weighted (population) variance of the magnitudes. -/
def variance (l : List (ℝ × ℝ)) : ℝ := (l.map fun p => p.2 * (p.1 - wmean l) ^ 2).sum / total l

/-- Density of the exponential law `β e^{-β (m - mc)}`, the continuous Gutenberg-Richter law. -/
def expDensity (β mc m : ℝ) : ℝ := β * Real.exp (-β * (m - mc))

/-- Probability that a magnitude following the exponential law above `mc - δ/2` falls
into the bin `[m - δ/2, m + δ/2)`. -/
def binMass (β mc δ m : ℝ) : ℝ :=
  Real.exp (-β * ((m - δ / 2) - (mc - δ / 2))) - Real.exp (-β * ((m + δ / 2) - (mc - δ / 2)))

/-- Weighted log-likelihood of `β` for a given law. -/
def logLik (law : ℝ → ℝ → ℝ) (l : List (ℝ × ℝ)) (β : ℝ) : ℝ :=
  (l.map fun p => p.2 * Real.log (law β p.1)).sum

end
end SeismoStats.Spec
