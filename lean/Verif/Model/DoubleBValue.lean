/-
Model of the classic and the Utsu b-value estimator (seismostats/analysis/bvalue) in double precision: every operation is rounded. numpy's `sum`
and `log` are parameters. Bin size `delta_m > 0` in `calculate`.
-/
import Verif.Model.DoubleTest
import Verif.Model.BValue
import Mathlib.Analysis.SpecialFunctions.Log.Basic

namespace SeismoStats
namespace Double
noncomputable section
open Classical

/-- An order of adding up numbers: a binary tree of additions (numpy's pairwise summation is one, from left to right is one). -/
inductive SumTree where
  | leaf (x : ℝ)
  | node (l r : SumTree)

namespace SumTree

/-- The numbers that are added. -/
def leaves : SumTree → List ℝ
  | leaf x => [x]
  | node l r => l.leaves ++ r.leaves

/-- The sum in double precision. -/
def value : SumTree → ℝ
  | leaf x => x
  | node l r => add l.value r.value

/-- How many additions lie on top of each other. -/
def depth : SumTree → ℕ
  | leaf _ => 0
  | node l r => max l.depth r.depth + 1

end SumTree

/-- The numpy functions `np.sum` and `np.log` (the latter for positive arguments). -/
structure Np where
  sum : List ℝ → ℝ
  ln : ℝ → ℝ

/-- What is assumed of numpy: the sum adds the numbers in some order, at most `h n` additions on top of each other for `n` numbers; the logarithm has
relative error `η`. -/
structure Accurate (N : Np) (h : ℕ → ℕ) (η : ℝ) : Prop where
  sum : ∀ x : List ℝ, x ≠ [] → ∃ t : SumTree, t.leaves.Perm x ∧ t.depth ≤ h x.length ∧ N.sum x = t.value
  ln : ∀ x : ℝ, 0 < x → |N.ln x - Real.log x| ≤ η * |Real.log x|

/-- `np.average` of an array that is not empty: `a.mean()`, or `(a * weights).sum() / weights.sum()` with a ZeroDivisionError. -/
def average (N : Np) (x : List ℝ) (w : Option (List ℝ)) : Py ℝ :=
  match w with
  | none => .ok (div (N.sum x) x.length)
  | some w => if N.sum w = 0 then .error .zeroDivision else .ok (div (N.sum (List.zipWith mul x w)) (N.sum w))

/-- `np.log`: minus infinity at 0, NaN below. -/
def lnFl (N : Np) (p : ℝ) : Fl ℝ := if 0 < p then .fin (N.ln p) else if p = 0 then .ninf else .nan

/-- bvalue/classic.py:15-19: from the average of `magnitudes - mc`; `delta_m / 0` is infinite. -/
def betaOf (N : Np) (A δ : ℝ) : Fl ℝ :=
  if 0 < δ then
    if A = 0 then .pinf else (lnFl N (add 1 (div δ A))).mapFin fun v => mul (div 1 δ) v
  else if A = 0 then .pinf else .fin (div 1 A)

/-- bvalue/utils.py:9-19 `beta_to_b_value`. -/
def betaToB (N : Np) (β : Fl ℝ) : Fl ℝ := β.mapFin fun v => div v (N.ln 10)

/-- bvalue/classic.py:7-21 `_mle_estimator`. -/
def mle (N : Np) (mags : List ℝ) (mc δ : ℝ) (w : Option (List ℝ)) : Py (Fl ℝ) := do
  let A ← average N (mags.map fun m => sub m mc) w
  pure (betaToB N (betaOf N A δ))

/-- bvalue/utsu.py:40-43. -/
def utsu (N : Np) (mags : List ℝ) (mc δ : ℝ) (w : Option (List ℝ)) : Py (Fl ℝ) := do
  let A ← average N (mags.map fun m => add (sub m mc) (div δ 2)) w
  pure (betaToB N (if A = 0 then .pinf else .fin (div 1 A)))

/-- The `_estimate` methods of the two classes. -/
def estimate (N : Np) (c : BValue.Cls) (mags : List ℝ) (mc δ : ℝ) (w : Option (List ℝ)) : Py (Fl ℝ) :=
  match c with
  | .utsu => utsu N mags mc δ w
  | _ => mle N mags mc δ w

/-- bvalue/base.py:110-114: the binning check. -/
def checkBinning (mags : List (Option ℝ)) (δ : ℝ) (places : ℕ) : Py Unit :=
  if 0 < mags.length then
    match binningTest mags δ places tol0 none with
    | .error e => .error e
    | .ok ok => if ok then .ok () else .error .valueError
  else .ok ()

/-- bvalue/base.py:92-104, 75-83: the estimate from the selected magnitudes; NaN if there is none. -/
def estimateSel (N : Np) (c : BValue.Cls) (mags : List (Option ℝ)) (mc δ : ℝ) (w : Option (List ℝ)) (idx : List ℕ) : Py (Fl ℝ) :=
  if idx = [] then .ok .nan
  else estimate N c ((idx.map fun i => mags.getD i none).filterMap id) mc δ (w.map fun l => idx.map fun i => l.getD i 0)

/-- bvalue/base.py:28-83 `calculate` of the classic and the Utsu class on a new object (the warnings are not modelled here). -/
def calculate (N : Np) (c : BValue.Cls) (mags : List (Option ℝ)) (mc δ : ℝ) (places : ℕ) (w : Option (List ℝ)) : Py (Fl ℝ) := do
  checkBinning mags δ places
  BValue.checkWeights mags.length w
  estimateSel N c mags mc δ w (selIdx mags mc δ)

end
end Double
end SeismoStats
