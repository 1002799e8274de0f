/-
Model of `binning_test` (seismostats/utils/binning.py:88-181) in double precision, for a given bin size (`delta_x > 0`).
-/
import Verif.Model.DoubleBinning

namespace SeismoStats
namespace Double
noncomputable section
open Classical

/-- One entry of `np.allclose(a, b, atol=tol, rtol=1e-16)`: `abs(a - b) <= atol + rtol * abs(b)`. -/
def isClose (tol a b : ℝ) : Bool := decide (|sub a b| ≤ add tol (mul (rnd (1 / 10 ^ 16)) |b|))

/-- utils/binning.py:168-171 and 176-177: is the array equal to its binned version? -/
def equalsBinned (z : List ℝ) (δ : ℝ) (places : ℕ) (tol : ℝ) : Py Bool :=
  if δ < eps then .error .valueError else .ok (z.all fun v => isClose tol (binTo δ places v) v)

/-- utils/binning.py:165-181 for the array shifted to its minimum; `larger` is the next power of ten with its decimal places when `check_larger_binning` is
set (lines 175-176: `10**(floor(log10(delta_x)) + 1)`; numpy's `log10` and power are not modelled), else `none`. -/
def testShifted (z : List ℝ) (δ : ℝ) (places : ℕ) (tol : ℝ) (larger : Option (ℝ × ℕ)) : Py Bool :=
  if δ < tol then .ok true
  else do
    let t1 ← equalsBinned z δ places tol
    match t1, larger with
    | true, some (δ2, p2) => do
      let t2 ← equalsBinned z δ2 p2 tol
      pure !t2
    | _, _ => pure t1

/-- utils/binning.py:88-181 `binning_test` for `delta_x ≠ 0`; `none` entries are NaN. -/
def binningTest (x : List (Option ℝ)) (δ : ℝ) (places : ℕ) (tol : ℝ) (larger : Option (ℝ × ℕ)) : Py Bool :=
  match amin? (x.filterMap id) with
  | none => .error .valueError
  | some m => testShifted ((x.filterMap id).map fun v => sub v m) δ places tol larger

/-- utils/binning.py:91: the default tolerance. -/
def tol0 : ℝ := rnd (1 / 10 ^ 15)

end
end Double
end SeismoStats
