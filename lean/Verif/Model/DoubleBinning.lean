/-
Model of seismostats/utils/binning.py and of the comparisons with the completeness magnitude in double precision (see Model/Double.lean): every operation of
the code is rounded. Model/Binning.lean is the model in exact arithmetic.
-/
import Verif.Model.Double
import Verif.Model.Binning

namespace SeismoStats
namespace Double
noncomputable section
open Classical

/-- utils/binning.py:4 `EPSILON = 1e-12`. -/
def eps : ℝ := rnd (1 / 10 ^ 12)

/-- utils/binning.py:7-25 `_normal_round_to_int`; `np.floor` is exact. -/
def roundToInt (x : ℝ) : ℤ := ⌊add (add x (1 / 2)) eps⌋

/-- utils/binning.py:28-49 `normal_round` (`10**n` is taken as exact, which it is for `n ≤ 22`; a bin size of at
least `EPSILON` has more decimals only if it has more than 10 digits). -/
def normalRound (x : ℝ) (n : ℕ) : ℝ := div (roundToInt (mul x (10 ^ n))) (10 ^ n)

/-- utils/binning.py:82-85 for one number; `places` is the number of decimal places of `str(delta_x)`. -/
def binTo (δ : ℝ) (places : ℕ) (x : ℝ) : ℝ := normalRound (mul (roundToInt (div x δ)) δ) places

/-- utils/binning.py:52-85 `bin_to_precision` for an array with NaN entries (`none`). -/
def binToPrecision (x : List (Option ℝ)) (δ : ℝ) (places : ℕ) : Py (List (Option ℝ)) :=
  if δ < eps then .error .valueError else .ok (x.map fun o => o.map (binTo δ places))

/-- The threshold `mc - delta_m / 2` of bvalue/base.py:96, avalue/base.py:99, plots/basics.py:267, plots/statistical.py:184, 310,
analysis/b_significant.py:389, analysis/estimate_mc.py:267, 533, 548, and with `dmc` of bvalue/positive.py:123, avalue/positive.py:130,
bvalue/utils.py:132. -/
def threshold (mc δ : ℝ) : ℝ := sub mc (div δ 2)

/-- bvalue/base.py:96, avalue/base.py:99: positions of the entries at or above the threshold. -/
def selIdx (mags : List (Option ℝ)) (mc δ : ℝ) : List ℕ :=
  (List.range mags.length).filter fun i => match mags.getD i none with
    | some m => decide (threshold mc δ ≤ m)
    | none => false

/-- bvalue/positive.py:122-126 for `delta_m > 0`: the differences that are used, binned. -/
def positiveDiffs (δ : ℝ) (places : ℕ) (dmc : ℝ) : List ℝ → List ℝ
  | x :: y :: r => (if threshold dmc δ ≤ sub y x then [binTo δ places (sub y x)] else []) ++ positiveDiffs δ places dmc (y :: r)
  | _ => []

/-- bvalue/utils.py:129-134: inner loop of `find_next_larger` from `jj`. -/
def nextFrom (m : List ℝ) (thr x : ℝ) : ℕ → ℕ → ℕ
  | 0, _ => 0
  | fuel + 1, jj => match m[jj]? with
    | none => 0
    | some y => if thr ≤ sub y x then jj else nextFrom m thr x fuel (jj + 1)

/-- bvalue/utils.py:107-135 `find_next_larger` (`dmc` given). -/
def findNextLarger (m : List ℝ) (δ dmc : ℝ) : List ℕ :=
  (List.range m.length).map fun ii => if ii + 1 < m.length then nextFrom m (threshold dmc δ) (m.getD ii 0) m.length (ii + 1) else 0

end
end Double
end SeismoStats
