/-
Model of `np.arange`, `get_fmd`, `get_cum_fmd` (seismostats/utils/binning.py), `estimate_mc_maxc` and of the lists of candidates of `estimate_mc_ks` and
`estimate_mc_b_stability` (seismostats/analysis/estimate_mc.py) in double precision. Without weights; magnitudes without NaN.
-/
import Verif.Model.DoubleBinning
import Verif.Model.BValue

namespace SeismoStats
namespace Double
noncomputable section
open Classical

/-- Number of entries of numpy's `arange`: `ceil((stop - start) / step)`, at least 0. -/
def arangeLen (start stop step : ℝ) : ℕ := ⌈div (sub stop start) step⌉.toNat

/-- numpy's `arange` for floats: the first two entries are `start` and `start + step`; entry `i` is `start + i * d` with the difference `d` of these two. -/
def arange (start stop step : ℝ) : List ℝ :=
  (List.range (arangeLen start stop step)).map fun i : ℕ =>
    if i = 0 then start else if i = 1 then add start step else add start (mul i (sub (add start step) start))

/-- `np.histogram(x, edges)` without weights: half-open bins, the last one closed; ValueError for decreasing edges. -/
def histogram (x edges : List ℝ) : Py (List ℕ) :=
  if ∀ i, i + 1 < edges.length → edges.getD i 0 ≤ edges.getD (i + 1) 0 then
    .ok ((List.range (edges.length - 1)).map fun i =>
      x.countP fun v => decide (edges.getD i 0 ≤ v) &&
        (decide (v < edges.getD (i + 1) 0) || (decide (i + 2 = edges.length) && decide (v = edges.getD (i + 1) 0))))
  else .error .valueError

/-- utils/binning.py:184-251 `get_fmd` without weights: bins, counts, binned magnitudes. The minimum of no entries is a ValueError. -/
def getFmd (mags : List ℝ) (δ : ℝ) (places : ℕ) (pos : BinPos) : Py (List ℝ × List ℕ × List ℝ) :=
  if δ ≤ 0 then .error .valueError
  else if δ < eps then .error .valueError
  else
    let mb := mags.map (binTo δ places)
    match amin? mb, amax? mb with
    | some lo, some hi => do
      let xb := (arange lo (add hi (mul (3 / 2) δ)) δ).map (binTo δ places)
      let counts ← histogram mb (xb.map fun e => sub e (div δ 2))
      match pos with
      | .other => .error .assertionError
      | .left => pure (xb.dropLast.map fun b => sub b (div δ 2), counts, mb)
      | .center => pure (xb.dropLast, counts, mb)
    | _, _ => .error .valueError

/-- utils/binning.py:312-321 `get_cum_fmd` for `fmd_bin > 0` without weights (counts are integers: no rounding). -/
def getCumFmd (mags : List ℝ) (δ : ℝ) (places : ℕ) (pos : BinPos) : Py (List ℝ × List ℕ × List ℝ) := do
  let r ← getFmd mags δ places pos
  pure (r.1, (cumsumFrom 0 r.2.1.reverse).reverse, r.2.2)

/-- First position of the largest entry, `np.argmax`. -/
def argmaxNat (l : List ℕ) : ℕ := l.findIdx fun c => l.all fun d => decide (d ≤ c)

/-- analysis/estimate_mc.py:397-403 `estimate_mc_maxc`. -/
def mcMaxc (mags : List (Option ℝ)) (δ : ℝ) (places : ℕ) (corr : ℝ) : Py ℝ := do
  let r ← getFmd (mags.filterMap id) δ places .center
  pure (add (r.1.getD (argmaxNat r.2.1) 0) corr)

/-- analysis/estimate_mc.py:231-234 and 498-500: the default candidates, `lo`, `hi` being the smallest and largest magnitude. -/
def defaultMcs (lo hi δ : ℝ) (places : ℕ) : List ℝ := (arange lo hi δ).map (binTo δ places)

/-- analysis/estimate_mc.py:496: `steps`, the number by which the sum of b-values is divided (line 551). -/
def stabilitySteps (range δ : ℝ) : ℕ := arangeLen 0 range δ

/-- analysis/estimate_mc.py:544-545: the completeness magnitudes whose b-values are summed for the candidate `mc`; `hi` is the largest magnitude. -/
def stabilityMcs (mc range δ hi : ℝ) : List ℝ := (arange mc (add mc range) δ).filter fun m => decide (m ≤ hi)

/-- analysis/estimate_mc.py:546-551: `b_avg`, `bOf` being the b-value found with each completeness magnitude (the sum and its quotient in exact
arithmetic). -/
def stabilityAvg (bOf : ℝ → ℝ) (mc range δ hi : ℝ) : ℝ := ((stabilityMcs mc range δ hi).map bOf).sum / stabilitySteps range δ

end
end Double
end SeismoStats
