/-
`get_fmd` and `get_cum_fmd` (seismostats/utils/binning.py:184-321, see Model/Binning.lean) with missing magnitudes (`none` for NaN).
-/
import Verif.Model.Binning

namespace SeismoStats.FmdMissing
open SeismoStats
variable {K : Type} [Field K] [LinearOrder K] [IsStrictOrderedRing K] [FloorRing K]

/-- utils/binning.py:52-85 `bin_to_precision`: NaN stays NaN. -/
def binArrM (x : List (Option K)) (δ : K) : Py (List (Option K)) :=
  if δ < eps K then .error .valueError else .ok (x.map (Option.map (binTo δ)))

/-- utils/binning.py:234 `np.min`, `np.max`: NaN if there is one, ValueError for an empty array. -/
def extremeM (f : List K → Option K) (x : List (Option K)) : Py (Option K) :=
  if x = [] then .error .valueError else if none ∈ x then .ok none else .ok (f (x.filterMap id))

/-- utils/binning.py:232-237: the binned edges; `np.arange` with NaN is a ValueError. -/
def binsM (δ : K) : Option K → Option K → Py (List K)
  | some lo, some hi => binArr (arange lo (hi + 3 / 2 * δ) δ) δ
  | _, _ => .error .valueError

/-- utils/binning.py:238-251: the counts of the binned magnitudes, which are numbers at this point, and the position of the bins. -/
def countsM (δ : K) (weights : Option (List K)) (pos : BinPos) (mb : List (Option K)) (xb : List K) : Py (List K × List K × List (Option K)) :=
  if (weights.getD (mb.map fun _ => 1)).length ≠ mb.length then .error .valueError
  else match pos with
    | .other => .error .assertionError
    | .left => .ok (xb.dropLast.map fun b => b - δ / 2,
        histogram (mb.filterMap id) (weights.getD (mb.map fun _ => 1)) (xb.map fun e => e - δ / 2), mb)
    | .center => .ok (xb.dropLast, histogram (mb.filterMap id) (weights.getD (mb.map fun _ => 1)) (xb.map fun e => e - δ / 2), mb)

/-- utils/binning.py:184-251 `get_fmd`. -/
def getFmdM (mags : List (Option K)) (δ : K) (weights : Option (List K)) (pos : BinPos) : Py (List K × List K × List (Option K)) :=
  if δ ≤ 0 then .error .valueError
  else (binArrM mags δ).bind fun mb => (extremeM amin? mb).bind fun lo => (extremeM amax? mb).bind fun hi =>
    (binsM δ lo hi).bind (countsM δ weights pos mb)

/-- utils/binning.py:304 `np.unique`: the numbers in order, then one NaN for all of them. -/
def uniqueM (x : List (Option K)) : List (Option K) := (uniqueSorted (x.filterMap id)).map some ++ if none ∈ x then [none] else []

/-- utils/binning.py:303-311: the counts per distinct magnitude, `np.bincount` of the inverse. -/
def distinctM (mags : List (Option K)) (w : List K) : Py (List (Option K) × List K × List (Option K)) :=
  if w.length ≠ mags.length then .error .valueError
  else .ok (uniqueM mags, revCumsum ((uniqueM mags).map fun b => weightWhere (List.zip mags w) fun m => decide (m = b)), mags)

/-- utils/binning.py:254-321 `get_cum_fmd`. -/
def getCumFmdM (mags : List (Option K)) (δ : K) (weights : Option (List K)) (pos : BinPos) : Py (List (Option K) × List K × List (Option K)) :=
  if δ = 0 then distinctM mags (weights.getD (mags.map fun _ => 1))
  else (getFmdM mags δ weights pos).map fun r => (r.1.map some, revCumsum r.2.1, r.2.2)

end SeismoStats.FmdMissing
