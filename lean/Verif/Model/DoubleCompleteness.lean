/-
Model of the selection and binning of complete events in double precision: seismostats/analysis/bvalue/kijko_smit.py:101-112 and
seismostats/analysis/bvalue/weichert.py:99-149, with `pd.cut` and its labels as in pandas (core/reshape/tile.py). Magnitudes without NaN; the years are numbers
that doubles represent exactly (they are only compared and carried along).
-/
import Verif.Model.DoubleFmd
import Verif.Model.Completeness

namespace SeismoStats
namespace Double
noncomputable section
open Classical

/-- `np.around(x, d)` for `d ≥ 0` decimals: `rint(x * 10 ** d) / 10 ** d`. -/
def around (x : ℝ) (d : ℕ) : ℝ := div (rne (mul x (10 ^ d))) (10 ^ d)

/-- pandas core/reshape/tile.py `_round_frac(x, precision)`: the precision counts from the first nonzero digit of a number whose integer part is 0. -/
def roundFrac (p : ℕ) (x : ℝ) : ℝ :=
  if x = 0 then x else if |x| < 1 then around x (-Int.log 10 |x| - 1 + p).toNat else around x p

/-- pandas core/reshape/tile.py `_infer_precision(3, bins)`: the least precision from 3 to 19 for which the rounded edges differ, otherwise 3. -/
def inferPrecision (edges : List ℝ) : ℕ :=
  ((List.range' 3 17).find? fun p => decide ((edges.map (roundFrac p)).Nodup)).getD 3

/-- The left ends of the labels of the bins (pandas core/reshape/tile.py `_format_labels`). -/
def labels (edges : List ℝ) : List ℝ := edges.map (roundFrac (inferPrecision edges))

/-- weichert.py:128-139: `pd.cut(m, bins=edges, right=False)` and `.left`: `searchsorted(edges, m, side="right")` counts the edges up to the magnitude; 0 and
the number of edges give NaN, whose `.left` is an AttributeError. -/
def cutLabel (edges : List ℝ) (m : ℝ) : Py ℝ :=
  let i := edges.countP fun e => decide (e ≤ m)
  if i = 0 ∨ i = edges.length then .error .attributeError else .ok ((labels edges).getD (i - 1) 0)

/-- weichert.py:99-149: `complete_events`; the comparisons of magnitudes and of years are exact. -/
def completeEvents (mags years : List ℝ) (table : List (ℝ × ℝ)) (magMax δ : ℝ) : Py (List Completeness.Row) := do
  let edges := arange (table.getD 0 (0, 0)).1 (add magMax (rnd (1 / 100))) δ
  let keys ← (Completeness.complete mags years table).mapM fun p => do
    let e ← cutLabel edges p.1
    pure (e, p.2)
  pure (Completeness.groups keys)

end
end Double
end SeismoStats
