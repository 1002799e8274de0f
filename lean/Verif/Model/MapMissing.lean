/-
seismostats/plots/seismicity.py:21-206 `plot_in_space` (see Model/PlotSeismicity.lean) with missing coordinates and magnitudes: `none` for NaN. Without country.
-/
import Verif.Model.PlotSeismicity

namespace SeismoStats
namespace PlotSeismicity
open SeismoStats
open Classical
noncomputable section

/-- `x < y` for floats: false with NaN. -/
def Less (x y : Option ℝ) : Prop := ∃ a b, x = some a ∧ y = some b ∧ a < b

/-- Python's `min` of a sequence: the first entry that no later one is less than. -/
def builtinMin (a : Option ℝ) (r : List (Option ℝ)) : Option ℝ := r.foldl (fun m x => if Less x m then x else m) a

/-- Python's `max`. -/
def builtinMax (a : Option ℝ) (r : List (Option ℝ)) : Option ℝ := r.foldl (fun m x => if Less m x then x else m) a

/-- plots/seismicity.py:128-136: the range of one coordinate with padding; a sum with NaN is NaN. -/
def rangeM : List (Option ℝ) → Py (Option ℝ × Option ℝ)
  | [] => .error .valueError
  | a :: r =>
    match builtinMin a r, builtinMax a r with
    | some lo, some hi => .ok (some (lo - pad lo hi), some (hi + pad lo hi))
    | _, _ => .ok (none, none)

/-- A map extent. -/
structure ExtentM where
  west : Option ℝ
  east : Option ℝ
  south : Option ℝ
  north : Option ℝ

/-- plots/seismicity.py:126-136: the box around the data points. -/
def dataExtentM (lons lats : List (Option ℝ)) : Py ExtentM :=
  match rangeM lons, rangeM lats with
  | .ok x, .ok y => .ok ⟨x.1, x.2, y.1, y.2⟩
  | _, _ => .error .valueError

/-- plots/seismicity.py:138-149: the extent given to `set_extent`. -/
def setExtentM (current : Option Extent) (x : ExtentM) : ExtentM :=
  match current with
  | none => x
  | some c => ⟨builtinMin (some c.west) [x.west], builtinMax (some c.east) [x.east], builtinMin (some c.south) [x.south], builtinMax (some c.north) [x.north]⟩

/-- plots/basics.py:405-406: `np.min` of a pandas Series skips NaN, that of an array does not. -/
def scaleRange (series : Bool) (mags : List (Option ℝ)) : Option ℝ × Option ℝ :=
  if series = false ∧ none ∈ mags then (none, none) else (amin? (mags.filterMap id), amax? (mags.filterMap id))

/-- plots/basics.py:408-410: the size of one dot. -/
def sizeM (range : Option ℝ × Option ℝ) (p a b : ℝ) (m : Option ℝ) : Fl ℝ :=
  match m, range.1, range.2 with
  | some m, some lo, some hi => PlotBasics.rescale lo hi p a b m
  | _, _, _ => Fl.mapFin (fun v => v * (b - a) + a) (PlotBasics.npPower p .nan)

/-- plots/basics.py:373-412 `dot_size`: `np.min` of an empty array is a ValueError, that of an empty Series NaN. -/
def dotSizeM (series : Bool) (mags : List (Option ℝ)) (smallest largest p : ℝ) : Py (List (Fl ℝ)) :=
  if series = false ∧ mags = [] then .error .valueError
  else .ok (mags.map (sizeM (scaleRange series mags) p smallest (PlotBasics.largestDot smallest largest)))

/-- A dot of the scatter plot; it is not drawn if something is NaN. -/
structure DotM where
  lon : Option ℝ
  lat : Option ℝ
  size : Fl ℝ

/-- plots/seismicity.py:169-187: `scatter` needs as many latitudes as longitudes, and as many sizes or a single one. -/
def scatterM (lons lats : List (Option ℝ)) (sizes : List (Fl ℝ)) : Py (List DotM) :=
  if lats.length ≠ lons.length ∨ (spread lons.length sizes).length ≠ lons.length then .error .valueError
  else .ok (List.zipWith (fun (p : Option ℝ × Option ℝ) s => ⟨p.1, p.2, s⟩) (lons.zip lats) (spread lons.length sizes))

/-- plots/seismicity.py:21-206 `plot_in_space` without country: the extent given to `set_extent` and the dots; `series` if the magnitudes are a pandas Series, as
`Catalog.plot_in_space` has them. -/
def plotInSpaceM (current : Option Extent) (series : Bool) (lons lats mags : List (Option ℝ)) (smallest largest p : ℝ) : Py (ExtentM × List DotM) :=
  match dataExtentM lons lats, dotSizeM series mags smallest largest p with
  | .ok x, .ok sizes => (scatterM lons lats sizes).map fun dots => (setExtentM current x, dots)
  | _, _ => .error .valueError

end
end PlotSeismicity
end SeismoStats
