/-
Model of seismostats/plots/seismicity.py in exact arithmetic: extent of the map and dots, not the picture. Coordinates and magnitudes are
numbers (missing ones: Model/MapMissing.lean). Tiles, projections, grid lines, colours and the legend are not modelled.
-/
import Verif.Model.PlotBasics

namespace SeismoStats
namespace PlotSeismicity
open SeismoStats
open Classical
noncomputable section

/-- A map extent: longitudes and latitudes. -/
structure Extent where
  west : ℝ
  east : ℝ
  south : ℝ
  north : ℝ

/-- Padding of five percent (lines 112-113, 129-130). -/
def pad (lo hi : ℝ) : ℝ := |hi - lo| * (5 / 100)

/-- plots/seismicity.py:128-136: the box around the data points; `min` of an empty sequence is a ValueError. -/
def dataExtent (lons lats : List ℝ) : Py Extent :=
  match amin? lons, amax? lons, amin? lats, amax? lats with
  | some w, some e, some s, some n => .ok ⟨w - pad w e, e + pad w e, s - pad s n, n + pad s n⟩
  | _, _, _, _ => .error .valueError

/-- plots/seismicity.py:110-119: the box around a country; `bounds` are the bounds of its polygon in degrees, `none` if there is no country of
that name (`values[0]` of an empty array). -/
def countryExtent (bounds : Option Extent) : Py Extent :=
  match bounds with
  | none => .error .indexError
  | some b => .ok ⟨b.west - pad b.west b.east, b.east + pad b.west b.east, b.south - pad b.south b.north, b.north + pad b.south b.north⟩

/-- plots/seismicity.py:138-149: with axes given, the union with their extent (`get_extent` returns what `set_extent` has set). -/
def setExtent (current : Option Extent) (x : Extent) : Extent :=
  match current with
  | none => x
  | some c => ⟨min c.west x.west, max c.east x.east, min c.south x.south, max c.north x.north⟩

/-- A dot of the scatter plot. -/
structure Dot where
  lon : ℝ
  lat : ℝ
  size : Fl ℝ

/-- matplotlib's `scatter`: a single size is that of all dots. -/
def spread (n : ℕ) (sizes : List (Fl ℝ)) : List (Fl ℝ) :=
  match sizes with
  | [s] => List.replicate n s
  | l => l

/-- plots/seismicity.py:169-187: `scatter` needs as many latitudes as longitudes, and as many sizes or a single one. -/
def scatter (lons lats : List ℝ) (sizes : List (Fl ℝ)) : Py (List Dot) :=
  if lats.length ≠ lons.length ∨ (spread lons.length sizes).length ≠ lons.length then .error .valueError
  else .ok (List.zipWith (fun (p : ℝ × ℝ) s => ⟨p.1, p.2, s⟩) (lons.zip lats) (spread lons.length sizes))

/-- Arguments of `plot_in_space`; `country` is the bounds of the country if one is named (`some none`: no such country); the
defaults are those of lines 21-39. -/
structure Args where
  lons : List ℝ
  lats : List ℝ
  mags : List ℝ
  smallest : ℝ := 10
  largest : ℝ := 200
  power : ℝ := 2
  includeMap : Bool := false
  country : Option (Option Extent) := none

/-- plots/seismicity.py:107-136: the box of the country if a map and a country are asked for, else the box of the events. -/
def boxOf (a : Args) : Py Extent :=
  match a.includeMap, a.country with
  | true, some b => countryExtent b
  | _, _ => dataExtent a.lons a.lats

/-- plots/seismicity.py:21-206 `plot_in_space`: the new extent of the axes and the dots. `current` is the extent of the given axes. -/
def plotInSpace (current : Option Extent) (a : Args) : Py (Extent × List Dot) := do
  let x ← boxOf a
  let sizes ← PlotBasics.dotSize a.mags a.smallest a.largest a.power
  let dots ← scatter a.lons a.lats sizes
  pure (setExtent current x, dots)

/-- Plotting one catalog after the other into the same axes. -/
def plotAll : Option Extent → List Args → Py (Option Extent × List Dot)
  | x, [] => .ok (x, [])
  | x, a :: r => do
    let p ← plotInSpace x a
    let q ← plotAll (some p.1) r
    pure (q.1, p.2 ++ q.2)

/-- plots/seismicity.py:209-226 `_rect_from_bound`. -/
def rectFromBound (xmin xmax ymin ymax : ℝ) : List (ℝ × ℝ) := [xmax, xmin, xmin, xmax].zip [ymax, ymax, ymin, ymin]

end
end PlotSeismicity
end SeismoStats
