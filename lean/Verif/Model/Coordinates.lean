/-
Model of seismostats/utils/coordinates.py in exact arithmetic. The projections of pyproj are parameters: a planar transformation and a spatial one for
each pair of coordinate systems.
-/
import Verif.Model.Binning

namespace SeismoStats
namespace Coordinates
open SeismoStats

variable {K : Type} [Field K] [LinearOrder K]

/-- A pyproj `Transformer`: `transform(x, y)` and `transform(x, y, z)`. -/
structure Transformer (K : Type) where
  two : K → K → K × K
  three : K → K → K → K × K × K

/-- `Transformer.from_proj(a, b, always_xy=True)` for all pairs of systems. -/
abbrev Proj (P K : Type) := P → P → Transformer K

/-- The attributes of a `CoordinateTransformer`. -/
structure CT (K : Type) where
  refE : K
  refN : K
  refA : K
  toLocal : Transformer K
  toExternal : Transformer K

/-- utils/coordinates.py:60-64: the reference in the local system. -/
def reference {P : Type} (proj : Proj P K) (loc : P) (e n : K) : Option P → K × K
  | none => (e, n)
  | some r => (proj r loc).two e n

/-- utils/coordinates.py:31-71 `__init__`. -/
def make {P : Type} (proj : Proj P K) (loc : P) (e n a : K) (ext : P) (refProj : Option P) : CT K :=
  { refE := (reference proj loc e n refProj).1, refN := (reference proj loc e n refProj).2, refA := a,
    toLocal := proj ext loc, toExternal := proj loc ext }

/-- utils/coordinates.py:73-112 `to_local_coords` of one point; without altitude pyproj gets two coordinates. -/
def toLocal (t : CT K) (lon lat : K) : Option K → K × K × Option K
  | none => ((t.toLocal.two lon lat).1 - t.refE, (t.toLocal.two lon lat).2 - t.refN, none)
  | some z => ((t.toLocal.three lon lat z).1 - t.refE, (t.toLocal.three lon lat z).2.1 - t.refN, some ((t.toLocal.three lon lat z).2.2 - t.refA))

/-- utils/coordinates.py:114-161 `from_local_coords` of one point. -/
def fromLocal (t : CT K) (e n : K) : Option K → K × K × Option K
  | none => ((t.toExternal.two (e + t.refE) (n + t.refN)).1, (t.toExternal.two (e + t.refE) (n + t.refN)).2, none)
  | some z => ((t.toExternal.three (e + t.refE) (n + t.refN) (z + t.refA)).1, (t.toExternal.three (e + t.refE) (n + t.refN) (z + t.refA)).2.1,
      some (t.toExternal.three (e + t.refE) (n + t.refN) (z + t.refA)).2.2)

/-- The points of an array call: pyproj and numpy work entry by entry; arrays of different lengths are rejected by pyproj
(its error class is shown as ValueError: simplification). -/
def points (x y : List K) (z : Option (List K)) : Py (List (K × K × Option K)) :=
  if x.length = y.length ∧ ∀ l ∈ z, l.length = x.length then
    .ok (match z with
      | none => (x.zip y).map fun p => (p.1, p.2, none)
      | some l => (x.zip (y.zip l)).map fun p => (p.1, p.2.1, some p.2.2))
  else .error .valueError

/-- utils/coordinates.py:112, 161: the three arrays that are returned; without altitude the last one is `None`. -/
def columns (z : Option (List K)) (l : List (K × K × Option K)) : List K × List K × Option (List K) :=
  (l.map fun p => p.1, l.map fun p => p.2.1, z.map fun _ => l.filterMap fun p => p.2.2)

/-- utils/coordinates.py:73-112 with arrays. -/
def toLocalArr (t : CT K) (lon lat : List K) (z : Option (List K)) : Py (List K × List K × Option (List K)) := do
  let l ← points lon lat z
  pure (columns z (l.map fun p => toLocal t p.1 p.2.1 p.2.2))

/-- utils/coordinates.py:114-161 with arrays. -/
def fromLocalArr (t : CT K) (e n : List K) (z : Option (List K)) : Py (List K × List K × Option (List K)) := do
  let l ← points e n z
  pure (columns z (l.map fun p => fromLocal t p.1 p.2.1 p.2.2))

/-- A shapely polygon: the exterior ring and the holes; a vertex has two coordinates (`none`) or three. -/
structure Poly (K : Type) where
  exterior : List (K × K × Option K)
  holes : List (List (K × K × Option K))

/-- `shapely.ops.transform`: the function is applied to the coordinates of every vertex. -/
def transformVertex (t : Transformer K) : K × K × Option K → K × K × Option K
  | (x, y, none) => ((t.two x y).1, (t.two x y).2, none)
  | (x, y, some z) => ((t.three x y z).1, (t.three x y z).2.1, some (t.three x y z).2.2)

/-- `shapely.affinity.translate`: the third offset concerns vertices with a third coordinate only. -/
def translateVertex (dx dy dz : K) : K × K × Option K → K × K × Option K
  | (x, y, z) => (x + dx, y + dy, z.map (· + dz))

/-- A function applied to all vertices. -/
def Poly.map (f : K × K × Option K → K × K × Option K) (p : Poly K) : Poly K :=
  { exterior := p.exterior.map f, holes := p.holes.map (List.map f) }

/-- utils/coordinates.py:163-200 `polygon_to_local_coords`. -/
def polygonToLocal (t : CT K) (p : Poly K) : Poly K := (p.map (transformVertex t.toLocal)).map (translateVertex (-t.refE) (-t.refN) (-t.refA))

/-- utils/coordinates.py:202-238 `polygon_from_local_coords`. -/
def polygonFromLocal (t : CT K) (p : Poly K) : Poly K := (p.map (translateVertex t.refE t.refN t.refA)).map (transformVertex t.toExternal)

/-- utils/coordinates.py:241-265 `bounding_box_to_polygon`: `shapely.geometry.box(x_min, y_min, x_max, y_max, ccw=True)`, a closed ring. -/
def boundingBoxToPolygon (xMin xMax yMin yMax : K) : Poly K :=
  { exterior := [(xMax, yMin, none), (xMax, yMax, none), (xMin, yMax, none), (xMin, yMin, none), (xMax, yMin, none)], holes := [] }

/-- utils/coordinates.py:268-288 `polygon_to_bounding_box`: `(minx, miny, maxx, maxy)` of the exterior (the holes lie inside);
an empty polygon has NaN bounds (`none`). -/
def polygonToBoundingBox (p : Poly K) : Option (K × K × K × K) :=
  match amin? (p.exterior.map fun v => v.1), amin? (p.exterior.map fun v => v.2.1), amax? (p.exterior.map fun v => v.1), amax? (p.exterior.map fun v => v.2.1) with
  | some a, some b, some c, some d => some (a, b, c, d)
  | _, _, _, _ => none

end Coordinates
end SeismoStats
