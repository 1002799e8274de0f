/-
Model of seismostats/utils/filtering.py. Frames as in Model/Catalog: column names and rows; index labels are kept by selection and not modelled.
-/
import Verif.Model.Catalog

namespace SeismoStats
namespace Filtering
open SeismoStats Catalog

variable {V : Type}

/-- utils/filtering.py:27-32: the new column, row by row. `apply` on an empty frame returns the frame, which cannot be assigned to a column
(pandas: ValueError); a missing column is a KeyError. -/
def insideColumn (inside : V → V → Bool) (f : Frame V) : Py (List Bool) :=
  if f.rows = [] then .error .valueError
  else if "latitude" ∈ f.cols ∧ "longitude" ∈ f.cols then .ok (f.rows.map fun r => inside (r "latitude") (r "longitude"))
  else .error .keyError

/-- utils/filtering.py:27: assignment adds the column at the end or overwrites it. -/
def withColumn (cols : List String) (c : String) : List String := if c ∈ cols then cols else cols ++ [c]

/-- utils/filtering.py:5-42 `cat_intersect_polygon`. `inside a b` stands for `Polygon(polygon_vertices).intersects(Point(a, b))` of shapely: the first
argument is compared with the first vertex coordinates. The result is a new frame. -/
def catIntersectPolygon (inside : V → V → Bool) (f : Frame V) : Py (Frame V) := do
  let b ← insideColumn inside f
  pure { cols := (withColumn f.cols "inside_polygon").filter fun c => !decide (c = "inside_polygon"),
         rows := ((f.rows.zip b).filter fun p => p.2).map Prod.fst }

end Filtering
end SeismoStats
