/-
Model of the classes of seismostats/catalogs/rategrid.py: `GRRateGrid` and `ForecastGRRateGrid` objects, their constructor for
results of frame operations, `__finalize__` and `strip`.
-/
import Verif.Model.RateGrid

namespace SeismoStats
namespace RateGrid
open SeismoStats
open SeismoStats.Catalog (Val hasCols requireCols)
open Classical
noncomputable section

/-- Class of a frame: a plain data frame, `GRRateGrid`, `ForecastGRRateGrid`. -/
inductive GCls where
  | plain | grid | forecast
  deriving DecidableEq

/-- An object: its class, the content with the attributes name, starttime and endtime, `_required_cols` and `n_grids`. -/
structure GObj where
  cls : GCls
  grid : Grid
  required : List String
  nGrids : Option ℕ

/-- rategrid.py:80, 374 `_required_cols` of a class. -/
def GCls.required : GCls → List String
  | .plain => []
  | .grid => requiredCols
  | .forecast => requiredCols ++ ["grid_id"]

/-- A frame without attributes. -/
def bare (g : Grid) : Grid := { g with name := none, starttime := ⊤, endtime := ⊤ }

/-- rategrid.py:20-24: the class of the result of a frame operation. -/
def classOf (cols : List String) : GCls :=
  if !hasCols requiredCols cols then .plain
  else if !hasCols ["grid_id"] cols then .grid
  else .forecast

/-- rategrid.py:82-100, 377-380: a new object of class `k`. -/
def newOf (k : GCls) (g : Grid) : Py GObj :=
  match k with
  | .plain => .ok { cls := .plain, grid := bare g, required := [], nGrids := none }
  | k => (construct g).map fun h => { cls := k, grid := h, required := k.required, nGrids := none }

/-- rategrid.py:18-24 `_rategrid_constructor_with_fallback`: a `GRRateGrid` is made first, the class follows from its columns. -/
def fallback (g : Grid) : Py GObj :=
  match construct g with
  | .error e => .error e
  | .ok h => newOf (classOf h.cols) g

/-- rategrid.py:102-104: the constructor of the results of operations on `o`; a plain frame makes plain frames. -/
def constructorOf (o : GObj) (g : Grid) : Py GObj :=
  match o.cls with
  | .plain => newOf .plain g
  | _ => fallback g

/-- rategrid.py:292-305 with pandas' `NDFrame.__finalize__`: the attributes in the `_metadata` of both (rategrid.py:79, 375). -/
def finalizeObj (new other : GObj) : GObj :=
  match new.cls, other.cls with
  | .plain, _ | _, .plain => new
  | .forecast, .forecast => { new with grid := finalize other.grid new.grid, required := other.required, nGrids := other.nGrids }
  | _, _ => { new with grid := finalize other.grid new.grid, required := other.required }

/-- An operation on a frame that gives a new one with content `f o.grid` (selection of rows or columns, copy, ...). -/
def operation (f : Grid → Grid) (o : GObj) : Py GObj := (constructorOf o (f o.grid)).map fun n => finalizeObj n o

/-- Operations one after the other. -/
def operations : List (Grid → Grid) → GObj → Py GObj
  | [], o => .ok o
  | f :: r, o => (operation f o).bind (operations r)

/-- `df.drop(columns=...)`. -/
def dropCols (p : String → Bool) (g : Grid) : Grid := { g with cols := g.cols.filter fun c => !p c }

/-- `o[c] = values` in place for a new column: the class and the attributes stay. -/
def assign (c : String) (v : List (Val ℝ)) (o : GObj) : GObj :=
  { o with grid := { o.grid with cols := if c ∈ o.grid.cols then o.grid.cols else o.grid.cols ++ [c]
                                 rows := List.zipWith (fun r x => { r with cells := fun k => if k = c then x else r.cells k }) o.grid.rows v } }

/-- The content after a drop in place: `drop` makes a new object, whose content (not the attributes) is taken over. -/
def dropInplace (p : String → Bool) (o : GObj) : Py GObj :=
  (operation (dropCols p) o).map fun n => { o with grid := finalize o.grid n.grid }

/-- A result for an operation that changes the object: the old object if it raises. -/
def inplaceResult (o : GObj) : Py GObj → GObj × Py (Option GObj)
  | .ok n => (n, .ok none)
  | .error e => (o, .error e)

/-- rategrid.py:167-202 `strip`: the decorator uses the columns of `GRRateGrid`, the body those of the object. -/
def strip (o : GObj) (inplace : Bool) : GObj × Py (Option GObj) :=
  requireCols requiredCols [] o.grid.cols o fun o =>
    let other : String → Bool := fun c => !decide (c ∈ o.required)
    if inplace then inplaceResult o (dropInplace other o)
    else (o, (operation (dropCols other) o).map some)

/-- The methods of a plain frame: it has no `strip`. -/
def callStrip (o : GObj) (inplace : Bool) : GObj × Py (Option GObj) :=
  match o.cls with
  | .plain => (o, .error .attributeError)
  | _ => strip o inplace

end
end RateGrid
end SeismoStats
