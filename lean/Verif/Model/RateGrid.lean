/-
Model of seismostats/catalogs/rategrid.py.

Index labels (times in nanoseconds, cell ids) are integers or missing, written `⊤`; bounds are numbers or missing.
Level names that are given are distinct, and the columns of bounds hold numbers or missing values (simplifications).
-/
import Verif.Model.Base
import Verif.Model.Catalog
import Mathlib.Data.List.Lex
import Mathlib.Data.List.Sort
import Mathlib.Data.List.Dedup
import Mathlib.Data.Real.Basic
import Mathlib.Order.WithBot

namespace SeismoStats
namespace RateGrid
open SeismoStats
open SeismoStats.Catalog (Val hasCols)
open Classical

/-- rategrid.py:273-275, 475-477: the columns that identify a cell. -/
def boundCols : List String := ["longitude_min", "longitude_max", "latitude_min", "latitude_max", "depth_min", "depth_max"]

/-- rategrid.py:10-15 `REQUIRED_COLS_RATEGRID`. -/
def requiredCols : List String := boundCols ++ ["a", "b", "mc"]

/-- A row: its index labels and its cells. -/
structure Row where
  idx : List (WithTop ℤ)
  cells : String → Val ℝ

/-- A grid: index level names, columns, columns of number type, rows and attributes (rategrid.py:79-100). -/
structure Grid where
  names : List (Option String)
  cols : List String
  number : String → Bool
  rows : List Row
  name : Option String
  starttime : WithTop ℤ
  endtime : WithTop ℤ

/-- A number, or `⊤` for a missing value. -/
def bound : Val ℝ → WithTop ℝ
  | .num x => (x : WithTop ℝ)
  | _ => ⊤

/-- rategrid.py:273-275: the bounds of a row. -/
def bounds (r : Row) : List (WithTop ℝ) := boundCols.map fun c => bound (r.cells c)

/-! ### numpy `unique(axis=0, return_inverse=True)` -/

/-- Neighbours in sorted order that numpy counts as different; NaN differs from NaN, also with `equal_nan=True`, which
has no effect for rows. -/
noncomputable def isNew {α : Type} (p x : List (WithTop α)) : Bool := decide (x ≠ p) || decide (⊤ ∈ x)

/-- Running number of the group, along the sorted rows. -/
noncomputable def scan {α : Type} (k : ℕ) (p : List (WithTop α)) : List (List (WithTop α)) → List ℕ
  | [] => []
  | x :: r => (if isNew p x then k + 1 else k) :: scan (if isNew p x then k + 1 else k) x r

/-- Group numbers of sorted rows. -/
noncomputable def groupNumbers {α : Type} : List (List (WithTop α)) → List ℕ
  | [] => []
  | x :: r => 0 :: scan 0 x r

/-- `argsort` of rows, NaN last (order of equal rows: stable, which matters only for rows with NaN). -/
noncomputable def sortRows (l : List (List (WithTop ℝ))) : List ℕ :=
  (List.range l.length).insertionSort fun i j => l.getD i [] ≤ l.getD j []

/-- `np.unique(l, axis=0, return_inverse=True)[1]`. -/
noncomputable def uniqueInverse (l : List (List (WithTop ℝ))) : List ℕ :=
  (List.range l.length).map fun i =>
    (groupNumbers ((sortRows l).map fun j => l.getD j [])).getD ((sortRows l).idxOf i) 0

/-! ### Construction -/

/-- `index.get_level_values(n)`. -/
def level (names : List (Option String)) (rows : List Row) (n : String) : List (WithTop ℤ) :=
  rows.map fun r => r.idx.getD (names.idxOf (some n)) ⊤

/-- `min()` of times, NaT for none. -/
def minTime (l : List (WithTop ℤ)) : WithTop ℤ := l.foldr min ⊤

/-- `max()` of two times, missing ones skipped. -/
def later (a b : WithTop ℤ) : WithTop ℤ := if a = ⊤ then b else if b = ⊤ then a else max a b

/-- `max()` of times, NaT for none. -/
def maxTime (l : List (WithTop ℤ)) : WithTop ℤ := l.foldr later ⊤

/-- rategrid.py:280-283 for one row: the level `cell_id` is dropped and the new number appended. -/
def relabel (p : ℕ) (r : Row) (id : ℕ) : Row := { r with idx := r.idx.eraseIdx p ++ [((id : ℤ) : WithTop ℤ)] }

/-- rategrid.py:272-283: new cell numbers. The new column is called `cell`, so that a column of that name is lost.
numpy can not sort rows of type object (TypeError). -/
noncomputable def renumber (g : Grid) : Py Grid :=
  if some "cell_id" ∈ g.names then
    if boundCols.all g.number then
      .ok { g with
        names := g.names.eraseIdx (g.names.idxOf (some "cell_id")) ++ [some "cell_id"]
        cols := g.cols.filter fun c => !decide (c = "cell")
        rows := List.zipWith (relabel (g.names.idxOf (some "cell_id"))) g.rows (uniqueInverse (g.rows.map bounds)) }
    else .error .typeError
  else .ok g

/-- rategrid.py:285-290. -/
def setTimes (g : Grid) : Grid :=
  if some "starttime" ∈ g.names then
    { g with
      starttime := minTime (level g.names g.rows "starttime")
      endtime := if some "endtime" ∈ g.names then maxTime (level g.names g.rows "endtime")
        else maxTime (level g.names g.rows "starttime") }
  else g

/-- rategrid.py:264-290 `_reindex_cell_id`. -/
noncomputable def reindex (g : Grid) : Py Grid :=
  if hasCols requiredCols g.cols then
    match renumber g with
    | .ok h => .ok (setTimes h)
    | .error e => .error e
  else .error .attributeError

/-- rategrid.py:82-100 `GRRateGrid(data)` without name and times; an AttributeError is swallowed. -/
noncomputable def construct (g : Grid) : Py Grid :=
  let new := { g with name := none, starttime := ⊤, endtime := ⊤ }
  if 1 < g.names.length then
    match reindex new with
    | .error .attributeError => .ok new
    | r => r
  else .ok new

/-- rategrid.py:292-311 `__finalize__`: attributes of the first operand. -/
def finalize (other g : Grid) : Grid := { g with name := other.name, starttime := other.starttime, endtime := other.endtime }

/-- rategrid.py:254-260: the content with the times in front of the index. -/
def withTimes (g : Grid) (endtime : Bool) : Grid :=
  { g with
    names := (if endtime then [some "starttime", some "endtime"] else [some "starttime"])
      ++ (if g.names.length = 1 then [some "cell_id"] else g.names)
    rows := g.rows.map fun r => { r with idx := (if endtime then [g.starttime, g.endtime] else [g.starttime]) ++ r.idx } }

/-- rategrid.py:204-262 `add_time_index`. -/
noncomputable def addTimeIndex (endtime : Bool) (g : Grid) : Py Grid :=
  if hasCols requiredCols g.cols then
    if g.starttime = ⊤ then .error .attributeError
    else if g.endtime = ⊤ ∧ endtime = true then .error .attributeError
    else (construct (withTimes g endtime)).map (finalize g)
  else .error .attributeError

/-! ### Concatenation -/

/-- Cells of a row in the concatenated frame: missing for columns its grid does not have. -/
def widen (cols : List String) (r : Row) : Row := { r with cells := fun c => if c ∈ cols then r.cells c else .na }

/-- Names of the levels of concatenated indices: those on which all agree. -/
def commonNames : List Grid → List (Option String)
  | [] => []
  | g :: r => g.names.zipIdx.map fun p => if r.all (fun h => decide (h.names.getD p.2 none = p.1)) then p.1 else none

/-- `pd.concat(grids)`: all columns in order of appearance, all rows in order. -/
def stack (l : List Grid) : Grid :=
  { names := commonNames l
    cols := (l.flatMap Grid.cols).reverse.dedup.reverse
    number := fun c => l.all fun g => !decide (c ∈ g.cols) || g.number c
    rows := l.flatMap fun g => g.rows.map (widen g.cols)
    name := none, starttime := ⊤, endtime := ⊤ }

/-- `cls(pd.concat(grids))`: the result of `pd.concat` is constructed once, the class constructor runs again. -/
noncomputable def pdConcat (l : List Grid) : Py Grid :=
  if l = [] then .error .valueError
  else (construct (stack l)).bind construct

/-- rategrid.py:106-165 `concat`. -/
noncomputable def concat (l : List Grid) : Py Grid :=
  if l.all (fun g => decide (g.names.length = 1)) then
    (l.mapM (addTimeIndex (l.all fun g => !decide (g.endtime = ⊤)))).bind pdConcat
  else if l.all (fun g => decide (g.names.length = 2)) || l.all (fun g => decide (g.names.length = 3)) then pdConcat l
  else .error .valueError

/-! ### Statistics -/

/-- Aggregation functions. -/
abbrev Agg := List (Val ℝ) → Val ℝ

/-- `notna`. -/
def present : Val ℝ → Bool
  | .na => false
  | _ => true

/-- rategrid.py:454-455: columns with at least one value. -/
def liveCols (g : Grid) : List String := g.cols.filter fun c => g.rows.any fun r => present (r.cells c)

/-- rategrid.py:458. -/
def metricCols : List String := ["number_events", "b", "mc", "a", "alpha"]

/-- An entry of `agg_dict`: the new column, the column it is computed from, the function. -/
structure Entry where
  out : String
  src : String
  fn : Agg

/-- rategrid.py:467-471 for one column: added only if no column has that name. -/
def addStat (suffix : String) (fn : Agg) (s : List String × List Entry) (col : String) : List String × List Entry :=
  if col ++ "_" ++ suffix ∈ s.1 then s
  else (s.1 ++ [col ++ "_" ++ suffix], s.2 ++ [⟨col ++ "_" ++ suffix, col, fn⟩])

/-- rategrid.py:457-471: `agg_dict`. -/
def aggDict (g : Grid) (agg : Agg) (extra : Dict Agg) : List Entry :=
  (extra.foldl (fun s p => (metricCols.filter fun c => decide (c ∈ g.cols)).foldl (addStat p.1 p.2) s)
    (g.cols, (g.cols.filter g.number).map fun c => ⟨c, c, agg⟩)).2

/-- Result of `calculate_statistics`. -/
structure Stats where
  index : List (List (WithTop ℤ))
  cols : List String
  rows : List (String → Val ℝ)

/-- `groupby(keys)`: the keys without missing parts, once each, sorted. -/
noncomputable def groupKeys {α : Type} [LinearOrder α] (ks : List (List (WithTop α))) : List (List (WithTop α)) :=
  ((ks.filter fun k => !decide (⊤ ∈ k)).dedup).insertionSort (· ≤ ·)

/-- One row of the result: every entry applied to the rows of the group. -/
noncomputable def aggRow (d : List Entry) (rows : List Row) (c : String) : Val ℝ :=
  match d.find? (fun e => e.out = c) with
  | some e => e.fn (rows.map fun r => r.cells e.src)
  | none => .na

/-- The rows of the group with key `k`. -/
noncomputable def group {α : Type} [LinearOrder α] (key : Row → List (WithTop α)) (rows : List Row) (k : List (WithTop α)) : List Row :=
  rows.filter fun r => decide (key r = k)

/-- rategrid.py:486: columns of the result. -/
def outCols (d : List Entry) : List String := (d.map Entry.out).filter fun c => !decide (c = "grid_id")

/-- rategrid.py:457-488: grouping and aggregation. Without any number column there is nothing to aggregate (ValueError). -/
noncomputable def aggregate (g : Grid) (agg : Agg) (extra : Dict Agg) : Py Stats :=
  if g.names.length = 1 then
    if boundCols.all (fun c => decide (c ∈ g.cols)) then
      if aggDict g agg extra = [] then .error .valueError
      else .ok { index := (List.range (groupKeys (g.rows.map bounds)).length).map fun i : ℕ => [((i : ℤ) : WithTop ℤ)]
                 cols := outCols (aggDict g agg extra)
                 rows := (groupKeys (g.rows.map bounds)).map fun k => aggRow (aggDict g agg extra) (group bounds g.rows k) }
    else .error .keyError
  else if aggDict g agg extra = [] then .error .valueError
  else .ok { index := groupKeys (g.rows.map Row.idx)
             cols := outCols (aggDict g agg extra)
             rows := (groupKeys (g.rows.map Row.idx)).map fun k => aggRow (aggDict g agg extra) (group Row.idx g.rows k) }

/-- rategrid.py:382-488 `calculate_statistics`: `copy` and `dropna` make new objects, through the constructor. -/
noncomputable def calculateStatistics (g : Grid) (agg : Agg) (extra : Dict Agg) : Py Stats :=
  (construct g).bind fun h => (construct { h with cols := liveCols h }).bind fun h => aggregate h agg extra

end RateGrid
end SeismoStats
