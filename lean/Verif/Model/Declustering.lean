/-
Model of seismostats/analysis/declustering/{utils, distance_time_windows, dec_gardner_knopoff}.py.

Times are seconds, windows days. Missing numbers (NaN, NaT) are `none`; comparisons with them are false.
Not modelled: overflow of `pd.Timedelta`, its rounding to nanoseconds. For missing event times see Model/DeclMissing.lean.
-/
import Verif.Model.Base
import Mathlib.Analysis.SpecialFunctions.Complex.Arg
import Mathlib.Analysis.SpecialFunctions.Pow.Real
import Mathlib.Analysis.SpecialFunctions.Exp
import Mathlib.Data.List.Sort

namespace SeismoStats
namespace Decl
open SeismoStats
noncomputable section

/-- declustering/utils.py:40: degrees to radians. -/
def rad (x : ℝ) : ℝ := Real.pi / 180 * x

/-- declustering/utils.py:52-56: `aval`. -/
def aval (lon1 lat1 lon2 lat2 : ℝ) : ℝ :=
  Real.sin ((rad lat1 - rad lat2) / 2) ^ 2 +
    Real.cos (rad lat1) * Real.cos (rad lat2) * Real.sin ((rad lon1 - rad lon2) / 2) ^ 2

/-- `np.arctan2(y, x)`. -/
def arctan2 (y x : ℝ) : ℝ := Complex.arg ⟨x, y⟩

/-- declustering/utils.py:4-60 `haversine` for one location and the target. -/
def haversine (lon1 lat1 lon2 lat2 : ℝ) (R : ℝ := 6371227 / 1000) : ℝ :=
  2 * R * arctan2 (Real.sqrt (aval lon1 lat1 lon2 lat2)) (Real.sqrt (1 - aval lon1 lat1 lon2 lat2))

/-- The windows of one magnitude: kilometres and days. -/
structure Win where
  space : Option ℝ
  time : Option ℝ

/-- distance_time_windows.py:63-123: the three classes. -/
inductive Kind where
  | gardnerKnopoff | gruenthal | uhrhammer

/-- `np.sqrt` with NaN for negative numbers. -/
def sqrt? (x : ℝ) : Option ℝ := if x < 0 then none else some (Real.sqrt x)

/-- distance_time_windows.py:73-79. -/
def gkCalc (m : ℝ) : Win :=
  ⟨some ((10 : ℝ) ^ (1238 / 10000 * m + 983 / 1000)),
    some (if m < 65 / 10 then (10 : ℝ) ^ (5409 / 10000 * m - 547 / 1000) else (10 : ℝ) ^ (32 / 1000 * m + 27389 / 10000))⟩

/-- distance_time_windows.py:102-108. -/
def gruCalc (m : ℝ) : Win :=
  ⟨(sqrt? (37 / 1000 + 102 / 100 * m)).map fun r => Real.exp (177 / 100 + r),
    if 65 / 10 ≤ m then some ((10 : ℝ) ^ (28 / 10 + 24 / 1000 * m))
    else (sqrt? (62 / 100 + 1732 / 100 * m)).map fun r => |Real.exp (-(395 / 100) + r)|⟩

/-- distance_time_windows.py:120-123. -/
def uhrCalc (m : ℝ) : Win :=
  ⟨some (Real.exp (-(1024 / 1000) + 804 / 1000 * m)), some (Real.exp (-(287 / 100) + 1235 / 1000 * m))⟩

/-- `_calc`. -/
def calcWin : Kind → ℝ → Win
  | .gardnerKnopoff => gkCalc
  | .gruenthal => gruCalc
  | .uhrhammer => uhrCalc

/-- distance_time_windows.py:57-58: `np.clip(t, 0, cutoff)` is `minimum(maximum(t, 0), cutoff)`; None and 0
are false. -/
def cut (cutoff : Option ℝ) (t : ℝ) : ℝ :=
  match cutoff with
  | none => t
  | some c => if c = 0 then t else min (max t 0) c

/-- distance_time_windows.py:45-60 `__call__` for one magnitude. -/
def window (k : Kind) (cutoff : Option ℝ) (m : ℝ) : Win :=
  ⟨(calcWin k m).space, (calcWin k m).time.map (cut cutoff)⟩

/-- A row of the catalog, with its index label. -/
structure Event where
  label : ℕ
  time : ℝ
  mag : Option ℝ
  lon : Option ℝ
  lat : Option ℝ

instance : Inhabited Event := ⟨⟨0, 0, none, none, none⟩⟩

/-- Windows of a row; none for a NaN magnitude. -/
def winOf (win : ℝ → Win) (e : Event) : Win :=
  match e.mag with
  | some m => win m
  | none => ⟨none, none⟩

/-- dec_gardner_knopoff.py:79-81: descending magnitude (NaN last), ascending time; the position breaks ties
since the sort is stable. -/
def rankLe (cat : List Event) (i j : ℕ) : Prop :=
  match (cat.getD i default).mag, (cat.getD j default).mag with
  | some a, some b => b < a ∨ (a = b ∧ ((cat.getD i default).time < (cat.getD j default).time ∨
      ((cat.getD i default).time = (cat.getD j default).time ∧ i ≤ j)))
  | some _, none => True
  | none, some _ => False
  | none, none => (cat.getD i default).time < (cat.getD j default).time ∨
      ((cat.getD i default).time = (cat.getD j default).time ∧ i ≤ j)

open Classical in
/-- dec_gardner_knopoff.py:79-81: positions in processing order. -/
def order (cat : List Event) : List ℕ := (List.range cat.length).insertionSort (rankLe cat)

/-- dec_gardner_knopoff.py:91-98: `dt` (whole seconds, line 77) within the time window. -/
def inTime (fs : ℝ) (tw : Option ℝ) (dt : ℤ) : Prop :=
  match tw with
  | some w => -(w * 86400) * fs ≤ dt ∧ (dt : ℝ) ≤ w * 86400
  | none => False

/-- dec_gardner_knopoff.py:101-109: distance within the space window. -/
def inSpace (sw : Option ℝ) (e f : Event) : Prop :=
  match sw, e.lon, e.lat, f.lon, f.lat with
  | some s, some x, some y, some x', some y' => haversine x y x' y' ≤ s
  | _, _, _, _, _ => False

/-- Loop state: cluster ids, next id, flags. -/
structure State where
  ids : ℕ → ℕ
  next : ℕ
  flags : ℕ → Bool

/-- dec_gardner_knopoff.py:92-110: selected positions. `e` is the row being processed (coordinates, line
83), `i` its label, used as a position for the times and time windows and as a label for the space
windows (a pandas Series). -/
def sel (win : ℝ → Win) (fs : ℝ) (cat : List Event) (s : State) (e : Event) (i j : ℕ) : Prop :=
  s.ids j = 0 ∧
  inTime fs (winOf win (cat.getD i default)).time (⌊(cat.getD j default).time⌋ - ⌊(cat.getD i default).time⌋) ∧
  inSpace (winOf win ((cat.find? fun f => f.label == i).getD default)).space (cat.getD j default) e

open Classical in
/-- dec_gardner_knopoff.py:112-115. -/
def assign (win : ℝ → Win) (fs : ℝ) (cat : List Event) (s : State) (e : Event) (i : ℕ) : State where
  ids j := if sel win fs cat s e i j then s.next else s.ids j
  next := s.next + 1
  flags j := if j = i then true else if sel win fs cat s e i j then false else s.flags j

/-- dec_gardner_knopoff.py:83-115: the loop body for the row at position `p`. -/
def step (win : ℝ → Win) (fs : ℝ) (cat : List Event) (s : State) (p : ℕ) : Py State :=
  let e := cat.getD p default
  if cat.length ≤ e.label then .error .indexError
  else if s.ids e.label ≠ 0 then .ok s
  else .ok (assign win fs cat s e e.label)

/-- dec_gardner_knopoff.py:83-115: the loop. -/
def loop (win : ℝ → Win) (fs : ℝ) (cat : List Event) : State → List ℕ → Py State
  | s, [] => .ok s
  | s, p :: r =>
    match step win fs cat s p with
    | .error e => .error e
    | .ok s' => loop win fs cat s' r

/-- dec_gardner_knopoff.py:41-118 `_decluster`, with the required columns present and distinct
non-negative integer labels. -/
def decluster (win : ℝ → Win) (fs : ℝ) (cat : List Event) : Py (List Bool) := do
  let s ← loop win fs cat ⟨fun _ => 0, 1, fun _ => true⟩ (order cat)
  pure ((List.range cat.length).map s.flags)

end
end Decl
end SeismoStats
