/-
`plot_cum_count` (seismostats/plots/basics.py:205-293, see Model/PlotBasics.lean) with missing magnitudes (`none` for NaN). Times are numbers. The method
`Catalog.plot_cum_count` (seismostats/catalogs/catalog.py:1151) hands its columns over, which `np.asarray` turns into arrays.
-/
import Verif.Model.PlotBasics

namespace SeismoStats
namespace PlotBasics
open SeismoStats
open Classical
noncomputable section

/-- `x < m` with NaN: false if one is NaN. -/
def lessM : Option ℝ → Option ℝ → Bool
  | some x, some m => decide (x < m)
  | _, _ => false

/-- plots/basics.py:250 Python's `min` of an array: keeps the first entry unless a later one is smaller. -/
def pyMinM : List (Option ℝ) → Py (Option ℝ)
  | [] => .error .valueError
  | a :: r => .ok (r.foldl (fun m x => if lessM x m then x else m) a)

/-- plots/basics.py:267 `magnitudes >= mc - delta_m / 2`, false for NaN. -/
def reaches (δ : ℝ) : Option ℝ → Option ℝ → Bool
  | some mc, some m => decide (mc - δ / 2 ≤ m)
  | _, _ => false

/-- plots/basics.py:267-274: times and weights of the selected events, sorted by time (`argsort` taken as stable). -/
def selectedM (times : List ℝ) (mags : List (Option ℝ)) (weights : List ℝ) (mc : Option ℝ) (δ : ℝ) : List (ℝ × ℝ) :=
  (((times.zip weights).zip mags).filter fun p => reaches δ mc p.2).map Prod.fst |>.insertionSort fun p q => p.1 ≤ q.1

/-- plots/basics.py:265-288: the line for one completeness magnitude. -/
def cumLineM (times : List ℝ) (mags : List (Option ℝ)) (weights : List ℝ) (first last δ : ℝ) (normalize : Bool) (mc : Option ℝ) :
    Py (Option (List (ℝ × ℝ))) :=
  if mags.length ≠ times.length ∨ weights.length ≠ times.length then .error .indexError
  else
    let s := selectedM times mags weights mc δ
    let c := cumulative (s.map Prod.snd)
    if 0 < c.sum then .ok (some ((first :: (s.map Prod.fst ++ [last])).zip (normalise normalize c (s.map Prod.snd).sum)))
    else .ok none

/-- plots/basics.py:249-250: the completeness magnitudes of the lines. -/
def lineMcs (mags : List (Option ℝ)) : Option (List ℝ) → Py (List (Option ℝ))
  | some l => .ok (l.map some)
  | none => (pyMinM mags).bind fun m => .ok [m]

/-- plots/basics.py:255-261: the number of colours. -/
def checkColors (colors : Option ℕ) (k : ℕ) : Py Unit :=
  match colors with
  | some n => if n ≠ k then .error .valueError else .ok ()
  | none => .ok ()

/-- plots/basics.py:205-293 `plot_cum_count`: one line per completeness magnitude. -/
def plotCumCountM (times : List ℝ) (mags : List (Option ℝ)) (mcs : Option (List ℝ)) (δ : Option ℝ) (weights : Option (List ℝ)) (normalize : Bool)
    (colors : Option ℕ) : Py (List (Option (List (ℝ × ℝ)))) :=
  match amin? times, amax? times with
  | some first, some last =>
    (lineMcs mags mcs).bind fun ms => (checkColors colors ms.length).bind fun _ =>
      ms.mapM (cumLineM times mags (weights.getD (times.map fun _ => 1)) first last (δ.getD 0) normalize)
  | _, _ => .error .valueError

end
end PlotBasics
end SeismoStats
