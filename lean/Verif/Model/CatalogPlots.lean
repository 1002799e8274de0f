/-
Model of the plot methods of `Catalog` (seismostats/catalogs/catalog.py:1073-1407): which columns and attributes are handed to the plot
functions of Model/PlotBasics.lean, PlotStatistical.lean and PlotSeismicity.lean. The catalogue is returned as it is afterwards.
-/
import Verif.Model.CatalogEstimates
import Verif.Model.PlotBasics
import Verif.Model.PlotStatistical
import Verif.Model.PlotSeismicity

namespace SeismoStats
namespace CatalogPlots
open SeismoStats SeismoStats.Catalog SeismoStats.CatalogEstimates
open Classical
noncomputable section

/-- `if x is None: x = self.x`. -/
def orAttr {T : Type} (arg attr : Option T) : Option T :=
  match arg with
  | some x => some x
  | none => attr

/-- catalog.py:1252-1320 `plot_cum_fmd`. A NaN or infinite mc or b-value is not modelled (here a TypeError). -/
def plotCumFmd (c : Ct) (mc : Option (Fl ℝ)) (fmdBin : Option ℝ) (weights : Option (List ℝ)) (b : Option (Fl ℝ)) (pos : BinPos) : Ct × Py PlotBasics.Drawn :=
  requireCols ["magnitude"] [] c.frame.cols c fun c => (c, do
    let m ← finiteOpt (orAttr mc c.mc)
    let b ← finiteOpt (orAttr b c.bValue)
    PlotBasics.plotCumFmd (mags (c.frame.column "magnitude")) m (orAttr fmdBin c.deltaM) weights b pos)

/-- catalog.py:1322-1364 `plot_fmd`; the bin size is a required argument. -/
def plotFmd (c : Ct) (fmdBin : ℝ) (weights : Option (List ℝ)) (pos : BinPos) : Ct × Py (List (ℝ × ℝ)) :=
  requireCols ["magnitude"] [] c.frame.cols c fun c => (c, PlotBasics.plotFmd (mags (c.frame.column "magnitude")) fmdBin weights pos)

/-! ### plot_cum_count: magnitudes may be NaN -/

/-- plots/basics.py:267: the events at or above `mc - delta_m / 2`; comparisons with NaN are false. -/
def aboveMc (mc : Option ℝ) (δ : ℝ) (m : Option ℝ) : Bool :=
  match mc, m with
  | some mc, some m => decide (mc - δ / 2 ≤ m)
  | _, _ => false

/-- plots/basics.py:267-274, as in `PlotBasics.selected`. -/
def selected (times : List ℝ) (mags : List (Option ℝ)) (weights : List ℝ) (mc : Option ℝ) (δ : ℝ) : List (ℝ × ℝ) :=
  (((times.zip weights).zip mags).filter fun p => aboveMc mc δ p.2).map Prod.fst |>.insertionSort fun p q => p.1 ≤ q.1

/-- plots/basics.py:265-288, as in `PlotBasics.cumLine`. -/
def cumLine (times : List ℝ) (mags : List (Option ℝ)) (weights : List ℝ) (first last δ : ℝ) (normalize : Bool) (mc : Option ℝ) :
    Py (Option (List (ℝ × ℝ))) :=
  if mags.length ≠ times.length ∨ weights.length ≠ times.length then .error .indexError
  else
    let s := selected times mags weights mc δ
    let c := PlotBasics.cumulative (s.map Prod.snd)
    if 0 < c.sum then .ok (some ((first :: (s.map Prod.fst ++ [last])).zip (PlotBasics.normalise normalize c (s.map Prod.snd).sum)))
    else .ok none

/-- One step of Python's `min`: a smaller value replaces the present one; comparisons with NaN are false. -/
def minStep (m v : Option ℝ) : Option ℝ :=
  match m, v with
  | some x, some y => if y < x then some y else some x
  | m, _ => m

/-- plots/basics.py:248: Python's `min` of an array with NaN. -/
def pyMin : List (Option ℝ) → Py (Option ℝ)
  | [] => .error .valueError
  | x :: r => .ok (r.foldl minStep x)

/-- plots/basics.py:247-248. -/
def mcList (mags : List (Option ℝ)) (mcs : Option (List ℝ)) : Py (List (Option ℝ)) :=
  match mcs with
  | some l => .ok (l.map some)
  | none => do
    let m ← pyMin mags
    pure [m]

/-- plots/basics.py:253-260: a list of colours needs one for each completeness magnitude. -/
def checkColors (colors : Option ℕ) (n : ℕ) : Py Unit :=
  match colors with
  | some k => if k ≠ n then .error .valueError else .ok ()
  | none => .ok ()

/-- plots/basics.py:205-293 `plot_cum_count` with magnitudes that may be NaN. -/
def cumCount (times : List ℝ) (mags : List (Option ℝ)) (mcs : Option (List ℝ)) (δ : Option ℝ) (weights : Option (List ℝ)) (normalize : Bool) (colors : Option ℕ) :
    Py (List (Option (List (ℝ × ℝ)))) :=
  match amin? times, amax? times with
  | some first, some last => do
    let ms ← mcList mags mcs
    checkColors colors ms.length
    ms.mapM (cumLine times mags (weights.getD (times.map fun _ => 1)) first last (δ.getD 0) normalize)
  | _, _ => .error .valueError

/-- catalog.py:1150-1195 `plot_cum_count`. A missing time is not modelled (here a TypeError). -/
def plotCumCount (c : Ct) (mcs : Option (List ℝ)) (δ : Option ℝ) (weights : Option (List ℝ)) (normalize : Bool) (colors : Option ℕ) :
    Ct × Py (List (Option (List (ℝ × ℝ)))) :=
  requireCols ["time", "magnitude"] [] c.frame.cols c fun c => (c, do
    let t ← (c.frame.column "time").mapM real
    cumCount t (mags (c.frame.column "magnitude")) mcs (orAttr δ c.deltaM) weights normalize colors)

/-! ### The other plots -/

/-- catalog.py:1395-1407 with plots/statistical.py:53-57: without a bin size the estimator raises a TypeError in the first call (if there is
one). -/
def mcVsB (ppf : ℝ → ℝ) (cls : BValue.Cls) (ω : ℕ → List (List ℕ)) (warn : Bool) (mags : List (Option ℝ)) (mcs : List ℝ) (δ : Option ℝ) (dmc : Option ℝ)
    (confidence : ℝ) : Py (List PlotStatistical.McPoint) :=
  match δ with
  | some δ => PlotStatistical.plotMcVsB ppf cls ω warn mags mcs δ dmc confidence
  | none => if mcs = [] then .ok [] else .error .typeError

/-- catalog.py:1366-1407 `plot_mc_vs_b`. -/
def plotMcVsB (ppf : ℝ → ℝ) (ω : ℕ → List (List ℕ)) (warn : Bool) (c : Ct) (mcs : List ℝ) (δ : Option ℝ) (cls : BValue.Cls) (confidence : ℝ) (dmc : Option ℝ) :
    Ct × Py (List PlotStatistical.McPoint) :=
  requireCols ["magnitude"] [] c.frame.cols c fun c =>
    (c, mcVsB ppf cls ω warn (mags (c.frame.column "magnitude")) mcs (orAttr δ c.deltaM) dmc confidence)

/-- Arguments of `Catalog.plot_in_space` (catalog.py:1074-1089); the interpolation power is 2 by default. -/
structure SpaceArgs where
  smallest : ℝ := 10
  largest : ℝ := 200
  power : ℝ := 2
  includeMap : Bool := false
  country : Option (Option PlotSeismicity.Extent) := none

/-- catalog.py:1073-1148 `plot_in_space`. Missing coordinates and magnitudes are not modelled (here a TypeError). -/
def plotInSpace (current : Option PlotSeismicity.Extent) (c : Ct) (a : SpaceArgs) : Ct × Py (PlotSeismicity.Extent × List PlotSeismicity.Dot) :=
  requireCols ["latitude", "longitude", "magnitude"] [] c.frame.cols c fun c => (c, do
    let lons ← (c.frame.column "longitude").mapM real
    let lats ← (c.frame.column "latitude").mapM real
    let ms ← (c.frame.column "magnitude").mapM real
    PlotSeismicity.plotInSpace current
      { lons := lons, lats := lats, mags := ms, smallest := a.smallest, largest := a.largest, power := a.power, includeMap := a.includeMap, country := a.country })

/-- catalog.py:1197-1250 `plot_mags_in_time` with both lists: the lists of the caller afterwards and the line. Missing times and magnitudes are
not modelled (here a TypeError). -/
def plotMagsInTime (newYear : ℤ → ℝ) (c : Ct) (s : PlotBasics.Lists) : Ct × Py (PlotBasics.Lists × Py (List (ℝ × ℝ))) :=
  requireCols ["time", "magnitude"] [] c.frame.cols c fun c => (c, do
    let t ← (c.frame.column "time").mapM real
    let ms ← (c.frame.column "magnitude").mapM real
    pure (PlotBasics.plotMagsInTime newYear t ms s))

end
end CatalogPlots
end SeismoStats
