/-
Model of seismostats/plots/basics.py in exact arithmetic. What is modelled is the data handed to matplotlib (points and lines), not the picture.
Times are real numbers.
-/
import Verif.Model.Binning
import Verif.Model.Numpy
import Mathlib.Analysis.SpecialFunctions.Pow.Real

namespace SeismoStats
namespace PlotBasics
open SeismoStats
open Classical

/-- plots/basics.py:10-27 `gutenberg_richter` at one magnitude. -/
noncomputable def gutenbergRichter (b mc n m : ℝ) : ℝ := n * (10 : ℝ) ^ (-b * (m - mc))

/-- What `plot_cum_fmd` draws: the scatter of the data and the Gutenberg-Richter line, each a list of points. -/
structure Drawn where
  scatter : List (ℝ × ℝ)
  line : Option (List (ℝ × ℝ))

/-- plots/basics.py:110-111: the completeness magnitude of the line. -/
noncomputable def lineMc (mc : Option ℝ) (mags : List ℝ) : Py ℝ :=
  match mc with
  | some m => .ok m
  | none => match amin? mags with
    | some m => .ok m
    | none => .error .valueError

/-- plots/basics.py:116-117: `mc` moves with the bins. -/
noncomputable def shiftMc (pos : BinPos) (δ mc : ℝ) : ℝ := match pos with
  | .left => mc - δ / 2
  | _ => mc

/-- plots/basics.py:105-121: the line; `min` of an empty array is a ValueError. `mags` are the binned magnitudes. -/
noncomputable def grLine (bins mags : List ℝ) (δ : ℝ) (pos : BinPos) (mc : Option ℝ) (b : ℝ) : Py (List (ℝ × ℝ)) := do
  let m ← lineMc mc mags
  let n := (mags.filter fun v => decide (m - δ / 2 ≤ v)).length
  let x := bins.filter fun v => decide (shiftMc pos δ m - δ / 2 ≤ v)
  match amin? x with
  | none => .error .valueError
  | some x0 => pure (x.map fun v => (v, gutenbergRichter b x0 n v))

/-- plots/basics.py:30-135 `plot_cum_fmd`. NaN magnitudes are dropped, their weights are not. -/
noncomputable def plotCumFmd (mags : List (Option ℝ)) (mc : Option ℝ) (δ : Option ℝ) (weights : Option (List ℝ)) (b : Option ℝ) (pos : BinPos) : Py Drawn := do
  let (bins, counts, mb) ← getCumFmd (mags.filterMap id) (δ.getD 0) weights pos
  match b with
  | none => pure { scatter := bins.zip counts, line := none }
  | some b => do
    let l ← grLine bins mb (δ.getD 0) pos mc b
    pure { scatter := bins.zip counts, line := some l }

/-- plots/basics.py:138-202 `plot_fmd`. -/
noncomputable def plotFmd (mags : List (Option ℝ)) (δ : ℝ) (weights : Option (List ℝ)) (pos : BinPos) : Py (List (ℝ × ℝ)) := do
  let (bins, counts, _) ← getFmd (mags.filterMap id) δ weights pos
  pure (bins.zip counts)

/-- plots/basics.py:267-274: times and weights of the events at or above `mc - delta_m / 2`, sorted by time (`argsort` taken as stable). -/
noncomputable def selected (times mags weights : List ℝ) (mc δ : ℝ) : List (ℝ × ℝ) :=
  (((times.zip weights).zip mags).filter fun p => decide (mc - δ / 2 ≤ p.2)).map Prod.fst |>.insertionSort fun p q => p.1 ≤ q.1

/-- plots/basics.py:277-279. -/
noncomputable def cumulative (w : List ℝ) : List ℝ := 0 :: (cumsumFrom 0 w ++ [w.sum])

/-- plots/basics.py:284-286. Weights of sum zero that are not all zero give infinite values in numpy, here zero (simplification). -/
noncomputable def normalise (normalize : Bool) (c : List ℝ) (total : ℝ) : List ℝ := if normalize then c.map fun v => v / total else c

/-- plots/basics.py:265-288: the line for one completeness magnitude; nothing is drawn if the sum is not positive. -/
noncomputable def cumLine (times mags weights : List ℝ) (first last δ : ℝ) (normalize : Bool) (mc : ℝ) : Py (Option (List (ℝ × ℝ))) :=
  if mags.length ≠ times.length ∨ weights.length ≠ times.length then .error .indexError
  else
    let s := selected times mags weights mc δ
    let c := cumulative (s.map Prod.snd)
    if 0 < c.sum then .ok (some ((first :: (s.map Prod.fst ++ [last])).zip (normalise normalize c (s.map Prod.snd).sum)))
    else .ok none

/-- plots/basics.py:205-293 `plot_cum_count`: one line per completeness magnitude. `colors` is the length of a list of colours. -/
noncomputable def plotCumCount (times mags : List ℝ) (mcs : Option (List ℝ)) (δ : Option ℝ) (weights : Option (List ℝ)) (normalize : Bool) (colors : Option ℕ) :
    Py (List (Option (List (ℝ × ℝ)))) :=
  match amin? times, amax? times with
  | some first, some last => do
    let ms ← match mcs with
      | some l => .ok l
      | none => match amin? mags with
        | some m => .ok [m]
        | none => .error .valueError
    let w := weights.getD (times.map fun _ => 1)
    match colors with
    | some n => if n ≠ ms.length then .error .valueError else ms.mapM (cumLine times mags w first last (δ.getD 0) normalize)
    | none => ms.mapM (cumLine times mags w first last (δ.getD 0) normalize)
  | _, _ => .error .valueError

/-- An entry of `mc_change_times`: a year or a time. -/
inductive Tm where
  | year (y : ℤ) | at (t : ℝ)

/-- plots/basics.py:362 `dt.datetime(x, 1, 1)`. -/
noncomputable def toTime (newYear : ℤ → ℝ) : Tm → Py ℝ
  | .year y => if 1 ≤ y ∧ y ≤ 9999 then .ok (newYear y) else .error .valueError
  | .at _ => .error .typeError

/-- The two lists of the caller, which the function can change. -/
structure Lists where
  changeTimes : List Tm
  mcs : List ℝ

/-- The x coordinate of an entry when it is drawn; matplotlib cannot mix dates and integers (not modelled: the year is its own coordinate). -/
noncomputable def coord : Tm → ℝ
  | .year y => y
  | .at t => t

/-- `ax.step(x, y)`: lists of different lengths are a ValueError. -/
noncomputable def stepLine (x : List ℝ) (y : List ℝ) : Py (List (ℝ × ℝ)) := if x.length = y.length then .ok (x.zip y) else .error .valueError

/-- plots/basics.py:364-366 for times: both lists of the caller are extended. -/
noncomputable def drawTimes (last : ℝ) (s : Lists) : Lists × Py (List (ℝ × ℝ)) :=
  let ct := s.changeTimes ++ [Tm.at last]
  match s.mcs.getLast? with
  | none => ({ s with changeTimes := ct }, .error .indexError)
  | some m => ({ changeTimes := ct, mcs := s.mcs ++ [m] }, stepLine (ct.map coord) (s.mcs ++ [m]))

/-- plots/basics.py:361-366 for years: the times are a new list, the list of completeness magnitudes of the caller is extended. -/
noncomputable def drawYears (newYear : ℤ → ℝ) (last : ℝ) (s : Lists) : Lists × Py (List (ℝ × ℝ)) :=
  match s.changeTimes.mapM (toTime newYear) with
  | .error e => (s, .error e)
  | .ok ts => match s.mcs.getLast? with
    | none => (s, .error .indexError)
    | some m => ({ s with mcs := s.mcs ++ [m] }, stepLine (ts ++ [last]) (s.mcs ++ [m]))

/-- plots/basics.py:360-366 when both lists are given. -/
noncomputable def drawMc (newYear : ℤ → ℝ) (last : ℝ) (s : Lists) : Lists × Py (List (ℝ × ℝ)) :=
  match s.changeTimes with
  | [] => (s, .error .indexError)
  | .year _ :: _ => drawYears newYear last s
  | .at _ :: _ => drawTimes last s

/-- plots/basics.py:296-370 `plot_mags_in_time` with both lists: the scatter needs events, and as many times as magnitudes. The line is returned. -/
noncomputable def plotMagsInTime (newYear : ℤ → ℝ) (times mags : List ℝ) (s : Lists) : Lists × Py (List (ℝ × ℝ)) :=
  if times.length ≠ mags.length then (s, .error .valueError)
  else match amax? times with
    | none => (s, .error .valueError)
    | some last => drawMc newYear last s

/-- plots/basics.py:399-404. -/
noncomputable def largestDot (smallest largest : ℝ) : ℝ := if largest ≤ smallest then 50 * max smallest 2 else largest

/-- `np.power(x, p)` for `x` in `[0, 1]` or NaN. -/
noncomputable def npPower (p : ℝ) : Fl ℝ → Fl ℝ
  | .fin x => if x = 0 ∧ p < 0 then .pinf else .fin (x ^ p)
  | _ => if p = 0 then .fin 1 else .nan

/-- plots/basics.py:408-410, 444-446: normalise, raise to a power, scale. -/
noncomputable def rescale (lo hi p a b : ℝ) (x : ℝ) : Fl ℝ := Fl.mapFin (fun v => v * (b - a) + a) (npPower p (Fl.div (x - lo) (hi - lo)))

/-- plots/basics.py:373-412 `dot_size`. -/
noncomputable def dotSize (mags : List ℝ) (smallest largest p : ℝ) : Py (List (Fl ℝ)) :=
  match amin? mags, amax? mags with
  | some lo, some hi => .ok (mags.map (rescale lo hi p smallest (largestDot smallest largest)))
  | _, _ => .error .valueError

/-- plots/basics.py:415-447 `reverse_dot_size`. -/
noncomputable def reverseDotSize (sizes : List ℝ) (minMag maxMag p : ℝ) : Py (List (Fl ℝ)) :=
  if p = 0 then .error .valueError
  else match amin? sizes, amax? sizes with
    | some lo, some hi => .ok (sizes.map (rescale lo hi (1 / p) minMag maxMag))
    | _, _ => .error .valueError

end PlotBasics
end SeismoStats
