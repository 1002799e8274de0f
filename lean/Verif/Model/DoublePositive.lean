/-
Model of the b-positive and the b-more-positive estimator (seismostats/analysis/bvalue/positive.py, more_positive.py) in double precision, for a bin size
`delta_m > 0`.
-/
import Verif.Model.DoubleBValue

namespace SeismoStats
namespace Double
noncomputable section
open Classical

/-- bvalue/classic.py:7-21 `_mle_estimator`, also for an empty array: the mean is NaN, an empty array of weights raises. -/
def mleAll (N : Np) (mags : List ℝ) (mc δ : ℝ) (w : Option (List ℝ)) : Py (Fl ℝ) :=
  if mags = [] then (match w with
    | none => .ok .nan
    | some _ => .error .zeroDivision)
  else mle N mags mc δ w

/-- `np.diff`. -/
def diff (m : List ℝ) : List ℝ := List.zipWith (fun x y => sub y x) m m.tail

/-- bvalue/positive.py:121-138 on the magnitudes and weights in the order of time. -/
def estimatePositive (N : Np) (m : List ℝ) (dmc δ : ℝ) (places : ℕ) (w : Option (List ℝ)) : Py (Fl ℝ) :=
  if δ < eps then .error .valueError
  else
    let larger := (diff m).map fun d => decide (threshold dmc δ ≤ d)
    mleAll N (mask ((diff m).map (binTo δ places)) larger) dmc δ (w.map fun l => mask l.tail larger)

/-- bvalue/more_positive.py:128-149 on the magnitudes and weights in the order of time. -/
def estimateMorePositive (N : Np) (m : List ℝ) (dmc δ : ℝ) (places : ℕ) (w : Option (List ℝ)) : Py (Fl ℝ) :=
  let nxt := findNextLarger m δ dmc
  if δ < eps then .error .valueError
  else
    let d := (List.zipWith (fun j x => sub (m.getD j 0) x) nxt m).map (binTo δ places)
    let has := nxt.map fun j => decide (j ≠ 0)
    mleAll N (mask d has) dmc δ (w.map fun l => (mask nxt has).map fun j => l.getD j 0)

/-- bvalue/positive.py:112-119, bvalue/more_positive.py:118-126: the positions of the used events in the order of time (the code sorts the arrays, here their
positions are sorted). -/
def timeOrder (times : Option (List ℝ)) (idx : List ℕ) : List ℕ :=
  match times with
  | none => idx
  | some t => BValue.take' idx (argsort (idx.map fun i => t.getD i 0))

/-- The `_estimate` methods of the two classes on the used events. -/
def estimateOrdered (N : Np) (c : BValue.Cls) (mags : List (Option ℝ)) (dmc δ : ℝ) (places : ℕ) (w : Option (List ℝ)) (o : List ℕ) : Py (Fl ℝ) :=
  let m := (o.map fun i => mags.getD i none).filterMap id
  let w := w.map fun l => o.map fun i => l.getD i 0
  match c with
  | .positive => estimatePositive N m dmc δ places w
  | _ => estimateMorePositive N m dmc δ places w

/-- bvalue/positive.py:44-101, bvalue/more_positive.py:50-107 and bvalue/base.py:65-83: `calculate` of the two classes on a new object (without the warnings). -/
def calculatePositive (N : Np) (c : BValue.Cls) (mags : List (Option ℝ)) (mc δ : ℝ) (places : ℕ) (times : Option (List ℝ)) (dmc : Option ℝ)
    (w : Option (List ℝ)) : Py (Fl ℝ) :=
  if dmc.getD δ < 0 then .error .valueError
  else do
    checkBinning mags δ places
    BValue.checkWeights mags.length w
    let idx := selIdx mags mc δ
    let _ ← BValue.gatherOpt times idx
    if idx = [] then pure .nan else estimateOrdered N c mags (dmc.getD δ) δ places w (timeOrder times idx)

end
end Double
end SeismoStats
