/-
The estimators that sort by time (seismostats/analysis/bvalue/positive.py, bvalue/more_positive.py, see Model/BValue.lean; avalue/positive.py,
avalue/more_positive.py, see Model/AValue.lean) with missing times (`none` for NaT or NaN). The attribute `times` after the call is not modelled.
-/
import Verif.Model.BValue
import Verif.Model.AValue

namespace SeismoStats
open Classical

/-- The order of `np.sort` for times: missing ones are last. -/
def timeBefore : Option ℝ → Option ℝ → Prop
  | some a, some b => a ≤ b
  | some _, none => True
  | none, some _ => False
  | none, none => True

/-- `np.argsort` (stable, see Model/Numpy.lean). -/
noncomputable def argsortM (t : List (Option ℝ)) : List ℕ :=
  (List.range t.length).insertionSort fun i j => timeBefore (t.getD i none) (t.getD j none)

namespace BValue
noncomputable section

/-- bvalue/positive.py:112-119, bvalue/more_positive.py:118-127: sorting by time; b-more-positive also sorts the retained originals. -/
def sortByTimeM (c : Cls) (s : State) (t : List (Option ℝ)) : State :=
  let srt := argsortM t
  { s with
    mags := s.mags.map (take' · srt)
    weights := s.weights.map (take' · srt)
    idx := s.idx.map (take' · srt)
    origMags := if c = .morePositive then s.origMags.map (take' · srt) else s.origMags
    origWeights := if c = .morePositive then (if s.weights.isSome then s.origWeights.map (take' · srt) else s.origWeights) else s.origWeights }

/-- bvalue/base.py:72-83 with missing times. After the sorting the times are only filtered along, so that the rest is that without times. -/
def afterFilterM (c : Cls) (s : State) (t : List (Option ℝ)) : State × Py (Fl ℝ) :=
  let s := { s with origMags := some (nums s.mags) }
  let s := match s.weights with
    | some w => { s with origWeights := some w }
    | none => s
  if (s.mags.getD []).length = 0 then
    ({ s with b := some .nan }, .ok .nan)
  else
    store (estimate c (sortByTimeM c s t))

/-- bvalue/base.py:64-83, bvalue/positive.py:103-109, bvalue/more_positive.py:109-115 with missing times. -/
def baseCalculateM (c : Cls) (warn : Bool) (s : State) (a : Args) (times : List (Option ℝ)) : State × Py (Fl ℝ) :=
  match sanityChecks warn { s with mags := some a.mags, mc := some a.mc, δ := some a.δ, weights := a.weights } with
  | (s, .error e) => (s, .error e)
  | (s, .ok ()) =>
    match filterMagnitudes warn s with
    | (s, .error e) => (s, .error e)
    | (s, .ok ()) =>
      match gather times (s.idx.getD []) with
      | .error e => (s, .error e)
      | .ok t => afterFilterM c s t

/-- bvalue/positive.py:88-101, bvalue/more_positive.py:94-107: `calculate` of the two classes with missing times. -/
def calculateM (c : Cls) (warn : Bool) (s : State) (a : Args) (times : List (Option ℝ)) : State × Py (Fl ℝ) :=
  let dmc := a.dmc.getD a.δ
  let s := { s with times := none, dmc := some dmc, warned := [] }
  if dmc < 0 then (s, .error .valueError)
  else
    let s := { s with warned := s.warned ++ (if dmc < a.δ && warn then [.dmcSmall] else []) }
    baseCalculateM c warn s a times

end
end BValue

namespace AValue
open BValue (take' nums findNextLarger)
noncomputable section

/-- A difference of times: NaT if one is missing. -/
def minusM : Option ℝ → Option ℝ → Option ℝ
  | some a, some b => some (a - b)
  | _, _ => none

/-- A quotient of time differences: NaN if one is missing. -/
def divM : Option ℝ → Option ℝ → Fl ℝ
  | some a, some b => Fl.div a b
  | _, _ => .nan

/-- avalue/positive.py:119-123, avalue/more_positive.py:125-129: sorting by time. -/
def sortByTimeM (s : State) (t : List (Option ℝ)) : State :=
  { s with
    mags := s.mags.map (take' · (argsortM t))
    idx := s.idx.map (take' · (argsortM t)) }

/-- avalue/positive.py:142-149, avalue/more_positive.py:153-169: `log10(n / sum(waits/total))`. -/
def rateM (n : ℕ) (waits : List (Option ℝ)) (total : Option ℝ) : Fl ℝ :=
  (Fl.over n (Fl.sum (waits.map fun w => divM w total))).log10

/-- `t[-1] - t[0]`. -/
def spanM (t : List (Option ℝ)) : Option ℝ := minusM (t.getLastD none) (t.headD none)

/-- avalue/positive.py:118-149 `APositiveAValueEstimator._estimate`. -/
def positiveM (warn : Bool) (s : State) (t : List (Option ℝ)) : State × Fl ℝ :=
  let s := sortByTimeM s t
  let t := take' t (argsortM t)
  let larger := (diff (nums s.mags)).map fun x => decide (s.dmc.getD 0 - s.δ.getD 0 / 2 ≤ x)
  let waits := mask (List.zipWith (fun a b => minusM b a) t t.tail) larger
  let s : State := { s with
    mags := s.mags.map fun l => mask l.tail larger
    idx := s.idx.map fun l => mask l.tail larger }
  if waits.length = 0 then
    ({ s with warned := s.warned ++ (if warn then [.notEnough] else []) }, .nan)
  else (s, rateM (larger.count true) waits (spanM t))

/-- avalue/more_positive.py:134-150: waiting time to the next larger event, or to the end. -/
def waitsMoreM (t : List (Option ℝ)) (nxt : List ℕ) : List (Option ℝ) :=
  List.zipWith (fun j x => if j = 0 then minusM (t.getLastD none) x else minusM (t.getD j none) x) nxt t

/-- avalue/more_positive.py:156-157. -/
def scaleWaitsM (w : List (Option ℝ)) (m : List ℝ) (b dmc mc : ℝ) : List (Option ℝ) :=
  List.zipWith (fun w m => w.map fun w => w * (10 : ℝ) ^ (-b * (m + dmc - mc))) w m

/-- avalue/more_positive.py:124-169 `AMorePositiveAValueEstimator._estimate`. -/
def morePositiveM (warn : Bool) (s : State) (t : List (Option ℝ)) : State × Fl ℝ :=
  let s := sortByTimeM s t
  let t := take' t (argsortM t)
  let m := nums s.mags
  let nxt := findNextLarger m (s.δ.getD 0) (some (s.dmc.getD 0))
  if nxt.count 0 = nxt.length then
    ({ s with
        mags := some []
        idx := some []
        warned := s.warned ++ (if warn then [.notEnough] else []) }, .nan)
  else
    let tau := scaleWaitsM (waitsMoreM t nxt) m (s.b.getD 0) (s.dmc.getD 0) (s.mc.getD 0)
    let nx := mask nxt (nxt.map fun j => decide (j ≠ 0))
    ({ s with
        mags := s.mags.map fun l => nx.map fun j => l.getD j none
        idx := s.idx.map fun l => nx.map fun j => l.getD j 0 },
      rateM nx.length tau (spanM t))

/-- avalue/base.py:88-142, avalue/positive.py:94-116, avalue/more_positive.py:100-122 with missing times. -/
def baseCalculateM (c : Cls) (warn : Bool) (s : State) (x : Args) (times : List (Option ℝ)) : State × Py (Fl ℝ) :=
  let s : State := { s with mags := some x.mags, mc := some x.mc, δ := some x.δ, scaling := x.scaling, mref := x.mref, b := x.b }
  match BValue.checkBinning x.mags x.δ with
  | .error e => (s, .error e)
  | .ok () =>
    let s : State := { s with warned := s.warned ++ sanityWarn warn x.mags x.mc x.δ }
    match filterMagnitudes .classic warn s with
    | (s, .error e) => (s, .error e)
    | (s, .ok ()) =>
      match gather times (s.idx.getD []) with
      | .error e => (s, .error e)
      | .ok t =>
        if (s.mags.getD []).length = 0 then ({ s with a := some .nan }, .ok .nan)
        else finish (if c = .morePositive then morePositiveM warn s t else positiveM warn s t)

/-- avalue/positive.py:94-109, avalue/more_positive.py:95-115: `calculate` of the two classes with missing times. -/
def calculateM (c : Cls) (warn : Bool) (s : State) (x : Args) (times : List (Option ℝ)) : State × Py (Fl ℝ) :=
  let s : State := { s with warned := [], times := none }
  if c = .morePositive ∧ x.b.getD 0 = 0 then (s, .error .valueError)
  else
    let dmc := x.dmc.getD x.δ
    let s : State := { s with dmc := some dmc }
    if dmc < 0 then (s, .error .valueError)
    else
      let s : State := { s with warned := s.warned ++ (if dmc < x.δ && warn then [.dmcSmall] else []) }
      baseCalculateM c warn s x times

end
end AValue
end SeismoStats
