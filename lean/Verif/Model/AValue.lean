/-
Model of seismostats/analysis/avalue: base.py, classic.py, positive.py,
more_positive.py, __init__.py.
-/
import Verif.Model.BValue

namespace SeismoStats
noncomputable section

namespace Fl

/-- IEEE addition with NaN and infinities. -/
def add : Fl ℝ → Fl ℝ → Fl ℝ
  | nan, _ => nan
  | _, nan => nan
  | fin x, fin y => fin (x + y)
  | fin _, pinf => pinf
  | fin _, ninf => ninf
  | pinf, ninf => nan
  | ninf, pinf => nan
  | pinf, _ => pinf
  | ninf, _ => ninf

/-- Negation. -/
def neg : Fl ℝ → Fl ℝ
  | fin x => fin (-x)
  | nan => nan
  | pinf => ninf
  | ninf => pinf

/-- Subtraction. -/
def sub (x y : Fl ℝ) : Fl ℝ := add x (neg y)

/-- Python's `sum` of a list of floats. -/
def sum (l : List (Fl ℝ)) : Fl ℝ := l.foldl add (fin 0)

/-- A finite number divided by a float. -/
def over (x : ℝ) : Fl ℝ → Fl ℝ
  | fin y => div x y
  | nan => nan
  | pinf => fin 0
  | ninf => fin 0

end Fl

namespace AValue
open BValue (checkBinning sanityWarnings selIdx nums take' findNextLarger)

/-- The three estimator classes. -/
inductive Cls where | classic | positive | morePositive
  deriving DecidableEq

/-- The warnings the estimators can emit. -/
inductive Warn where
  | lowestBinEmpty | noMagnitudes | dmcSmall | notEnough
  deriving DecidableEq

/-- Attributes of an a-value estimator (avalue/base.py:13-22, avalue/positive.py:94-95,
avalue/more_positive.py:100-101). -/
structure State where
  mags : Option (List (Option ℝ)) := none
  mc : Option ℝ := none
  δ : Option ℝ := none
  scaling : Option ℝ := none
  mref : Option ℝ := none
  b : Option ℝ := none
  idx : Option (List ℕ) := none
  times : Option (List ℝ) := none
  dmc : Option ℝ := none
  a : Option (Fl ℝ) := none
  /-- Not an attribute: the warnings emitted during the last call. -/
  warned : List Warn := []

/-- A fresh estimator. -/
def State.init : State := {}

/-- Arguments of `calculate`; `times` and `dmc` exist for the two positive classes only.
A NaN or infinite `b_value`, `m_ref` or `scaling_factor` is not modelled. -/
structure Args where
  mags : List (Option ℝ)
  mc : ℝ
  δ : ℝ
  times : List ℝ := []
  scaling : Option ℝ := none
  mref : Option ℝ := none
  b : Option ℝ := none
  dmc : Option ℝ := none

/-- avalue/base.py:116-122: the warning of `_sanity_checks`. -/
def sanityWarn (warn : Bool) (mags : List (Option ℝ)) (mc δ : ℝ) : List Warn :=
  if sanityWarnings warn mags mc δ = [] then [] else [.lowestBinEmpty]

/-- avalue/base.py:95-104 `_filter_magnitudes`, with avalue/positive.py:111-116 /
avalue/more_positive.py:117-122 for the times. -/
def filterMagnitudes (c : Cls) (warn : Bool) (s : State) : State × Py Unit :=
  let mags := s.mags.getD []
  let idx := selIdx mags (s.mc.getD 0) (s.δ.getD 0)
  let s : State := { s with
    idx := some idx
    mags := some (idx.map fun i => mags.getD i none)
    warned := s.warned ++ (if idx.length = 0 then (if warn then [.noMagnitudes] else []) else []) }
  match c with
  | .classic => (s, .ok ())
  | _ =>
    match gather (s.times.getD []) idx with
    | .error e => (s, .error e)
    | .ok t => ({ s with times := some t }, .ok ())

/-- avalue/positive.py:119-123, avalue/more_positive.py:125-129: sorting by time. -/
def sortByTime (s : State) : State :=
  let t := s.times.getD []
  let srt := argsort t
  { s with
    mags := s.mags.map (take' · srt)
    times := some (take' t srt)
    idx := s.idx.map (take' · srt) }

/-- avalue/positive.py:142-149, avalue/more_positive.py:153-169: `log10(n / sum(waits/total))`. -/
def rate (n : ℕ) (waits : List ℝ) (total : ℝ) : Fl ℝ :=
  (Fl.over n (Fl.sum (waits.map fun w => Fl.div w total))).log10

/-- `t[-1] - t[0]`. -/
def span (t : List ℝ) : ℝ := t.getLastD 0 - t.headD 0

/-- avalue/positive.py:118-149 `APositiveAValueEstimator._estimate`. When there is no
positive difference, `times` is left unfiltered (lines 136-139). -/
def estimatePositive (warn : Bool) (s : State) : State × Fl ℝ :=
  let s := sortByTime s
  let t := s.times.getD []
  let larger := (diff (nums s.mags)).map fun x => decide (s.dmc.getD 0 - s.δ.getD 0 / 2 ≤ x)
  let waits := mask (diff t) larger
  let s : State := { s with
    mags := s.mags.map fun l => mask l.tail larger
    idx := s.idx.map fun l => mask l.tail larger }
  if waits.length = 0 then
    ({ s with warned := s.warned ++ (if warn then [.notEnough] else []) }, .nan)
  else
    ({ s with times := some (mask t.tail larger) }, rate (larger.count true) waits (span t))

/-- avalue/more_positive.py:134-150: waiting time to the next larger event, or to the end. -/
def waitsMore (t : List ℝ) (nxt : List ℕ) : List ℝ :=
  List.zipWith (fun j x => if j = 0 then t.getLastD 0 - x else t.getD j 0 - x) nxt t

/-- avalue/more_positive.py:156-157. -/
def scaleWaits (w m : List ℝ) (b dmc mc : ℝ) : List ℝ :=
  List.zipWith (fun w m => w * (10 : ℝ) ^ (-b * (m + dmc - mc))) w m

/-- avalue/more_positive.py:124-169 `AMorePositiveAValueEstimator._estimate`. -/
def estimateMorePositive (warn : Bool) (s : State) : State × Fl ℝ :=
  let s := sortByTime s
  let t := s.times.getD []
  let m := nums s.mags
  let nxt := findNextLarger m (s.δ.getD 0) (some (s.dmc.getD 0))
  if nxt.count 0 = nxt.length then
    ({ s with
        mags := some []
        times := some []
        idx := some []
        warned := s.warned ++ (if warn then [.notEnough] else []) }, .nan)
  else
    let tau := scaleWaits (waitsMore t nxt) m (s.b.getD 0) (s.dmc.getD 0) (s.mc.getD 0)
    let nx := mask nxt (nxt.map fun j => decide (j ≠ 0))
    ({ s with
        mags := s.mags.map fun l => nx.map fun j => l.getD j none
        times := some (nx.map fun j => t.getD j 0)
        idx := s.idx.map fun l => nx.map fun j => l.getD j 0 },
      rate nx.length tau (span t))

/-- The `_estimate` methods; avalue/classic.py:39-40 is `log10(len(magnitudes))`. -/
def estimate (c : Cls) (warn : Bool) (s : State) : State × Fl ℝ :=
  match c with
  | .classic => (s, Fl.log10 (.fin ((s.mags.getD []).length : ℝ)))
  | .positive => estimatePositive warn s
  | .morePositive => estimateMorePositive warn s

/-- avalue/base.py:124-142 `_reference_scaling`. -/
def referenceScaling (s : State) (a : Fl ℝ) : Py (Fl ℝ) := do
  let a ← match s.mref with
    | none => pure a
    | some r => match s.b with
      | none => throw .valueError
      | some b => pure (a.sub (.fin (b * (r - s.mc.getD 0))))
  pure (match s.scaling with
    | none => a
    | some f => a.sub (Fl.log10 (.fin f)))

/-- avalue/base.py:83-86: the unscaled value is stored before it is scaled. -/
def finish (p : State × Fl ℝ) : State × Py (Fl ℝ) :=
  let s := { p.1 with a := some p.2 }
  match referenceScaling s p.2 with
  | .error e => (s, .error e)
  | .ok a => ({ s with a := some a }, .ok a)

/-- avalue/base.py:69-86: the body of `AValueEstimator.calculate`. -/
def baseCalculate (c : Cls) (warn : Bool) (s : State) (x : Args) : State × Py (Fl ℝ) :=
  let s : State := { s with mags := some x.mags, mc := some x.mc, δ := some x.δ, scaling := x.scaling, mref := x.mref, b := x.b }
  match checkBinning x.mags x.δ with
  | .error e => (s, .error e)
  | .ok () =>
    let s : State := { s with warned := s.warned ++ sanityWarn warn x.mags x.mc x.δ }
    match filterMagnitudes c warn s with
    | (s, .error e) => (s, .error e)
    | (s, .ok ()) =>
      if (s.mags.getD []).length = 0 then ({ s with a := some .nan }, .ok .nan)
      else finish (estimate c warn s)

/-- avalue/positive.py:94-109, avalue/more_positive.py:100-115. -/
def timedCalculate (c : Cls) (warn : Bool) (s : State) (x : Args) : State × Py (Fl ℝ) :=
  let dmc := x.dmc.getD x.δ
  let s : State := { s with times := some x.times, dmc := some dmc }
  if dmc < 0 then (s, .error .valueError)
  else
    let s : State := { s with warned := s.warned ++ (if dmc < x.δ && warn then [.dmcSmall] else []) }
    baseCalculate c warn s x

/-- `calculate` of the three classes; avalue/more_positive.py:95-98 rejects a falsy `b_value`. -/
def calculate (c : Cls) (warn : Bool) (s : State) (x : Args) : State × Py (Fl ℝ) :=
  let s : State := { s with warned := [] }
  match c with
  | .classic => baseCalculate c warn s x
  | .positive => timedCalculate c warn s x
  | .morePositive =>
    if x.b.getD 0 = 0 then (s, .error .valueError) else timedCalculate c warn s x

/-- avalue/base.py:193-268 and the plain attributes `idx`, `times`, `dmc`: assignments `estimator.x = v` by the user. -/
inductive Assign where
  | magnitudes (v : List (Option ℝ))
  | mc (v : ℝ)
  | deltaM (v : ℝ)
  | scalingFactor (v : Option ℝ)
  | mRef (v : Option ℝ)
  | bValue (v : Option ℝ)
  | idx (v : Option (List ℕ))
  | times (v : List ℝ)
  | dmc (v : ℝ)

/-- `times` and `dmc` are attributes of the two positive classes only. -/
def Assign.allowed (c : Cls) : Assign → Prop
  | .times _ | .dmc _ => c ≠ .classic
  | _ => True

/-- The setters store the value and do nothing else. -/
def Assign.apply (s : State) : Assign → State
  | .magnitudes v => { s with mags := some v }
  | .mc v => { s with mc := some v }
  | .deltaM v => { s with δ := some v }
  | .scalingFactor v => { s with scaling := v }
  | .mRef v => { s with mref := v }
  | .bValue v => { s with b := v }
  | .idx v => { s with idx := v }
  | .times v => { s with times := some v }
  | .dmc v => { s with dmc := some v }

/-- avalue/base.py:144-160 `a_value`, `value`. -/
def State.aValue (s : State) : Py (Fl ℝ) :=
  match s.a with
  | none => .error .attributeError
  | some a => .ok a

/-- avalue/base.py:171-177 `n`. -/
def State.n (s : State) : Py ℕ :=
  match s.a with
  | none => .error .attributeError
  | some _ => .ok (s.mags.getD []).length

/-- avalue/__init__.py:78-83 `estimate_a`. -/
def estimateA (c : Cls) (warn : Bool) (x : Args) : Py (Fl ℝ) :=
  let r := calculate c warn State.init x
  match r.2 with
  | .error e => .error e
  | .ok _ => r.1.aValue

end AValue
end
end SeismoStats
