/-
Model of seismostats/analysis/bvalue: base.py, classic.py, utsu.py, positive.py,
more_positive.py, utils.py, __init__.py.
-/
import Verif.Model.Numpy

namespace SeismoStats.BValue
open SeismoStats
noncomputable section

/-- bvalue/utils.py:40-49 `beta_to_b_value`. -/
def betaToB (β : Fl ℝ) : Fl ℝ := β.mapFin (· / Real.log 10)

/-- bvalue/utils.py:52-61 `b_value_to_beta`. -/
def bToBeta (b : Fl ℝ) : Fl ℝ := b.mapFin (· * Real.log 10)

/-- bvalue/classic.py:7-21 `_mle_estimator`. -/
def mleEstimator (mags : List ℝ) (mc δ : ℝ) (w : Option (List ℝ)) : Py (Fl ℝ) := do
  let a ← average (mags.map fun m => m - mc) w
  let β :=
    if 0 < δ then
      -- p = 1 + delta_m / average; beta = 1/delta_m * log p
      let p : Fl ℝ := match a with
        | .fin v => (Fl.div δ v).mapFin (1 + ·)
        | o => o
      p.log.mapFin (1 / δ * ·)
    else
      match a with
      | .fin v => Fl.div 1 v
      | o => o
  pure (betaToB β)

/-- bvalue/utsu.py:40-43 `UtsuBValueEstimator._estimate`. -/
def utsuEstimator (mags : List ℝ) (mc δ : ℝ) (w : Option (List ℝ)) : Py (Fl ℝ) := do
  let a ← average (mags.map fun m => m - mc + δ / 2) w
  let β : Fl ℝ := match a with
    | .fin v => Fl.div 1 v
    | o => o
  pure (betaToB β)

/-- The four estimator classes built on `BValueEstimator.calculate`. -/
inductive Cls where | classic | utsu | positive | morePositive
  deriving DecidableEq

/-- The warnings the estimators can emit. -/
inductive Warn where
  | lowestBinEmpty | noMagnitudes | dmcSmall
  deriving DecidableEq

/-- Attributes of an estimator object (bvalue/base.py:17-26, bvalue/positive.py:88-90).
`None` is `none`. After filtering, `mags` has no NaN left. -/
structure State where
  mags : Option (List (Option ℝ)) := none
  mc : Option ℝ := none
  δ : Option ℝ := none
  weights : Option (List ℝ) := none
  idx : Option (List ℕ) := none
  times : Option (List ℝ) := none
  dmc : Option ℝ := none
  b : Option (Fl ℝ) := none
  origMags : Option (List ℝ) := none
  origWeights : Option (List ℝ) := none
  /-- Not an attribute: the warnings emitted during the last call. -/
  warned : List Warn := []

/-- A fresh estimator. -/
def State.init : State := {}

/-- Arguments of `calculate`. `times` and `dmc` exist for the two positive
estimators only. Times are real numbers (any linearly ordered time format). -/
structure Args where
  mags : List (Option ℝ)
  mc : ℝ
  δ : ℝ
  weights : Option (List ℝ) := none
  times : Option (List ℝ) := none
  dmc : Option ℝ := none

/-- bvalue/base.py:111-114: the binning check. -/
def checkBinning (mags : List (Option ℝ)) (δ : ℝ) : Py Unit :=
  if 0 < mags.length then
    match binningTest mags δ (defaultTol ℝ) false with
    | .error e => .error e
    | .ok ok => if ok then .ok () else .error .valueError
  else .ok ()

/-- bvalue/base.py:116-122: the warning of `_sanity_checks`. `np.min` is NaN if
there is a NaN, and the comparison then false. -/
def sanityWarnings (warn : Bool) (mags : List (Option ℝ)) (mc δ : ℝ) : List Warn :=
  if 0 < mags.length then
    if warn then
      match mags.mapM id >>= amin? with
      | some m => if δ / 2 < m - mc then [.lowestBinEmpty] else []
      | none => []
    else []
  else []

/-- bvalue/base.py:125-130: the weights check. -/
def checkWeights (n : ℕ) (w : Option (List ℝ)) : Py Unit :=
  match w with
  | none => .ok ()
  | some w =>
    if n ≠ w.length then .error .indexError
    else if w.any fun x => decide (x < 0) then .error .valueError
    else .ok ()

/-- bvalue/base.py:106-130 `_sanity_checks`. `warn` is the option 'warnings'. -/
def sanityChecks (warn : Bool) (s : State) : State × Py Unit :=
  let mags := s.mags.getD []
  match checkBinning mags (s.δ.getD 0) with
  | .error e => (s, .error e)
  | .ok () =>
    let s := { s with warned := s.warned ++ sanityWarnings warn mags (s.mc.getD 0) (s.δ.getD 0) }
    (s, checkWeights mags.length s.weights)

/-- bvalue/base.py:96: positions of the magnitudes `≥ mc - delta_m/2`; a comparison
with NaN is false. -/
def selIdx (mags : List (Option ℝ)) (mc δ : ℝ) : List ℕ :=
  (List.range mags.length).filter fun i =>
    match mags.getD i none with
    | some m => decide (mc - δ / 2 ≤ m)
    | none => false

/-- bvalue/utils.py:107-135 `find_next_larger` (dmc given): inner loop from `jj`. -/
def nextFrom (m : List ℝ) (thr : ℝ) (x : ℝ) : ℕ → ℕ → ℕ
  | 0, _ => 0
  | fuel + 1, jj =>
    match m[jj]? with
    | none => 0
    | some y => if thr ≤ y - x then jj else nextFrom m thr x fuel (jj + 1)

/-- bvalue/utils.py:107-135 `find_next_larger`: `dmc = None` means `delta_m`. -/
def findNextLarger (m : List ℝ) (δ : ℝ) (dmc : Option ℝ) : List ℕ :=
  let d := dmc.getD δ
  (List.range m.length).map fun ii =>
    if ii + 1 < m.length then nextFrom m (d - δ / 2) (m.getD ii 0) m.length (ii + 1) else 0

/-- Optional fancy indexing of an optional array. -/
def gatherOpt {α : Type} (a : Option (List α)) (idx : List ℕ) : Py (Option (List α)) :=
  match a with
  | none => .ok none
  | some l => (gather l idx).map some

/-- The numbers stored in an attribute that has no NaN any more. -/
def nums (m : Option (List (Option ℝ))) : List ℝ := (m.getD []).filterMap id

/-- `l[order]` for an `order` within bounds. -/
def take' {α : Type} [Inhabited α] (l : List α) (order : List ℕ) : List α :=
  order.map fun i => l.getD i default

/-- bvalue/positive.py:112-119, bvalue/more_positive.py:118-126: sorting by time. -/
def sortByTime (s : State) : State :=
  match s.times with
  | none => s
  | some t =>
    let srt := argsort t
    { s with
      mags := s.mags.map (take' · srt)
      times := some (take' t srt)
      weights := s.weights.map (take' · srt)
      idx := s.idx.map (take' · srt) }

/-- bvalue/more_positive.py:121,125: this class also sorts the retained originals. -/
def sortOriginals (s : State) : State :=
  match s.times with
  | none => s
  | some t =>
    let srt := argsort t
    { s with
      origMags := s.origMags.map (take' · srt)
      origWeights := if s.weights.isSome then s.origWeights.map (take' · srt) else s.origWeights }

/-- bvalue/positive.py:124-125. -/
def binDiffs (d : List ℝ) (δ : ℝ) : Py (List ℝ) := if 0 < δ then binArr d δ else .ok d

/-- bvalue/positive.py:111-138 `BPositiveBValueEstimator._estimate`. The boolean masks and
the sorting keep the lengths equal, so no indexing error can occur here. -/
def estimatePositive (s : State) : State × Py (Fl ℝ) :=
  let s := sortByTime s
  let δ := s.δ.getD 0
  let dmc := s.dmc.getD 0
  let d := diff (nums s.mags)
  let larger := d.map fun x => decide (dmc - δ / 2 ≤ x)
  match binDiffs d δ with
  | .error e => (s, .error e)
  | .ok d =>
    let s := { s with
      mags := some ((mask d larger).map some)
      idx := s.idx.map fun l => mask l.tail larger
      weights := s.weights.map fun l => mask l.tail larger
      times := s.times.map fun l => mask l.tail larger }
    (s, mleEstimator (nums s.mags) dmc δ s.weights)

/-- bvalue/more_positive.py:117-149 `BMorePositiveBValueEstimator._estimate`. -/
def estimateMorePositive (s : State) : State × Py (Fl ℝ) :=
  let s := sortByTime (sortOriginals s)
  let δ := s.δ.getD 0
  let dmc := s.dmc.getD 0
  let m := nums s.mags
  let nxt := findNextLarger m δ (some dmc)
  let d := List.zipWith (fun j x => m.getD j 0 - x) nxt m
  match binArr d δ with
  | .error e => (s, .error e)
  | .ok d =>
    let has := nxt.map fun j => decide (j ≠ 0)
    let nx := mask nxt has
    let s := { s with
      mags := some ((mask d has).map some)
      idx := s.idx.map fun l => nx.map fun j => l.getD j 0
      weights := s.weights.map fun l => nx.map fun j => l.getD j 0
      times := s.times.map fun l => nx.map fun j => l.getD j 0 }
    (s, mleEstimator (nums s.mags) dmc δ s.weights)

/-- The `_estimate` methods. -/
def estimate (c : Cls) (s : State) : State × Py (Fl ℝ) :=
  match c with
  | .classic => (s, mleEstimator (nums s.mags) (s.mc.getD 0) (s.δ.getD 0) s.weights)
  | .utsu => (s, utsuEstimator (nums s.mags) (s.mc.getD 0) (s.δ.getD 0) s.weights)
  | .positive => estimatePositive s
  | .morePositive => estimateMorePositive s

/-- bvalue/base.py:92-104 `_filter_magnitudes`, with the extension of
bvalue/positive.py:103-109 / bvalue/more_positive.py:109-115 for the times. -/
def filterMagnitudes (warn : Bool) (s : State) : State × Py Unit :=
  let mags := s.mags.getD []
  let idx := selIdx mags (s.mc.getD 0) (s.δ.getD 0)
  let s := { s with
    idx := some idx
    mags := some (idx.map fun i => mags.getD i none) }
  match gatherOpt s.weights idx with
  | .error e => (s, .error e)
  | .ok w =>
    let s := { s with
      weights := w
      warned := s.warned ++
        (if idx.length = 0 then (if warn then [.noMagnitudes] else []) else []) }
    match gatherOpt s.times idx with
    | .error e => (s, .error e)
    | .ok t => ({ s with times := t }, .ok ())

/-- bvalue/base.py:82-83: store the estimate, unless an exception was raised. -/
def store : State × Py (Fl ℝ) → State × Py (Fl ℝ)
  | (s, .error e) => (s, .error e)
  | (s, .ok b) => ({ s with b := some b }, .ok b)

/-- bvalue/base.py:65-83: the body of `BValueEstimator.calculate`. -/
def baseCalculate (c : Cls) (warn : Bool) (s : State) (a : Args) : State × Py (Fl ℝ) :=
  let s := { s with mags := some a.mags, mc := some a.mc, δ := some a.δ, weights := a.weights }
  match sanityChecks warn s with
  | (s, .error e) => (s, .error e)
  | (s, .ok ()) =>
    match filterMagnitudes warn s with
    | (s, .error e) => (s, .error e)
    | (s, .ok ()) =>
      let s := { s with origMags := some (nums s.mags) }
      let s := match s.weights with
        | some w => { s with origWeights := some w }
        | none => s
      if (s.mags.getD []).length = 0 then
        ({ s with b := some .nan }, .ok .nan)
      else
        store (estimate c s)

/-- `calculate` of the four classes: bvalue/base.py:28-83, bvalue/positive.py:88-101,
bvalue/more_positive.py:94-107. -/
def calculate (c : Cls) (warn : Bool) (s : State) (a : Args) : State × Py (Fl ℝ) :=
  let s := { s with warned := [] }
  match c with
  | .classic | .utsu => baseCalculate c warn s a
  | .positive | .morePositive =>
    let dmc := a.dmc.getD a.δ
    let s := { s with times := a.times, dmc := some dmc }
    if dmc < 0 then (s, .error .valueError)
    else
      let s := { s with warned := s.warned ++ (if dmc < a.δ && warn then [.dmcSmall] else []) }
      baseCalculate c warn s a

/-- bvalue/base.py:253-301, bvalue/positive.py:147-166, bvalue/more_positive.py:204-223 and the plain attributes `times` and `idx`: assignments `estimator.x = v` by the user. -/
inductive Assign where
  | magnitudes (v : List (Option ℝ))
  | mc (v : ℝ)
  | deltaM (v : ℝ)
  | weights (v : Option (List ℝ))
  | idx (v : Option (List ℕ))
  | times (v : Option (List ℝ))
  | dmc (v : ℝ)

/-- `times` and `dmc` are attributes of the two positive classes only. -/
def Assign.allowed (c : Cls) : Assign → Prop
  | .times _ | .dmc _ => c = .positive ∨ c = .morePositive
  | _ => True

/-- The setters store the value and do nothing else. -/
def Assign.apply (s : State) : Assign → State
  | .magnitudes v => { s with mags := some v }
  | .mc v => { s with mc := some v }
  | .deltaM v => { s with δ := some v }
  | .weights v => { s with weights := v }
  | .idx v => { s with idx := v }
  | .times v => { s with times := v }
  | .dmc v => { s with dmc := some v }

/-- The states an estimator object can reach: any sequence of `calculate` calls,
failed ones included, with any setting of the option, and assignments. -/
inductive Reachable (c : Cls) : State → Prop
  | init : Reachable c State.init
  | call {s : State} (warn : Bool) (a : Args) :
    Reachable c s → Reachable c (calculate c warn s a).1
  | assign {s : State} (x : Assign) : x.allowed c → Reachable c s → Reachable c (x.apply s)

/-- The object after a sequence of calls (setting of the option, arguments). -/
def run (c : Cls) (calls : List (Bool × Args)) : State :=
  calls.foldl (fun s x => (calculate c x.1 s x.2).1) State.init

/-- bvalue/base.py:140-155 `b_value`, `value`. -/
def State.bValue (s : State) : Py (Fl ℝ) :=
  match s.b with
  | none => .error .attributeError
  | some b => .ok b

/-- bvalue/base.py:157-163 `beta`. -/
def State.beta (s : State) : Py (Fl ℝ) := s.bValue.map bToBeta

/-- bvalue/base.py:231-237 `n`. -/
def State.n (s : State) : Py ℕ :=
  match s.b with
  | none => .error .attributeError
  | some _ => .ok (s.mags.getD []).length

/-- bvalue/utils.py:98-100: `np.log(10) * b**2 * sd / sqrt(n-1)` with numpy's rules
for NaN, infinities and division by zero. -/
def shiBoltFormula (b : Fl ℝ) (sd : ℝ) (sn : Fl ℝ) : Fl ℝ :=
  match b, sn with
  | .nan, _ => .nan
  | .fin b, .fin sn => Fl.div (Real.log 10 * b ^ 2 * sd) sn
  | _, .fin _ => if sd = 0 then .nan else .pinf
  | _, _ => .nan

/-- bvalue/utils.py:93-96: `len_mags`. -/
def lenMags (mags : List ℝ) (w : Option (List ℝ)) : ℝ :=
  match w with
  | none => mags.length
  | some w => w.sum

/-- bvalue/utils.py:64-104 `shi_bolt_confidence`; `isBeta` is `b_parameter == 'beta'`
(other values than 'b_value' and 'beta' raise ValueError and are not modelled here). -/
def shiBolt (mags : List ℝ) (b : Fl ℝ) (w : Option (List ℝ)) (isBeta : Bool) : Py (Fl ℝ) := do
  let mu ← average mags w
  match mu with
  | .fin mu =>
    let v ← average (mags.map fun m => (m - mu) ^ 2) w
    match v with
    | .fin v =>
      let r : Fl ℝ := shiBoltFormula b (Real.sqrt v) (Fl.sqrt (lenMags mags w - 1))
      pure (if isBeta then r.mapFin (· / Real.log 10) else r)
    | _ => pure .nan
  | _ => pure .nan

/-- bvalue/base.py:165-175 `std` of the base class. -/
def State.std (s : State) : Py (Fl ℝ) :=
  match s.b with
  | none => .error .attributeError
  | some b => shiBolt (nums s.mags) b s.weights false

/-- bvalue/base.py:177-187 `std_beta` of the base class. -/
def State.stdBeta (s : State) : Py (Fl ℝ) :=
  match s.b with
  | none => .error .attributeError
  | some b => shiBolt (nums s.mags) (bToBeta b) s.weights true

/-- bvalue/utils.py:7-37 `bootstrap_std`. The random draws are an argument: `draws` are
the index lists chosen by `rng.choice` (one per resample); `func` may raise.
`np.std(ddof=1)` of one value is NaN. -/
def bootstrapStd {α : Type} [Inhabited α] (sample : List α) (func : List α → Py (Fl ℝ))
    (draws : List (List ℕ)) : Py (Fl ℝ) := do
  let estimates ← draws.mapM fun d => func (take' sample d)
  let e := estimates.filterMap Fl.val?
  if e.length = 0 then throw .valueError
  else
    let mu := e.sum / e.length
    pure (match Fl.div ((e.map fun v => (v - mu) ^ 2).sum) ((e.length : ℝ) - 1) with
      | .fin v => Fl.sqrt v
      | o => o)

/-- bvalue/more_positive.py:162-172: the estimate of one bootstrap sample of positions. The positions are sorted, so that the
order in time is kept. The estimator object is the same for all samples; its results are those of a new object
(`C12_no_memory`) and do not depend on the option 'warnings' (`C17_b_result`). -/
def resampleB (s : State) (idx : List ℕ) : Py (Fl ℝ) :=
  let idx := idx.insertionSort (· ≤ ·)
  (calculate .morePositive false State.init
    { mags := (take' (s.origMags.getD []) idx).map some, mc := s.mc.getD 0, δ := s.δ.getD 0, weights := s.weights.map fun _ => take' (s.origWeights.getD []) idx, dmc := s.dmc }).2

/-- bvalue/more_positive.py:151-178 `_std_bootstrap`. `ω n` are the samples of positions drawn from `n` events (simplification: two
calls for the same number of events draw the same positions). -/
def stdBootstrap (ω : ℕ → List (List ℕ)) (s : State) : Py (Fl ℝ) :=
  bootstrapStd (List.range (s.origMags.getD []).length) (resampleB s) (ω (s.origMags.getD []).length)

/-- `std` of the four classes: bvalue/base.py:165-175, overridden in bvalue/more_positive.py:180-188. -/
def stdOf (c : Cls) (ω : ℕ → List (List ℕ)) (s : State) : Py (Fl ℝ) :=
  match c with
  | .morePositive =>
    match s.b with
    | none => .error .attributeError
    | some _ => stdBootstrap ω s
  | _ => s.std

/-- `std_beta` of the four classes: bvalue/base.py:177-187, overridden in bvalue/more_positive.py:190-199. -/
def stdBetaOf (c : Cls) (ω : ℕ → List (List ℕ)) (s : State) : Py (Fl ℝ) :=
  match c with
  | .morePositive => (stdOf c ω s).map bToBeta
  | _ => s.stdBeta

/-- Return value of `estimate_b`: a number or a tuple. -/
inductive Ret where
  | scalar (b : Fl ℝ)
  | tuple (l : List (Fl ℝ))

/-- The values of `b_parameter`. -/
inductive BParam where | bValue | beta | other
  deriving DecidableEq

/-- bvalue/__init__.py:97-119 `estimate_b`. `tuple(out)` of a float raises TypeError (line 117). -/
def estimateB (c : Cls) (ω : ℕ → List (List ℕ)) (warn : Bool) (a : Args) (p : BParam) (retStd retN : Bool) : Py Ret :=
  let (s, r) := calculate c warn State.init a
  match r with
  | .error e => .error e
  | .ok _ => do
    let b ← match p with
      | .bValue => s.bValue
      | .beta => s.beta
      | .other => throw .valueError
    let out : Ret := .scalar b
    let out ← if retStd then do
        let sd ← (if p = .bValue then stdOf c ω s else stdBetaOf c ω s)
        pure (Ret.tuple [b, sd])
      else pure out
    if retN then
      match out with
      | .scalar _ => throw .typeError
      | .tuple l => do
        let n ← s.n
        pure (.tuple (l ++ [.fin (n : ℝ)]))
    else pure out

/-- bvalue/utils.py:138-191 `make_more_incomplete`: kept events (magnitude, time) in time
order, and the mask (over the sorted events). -/
def makeMoreIncomplete (mags times : List ℝ) (δt : ℝ) : List (ℝ × ℝ) × List Bool :=
  let ev := (argsort times).map fun i => (mags.getD i 0, times.getD i 0)
  let keep := (List.range ev.length).map fun ii =>
    if ii = 0 then true
    else
      let close := (ev.take ii).filter fun e => decide ((ev.getD ii (0, 0)).2 - e.2 < δt)
      !(close.any fun e => decide ((ev.getD ii (0, 0)).1 < e.1))
  (mask ev keep, keep)

end

end SeismoStats.BValue
