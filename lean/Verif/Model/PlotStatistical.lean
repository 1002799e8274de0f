/-
Model of seismostats/plots/statistical.py in exact arithmetic: the numbers handed to matplotlib, not the picture. Additional keyword
arguments of the estimator: `dmc` only. The quantile function of the normal distribution is a parameter.
-/
import Verif.Model.BSignificant

namespace SeismoStats
namespace PlotStatistical
open SeismoStats
open SeismoStats.BValue (State calculate stdOf)
open SeismoStats.BSignificant (Mc)
open Classical
noncomputable section

/-- Lower or upper end of a band: `b + k * std` with numpy's rules (an infinite deviation times zero is NaN). -/
def bandEnd (b : Fl ℝ) (k : ℝ) (sd : Fl ℝ) : Fl ℝ :=
  match b, sd with
  | .fin x, .fin s => .fin (x + k * s)
  | .pinf, .fin _ => .pinf
  | .ninf, .fin _ => .ninf
  | .fin _, .pinf => if 0 < k then .pinf else if k < 0 then .ninf else .nan
  | .pinf, .pinf => if 0 < k then .pinf else .nan
  | .ninf, .pinf => if k < 0 then .ninf else .nan
  | _, _ => .nan

/-- plots/statistical.py:53-57: the loop over the completeness magnitudes, with one estimator object. -/
def mcLoop (c : BValue.Cls) (ω : ℕ → List (List ℕ)) (warn : Bool) (mags : List (Option ℝ)) (δ : ℝ) (dmc : Option ℝ) : State → List ℝ → Py (List (Fl ℝ × Fl ℝ))
  | _, [] => .ok []
  | s, mc :: r =>
    match calculate c warn s { mags := mags, mc := mc, δ := δ, dmc := dmc } with
    | (_, .error e) => .error e
    | (s', .ok _) => do
      let b ← s'.bValue
      let sd ← stdOf c ω s'
      let l ← mcLoop c ω warn mags δ dmc s' r
      pure ((b, sd) :: l)

/-- What `plot_mc_vs_b` draws at one completeness magnitude. -/
structure McPoint where
  mc : ℝ
  b : Fl ℝ
  lower : Fl ℝ
  upper : Fl ℝ

/-- plots/statistical.py:19-81 `plot_mc_vs_b`; `ppf` is `norm.ppf`. -/
def plotMcVsB (ppf : ℝ → ℝ) (c : BValue.Cls) (ω : ℕ → List (List ℕ)) (warn : Bool) (mags : List (Option ℝ)) (mcs : List ℝ) (δ : ℝ) (dmc : Option ℝ) (confidence : ℝ) :
    Py (List McPoint) := do
  let l ← mcLoop c ω warn mags δ dmc State.init mcs
  let k := ppf ((1 + confidence) / 2)
  pure (List.zipWith (fun mc p => ⟨mc, p.1, bandEnd p.1 (-k) p.2, bandEnd p.1 k p.2⟩) mcs l)

/-! ### Running windows -/

/-- One event: the entries of the four arrays at one position (the arrays have the same length). -/
structure Ev where
  mag : Option ℝ
  time : ℝ
  mc : ℝ
  x : ℝ

/-- `plot_technique`. -/
inductive Technique where
  | left | midpoint | right | other
  deriving DecidableEq

/-- plots/statistical.py:173-181: the position of the first value. -/
def Technique.start (t : Technique) (nm : ℕ) : Py ℕ :=
  match t with
  | .left => .ok 0
  | .midpoint => .ok (nm / 2)
  | .right => .ok (nm - 1)
  | .other => .error .valueError

/-- plots/statistical.py:151-154. -/
def mcArray (mc : Mc) (n : ℕ) : List ℝ :=
  match mc with
  | .one m => List.replicate n m
  | .many l => l

/-- The four arrays as one list. -/
def events (mags : List (Option ℝ)) (times mcs xs : List ℝ) : List Ev :=
  List.zipWith (fun (p : Option ℝ × ℝ) (q : ℝ × ℝ) => ⟨p.1, p.2, q.1, q.2⟩) (mags.zip times) (mcs.zip xs)

/-- plots/statistical.py:159-170: the events in the order of `x_variable`. With `x_variable` surplus completeness magnitudes are ignored,
too few are an IndexError; without it another number is an error in line 184 or 187 (the arrays being broadcast). -/
def prepare (mags : List (Option ℝ)) (times : List ℝ) (mc : Mc) (x : Option (List ℝ)) : Py (List Ev) :=
  let mcs := mcArray mc mags.length
  match x with
  | none =>
    if mcs.length ≠ mags.length then .error (if mcs.length = 1 ∨ mags.length = 1 then .indexError else .valueError)
    else .ok (events mags times mcs ((List.range mags.length).map fun i : ℕ => (i : ℝ)))
  | some x =>
    if x.length ≠ mags.length then .error .indexError
    else if mcs.length < mags.length then .error .indexError
    else .ok ((events mags times (mcs.take mags.length) x).insertionSort fun p q => p.x ≤ q.x)

/-- plots/statistical.py:184-188: NaN compares false. -/
def complete (δ : ℝ) (e : Ev) : Bool :=
  match e.mag with
  | some m => decide (e.mc - δ / 2 ≤ m)
  | none => false

/-- plots/statistical.py:201-213: the value of one window. The largest of no completeness magnitudes is a ValueError. -/
def windowStep (c : BValue.Cls) (ω : ℕ → List (List ℕ)) (warn : Bool) (δ : ℝ) (dmc : Option ℝ) (minNum : ℝ) (s : State) (w : List Ev) : State × Py (Fl ℝ × Fl ℝ) :=
  let w := w.insertionSort fun p q => p.time ≤ q.time
  match amax? (w.map Ev.mc) with
  | none => (s, .error .valueError)
  | some mc =>
    match calculate c warn s { mags := w.map Ev.mag, mc := mc, δ := δ, dmc := dmc } with
    | (s', .error e) => (s', .error e)
    | (s', .ok _) => (s', do
        let n ← s'.n
        if (n : ℝ) < minNum then pure (.nan, .nan)
        else do
          let b ← s'.bValue
          let sd ← stdOf c ω s'
          pure (b, sd))

/-- plots/statistical.py:194-213: the loop from window `ii` on, with one estimator object; the arrays are written at `start + ii`. -/
def seriesLoop (step : State → List Ev → State × Py (Fl ℝ × Fl ℝ)) (evs : List Ev) (nm start : ℕ) : State → List (Fl ℝ × Fl ℝ) → List ℕ → Py (List (Fl ℝ × Fl ℝ))
  | _, acc, [] => .ok acc
  | s, acc, ii :: r =>
    match step s ((evs.drop ii).take nm) with
    | (_, .error e) => .error e
    | (s', .ok v) => seriesLoop step evs nm start s' (acc.set (start + ii) v) r

/-- What is drawn: positions and, for each, b-value and deviation. -/
structure Series where
  x : List ℝ
  values : List (Fl ℝ × Fl ℝ)

/-- Arguments of `plot_b_series_constant_nm`. -/
structure SeriesArgs where
  mags : List (Option ℝ)
  δ : ℝ
  mc : Mc
  times : List ℝ
  nm : ℕ
  minNum : ℝ := 2
  method : BValue.Cls := .classic
  x : Option (List ℝ) := none
  technique : Technique := .right
  dmc : Option ℝ := none

/-- plots/statistical.py:183-213: from the prepared events on. -/
def seriesOf (ω : ℕ → List (List ℕ)) (warn : Bool) (a : SeriesArgs) (start : ℕ) (evs : List Ev) : Py Series := do
  let l ← seriesLoop (windowStep a.method ω warn a.δ a.dmc a.minNum) evs a.nm start State.init (evs.map fun _ => (.nan, .nan)) (List.range (evs.length + 1 - a.nm))
  pure ⟨evs.map Ev.x, l⟩

/-- plots/statistical.py:84-230 `plot_b_series_constant_nm`. -/
def plotSeries (ω : ℕ → List (List ℕ)) (warn : Bool) (a : SeriesArgs) : Py Series :=
  if (a.nm : ℝ) < a.minNum then .error .valueError
  else if a.mags.length ≠ a.times.length then .error .indexError
  else do
    let evs ← prepare a.mags a.times a.mc a.x
    let start ← a.technique.start a.nm
    seriesOf ω warn a start (evs.filter (complete a.δ))

/-! ### Significance plot -/

/-- plots/statistical.py:317-318: ten values from 15 to `n / 15`, truncated, without repetition. -/
def defaultNms (n : ℕ) : List ℕ :=
  (((List.range 10).map fun i : ℕ => ⌊(15 : ℝ) + i * (((n : ℝ) / 15 - 15) / 9)⌋₊).insertionSort (· ≤ ·)).dedup

/-- The `mc` argument: a number, an array or a list. -/
inductive McArg where
  | one (m : ℝ) | array (l : List ℝ) | list (l : List ℝ)

/-- plots/statistical.py:293-294, 310: a list cannot be subtracted from. -/
def McArg.toArray (m : McArg) (n : ℕ) : Py (List ℝ) :=
  match m with
  | .one m => .ok (List.replicate n m)
  | .array l => .ok l
  | .list _ => .error .typeError

/-- What is drawn for one `n_m`. -/
structure SigPoint where
  nm : ℕ
  res : BSignificant.Result

/-- Arguments of `plot_b_significant_1D`; `nms` with a flag whether it is a list (or an array). -/
structure SigArgs where
  mags : List (Option ℝ)
  mc : McArg
  δ : ℝ
  times : List ℝ
  nms : Option (List ℕ × Bool) := none
  minNum : ℕ := 2
  x : Option (List ℝ) := none
  conservative : Bool := true
  method : BSignificant.Method := .b .classic
  kw : BSignificant.Kw := {}
  pThreshold : ℝ := 5 / 100

/-- plots/statistical.py:315-320. -/
def chooseNms (a : SigArgs) (n : ℕ) : Py (List ℕ) :=
  match a.nms with
  | some (l, _) => .ok l
  | none => if (a.minNum : ℝ) < (n : ℝ) / 15 then .ok (defaultNms n) else .error .valueError

/-- plots/statistical.py:327-336: one `n_m`; division by a zero of an array gives infinity, so that `b_significant_1D` is called, by a zero
of a list a ZeroDivisionError. -/
def sigOne (Φ : ℝ → ℝ) (warn : Bool) (a : SigArgs) (mags : List (Option ℝ)) (times mcs : List ℝ) (nm : ℕ) : Py SigPoint :=
  if nm = 0 ∧ (a.nms.map Prod.snd).getD false = true then .error .zeroDivision
  else if mags.length < 15 * nm then .ok ⟨nm, ⟨.nan, .nan, .nan, .nan⟩⟩
  else do
    let r ← BSignificant.bSignificant Φ warn { mags := mags, mc := .many mcs, δ := a.δ, times := times, nm := nm, minNum := a.minNum, method := a.method, conservative := a.conservative, kw := a.kw }
    pure ⟨nm, r⟩

/-- plots/statistical.py:349-351: a value is marked if its p-value is below the threshold; NaN compares false. -/
def marked (thr : ℝ) (p : SigPoint) : Bool :=
  match p.res.p with
  | .fin v => decide (v < thr)
  | .ninf => true
  | _ => false

/-- plots/statistical.py:349-351: a list cannot be indexed by an array. -/
def markAll (thr : ℝ) (isList : Bool) (l : List SigPoint) : Py (List ℕ) :=
  if l.any (marked thr) then (if isList then .error .typeError else .ok ((l.filter (marked thr)).map SigPoint.nm)) else .ok []

/-- plots/statistical.py:295-306: a bad length of `x_variable` is a ValueError; too few times an IndexError. -/
def sigOrder (a : SigArgs) : Py (List (Option ℝ) × List ℝ) :=
  match a.x with
  | none => .ok (a.mags, a.times)
  | some x =>
    if x.length ≠ a.mags.length then .error .valueError
    else do
      let t ← gather a.times (argsort x)
      pure (BValue.take' a.mags (argsort x), t)

/-- plots/statistical.py:310-313: arrays of other lengths fail in the comparison or in the masking. -/
def sigSelect (δ : ℝ) (mags : List (Option ℝ)) (times mcs : List ℝ) : Py (List (Option ℝ) × List ℝ × List ℝ) :=
  if mcs.length ≠ mags.length then .error (if mcs.length = 1 ∨ mags.length = 1 then .indexError else .valueError)
  else if times.length ≠ mags.length then .error .indexError
  else .ok (mask mags (BSignificant.keep mags mcs δ), mask times (BSignificant.keep mags mcs δ), mask mcs (BSignificant.keep mags mcs δ))

/-- plots/statistical.py:233-357 `plot_b_significant_1D`: the drawn points and the marked `n_m`. -/
def plotSignificant (Φ : ℝ → ℝ) (warn : Bool) (a : SigArgs) : Py (List SigPoint × List ℕ) := do
  let mt ← sigOrder a
  let mcs ← a.mc.toArray a.mags.length
  let sel ← sigSelect a.δ mt.1 mt.2 mcs
  let nms ← chooseNms a sel.1.length
  let l ← nms.mapM (sigOne Φ warn a sel.1 sel.2.1 sel.2.2)
  let red ← markAll a.pThreshold ((a.nms.map Prod.snd).getD false) l
  pure (l, red)

/-- plots/statistical.py:340-346: the band drawn at one `n_m`; `ppf` is `norm.ppf`. -/
def sigBand (ppf : ℝ → ℝ) (thr : ℝ) (p : SigPoint) : Fl ℝ × Fl ℝ :=
  (bandEnd p.res.mu (-ppf (1 - thr / 2)) p.res.std, bandEnd p.res.mu (ppf (1 - thr / 2)) p.res.std)

/-! ### Colours -/

/-- plots/statistical.py:382-387 of `_adjust_color_brightness`: one channel (conversion from and to text is matplotlib's). -/
def adjustChannel (factor c : ℝ) : ℝ := if factor < 1 then c + (1 - c) * (1 - factor) else c / factor

end
end PlotStatistical
end SeismoStats
