/-
Model of the three a-value estimators (seismostats/analysis/avalue) in double precision: every operation is rounded (see Model/Double.lean). `np.log10` and
`10**x` are parameters. Magnitudes may be NaN; `b_value`, `m_ref`, `scaling_factor` and the times are finite numbers. For times of type datetime64 the
differences are integers, which are rounded when they are divided: the same as rounding the differences. (Python's own datetime divides with one rounding
less.)
-/
import Verif.Model.DoublePositive
import Verif.Model.AValue

namespace SeismoStats
namespace Double
noncomputable section
open Classical

/-- The numpy functions `np.log10` (for positive arguments) and `10**x`. -/
structure NpA where
  log10 : ℝ → ℝ
  pow10 : ℝ → ℝ

/-- What is assumed of them: relative error `η`. -/
structure AccurateA (F : NpA) (η : ℝ) : Prop where
  log10 : ∀ x : ℝ, 0 < x → |F.log10 x - Real.log x / Real.log 10| ≤ η * |Real.log x / Real.log 10|
  pow10 : ∀ x : ℝ, |F.pow10 x - (10 : ℝ) ^ x| ≤ η * (10 : ℝ) ^ x

/-- `np.log10`: minus infinity at 0, NaN below. -/
def log10Fl (F : NpA) : Fl ℝ → Fl ℝ
  | .fin x => if 0 < x then .fin (F.log10 x) else if x = 0 then .ninf else .nan
  | .pinf => .pinf
  | _ => .nan

/-- A result of an operation on floats, rounded if it is finite. -/
def rndFl (x : Fl ℝ) : Fl ℝ := x.mapFin rnd

/-- Python's `sum` of an array: from left to right, starting with 0. -/
def sumFl (l : List (Fl ℝ)) : Fl ℝ := l.foldl (fun a x => rndFl (a.add x)) (.fin 0)

/-- avalue/positive.py:145-149, avalue/more_positive.py:159-160, 169: `log10(n / sum(waits / total))`. -/
def rateA (F : NpA) (n : ℕ) (waits : List ℝ) (total : ℝ) : Fl ℝ :=
  log10Fl F (rndFl (Fl.over n (sumFl (waits.map fun w => rndFl (Fl.div w total)))))

/-- avalue/positive.py:142, avalue/more_positive.py:153: `t[-1] - t[0]`. -/
def spanA (t : List ℝ) : ℝ := sub (t.getLastD 0) (t.headD 0)

/-- avalue/positive.py:125-149 on the magnitudes and times in the order of time. -/
def aPositive (F : NpA) (m t : List ℝ) (dmc δ : ℝ) : Fl ℝ :=
  let larger := (diff m).map fun d => decide (threshold dmc δ ≤ d)
  let waits := mask (diff t) larger
  if waits.length = 0 then .nan else rateA F (larger.count true) waits (spanA t)

/-- avalue/more_positive.py:134, 150: waiting time to the next larger event, or to the end. -/
def waitsMoreA (t : List ℝ) (nxt : List ℕ) : List ℝ :=
  List.zipWith (fun j x => if j = 0 then sub (t.getLastD 0) x else sub (t.getD j 0) x) nxt t

/-- avalue/more_positive.py:156-157. -/
def scaleWaitsA (F : NpA) (w m : List ℝ) (b dmc mc : ℝ) : List ℝ :=
  List.zipWith (fun w m => mul w (F.pow10 (mul (-b) (sub (add m dmc) mc)))) w m

/-- avalue/more_positive.py:131-169 on the magnitudes and times in the order of time. -/
def aMorePositive (F : NpA) (m t : List ℝ) (b dmc mc δ : ℝ) : Fl ℝ :=
  let nxt := findNextLarger m δ dmc
  if nxt.count 0 = nxt.length then .nan
  else rateA F (mask nxt (nxt.map fun j => decide (j ≠ 0))).length (scaleWaitsA F (waitsMoreA t nxt) m b dmc mc) (spanA t)

/-- The `_estimate` methods on the used events `idx`; the two positive classes put them in the order of time (avalue/positive.py:119-123,
avalue/more_positive.py:125-129). avalue/classic.py:39-40 is `log10(len(magnitudes))`. -/
def estimateA (F : NpA) (c : AValue.Cls) (x : AValue.Args) (idx : List ℕ) : Fl ℝ :=
  let o := timeOrder (some x.times) idx
  let m := (o.map fun i => x.mags.getD i none).filterMap id
  let t := o.map fun i => x.times.getD i 0
  match c with
  | .classic => log10Fl F (.fin idx.length)
  | .positive => aPositive F m t (x.dmc.getD x.δ) x.δ
  | .morePositive => aMorePositive F m t (x.b.getD 0) (x.dmc.getD x.δ) x.mc x.δ

/-- avalue/base.py:133-137: to the reference magnitude. -/
def toReference (x : AValue.Args) (a : Fl ℝ) : Py (Fl ℝ) :=
  match x.mref with
  | none => .ok a
  | some r => match x.b with
    | none => .error .valueError
    | some b => .ok (rndFl (a.sub (.fin (mul b (sub r x.mc)))))

/-- avalue/base.py:140-142: to the reference time or volume. -/
def toVolume (F : NpA) (x : AValue.Args) (a : Fl ℝ) : Fl ℝ :=
  match x.scaling with
  | none => a
  | some f => rndFl (a.sub (log10Fl F (.fin f)))

/-- avalue/positive.py:94-98, avalue/more_positive.py:95-104: the checks of the arguments. -/
def checkA (c : AValue.Cls) (x : AValue.Args) : Py Unit :=
  match c with
  | .classic => .ok ()
  | .positive => if x.dmc.getD x.δ < 0 then .error .valueError else .ok ()
  | .morePositive => if x.b.getD 0 = 0 then .error .valueError else if x.dmc.getD x.δ < 0 then .error .valueError else .ok ()

/-- avalue/positive.py:116, avalue/more_positive.py:122: the times of the used events must be there. -/
def checkTimes (c : AValue.Cls) (x : AValue.Args) (idx : List ℕ) : Py Unit :=
  match c with
  | .classic => .ok ()
  | _ => (gather x.times idx).map fun _ => ()

/-- avalue/base.py:69-86, 95-104 with avalue/positive.py:93-116 and avalue/more_positive.py:94-122: `calculate` of the three classes on a new object
(without the warnings). -/
def calculateA (F : NpA) (c : AValue.Cls) (x : AValue.Args) (places : ℕ) : Py (Fl ℝ) := do
  checkA c x
  checkBinning x.mags x.δ places
  let idx := selIdx x.mags x.mc x.δ
  checkTimes c x idx
  if idx = [] then pure .nan
  else do
    let a ← toReference x (estimateA F c x idx)
    pure (toVolume F x a)

end
end Double
end SeismoStats
