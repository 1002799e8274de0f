/-
numpy primitives used by the estimators, over the reals, with explicit NaN and
infinity results.
-/
import Verif.Model.Binning
import Mathlib.Analysis.SpecialFunctions.Log.Basic
import Mathlib.Analysis.SpecialFunctions.Pow.Real

namespace SeismoStats
noncomputable section

namespace Fl

/-- Entrywise application of a strictly increasing bijection fixing ±inf (adding a
finite number, multiplying by a positive number). -/
def mapFin {K : Type} (f : K → K) : Fl K → Fl K
  | fin x => fin (f x)
  | nan => nan
  | pinf => pinf
  | ninf => ninf

/-- numpy division of two finite floats: `x/0` is ±inf or NaN with a warning. -/
def div (x y : ℝ) : Fl ℝ :=
  if y = 0 then (if x = 0 then nan else if 0 < x then pinf else ninf) else fin (x / y)

/-- `np.log`. -/
def log : Fl ℝ → Fl ℝ
  | fin x => if 0 < x then fin (Real.log x) else if x = 0 then ninf else nan
  | nan => nan
  | pinf => pinf
  | ninf => nan

/-- `np.log10`. -/
def log10 (x : Fl ℝ) : Fl ℝ := (log x).mapFin (· / Real.log 10)

/-- `np.sqrt` of a finite number. -/
def sqrt (x : ℝ) : Fl ℝ := if x < 0 then nan else fin (Real.sqrt x)

/-- Continue with a finite value; NaN and infinities are handled by `other`. -/
def bindFin (x : Fl ℝ) (f : ℝ → Fl ℝ) (other : Fl ℝ → Fl ℝ) : Fl ℝ :=
  match x with
  | fin v => f v
  | o => other o

/-- The number, if finite. -/
def val? : Fl ℝ → Option ℝ
  | fin v => some v
  | nan => none
  | pinf => none
  | ninf => none

end Fl

/-- `np.average(x, weights=w)`: without weights the mean (NaN for an empty array);
with weights `sum(w*x)/sum(w)`, ZeroDivisionError if the weights sum to zero
(in particular for empty arrays). -/
def average (x : List ℝ) (w : Option (List ℝ)) : Py (Fl ℝ) :=
  match w with
  | none => if x = [] then .ok .nan else .ok (.fin (x.sum / x.length))
  | some w =>
    if w.sum = 0 then .error .zeroDivision
    else .ok (.fin ((List.zipWith (· * ·) x w).sum / w.sum))

/-- Fancy indexing `a[idx]`. -/
def gather {α : Type} (a : List α) (idx : List ℕ) : Py (List α) :=
  idx.mapM fun i => match a[i]? with
    | some v => .ok v
    | none => .error .indexError

/-- `np.argsort` (stable; numpy's default may order ties differently). -/
def argsort (t : List ℝ) : List ℕ :=
  (List.range t.length).insertionSort fun i j => t.getD i 0 ≤ t.getD j 0

/-- `np.diff`. -/
def diff (x : List ℝ) : List ℝ := List.zipWith (fun a b => b - a) x x.tail

/-- Boolean masking `a[mask]`. -/
def mask {α : Type} (a : List α) (m : List Bool) : List α :=
  (List.zip a m).filterMap fun p => if p.2 then some p.1 else none

end

end SeismoStats
