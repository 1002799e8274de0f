/-
Model of seismostats/analysis/lilliefors.py and of the method `p_lilliefors` (analysis/bvalue/base.py:189-229), in exact arithmetic. The test itself is
a function of statsmodels (`lilliefors(x, dist='exp', pvalmethod='table')`): a parameter that gives the p-value or raises.
-/
import Verif.Model.Simulate
import Verif.Model.BValue

namespace SeismoStats
namespace Lilliefors
open SeismoStats SeismoStats.BValue
open Classical
noncomputable section

/-- analysis/lilliefors.py:5-36 `ks_test_gr_lilliefors`; `min` of an empty array is a ValueError. -/
def ksTest (lill : List ℝ → Py ℝ) (mags : List ℝ) (mc : ℝ) : Py ℝ :=
  match amin? mags with
  | none => .error .valueError
  | some m => if m < mc then .error .valueError else lill (mags.map fun x => x - mc)

/-- bvalue/base.py:213-217: `dmc` if the object has one, else `mc`. -/
def mcTemp (s : State) : ℝ := (s.dmc.orElse fun _ => s.mc).getD 0

/-- bvalue/base.py:222-226: one repetition, with the draws `g`. -/
def pOnce (lill : List ℝ → Py ℝ) (s : State) (b : ℝ) (g : ℕ → Simulate.Rng) : Py ℝ := do
  let x ← Simulate.dither (nums s.mags) (s.δ.getD 0) b g
  ksTest lill x (mcTemp s - s.δ.getD 0 / 2)

/-- `np.mean`; NaN for an empty array. -/
def mean (l : List ℝ) : Fl ℝ := Fl.div l.sum l.length

/-- bvalue/base.py:219-226: `n` repetitions. With a b-value that is not a finite number the dithered magnitudes are not numbers (not modelled: NaN). -/
def pValues (lill : List ℝ → Py ℝ) (s : State) (b : Fl ℝ) (g : ℕ → ℕ → Simulate.Rng) (n : ℕ) : Py (Fl ℝ) :=
  match b with
  | .fin b => do
    let ps ← (List.range n).mapM fun i => pOnce lill s b (g i)
    pure (mean ps)
  | _ => .ok .nan

/-- bvalue/base.py:189-229 `p_lilliefors`. -/
def pLilliefors (lill : List ℝ → Py ℝ) (g : ℕ → ℕ → Simulate.Rng) (s : State) (n : ℕ) : Py (Fl ℝ) :=
  match s.b with
  | none => .error .attributeError
  | some b =>
    if 0 < s.δ.getD 0 then pValues lill s b g n
    else (ksTest lill (nums s.mags) (mcTemp s)).map Fl.fin

end
end Lilliefors
end SeismoStats
