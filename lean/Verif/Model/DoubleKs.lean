/-
Model of `cdf_discrete_exp` and `ks_test_gr` (seismostats/analysis/estimate_mc.py) in double precision: every operation is rounded. Without weights;
magnitudes without NaN. `np.exp` and `np.log10` are parameters, `np.log` as in Model/DoubleBValue.lean.
-/
import Verif.Model.DoubleBValue
import Verif.Model.DoubleFmd
import Verif.Model.EstimateMc

namespace SeismoStats
namespace Double
noncomputable section
open Classical

/-- The numpy functions `np.exp` and `np.log10`. -/
structure NpKs where
  exp : ℝ → ℝ
  log10 : ℝ → ℝ

/-- What is assumed of them: `np.exp` has absolute error `η` for arguments that are not positive (this includes underflow), `np.log10` relative error `η` from 1
on. -/
structure AccurateKs (F : NpKs) (η : ℝ) : Prop where
  exp : ∀ t : ℝ, t ≤ 0 → |F.exp t - Real.exp t| ≤ η
  log10 : ∀ x : ℝ, 1 ≤ x → |F.log10 x - Real.log x / Real.log 10| ≤ η * (Real.log x / Real.log 10)

/-- bvalue/utils.py:52-61 `b_value_to_beta`. -/
def bToBeta (N : Np) (b : ℝ) : ℝ := mul b (N.ln 10)

/-- estimate_mc.py:41: the value of the distribution function at `x`. -/
def cdfAt (F : NpKs) (mc δ β x : ℝ) : ℝ := sub 1 (F.exp (mul (-β) (sub (add x δ) mc)))

/-- estimate_mc.py:18-42 `cdf_discrete_exp`. -/
def cdfDiscreteExp (F : NpKs) (mags : List ℝ) (mc δ β : ℝ) : List ℝ × List ℝ := (uniqueSorted mags, (uniqueSorted mags).map (cdfAt F mc δ β))

/-- estimate_mc.py:101-104, 121-124: the bins from `mc` to `top`; `3 / 2` is exact. -/
def ksBins (mc top δ : ℝ) (places : ℕ) : Py (List ℝ) :=
  if δ = 0 then .error .zeroDivision
  else if δ < eps then .error .valueError
  else .ok ((arange mc (add top (mul (3 / 2) δ)) δ).map (binTo δ places))

/-- estimate_mc.py:116, 130: the cumulated counts (integers, exact) divided by their sum; 0 / 0 is NaN. -/
def fractions (counts : List ℕ) : List (Fl ℝ) :=
  (cumsumFrom 0 counts).map fun c : ℕ => if counts.sum = 0 then .nan else .fin (div c counts.sum)

/-- estimate_mc.py:105-108, 115-117, 129-132: the distance between a sample and the theoretical distribution; `xb` are the bins before the shift by half a
bin. Without any edge there is no histogram (IndexError). -/
def ksDistance (F : NpKs) (sample xb : List ℝ) (mc δ β : ℝ) : Py (Fl ℝ) :=
  if xb = [] then .error .indexError
  else do
    let counts ← histogram sample (xb.map fun e => sub e (div δ 2))
    Fl.npMax (List.zipWith (fun a b => (a.mapFin fun v => |sub v b|)) (fractions counts) (cdfDiscreteExp F xb.dropLast mc δ β).2)

/-- estimate_mc.py:99: the largest magnitude considered, for `b > 0` and samples that are not empty. -/
def maxConsidered (F : NpKs) (b : ℝ) (nSample n : ℕ) (mc : ℝ) : ℝ := add (mul (div 1 b) (F.log10 (mul (rnd (nSample * n : ℕ)) 1000))) mc

/-- estimate_mc.py:133: fraction of the distances not smaller than the observed one. -/
def pValue (ds : List (Fl ℝ)) (d : Fl ℝ) : Py (Fl ℝ) :=
  if ds = [] then .error .zeroDivision else .ok (.fin (div (ds.countP fun x => Fl.ge x d : ℕ) ds.length))

/-- estimate_mc.py:91-135 with the distances `given` (`ks_ds`). -/
def ksGiven (N : Np) (F : NpKs) (mags : List ℝ) (mc δ : ℝ) (places : ℕ) (b : ℝ) (given : List (Fl ℝ)) : Py (Fl ℝ × Fl ℝ × List (Fl ℝ)) :=
  match amax? mags with
  | none => .error .valueError
  | some top => do
    let xb ← ksBins mc top δ places
    let d ← ksDistance F mags xb mc δ (bToBeta N b)
    let p ← pValue given d
    pure (p, d, given)

/-- estimate_mc.py:91-135 with the simulated samples `sims`, for `b > 0`. -/
def ksSimulated (N : Np) (F : NpKs) (mags : List ℝ) (mc δ : ℝ) (places : ℕ) (b : ℝ) (sims : List (List ℝ)) : Py (Fl ℝ × Fl ℝ × List (Fl ℝ)) := do
  let xb ← ksBins mc (maxConsidered F b mags.length sims.length mc) δ places
  let ds ← sims.mapM fun s => ksDistance F s xb mc δ (bToBeta N b)
  let d ← ksDistance F mags xb mc δ (bToBeta N b)
  let p ← pValue ds d
  pure (p, d, ds)

/-- estimate_mc.py:45-135 `ks_test_gr`; the checks at the beginning (lines 79-89) compare and count, without rounding. -/
def ksTest (N : Np) (F : NpKs) (warn : Bool) (mags : List ℝ) (mc δ : ℝ) (places : ℕ) (b : ℝ) (given : Option (List (Fl ℝ))) (sims : List (List ℝ)) :
    Py (Fl ℝ × Fl ℝ × List (Fl ℝ)) :=
  match EstimateMc.ksGuard warn mags with
  | .error e => .error e
  | .ok true => .ok (.fin 0, .fin 1, [])
  | .ok false =>
    match given with
    | some ds => ksGiven N F mags mc δ places b ds
    | none => ksSimulated N F mags mc δ places b sims

end
end Double
end SeismoStats
