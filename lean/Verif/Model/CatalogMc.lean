/-
Model of `Catalog.estimate_mc_maxc`, `estimate_mc_b_stability` and `estimate_mc_ks` (seismostats/catalogs/catalog.py) with the functions of
seismostats/analysis/estimate_mc.py in place of the abstract functions of Model/Catalog.lean: what the methods do with the rows of the
catalogue. The functions get the column as a pandas Series. `verbose` and further keyword arguments of the estimators are not modelled.
-/
import Verif.Model.CatalogEstimates
import Verif.Model.EstimateMc

namespace SeismoStats
namespace CatalogMc
open SeismoStats SeismoStats.Catalog SeismoStats.CatalogEstimates
noncomputable section

/-- catalog.py:703, 814 and estimate_mc.py:232-293, 496-552: the magnitudes that count. `np.min` and `np.max` of a Series skip NaN,
`binning_test` drops NaN, and a comparison with NaN is False, so that entries without a number have no effect. -/
def seriesMags (l : List (Val ℝ)) : List ℝ := (mags l).filterMap id

/-- catalog.py:605-607. -/
def maxcOf (fmdBin corr : ℝ) (l : List (Val ℝ)) : Py (Option (Fl ℝ) × ℝ) := do
  let r ← EstimateMc.mcMaxc (mags l) fmdBin corr
  pure (some (.fin r.1), r.2)

/-- catalog.py:533-608 `Catalog.estimate_mc_maxc`. -/
def estimateMaxc (c : Ct) (fmdBin : ℝ) (corr : ℝ := 1 / 5) : Ct × Py (Option (Fl ℝ) × ℝ) := estimateMcMaxc c (maxcOf fmdBin corr)

/-- Options of `estimate_mc_ks` (catalog.py:715-727); `sims` as in `EstimateMc.KsArgs`. -/
structure KsOptions where
  mcs : Option (List ℝ) := none
  pPass : ℝ := 1 / 10
  stop : Bool := true
  cls : BValue.Cls := .classic
  given : Option (List (List (Fl ℝ))) := none
  sims : ℕ → List (List ℝ)

/-- catalog.py:813-824. -/
def ksOf (warn : Bool) (o : KsOptions) (l : List (Val ℝ)) (δ : ℝ) (b : Option (Fl ℝ)) : Py (Option (Fl ℝ) × EstimateMc.KsResult) := do
  let r ← EstimateMc.mcKs warn o.stop
    { mags := seriesMags l, δ := δ, mcs := o.mcs, pPass := o.pPass, bValue := b, cls := o.cls, given := o.given, sims := o.sims, series := true }
  pure (r.best.map .fin, r)

/-- catalog.py:714-829 `Catalog.estimate_mc_ks`. -/
def estimateKs (warn : Bool) (c : Ct) (δ : Option ℝ) (b : Option (Fl ℝ)) (o : KsOptions) : Ct × Py (Option (Fl ℝ) × EstimateMc.KsResult) :=
  estimateMcKs c δ b (ksOf warn o)

/-- Options of `estimate_mc_b_stability` (catalog.py:611-620); `ω` as in `EstimateMc.stabOne`. -/
structure StabOptions where
  mcs : Option (List ℝ) := none
  stop : Bool := true
  cls : BValue.Cls := .classic
  range : ℝ := 1 / 2
  ω : ℕ → List (List ℕ) := fun _ => []

/-- catalog.py:702-710. -/
def stabilityOf (warn : Bool) (o : StabOptions) (l : List (Val ℝ)) (δ : ℝ) : Py (Option (Fl ℝ) × EstimateMc.StabResult) := do
  let r ← EstimateMc.mcStability warn o.stop o.cls o.ω (seriesMags l) δ o.range o.mcs
  pure (r.best.map .fin, r)

/-- catalog.py:610-712 `Catalog.estimate_mc_b_stability`. -/
def estimateStability (warn : Bool) (c : Ct) (δ : Option ℝ) (o : StabOptions) : Ct × Py (Option (Fl ℝ) × EstimateMc.StabResult) :=
  estimateMcStability c δ (stabilityOf warn o)

end
end CatalogMc
end SeismoStats
