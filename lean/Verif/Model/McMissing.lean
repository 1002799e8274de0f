/-
`estimate_mc_ks` and `estimate_mc_b_stability` (seismostats/analysis/estimate_mc.py, see Model/EstimateMc.lean) for numpy arrays with missing magnitudes (`none`
for NaN). For a pandas Series, as `Catalog` hands it over, see Model/CatalogMc.lean.
-/
import Verif.Model.EstimateMc

namespace SeismoStats
namespace EstimateMc
open SeismoStats
noncomputable section

/-- `np.min` and `np.max` of an array: NaN (`none`) if there is one, ValueError for an empty array. -/
def npMin (l : List (Option ℝ)) : Py (Option ℝ) :=
  if l = [] then .error .valueError else if none ∈ l then .ok none else .ok (amin? (l.filterMap id))

/-- The largest entry. -/
def npMax (l : List (Option ℝ)) : Py (Option ℝ) :=
  if l = [] then .error .valueError else if none ∈ l then .ok none else .ok (amax? (l.filterMap id))

/-- estimate_mc.py:232-234, 501-502: the bins from `lo` to `hi`; `np.arange` with NaN is a ValueError. -/
def arangeM (δ : ℝ) : Option ℝ → Option ℝ → Py (List ℝ)
  | some lo, some hi => if δ = 0 then .error .zeroDivision else binArr (arange lo hi δ) δ
  | _, _ => .error .valueError

/-- estimate_mc.py:231-237: the mcs to test. -/
def ksMcsM (mags : List (Option ℝ)) (a : KsArgs) : Py (List ℝ) :=
  match a.mcs with
  | some l => .ok (uniqueSorted l)
  | none => (npMin mags).bind fun lo => (npMax mags).bind fun hi => arangeM a.δ lo hi

/-- estimate_mc.py:240-250: the binning checks. -/
def ksChecksM (warn : Bool) (mags : List (Option ℝ)) (a : KsArgs) (mcs : List ℝ) : Py Unit := do
  if a.bValue = none then
    let ok ← binningTest mags a.δ (defaultTol ℝ) false
    if !ok then throw .valueError
  if warn then
    let _ ← binningTest mags a.δ (defaultTol ℝ) false
    let _ ← binningTest (mcs.map some) a.δ (defaultTol ℝ) false

/-- Comparison with the lower bound: false for NaN. -/
def atLeast (x : ℝ) : Option ℝ → Bool
  | some m => decide (x ≤ m)
  | none => false

/-- estimate_mc.py:267: `magnitudes[magnitudes >= mc - delta_m / 2]`. -/
def aboveM (mags : List (Option ℝ)) (mc δ : ℝ) : List (Option ℝ) := mags.filter (atLeast (mc - δ / 2))

/-- estimate_mc.py:269-275: the b-value at `mc`. -/
def bAtM (warn : Bool) (mags : List (Option ℝ)) (a : KsArgs) (s : BValue.State) (mc : ℝ) : BValue.State × Py (Fl ℝ) :=
  match a.bValue with
  | some b => (s, .ok b)
  | none => BValue.calculate a.cls warn s { mags := aboveM mags mc a.δ, mc := mc, δ := a.δ }

/-- estimate_mc.py:267-294: one turn of the loop; the entries of the sample are numbers. -/
def ksOneM (warn : Bool) (mags : List (Option ℝ)) (a : KsArgs) (s : BValue.State) (i : ℕ) (mc : ℝ) : BValue.State × Py Tested :=
  let r := bAtM warn mags a s mc
  (r.1, do
    let b ← r.2
    let g ← givenAt a i
    let t ← ksTestOf a.series warn ((aboveM mags mc a.δ).filterMap id) mc a.δ b g (a.sims i) none
    pure ⟨mc, b, t.2.1, t.1⟩)

/-- estimate_mc.py:138-324 `estimate_mc_ks`; `a.mags` is not used. -/
def mcKsM (warn stop : Bool) (mags : List (Option ℝ)) (a : KsArgs) : Py KsResult := do
  let mcs ← ksMcsM mags a
  ksChecksM warn mags a mcs
  let l ← ksLoop (ksOneM warn mags a) a.pPass stop BValue.State.init 0 mcs
  let f := l.find? (passes a.pPass)
  pure ⟨f.map Tested.mc, f.map Tested.b, l⟩

/-- `x <= hi`, false for NaN. -/
def atMost (x : ℝ) : Option ℝ → Bool
  | some hi => decide (x ≤ hi)
  | none => false

/-- estimate_mc.py:503-506: the first mcs, if there are enough. -/
def stabFirst (steps : ℕ) (l : List ℝ) : Py (List ℝ) :=
  if l.length ≤ steps then .error .valueError else .ok (sliceTo l (1 - (steps : ℤ)))

/-- estimate_mc.py:508-512: the given mcs with a full stability range. -/
def stabGiven (range : ℝ) (l : List ℝ) (hi : Option ℝ) : Py (List ℝ) :=
  if (l.filter fun mc => atMost (mc + range) hi).length < 1 then .error .valueError else .ok (l.filter fun mc => atMost (mc + range) hi)

/-- estimate_mc.py:500-512: the mcs to test. -/
def stabMcsM (mags : List (Option ℝ)) (δ range : ℝ) (mcs : Option (List ℝ)) : Py (List ℝ) :=
  match mcs with
  | none => (npMin mags).bind fun lo => (npMax mags).bind fun hi => (arangeM δ lo hi).bind (stabFirst (stabSteps range δ))
  | some l => (npMax mags).bind (stabGiven range l)

/-- estimate_mc.py:406-582 `estimate_mc_b_stability`. After the choice of the mcs to test there is no NaN among the magnitudes (`C126`). -/
def mcStabilityM (warn stop : Bool) (c : BValue.Cls) (ω : ℕ → List (List ℕ)) (mags : List (Option ℝ)) (δ range : ℝ) (mcs : Option (List ℝ)) :
    Py StabResult :=
  if δ = 0 then .error .zeroDivision
  else do
    let l ← stabMcsM mags δ range mcs
    stabChecks warn (mags.filterMap id) δ l
    let r ← stabLoop (stabOne c ω warn (mags.filterMap id) δ range) stop BValue.State.init {} l
    let bm := r.best.map Prod.fst
    if δ < eps ℝ && bm.isSome && bm != some 0 then throw .valueError
    pure ⟨stabBest δ bm, r.best.map Prod.snd, r.tested⟩

end
end EstimateMc
end SeismoStats
