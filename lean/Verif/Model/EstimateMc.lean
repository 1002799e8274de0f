/-
Model of seismostats/analysis/estimate_mc.py.

Random numbers: the simulated samples (simulate_magnitudes_binned, modelled in
Model/Simulate) are an argument. `verbose` output is not modelled. Magnitudes are numbers (for arrays with NaN see Model/McMissing.lean),
except in `mcMaxc`, which drops NaN itself. (A pandas Series with NaN is dealt with in Model/CatalogMc.)
-/
import Verif.Model.AValue

namespace SeismoStats

namespace Fl
noncomputable section

/-- `abs`. -/
def abs : Fl ℝ → Fl ℝ
  | fin x => fin |x|
  | nan => nan
  | pinf => pinf
  | ninf => pinf

open Classical in
/-- IEEE `x >= y`: false if one is NaN. -/
def ge : Fl ℝ → Fl ℝ → Bool
  | nan, _ => false
  | _, nan => false
  | pinf, _ => true
  | _, ninf => true
  | fin x, fin y => decide (y ≤ x)
  | _, _ => false

open Classical in
/-- IEEE `x < y`. -/
def lt : Fl ℝ → Fl ℝ → Bool
  | nan, _ => false
  | _, nan => false
  | x, y => !ge x y

open Classical in
/-- IEEE `x == y`. -/
def eq (x y : Fl ℝ) : Bool := ge x y && ge y x

/-- Division of a non-negative by a non-negative float. -/
def quot : Fl ℝ → Fl ℝ → Fl ℝ
  | nan, _ => nan
  | _, nan => nan
  | fin x, fin y => div x y
  | fin _, _ => fin 0
  | _, fin _ => pinf
  | _, _ => nan

/-- A float divided by a natural number. -/
def overNat (x : Fl ℝ) (n : ℕ) : Fl ℝ :=
  match x with
  | fin x => div x n
  | o => o

/-- `np.maximum`: NaN if one is NaN. -/
def max2 (m x : Fl ℝ) : Fl ℝ :=
  match m, x with
  | nan, _ => nan
  | _, nan => nan
  | m, x => if ge m x then m else x

/-- `np.max`: ValueError for an empty array, NaN if there is a NaN. -/
def npMax : List (Fl ℝ) → Py (Fl ℝ)
  | [] => .error .valueError
  | a :: r => .ok (r.foldl max2 a)

/-- Python's `min` of a list: the first element that no later one is smaller than. -/
def pyMin : List (Fl ℝ) → Fl ℝ
  | [] => nan
  | a :: r => r.foldl (fun m x => if lt x m then x else m) a

end
end Fl

namespace EstimateMc
open SeismoStats
noncomputable section

/-- estimate_mc.py:41: `exp(-beta * t)`, with `beta` possibly infinite or NaN. -/
def expNeg : Fl ℝ → ℝ → Fl ℝ
  | .fin β, t => .fin (Real.exp (-β * t))
  | .nan, _ => .nan
  | .pinf, t => if 0 < t then .fin 0 else if t = 0 then .nan else .pinf
  | .ninf, t => if 0 < t then .pinf else if t = 0 then .nan else .fin 0

/-- estimate_mc.py:18-42 `cdf_discrete_exp`. -/
def cdfDiscreteExp (mags : List ℝ) (mc δ : ℝ) (β : Fl ℝ) : List ℝ × List (Fl ℝ) :=
  let x := uniqueSorted mags
  (x, x.map fun v => (Fl.fin 1).sub (expNeg β (v + δ - mc)))

/-- estimate_mc.py:101-104, 121-124: the bins from `mc` to `top`. -/
def ksBins (mc top δ : ℝ) : Py (List ℝ) :=
  if δ = 0 then .error .zeroDivision else binArr (arange mc (top + 3 / 2 * δ) δ) δ

/-- estimate_mc.py:105-108, 115-117, 129-132: the distance between a sample and the theoretical
distribution; `xb` are the bins before the shift by half a bin. -/
def ksDistance (sample w xb : List ℝ) (mc δ : ℝ) (β : Fl ℝ) : Py (Fl ℝ) :=
  let yth := (cdfDiscreteExp xb.dropLast mc δ β).2
  let edges := xb.map fun e => e - δ / 2
  if w.length ≠ sample.length then .error .valueError
  else if edges = [] then .error .indexError
  else
    let h := histogram sample w edges
    let yemp := (cumsumFrom 0 h).map fun c => Fl.div c h.sum
    Fl.npMax (List.zipWith (fun a b => (Fl.sub a b).abs) yemp yth)

/-- estimate_mc.py:79-89: with warnings on, `np.min` of an empty sample raises, a sample with one
value returns early. -/
def ksGuard (warn : Bool) (mags : List ℝ) : Py Bool :=
  if warn then
    if mags = [] then .error .valueError
    else .ok (decide ((uniqueSorted mags).length = 1))
  else .ok false

/-- estimate_mc.py:99: the largest magnitude considered; `np.arange` raises ValueError for a NaN or
infinite one. A Python float `b_value = 0.0` raises ZeroDivisionError. -/
def maxConsidered (b : Fl ℝ) (nSample n : ℕ) (mc : ℝ) : Py ℝ :=
  match b with
  | .fin b =>
    if b = 0 then .error .zeroDivision
    else if nSample * n = 0 then .error .valueError
    else .ok (1 / b * (Real.log (nSample * n * 1000) / Real.log 10) + mc)
  | .nan => .error .valueError
  | _ => if nSample * n = 0 then .error .valueError else .ok mc

/-- The missing weights of `np.histogram` count as ones. -/
def onesLike (w : Option (List ℝ)) (sample : List ℝ) : List ℝ := w.getD (sample.map fun _ => 1)

/-- estimate_mc.py:133: fraction of the distances not smaller than the observed one. -/
def pValue (ds : List (Fl ℝ)) (d : Fl ℝ) : Py (Fl ℝ) :=
  if ds = [] then .error .zeroDivision
  else .ok (.fin ((ds.countP fun x => Fl.ge x d : ℕ) / (ds.length : ℝ)))

/-- estimate_mc.py:91-135: `ks_test_gr` after the checks. -/
def ksTestCore (mags : List ℝ) (mc δ : ℝ) (b : Fl ℝ) (given : Option (List (Fl ℝ)))
    (sims : List (List ℝ)) (w : Option (List ℝ)) : Py (Fl ℝ × Fl ℝ × List (Fl ℝ)) := do
  let β := BValue.bToBeta b
  match given with
  | none =>
    let top ← maxConsidered b mags.length sims.length mc
    let xb ← ksBins mc top δ
    let ds ← sims.mapM fun s => ksDistance s (onesLike w s) xb mc δ β
    let d ← ksDistance mags (onesLike w mags) xb mc δ β
    let p ← pValue ds d
    pure (p, d, ds)
  | some ds =>
    match amax? mags with
    | none => throw .valueError
    | some top =>
      let xb ← ksBins mc top δ
      let d ← ksDistance mags (onesLike w mags) xb mc δ β
      let p ← pValue ds d
      pure (p, d, ds)

/-- estimate_mc.py:45-135 `ks_test_gr`; `given` is the argument `ks_ds`, `sims` are the `n` simulated
samples. -/
def ksTest (warn : Bool) (mags : List ℝ) (mc δ : ℝ) (b : Fl ℝ) (given : Option (List (Fl ℝ)))
    (sims : List (List ℝ)) (w : Option (List ℝ)) : Py (Fl ℝ × Fl ℝ × List (Fl ℝ)) :=
  match ksGuard warn mags with
  | .error e => .error e
  | .ok true => .ok (.fin 0, .fin 1, [])
  | .ok false => ksTestCore mags mc δ b given sims w

/-- estimate_mc.py:79-85: `ks_test_gr` of a pandas Series: `np.min` of an empty Series is NaN and does not raise, so that with warnings
on an empty sample returns early. -/
def ksTestOf (series warn : Bool) (mags : List ℝ) (mc δ : ℝ) (b : Fl ℝ) (given : Option (List (Fl ℝ)))
    (sims : List (List ℝ)) (w : Option (List ℝ)) : Py (Fl ℝ × Fl ℝ × List (Fl ℝ)) :=
  if series = true ∧ warn = true ∧ mags = [] then .ok (.fin 0, .fin 1, []) else ksTest warn mags mc δ b given sims w

/-- estimate_mc.py:267, 533, 548: `magnitudes[magnitudes >= mc - delta_m / 2]`. -/
def above (mags : List ℝ) (mc δ : ℝ) : List ℝ := mags.filter fun m => decide (mc - δ / 2 ≤ m)

/-- The arguments of the estimator call (estimate_mc.py:271, 539, 549), without further keyword
arguments. -/
def argsAt (mags : List ℝ) (mc δ : ℝ) : BValue.Args :=
  { mags := (above mags mc δ).map some, mc := mc, δ := δ }

/-- What is recorded for a tested mc (estimate_mc.py:291-294). -/
structure Tested where
  mc : ℝ
  b : Fl ℝ
  d : Fl ℝ
  p : Fl ℝ

/-- The arguments of `estimate_mc_ks` (estimate_mc.py:138-150); `sims i` are the samples simulated for
the `i`-th tested mc; `series`: the magnitudes are a pandas Series and not an array. -/
structure KsArgs where
  mags : List ℝ
  δ : ℝ
  mcs : Option (List ℝ) := none
  pPass : ℝ := 1 / 10
  bValue : Option (Fl ℝ) := none
  cls : BValue.Cls := .classic
  given : Option (List (List (Fl ℝ))) := none
  sims : ℕ → List (List ℝ)
  series : Bool := false

/-- estimate_mc.py:231-237: the mcs to test. -/
def ksMcs (a : KsArgs) : Py (List ℝ) :=
  match a.mcs with
  | some l => .ok (uniqueSorted l)
  | none =>
    match amin? a.mags, amax? a.mags with
    | some lo, some hi => if a.δ = 0 then .error .zeroDivision else binArr (arange lo hi a.δ) a.δ
    | _, _ => .error .valueError

/-- estimate_mc.py:240-250: the binning checks. The warnings themselves are not recorded, but
`binning_test` raises for an empty array. -/
def ksChecks (warn : Bool) (a : KsArgs) (mcs : List ℝ) : Py Unit := do
  if a.bValue = none then
    let ok ← binningTest (a.mags.map some) a.δ (defaultTol ℝ) false
    if !ok then throw .valueError
  if warn then
    let _ ← binningTest (a.mags.map some) a.δ (defaultTol ℝ) false
    let _ ← binningTest (mcs.map some) a.δ (defaultTol ℝ) false

/-- estimate_mc.py:269-275: the b-value at `mc`. -/
def bAt (warn : Bool) (a : KsArgs) (s : BValue.State) (mc : ℝ) : BValue.State × Py (Fl ℝ) :=
  match a.bValue with
  | some b => (s, .ok b)
  | none => BValue.calculate a.cls warn s (argsAt a.mags mc a.δ)

/-- estimate_mc.py:277-289: the distances passed on, `ks_ds_list[ii]`. -/
def givenAt (a : KsArgs) (i : ℕ) : Py (Option (List (Fl ℝ))) :=
  match a.given with
  | none => .ok none
  | some l => match l[i]? with
    | some d => .ok (some d)
    | none => .error .indexError

/-- estimate_mc.py:267-294: one turn of the loop. -/
def ksOne (warn : Bool) (a : KsArgs) (s : BValue.State) (i : ℕ) (mc : ℝ) : BValue.State × Py Tested :=
  let r := bAt warn a s mc
  (r.1, do
    let b ← r.2
    let g ← givenAt a i
    let t ← ksTestOf a.series warn (above a.mags mc a.δ) mc a.δ b g (a.sims i) none
    pure ⟨mc, b, t.2.1, t.1⟩)

/-- estimate_mc.py:299, 304: `p >= p_value_pass`. -/
def passes (pPass : ℝ) (t : Tested) : Bool := Fl.ge t.p (.fin pPass)

/-- estimate_mc.py:262-300: the loop, leaving at the first mc that passes if `stop`. -/
def ksLoop (one : BValue.State → ℕ → ℝ → BValue.State × Py Tested) (pPass : ℝ) (stop : Bool) :
    BValue.State → ℕ → List ℝ → Py (List Tested)
  | _, _, [] => .ok []
  | s, i, mc :: r =>
    match one s i mc with
    | (_, .error e) => .error e
    | (s', .ok t) =>
      if passes pPass t && stop then .ok [t]
      else match ksLoop one pPass stop s' (i + 1) r with
        | .error e => .error e
        | .ok l => .ok (t :: l)

/-- The result of `estimate_mc_ks` (estimate_mc.py:302-324): best mc and b-value, and what was tested
(`mcs_tested`, `b_values_tested`, `ks_ds`, `p_values`). -/
structure KsResult where
  best : Option ℝ
  bestB : Option (Fl ℝ)
  tested : List Tested

/-- estimate_mc.py:138-324 `estimate_mc_ks`. `np.argmax` of the mask is its first true entry. -/
def mcKs (warn stop : Bool) (a : KsArgs) : Py KsResult := do
  let mcs ← ksMcs a
  ksChecks warn a mcs
  let l ← ksLoop (ksOne warn a) a.pPass stop BValue.State.init 0 mcs
  let f := l.find? (passes a.pPass)
  pure ⟨f.map Tested.mc, f.map Tested.b, l⟩

/-- `argmax`: position of the first maximum. -/
def argmax (l : List ℝ) : ℕ :=
  (List.range l.length).foldl (fun best i => if l.getD best 0 < l.getD i 0 then i else best) 0

/-- estimate_mc.py:327-403 `estimate_mc_maxc`. -/
def mcMaxc (mags : List (Option ℝ)) (δ corr : ℝ) : Py (ℝ × ℝ) := do
  let (bins, count, _) ← getFmd (mags.filterMap id) δ none .center
  pure (bins.getD (argmax count) 0 + corr, corr)

/-! ### b-value stability -/

/-- Python's `l[:k]`. -/
def sliceTo {α : Type} (l : List α) (k : ℤ) : List α :=
  if 0 ≤ k then l.take k.toNat else l.take ((l.length : ℤ) + k).toNat

/-- estimate_mc.py:496: number of steps of the stability range. -/
def stabSteps (range δ : ℝ) : ℕ := (arange 0 range δ).length

/-- estimate_mc.py:498-510: the mcs to test. -/
def stabMcs (mags : List ℝ) (δ range : ℝ) (mcs : Option (List ℝ)) : Py (List ℝ) :=
  match mcs with
  | none =>
    match amin? mags, amax? mags with
    | some lo, some hi => do
      let l ← binArr (arange lo hi δ) δ
      if l.length ≤ stabSteps range δ then throw .valueError
      pure (sliceTo l (1 - (stabSteps range δ : ℤ)))
    | _, _ => .error .valueError
  | some l =>
    match amax? mags with
    | none => .error .valueError
    | some hi =>
      let k := l.filter fun mc => decide (mc + range ≤ hi)
      if k.length < 1 then .error .valueError else .ok k

/-- estimate_mc.py:512-519: the binning checks. -/
def stabChecks (warn : Bool) (mags : List ℝ) (δ : ℝ) (mcs : List ℝ) : Py Unit := do
  let ok ← binningTest (mags.map some) δ (defaultTol ℝ) false
  if !ok then throw .valueError
  if warn then
    let _ ← binningTest (mcs.map some) δ (defaultTol ℝ) false

/-- estimate_mc.py:544-545: the cut-offs averaged over. -/
def window (mags : List ℝ) (δ range mc : ℝ) : List ℝ :=
  (arange mc (mc + range) δ).filter fun x => decide (x ≤ (amax? mags).getD 0)

/-- estimate_mc.py:546-550: the b-values at the cut-offs, with the same estimator object. -/
def windowBs (c : BValue.Cls) (warn : Bool) (mags : List ℝ) (δ : ℝ) :
    BValue.State → List ℝ → BValue.State × Py (List (Fl ℝ))
  | s, [] => (s, .ok [])
  | s, mc :: r =>
    match BValue.calculate c warn s (argsAt mags mc δ) with
    | (s', .error e) => (s', .error e)
    | (s', .ok b) =>
      match windowBs c warn mags δ s' r with
      | (s'', .error e) => (s'', .error e)
      | (s'', .ok l) => (s'', .ok (b :: l))

/-- estimate_mc.py:551-552: `abs(sum(b_ex) / steps - b) / std`. -/
def diffB (bs : List (Fl ℝ)) (steps : ℕ) (b sd : Fl ℝ) : Fl ℝ :=
  Fl.quot (Fl.abs (Fl.sub ((Fl.sum bs).overNat steps) b)) sd

/-- estimate_mc.py:533-553: b-value and normalised difference at `mc`. `ω`: the random draws of
`std` of b-more-positive, see `BValue.stdBootstrap`. -/
def stabOne (c : BValue.Cls) (ω : ℕ → List (List ℕ)) (warn : Bool) (mags : List ℝ) (δ range : ℝ) (s : BValue.State) (mc : ℝ) :
    BValue.State × Py (Fl ℝ × Fl ℝ) :=
  match BValue.calculate c warn s (argsAt mags mc δ) with
  | (s', .error e) => (s', .error e)
  | (s', .ok b) =>
    match BValue.stdOf c ω s' with
    | .error e => (s', .error e)
    | .ok sd =>
      match windowBs c warn mags δ s' (window mags δ range mc) with
      | (s'', .error e) => (s'', .error e)
      | (s'', .ok bs) => (s'', .ok (b, diffB bs (stabSteps range δ) b sd))

/-- The lists and flags of the loop (estimate_mc.py:521-526); `tested` has (mc, b, diff). -/
structure Stab where
  tested : List (ℝ × Fl ℝ × Fl ℝ) := []
  best : Option (ℝ × Fl ℝ) := none

/-- estimate_mc.py:542, 553, 558-562: record one mc. -/
def Stab.record (acc : Stab) (mc : ℝ) (b d : Fl ℝ) : Stab :=
  let tested := acc.tested ++ [(mc, b, d)]
  { tested := tested
    best := if Fl.ge (.fin 1) d && Fl.eq d (Fl.pyMin (tested.map fun t => t.2.2)) then some (mc, b) else acc.best }

/-- estimate_mc.py:528-565: the loop. -/
def stabLoop (one : BValue.State → ℝ → BValue.State × Py (Fl ℝ × Fl ℝ)) (stop : Bool) :
    BValue.State → Stab → List ℝ → Py Stab
  | _, acc, [] => .ok acc
  | s, acc, mc :: r =>
    match one s mc with
    | (_, .error e) => .error e
    | (s', .ok (b, d)) =>
      if Fl.ge (.fin 1) d && stop then .ok (acc.record mc b d)
      else stabLoop one stop s' (acc.record mc b d) r

/-- The result of `estimate_mc_b_stability` (estimate_mc.py:573-582). -/
structure StabResult where
  best : Option ℝ
  bestB : Option (Fl ℝ)
  tested : List (ℝ × Fl ℝ × Fl ℝ)

/-- estimate_mc.py:581: `bin_to_precision(best_mc, delta_m) if best_mc else None`. -/
def stabBest (δ : ℝ) (best : Option ℝ) : Option ℝ :=
  match best with
  | none => none
  | some m => if m = 0 then none else some (binTo δ m)

/-- estimate_mc.py:406-582 `estimate_mc_b_stability`, without further keyword arguments. `np.arange`
raises ZeroDivisionError for `delta_m = 0`; the final `bin_to_precision` raises for
`delta_m < 1e-12`. -/
def mcStability (warn stop : Bool) (c : BValue.Cls) (ω : ℕ → List (List ℕ)) (mags : List ℝ) (δ range : ℝ) (mcs : Option (List ℝ)) :
    Py StabResult :=
  if δ = 0 then .error .zeroDivision
  else do
    let l ← stabMcs mags δ range mcs
    stabChecks warn mags δ l
    let r ← stabLoop (stabOne c ω warn mags δ range) stop BValue.State.init {} l
    let bm := r.best.map Prod.fst
    if δ < eps ℝ && bm.isSome && bm != some 0 then throw .valueError
    pure ⟨stabBest δ bm, r.best.map Prod.snd, r.tested⟩

end
end EstimateMc
end SeismoStats
