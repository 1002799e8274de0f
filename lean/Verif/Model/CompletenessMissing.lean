/-
The estimators with varying completeness (seismostats/analysis/bvalue/kijko_smit.py and weichert.py, see Model/Completeness.lean) with missing magnitudes: a
magnitude is `none` for NaN. Years are numbers (a missing time would fail in the conversion to years).
-/
import Verif.Model.Completeness

namespace SeismoStats.Completeness
open SeismoStats
noncomputable section

/-- kijko_smit.py:62-88, weichert.py:65-87: the assertions; NaN is a magnitude like others for the lengths and for `np.unique`. -/
def assertionsM (mags : List (Option ℝ)) (years : List ℝ) (table : List (ℝ × ℝ)) (δ : ℝ) (param : String) : Py Unit :=
  if mags.length ≠ years.length then .error .assertionError
  else if !ascending table then .error .assertionError
  else if mags = [] then .error .assertionError
  else if table = [] then .error .indexError
  else if δ = 0 then .error .valueError
  else if δ < 0 then .error .assertionError
  else if param = "b_value" ∨ param = "beta" then .ok ()
  else .error .assertionError

/-- kijko_smit.py:109 `magnitudes > completeness_magnitudes[idx]`: false for NaN. -/
def above (c : ℝ) : Option ℝ → Bool
  | some m => decide (c < m)
  | none => false

/-- kijko_smit.py:106-112: magnitudes of the sub-catalogue of row `i`; all of them are numbers. -/
def subCatalogueM (mags : List (Option ℝ)) (years : List ℝ) (table : List (ℝ × ℝ)) (i : ℕ) : List ℝ :=
  (mask mags (List.zipWith (fun m y => decide (insertion table y = i) && above (table.getD i (0, 0)).1 m) mags years)).filterMap id

/-- kijko_smit.py:10-145 `estimate_b_kijko_smit`. -/
def kijkoSmitM (mags : List (Option ℝ)) (years : List ℝ) (table : List (ℝ × ℝ)) (last : Option ℝ) (δ : ℝ) (param : String) :
    Py (Fl ℝ × Fl ℝ × Fl ℝ × Fl ℝ) := do
  assertionsM mags years table δ param
  let ly := lastYear last years
  let subs := (List.range table.length).map (subCatalogueM mags years table)
  let n := (subs.map List.length).sum
  if n = 0 then throw .zeroDivision
  let terms := List.zipWith (fun sub r => kijkoTerm n sub r.1) subs table
  let β := Fl.over 1 (Fl.sum terms)
  let sd := β.mapFin (· / Real.sqrt n)
  let ra := match β with
    | .fin β => kijkoRate table ly δ n β
    | _ => (.nan, .nan)
  if param = "b_value" then pure (BValue.betaToB β, BValue.betaToB sd, ra.1, ra.2)
  else throw .unboundLocal

/-- weichert.py:100-117: the completeness year; `searchsorted` sorts NaN behind all numbers, which gives the last row. -/
def startYearM (table : List (ℝ × ℝ)) : Option ℝ → ℝ
  | some m => startYear table m
  | none => (table.getLastD (0, -1)).2

/-- weichert.py:122: the complete events. -/
def completeM (mags : List (Option ℝ)) (years : List ℝ) (table : List (ℝ × ℝ)) : List (Option ℝ × ℝ) :=
  (List.zip mags years).filterMap fun p =>
    let s := startYearM table p.1
    if 0 < s ∧ 0 ≤ p.2 - s then some (p.1, s) else none

/-- weichert.py:128-139: `pd.cut` gives NaN for NaN, a float without `left`. -/
def cutLeftM (edges : List ℝ) : Option ℝ → Py ℝ
  | some m => cutLeft edges m
  | none => .error .attributeError

/-- weichert.py:99-149: `complete_events`. -/
def completeEventsM (mags : List (Option ℝ)) (years : List ℝ) (table : List (ℝ × ℝ)) (magMax δ : ℝ) : Py (List Row) := do
  let edges := arange (table.getD 0 (0, 0)).1 (magMax + 1 / 100) δ
  let keys ← (completeM mags years table).mapM fun p => do
    let e ← cutLeftM edges p.1
    pure (e, p.2)
  pure (groups keys)

/-- weichert.py:12-215 `estimate_b_weichert`. -/
def weichertM (opt : (ℝ → Fl ℝ) → ℝ) (mags : List (Option ℝ)) (years : List ℝ) (table : List (ℝ × ℝ)) (magMax : ℝ)
    (last : Option ℝ) (δ : ℝ) (param : String) : Py (Fl ℝ × Fl ℝ × Fl ℝ × Fl ℝ × Fl ℝ) := do
  assertionsM mags years table δ param
  let ly := lastYear last years
  let E ← completeEventsM mags years table magMax δ
  let β := opt (objective E ly δ)
  match E with
  | [] => throw .indexError
  | r :: _ =>
    let rate := weichertRate E ly δ β
    let a := Fl.add rate.log10 (.fin (β / Real.log 10 * r.edge))
    if param = "b_value" then
      pure (BValue.betaToB (.fin β), BValue.betaToB (stdBeta E ly δ β), rate,
        rate.mapFin (· / Real.sqrt (total E)), a)
    else throw .unboundLocal

end
end SeismoStats.Completeness
