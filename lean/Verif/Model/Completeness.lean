/-
Model of the estimators with varying completeness:
seismostats/analysis/bvalue/kijko_smit.py and weichert.py.

The times enter as calendar years (kijko_smit.py:91, weichert.py:90; for the conversion of
datetimes see Model/CalendarYear); magnitudes and years are numbers (for NaN see Model/CompletenessMissing). The
completeness table is a list of rows (magnitude, year).
-/
import Verif.Model.AValue

namespace SeismoStats.Completeness
open SeismoStats
noncomputable section

/-- kijko_smit.py:66-68, weichert.py:69-71: `np.all(np.ediff1d(table[:, 0]) >= 0)`. -/
def ascending (table : List (ℝ × ℝ)) : Bool := (diff (table.map Prod.fst)).all fun d => decide (0 ≤ d)

/-- kijko_smit.py:62-88, weichert.py:65-87: the assertions common to both functions, in order.
The alignment assertion (69-77) asserts a list, i.e. only that there is a magnitude;
evaluating it reads `table[0, 0]` (IndexError) and builds an `arange` with step `delta_m`
(ValueError for 0). -/
def assertions (mags years : List ℝ) (table : List (ℝ × ℝ)) (δ : ℝ) (param : String) : Py Unit :=
  if mags.length ≠ years.length then .error .assertionError
  else if !ascending table then .error .assertionError
  else if mags = [] then .error .assertionError
  else if table = [] then .error .indexError
  else if δ = 0 then .error .valueError
  else if δ < 0 then .error .assertionError
  else if param = "b_value" ∨ param = "beta" then .ok ()
  else .error .assertionError

/-- kijko_smit.py:94, weichert.py:93: `last_year if last_year else np.max(years)`. -/
def lastYear (last : Option ℝ) (years : List ℝ) : ℝ :=
  match last with
  | some y => if y = 0 then (amax? years).getD 0 else y
  | none => (amax? years).getD 0

/-- kijko_smit.py:101 `np.searchsorted(-completeness_years, -years)`, for a table sorted by
descending years (numpy's result for an unsorted one is not modelled): the number of
entries smaller than the value. -/
def insertion (table : List (ℝ × ℝ)) (y : ℝ) : ℕ := table.countP fun r => decide (-r.2 < -y)

/-- kijko_smit.py:106-112: magnitudes of the sub-catalogue of row `i`. -/
def subCatalogue (mags years : List ℝ) (table : List (ℝ × ℝ)) (i : ℕ) : List ℝ :=
  mask mags (List.zipWith (fun m y => decide (insertion table y = i) && decide ((table.getD i (0, 0)).1 < m))
    mags years)

/-- kijko_smit.py:119-122: term of a sub-catalogue; `np.average` of an empty array is NaN. -/
def kijkoTerm (n : ℕ) (sub : List ℝ) (c : ℝ) : Fl ℝ :=
  if sub = [] then .nan
  else Fl.over ((sub.length : ℝ) / n) (Fl.div 1 (sub.sum / sub.length - c))

/-- kijko_smit.py:133-143: rate at the lowest completeness magnitude and a-value. -/
def kijkoRate (table : List (ℝ × ℝ)) (last δ : ℝ) (n : ℕ) (β : ℝ) : Fl ℝ × Fl ℝ :=
  let c0 := (table.getD 0 (0, 0)).1
  let rate := Fl.div n ((table.map fun r => (last - r.2) * Real.exp (-β * (r.1 - c0))).sum)
  (rate, Fl.add rate.log10 (.fin (β / Real.log 10 * (c0 + δ * (1 / 2)))))

/-- kijko_smit.py:10-145 `estimate_b_kijko_smit`. `len(sub) / ncomplete` divides Python
integers (ZeroDivisionError); with `b_parameter = 'beta'` the returned `b` is never
assigned (lines 128-130, 145). An infinite `beta` (not possible, see `C32`) would give
NaN rates here. -/
def kijkoSmit (mags years : List ℝ) (table : List (ℝ × ℝ)) (last : Option ℝ) (δ : ℝ) (param : String) :
    Py (Fl ℝ × Fl ℝ × Fl ℝ × Fl ℝ) := do
  assertions mags years table δ param
  let ly := lastYear last years
  let subs := (List.range table.length).map (subCatalogue mags years table)
  let n := (subs.map List.length).sum
  if n = 0 then throw .zeroDivision
  let terms := List.zipWith (fun sub r => kijkoTerm n sub r.1) subs table
  let β := Fl.over 1 (Fl.sum terms)
  let sd := β.mapFin (· / Real.sqrt n)
  let ra := match β with
    | .fin β => kijkoRate table ly δ n β
    | _ => (.nan, .nan)
  if param = "b_value" then pure (BValue.betaToB β, BValue.betaToB sd, ra.1, ra.2)
  else throw .unboundLocal

/-! ### Weichert -/

/-- weichert.py:100-117: the completeness year of a magnitude: that of the last row whose magnitude is
smaller; -1 if there is none (`searchsorted` on an ascending table counts the smaller entries). -/
def startYear (table : List (ℝ × ℝ)) (m : ℝ) : ℝ :=
  let i := table.countP fun r => decide (r.1 < m)
  if i = 0 then -1 else (table.getD (i - 1) (0, 0)).2

/-- weichert.py:122: magnitudes (with completeness year) of the complete events. -/
def complete (mags years : List ℝ) (table : List (ℝ × ℝ)) : List (ℝ × ℝ) :=
  (List.zip mags years).filterMap fun p =>
    let s := startYear table p.1
    if 0 < s ∧ 0 ≤ p.2 - s then some (p.1, s) else none

/-- weichert.py:128-139 `pd.cut(m, bins=edges, right=False)` and `.left`: the left edge of the bin; a
magnitude outside all bins is NaN, whose `.left` is an AttributeError. pandas rounds the edges
to three digits for the labels: see Model/DoubleCompleteness and C123. -/
def cutLeft : List ℝ → ℝ → Py ℝ
  | a :: b :: r, m => if a ≤ m ∧ m < b then .ok a else cutLeft (b :: r) m
  | _, _ => .error .attributeError

/-- A row of `complete_events` (weichert.py:123-149). -/
structure Row where
  edge : ℝ
  start : ℝ
  num : ℕ

/-- Lexicographic order of the group keys. -/
def keyLe (a b : ℝ × ℝ) : Prop := a.1 < b.1 ∨ (a.1 = b.1 ∧ a.2 ≤ b.2)

open Classical in
/-- weichert.py:124-148: group by left edge and completeness year, sorted, with sizes. -/
def groups (keys : List (ℝ × ℝ)) : List Row :=
  (keys.dedup.insertionSort keyLe).map fun k => ⟨k.1, k.2, keys.count k⟩

/-- weichert.py:99-149: `complete_events`. -/
def completeEvents (mags years : List ℝ) (table : List (ℝ × ℝ)) (magMax δ : ℝ) : Py (List Row) := do
  let edges := arange (table.getD 0 (0, 0)).1 (magMax + 1 / 100) δ
  let keys ← (complete mags years table).mapM fun p => do
    let e ← cutLeft edges p.1
    pure (e, p.2)
  pure (groups keys)

/-- Sum over the bins of `exposure * mid^k * exp(-beta*mid)` with `mid` the bin centre. -/
def moment (E : List Row) (last δ β : ℝ) (k : ℕ) : ℝ :=
  (E.map fun r => (last - r.start) * (r.edge + δ * (1 / 2)) ^ k * Real.exp (-β * (r.edge + δ * (1 / 2)))).sum

/-- Number of events. -/
def total (E : List Row) : ℕ := (E.map Row.num).sum

/-- weichert.py:218-243 `_weichert_objective_function`. -/
def objective (E : List Row) (last δ β : ℝ) : Fl ℝ :=
  let right := (E.map fun r => (r.num : ℝ) * (r.edge + δ * (1 / 2))).sum / total E
  match Fl.div (moment E last δ β 1) (moment E last δ β 0) with
  | .fin l => .fin |l - right|
  | .nan => .nan
  | _ => .pinf

/-- `np.sqrt` of a possibly infinite number. -/
def sqrtFl : Fl ℝ → Fl ℝ
  | .fin x => Fl.sqrt x
  | .pinf => .pinf
  | _ => .nan

/-- weichert.py:182-207: the standard deviation of beta. -/
def stdBeta (E : List Row) (last δ β : ℝ) : Fl ℝ :=
  let a := moment E last δ β 0 ^ 2
  let t1 := moment E last δ β 1 ^ 2
  let t2 := Real.sqrt a * moment E last δ β 2
  sqrtFl (Fl.div (-(1 / (total E : ℝ)) * a) (t1 - t2))

/-- weichert.py:167-173: rate at the lower magnitude of completeness. -/
def weichertRate (E : List Row) (last δ β : ℝ) : Fl ℝ :=
  (Fl.div ((E.map fun r => Real.exp (-β * (r.edge + δ * (1 / 2)))).sum) (moment E last δ β 0)).scalePos
    (total E : ℝ)

/-- weichert.py:12-215 `estimate_b_weichert`. `opt` is scipy's `minimize` (Nelder-Mead), an arbitrary
function of the objective. Without complete events `values[0]` raises IndexError. -/
def weichert (opt : (ℝ → Fl ℝ) → ℝ) (mags years : List ℝ) (table : List (ℝ × ℝ)) (magMax : ℝ)
    (last : Option ℝ) (δ : ℝ) (param : String) : Py (Fl ℝ × Fl ℝ × Fl ℝ × Fl ℝ × Fl ℝ) := do
  assertions mags years table δ param
  let ly := lastYear last years
  let E ← completeEvents mags years table magMax δ
  let β := opt (objective E ly δ)
  match E with
  | [] => throw .indexError
  | r :: _ =>
    let rate := weichertRate E ly δ β
    let a := Fl.add rate.log10 (.fin (β / Real.log 10 * r.edge))
    if param = "b_value" then
      pure (BValue.betaToB (.fin β), BValue.betaToB (stdBeta E ly δ β), rate,
        rate.mapFin (· / Real.sqrt (total E)), a)
    else throw .unboundLocal

end
end SeismoStats.Completeness
