/-
Model of seismostats/utils/binning.py, in exact arithmetic over an ordered field
with floor.
-/
import Verif.Model.Base
import Mathlib.Algebra.Order.Floor.Ring
import Mathlib.Data.Int.Log
import Mathlib.Data.List.Sort
import Mathlib.Data.List.Dedup

namespace SeismoStats
variable {K : Type} [Field K] [LinearOrder K] [IsStrictOrderedRing K] [FloorRing K]

/-- utils/binning.py:4 `EPSILON = 1e-12`. -/
def eps (K : Type) [Field K] : K := 1 / 10 ^ 12

/-- utils/binning.py:7-25 `_normal_round_to_int`. -/
def roundToInt (x : K) : ℤ := ⌊x + 1 / 2 + eps K⌋

/-- utils/binning.py:28-49 `normal_round`. -/
def normalRound (x : K) (n : ℤ) : K := (roundToInt (x * 10 ^ n) : K) / 10 ^ n

/-- A finite Python float seen through `Decimal(str(x))` (utils/binning.py:82-83):
mantissa and decimal exponent. -/
structure Dec where
  mant : ℤ
  exp : ℤ

/-- The number denoted by a decimal. -/
def Dec.val (K : Type) [Field K] (d : Dec) : K := (d.mant : K) * 10 ^ d.exp

/-- utils/binning.py:83 `abs(d.as_tuple().exponent)`. -/
def Dec.places (d : Dec) : ℤ := |d.exp|

/-- utils/binning.py:52-85 `bin_to_precision` on an array with NaN entries
(`none`). `x is None` (line 74) is excluded by the type. -/
def binToPrecision (x : List (Option K)) (δ : Dec) : Py (List (Option K)) :=
  if δ.val K < eps K then .error .valueError
  else .ok (x.map fun o => o.map fun v =>
    normalRound ((roundToInt (v / δ.val K) : K) * δ.val K) δ.places)

/-- utils/binning.py:84 without the final clean-up rounding: nearest multiple of
`δ`. In exact arithmetic the clean-up rounding is the identity for every decimal
`δ` (theorem `C05_cleanup_rounding_is_identity`), so the rest of the model uses this form. -/
def binTo (δ x : K) : K := (roundToInt (x / δ) : K) * δ

/-- utils/binning.py:52-85 `bin_to_precision` for arrays without NaN, in the form of `binTo`. -/
def binArr (x : List K) (δ : K) : Py (List K) :=
  if δ < eps K then .error .valueError else .ok (x.map (binTo δ))

/-- Minimum of an array, `np.min`; `none` for an empty array (numpy raises ValueError). -/
def amin? (x : List K) : Option K := match x with
  | [] => none
  | a :: r => some (r.foldl min a)

/-- Maximum of an array, `np.max`. -/
def amax? (x : List K) : Option K := match x with
  | [] => none
  | a :: r => some (r.foldl max a)

/-- `np.allclose(a, b, atol, rtol)`: `|a - b| ≤ atol + rtol*|b|` entrywise. -/
def allclose (a b : List K) (atol rtol : K) : Bool :=
  (List.zip a b).all fun p => decide (|p.1 - p.2| ≤ atol + rtol * |p.2|)

/-- utils/binning.py:166-180: the branch of `binning_test` with an explicit bin
size, on the NaN-free array shifted to its minimum. `floor(log10 δ)` is `Int.log 10 δ`. -/
def binningTestCore (x : List K) (δ tol : K) (checkLarger : Bool) : Py Bool :=
  if δ < tol then .ok true
  else do
    let xb ← binArr x δ
    let test1 := allclose xb x tol (1 / 10 ^ 16)
    if test1 && checkLarger then do
      let xb2 ← binArr x ((10 : K) ^ (Int.log 10 δ + 1))
      let test2 := !allclose xb2 x tol (1 / 10 ^ 16)
      pure (test1 && test2)
    else pure test1

/-- utils/binning.py:147-151: drop NaN, shift to the minimum. -/
def shiftToMin (x : List (Option K)) : Py (List K) :=
  let y := x.filterMap id
  match amin? y with
  | none => .error .valueError
  | some m => .ok (y.map fun v => v - m)

/-- utils/binning.py:153-163: the branch for `delta_x = 0`. `range = 0` makes
`log10` infinite and `np.arange` raise. The loop stops with False at the first
accepted power of ten. The recursive call of line 162 takes the other branch,
on an array that is shifted already. -/
def binningTestZero (x : List K) (tol : K) : Py Bool :=
  match amin? x, amax? x with
  | some lo, some hi =>
    if hi - lo ≤ 0 then .error .valueError
    else
      let start := Int.log 10 tol + 1
      let stop := Int.clog 10 (hi - lo)
      let tol' := (10 : K) ^ (Int.log 10 tol - 1)
      let rec loop : ℕ → ℤ → Py Bool
        | 0, _ => .ok true
        | n + 1, p => do
          let y ← shiftToMin (x.map some)
          if ← binningTestCore y ((10 : K) ^ p) tol' true then pure false
          else loop n (p + 1)
      loop (stop - start).toNat start
  | _, _ => .error .valueError

/-- utils/binning.py:88-181 `binning_test`. -/
def binningTest (x : List (Option K)) (δ tol : K) (checkLarger : Bool) : Py Bool :=
  if x.length = 0 then .error .valueError
  else do
    let y ← shiftToMin x
    if δ = 0 && checkLarger then binningTestZero y tol
    else binningTestCore y δ tol checkLarger

/-- The default tolerance of `binning_test` (utils/binning.py:91). -/
def defaultTol (K : Type) [Field K] : K := 1 / 10 ^ 15

/-- `np.arange(start, stop, step)` for `step > 0`: `ceil((stop-start)/step)` entries. -/
def arange (start stop step : K) : List K :=
  (List.range ⌈(stop - start) / step⌉.toNat).map fun (i : ℕ) => start + (i : K) * step

/-- Total weight of the entries selected by `p`. -/
def weightWhere {α : Type*} (xw : List (α × K)) (p : α → Bool) : K :=
  ((xw.filter fun q => p q.1).map Prod.snd).sum

/-- `np.histogram(x, edges, weights)` counts for increasing `edges`: bins are half
open, the last one closed. -/
def histogram (x w : List K) (edges : List K) : List K :=
  (List.range (edges.length - 1)).map fun i =>
    weightWhere (List.zip x w) fun v =>
      decide (edges.getD i 0 ≤ v) &&
      (decide (v < edges.getD (i + 1) 0) ||
        (decide (i + 2 = edges.length) && decide (v = edges.getD (i + 1) 0)))

/-- The two legal values of `bin_position`, everything else is `other`. -/
inductive BinPos where | center | left | other
  deriving DecidableEq

/-- utils/binning.py:184-251 `get_fmd` (magnitudes without NaN; with a NaN
`np.arange` raises ValueError). Missing weights count as ones. -/
def getFmd (mags : List K) (δ : K) (weights : Option (List K)) (pos : BinPos) :
    Py (List K × List K × List K) :=
  if δ ≤ 0 then .error .valueError
  else do
    let mb ← binArr mags δ
    match amin? mb, amax? mb with
    | some lo, some hi =>
      let xb ← binArr (arange lo (hi + 3 / 2 * δ) δ) δ
      let bins := xb.dropLast
      let edges := xb.map fun e => e - δ / 2
      let w := weights.getD (mags.map fun _ => 1)
      if w.length ≠ mb.length then .error .valueError
      else
        let counts := histogram mb w edges
        match pos with
        | .other => .error .assertionError
        | .left => pure (bins.map fun b => b - δ / 2, counts, mb)
        | .center => pure (bins, counts, mb)
    | _, _ => .error .valueError

/-- `np.cumsum`. -/
def cumsumFrom {M : Type*} [Add M] (acc : M) : List M → List M
  | [] => []
  | a :: r => (acc + a) :: cumsumFrom (acc + a) r

/-- utils/binning.py:318-319: cumulative sum from the right. -/
def revCumsum (l : List K) : List K := (cumsumFrom 0 l.reverse).reverse

/-- `np.unique`: sorted distinct values. -/
def uniqueSorted (x : List K) : List K := (x.insertionSort (· ≤ ·)).dedup

/-- utils/binning.py:254-321 `get_cum_fmd`. -/
def getCumFmd (mags : List K) (δ : K) (weights : Option (List K)) (pos : BinPos) :
    Py (List K × List K × List K) :=
  if δ = 0 then
    let u := uniqueSorted mags
    let w := weights.getD (mags.map fun _ => 1)
    if w.length ≠ mags.length then .error .valueError
    else
      let counts := u.map fun b => weightWhere (List.zip mags w) fun m => decide (m = b)
      .ok (u, revCumsum counts, mags)
  else do
    let (bins, counts, mb) ← getFmd mags δ weights pos
    pure (bins, revCumsum counts, mb)

end SeismoStats
