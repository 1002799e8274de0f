/-
Model of seismostats/analysis/b_significant.py.

A matrix is a pair of dimensions and an entry function. The standard normal distribution function
(scipy.stats.norm) is an argument. Keyword arguments passed through to the estimators are `dmc`,
`m_ref`, `b_value` and `weights` (the same for every part).
-/
import Verif.Model.EstimateMc
import Mathlib.Algebra.BigOperators.Group.Finset.Basic

namespace SeismoStats
namespace BSignificant
open SeismoStats
open scoped BigOperators
noncomputable section

/-! ### Moran's I -/

/-- A 2-d array. -/
structure Mat where
  rows : ℕ
  cols : ℕ
  at_ : ℕ → ℕ → ℝ

/-- `np.sum(np.triu(w))`. -/
def sumTriu (n : ℕ) (w : ℕ → ℕ → ℝ) : ℝ :=
  ∑ i ∈ Finset.range n, ∑ j ∈ Finset.range n, if i ≤ j then w i j else 0

/-- `np.sum(np.tril(w))`. -/
def sumTril (n : ℕ) (w : ℕ → ℕ → ℝ) : ℝ :=
  ∑ i ∈ Finset.range n, ∑ j ∈ Finset.range n, if j ≤ i then w i j else 0

open Classical in
/-- b_significant.py:75-76: a diagonal that does not sum to zero is cleared. -/
def clearDiag (n : ℕ) (w : ℕ → ℕ → ℝ) : ℕ → ℕ → ℝ :=
  if ∑ i ∈ Finset.range n, w i i = 0 then w else fun i j => if i = j then 0 else w i j

open Classical in
/-- b_significant.py:80-87: to upper triangular form. -/
def toUpper (n : ℕ) (w : ℕ → ℕ → ℝ) : Py (ℕ → ℕ → ℝ) :=
  if sumTril n w ≠ 0 ∧ sumTriu n w ≠ 0 then
    if ∀ i < n, ∀ j < n, w i j = w j i then .ok fun i j => if i ≤ j then w i j else 0
    else .error .valueError
  else if sumTriu n w = 0 then .ok fun i j => w j i
  else .ok w

open Classical in
/-- b_significant.py:88-90: entries 0 or 1 only. -/
def checkEntries (n : ℕ) (w : ℕ → ℕ → ℝ) : Py (ℕ → ℕ → ℝ) :=
  if ∀ i < n, ∀ j < n, w i j = 0 ∨ w i j = 1 then .ok w else .error .valueError

/-- b_significant.py:66-90: the neighbour matrix used. A square matrix of a size different from the number
of values raises IndexError at line 97. -/
def neighbours (n : ℕ) (w : Option Mat) : Py (ℕ → ℕ → ℝ) :=
  match w with
  | none => .ok fun i j => if j = i + 1 then 1 else 0
  | some w =>
    if w.rows ≠ w.cols then .error .valueError
    else do
      let u ← toUpper w.rows (clearDiag w.rows w.at_)
      let u ← checkEntries w.rows u
      if w.rows ≠ n then throw .indexError
      pure u

/-- `np.isnan`, negated. -/
def valid (x : Fl ℝ) : Bool :=
  match x with
  | .nan => false
  | _ => true

/-- An infinite value. -/
def isInf (x : Fl ℝ) : Bool :=
  match x with
  | .pinf => true
  | .ninf => true
  | _ => false

/-- b_significant.py:97-98: pairs with a NaN are removed. -/
def maskPairs (x : List (Fl ℝ)) (w : ℕ → ℕ → ℝ) (i j : ℕ) : ℝ :=
  if valid (x.getD i .nan) && valid (x.getD j .nan) then w i j else 0

/-- The finite values. -/
def finite (x : List (Fl ℝ)) : List ℝ := x.filterMap Fl.val?

/-- b_significant.py:94-95: the mean of the valid values (finite here); `none` is NaN. -/
def meanOf (x : List (Fl ℝ)) (mean : Option ℝ) : ℝ :=
  mean.getD ((finite x).sum / (finite x).length)

/-- b_significant.py:100-101: deviations, 0 for NaN. -/
def dev (x : List (Fl ℝ)) (mu : ℝ) (i : ℕ) : ℝ :=
  match (x.getD i .nan).val? with
  | some v => v - mu
  | none => 0

/-- b_significant.py:102-107: `(n - 1) / n_p * ac / ac_0` with numpy's division. -/
def ratio (n : ℕ) (np ac ac0 : ℝ) : Fl ℝ :=
  match Fl.div ((n : ℝ) - 1) np with
  | .fin r => Fl.div (r * ac) ac0
  | _ => .nan

/-- The result of `est_morans_i`. -/
structure Moran where
  ac : Fl ℝ
  n : ℕ
  np : ℝ

/-- b_significant.py:17-108 `est_morans_i`. With an infinite value the products with zeros of the matrix
make `ac` NaN. In `ratio`, `n_p = 0` means that the matrix is zero, hence `ac = 0` and `inf * 0` or
`0/0` is NaN. `mean_v` is finite. -/
def morans (x : List (Fl ℝ)) (w : Option Mat) (mean : Option ℝ) : Py Moran :=
  if x.length < 2 then .error .valueError
  else do
    let w ← neighbours x.length w
    let w := maskPairs x w
    let N := x.length
    let d := dev x (meanOf x mean)
    let ac := ∑ i ∈ Finset.range N, ∑ j ∈ Finset.range N, d i * w i j * d j
    let ac0 := ∑ i ∈ Finset.range N, d i * d i
    let np := ∑ i ∈ Finset.range N, ∑ j ∈ Finset.range N, w i j
    let n := x.countP valid
    pure ⟨if x.any isInf then .nan else ratio n np ac ac0, n, np⟩

/-! ### transform_n -/

/-- b_significant.py:111-145 `transform_n` for scalars, `b_estimate` and the denominators as numpy floats; a
denominator 0 gives an infinite value. -/
def transformN (b bTrue n1 n2 : ℝ) : Py (Fl ℝ) :=
  if n2 < n1 then .error .valueError
  else
    .ok (match Fl.div bTrue b, Fl.div n1 n2 with
      | .fin q, .fin r => Fl.div bTrue (1 - Real.sqrt r * (1 - q))
      | _, .nan => .nan
      | .nan, _ => .nan
      | _, .fin r => if r = 0 then .nan else .fin 0
      | _, _ => .nan)

/-! ### Cutting -/

/-- `np.arange(start, stop, step)` for natural numbers, `step > 0`. -/
def arangeNat (start stop step : ℕ) : List ℕ :=
  (List.range ((stop - start + step - 1) / step)).map fun k => start + k * step

/-- b_significant.py:292-294: the cuts. -/
def cuts (len n offset : ℕ) : List ℕ :=
  let idx := arangeNat offset len n
  if offset = 0 then idx.tail else idx

/-- `np.array_split(l, idx)`: pieces between consecutive cuts. -/
def splitAt {α : Type} (l : List α) (from_ : ℕ) : List ℕ → List (List α)
  | [] => [l.drop from_]
  | c :: r => ((l.drop from_).take (c - from_)) :: splitAt l c r

/-- b_significant.py:266-296 `cut_constant_idx`, non-negative `n` and `offset`. -/
def cutConstant {α : Type} (l : List α) (n offset : ℕ) : Py (List ℕ × List (List α)) :=
  if n ≤ offset then .error .valueError
  else .ok (cuts l.length n offset, splitAt l 0 (cuts l.length n offset))

/-! ### Values of a partition -/

/-- The estimator classes (`method`). -/
inductive Method where
  | b (c : BValue.Cls)
  | a (c : AValue.Cls)

/-- The keyword arguments passed through. `draws` is not an argument: the random positions drawn for `std` of
b-more-positive, see `BValue.stdBootstrap`. -/
structure Kw where
  dmc : Option ℝ := none
  mref : Option ℝ := none
  b : Option ℝ := none
  weights : Option (List ℝ) := none
  draws : ℕ → List (List ℕ) := fun _ => []

/-- The state of the one estimator object used for all parts. -/
inductive Est where
  | b (s : BValue.State)
  | a (s : AValue.State)

/-- `method()`. -/
def Method.new : Method → Est
  | .b _ => .b BValue.State.init
  | .a _ => .a AValue.State.init

/-- One entry of the three result arrays. -/
structure Part where
  value : Fl ℝ
  std : Fl ℝ
  n : ℕ

/-- b_significant.py:256-261: a b-value estimator. -/
def partB (c : BValue.Cls) (ω : ℕ → List (List ℕ)) (warn : Bool) (s : BValue.State) (x : BValue.Args) : BValue.State × Py Part :=
  match BValue.calculate c warn s x with
  | (s', .error e) => (s', .error e)
  | (s', .ok _) => (s', do
      let v ← s'.bValue
      let sd ← BValue.stdOf c ω s'
      let n ← s'.n
      pure ⟨v, sd, n⟩)

/-- b_significant.py:240-255, 259-261: an a-value estimator; its `std` is None, stored as NaN. -/
def partA (c : AValue.Cls) (warn : Bool) (s : AValue.State) (x : AValue.Args) : AValue.State × Py Part :=
  match AValue.calculate c warn s x with
  | (s', .error e) => (s', .error e)
  | (s', .ok _) => (s', do
      let v ← s'.aValue
      let n ← s'.n
      pure ⟨v, .nan, n⟩)

/-- The keywords that `calculate` of the class accepts and needs (bvalue/base.py:28-32, bvalue/positive.py:44-50, bvalue/more_positive.py:48-54,
avalue/base.py:24-30, avalue/positive.py:43-52, avalue/more_positive.py:41-50); a call with others is a TypeError. A keyword given as None is not
distinguished from one that is not given. -/
def Kw.fits (kw : Kw) : Method → Bool
  | .b .classic => kw.dmc.isNone && kw.mref.isNone && kw.b.isNone
  | .b .utsu => kw.dmc.isNone && kw.mref.isNone && kw.b.isNone
  | .b .positive => kw.mref.isNone && kw.b.isNone
  | .b .morePositive => kw.mref.isNone && kw.b.isNone
  | .a .classic => kw.dmc.isNone && kw.weights.isNone
  | .a .positive => kw.weights.isNone
  | .a .morePositive => kw.b.isSome && kw.weights.isNone

/-- b_significant.py:240-261: one part, sorted by time already. -/
def partOne (m : Method) (warn : Bool) (e : Est) (mags : List (Option ℝ)) (times : List ℝ) (mc δ : ℝ)
    (scaling : Py ℝ) (kw : Kw) : Est × Py Part :=
  match m, e with
  | .b c, .b s =>
    if kw.fits (.b c) then
      let r := partB c kw.draws warn s { mags := mags, mc := mc, δ := δ, dmc := kw.dmc, weights := kw.weights }
      (.b r.1, r.2)
    else (.b s, .error .typeError)
  | .a c, .a s =>
    match scaling with
    | .error err => (.a s, .error err)
    | .ok f =>
      if kw.fits (.a c) then
        let r := partA c warn s { mags := mags, mc := mc, δ := δ, times := times, scaling := some f, mref := kw.mref, b := kw.b, dmc := kw.dmc }
        (.a r.1, r.2)
      else (.a s, .error .typeError)
  | _, e => (e, .error .typeError)

/-- b_significant.py:227-261: loop body. -/
def partStep (m : Method) (warn : Bool) (e : Est) (mags : List (Option ℝ)) (times : List ℝ) (mc δ : ℝ)
    (scaling : Py ℝ) (kw : Kw) : Est × Py Part :=
  if mags.length = 0 then (e, .ok ⟨.nan, .nan, 0⟩)
  else
    match gather mags (argsort times), gather times (argsort times) with
    | .ok ms, .ok ts => partOne m warn e ms ts mc δ scaling kw
    | _, _ => (e, .error .indexError)

/-- The inputs of one part. -/
structure PartIn where
  mags : List (Option ℝ)
  times : List ℝ
  mc : ℝ
  scaling : Py ℝ

/-- b_significant.py:227-261: the loop. -/
def partLoop (m : Method) (warn : Bool) (δ : ℝ) (kw : Kw) : Est → List PartIn → Py (List Part)
  | _, [] => .ok []
  | e, p :: r =>
    match partStep m warn e p.mags p.times p.mc δ p.scaling kw with
    | (_, .error err) => .error err
    | (e', .ok v) =>
      match partLoop m warn δ kw e' r with
      | .error err => .error err
      | .ok l => .ok (v :: l)

/-- `list_mc`: a number or a list. -/
inductive Mc where
  | one (mc : ℝ)
  | many (l : List ℝ)

/-- b_significant.py:208-214: one mc per part. -/
def Mc.expand (mc : Mc) (n : ℕ) : Py (List ℝ) :=
  match mc with
  | .one m => .ok (List.replicate n m)
  | .many l => if n ≠ l.length then .error .indexError else .ok l

/-- b_significant.py:215-218, 246: the scaling factor of part `i`. -/
def scalingAt (scaling : Option (List ℝ)) (i : ℕ) : Py ℝ :=
  match scaling with
  | none => .ok 1
  | some l => match l[i]? with
    | some v => .ok v
    | none => .error .indexError

/-- The parts with their inputs. -/
def partIns (mags : List (List (Option ℝ))) (times : List (List ℝ)) (mcs : List ℝ) (scaling : Option (List ℝ)) :
    List PartIn :=
  (List.range mags.length).map fun i => ⟨mags.getD i [], times.getD i [], mcs.getD i 0, scalingAt scaling i⟩

/-- b_significant.py:148-263 `values_from_partitioning`. -/
def valuesFromPartitioning (warn : Bool) (m : Method) (mags : List (List (Option ℝ))) (times : List (List ℝ))
    (mc : Mc) (δ : ℝ) (scaling : Option (List ℝ)) (kw : Kw) : Py (List Part) :=
  if mags.length ≠ times.length then .error .indexError
  else do
    let mcs ← mc.expand mags.length
    partLoop m warn δ kw m.new (partIns mags times mcs scaling)

/-! ### b_significant_1D -/

/-- b_significant.py:422-430: drop an incomplete last and then an incomplete first piece, from lists cut
alike. `len l` is the number of events of a piece. -/
def popLast {α β : Type} (pieces : List (List α)) (l : List β) (n : ℕ) : List β :=
  if (pieces.getLastD []).length < n then l.dropLast else l

/-- b_significant.py:426-430. -/
def popFirst {α β : Type} (pieces : List (List α)) (l : List β) (n : ℕ) : List β :=
  if (pieces.headD []).length < n then l.tail else l

/-- b_significant.py:422-430 for one of the three lists. -/
def popEdges {α β : Type} (pieces : List (List α)) (l : List β) (n : ℕ) : List β :=
  popFirst (popLast pieces pieces n) (popLast pieces l n) n

/-- b_significant.py:418: `max` of each piece; `max` of an empty one raises ValueError. -/
def maxOf (l : List ℝ) : Py ℝ :=
  match amax? l with
  | some v => .ok v
  | none => .error .valueError

/-- b_significant.py:435: too small parts become NaN. -/
def dropSmall (minNum : ℕ) (p : Part) : Fl ℝ := if p.n < minNum then .nan else p.value

/-- The arrays `ac_1D, n, n_p` at one offset. -/
structure OffsetRes where
  ac : Fl ℝ
  n : Fl ℝ
  np : Fl ℝ

/-- b_significant.py:437-441. -/
def offsetAc (minNum : ℕ) (parts : List Part) : Py OffsetRes :=
  if parts.countP (fun p => decide (minNum ≤ p.n)) < 3 then .ok ⟨.nan, .nan, .nan⟩
  else do
    let r ← morans (parts.map (dropSmall minNum)) none none
    pure ⟨r.ac, .fin r.n, .fin r.np⟩

/-- b_significant.py:411-441: one offset. -/
def offsetOne (warn : Bool) (m : Method) (kw : Kw) (δ : ℝ) (n minNum : ℕ) (mags : List (Option ℝ))
    (times mcs : List ℝ) (offset : ℕ) : Py OffsetRes := do
  let (idx, pm) ← cutConstant mags n offset
  let pt := splitAt times 0 idx
  let pc ← (splitAt mcs 0 idx).mapM maxOf
  let parts ← valuesFromPartitioning warn m (popEdges pm pm n) (popEdges pm pt n) (.many (popEdges pm pc n)) δ none kw
  offsetAc minNum parts

/-- `np.nanmean`. NaN for no values; an infinite value (not reachable for these arrays) gives NaN. -/
def nanmean (l : List (Fl ℝ)) : Fl ℝ :=
  if l.any isInf then .nan else Fl.div (finite l).sum (finite l).length

/-- Arguments of `b_significant_1D`. -/
structure Args where
  mags : List (Option ℝ)
  mc : Mc
  δ : ℝ
  times : List ℝ
  nm : ℕ
  minNum : ℕ := 2
  method : Method := .b .classic
  x : Option (List ℝ) := none
  conservative : Bool := true
  kw : Kw := {}

/-- The four returned numbers. -/
structure Result where
  p : Fl ℝ
  mac : Fl ℝ
  mu : Fl ℝ
  std : Fl ℝ

/-- b_significant.py:376-387: events in the order of `x_variable`. -/
def orderBy (x : Option (List ℝ)) (mags : List (Option ℝ)) (times : List ℝ) : Py (List (Option ℝ) × List ℝ) :=
  match x with
  | none => .ok (mags, times)
  | some x =>
    if x.length ≠ mags.length then .error .valueError
    else .ok (BValue.take' mags (argsort x), BValue.take' times (argsort x))

/-- b_significant.py:370-373: one mc per event; not reordered by `x_variable`. -/
def Mc.perEvent (mc : Mc) (n : ℕ) : List ℝ :=
  match mc with
  | .one m => List.replicate n m
  | .many l => l

open Classical in
/-- b_significant.py:389: the mask; NaN compares false. -/
def keep (mags : List (Option ℝ)) (mcs : List ℝ) (δ : ℝ) : List Bool :=
  List.zipWith (fun o mc => match o with
    | some m => decide (mc - δ / 2 ≤ m)
    | none => false) mags mcs

/-- b_significant.py:445-453: mean, expectation and deviation of the mean autocorrelation. -/
def macOf (l : List OffsetRes) : Fl ℝ × Fl ℝ × Fl ℝ :=
  match nanmean (l.map OffsetRes.np) with
  | .fin np =>
    if 2 < np then
      (nanmean (l.map OffsetRes.ac),
        (match nanmean (l.map OffsetRes.n) with
          | .fin n => Fl.div (-1) n
          | _ => .nan),
        Fl.fin ((np - 2) / (np * Real.sqrt np)))
    else (.nan, .nan, .nan)
  | _ => (.nan, .nan, .nan)

/-- b_significant.py:458: `1 - norm(loc, scale).cdf(mac)`; `Φ` is the standard normal distribution
function. -/
def pOf (Φ : ℝ → ℝ) (mac mu std : Fl ℝ) : Fl ℝ :=
  match mac, mu, std with
  | .fin x, .fin m, .fin s => .fin (1 - Φ ((x - m) / s))
  | _, _, _ => .nan

/-- b_significant.py:407-459: from the selected events on. -/
def significant (Φ : ℝ → ℝ) (warn : Bool) (a : Args) (mags : List (Option ℝ)) (times mcs : List ℝ) : Py Result := do
  let l ← (List.range a.nm).mapM (offsetOne warn a.method a.kw a.δ a.nm a.minNum mags times mcs)
  let (mac, mu, std) := macOf l
  let std := if a.conservative then std else std.mapFin (· * (81 / 100))
  pure ⟨pOf Φ mac mu std, mac, mu, std⟩

/-- b_significant.py:299-459 `b_significant_1D`. Arrays `mc` of another length fail in the comparison or in
the masking. -/
def bSignificant (Φ : ℝ → ℝ) (warn : Bool) (a : Args) : Py Result :=
  if a.mags.length ≠ a.times.length then .error .indexError
  else if a.nm < a.minNum then .error .valueError
  else do
    let (mags, times) ← orderBy a.x a.mags a.times
    let mcs := a.mc.perEvent mags.length
    if mcs.length ≠ mags.length then
      throw (if mcs.length = 1 ∨ mags.length = 1 then .indexError else .valueError)
    let k := keep mags mcs a.δ
    let mags := mask mags k
    if a.nm = 0 then throw .zeroDivision
    if mags.length < 3 * a.nm then pure ⟨.nan, .nan, .nan, .nan⟩
    else significant Φ warn a mags (mask times k) (mask mcs k)

end
end BSignificant
end SeismoStats
