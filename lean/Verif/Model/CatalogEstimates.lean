/-
Model of `Catalog.estimate_b` and `Catalog.estimate_a` (seismostats/catalogs/catalog.py) with the estimator classes of
seismostats/analysis/bvalue and avalue in place of the abstract methods of Model/Catalog.lean: what the methods do with the columns of
the catalogue. Attributes and results are floats that can be NaN.
-/
import Verif.Model.Catalog
import Verif.Model.BValue
import Verif.Model.AValue

namespace SeismoStats
namespace CatalogEstimates
open SeismoStats SeismoStats.Catalog
noncomputable section

/-- A keyword argument of the caller: None, a number or a list. -/
inductive Extra where
  | none | num (x : ℝ) | list (l : List ℝ)

/-- A catalogue with float attributes. -/
abbrev Ct := Cat (Val ℝ) (Fl ℝ) ℝ

/-- An argument of an estimator: a column of the catalogue or a value. -/
abbrev Argument := Arg (Val ℝ) Extra

/-- A magnitude: NaN if the cell is no number. -/
def mags (l : List (Val ℝ)) : List (Option ℝ) := l.map toNum

/-- A cell as a real number: a number or an instant (a missing time or weight is not modelled, here a TypeError). -/
def real : Val ℝ → Py ℝ
  | .num x => .ok x
  | .time t => .ok t
  | _ => .error .typeError

/-- bvalue/base.py:68, bvalue/positive.py:88-89: `np.array(x)` if it is not None. A single number is not modelled (here a TypeError). -/
def arrayArg : Argument → Py (Option (List ℝ))
  | .column l => do
    let v ← l.mapM real
    pure (some v)
  | .value (.list l) => .ok (some l)
  | .value .none => .ok none
  | .value (.num _) => .error .typeError

/-- bvalue/positive.py:90-92 and the like: `dmc` is a number or None; the truth of `series < 0` is a ValueError, a list cannot be
compared with a number. -/
def dmcArg : Argument → Py (Option ℝ)
  | .column _ => .error .valueError
  | .value (.num x) => .ok (some x)
  | .value .none => .ok none
  | .value (.list _) => .error .typeError

/-- An argument that is not given is None. -/
def optional {T : Type} (f : Argument → Py (Option T)) : Option Argument → Py (Option T)
  | none => .ok none
  | some x => f x

/-- A finite number; NaN or an infinity as completeness magnitude, b-value and so on is not modelled (here a TypeError). -/
def finite : Fl ℝ → Py ℝ
  | .fin x => .ok x
  | _ => .error .typeError

/-- The same for an optional argument. -/
def finiteOpt : Option (Fl ℝ) → Py (Option ℝ)
  | none => .ok none
  | some x => do
    let v ← finite x
    pure (some v)

/-- Parameters of `calculate` that are not those of the base class: bvalue/positive.py:44-50, bvalue/more_positive.py:48-54. -/
def bExtra : BValue.Cls → List String
  | .classic | .utsu => []
  | .positive | .morePositive => ["times", "dmc"]

/-- An unknown keyword is a TypeError. -/
def keysOk (allowed : List String) (kw : Dict Argument) : Py Unit :=
  if kw.all fun p => decide (p.1 ∈ allowed) then .ok () else .error .typeError

/-- catalog.py:938-943 with the `calculate` of the class, on a new object. -/
def bCalculate (c : BValue.Cls) (warn : Bool) (l : List (Val ℝ)) (mc : Fl ℝ) (δ : ℝ) (w : Option Argument) (kw : Dict Argument) : Py BValue.State := do
  keysOk (bExtra c) kw
  let times ← optional arrayArg (kw.get? "times")
  let dmc ← optional dmcArg (kw.get? "dmc")
  let weights ← optional arrayArg w
  let mc ← finite mc
  match BValue.calculate c warn BValue.State.init { mags := mags l, mc := mc, δ := δ, weights := weights, times := times, dmc := dmc } with
  | (_, .error e) => .error e
  | (s, .ok _) => .ok s

/-- The four b-value estimator classes as methods of `estimate_b`; all support weights (bvalue/classic.py:61, bvalue/utsu.py:35, bvalue/positive.py:39,
bvalue/more_positive.py:43). -/
def bMethod (c : BValue.Cls) (warn : Bool) : BMethod (Val ℝ) (Fl ℝ) ℝ Extra BValue.State where
  sig := bRef ++ bExtra c
  weightsSupported := true
  call := bCalculate c warn
  bValue := BValue.State.b

/-- Parameters of `calculate` that are not those of the base class: avalue/positive.py:43-52, avalue/more_positive.py:41-50. -/
def aExtra : AValue.Cls → List String
  | .classic => []
  | .positive | .morePositive => ["times", "dmc"]

/-- avalue/positive.py:47, avalue/more_positive.py:45: `times` is needed: a TypeError if it is not given. `np.array(None)` cannot be indexed: an
IndexError (the order of the exceptions is not modelled). The classic class does not know it. -/
def aTimes (c : AValue.Cls) (kw : Dict Argument) : Py (List ℝ) :=
  match c with
  | .classic => .ok []
  | _ => match kw.get? "times" with
    | none => .error .typeError
    | some x => do
      let t ← arrayArg x
      match t with
      | none => .error .indexError
      | some t => pure t

/-- catalog.py:1059-1067 with the `calculate` of the class, on a new object. -/
def aCalculate (c : AValue.Cls) (warn : Bool) (l : List (Val ℝ)) (mc : Fl ℝ) (δ : ℝ) (scaling mRef b : Option (Fl ℝ)) (kw : Dict Argument) :
    Py AValue.State := do
  keysOk (aExtra c) kw
  let times ← aTimes c kw
  let dmc ← optional dmcArg (kw.get? "dmc")
  let scaling ← finiteOpt scaling
  let mRef ← finiteOpt mRef
  let b ← finiteOpt b
  let mc ← finite mc
  match AValue.calculate c warn AValue.State.init { mags := mags l, mc := mc, δ := δ, times := times, scaling := scaling, mref := mRef, b := b, dmc := dmc } with
  | (_, .error e) => .error e
  | (s, .ok _) => .ok s

/-- The three a-value estimator classes as methods of `estimate_a`. -/
def aMethod (c : AValue.Cls) (warn : Bool) : AMethod (Val ℝ) (Fl ℝ) ℝ Extra AValue.State where
  sig := aRef ++ aExtra c
  call := aCalculate c warn
  aValue := AValue.State.a

end
end CatalogEstimates
end SeismoStats
