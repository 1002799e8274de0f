/-
Model of seismostats/catalogs/catalog.py (construction, column operations, estimation methods) and of
`require_cols` in seismostats/utils/__init__.py.

A data frame is a list of column names and a list of rows; a row is a function of the column name, looked at
only at columns of the frame (simplification). The index is not modelled.
-/
import Verif.Model.Base
import Verif.Model.Binning
import Mathlib.Data.List.Infix

namespace SeismoStats
namespace Catalog
open SeismoStats

/-- A cell: missing (NaN, NaT, None), a number, a string, or an instant. -/
inductive Val (K : Type) where
  | na | num (x : K) | str (s : String) | time (t : K)

/-- A data frame. -/
structure Frame (V : Type) where
  cols : List String
  rows : List (String → V)

variable {V K D A : Type}

/-- `df[c]`. -/
def Frame.column (f : Frame V) (c : String) : List V := f.rows.map fun r => r c

/-- `df.drop(columns=...)` for columns that are there. -/
def Frame.drop (f : Frame V) (p : String → Bool) : Frame V := { f with cols := f.cols.filter fun c => !p c }

/-- `df[c] = g(df[c])` row by row, for a column that is there. -/
def Frame.update (f : Frame V) (c : String) (g : V → V) : Frame V :=
  { f with rows := f.rows.map fun r k => if k = c then g (r k) else r k }

/-- catalog.py:40-41 `CATALOG_COLUMNS`. -/
def catalogColumns : List String := ["longitude", "latitude", "depth", "time", "magnitude", "magnitude_type"]

/-- `re.search(suffix + '$', name)`: `$` also matches before a newline at the end. -/
def endsRe (suf name : String) : Bool :=
  decide (suf.toList <:+ name.toList) || decide ((suf ++ "\n").toList <:+ name.toList)

/-- catalog.py:447-450: columns found by the regular expression. -/
def isUncertainty (c : String) : Bool :=
  endsRe "_uncertainty" c || endsRe "_lowerUncertainty" c || endsRe "_upperUncertainty" c || endsRe "_confidenceLevel" c

/-- catalog.py:464-465. -/
def isId (c : String) : Bool := endsRe "eventID" c || endsRe "originID" c || endsRe "magnitudeID" c

/-- catalog.py:436-452 `drop_uncertainties`. -/
def dropUncertainties (f : Frame V) : Frame V := f.drop isUncertainty

/-- catalog.py:454-467 `drop_ids`. -/
def dropIds (f : Frame V) : Frame V := f.drop isId

/-- `pd.DataFrame.from_dict(list of dicts)`: all keys in order of first appearance. -/
def recordCols (l : List (Dict V)) : List String := (l.flatMap fun d => d.map Prod.fst).reverse.dedup.reverse

/-- `pd.DataFrame.from_dict(list of dicts)`: missing entries are `na`. -/
def ofRecords (na : V) (l : List (Dict V)) : Frame V :=
  { cols := recordCols l, rows := l.map fun d c => (d.get? c).getD na }

/-! ### Classes and metadata -/

/-- Class of a frame. -/
inductive Cls where
  | plain | catalog | forecast
  deriving DecidableEq

/-- A frame object: its class, content, attributes in `_metadata` and `_required_cols`. -/
structure Obj (V A : Type) where
  cls : Cls
  frame : Frame V
  attrs : Dict A
  required : List String

/-- catalog.py:124-127, 1580: `_metadata` without `_required_cols`. -/
def metadata : Cls → List String
  | .plain => []
  | .catalog => ["name", "mc", "a_value", "delta_m", "b_value", "starttime", "endtime", "bounding_polygon",
      "depth_min", "depth_max", "logger"]
  | .forecast => ["name", "mc", "a_value", "delta_m", "b_value", "starttime", "endtime", "bounding_polygon",
      "depth_min", "depth_max", "logger", "n_catalogs"]

/-- catalog.py:129, 1579 `_required_cols` of a class. -/
def classRequired : Cls → List String
  | .plain => []
  | .catalog => catalogColumns
  | .forecast => catalogColumns ++ ["catalog_id"]

/-- utils/__init__.py:20-35 `_check_required_cols`. -/
def hasCols (req cols : List String) : Bool := req.all fun c => decide (c ∈ cols)

/-- catalog.py:50-55 `_catalog_constructor_with_fallback`: the class of the result of a frame operation. -/
def classOf (cols : List String) : Cls :=
  if !hasCols ["magnitude"] cols then .plain
  else if !hasCols ["catalog_id"] cols then .catalog
  else .forecast

/-- Conversion of all cells by the constructor of `Catalog`. -/
def Frame.convert (conv : String → V → V) (f : Frame V) : Frame V :=
  { f with rows := f.rows.map fun r c => conv c (r c) }

/-- catalog.py:50-55, 138-203, 1582-1585 `_catalog_constructor_with_fallback`: the class is found from the columns;
a new object has empty attributes, and its cells are converted (`conv`, see `convertCell` below). -/
def newObj (conv : String → V → V) (none : A) (f : Frame V) : Obj V A :=
  match classOf f.cols with
  | .plain => { cls := .plain, frame := f, attrs := [], required := [] }
  | k => { cls := k, frame := f.convert conv, attrs := (metadata k).map fun n => (n, none), required := classRequired k }

/-- `getattr(o, name, None)` (a column of that name is not looked up: simplification). -/
def getAttr (none : A) (o : Obj V A) (n : String) : A := (o.attrs.get? n).getD none

/-- catalog.py:1530 with pandas' `NDFrame.__finalize__`: attributes in the metadata of both. -/
def finalizeFrom (self other : Obj V A) : Obj V A :=
  match self.cls with
  | .plain => self
  | k => { self with attrs := (metadata k).filterMap fun n =>
             if n ∈ metadata other.cls then (other.attrs.get? n).map (fun a => (n, a)) else (self.attrs.get? n).map fun a => (n, a)
                     required := if other.cls = .plain then self.required else other.required }

/-- catalog.py:1533-1540: all attributes from the left (first) operand, None if it has no such attribute. -/
def finalizeAll (none : A) (self first : Obj V A) : Obj V A :=
  match self.cls with
  | .plain => self
  | k => { self with attrs := (metadata k).map fun n => (n, getAttr none first n)
                     required := first.required }

/-- The object that the `_constructor` of `o` makes of a new content: catalog.py:131-136; a plain frame stays plain. -/
def constructor (conv : String → V → V) (none : A) (o : Obj V A) (f : Frame V) : Obj V A :=
  match o.cls with
  | .plain => { cls := .plain, frame := f, attrs := [], required := [] }
  | _ => newObj conv none f

/-- A frame operation with one operand: the new content goes through the constructor and `__finalize__`. -/
def unary (conv : String → V → V) (none : A) (o : Obj V A) (f : Frame V) : Obj V A :=
  finalizeFrom (constructor conv none o f) o

/-- `merge` and `concat` of catalogues: `first` is the left or first operand, whose `_constructor` is used. -/
def joined (conv : String → V → V) (none : A) (first : Obj V A) (f : Frame V) : Obj V A :=
  finalizeAll none (constructor conv none first f) first

/-- `o[c] = values`, in place: class and attributes stay, the column is appended if it is new. -/
def setItem (o : Obj V A) (c : String) (vals : List V) : Obj V A :=
  { o with frame := { cols := if c ∈ o.frame.cols then o.frame.cols else o.frame.cols ++ [c]
                      rows := List.zipWith (fun r v k => if k = c then v else r k) o.frame.rows vals } }

/-- catalog.py:436-452 `drop_uncertainties` of an object. -/
def dropUncertaintiesObj (conv : String → V → V) (none : A) (o : Obj V A) : Obj V A :=
  unary conv none o (dropUncertainties o.frame)

/-- catalog.py:454-467 `drop_ids` of an object. -/
def dropIdsObj (conv : String → V → V) (none : A) (o : Obj V A) : Obj V A := unary conv none o (dropIds o.frame)

/-! ### Construction -/

/-- catalog.py:173-178. -/
def numericCols : List String :=
  ["magnitude", "latitude", "longitude", "depth", "associatedphasecount", "usedphasecount", "associatedstationcount",
    "usedstationcount", "standarderror", "azimuthalgap", "secondaryazimuthalgap", "maximumdistance",
    "minimumdistance", "mediandistance"]

/-- catalog.py:198-202: strings that stand for a missing entry. -/
def nullStrings : List String := ["", "nan", "NaN", "none", "None", "na", "Na", "NA", "null", "Null", "NULL"]

/-- catalog.py:195-203: clean-up of a string cell. -/
def cleanString (v : Val K) : Val K :=
  match v with
  | .str s => if s ∈ nullStrings then .na else .str s
  | v => v

/-- catalog.py:182-203: conversion of a cell by the constructor. `toNumeric` is `pd.to_numeric` with
errors='coerce', `toTime` the parsing of times (an exception is not modelled). -/
def convertCell (toNumeric toTime : Val K → Val K) (c : String) (v : Val K) : Val K :=
  if c ∈ numericCols then toNumeric v
  else if c = "time" then toTime v
  else if c = "magnitude_type" ∨ c = "event_type" then cleanString v
  else v

/-- catalog.py:156-203: the content of `Catalog(data)`; an empty frame gets the default columns. -/
def construct (toNumeric toTime : Val K → Val K) (data : Option (Frame (Val K))) : Frame (Val K) :=
  match data with
  | none => { cols := catalogColumns, rows := [] }
  | some f =>
    if f.cols = [] then { cols := catalogColumns, rows := [] }
    else { f with rows := f.rows.map fun r c => convertCell toNumeric toTime c (r c) }

/-- catalog.py:255-302 `from_dict`, on the content. -/
def fromDict (toNumeric toTime : Val K → Val K) (l : List (Dict (Val K))) (uncertainties ids : Bool) : Frame (Val K) :=
  let f := construct toNumeric toTime (some (ofRecords .na l))
  let f := if uncertainties then f else dropUncertainties f
  if ids then f else dropIds f

/-! ### Requirements -/

/-- utils/__init__.py:55-56: the requirement without the excluded columns. -/
def effective (req excl : List String) : List String := req.filter fun c => !decide (c ∈ excl)

/-- utils/__init__.py:38-71 `require_cols`: the body runs only if the columns are there. -/
def requireCols {S R : Type} (req excl cols : List String) (s : S) (body : S → S × Py R) : S × Py R :=
  if hasCols (effective req excl) cols then body s else (s, .error .attributeError)

/-- utils/__init__.py:61: the names in the message. -/
def missingCols (req excl cols : List String) : List String :=
  (effective req excl).filter fun c => !decide (c ∈ cols)

/-- utils/__init__.py:51-64: a decorated method keeps its requirement between calls (`nonlocal require`).
First component: the requirement afterwards. -/
def requireCall {S R : Type} (req excl cols : List String) (s : S) (body : S → S × Py R) : List String × S × Py R :=
  (effective req excl, requireCols req excl cols s body)

/-- Calls of a decorated method one after the other, on objects with the columns `cols s`. -/
def requireCalls {S R : Type} (excl : List String) (cols : S → List String) (body : S → S × Py R) :
    List String → List S → List (S × Py R)
  | _, [] => []
  | req, s :: l =>
    let r := requireCall req excl (cols s) s body
    r.2 :: requireCalls excl cols body r.1 l

/-! ### strip -/

/-- catalog.py:469-484 `strip` (the decorator uses the columns of `Catalog`). In place the class and the
attributes stay; otherwise the result goes through the constructor. -/
def strip (conv : String → V → V) (none : A) (o : Obj V A) (inplace : Bool) : Obj V A × Py (Option (Obj V A)) :=
  requireCols catalogColumns [] o.frame.cols o fun o =>
    let f := o.frame.drop fun c => !decide (c ∈ o.required)
    if inplace then ({ o with frame := f }, .ok .none)
    else (o, .ok (some (unary conv none o f)))

/-! ### bin_magnitudes -/

/-- A catalogue with the attributes that the estimation methods use; `D` is the type of bin sizes. -/
structure Cat (V K D : Type) where
  frame : Frame V
  mc : Option K := none
  deltaM : Option D := none
  bValue : Option K := none
  aValue : Option K := none

/-- A numeric cell. -/
def toNum (v : Val K) : Option K :=
  match v with
  | .num x => some x
  | _ => none

/-- A cell from a number or NaN. -/
def ofNum (x : Option K) : Val K :=
  match x with
  | some x => .num x
  | none => .na

/-- Replace the values of a column. -/
def setColumn (c : String) (rows : List (String → V)) (vals : List V) : List (String → V) :=
  List.zipWith (fun r v k => if k = c then v else r k) rows vals

section
variable [Field K] [LinearOrder K] [IsStrictOrderedRing K] [FloorRing K]

/-- catalog.py:527-528. -/
def binned (c : Cat (Val K) K Dec) (δ : Dec) : Py (Cat (Val K) K Dec) :=
  match binToPrecision ((c.frame.column "magnitude").map toNum) δ with
  | .error e => .error e
  | .ok v => .ok { c with frame := { c.frame with rows := setColumn "magnitude" c.frame.rows (v.map ofNum) }, deltaM := some δ }

/-- catalog.py:522-531: in place or on a copy. (`copy()` goes through the constructor, which converts the cells again; cells that it has converted once stay the
same, see C68; this second conversion is not modelled here.) -/
def binWith (c : Cat (Val K) K Dec) (δ : Dec) (inplace : Bool) : Cat (Val K) K Dec × Py (Option (Cat (Val K) K Dec)) :=
  match binned c δ with
  | .error e => (c, .error e)
  | .ok c' => if inplace then (c', .ok none) else (c, .ok (some c'))

/-- catalog.py:486-531 `bin_magnitudes`: the catalogue afterwards and the returned value. -/
def binMagnitudes (c : Cat (Val K) K Dec) (δ : Option Dec) (inplace : Bool) :
    Cat (Val K) K Dec × Py (Option (Cat (Val K) K Dec)) :=
  requireCols ["magnitude"] [] c.frame.cols c fun c =>
    match δ with
    | some d => binWith c d inplace
    | none =>
      match c.deltaM with
      | some d => binWith c d inplace
      | none => (c, .error .valueError)

end

/-! ### Estimation methods -/

/-- catalog.py:1621-1622: singular form. -/
def singular (a : String) : String := if a.toList.getLast? = some 's' then String.ofList a.toList.dropLast else a

/-- catalog.py:1605-1631 `_check_catalog_cols`: a dict comprehension, later entries overwrite earlier ones. -/
def checkCols (sig ref : List String) (f : Frame V) : Dict (List V) :=
  let extra := sig.filter fun n => !decide (n ∈ ref)
  let pairs := List.zip (extra ++ extra) (extra.map singular ++ extra)
  pairs.foldl (fun d p => if p.2 ∈ f.cols then d.set p.1 (f.column p.2) else d) []

/-- An argument: a column or another value. -/
inductive Arg (V A : Type) where
  | column (l : List V) | value (a : A)

/-- A b-value estimator class: the parameters of its `calculate`, whether weights are supported, and
`calculate` on a new object (`call`), which gives the object. -/
structure BMethod (V K D A R : Type) where
  sig : List String
  weightsSupported : Bool
  call : List V → K → D → Option (Arg V A) → Dict (Arg V A) → Py R
  bValue : R → Option K

/-- bvalue/base.py:28-32: parameters of `BValueEstimator.calculate`. -/
def bRef : List String := ["self", "magnitudes", "mc", "delta_m", "weights"]

/-- avalue/base.py:24-30: parameters of `AValueEstimator.calculate`. -/
def aRef : List String := ["self", "magnitudes", "mc", "delta_m", "scaling_factor", "m_ref", "b_value"]

/-- `if x is None and self.x is None: raise; if x is None: x = self.x`. -/
def resolve {T : Type} (arg attr : Option T) : Py T :=
  match arg with
  | some x => .ok x
  | none =>
    match attr with
    | some x => .ok x
    | none => .error .valueError

/-- catalog.py:925-930. -/
def chooseWeights (supported : Bool) (w : Option (Arg V A)) (f : Frame V) : Option (Arg V A) :=
  if !supported then none
  else
    match w with
    | some w => some w
    | none => if "weight" ∈ f.cols then some (.column (f.column "weight")) else none

/-- catalog.py:933-935, 1055-1057. -/
def allKwargs (sig ref : List String) (f : Frame V) (kwargs : Dict (Arg V A)) : Dict (Arg V A) :=
  Dict.update ((checkCols sig ref f).map fun p => (p.1, Arg.column p.2)) kwargs

/-- catalog.py:915-943: the call of the estimator. -/
def bCall {R : Type} (c : Cat V K D) (mc : Option K) (δ : Option D) (w : Option (Arg V A)) (m : BMethod V K D A R)
    (kwargs : Dict (Arg V A)) : Py R := do
  let mc ← resolve mc c.mc
  let δ ← resolve δ c.deltaM
  m.call (c.frame.column "magnitude") mc δ (chooseWeights m.weightsSupported w c.frame) (allKwargs m.sig bRef c.frame kwargs)

/-- catalog.py:831-947 `estimate_b`. -/
def estimateB {R : Type} (c : Cat V K D) (mc : Option K) (δ : Option D) (w : Option (Arg V A)) (m : BMethod V K D A R)
    (kwargs : Dict (Arg V A)) : Cat V K D × Py R :=
  requireCols ["magnitude"] [] c.frame.cols c fun c =>
    match bCall c mc δ w m kwargs with
    | .error e => (c, .error e)
    | .ok r => ({ c with bValue := m.bValue r }, .ok r)

/-- An a-value estimator class. -/
structure AMethod (V K D A R : Type) where
  sig : List String
  call : List V → K → D → (scaling mRef b : Option K) → Dict (Arg V A) → Py R
  aValue : R → Option K

/-- catalog.py:1044-1067. -/
def aCall {R : Type} (c : Cat V K D) (mc : Option K) (δ : Option D) (scaling mRef b : Option K) (m : AMethod V K D A R)
    (kwargs : Dict (Arg V A)) : Py R := do
  let mc ← resolve mc c.mc
  let δ ← resolve δ c.deltaM
  m.call (c.frame.column "magnitude") mc δ scaling mRef b (allKwargs m.sig aRef c.frame kwargs)

/-- catalog.py:949-1071 `estimate_a`. -/
def estimateA {R : Type} (c : Cat V K D) (mc : Option K) (δ : Option D) (scaling mRef b : Option K) (m : AMethod V K D A R)
    (kwargs : Dict (Arg V A)) : Cat V K D × Py R :=
  requireCols ["magnitude"] [] c.frame.cols c fun c =>
    match aCall c mc δ scaling mRef b m kwargs with
    | .error e => (c, .error e)
    | .ok r => ({ c with aValue := m.aValue r }, .ok r)

/-- catalog.py:533-608 `estimate_mc_maxc`; `f` is the function of the same name on the magnitudes. -/
def estimateMcMaxc {I : Type} (c : Cat V K D) (f : List V → Py (Option K × I)) : Cat V K D × Py (Option K × I) :=
  requireCols ["magnitude"] [] c.frame.cols c fun c =>
    match f (c.frame.column "magnitude") with
    | .error e => (c, .error e)
    | .ok r => ({ c with mc := r.1 }, .ok r)

/-- catalog.py:697-710. -/
def stabilityCall {I : Type} (c : Cat V K D) (δ : Option D) (f : List V → D → Py (Option K × I)) : Py (Option K × I) := do
  let δ ← resolve δ c.deltaM
  f (c.frame.column "magnitude") δ

/-- catalog.py:610-712 `estimate_mc_b_stability`. -/
def estimateMcStability {I : Type} (c : Cat V K D) (δ : Option D) (f : List V → D → Py (Option K × I)) :
    Cat V K D × Py (Option K × I) :=
  requireCols ["magnitude"] [] c.frame.cols c fun c =>
    match stabilityCall c δ f with
    | .error e => (c, .error e)
    | .ok r => ({ c with mc := r.1 }, .ok r)

/-- catalog.py:806-825: the b-value of the argument, else of the catalogue, else None. -/
def ksCall {I : Type} (c : Cat V K D) (δ : Option D) (b : Option K) (f : List V → D → Option K → Py (Option K × I)) :
    Py (Option K × I) := do
  let δ ← resolve δ c.deltaM
  f (c.frame.column "magnitude") δ (b.or c.bValue)

/-- catalog.py:714-829 `estimate_mc_ks`. -/
def estimateMcKs {I : Type} (c : Cat V K D) (δ : Option D) (b : Option K) (f : List V → D → Option K → Py (Option K × I)) :
    Cat V K D × Py (Option K × I) :=
  requireCols ["magnitude"] [] c.frame.cols c fun c =>
    match ksCall c δ b f with
    | .error e => (c, .error e)
    | .ok r => ({ c with mc := r.1 }, .ok r)

end Catalog
end SeismoStats
