/-
Model of Catalog.from_dict as a method that returns an object or raises (seismostats/catalogs/catalog.py:255-302).
-/
import Verif.Model.Catalog

namespace SeismoStats
namespace FromQuakeml
open SeismoStats SeismoStats.Catalog

noncomputable section

variable {K A : Type}

/-- catalog.py:294-295: `cls(df)` for `Catalog`: a catalogue whatever the columns are. -/
def newCatalog (toNumeric toTime : Val K → Val K) (none : A) (l : List (Dict (Val K))) : Obj (Val K) A :=
  { cls := .catalog
    frame := construct toNumeric toTime (some (ofRecords .na l))
    attrs := (metadata .catalog).map fun n => (n, none)
    required := classRequired .catalog }

/-- catalog.py:300: `df.drop_ids()`; a plain data frame has no such method. -/
def dropIdsOf (conv : String → Val K → Val K) (none : A) (o : Obj (Val K) A) : Py (Obj (Val K) A) :=
  match o.cls with
  | .plain => .error .attributeError
  | _ => .ok (dropIdsObj conv none o)

/-- catalog.py:255-302 `from_dict`. -/
def fromDictObj (toNumeric toTime : Val K → Val K) (none : A) (l : List (Dict (Val K))) (uncertainties ids : Bool) : Py (Obj (Val K) A) :=
  let conv := convertCell toNumeric toTime
  let o := newCatalog toNumeric toTime none l
  let o := if uncertainties then o else dropUncertaintiesObj conv none o
  if ids then .ok o else dropIdsOf conv none o

end
end FromQuakeml
end SeismoStats
