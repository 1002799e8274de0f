/-
Model of Catalog.from_quakeml (seismostats/catalogs/catalog.py:205-253).
-/
import Verif.Model.Catalog
import Verif.Model.Download
import Verif.Model.XmlText

namespace SeismoStats
namespace FromQuakeml
open SeismoStats SeismoStats.Catalog

noncomputable section

variable {K A : Type}

/-- What is on the disk, and how texts are handed to the XML parser: the content of the file with the given name (in buffers), if there is one; the
buffers of a text. -/
structure Source where
  file : String → Option (List (List Char))
  buffers : String → List (List Char)

/-- The arguments of `from_quakeml`. -/
structure Options where
  all : Bool := true
  uncertainties : Bool := false
  ids : Bool := false
  quality : Bool := false

/-- catalog.py:242-247: a path or a text. -/
def records (env : Parser.Env) (src : Source) (q : String) (all quality : Bool) : Py (List Parser.Rec) :=
  match src.file q with
  | some bufs => XmlText.readFile env all quality bufs
  | none => XmlText.readString env all quality (src.buffers q)

/-- catalog.py:205-253 `from_quakeml`. -/
def fromQuakeml (env : Parser.Env) (toNumeric toTime : Val K → Val K) (none : A) (src : Source) (q : String) (o : Options) : Py (Obj (Val K) A) := do
  let l ← records env src q o.all o.quality
  fromDictObj toNumeric toTime none (l.map Download.cells) o.uncertainties o.ids

end
end FromQuakeml
end SeismoStats
