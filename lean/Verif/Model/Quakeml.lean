/-
Model of Catalog.to_quakeml (seismostats/catalogs/catalog.py:1410-1516, 1587-1602) with the template
catalog_templates/quakeml.j2.

The result is the tree of the rendered document (the type of trees of Spec/Parser.lean), not its text. Simplifications:
white space between elements and the namespace are left out, and values are assumed to contain no markup characters
(the template is not escaped). A cell holds the text that `str` gives of its value. Random identifiers,
`strftime` and the `int` filter are parameters.
-/
import Verif.Model.Catalog
import Verif.Spec.Parser
import Mathlib.Data.List.SplitOn
import Mathlib.Data.List.Sort

namespace SeismoStats
namespace Quakeml
open SeismoStats SeismoStats.Catalog SeismoStats.Spec.Parser

/-- A cell: NaN, None, or a value with its text. -/
inductive Cell where
  | nan | none | val (s : String)
  deriving DecidableEq

/-- `pd.notna`. -/
def notna : Cell → Bool
  | .val _ => true
  | _ => false

/-- Parameters. -/
structure Env where
  /-- `uuid.uuid4().hex` for a column and the position of the row. -/
  uuid : String → ℕ → String
  /-- `strftime('%Y-%m-%dT%H:%M:%S.%fZ')` of the time with this text. -/
  strftime : String → String
  /-- the filter `int` on a value with this text. -/
  toInt : String → String

/-- `sub in s`. -/
def contains (sub s : String) : Bool := decide (sub.toList <:+: s.toList)

/-- catalog.py:1420-1424. -/
def vals : List String := ["_uncertainty", "_lowerUncertainty", "_upperUncertainty", "_confidenceLevel", "_type"]

/-- catalog.py:1426-1429: condition for a secondary magnitude key. -/
def isKey (c : String) : Bool := contains "magnitude_" c && !(vals.any fun v => contains ("magnitude" ++ v) c)

/-- catalog.py:1410-1430 `_secondary_magnitudekeys`. -/
def keys (cols : List String) : List String := cols.filter isKey

/-- catalog.py:1509: `mag.split('_')[1]`; a key contains an underscore. -/
def keyType (c : String) : String := String.ofList (((c.toList.splitOn '_')[1]?).getD [])

/-- `s.replace(p, '')` for a non-empty `p`; the number counts the characters still to be skipped. -/
def removeGo (p : List Char) : ℕ → List Char → List Char
  | _, [] => []
  | n + 1, _ :: r => removeGo p n r
  | 0, c :: r => if p <+: c :: r then removeGo p (p.length - 1) r else c :: removeGo p 0 r

/-- catalog.py:1510: `mag.replace('_' + mag_type, '')`. -/
def keyName (c t : String) : String := String.ofList (removeGo ('_' :: t.toList) 0 c.toList)

/-- The value of a record under a name; `none` if there is no such column. -/
def cell (f : Frame Cell) (r : String → Cell) (c : String) : Option Cell := if c ∈ f.cols then some (r c) else none

/-- catalog.py:1440-1442: an identifier column that is missing is filled with random identifiers. -/
def addId (env : Env) (f : Frame Cell) (c : String) : Frame Cell :=
  if c ∈ f.cols then f
  else { cols := f.cols ++ [c], rows := f.rows.mapIdx fun i r k => if k = c then .val (env.uuid c i) else r k }

/-- catalog.py:1432-1455 `_create_ids`. The identifiers of secondary magnitudes (lines 1444-1453) are left out: they
are new columns, and no later code reads them (`secondary_mags` is found from the columns of the original). -/
def createIds (env : Env) (f : Frame Cell) : Frame Cell :=
  addId env (addId env (addId env f "eventID") "originID") "magnitudeID"

/-- catalog.py:1493: rows with coordinates and time. -/
def complete (r : String → Cell) : Bool := notna (r "latitude") && notna (r "longitude") && notna (r "time")

/-- catalog.py:1506-1507: condition for a secondary magnitude cell. -/
def written (r : String → Cell) (mag : String) : Bool :=
  match r "magnitude_type" with
  | .val t => notna (r mag) && !contains t mag
  | _ => false

/-- catalog.py:1512: `sec_mags[mag_type][mag_key] = value` on a defaultdict. -/
def setIn (d : Dict (Dict Cell)) (t k : String) (v : Cell) : Dict (Dict Cell) := d.set t (((d.get? t).getD []).set k v)

/-- catalog.py:1504-1514: the secondary magnitudes of a record. (The deletion of the keys has no other effect.) -/
def secMags (ks : List String) (r : String → Cell) : Dict (Dict Cell) :=
  ks.foldl (fun d mag => if written r mag then setIn d (keyType mag) (keyName mag (keyType mag)) (r mag) else d) []

/-! ### The template -/

/-- `{{ x }}`. -/
def show1 : Option Cell → String
  | none => ""
  | some .nan => "nan"
  | some .none => "None"
  | some (.val s) => s

/-- `'<tag>{}</tag>'.format(x) if not x is nan and x is defined else ''`: the text, if the element is there. -/
def shown : Option Cell → Option String
  | none => none
  | some .nan => none
  | some .none => some "None"
  | some (.val s) => some s

/-- The same with the filter `int`; None gives the default 0. -/
def shownInt (env : Env) : Option Cell → Option String
  | none => none
  | some .nan => none
  | some .none => some "0"
  | some (.val s) => some (env.toInt s)

/-- An element with a text, followed by `rest`. -/
def textElem (tag : String) (s : String) (rest : Forest) : Forest := .elem tag none (.text s.toList .nil) rest

/-- An optional element with a text. -/
def optElem (tag : String) (s : Option String) (rest : Forest) : Forest :=
  match s with
  | none => rest
  | some s => textElem tag s rest

/-- quakeml.j2:6-9, 12-15, 26-29, 52-55. -/
def creationInfo (agency author : String) (rest : Forest) : Forest :=
  .elem "creationInfo" none (textElem "agencyID" agency (textElem "author" author .nil)) rest

/-- quakeml.j2:11-22, 25-36: a magnitude. -/
def magnitudeItem (agency author id : String) (value uncertainty : Option String) (type originID : String) : Item :=
  .magnitude (some id) (creationInfo agency author
    (.elem "mag" none (optElem "value" value (optElem "uncertainty" uncertainty .nil))
      (textElem "type" type (textElem "originID" originID .nil))))

/-- A value with uncertainty. -/
def realElem (tag : String) (value uncertainty : Option String) (rest : Forest) : Forest :=
  .elem tag none (optElem "value" value (optElem "uncertainty" uncertainty .nil)) rest

/-- quakeml.j2:60-72. -/
def quality (env : Env) (g : String → Option Cell) : Forest :=
  .elem "quality" none
    (optElem "associatedPhaseCount" (shownInt env (g "associatedphasecount"))
    (optElem "usedPhaseCount" (shownInt env (g "usedphasecount"))
    (optElem "associatedStationCount" (shownInt env (g "associatedstationcount"))
    (optElem "usedStationCount" (shownInt env (g "usedstationcount"))
    (optElem "depthPhaseCount" (shownInt env (g "depthphasecount"))
    (optElem "standardError" (shown (g "standarderror"))
    (optElem "azimuthalGap" (shown (g "azimuthalgap"))
    (optElem "secondaryAzimuthalGap" (shown (g "secondaryazimuthalgap"))
    (optElem "maximumDistance" (shown (g "maximumdistance"))
    (optElem "minimumDistance" (shown (g "minimumdistance"))
    (optElem "medianDistance" (shown (g "mediandistance")) .nil))))))))))) .nil

/-- quakeml.j2:39-73: the origin. -/
def originItem (env : Env) (agency author : String) (g : String → Option Cell) : Item :=
  .origin (some (show1 (g "originID")))
    (.elem "time" none (textElem "value" (env.strftime (show1 (g "time"))) .nil)
    (realElem "longitude" (shown (g "longitude")) (shown (g "longitude_uncertainty"))
    (realElem "latitude" (shown (g "latitude")) (shown (g "latitude_uncertainty"))
    (textElem "evaluationMode" (show1 (g "evaluationmode"))
    (creationInfo agency author
    (realElem "depth" (shown (g "depth")) (shown (g "depth_uncertainty")) (quality env g)))))))

/-- quakeml.j2:24-37: one secondary magnitude. -/
def secondaryItem (agency author originID : String) (p : String × Dict Cell) : Item :=
  magnitudeItem agency author (show1 (p.2.get? "magnitude_magnitudeID")) (shown (p.2.get? "magnitude"))
    (shown (p.2.get? "magnitude_uncertainty")) p.1 originID

/-- quakeml.j2:5-79: one event. -/
def eventTree (env : Env) (agency author : String) (g : String → Option Cell) (sec : Dict (Dict Cell)) : Event :=
  { id := some (show1 (g "eventID"))
    items := [.plain (creationInfo agency author .nil),
        magnitudeItem agency author (show1 (g "magnitudeID")) (shown (g "magnitude")) (shown (g "magnitude_uncertainty"))
          (show1 (g "magnitude_type")) (show1 (g "originID"))] ++
      sec.map (secondaryItem agency author (show1 (g "originID"))) ++
      [originItem env agency author g,
        .plain (textElem "preferredOriginID" (show1 (g "originID"))
          (textElem "preferredMagnitudeID" (show1 (g "magnitudeID")) (textElem "type" (show1 (g "event_type")) .nil)))] }

/-- quakeml.j2:2-3, 81-82: what is around the events. -/
def document (events : List Event) : List Part :=
  [.other (.start "q:quakeml" none), .other (.start "eventParameters" (some "smi:org.gfz-potsdam.de/geofon/EventParameters"))] ++
    events.map .event ++ [.other (.stop "eventParameters"), .other (.stop "q:quakeml")]

/-- catalog.py:1491-1514: the events of the document. The rows keep the position that their identifier was made for. -/
def events (env : Env) (agency author : String) (f : Frame Cell) : List Event :=
  let df := createIds env f
  (df.rows.filter complete).map fun r => eventTree env agency author (cell df r) (secMags (keys f.cols) r)

/-- catalog.py:1457-1516 `Catalog.to_quakeml`. -/
def toQuakeml (env : Env) (agency author : String) (f : Frame Cell) : Py (List Part) :=
  if hasCols catalogColumns f.cols then .ok (document (events env agency author f)) else .error .attributeError

/-! ### Forecast catalogues -/

/-- The identifiers of `groupby('catalog_id')`: sorted, each once, without missing ones. -/
def groupKeys (ids : List (Option ℤ)) : List ℤ := (ids.filterMap id).dedup.insertionSort (· ≤ ·)

/-- catalog.py:1600-1602: the rows of each group, in their order; `cid` reads the `catalog_id` of a row. -/
def groups (cid : (String → Cell) → Option ℤ) (rows : List (String → Cell)) : List (List (String → Cell)) :=
  (groupKeys (rows.map cid)).map fun k => rows.filter fun r => decide (cid r = some k)

/-- catalog.py:1587-1602 `ForecastCatalog.to_quakeml`: one document per group. -/
def toQuakemls (env : ℕ → Env) (agency author : String) (cid : (String → Cell) → Option ℤ) (f : Frame Cell) : Py (List (List Part)) :=
  if hasCols (catalogColumns ++ ["catalog_id"]) f.cols then
    ((groups cid f.rows).mapIdx fun i g => (i, g)).mapM fun p => toQuakeml (env p.1) agency author { f with rows := p.2 }
  else .error .attributeError

end Quakeml
end SeismoStats
