/-
Model of the text that Catalog.to_quakeml returns (seismostats/catalogs/catalog.py:1457-1516, catalog_templates/quakeml.j2): the tree of Model/Quakeml.lean with
the white space of the template, printed without escaping (`select_autoescape` does not apply to files that end in `.j2`).
-/
import Verif.Model.Quakeml
import Verif.Model.XmlText

namespace SeismoStats
namespace QuakemlText
open SeismoStats SeismoStats.Catalog SeismoStats.Quakeml SeismoStats.Spec.Parser SeismoStats.Parser

/-- A new line and `n` blanks. -/
def nl (n : ℕ) : List Char := '\n' :: List.replicate n ' '

/-- An empty line, a new line and `n` blanks. -/
def nl2 (n : ℕ) : List Char := '\n' :: nl n

/-- quakeml.j2:6-9, 12-15, 26-29, 52-55, with the indentation `k` of the element. -/
def creationInfo (k : ℕ) (agency author : String) (rest : Forest) : Forest :=
  .elem "creationInfo" none (.text (nl (k + 4)) (textElem "agencyID" agency (.text (nl (k + 4)) (textElem "author" author (.text (nl k) .nil))))) rest

/-- quakeml.j2:16-19, 30-33, 43-46, 47-50, 56-59: the `-` at the end of an expression removes the white space that follows. -/
def realElem (tag : String) (value uncertainty : Option String) (rest : Forest) : Forest :=
  .elem tag none (.text (nl 20) (optElem "value" value (optElem "uncertainty" uncertainty .nil))) rest

/-- quakeml.j2:11-22, 25-36: a magnitude. -/
def magnitudeItem (agency author id : String) (value uncertainty : Option String) (type originID : String) : Item :=
  .magnitude (some id) (.text (nl 16) (creationInfo 16 agency author (.text (nl 16) (realElem "mag" value uncertainty
    (.text (nl 16) (textElem "type" type (.text (nl 16) (textElem "originID" originID (.text (nl 12) .nil)))))))))

/-- quakeml.j2:60-72. -/
def quality (env : Quakeml.Env) (g : String → Option Cell) (rest : Forest) : Forest :=
  .elem "quality" none (.text (nl 20)
    (optElem "associatedPhaseCount" (shownInt env (g "associatedphasecount"))
    (optElem "usedPhaseCount" (shownInt env (g "usedphasecount"))
    (optElem "associatedStationCount" (shownInt env (g "associatedstationcount"))
    (optElem "usedStationCount" (shownInt env (g "usedstationcount"))
    (optElem "depthPhaseCount" (shownInt env (g "depthphasecount"))
    (optElem "standardError" (shown (g "standarderror"))
    (optElem "azimuthalGap" (shown (g "azimuthalgap"))
    (optElem "secondaryAzimuthalGap" (shown (g "secondaryazimuthalgap"))
    (optElem "maximumDistance" (shown (g "maximumdistance"))
    (optElem "minimumDistance" (shown (g "minimumdistance"))
    (optElem "medianDistance" (shown (g "mediandistance")) .nil)))))))))))) rest

/-- quakeml.j2:39-73: the origin. -/
def originItem (env : Quakeml.Env) (agency author : String) (g : String → Option Cell) : Item :=
  .origin (some (show1 (g "originID")))
    (.text (nl 16) (.elem "time" none (.text (nl 20) (textElem "value" (env.strftime (show1 (g "time"))) (.text (nl 16) .nil)))
    (.text (nl 16) (realElem "longitude" (shown (g "longitude")) (shown (g "longitude_uncertainty"))
    (.text (nl 16) (realElem "latitude" (shown (g "latitude")) (shown (g "latitude_uncertainty"))
    (.text (nl 16) (textElem "evaluationMode" (show1 (g "evaluationmode"))
    (.text (nl 16) (creationInfo 16 agency author
    (.text (nl 16) (realElem "depth" (shown (g "depth")) (shown (g "depth_uncertainty"))
    (.text (nl 16) (quality env g (.text (nl 12) .nil)))))))))))))))

/-- quakeml.j2:24-37: one secondary magnitude, with the white space around it in the loop. -/
def secondaryItems (agency author originID : String) (p : String × Dict Cell) : List Item :=
  [.plain (.text (nl 12) .nil),
   magnitudeItem agency author (show1 (p.2.get? "magnitude_magnitudeID")) (shown (p.2.get? "magnitude")) (shown (p.2.get? "magnitude_uncertainty")) p.1 originID,
   .plain (.text (nl 12) .nil)]

/-- quakeml.j2:5-79: one event. -/
def eventTree (env : Quakeml.Env) (agency author : String) (g : String → Option Cell) (sec : Dict (Dict Cell)) : Event :=
  { id := some (show1 (g "eventID"))
    items := [.plain (.text (nl 12) (creationInfo 12 agency author (.text (nl2 12) .nil))),
        magnitudeItem agency author (show1 (g "magnitudeID")) (shown (g "magnitude")) (shown (g "magnitude_uncertainty"))
          (show1 (g "magnitude_type")) (show1 (g "originID")),
        .plain (.text (nl2 12) .nil)] ++
      (sec.map (secondaryItems agency author (show1 (g "originID")))).flatten ++
      [.plain (.text (nl2 12) .nil),
       originItem env agency author g,
       .plain (.text (nl2 12) (textElem "preferredOriginID" (show1 (g "originID"))
          (.text (nl 12) (textElem "preferredMagnitudeID" (show1 (g "magnitudeID"))
          (.text (nl 12) (textElem "type" (show1 (g "event_type")) (.text (nl2 8) .nil))))))) ] }

/-- catalog.py:1491-1514: the events of the document. -/
def events (env : Quakeml.Env) (agency author : String) (f : Frame Cell) : List Event :=
  let df := createIds env f
  (df.rows.filter complete).map fun r => eventTree env agency author (cell df r) (secMags (keys f.cols) r)

/-! ### Printing -/

/-- The attribute publicID. -/
def idText (id : Option String) : List Char :=
  match id with
  | none => []
  | some v => " publicID=\"".toList ++ v.toList ++ ['"']

/-- The text of a call of the handler. -/
def showSax : Sax → List Char
  | .start tag id => '<' :: tag.toList ++ idText id ++ ['>']
  | .stop tag => '<' :: '/' :: tag.toList ++ ['>']
  | .chars s => s

/-- The text of a tree. -/
def showCalls (l : List Sax) : List Char := (l.map showSax).flatten

/-- quakeml.j2:1-4: what is before the events. -/
def header : List Char :=
  ("<?xml version=\"1.0\" encoding=\"UTF-8\"?>\n<q:quakeml xmlns=\"http://quakeml.org/xmlns/bed/1.2\" xmlns:q=\"http://quakeml.org/xmlns/quakeml/1.2\">\n" ++
    "    <eventParameters publicID=\"smi:org.gfz-potsdam.de/geofon/EventParameters\"> \n        ").toList

/-- quakeml.j2:4-5, 79-80: before and after each event. -/
def sep : List Char := ' ' :: nl 8

/-- quakeml.j2:80-82: what is after the events. -/
def footer : List Char := (" \n        </eventParameters>\n</q:quakeml>").toList

/-- The text of the document. -/
def docText (l : List Event) : List Char := header ++ (l.map fun e => sep ++ showCalls e.calls ++ sep).flatten ++ footer

/-- catalog.py:1457-1516 `Catalog.to_quakeml`. -/
def toQuakeml (env : Quakeml.Env) (agency author : String) (f : Frame Cell) : Py (List Char) :=
  if hasCols catalogColumns f.cols then .ok (docText (events env agency author f)) else .error .attributeError

end QuakemlText
end SeismoStats
