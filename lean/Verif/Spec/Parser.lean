/-
Specification for C47 and C48: QuakeML documents as trees, the text found at a path, and the table of
columns. Only the type of SAX calls and the parameters of the model are used.
-/
import Verif.Model.Parser

namespace SeismoStats.Spec.Parser
open SeismoStats SeismoStats.Parser

/-- A character that Python's `str.strip` removes. -/
def Blank (c : Char) : Prop := isSpace c = true

/-- `t` is `s` without surrounding white space. -/
def Trimmed (s t : List Char) : Prop :=
  ∃ a b, s = a ++ t ++ b ∧ (∀ c ∈ a, Blank c) ∧ (∀ c ∈ b, Blank c) ∧
    (∀ c, t.head? = some c → ¬ Blank c) ∧ (∀ c, t.getLast? = some c → ¬ Blank c)

/-- A sequence of chunks of text and elements (with an optional publicID). -/
inductive Forest where
  | nil
  | text (s : List Char) (rest : Forest)
  | elem (tag : String) (id : Option String) (kids rest : Forest)

/-- The calls of the content handler for a forest. -/
def Forest.calls : Forest → List Sax
  | .nil => []
  | .text s r => .chars s :: r.calls
  | .elem tag id k r => .start tag id :: (k.calls ++ .stop tag :: r.calls)

/-- No element is called event, origin or magnitude (names in XML are not empty). -/
def Forest.Plain : Forest → Prop
  | .nil => True
  | .text _ r => r.Plain
  | .elem tag _ k r => tag ≠ "event" ∧ tag ≠ "origin" ∧ tag ≠ "magnitude" ∧ tag.toList ≠ [] ∧ k.Plain ∧ r.Plain

/-- The texts of a forest that are not blank, without surrounding white space, each with the joined names of
the elements it is in; `path` is the name of the place of the forest. -/
def Forest.texts (path : List Char) : Forest → List (List Char × List Char)
  | .nil => []
  | .text s r => (if strip s = [] then [] else [(path, strip s)]) ++ r.texts path
  | .elem tag _ k r => k.texts (path ++ tag.toList) ++ r.texts path

/-- What is found under a name: all texts there, joined. -/
def textAt (l : List (List Char × List Char)) (k : String) : Option String :=
  if l.any (fun p => decide (p.1 = k.toList)) then
    some (String.ofList ((l.filter fun p => decide (p.1 = k.toList)).map Prod.snd).flatten)
  else none

/-- The content of an event: plain content, origins and magnitudes, in any order. -/
inductive Item where
  | plain (f : Forest)
  | origin (id : Option String) (f : Forest)
  | magnitude (id : Option String) (f : Forest)

/-- The forest of an item is plain. -/
def Item.Plain : Item → Prop
  | .plain f => f.Plain
  | .origin _ f => f.Plain
  | .magnitude _ f => f.Plain

/-- Calls of an item. -/
def Item.calls : Item → List Sax
  | .plain f => f.calls
  | .origin id f => .start "origin" id :: (f.calls ++ [.stop "origin"])
  | .magnitude id f => .start "magnitude" id :: (f.calls ++ [.stop "magnitude"])

/-- An event element. -/
structure Event where
  id : Option String
  items : List Item

/-- Calls of the content of an event. -/
def itemsCalls (l : List Item) : List Sax := (l.map Item.calls).flatten

/-- Calls of an event. -/
def Event.calls (e : Event) : List Sax := .start "event" e.id :: (itemsCalls e.items ++ [.stop "event"])

/-- The publicID as a text. -/
def idText (path : List Char) (id : Option String) : List (List Char × List Char) :=
  match id with
  | none => []
  | some v => [(path ++ "publicID".toList, v.toList)]

/-- The texts of the event itself (not those of its origins and magnitudes). -/
def Item.eventTexts : Item → List (List Char × List Char)
  | .plain f => f.texts []
  | _ => []

/-- The texts of an origin. -/
def Item.originTexts : Item → List (List (List Char × List Char))
  | .origin id f => [idText "origin".toList id ++ f.texts "origin".toList]
  | _ => []

/-- The texts of a magnitude. -/
def Item.magnitudeTexts : Item → List (List (List Char × List Char))
  | .magnitude id f => [idText "magnitude".toList id ++ f.texts "magnitude".toList]
  | _ => []

/-- The event's own texts. -/
def Event.own (e : Event) : List (List Char × List Char) := idText [] e.id ++ (e.items.map Item.eventTexts).flatten

/-- One list of texts per origin. -/
def Event.origins (e : Event) : List (List (List Char × List Char)) := (e.items.map Item.originTexts).flatten

/-- One list of texts per magnitude. -/
def Event.magnitudes (e : Event) : List (List (List Char × List Char)) := (e.items.map Item.magnitudeTexts).flatten

/-- The content of an event is plain. -/
def Event.Plain (e : Event) : Prop := ∀ i ∈ e.items, i.Plain

/-- Parts of a document: events, and calls outside of events. -/
inductive Part where
  | event (e : Event)
  | other (x : Sax)

/-- A call outside of events that does not start or end an event, origin or magnitude. -/
def Outside : Sax → Prop
  | .start tag _ => tag ≠ "event" ∧ tag ≠ "origin" ∧ tag ≠ "magnitude"
  | .stop tag => tag ≠ "event" ∧ tag ≠ "origin" ∧ tag ≠ "magnitude"
  | .chars _ => True

/-- The events are plain, and no event, origin or magnitude is outside of them. -/
def Part.Ok : Part → Prop
  | .event e => e.Plain
  | .other x => Outside x

/-- Calls of a part. -/
def Part.calls : Part → List Sax
  | .event e => e.calls
  | .other x => [x]

/-- Calls of a document. -/
def docCalls (l : List Part) : List Sax := (l.map Part.calls).flatten

/-- The events of a document. -/
def docEvents : List Part → List Event
  | [] => []
  | .event e :: r => e :: docEvents r
  | .other _ :: r => docEvents r

/-- A dictionary holds the given texts. -/
def Holds (d : Elem) (l : List (List Char × List Char)) : Prop := ∀ k, d.get? k = textAt l k

/-! ### Columns -/

/-- The magnitude columns of an event and where they come from. -/
def magnitudeColumns : List (String × String) :=
  [("magnitude", "magnitudemagvalue"), ("magnitude_uncertainty", "magnitudemaguncertainty"),
    ("magnitude_lowerUncertainty", "magnitudemaglowerUncertainty"),
    ("magnitude_upperUncertainty", "magnitudemagupperUncertainty"),
    ("magnitude_confidenceLevel", "magnitudemagconfidenceLevel"),
    ("magnitude_type", "magnitudetype"), ("magnitudeID", "magnitudepublicID")]

/-- The origin columns (without quality). -/
def originColumns : List (String × String) :=
  [("time", "origintimevalue"), ("time_uncertainty", "origintimeuncertainty"),
    ("time_lowerUncertainty", "origintimelowerUncertainty"), ("time_upperUncertainty", "origintimeupperUncertainty"),
    ("time_confidenceLevel", "origintimeconfidenceLevel"),
    ("latitude", "originlatitudevalue"), ("latitude_uncertainty", "originlatitudeuncertainty"),
    ("latitude_lowerUncertainty", "originlatitudelowerUncertainty"),
    ("latitude_upperUncertainty", "originlatitudeupperUncertainty"),
    ("latitude_confidenceLevel", "originlatitudeconfidenceLevel"),
    ("longitude", "originlongitudevalue"), ("longitude_uncertainty", "originlongitudeuncertainty"),
    ("longitude_lowerUncertainty", "originlongitudelowerUncertainty"),
    ("longitude_upperUncertainty", "originlongitudeupperUncertainty"),
    ("longitude_confidenceLevel", "originlongitudeconfidenceLevel"),
    ("depth", "origindepthvalue"), ("depth_uncertainty", "origindepthuncertainty"),
    ("depth_lowerUncertainty", "origindepthlowerUncertainty"), ("depth_upperUncertainty", "origindepthupperUncertainty"),
    ("depth_confidenceLevel", "origindepthconfidenceLevel"),
    ("evaluationmode", "originevaluationMode"), ("originID", "originpublicID")]

/-- The quality columns. -/
def qualityColumns : List (String × String) :=
  [("associatedphasecount", "originqualityassociatedPhaseCount"), ("usedphasecount", "originqualityusedPhaseCount"),
   ("associatedstationcount", "originqualityassociatedStationCount"),
   ("usedstationcount", "originqualityusedStationCount"), ("depthphasecount", "originqualitydepthPhaseCount"),
   ("standarderror", "originqualitystandardError"), ("azimuthalgap", "originqualityazimuthalGap"),
   ("secondaryazimuthalgap", "originqualitysecondaryAzimuthalGap"), ("maximumdistance", "originqualitymaximumDistance"),
   ("minimumdistance", "originqualityminimumDistance"), ("mediandistance", "originqualitymedianDistance")]

/-- The columns of a secondary magnitude of type `t`. -/
def secondaryColumns (t : String) : List (String × String) :=
  [("magnitude_" ++ t, "magnitudemagvalue"), ("magnitude_" ++ t ++ "_uncertainty", "magnitudemaguncertainty"),
    ("magnitude_" ++ t ++ "_lowerUncertainty", "magnitudemaglowerUncertainty"),
    ("magnitude_" ++ t ++ "_upperUncertainty", "magnitudemagupperUncertainty"),
    ("magnitude_" ++ t ++ "_confidenceLevel", "magnitudemagconfidenceLevel"),
    ("magnitude_" ++ t ++ "_magnitudeID", "magnitudepublicID")]

/-- A name of a magnitude type whose columns are not confused with others. -/
def PlainType (t : String) : Prop :=
  '_' ∉ t.toList ∧ t ≠ "type" ∧ t ≠ "uncertainty" ∧ t ≠ "lowerUncertainty" ∧ t ≠ "upperUncertainty" ∧
    t ≠ "confidenceLevel"

/-- The value of a key as a number if every magnitude of the list has it; otherwise it does not count. -/
def rank (l : List Elem) (f : String → Py ℝ) (k : String) (m : Elem) : ℝ :=
  if ∀ x ∈ l, (Dict.get? x k).isSome then
    match Dict.get? m k with
    | some v => (f v).toOption.getD 0
    | none => 0
  else 0

/-- `a` is older than `b`: lower version, or the same version and created earlier. -/
def Older (env : Env) (l : List Elem) (a b : Elem) : Prop :=
  rank l env.float "magnitudecreationInfoversion" a < rank l env.float "magnitudecreationInfoversion" b ∨
  (rank l env.float "magnitudecreationInfoversion" a = rank l env.float "magnitudecreationInfoversion" b ∧
    rank l env.date "magnitudecreationInfocreationTime" a < rank l env.date "magnitudecreationInfocreationTime" b)

/-- `m` is the latest magnitude of the list: none is newer, and all listed before are older. -/
def Latest (env : Env) (l : List Elem) (m : Elem) : Prop :=
  ∃ pre post, l = pre ++ m :: post ∧ (∀ x ∈ pre, Older env l x m) ∧ ∀ x ∈ post, ¬ Older env l m x

end SeismoStats.Spec.Parser
