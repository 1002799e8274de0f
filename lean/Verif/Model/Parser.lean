/-
Model of seismostats/io/parser.py.

A document is the stream of events delivered by xml.sax. Strings under construction are lists of
characters. `float` and `datetime.strptime` are parameters. The order of iteration over a Python `set` is a
parameter.
-/
import Verif.Model.Base
import Mathlib.Data.Real.Basic

namespace SeismoStats
namespace Parser
open SeismoStats
noncomputable section

/-- Content of an event, origin or magnitude element. -/
abbrev Elem := Dict String

/-- A parsed event; values may be None. -/
abbrev Rec := Dict (Option String)

/-- parser.py:8-14: the suffixes of `_get_realvalue`. -/
def realValues : List (String × String) :=
  [("value", ""), ("uncertainty", "_uncertainty"), ("lowerUncertainty", "_lowerUncertainty"),
    ("upperUncertainty", "_upperUncertainty"), ("confidenceLevel", "_confidenceLevel")]

/-- parser.py:8-14 `_get_realvalue`. -/
def realvalue (key value : String) : List (String × String) := realValues.map fun p => (key ++ p.1, value ++ p.2)

/-- parser.py:17-18. -/
def eventMappings : List (String × String) := [("publicID", "eventID"), ("type", "event_type")]

/-- parser.py:20-27. -/
def originMappings : List (String × String) :=
  realvalue "origintime" "time" ++ realvalue "originlatitude" "latitude" ++ realvalue "originlongitude" "longitude" ++
    realvalue "origindepth" "depth" ++ [("originevaluationMode", "evaluationmode"), ("originpublicID", "originID")]

/-- parser.py:29-41. -/
def qualityMappings : List (String × String) :=
  [("originqualityassociatedPhaseCount", "associatedphasecount"),
   ("originqualityusedPhaseCount", "usedphasecount"),
   ("originqualityassociatedStationCount", "associatedstationcount"),
   ("originqualityusedStationCount", "usedstationcount"),
   ("originqualitydepthPhaseCount", "depthphasecount"),
   ("originqualitystandardError", "standarderror"),
   ("originqualityazimuthalGap", "azimuthalgap"),
   ("originqualitysecondaryAzimuthalGap", "secondaryazimuthalgap"),
   ("originqualitymaximumDistance", "maximumdistance"),
   ("originqualityminimumDistance", "minimumdistance"),
   ("originqualitymedianDistance", "mediandistance")]

/-- parser.py:43-47. -/
def magnitudeMappings : List (String × String) :=
  realvalue "magnitudemag" "magnitude" ++ [("magnitudetype", "magnitude_type"), ("magnitudepublicID", "magnitudeID")]

/-- parser.py:49-51. -/
def dummyMagnitude : Rec := [("magnitudemagvalue", none), ("magnitudetype", none)]

/-- parser.py:53-59. -/
def dummyOrigin : Rec :=
  [("origintimevalue", none), ("originlatitudevalue", none), ("originlongitudevalue", none),
    ("origindepthvalue", none), ("originevaluationMode", none)]

/-- parser.py:62-65 `SECONDARY_MAGNITUDE_MAPPINGS`. -/
def secondaryMappings (t : String) : List (String × String) :=
  realvalue "magnitudemag" ("magnitude_" ++ t) ++ [("magnitudepublicID", "magnitude_" ++ t ++ "_magnitudeID")]

/-- `d[k]`. -/
def item {V : Type} (d : Dict V) (k : String) : Py V :=
  match d.get? k with
  | some v => .ok v
  | none => .error .keyError

/-- An element as a dictionary whose values may be None. -/
def lift (d : Elem) : Rec := d.map fun p => (p.1, some p.2)

/-- parser.py:70-71, 80-81: `next((m for m in l if id == m[key]), None)`. -/
def findById (key : String) (id : Option String) : List Elem → Py (Option Elem)
  | [] => .ok none
  | m :: r =>
    match item m key with
    | .error e => .error e
    | .ok v => if id = some v then .ok (some m) else findById key id r

/-- A list comprehension with a condition that may raise. -/
def filterPy {α : Type} (p : α → Py Bool) : List α → Py (List α)
  | [] => .ok []
  | a :: r =>
    match p a with
    | .error e => .error e
    | .ok b =>
      match filterPy p r with
      | .error e => .error e
      | .ok l => .ok (if b then a :: l else l)

/-- parser.py:73-74: the condition. -/
def keepMag (id : Option String) (t : Option String) (m : Elem) : Py Bool :=
  match item m "magnitudetype" with
  | .error e => .error e
  | .ok mt =>
    if t ≠ some mt then .ok true
    else
      match item m "magnitudepublicID" with
      | .error e => .error e
      | .ok v => .ok (decide (id = some v))

/-- parser.py:73: the type of the preferred magnitude; None for the dummy. -/
def prefType (p : Option Elem) : Py (Option String) :=
  match p with
  | none => .ok none
  | some m =>
    match item m "magnitudetype" with
    | .error e => .error e
    | .ok v => .ok (some v)

/-- parser.py:68-76 `_select_magnitude_by_id`; `none` is the dummy. For an empty list the type of the
preferred magnitude is not looked up. -/
def selectMagnitude (mags : List Elem) (id : Option String) : Py (Option Elem × List Elem) :=
  match findById "magnitudepublicID" id mags with
  | .error e => .error e
  | .ok p =>
    match prefType p with
    | .error e => .error e
    | .ok t =>
      match filterPy (keepMag id t) mags with
      | .error e => .error e
      | .ok l => .ok (p, l)

/-- parser.py:82: the condition. -/
def otherOrigin (id : Option String) (o : Elem) : Py Bool :=
  match item o "originpublicID" with
  | .error e => .error e
  | .ok v => .ok (decide (id ≠ some v))

/-- parser.py:79-83 `_select_origin_by_id`. -/
def selectOrigin (origins : List Elem) (id : Option String) : Py (Option Elem × List Elem) :=
  match findById "originpublicID" id origins with
  | .error e => .error e
  | .ok p =>
    match filterPy (otherOrigin id) origins with
    | .error e => .error e
    | .ok l => .ok (p, l)

/-- Library functions and the iteration order of sets. -/
structure Env where
  /-- `float(s)`; NaN is not a value here. -/
  float : String → Py ℝ
  /-- `datetime.strptime(s[:19], '%Y-%m-%dT%H:%M:%S')`. -/
  date : String → Py ℝ
  /-- Order of iteration over `set(l)`. -/
  setOrder : List String → List String

/-- parser.py:118-121: one component of the sort key; `0` stands for None, which is equal to itself. -/
def keyPart (present : Bool) (f : String → Py ℝ) (k : String) (m : Elem) : Py ℝ :=
  if present then
    match item m k with
    | .error e => .error e
    | .ok v => f v
  else .ok 0

/-- parser.py:118-121: the sort key. -/
def sortKey (env : Env) (k1 k2 : Bool) (m : Elem) : Py (ℝ × ℝ) :=
  match keyPart k1 env.float "magnitudecreationInfoversion" m with
  | .error e => .error e
  | .ok a =>
    match keyPart k2 env.date "magnitudecreationInfocreationTime" m with
    | .error e => .error e
    | .ok b => .ok (a, b)

/-- Strict lexicographic order of sort keys. -/
def keyLt (a b : ℝ × ℝ) : Prop := a.1 < b.1 ∨ (a.1 = b.1 ∧ a.2 < b.2)

open Classical in
/-- parser.py:118-125: the first element of the list sorted in reverse (stable): the first one with the
largest key. -/
def firstMax : (Elem × ℝ × ℝ) → List (Elem × ℝ × ℝ) → Elem × ℝ × ℝ
  | b, [] => b
  | b, m :: r => firstMax (if keyLt b.2 m.2 then m else b) r

/-- parser.py:107-125: the magnitude chosen among those of one type. -/
def latest (env : Env) (mags : List Elem) : Py (List Elem) :=
  match mags with
  | [] => .error .indexError
  | [m] => .ok [m]
  | m :: r =>
    let k1 := (m :: r).all fun x => x.has "magnitudecreationInfoversion"
    let k2 := (m :: r).all fun x => x.has "magnitudecreationInfocreationTime"
    match (m :: r).mapM (sortKey env k1 k2) with
    | .error e => .error e
    | .ok keys =>
      match List.zip (m :: r) keys with
      | [] => .error .indexError
      | b :: l => .ok [(firstMax b l).1]

/-- parser.py:107: the magnitudes of one type (types are present, line 98). -/
def ofType (mags : List Elem) (t : String) : List Elem := mags.filter fun m => decide (m.get? "magnitudetype" = some t)

/-- parser.py:86-127 `_select_secondary_magnitudes`. -/
def selectSecondary (env : Env) (mags : List Elem) : Py (List Elem) :=
  match mags.mapM (fun m => item m "magnitudetype") with
  | .error e => .error e
  | .ok ts =>
    if ts.dedup.length = mags.length then .ok mags
    else
      match (env.setOrder ts.dedup).mapM (fun t => latest env (ofType mags t)) with
      | .error e => .error e
      | .ok l => .ok l.flatten

/-- parser.py:132-134, 136-138, 144-146: copy the mapped keys that are present. -/
def extract (maps : List (String × String)) (d : Rec) (out : Rec) : Rec :=
  maps.foldl (fun out p => match d.get? p.1 with
    | some v => out.set p.2 v
    | none => out) out

/-- parser.py:130-139 `_extract_origin`. -/
def extractOrigin (o : Rec) (quality : Bool) : Rec :=
  let out := extract originMappings o []
  if quality then extract qualityMappings o out else out

/-- parser.py:142-147 `_extract_magnitude`. -/
def extractMagnitude (m : Rec) : Rec := extract magnitudeMappings m []

/-- parser.py:150-157 `_extract_secondary_magnitudes`. -/
def extractSecondary : List Elem → Rec → Py Rec
  | [], out => .ok out
  | m :: r, out =>
    match item m "magnitudetype" with
    | .error e => .error e
    | .ok t => extractSecondary r (extract (secondaryMappings t) (lift m) out)

/-- parser.py:195-196. -/
def eventParams (event : Elem) : Rec := eventMappings.map fun p => (p.2, event.get? p.1)

/-- parser.py:190-193. -/
def secondaries (env : Env) (mags : List Elem) (all : Bool) : Py (List Elem) :=
  if mags.length ≠ 0 ∧ all = true then selectSecondary env mags else .ok []

/-- The preferred element or the dummy. -/
def orDummy (d : Rec) (o : Option Elem) : Rec :=
  match o with
  | none => d
  | some m => lift m

/-- parser.py:160-201 `_parse_to_dict`. -/
def parseToDict (env : Env) (event : Elem) (origins mags : List Elem) (all quality : Bool) : Py Rec := do
  let (po, _) ← selectOrigin origins (event.get? "preferredOriginID")
  let (pm, mags) ← selectMagnitude mags (event.get? "preferredMagnitudeID")
  let mags ← secondaries env mags all
  let sec ← extractSecondary mags []
  pure ((((eventParams event).update (extractOrigin (orDummy dummyOrigin po) quality)).update
    (extractMagnitude (orDummy dummyMagnitude pm))).update sec)

/-! ### The SAX handler -/

/-- A call of the content handler. -/
inductive Sax where
  | start (tag : String) (publicID : Option String)
  | stop (tag : String)
  | chars (s : List Char)

/-- `self.parent`. -/
inductive Par where
  | none | event | origin | magnitude
  deriving DecidableEq

/-- The handler's state. -/
structure H where
  catalog : List Rec := []
  event : List Elem := []
  origin : List Elem := []
  magnitude : List Elem := []
  parent : Par := .none
  location : List Char := []

/-- `str.isspace` for one character. -/
def isSpace (c : Char) : Bool :=
  let n := c.toNat
  (9 ≤ n && n ≤ 13) || (28 ≤ n && n ≤ 32) || n == 133 || n == 160 || n == 5760 || (8192 ≤ n && n ≤ 8202) ||
    n == 8232 || n == 8233 || n == 8239 || n == 8287 || n == 12288

/-- `str.strip()`. -/
def strip (s : List Char) : List Char := ((s.dropWhile isSpace).reverse.dropWhile isSpace).reverse

/-- `s[:-n]`. -/
def cutEnd (s : List Char) (n : ℕ) : List Char := if n = 0 then [] else s.take (s.length - n)

/-- parser.py:235-238: on one dictionary. -/
def setVal (d : Elem) (loc : List Char) (add : List Char) (v : String) : Py Elem :=
  if d.has (String.ofList loc) then
    match d.get? (String.ofList (loc ++ add)) with
    | some old => .ok (d.set (String.ofList (loc ++ add)) (old ++ v))
    | none => .error .keyError
  else .ok (d.set (String.ofList (loc ++ add)) v)

/-- `l[-1]` updated. -/
def updLast (l : List Elem) (f : Elem → Py Elem) : Py (List Elem) :=
  match l.getLast? with
  | none => .error .indexError
  | some d =>
    match f d with
    | .error e => .error e
    | .ok d' => .ok (l.dropLast ++ [d'])

/-- parser.py:234-238 `setter`, with `key` the parent (not empty). -/
def setter (h : H) (v : String) (add : List Char) : Py H :=
  match h.parent with
  | .none => .error .attributeError
  | .event =>
    match updLast h.event (fun d => setVal d h.location add v) with
    | .error e => .error e
    | .ok l => .ok { h with event := l }
  | .origin =>
    match updLast h.origin (fun d => setVal d h.location add v) with
    | .error e => .error e
    | .ok l => .ok { h with origin := l }
  | .magnitude =>
    match updLast h.magnitude (fun d => setVal d h.location add v) with
    | .error e => .error e
    | .ok l => .ok { h with magnitude := l }

/-- parser.py:247-248. -/
def setId (h : H) (id : Option String) : Py H :=
  match id with
  | none => .ok h
  | some v => setter h v "publicID".toList

/-- parser.py:240-251 `startElement`. -/
def startElement (h : H) (tag : String) (id : Option String) : Py H :=
  if tag = "event" then setId { h with parent := .event, location := [], event := h.event ++ [[]] } id
  else if tag = "origin" then setId { h with parent := .origin, location := tag.toList, origin := h.origin ++ [[]] } id
  else if tag = "magnitude" then setId { h with parent := .magnitude, location := tag.toList, magnitude := h.magnitude ++ [[]] } id
  else if h.parent ≠ .none then .ok { h with location := h.location ++ tag.toList }
  else .ok h

/-- parser.py:268-269. -/
def shorten (h : H) (tag : String) : H :=
  if h.parent ≠ .none then { h with location := cutEnd h.location tag.toList.length } else h

/-- parser.py:254-263. -/
def endEvent (env : Env) (all quality : Bool) (h : H) : Py H :=
  match h.event.getLast? with
  | none => .error .indexError
  | some e =>
    match parseToDict env e h.origin h.magnitude all quality with
    | .error e => .error e
    | .ok r => .ok { catalog := h.catalog ++ [r] }

/-- parser.py:253-269 `endElement`. -/
def endElement (env : Env) (all quality : Bool) (h : H) (tag : String) : Py H :=
  if tag = "event" then endEvent env all quality h
  else if tag = "origin" ∨ tag = "magnitude" then .ok (shorten { h with parent := .event } tag)
  else .ok (shorten h tag)

/-- parser.py:271-273 `characters`. -/
def characters (h : H) (s : List Char) : Py H :=
  if strip s ≠ [] ∧ h.parent ≠ .none then setter h (String.ofList (strip s)) [] else .ok h

/-- One call of the handler. -/
def step (env : Env) (all quality : Bool) (h : H) (x : Sax) : Py H :=
  match x with
  | .start tag id => startElement h tag id
  | .stop tag => endElement env all quality h tag
  | .chars s => characters h s

/-- A sequence of calls. -/
def run (env : Env) (all quality : Bool) : H → List Sax → Py H
  | h, [] => .ok h
  | h, x :: r =>
    match step env all quality h x with
    | .error e => .error e
    | .ok h' => run env all quality h' r

/-- How the XML parser ends: regularly, at the end of a truncated file, or with another error. -/
inductive Ending where
  | complete | noElement | other

/-- parser.py:282-305, 331-356 `parse_quakeml_file`, `parse_quakeml_response`: an exception of the handler
propagates; a truncated file returns what has been read. A parse error is a ValueError here. -/
def parseFile (env : Env) (all quality : Bool) (xs : List Sax) (e : Ending) : Py (List Rec) :=
  match run env all quality {} xs with
  | .error err => .error err
  | .ok h =>
    match e with
    | .other => .error .valueError
    | _ => .ok h.catalog

/-- parser.py:308-328 `parse_quakeml` (a non-empty string): parse errors propagate. -/
def parseString (env : Env) (all quality : Bool) (xs : List Sax) (e : Ending) : Py (List Rec) :=
  match run env all quality {} xs with
  | .error err => .error err
  | .ok h =>
    match e with
    | .complete => .ok h.catalog
    | _ => .error .valueError

end
end Parser
end SeismoStats
