/-
Model of the whole of `FDSNWSEventClient.get_events` (seismostats/catalogs/client.py:24-164): request parameters, requests (one or in batches), parsing of
the responses, catalogue. The service and the network are parameters.
-/
import Verif.Model.Client
import Verif.Model.Parser
import Verif.Model.FromDict

namespace SeismoStats
namespace Download
open SeismoStats
noncomputable section

/-- What is received: the calls of the XML parser for the body, and how the body ends. The status code is not looked at (client.py:130-131, 160-161). -/
structure Response where
  body : List Parser.Sax
  ending : Parser.Ending

/-- The service and the network: the events that match the filters of a request (in order, `limit` and `offset` aside), and what is received for a request
to which the service answers with the given events. -/
structure Service (K E : Type) where
  matching : Dict (Client.PVal K) → List E
  receive : Dict (Client.PVal K) → List E → Response

/-- The page selected by `limit` and `offset` (1-based), as the FDSN event specification says. -/
def page {K E : Type} (p : Dict (Client.PVal K)) (l : List E) : List E :=
  let l := match p.get? "offset" with
    | some (.int n) => l.drop (n - 1)
    | _ => l
  match p.get? "limit" with
    | some (.int n) => l.take n
    | _ => l

/-- client.py:130-131, 160-161: one request and `parse_quakeml_response` (always with all magnitudes). -/
def fetch {K E : Type} (env : Parser.Env) (svc : Service K E) (quality : Bool) (p : Dict (Client.PVal K)) : Py (List Parser.Rec) :=
  let r := svc.receive p (page p (svc.matching p))
  Parser.parseFile env true quality r.body r.ending

/-- client.py:151-164 `_get_events_batched`; `none`: the probing has not stopped within `fuel` steps. The existence requests are those of
`Client.getBatchCount` for the matching events (their answers are taken to be received undisturbed). -/
def batched {K E : Type} (env : Parser.Env) (svc : Service K E) (quality : Bool) (s : Client.State K) (bs fuel : ℕ) : Option (Py (List Parser.Rec)) :=
  (Client.getBatchCount ⟨svc.matching s.params⟩ bs fuel).map fun c => do
    let l ← (Client.batchParams bs c.1).mapM fun q => fetch env svc quality (Client.pagedParams s q.1 q.2)
    pure l.flatten

/-- client.py:125-131. -/
def records {K E : Type} (env : Parser.Env) (svc : Service K E) (quality : Bool) (s : Client.State K) (batchSize : Option ℕ) (fuel : ℕ) : Option (Py (List Parser.Rec)) :=
  match batchSize with
  | some bs => batched env svc quality s bs fuel
  | none => some (fetch env svc quality s.params)

/-- The arguments of `get_events` that do not go into the request. -/
structure Options where
  uncertainty : Bool := false
  ids : Bool := false
  quality : Bool := false
  batchSize : Option ℕ := none

/-- A record as a row of cells. -/
def cells {K : Type} (r : Parser.Rec) : Dict (Catalog.Val K) := r.map fun p => (p.1, match p.2 with
  | some s => .str s
  | none => .na)

/-- The returned object: a catalogue, or a plain data frame (Model/FromDict.lean). Its attributes are times or None (nothing else is set here). -/
abbrev Result (K : Type) := Catalog.Obj (Catalog.Val K) (Option String)

/-- client.py:136-139: an attribute is set if the argument is given. -/
def setTime {K : Type} (name : String) (t : Option String) (o : Result K) : Result K :=
  match t with
  | some t => { o with attrs := o.attrs.set name (some t) }
  | none => o

/-- client.py:133-141. -/
def toCatalog {K : Type} (toNumeric toTime : Catalog.Val K → Catalog.Val K) (a : Client.Args K) (o : Options) (l : List Parser.Rec) : Py (Result K) := do
  let c ← FromQuakeml.fromDictObj toNumeric toTime none (l.map cells) o.uncertainty o.ids
  let c := setTime "starttime" a.startTime c
  let c := setTime "endtime" a.endTime c
  pure c

/-- client.py:24-141 `get_events`. -/
def getEvents {K E : Type} [Field K] (env : Parser.Env) (toNumeric toTime : Catalog.Val K → Catalog.Val K) (svc : Service K E) (s : Client.State K)
    (a : Client.Args K) (o : Options) (fuel : ℕ) : Client.State K × Option (Py (Result K)) :=
  let s := (Client.getEventsParams s a).1
  (s, (records env svc o.quality s o.batchSize fuel).map fun r => r.bind (toCatalog toNumeric toTime a o))

end
end Download
end SeismoStats
