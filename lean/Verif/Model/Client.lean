/-
Model of seismostats/catalogs/client.py (FDSNWSEventClient).
-/
import Verif.Model.Base

namespace SeismoStats.Client
open SeismoStats

/-- An FDSN event server for a fixed query: the ordered list of matching events.
`limit`/`offset` (1-based) select a slice, as the FDSN event specification says.
Environment of catalogs/client.py:160, 172. Assumption: the list does not change
between requests. -/
structure Server (E : Type*) where
  events : List E

/-- Answer to a request with `limit` and `offset`. -/
def Server.answer {E : Type*} (s : Server E) (limit offset : ℕ) : List E :=
  (s.events.drop (offset - 1)).take limit

/-- catalogs/client.py:166-173 `_exists_with_offset`: status 200 with content iff
there is an event at the offset (FDSN servers answer 204 without content otherwise). -/
def existsWithOffset {E : Type*} (s : Server E) (limit offset : ℕ) : Bool :=
  !(s.answer limit offset).isEmpty

/-- catalogs/client.py:179-181: doubling loop. Result: final `chunk` and the
number of requests issued. The fuel bounds the number of iterations; `none` =
still running when the fuel is used up. -/
def doubling {E : Type*} (s : Server E) (bs : ℕ) : (fuel : ℕ) → (chunk : ℕ) → Option (ℕ × ℕ)
  | 0, _ => none
  | fuel + 1, chunk =>
    if existsWithOffset s 1 (chunk * bs + 1) then
      (doubling s bs fuel (chunk * 2)).map fun r => (r.1, r.2 + 1)
    else some (chunk, 1)

/-- catalogs/client.py:187-194: bisection loop over Python integers. Result:
`last_valid_chunk` and number of requests. `mid` is never negative because
`0 ≤ low ≤ high`; `toNat` is therefore faithful. -/
def bisect {E : Type*} (s : Server E) (bs : ℕ) :
    (fuel : ℕ) → (low high : ℤ) → (last : ℕ) → Option (ℕ × ℕ)
  | 0, _, _, _ => none
  | fuel + 1, low, high, last =>
    if low ≤ high then
      let mid := (low + high) / 2
      let offset := mid.toNat * bs + 1
      if existsWithOffset s 1 offset then
        (bisect s bs fuel (mid + 1) high mid.toNat).map fun r => (r.1, r.2 + 1)
      else
        (bisect s bs fuel low (mid - 1) last).map fun r => (r.1, r.2 + 1)
    else some (last, 0)

/-- catalogs/client.py:175-196 `_get_batch_count`: number of batches and number
of existence requests issued. -/
def getBatchCount {E : Type*} (s : Server E) (bs fuel : ℕ) : Option (ℕ × ℕ) :=
  match doubling s bs fuel 1 with
  | none => none
  | some (chunk, p) =>
    match bisect s bs fuel ((chunk / 2 : ℕ) : ℤ) (chunk : ℤ) 0 with
    | none => none
    | some (last, q) => some (last + 1, p + q)

/-- catalogs/client.py:143-149 `_get_batch_params`: (limit, offset) of each batch. -/
def batchParams (bs count : ℕ) : List (ℕ × ℕ) :=
  (List.range count).map fun i => (bs, 1 + i * bs)

/-- catalogs/client.py:151-164 `_get_events_batched`: concatenation of the answers. -/
def getEventsBatched {E : Type*} (s : Server E) (bs fuel : ℕ) : Option (List E) :=
  (getBatchCount s bs fuel).map fun c =>
    ((batchParams bs c.1).map fun p => s.answer p.1 p.2).flatten

/-- Values of request parameters. -/
inductive PVal (K : Type*) where
  | time (iso : String) | num (x : K) | flag (b : Bool) | text (s : String) | int (n : ℕ)
  deriving DecidableEq

/-- Arguments of `get_events` (catalogs/client.py:24-40) that influence the
request. Times are represented by their ISO strings (`strftime` not modelled). -/
structure Args (K : Type*) where
  startTime : Option String := none
  endTime : Option String := none
  minLatitude : Option K := none
  maxLatitude : Option K := none
  minLongitude : Option K := none
  maxLongitude : Option K := none
  minMagnitude : Option K := none
  maxMagnitude : Option K := none
  includeAllMagnitudes : Option Bool := some false
  eventType : Option String := none
  deltaM : Option K
  kwargs : Dict (PVal K) := []

/-- catalogs/client.py:113-116: the lower magnitude limit is moved down by half a bin. -/
def setMinMagnitude {K : Type*} [Field K] (p : Dict (PVal K)) :
    (minMagnitude deltaM : Option K) → Dict (PVal K)
  | some m, some d => p.set "minmagnitude" (.num (m - d / 2))
  | some m, none => p.set "minmagnitude" (.num m)
  | none, _ => p

/-- catalogs/client.py:101-123: `get_events` writes the request parameters into
the dictionary `p` it finds in `self.params`. -/
def fillParams {K : Type*} [Field K] (p : Dict (PVal K)) (a : Args K) : Dict (PVal K) :=
  let p := p.setOpt "starttime" (a.startTime.map .time)
  let p := p.setOpt "endtime" (a.endTime.map .time)
  let p := p.setOpt "minlatitude" (a.minLatitude.map .num)
  let p := p.setOpt "maxlatitude" (a.maxLatitude.map .num)
  let p := p.setOpt "minlongitude" (a.minLongitude.map .num)
  let p := p.setOpt "maxlongitude" (a.maxLongitude.map .num)
  let p := setMinMagnitude p a.minMagnitude a.deltaM
  let p := p.setOpt "maxmagnitude" (a.maxMagnitude.map .num)
  let p := p.setOpt "includeallmagnitudes" (a.includeAllMagnitudes.map .flag)
  let p := p.setOpt "eventtype" (a.eventType.map .text)
  p.update a.kwargs

/-- The client object (catalogs/client.py:20-22): the params attribute. -/
structure State (K : Type*) where
  params : Dict (PVal K)

/-- catalogs/client.py:20-22: a new client. -/
def State.init {K : Type*} : State K := ⟨[]⟩

/-- catalogs/client.py:98-123, 130: the effect of `get_events` on the client and
the parameters of the (unbatched) request. -/
def getEventsParams {K : Type*} [Field K] (s : State K) (a : Args K) :
    State K × Dict (PVal K) :=
  let s := { s with params := [] }
  let s := { s with params := fillParams s.params a }
  (s, s.params)

/-- catalogs/client.py:147, 171: parameters of one paged request. -/
def pagedParams {K : Type*} (s : State K) (limit offset : ℕ) : Dict (PVal K) :=
  s.params.update [("limit", .int limit), ("offset", .int offset)]

end SeismoStats.Client
