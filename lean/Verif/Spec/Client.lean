/-
Specification of the FDSN client (properties C01-C03), independent of the code's loops.
-/
import Verif.Model.Client

namespace SeismoStats.Spec.Client
open SeismoStats SeismoStats.Client

/-- Number of batches of size `bs` needed for `n` events; at least one request is made. -/
def batches (n bs : ℕ) : ℕ := max 1 ((n + bs - 1) / bs)

/-- What the documentation of `get_events` promises about each request parameter:
an extra keyword argument wins; a filter that is `None` is not sent. -/
def requested {K : Type*} [Field K] (a : Args K) (key : String) : Option (PVal K) :=
  (a.kwargs.get? key).or <|
    if key = "starttime" then a.startTime.map .time
    else if key = "endtime" then a.endTime.map .time
    else if key = "minlatitude" then a.minLatitude.map .num
    else if key = "maxlatitude" then a.maxLatitude.map .num
    else if key = "minlongitude" then a.minLongitude.map .num
    else if key = "maxlongitude" then a.maxLongitude.map .num
    else if key = "minmagnitude" then
      a.minMagnitude.map fun m => .num (m - (a.deltaM.getD 0) / 2)
    else if key = "maxmagnitude" then a.maxMagnitude.map .num
    else if key = "includeallmagnitudes" then a.includeAllMagnitudes.map .flag
    else if key = "eventtype" then a.eventType.map .text
    else none

end SeismoStats.Spec.Client
