/-
Model of the batched download of seismostats/catalogs/client.py (FDSNWSEventClient) with a service that changes between requests and does not always answer.
-/
import Verif.Model.Client

namespace SeismoStats.Client

/-- A service over time: `events t` are the matching events when the `t`-th request of a download arrives, `probeFails t` and `pageFails t` say that the `t`-th
request is answered by an error without events (a status other than 200 for a probe, an error page or an empty body for a page). Environment of client.py:160, 172. -/
structure Live (E : Type) where
  events : ℕ → List E
  probeFails : ℕ → Bool
  pageFails : ℕ → Bool

variable {E : Type}

/-- client.py:166-173 `_exists_with_offset`, as the `t`-th request: a failure is the same as no event. -/
def Live.probe (s : Live E) (t limit offset : ℕ) : Bool := !s.probeFails t && existsWithOffset ⟨s.events t⟩ limit offset

/-- client.py:179-181: doubling loop, from the `t`-th request on. Result: final `chunk`, number of the next request. -/
def doublingAt (s : Live E) (bs : ℕ) : (fuel t chunk : ℕ) → Option (ℕ × ℕ)
  | 0, _, _ => none
  | fuel + 1, t, chunk => if s.probe t 1 (chunk * bs + 1) then doublingAt s bs fuel (t + 1) (chunk * 2) else some (chunk, t + 1)

/-- client.py:187-194: bisection loop. Result: `last_valid_chunk`, number of the next request. -/
def bisectAt (s : Live E) (bs : ℕ) : (fuel t : ℕ) → (low high : ℤ) → (last : ℕ) → Option (ℕ × ℕ)
  | 0, _, _, _, _ => none
  | fuel + 1, t, low, high, last =>
    if low ≤ high then
      let mid := (low + high) / 2
      if s.probe t 1 (mid.toNat * bs + 1) then bisectAt s bs fuel (t + 1) (mid + 1) high mid.toNat
      else bisectAt s bs fuel (t + 1) low (mid - 1) last
    else some (last, t)

/-- client.py:175-196 `_get_batch_count`: number of batches, number of the next request. -/
def batchCountAt (s : Live E) (bs fuel : ℕ) : Option (ℕ × ℕ) :=
  match doublingAt s bs fuel 0 1 with
  | none => none
  | some (chunk, t) =>
    match bisectAt s bs fuel t ((chunk / 2 : ℕ) : ℤ) (chunk : ℤ) 0 with
    | none => none
    | some (last, t) => some (last + 1, t)

/-- client.py:160-161: a page, as the `t`-th request. An answer without events is an empty page (C79). -/
def Live.page (s : Live E) (t limit offset : ℕ) : List E := if s.pageFails t then [] else Server.answer ⟨s.events t⟩ limit offset

/-- client.py:151-164 `_get_events_batched`; `none`: the probing has not stopped within `fuel` steps. -/
def downloadAt (s : Live E) (bs fuel : ℕ) : Option (List E) :=
  (batchCountAt s bs fuel).map fun c => ((batchParams bs c.1).mapIdx fun i p => s.page (c.2 + i) p.1 p.2).flatten

end SeismoStats.Client
