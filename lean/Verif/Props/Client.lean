/-
Properties C01-C03: FDSNWSEventClient.
-/
import Verif.Proofs.Client
import Verif.Spec.Client

namespace SeismoStats.Props
open SeismoStats SeismoStats.Client

/-- C01: for every server and every batch size ≥ 1 the batched download stops
and returns exactly the server's events, in order, each once. -/
theorem C01_batched_download_complete {E : Type*} (s : Server E) (bs : ℕ) (hbs : 1 ≤ bs) :
    ∃ fuel₀, ∀ fuel ≥ fuel₀, getEventsBatched s bs fuel = some s.events := by
  refine ⟨Nat.clog 2 ((s.events.length + bs - 1) / bs) + 3, fun fuel hf => ?_⟩
  obtain ⟨q, _, h⟩ := getBatchCount_eq s bs hbs fuel (by omega)
  simp only [getEventsBatched, h, Option.map_some, Option.some.injEq]
  apply flatten_slices
  have h1 : s.events.length - 1 < ((s.events.length - 1) / bs + 1) * bs := by
    have := Nat.lt_mul_div_succ (s.events.length - 1) (b := bs) (by omega)
    rwa [Nat.mul_comm] at this
  omega

example : getEventsBatched (Server.mk [10, 20, 30, 40, 50]) 2 20 = some [10, 20, 30, 40, 50] := by
  decide

/-- C01: the number of batch requests is `ceil(N / batch_size)`, one if there is no event. -/
theorem C01_batch_count {E : Type*} (s : Server E) (bs : ℕ) (hbs : 1 ≤ bs) :
    ∃ fuel₀, ∀ fuel ≥ fuel₀,
      (getBatchCount s bs fuel).map Prod.fst = some (Spec.Client.batches s.events.length bs) := by
  refine ⟨Nat.clog 2 ((s.events.length + bs - 1) / bs) + 3, fun fuel hf => ?_⟩
  obtain ⟨q, _, h⟩ := getBatchCount_eq s bs hbs fuel (by omega)
  rw [h, Option.map_some, Spec.Client.batches]
  rcases Nat.eq_zero_or_pos s.events.length with hN | hN
  · have : (bs - 1) / bs = 0 := Nat.div_eq_of_lt (by omega)
    simp [hN, this]
  · have : s.events.length + bs - 1 = (s.events.length - 1) + bs := by omega
    rw [this, Nat.add_div_right _ (by omega)]
    simp

/-- C01: no batch asks for more than `batch_size` events, and the `i`-th starts
right after the previous ones (offsets are 1-based). -/
theorem C01_batch_requests (bs count i : ℕ) (hi : i < count) :
    (batchParams bs count)[i]? = some (bs, i * bs + 1) := by
  simp [batchParams, hi]; ring

/-- C02: probing stops within `2 * ⌈log₂ ⌈N/batch_size⌉⌉ + 3` existence requests. -/
theorem C02_probes_logarithmic {E : Type*} (s : Server E) (bs : ℕ) (hbs : 1 ≤ bs) :
    ∃ fuel₀, ∀ fuel ≥ fuel₀, ∃ count probes, getBatchCount s bs fuel = some (count, probes) ∧
      probes ≤ 2 * Nat.clog 2 ((s.events.length + bs - 1) / bs) + 3 := by
  refine ⟨Nat.clog 2 ((s.events.length + bs - 1) / bs) + 3, fun fuel hf => ?_⟩
  obtain ⟨q, hq, h⟩ := getBatchCount_eq s bs hbs fuel (by omega)
  exact ⟨_, _, h, hq⟩

example : getBatchCount (Server.mk (List.range 9)) 2 20 = some (5, 7) := by decide

/-- C02: with `batch_size = 0` and at least one matching event the probing never stops. -/
theorem C02_batch_size_zero_diverges {E : Type*} (s : Server E) (h : s.events ≠ []) :
    ∀ fuel, getBatchCount s 0 fuel = none ∧ getEventsBatched s 0 fuel = none := by
  intro fuel
  have : getBatchCount s 0 fuel = none := by simp [getBatchCount, doubling_zero s h]
  exact ⟨this, by simp [getEventsBatched, this]⟩

example : (Server.mk [1]).events ≠ [] := by decide

/-- C03: after any history of calls on the same client, the request carries for
every parameter name exactly the requested value. `a.kwargs` is a Python dict, so
its keys are distinct. -/
theorem C03_request_parameters {K : Type*} [Field K] (history : List (Args K)) (a : Args K)
    (hk : a.kwargs.WF) (key : String) :
    let client := history.foldl (fun s b => (getEventsParams s b).1) State.init
    (getEventsParams client a).2.get? key = Spec.Client.requested a key := by
  simp only [getEventsParams, fillParams]
  rw [Dict.get?_update _ _ hk, Spec.Client.requested]
  congr 1
  have hm : ∀ p : Dict (PVal K), setMinMagnitude p a.minMagnitude a.deltaM =
      p.setOpt "minmagnitude"
        (a.minMagnitude.map fun m => .num (m - (a.deltaM.getD 0) / 2)) := by
    intro p
    cases a.minMagnitude <;> cases a.deltaM <;> simp [Dict.setOpt, setMinMagnitude]
  rw [hm]
  simp only [Dict.get?_setOpt, Dict.get?, Option.or_none, @eq_comm String _ key]
  by_cases h : key = "starttime"
  · subst h; simp
  simp only [h, if_false]
  clear h
  by_cases h : key = "endtime"
  · subst h; simp
  simp only [h, if_false]
  clear h
  by_cases h : key = "minlatitude"
  · subst h; simp
  simp only [h, if_false]
  clear h
  by_cases h : key = "maxlatitude"
  · subst h; simp
  simp only [h, if_false]
  clear h
  by_cases h : key = "minlongitude"
  · subst h; simp
  simp only [h, if_false]
  clear h
  by_cases h : key = "maxlongitude"
  · subst h; simp
  simp only [h, if_false]
  clear h
  by_cases h : key = "minmagnitude"
  · subst h; simp
  simp only [h, if_false]
  clear h
  by_cases h : key = "maxmagnitude"
  · subst h; simp
  simp only [h, if_false]
  clear h
  by_cases h : key = "includeallmagnitudes"
  · subst h; simp
  simp only [h, if_false]
  clear h
  by_cases h : key = "eventtype"
  · subst h; simp
  simp only [h, if_false]

/-- C03: paged requests carry the same parameters plus `limit` and `offset`. -/
theorem C03_paged_parameters {K : Type*} (s : State K) (limit offset : ℕ) (key : String) :
    (pagedParams s limit offset).get? key =
      if key = "limit" then some (.int limit)
      else if key = "offset" then some (.int offset)
      else s.params.get? key := by
  rw [pagedParams, Dict.get?_update _ _ (by simp [Dict.WF])]
  simp only [Dict.get?, @eq_comm String _ key]
  by_cases h : key = "limit"
  · simp [h]
  · by_cases h' : key = "offset" <;> simp [h, h']

/-- With `min_magnitude = 2`, `delta_m = 0.2` the request asks for magnitude 1.9. -/
example : let a : Args ℚ := { minMagnitude := some 2, deltaM := some (1/5),
                              kwargs := [("orderby", .text "time")] }
    a.kwargs.WF ∧ (getEventsParams State.init a).2.get? "minmagnitude" = some (.num (19/10)) := by
  refine ⟨by simp [Dict.WF], ?_⟩
  rw [show (State.init : State ℚ) = ([] : List (Args ℚ)).foldl
    (fun s b => (getEventsParams s b).1) State.init from rfl,
    C03_request_parameters [] _ (by simp [Dict.WF])]
  simp [Spec.Client.requested, Dict.get?]; norm_num

end SeismoStats.Props
