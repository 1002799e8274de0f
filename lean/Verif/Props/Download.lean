/-
Property C79: `get_events` from end to end.
-/
import Verif.Model.Download
import Verif.Props.Client
import Verif.Props.Parser

namespace SeismoStats.Props
open SeismoStats SeismoStats.Download SeismoStats.Parser SeismoStats.Spec.Parser
open SeismoStats.Client (PVal getBatchCount batchParams pagedParams getEventsParams)
open Classical
noncomputable section

/-! ### specification -/

/-- The filters decide which events match; `limit` and `offset` do not. -/
def PagingFree {K E : Type} (svc : Service K E) : Prop :=
  ∀ p q : Dict (PVal K), (∀ k, k ≠ "limit" → k ≠ "offset" → p.get? k = q.get? k) → svc.matching p = svc.matching q

/-- The response is a complete document with exactly these events (and anything else outside of events), or there are none and it is empty. -/
def Delivered (es : List Event) (r : Response) : Prop :=
  (∃ doc : List Part, (∀ p ∈ doc, p.Ok) ∧ docEvents doc = es ∧ r.body = docCalls doc ∧ r.ending = .complete) ∨
  (es = [] ∧ r.body = [] ∧ r.ending = .noElement)

/-- Every response delivers the page of events that was asked for. -/
def Reliable {K : Type} (svc : Service K Event) : Prop :=
  ∀ p : Dict (PVal K), Delivered (page p (svc.matching p)) (svc.receive p (page p (svc.matching p)))

/-- Only the first `k` events arrive: the connection is lost in the course of the next one (or the service answers with a page that is not about events). -/
def CutAfter (k : ℕ) (es : List Event) (r : Response) : Prop :=
  ∃ doc : List Part, (∀ p ∈ doc, p.Ok) ∧ docEvents doc = es.take k ∧
    ((r.body = docCalls doc ∧ r.ending = .complete) ∨
      ∃ (e : Event) (ys : List Sax), e.Plain ∧ ys <+: .start "event" e.id :: itemsCalls e.items ∧ r.body = docCalls doc ++ ys ∧ r.ending = .noElement)

/-- `record` reads single events: its result is that of parsing a document with this event only. -/
def ReadsAlone (env : Env) (quality : Bool) (record : Event → Py Rec) : Prop :=
  ∀ e : Event, e.Plain → parseFile env true quality e.calls .complete = (record e).map fun r => [r]

/-! ### lemmas -/

/-- What one event becomes. -/
def recordOf (env : Env) (quality : Bool) (e : Event) : Py Rec :=
  parseToDict env (dictOf e.own) (e.origins.map dictOf) (e.magnitudes.map dictOf) true quality

theorem parse_doc (env : Env) (quality : Bool) (doc : List Part) (hd : ∀ p ∈ doc, p.Ok) :
    parseFile env true quality (docCalls doc) .complete = (docEvents doc).mapM (recordOf env quality) := by
  have h := run_doc env true quality doc hd []
  have e0 : ({} : H) = { catalog := [] } := rfl
  unfold parseFile
  rw [e0, h]
  show _ = (docEvents doc).mapM fun e => parseToDict env (dictOf e.own) (e.origins.map dictOf) (e.magnitudes.map dictOf) true quality
  generalize (List.mapM _ (docEvents doc) : Py (List Rec)) = q
  cases q with
  | error x => rfl
  | ok l => simp [Except.map]

theorem recordOf_alone (env : Env) (quality : Bool) : ReadsAlone env quality (recordOf env quality) := by
  intro e he
  have h := parse_doc env quality [.event e] (by intro p hp; rw [List.mem_singleton] at hp; subst hp; exact he)
  have e1 : docCalls [.event e] = e.calls := by simp [docCalls, Part.calls]
  rw [e1] at h
  rw [h]
  show List.mapM _ [e] = _
  rw [List.mapM_cons, List.mapM_nil]
  cases recordOf env quality e <;> rfl

theorem parse_delivered {env : Env} {quality : Bool} {es : List Event} {r : Response} (h : Delivered es r) :
    parseFile env true quality r.body r.ending = es.mapM (recordOf env quality) := by
  rcases h with ⟨doc, h1, h2, h3, h4⟩ | ⟨rfl, h2, h3⟩
  · rw [h3, h4, parse_doc env quality doc h1, h2]
  · rw [h2, h3]; rfl

theorem parse_cut {env : Env} {quality : Bool} {k : ℕ} {es : List Event} {r : Response} (h : CutAfter k es r) :
    parseFile env true quality r.body r.ending = (es.take k).mapM (recordOf env quality) := by
  obtain ⟨doc, h1, h2, ⟨h3, h4⟩ | ⟨e, ys, h3, h4, h5, h6⟩⟩ := h
  · rw [h3, h4, parse_doc env quality doc h1, h2]
  · rw [h5, h6, (C47_truncated env true quality doc h1 e h3 ys h4).1, parse_doc env quality doc h1, h2]

theorem mapM_append_py {α β : Type} (f : α → Py β) (l m : List α) :
    (l ++ m).mapM f = (do let a ← l.mapM f; let b ← m.mapM f; pure (a ++ b)) := by
  induction l with
  | nil =>
    simp only [List.nil_append, List.mapM_nil]
    cases m.mapM f <;> rfl
  | cons x l ih =>
    rw [List.cons_append, List.mapM_cons, List.mapM_cons, ih]
    cases f x with
    | error e => rfl
    | ok v =>
      simp only [bind, Except.bind, pure, Except.pure]
      cases l.mapM f with
      | error e => rfl
      | ok a =>
        dsimp only
        cases m.mapM f <;> rfl

theorem mapM_flatten_py {α β : Type} (f : α → Py β) (l : List (List α)) :
    (do let a ← l.mapM (fun x => x.mapM f); pure a.flatten : Py (List β)) = l.flatten.mapM f := by
  induction l with
  | nil => rfl
  | cons x l ih =>
    rw [List.flatten_cons, mapM_append_py, List.mapM_cons, ← ih]
    cases x.mapM f with
    | error e => rfl
    | ok a =>
      simp only [bind, Except.bind, pure, Except.pure]
      cases List.mapM (fun x => List.mapM f x) l <;> rfl

theorem page_paged {K E : Type} (s : Client.State K) (l o : ℕ) (es : List E) :
    page (pagedParams s l o) es = (Client.Server.mk es).answer l o := by
  have h1 := C03_paged_parameters s l o "limit"
  have h2 := C03_paged_parameters s l o "offset"
  rw [if_pos rfl] at h1
  rw [if_neg (by decide), if_pos rfl] at h2
  unfold page
  rw [h1, h2]
  rfl

theorem matching_paged {K E : Type} {svc : Service K E} (hp : PagingFree svc) (s : Client.State K) (l o : ℕ) :
    svc.matching (pagedParams s l o) = svc.matching s.params := by
  apply hp
  intro k h1 h2
  rw [C03_paged_parameters, if_neg h1, if_neg h2]

theorem map_mapM {α β γ : Type} (g : α → β) (f : β → Py γ) (l : List α) : (l.map g).mapM f = l.mapM fun x => f (g x) := by
  induction l with
  | nil => rfl
  | cons a l ih => rw [List.map_cons, List.mapM_cons, List.mapM_cons, ih]

/-- The batches of a service are those of the list of matching events. -/
theorem batches_of {E : Type} (es : List E) (bs : ℕ) (hbs : 1 ≤ bs) :
    ∃ fuel₀, ∀ fuel ≥ fuel₀, ∃ c, getBatchCount (Client.Server.mk es) bs fuel = some c ∧
      ((batchParams bs c.1).map fun q => (Client.Server.mk es).answer q.1 q.2).flatten = es := by
  obtain ⟨f0, hf⟩ := C01_batched_download_complete (Client.Server.mk es) bs hbs
  refine ⟨f0, fun fuel h => ?_⟩
  have := hf fuel h
  unfold Client.getEventsBatched at this
  rw [Option.map_eq_some_iff] at this
  obtain ⟨c, h1, h2⟩ := this
  exact ⟨c, h1, h2⟩

/-! ## C79 -/

/-- C79: one request: the rows are the events that match the request (the page asked for by the keywords `limit` and `offset`, if any), in order, each
event read as if it were alone; the first event that cannot be read is the exception. -/
theorem C79_single {K : Type} [Field K] (env : Env) (toNumeric toTime : Catalog.Val K → Catalog.Val K) (svc : Service K Event) (s : Client.State K)
    (a : Client.Args K) (o : Options) (ho : o.batchSize = none) (hd : Reliable svc) :
    ∃ record, ReadsAlone env o.quality record ∧ ∀ fuel,
      (getEvents env toNumeric toTime svc s a o fuel).2 =
        some (((page (getEventsParams s a).2 (svc.matching (getEventsParams s a).2)).mapM record).bind (toCatalog toNumeric toTime a o)) := by
  refine ⟨recordOf env o.quality, recordOf_alone env o.quality, fun fuel => ?_⟩
  unfold getEvents records
  dsimp only
  rw [ho]
  dsimp only [Option.map_some]
  unfold fetch
  dsimp only
  rw [parse_delivered (hd _)]
  rfl

/-- C79: in batches, whatever the batch size: all events that match the filters, in order, each read as if it were alone. -/
theorem C79_batched {K : Type} [Field K] (env : Env) (toNumeric toTime : Catalog.Val K → Catalog.Val K) (svc : Service K Event) (hp : PagingFree svc)
    (s : Client.State K) (a : Client.Args K) (o : Options) (bs : ℕ) (hbs : 1 ≤ bs) (ho : o.batchSize = some bs)
    (hd : Reliable svc) :
    ∃ record, ReadsAlone env o.quality record ∧ ∃ fuel₀, ∀ fuel ≥ fuel₀,
      (getEvents env toNumeric toTime svc s a o fuel).2 =
        some (((svc.matching (getEventsParams s a).2).mapM record).bind (toCatalog toNumeric toTime a o)) := by
  refine ⟨recordOf env o.quality, recordOf_alone env o.quality, ?_⟩
  obtain ⟨f0, hf⟩ := batches_of (svc.matching (getEventsParams s a).2) bs hbs
  refine ⟨f0, fun fuel h => ?_⟩
  obtain ⟨c, h1, h2⟩ := hf fuel h
  unfold getEvents records
  dsimp only
  rw [ho]
  dsimp only
  unfold batched
  have e : (getEventsParams s a).1.params = (getEventsParams s a).2 := rfl
  rw [e, h1]
  dsimp only [Option.map_some]
  congr 2
  have hfetch : ∀ q : ℕ × ℕ, fetch env svc o.quality (pagedParams (getEventsParams s a).1 q.1 q.2) =
      ((Client.Server.mk (svc.matching (getEventsParams s a).2)).answer q.1 q.2).mapM (recordOf env o.quality) := by
    intro q
    unfold fetch
    dsimp only
    rw [parse_delivered (hd _), page_paged, matching_paged hp, e]
  simp only [hfetch]
  rw [← map_mapM (fun q : ℕ × ℕ => (Client.Server.mk (svc.matching (getEventsParams s a).2)).answer q.1 q.2) (fun l => l.mapM (recordOf env o.quality)),
    mapM_flatten_py, h2]

/-- C79: with and without batches, and with any two batch sizes, the same catalogue (or the same exception), for any history of the client - unless
`limit` or `offset` are among the keywords. -/
theorem C79_batching_irrelevant {K : Type} [Field K] (env : Env) (toNumeric toTime : Catalog.Val K → Catalog.Val K) (svc : Service K Event)
    (hp : PagingFree svc) (s s' : Client.State K) (a : Client.Args K) (o : Options) (bs : ℕ) (hbs : 1 ≤ bs)
    (hd : Reliable svc) (hl : (getEventsParams s a).2.get? "limit" = none) (hof : (getEventsParams s a).2.get? "offset" = none) :
    ∃ fuel₀, ∀ fuel ≥ fuel₀,
      (getEvents env toNumeric toTime svc s a { o with batchSize := some bs } fuel).2 = (getEvents env toNumeric toTime svc s' a { o with batchSize := none } fuel).2 := by
  have hss : getEventsParams s' a = getEventsParams s a := rfl
  obtain ⟨f0, hf⟩ := batches_of (svc.matching (getEventsParams s a).2) bs hbs
  have e : (getEventsParams s a).1.params = (getEventsParams s a).2 := rfl
  refine ⟨f0, fun fuel h => ?_⟩
  obtain ⟨c, h1, h2⟩ := hf fuel h
  unfold getEvents records
  dsimp only
  rw [hss]
  unfold batched
  rw [e, h1]
  dsimp only [Option.map_some]
  have hfetch : ∀ q : ℕ × ℕ, fetch env svc o.quality (pagedParams (getEventsParams s a).1 q.1 q.2) =
      ((Client.Server.mk (svc.matching (getEventsParams s a).2)).answer q.1 q.2).mapM (recordOf env o.quality) := by
    intro q
    unfold fetch
    dsimp only
    rw [parse_delivered (hd _), page_paged, matching_paged hp, e]
  have hone : fetch env svc o.quality (getEventsParams s a).2 = (svc.matching (getEventsParams s a).2).mapM (recordOf env o.quality) := by
    unfold fetch
    dsimp only
    rw [parse_delivered (hd _)]
    unfold page
    rw [hl, hof]
  simp only [hfetch]
  rw [← map_mapM (fun q : ℕ × ℕ => (Client.Server.mk (svc.matching (getEventsParams s a).2)).answer q.1 q.2) (fun l => l.mapM (recordOf env o.quality)),
    mapM_flatten_py, h2, hone]
  rfl

theorem getAttr_setTime {K : Type} (n m : String) (t : Option String) (c : Result K) :
    Catalog.getAttr none (setTime m t c) n = if m = n then t.orElse (fun _ => Catalog.getAttr none c n) else Catalog.getAttr none c n := by
  cases t with
  | none => simp [setTime]
  | some t =>
    unfold setTime Catalog.getAttr
    dsimp only
    rw [Dict.get?_set]
    by_cases h : m = n
    · rw [if_pos h]; simp [h]
    · rw [if_neg h]; simp [h, eq_comm]

/-- C79: the catalogue has the times asked for as its start and end. -/
theorem C79_times {K : Type} [Field K] (env : Env) (toNumeric toTime : Catalog.Val K → Catalog.Val K) (svc : Service K Event) (s : Client.State K)
    (a : Client.Args K) (o : Options) (fuel : ℕ) (r : Result K) (h : (getEvents env toNumeric toTime svc s a o fuel).2 = some (.ok r)) (t : String) :
    (a.startTime = some t → Catalog.getAttr none r "starttime" = some t) ∧ (a.endTime = some t → Catalog.getAttr none r "endtime" = some t) := by
  unfold getEvents at h
  dsimp only at h
  rw [Option.map_eq_some_iff] at h
  obtain ⟨q, -, hq⟩ := h
  cases q with
  | error e => cases hq
  | ok l =>
    change toCatalog toNumeric toTime a o l = .ok r at hq
    unfold toCatalog at hq
    cases hc : FromQuakeml.fromDictObj (A := Option String) toNumeric toTime none (l.map cells) o.uncertainty o.ids with
    | error x => rw [hc] at hq; cases hq
    | ok c =>
      rw [hc] at hq
      injection hq with hq
      subst hq
      constructor
      · intro h; rw [getAttr_setTime, if_neg (by decide), getAttr_setTime, if_pos rfl, h]; rfl
      · intro h; rw [getAttr_setTime, if_pos rfl, h]; rfl

/-- C79 (defect): lost connections are not noticed. For any schedule of losses - from the response to each request only the first `kept` events arrive - the
call succeeds (if all events can be read) and returns the events that arrived; in batches, all other batches are there in full. -/
theorem C79_lost_events {K : Type} [Field K] (env : Env) (toNumeric toTime : Catalog.Val K → Catalog.Val K) (svc : Service K Event) (hp : PagingFree svc)
    (s : Client.State K) (a : Client.Args K) (o : Options) (kept : Dict (PVal K) → ℕ) (hd : ∀ p, CutAfter (kept p) (page p (svc.matching p)) (svc.receive p (page p (svc.matching p)))) :
    ∃ record, ReadsAlone env o.quality record ∧
      (o.batchSize = none → ∀ fuel, (getEvents env toNumeric toTime svc s a o fuel).2 =
        some ((((page (getEventsParams s a).2 (svc.matching (getEventsParams s a).2)).take (kept (getEventsParams s a).2)).mapM record).bind (toCatalog toNumeric toTime a o))) ∧
      (∀ bs, 1 ≤ bs → o.batchSize = some bs → ∃ fuel₀, ∀ fuel ≥ fuel₀,
        (getEvents env toNumeric toTime svc s a o fuel).2 =
          some ((((List.range (Spec.Client.batches (svc.matching (getEventsParams s a).2).length bs)).map fun i : ℕ =>
            (((svc.matching (getEventsParams s a).2).drop (i * bs)).take bs).take (kept (pagedParams (getEventsParams s a).1 bs (i * bs + 1)))).flatten.mapM record).bind
              (toCatalog toNumeric toTime a o))) := by
  refine ⟨recordOf env o.quality, recordOf_alone env o.quality, fun ho fuel => ?_, fun bs hbs ho => ?_⟩
  · unfold getEvents records
    dsimp only
    rw [ho]
    dsimp only [Option.map_some]
    unfold fetch
    dsimp only
    rw [parse_cut (hd _)]
    rfl
  · obtain ⟨f0, hf⟩ := C01_batch_count (Client.Server.mk (svc.matching (getEventsParams s a).2)) bs hbs
    refine ⟨f0, fun fuel h => ?_⟩
    have hc := hf fuel h
    rw [Option.map_eq_some_iff] at hc
    obtain ⟨c, h1, h2⟩ := hc
    have e : (getEventsParams s a).1.params = (getEventsParams s a).2 := rfl
    unfold getEvents records
    dsimp only
    rw [ho]
    dsimp only
    unfold batched
    rw [e, h1]
    dsimp only [Option.map_some]
    congr 2
    have hfetch : ∀ q : ℕ × ℕ, fetch env svc o.quality (pagedParams (getEventsParams s a).1 q.1 q.2) =
        (((Client.Server.mk (svc.matching (getEventsParams s a).2)).answer q.1 q.2).take (kept (pagedParams (getEventsParams s a).1 q.1 q.2))).mapM (recordOf env o.quality) := by
      intro q
      unfold fetch
      dsimp only
      rw [parse_cut (hd _), page_paged, matching_paged hp, e]
    simp only [hfetch]
    rw [← map_mapM (fun q : ℕ × ℕ => ((Client.Server.mk (svc.matching (getEventsParams s a).2)).answer q.1 q.2).take (kept (pagedParams (getEventsParams s a).1 q.1 q.2)))
      (fun l => l.mapM (recordOf env o.quality)), mapM_flatten_py, h2]
    congr 2
    unfold batchParams
    rw [List.map_map]
    apply List.map_congr_left
    intro i _
    simp [Client.Server.answer, Nat.add_comm]

/-- C79: a response that is not well-formed is an exception. -/
theorem C79_malformed {K : Type} [Field K] (env : Env) (toNumeric toTime : Catalog.Val K → Catalog.Val K) (svc : Service K Event) (s : Client.State K)
    (a : Client.Args K) (o : Options) (ho : o.batchSize = none) (hd : ∀ p es, (svc.receive p es).ending = .other) (fuel : ℕ) :
    ∃ x, (getEvents env toNumeric toTime svc s a o fuel).2 = some (.error x) := by
  unfold getEvents records
  dsimp only
  rw [ho]
  dsimp only [Option.map_some]
  unfold fetch
  dsimp only
  rw [hd]
  obtain ⟨x, hx⟩ := (C47_malformed env true o.quality (svc.receive (getEventsParams s a).1.params (page (getEventsParams s a).1.params (svc.matching (getEventsParams s a).1.params))).body).1
  rw [hx]
  exact ⟨x, rfl⟩

theorem docEvents_map (es : List Event) : docEvents (es.map .event) = es := by
  induction es with
  | nil => rfl
  | cons a l ih => simp [docEvents, ih]

theorem mem_page {K E : Type} {p : Dict (PVal K)} {l : List E} {x : E} (h : x ∈ page p l) : x ∈ l := by
  have key : ∀ m : List E, (∀ x ∈ m, x ∈ l) → ∀ x ∈ (match p.get? "limit" with | some (.int n) => m.take n | _ => m), x ∈ l := by
    intro m hm x hx
    split at hx
    · exact hm x (List.mem_of_mem_take hx)
    · exact hm x hx
  unfold page at h
  refine key _ ?_ x h
  intro y hy
  split at hy
  · exact List.mem_of_mem_drop hy
  · exact hy

/-- A service with three events: two batches give the same result as one request. -/
example (e : Event) (he : e.Plain) (env : Env) (f g : Catalog.Val ℝ → Catalog.Val ℝ) :
    ∃ svc : Service ℝ Event, PagingFree svc ∧ Reliable svc ∧ (∀ p, svc.matching p = [e, e, e]) ∧ ∃ fuel₀, ∀ fuel ≥ fuel₀,
      (getEvents env f g svc Client.State.init { deltaM := some (1 / 10) } { batchSize := some 2 } fuel).2 =
        (getEvents env f g svc Client.State.init { deltaM := some (1 / 10) } { batchSize := none } fuel).2 := by
  let svc : Service ℝ Event := ⟨fun _ => [e, e, e], fun _ es => ⟨docCalls (es.map .event), .complete⟩⟩
  have hr : Reliable svc := by
    intro p
    refine Or.inl ⟨(page p [e, e, e]).map .event, ?_, docEvents_map _, rfl, rfl⟩
    intro q hq
    obtain ⟨x, hx, rfl⟩ := List.mem_map.1 hq
    have hx' := mem_page hx
    have : x = e := by simpa using hx'
    rw [this]; exact he
  have hf : PagingFree svc := fun p q _ => rfl
  exact ⟨svc, hf, hr, fun p => rfl, C79_batching_irrelevant env f g svc hf Client.State.init Client.State.init { deltaM := some (1 / 10) } {} 2 (by norm_num) hr
    (by rfl) (by rfl)⟩

/-- A service with three events and a connection that is lost in the course of the second event of every response: with batches of two, the first and the
third event are in the catalogue, the second is missing, and there is no exception. -/
example (e₁ e₂ e₃ : Event) (h₁ : e₁.Plain) (h₂ : e₂.Plain) (h₃ : e₃.Plain) (env : Env) (f g : Catalog.Val ℝ → Catalog.Val ℝ) :
    ∃ svc : Service ℝ Event, PagingFree svc ∧ (∀ p, svc.matching p = [e₁, e₂, e₃]) ∧ ∃ record, ReadsAlone env false record ∧ ∃ fuel₀, ∀ fuel ≥ fuel₀,
      (getEvents env f g svc Client.State.init { deltaM := some (1 / 10) } { batchSize := some 2 } fuel).2 =
        some (([e₁, e₃].mapM record).bind (toCatalog f g { deltaM := some (1 / 10) } { batchSize := some 2 })) := by
  let svc : Service ℝ Event := ⟨fun _ => [e₁, e₂, e₃], fun _ es => ⟨docCalls ((es.take 1).map .event) ++ [.start "event" e₂.id], .noElement⟩⟩
  have hf : PagingFree svc := fun p q _ => rfl
  have hc : ∀ p, CutAfter 1 (page p (svc.matching p)) (svc.receive p (page p (svc.matching p))) := by
    intro p
    refine ⟨((page p [e₁, e₂, e₃]).take 1).map .event, ?_, docEvents_map _, Or.inr ⟨e₂, [.start "event" e₂.id], h₂, ?_, rfl, rfl⟩⟩
    · intro q hq
      obtain ⟨x, hx, rfl⟩ := List.mem_map.1 hq
      have hx' := mem_page (List.mem_of_mem_take hx)
      have : x = e₁ ∨ x = e₂ ∨ x = e₃ := by simpa using hx'
      rcases this with rfl | rfl | rfl <;> assumption
    · exact ⟨itemsCalls e₂.items, rfl⟩
  obtain ⟨record, hrec, -, hb⟩ := C79_lost_events env f g svc hf Client.State.init { deltaM := some (1 / 10) } { batchSize := some 2 } (fun _ => 1) hc
  obtain ⟨f0, hf0⟩ := hb 2 (by norm_num) rfl
  refine ⟨svc, hf, fun p => rfl, record, hrec, f0, fun fuel h => ?_⟩
  rw [hf0 fuel h]
  have hb2 : Spec.Client.batches 3 2 = 2 := by decide
  show some (Except.bind (List.mapM record ((List.range (Spec.Client.batches 3 2)).map fun i : ℕ => List.take 1 (List.take 2 (List.drop (i * 2) [e₁, e₂, e₃]))).flatten) _) = _
  rw [hb2]
  rfl

end
end SeismoStats.Props
