/-
Property C79, the object that `get_events` returns.
-/
import Verif.Props.FromQuakeml

namespace SeismoStats.Props
open SeismoStats SeismoStats.Download SeismoStats.Parser SeismoStats.Spec.Parser
open SeismoStats.Client (PVal getEventsParams)
open Classical
noncomputable section

variable {K : Type}

/-- Some record has a magnitude. -/
def HasMagnitude (l : List Rec) : Prop := ∃ r ∈ l, r.get? "magnitude" ≠ none

theorem someHas_cells (l : List Rec) : SomeHas (l.map (cells (K := K))) "magnitude" ↔ HasMagnitude l := by
  unfold SomeHas HasMagnitude
  constructor
  · rintro ⟨d, hd, h⟩
    obtain ⟨r, hr, rfl⟩ := List.mem_map.1 hd
    exact ⟨r, hr, (cells_has r _).1 h⟩
  · rintro ⟨r, hr, h⟩
    exact ⟨_, List.mem_map_of_mem hr, (cells_has r _).2 h⟩

theorem mem_of_get {V : Type} (d : Dict V) (k : String) (v : V) (h : d.get? k = some v) : (k, v) ∈ d := by
  induction d with
  | nil => cases h
  | cons p d ih =>
    unfold Dict.get? at h
    by_cases hk : p.1 = k
    · rw [if_pos hk] at h
      injection h with h
      subst hk h
      exact List.mem_cons_self
    · rw [if_neg hk] at h
      exact List.mem_cons_of_mem _ (ih h)

theorem cells_nil (r : Rec) : (cells r : Dict (Catalog.Val K)) = [] ↔ r = [] := by
  unfold cells
  exact List.map_eq_nil_iff

/-- C79: what becomes of the records. If the columns of uncertainties and identifiers are both left out (the default), records without any magnitude are an
exception (AttributeError). Otherwise the content is that of `Catalog.from_dict` (C49) with the two column switches of the call, a value that is missing
being a missing cell; start and end are the times asked for, and no other attribute is set. -/
theorem C79_catalog (toNumeric toTime : Catalog.Val K → Catalog.Val K) (h1 : ∀ v, toNumeric (toNumeric v) = toNumeric v) (h2 : ∀ v, toTime (toTime v) = toTime v)
    (a : Client.Args K) (o : Options) (l : List Rec) :
    ((o.uncertainty = false ∧ o.ids = false ∧ (∃ r ∈ l, r ≠ []) ∧ ¬ HasMagnitude l) → toCatalog toNumeric toTime a o l = .error .attributeError) ∧
    (¬ (o.uncertainty = false ∧ o.ids = false ∧ (∃ r ∈ l, r ≠ []) ∧ ¬ HasMagnitude l) → ∃ c, toCatalog toNumeric toTime a o l = .ok c ∧
      (∃ rows : List (Dict (Catalog.Val K)), c.frame = Catalog.fromDict toNumeric toTime rows o.uncertainty o.ids ∧ rows.length = l.length ∧
        ∀ i (h : i < rows.length) (h' : i < l.length) k, rows[i].get? k = (l[i].get? k).map fun v => match v with | some t => .str t | none => .na) ∧
      Catalog.getAttr none c "starttime" = a.startTime ∧ Catalog.getAttr none c "endtime" = a.endTime ∧
      (∀ n, n ≠ "starttime" → n ≠ "endtime" → Catalog.getAttr none c n = none) ∧
      (c.cls ≠ .plain ↔ (o.uncertainty = true ∧ o.ids = true) ∨ (∀ r ∈ l, r = []) ∨ HasMagnitude l)) := by
  have e1 : (∃ d ∈ l.map (cells (K := K)), d ≠ []) ↔ ∃ r ∈ l, r ≠ [] := by simp [cells_nil]
  have e2 : (∀ d ∈ l.map (cells (K := K)), d = []) ↔ ∀ r ∈ l, r = [] := by simp [cells_nil]
  obtain ⟨p, q⟩ := C88_from_dict (A := Option String) toNumeric toTime h1 h2 none (l.map (cells (K := K))) o.uncertainty o.ids
  rw [e1, someHas_cells] at p q
  rw [e2] at q
  constructor
  · intro h
    unfold toCatalog
    rw [p h]
    rfl
  · intro h
    obtain ⟨c, hc, hf, ha, hcls⟩ := q h
    have hfresh : ∀ n, Catalog.getAttr none c n = none := by
      intro n
      unfold Catalog.getAttr
      cases hn : c.attrs.get? n with
      | none => rfl
      | some v => exact ha _ (mem_of_get _ _ _ hn)
    have hset : ∀ (m : String) (t : Option String) (c : Result K), (setTime m t c).frame = c.frame ∧ (setTime m t c).cls = c.cls := by
      intro m t c; cases t <;> exact ⟨rfl, rfl⟩
    refine ⟨setTime "endtime" a.endTime (setTime "starttime" a.startTime c), ?_, ⟨l.map cells, ?_, by simp, ?_⟩, ?_, ?_, ?_, ?_⟩
    · unfold toCatalog; rw [hc]; rfl
    · rw [(hset _ _ _).1, (hset _ _ _).1, hf]
    · intro i h h' k
      rw [List.getElem_map]
      generalize l[i] = r
      unfold cells
      induction r with
      | nil => rfl
      | cons p r ih =>
        rw [List.map_cons]
        simp only [Dict.get?] at ih ⊢
        by_cases hk : p.1 = k
        · rw [if_pos hk, if_pos hk]; rfl
        · rw [if_neg hk, if_neg hk]; exact ih
    · rw [getAttr_setTime, if_neg (by decide), getAttr_setTime, if_pos rfl, hfresh]
      cases a.startTime <;> rfl
    · rw [getAttr_setTime, if_pos rfl, getAttr_setTime, if_neg (by decide), hfresh]
      cases a.endTime <;> rfl
    · intro n h1 h2
      rw [getAttr_setTime, if_neg (Ne.symm h2), getAttr_setTime, if_neg (Ne.symm h1), hfresh]
    · rw [(hset _ _ _).2, (hset _ _ _).2]
      exact hcls

/-- C79, defect: if no event that matches has a magnitude, a call with the default column switches fails with an AttributeError - although with
`include_ids` the same events are a data frame. -/
theorem C79_defect_no_magnitude [Field K] (env : Env) (toNumeric toTime : Catalog.Val K → Catalog.Val K) (h1 : ∀ v, toNumeric (toNumeric v) = toNumeric v)
    (h2 : ∀ v, toTime (toTime v) = toTime v) (svc : Service K Event) (s : Client.State K) (a : Client.Args K) (o : Options) (ho : o.batchSize = none)
    (hu : o.uncertainty = false) (hd : Reliable svc) :
    ∃ record, ReadsAlone env o.quality record ∧ ∀ recs : List Rec,
      (page (getEventsParams s a).2 (svc.matching (getEventsParams s a).2)).mapM record = .ok recs → (∃ r ∈ recs, r ≠ []) → ¬ HasMagnitude recs → ∀ fuel,
        (o.ids = false → (getEvents env toNumeric toTime svc s a o fuel).2 = some (.error .attributeError)) ∧
        (o.ids = true → ∃ c, (getEvents env toNumeric toTime svc s a o fuel).2 = some (.ok c) ∧ c.cls = .plain) := by
  obtain ⟨record, hr, h⟩ := C79_single env toNumeric toTime svc s a o ho hd
  refine ⟨record, hr, fun recs hrecs hne hm fuel => ?_⟩
  obtain ⟨p, q⟩ := C79_catalog toNumeric toTime h1 h2 a o recs
  rw [h fuel, hrecs]
  constructor
  · intro hi
    exact congrArg some (p ⟨hu, hi, hne, hm⟩)
  · intro hi
    obtain ⟨c, hc, -, -, -, -, hcl⟩ := q (by rw [hi]; simp)
    refine ⟨c, congrArg some hc, ?_⟩
    by_contra hp
    rcases hcl.1 hp with h | h | h
    · rw [hu] at h; exact absurd h.1 (by decide)
    · obtain ⟨r, hr, hn⟩ := hne; exact hn (h r hr)
    · exact hm h

/-- An event whose preferred magnitude has a type, but no value. -/
def noValue : Event := ⟨some "e", [.plain (.elem "preferredMagnitudeID" none (.text "m".toList .nil) .nil), .magnitude (some "m") (.elem "type" none (.text "ML".toList .nil) .nil)]⟩

/-- Something comes out of it, but no magnitude. -/
def noMagnitude (q : Py Rec) : Bool :=
  match q with
  | .ok r => r.get? "magnitude" == none && r != []
  | .error _ => false

/-- A service with this event: the call fails. -/
example (env : Env) (f g : Catalog.Val ℝ → Catalog.Val ℝ) (h1 : ∀ v, f (f v) = f v) (h2 : ∀ v, g (g v) = g v) :
    ∃ svc : Service ℝ Event, Reliable svc ∧ (∀ p, svc.matching p = [noValue]) ∧ ∀ fuel,
      (getEvents env f g svc Client.State.init { deltaM := some (1 / 10) } {} fuel).2 = some (.error .attributeError) := by
  let svc : Service ℝ Event := ⟨fun _ => [noValue], fun _ es => ⟨docCalls (es.map .event), .complete⟩⟩
  have hp : noValue.Plain := by
    intro i hi
    simp only [noValue, List.mem_cons, List.not_mem_nil, or_false] at hi
    rcases hi with rfl | rfl <;> simp [Item.Plain, Forest.Plain]
  have hr : Reliable svc := by
    intro p
    refine Or.inl ⟨(page p [noValue]).map .event, ?_, docEvents_map _, rfl, rfl⟩
    intro q hq
    obtain ⟨x, hx, rfl⟩ := List.mem_map.1 hq
    have hx' := mem_page hx
    have : x = noValue := by simpa using hx'
    rw [this]; exact hp
  refine ⟨svc, hr, fun p => rfl, fun fuel => ?_⟩
  obtain ⟨record, ha, h⟩ := C79_defect_no_magnitude env f g h1 h2 svc Client.State.init { deltaM := some (1 / 10) } {} rfl rfl hr
  have e : noMagnitude (recordOf env false noValue) = true := rfl
  have e2 := (ha noValue hp).symm.trans (recordOf_alone env false noValue hp)
  cases hrec : recordOf env false noValue with
  | error x => rw [hrec] at e; cases e
  | ok r =>
    rw [hrec] at e e2
    cases hrec2 : record noValue with
    | error x => rw [hrec2] at e2; cases e2
    | ok r2 =>
      rw [hrec2] at e2
      have e3 : r2 = r := by
        have : (Except.ok [r2] : Py (List Rec)) = .ok [r] := e2
        injection this with this
        injection this
      subst e3
      have e4 : (r2.get? "magnitude" == none && r2 != []) = true := e
      rw [Bool.and_eq_true] at e4
      refine (h [r2] ?_ ⟨r2, by simp, by simpa using e4.2⟩ ?_ fuel).1 rfl
      · change [noValue].mapM record = _
        rw [List.mapM_cons, hrec2]
        rfl
      · rintro ⟨r, hr, hm⟩
        rw [List.mem_singleton] at hr
        subst hr
        exact hm (by simpa using e4.1)

end
end SeismoStats.Props
