/-
Property C52: what to_quakeml writes, and what from_quakeml reads back from it.
-/
import Verif.Proofs.Quakeml
import Verif.Props.ParserSelect
import Verif.Props.CatalogColumns

namespace SeismoStats.Props
open SeismoStats SeismoStats.Catalog SeismoStats.Quakeml SeismoStats.Spec.Parser
open Classical

/-! ### Specification -/

/-- The row has coordinates and a time. -/
def Located (r : String → Cell) : Prop :=
  (∃ s, r "latitude" = .val s) ∧ (∃ s, r "longitude" = .val s) ∧ ∃ s, r "time" = .val s

/-- The identifier columns. -/
def idColumns : List String := ["eventID", "originID", "magnitudeID"]

/-- The entry of the row `r` at position `i`, with the random identifier if the column is missing. -/
def entry (env : Quakeml.Env) (f : Frame Cell) (i : ℕ) (r : String → Cell) (c : String) : Option Cell :=
  if c ∈ f.cols then some (r c) else if c ∈ idColumns then some (.val (env.uuid c i)) else none

/-- The rows that are written, with their positions. -/
noncomputable def kept (f : Frame Cell) : List ((String → Cell) × ℕ) := f.rows.zipIdx.filter fun p => decide (Located p.1)

/-- What is found in a record under the name of a column with the entry `o`: the text without surrounding white
space; `None` as a text; nothing for NaN or without the column. -/
def Shows (o : Option Cell) (x : Option (Option String)) : Prop :=
  match o with
  | some (.val s) => x = (read s).map some
  | some .none => x = some (some "None")
  | some .nan => x = none
  | none => x = none

/-- The text of an entry in an element that is always written. -/
def plainText (o : Option Cell) : String :=
  match o with
  | some (.val s) => s
  | some .none => "None"
  | some .nan => "nan"
  | none => ""

/-- A text without surrounding white space and not empty. -/
def Neat (s : String) : Prop := read s = some s

/-! ### Rows -/

theorem complete_iff (r : String → Cell) : complete r = true ↔ Located r := by
  unfold complete Located
  cases r "latitude" <;> cases r "longitude" <;> cases r "time" <;> simp [notna]

theorem addId_rows (env : Quakeml.Env) (f : Frame Cell) (c : String) :
    (addId env f c).cols = (if c ∈ f.cols then f.cols else f.cols ++ [c]) ∧
    (addId env f c).rows = f.rows.mapIdx fun i r k => if k = c ∧ c ∉ f.cols then Cell.val (env.uuid c i) else r k := by
  unfold addId
  by_cases h : c ∈ f.cols
  · simp only [h, not_true_eq_false, and_false, if_false, if_true, true_and]
    symm
    apply List.ext_getElem?
    intro i
    simp
  · simp only [h, not_false_iff, and_true, if_false, true_and]

/-- A row with its random identifiers. -/
noncomputable def withIds (env : Quakeml.Env) (f : Frame Cell) (i : ℕ) (r : String → Cell) (c : String) : Cell :=
  if c ∈ idColumns ∧ c ∉ f.cols then .val (env.uuid c i) else r c

theorem createIds_rows (env : Quakeml.Env) (f : Frame Cell) : (createIds env f).rows = f.rows.mapIdx (withIds env f) := by
  have h1 := addId_rows env f "eventID"
  have h2 := addId_rows env (addId env f "eventID") "originID"
  have h3 := addId_rows env (addId env (addId env f "eventID") "originID") "magnitudeID"
  unfold createIds
  rw [h3.2, h2.2, h1.2, List.mapIdx_mapIdx, List.mapIdx_mapIdx]
  congr 1
  funext i r k
  have e1 : "originID" ∈ (addId env f "eventID").cols ↔ "originID" ∈ f.cols := by
    rw [h1.1]; split <;> simp
  have e2 : "magnitudeID" ∈ (addId env (addId env f "eventID") "originID").cols ↔ "magnitudeID" ∈ f.cols := by
    rw [h2.1, h1.1]; split <;> split <;> simp
  simp only [Function.comp, e1, e2, withIds, idColumns, List.mem_cons, List.not_mem_nil, or_false]
  by_cases k1 : k = "magnitudeID"
  · subst k1
    by_cases hc : "magnitudeID" ∈ f.cols <;> simp [hc]
  · by_cases k2 : k = "originID"
    · subst k2
      by_cases hc : "originID" ∈ f.cols <;> simp [hc]
    · by_cases k3 : k = "eventID"
      · subst k3
        by_cases hc : "eventID" ∈ f.cols <;> simp [hc]
      · simp [k1, k2, k3]

theorem createIds_cols (env : Quakeml.Env) (f : Frame Cell) (c : String) :
    c ∈ (createIds env f).cols ↔ c ∈ f.cols ∨ c ∈ idColumns := by
  have h : ∀ (f : Frame Cell) (x : String), c ∈ (addId env f x).cols ↔ c ∈ f.cols ∨ c = x := by
    intro f x
    rw [(addId_rows env f x).1]
    split
    · constructor
      · exact Or.inl
      · rintro (h | rfl)
        · exact h
        · assumption
    · simp
  unfold createIds
  rw [h, h, h]
  simp [idColumns, or_assoc]

theorem cell_entry (env : Quakeml.Env) (f : Frame Cell) (i : ℕ) (r : String → Cell) :
    cell (createIds env f) (withIds env f i r) = entry env f i r := by
  funext c
  unfold cell entry withIds
  by_cases h1 : c ∈ f.cols <;> by_cases h2 : c ∈ idColumns <;> simp [createIds_cols, h1, h2]

theorem withIds_located (env : Quakeml.Env) (f : Frame Cell) (i : ℕ) (r : String → Cell) : Located (withIds env f i r) ↔ Located r := by
  have h : ∀ c ∈ ["latitude", "longitude", "time"], withIds env f i r c = r c := by
    intro c hc
    unfold withIds
    rw [if_neg]
    rintro ⟨h, _⟩
    revert c
    simp [idColumns]
  unfold Located
  rw [h "latitude" (by simp), h "longitude" (by simp), h "time" (by simp)]

/-- The event that is written for a row. -/
noncomputable def treeOf (env : Quakeml.Env) (ag au : String) (f : Frame Cell) (p : (String → Cell) × ℕ) : Event :=
  eventTree env ag au (entry env f p.2 p.1) (secMags (keys f.cols) (withIds env f p.2 p.1))

theorem filter_mapIdx {α β : Type} (l : List α) (g : ℕ → α → β) (p : β → Bool) (q : α → Bool) (h : ∀ i a, p (g i a) = q a) (k : ℕ) :
    (l.mapIdx fun i a => g (i + k) a).filter p = ((l.zipIdx k).filter fun x => q x.1).map fun x => g x.2 x.1 := by
  induction l generalizing k with
  | nil => rfl
  | cons a l ih =>
    rw [List.mapIdx_cons, List.zipIdx_cons]
    have := ih (k + 1)
    have e : (fun i a => g (i + 1 + k) a) = fun i a => g (i + (k + 1)) a := by
      funext i a
      rw [Nat.add_right_comm, Nat.add_assoc]
    simp only [Nat.zero_add]
    by_cases hq : q a = true
    · rw [List.filter_cons_of_pos (by rw [h]; exact hq), List.filter_cons_of_pos (by simpa using hq), List.map_cons, e, this]
    · rw [List.filter_cons_of_neg (by rw [h]; exact hq), List.filter_cons_of_neg (by simpa using hq), e, this]

theorem events_eq (env : Quakeml.Env) (ag au : String) (f : Frame Cell) : events env ag au f = (kept f).map (treeOf env ag au f) := by
  unfold events kept
  dsimp only
  rw [createIds_rows]
  have hc : ∀ i r, complete (withIds env f i r) = decide (Located r) := by
    intro i r
    rw [Bool.eq_iff_iff, complete_iff, withIds_located, decide_eq_true_eq]
  have := filter_mapIdx f.rows (withIds env f) complete (fun r => decide (Located r)) hc 0
  simp only [Nat.add_zero] at this
  rw [this, List.map_map]
  apply List.map_congr_left
  intro p _
  simp only [Function.comp, treeOf, cell_entry]

theorem docEvents_append (a b : List Part) : docEvents (a ++ b) = docEvents a ++ docEvents b := by
  induction a with
  | nil => rfl
  | cons p a ih => cases p <;> simp [docEvents, ih]

theorem docEvents_events (l : List Event) : docEvents (l.map .event) = l := by
  induction l with
  | nil => rfl
  | cons e l ih => simp [docEvents, ih]

theorem docEvents_document (l : List Event) : docEvents (document l) = l := by
  unfold document
  rw [docEvents_append, docEvents_append, docEvents_events]
  simp [docEvents]

/-- C52: a catalogue without one of its columns can not be written (AttributeError); otherwise the document has exactly
one event for each row with coordinates and time, in their order. -/
theorem C52_one_event_per_row (env : Quakeml.Env) (ag au : String) (f : Frame Cell) :
    ((∃ c ∈ ["longitude", "latitude", "depth", "time", "magnitude", "magnitude_type"], c ∉ f.cols) →
      toQuakeml env ag au f = .error .attributeError) ∧
    ((∀ c ∈ ["longitude", "latitude", "depth", "time", "magnitude", "magnitude_type"], c ∈ f.cols) →
      ∃ doc, toQuakeml env ag au f = .ok doc ∧
        List.Forall₂ (fun p e => e.id = some (plainText (entry env f p.2 p.1 "eventID"))) (kept f) (docEvents doc)) := by
  constructor
  · rintro ⟨c, hc, hn⟩
    unfold toQuakeml
    rw [if_neg]
    rw [hasCols_iff]
    exact fun h => hn (h c hc)
  · intro h
    refine ⟨document (events env ag au f), if_pos ((hasCols_iff catalogColumns _).2 h), ?_⟩
    rw [docEvents_document, events_eq, List.forall₂_map_right_iff, List.forall₂_same]
    intro p _
    simp only [treeOf, eventTree, Option.some.injEq]
    cases entry env f p.2 p.1 "eventID" with
    | none => rfl
    | some c => cases c <;> rfl

/-! ### Texts of the tree -/

/-- The texts of a magnitude. -/
def magEntries (ag au id : String) (value unc : Option String) (type oid : String) : List (String × Option String) :=
  [("magnitudepublicID", some id), ("magnitudecreationInfoagencyID", read ag), ("magnitudecreationInfoauthor", read au),
    ("magnitudemagvalue", value.bind read), ("magnitudemaguncertainty", unc.bind read), ("magnitudetype", read type),
    ("magnitudeoriginID", read oid)]

/-- The texts of the origin. -/
def originEntries (env : Quakeml.Env) (ag au : String) (g : String → Option Cell) : List (String × Option String) :=
  [("originpublicID", some (show1 (g "originID"))), ("origintimevalue", read (env.strftime (show1 (g "time")))),
    ("originlongitudevalue", (shown (g "longitude")).bind read), ("originlongitudeuncertainty", (shown (g "longitude_uncertainty")).bind read),
    ("originlatitudevalue", (shown (g "latitude")).bind read), ("originlatitudeuncertainty", (shown (g "latitude_uncertainty")).bind read),
    ("originevaluationMode", read (show1 (g "evaluationmode"))),
    ("origincreationInfoagencyID", read ag), ("origincreationInfoauthor", read au),
    ("origindepthvalue", (shown (g "depth")).bind read), ("origindepthuncertainty", (shown (g "depth_uncertainty")).bind read),
    ("originqualityassociatedPhaseCount", (shownInt env (g "associatedphasecount")).bind read),
    ("originqualityusedPhaseCount", (shownInt env (g "usedphasecount")).bind read),
    ("originqualityassociatedStationCount", (shownInt env (g "associatedstationcount")).bind read),
    ("originqualityusedStationCount", (shownInt env (g "usedstationcount")).bind read),
    ("originqualitydepthPhaseCount", (shownInt env (g "depthphasecount")).bind read),
    ("originqualitystandardError", (shown (g "standarderror")).bind read),
    ("originqualityazimuthalGap", (shown (g "azimuthalgap")).bind read),
    ("originqualitysecondaryAzimuthalGap", (shown (g "secondaryazimuthalgap")).bind read),
    ("originqualitymaximumDistance", (shown (g "maximumdistance")).bind read),
    ("originqualityminimumDistance", (shown (g "minimumdistance")).bind read),
    ("originqualitymedianDistance", (shown (g "mediandistance")).bind read)]

/-- The texts of the event itself. -/
def ownEntries (ag au : String) (g : String → Option Cell) : List (String × Option String) :=
  [("publicID", some (show1 (g "eventID"))), ("creationInfoagencyID", read ag), ("creationInfoauthor", read au),
    ("preferredOriginID", read (show1 (g "originID"))), ("preferredMagnitudeID", read (show1 (g "magnitudeID"))),
    ("type", read (show1 (g "event_type")))]

theorem flat_cons (p : String × Option String) (l : List (String × Option String)) : flat (p :: l) = flat [p] ++ flat l :=
  flat_append [p] l

theorem magnitude_texts (ag au id : String) (value unc : Option String) (type oid : String) :
    (magnitudeItem ag au id value unc type oid).magnitudeTexts = [flat (magEntries ag au id value unc type oid)] := by
  unfold magnitudeItem magEntries creationInfo
  dsimp only [Item.magnitudeTexts]
  rw [idText_flat]
  simp only [texts_elem, texts_textElem, texts_optElem, texts_nil, ← flat_append]
  rfl

theorem origin_texts (env : Quakeml.Env) (ag au : String) (g : String → Option Cell) :
    (originItem env ag au g).originTexts = [flat (originEntries env ag au g)] := by
  unfold originItem originEntries creationInfo realElem quality
  dsimp only [Item.originTexts]
  rw [idText_flat]
  simp only [texts_elem, texts_textElem, texts_optElem, texts_nil, ← flat_append]
  rfl

theorem tree_origins (env : Quakeml.Env) (ag au : String) (g : String → Option Cell) (sec : Dict (Dict Cell)) :
    (eventTree env ag au g sec).origins = [flat (originEntries env ag au g)] := by
  unfold eventTree Event.origins
  simp only [List.map_append, List.flatten_append, List.map_cons, List.map_nil, List.map_map]
  have h1 : (sec.map (Item.originTexts ∘ secondaryItem ag au (show1 (g "originID")))).flatten = [] := by
    rw [List.flatten_eq_nil_iff]
    intro l hl
    obtain ⟨p, _, rfl⟩ := List.mem_map.1 hl
    rfl
  rw [h1, origin_texts]
  rfl

theorem tree_magnitudes (env : Quakeml.Env) (ag au : String) (g : String → Option Cell) (sec : Dict (Dict Cell)) :
    (eventTree env ag au g sec).magnitudes =
      flat (magEntries ag au (show1 (g "magnitudeID")) (shown (g "magnitude")) (shown (g "magnitude_uncertainty"))
        (show1 (g "magnitude_type")) (show1 (g "originID"))) ::
      sec.map fun p => flat (magEntries ag au (show1 (p.2.get? "magnitude_magnitudeID")) (shown (p.2.get? "magnitude"))
        (shown (p.2.get? "magnitude_uncertainty")) p.1 (show1 (g "originID"))) := by
  unfold eventTree Event.magnitudes
  simp only [List.map_append, List.flatten_append, List.map_cons, List.map_nil, List.map_map]
  have h1 : (sec.map (Item.magnitudeTexts ∘ secondaryItem ag au (show1 (g "originID")))).flatten =
      sec.map fun p => flat (magEntries ag au (show1 (p.2.get? "magnitude_magnitudeID")) (shown (p.2.get? "magnitude"))
        (shown (p.2.get? "magnitude_uncertainty")) p.1 (show1 (g "originID"))) := by
    induction sec with
    | nil => rfl
    | cons p sec ih =>
      rw [List.map_cons, List.flatten_cons, ih, List.map_cons]
      simp only [Function.comp, secondaryItem, magnitude_texts]
      rfl
  rw [h1, magnitude_texts]
  simp [originItem, Item.magnitudeTexts]

theorem tree_own (env : Quakeml.Env) (ag au : String) (g : String → Option Cell) (sec : Dict (Dict Cell)) :
    (eventTree env ag au g sec).own = flat (ownEntries ag au g) := by
  unfold eventTree Event.own
  simp only [List.map_append, List.flatten_append, List.map_cons, List.map_nil, List.map_map]
  have h1 : (sec.map (Item.eventTexts ∘ secondaryItem ag au (show1 (g "originID")))).flatten = [] := by
    rw [List.flatten_eq_nil_iff]
    intro l hl
    obtain ⟨p, _, rfl⟩ := List.mem_map.1 hl
    rfl
  rw [h1]
  have e : idText [] (some (show1 (g "eventID"))) = idText "".toList (some (show1 (g "eventID"))) := rfl
  have e2 : ∀ F : Forest, (Item.plain F).eventTexts = F.texts "".toList := fun _ => rfl
  rw [e, idText_flat, e2, e2]
  unfold creationInfo ownEntries
  simp only [texts_elem, texts_textElem, texts_nil, ← flat_append, magnitudeItem, originItem, Item.eventTexts,
    List.flatten_cons, List.flatten_nil, List.nil_append, List.append_nil]
  rfl

theorem optElem_plain (tag : String) (s : Option String) (rest : Forest) (ht : tag ≠ "event" ∧ tag ≠ "origin" ∧ tag ≠ "magnitude" ∧ tag.toList ≠ [])
    (h : rest.Plain) : (optElem tag s rest).Plain := by
  cases s with
  | none => exact h
  | some s => exact ⟨ht.1, ht.2.1, ht.2.2.1, ht.2.2.2, trivial, h⟩

theorem textElem_plain (tag s : String) (rest : Forest) (ht : tag ≠ "event" ∧ tag ≠ "origin" ∧ tag ≠ "magnitude" ∧ tag.toList ≠ [])
    (h : rest.Plain) : (textElem tag s rest).Plain := ⟨ht.1, ht.2.1, ht.2.2.1, ht.2.2.2, trivial, h⟩

theorem elem_plain (tag : String) (id : Option String) (k rest : Forest) (ht : tag ≠ "event" ∧ tag ≠ "origin" ∧ tag ≠ "magnitude" ∧ tag.toList ≠ [])
    (hk : k.Plain) (h : rest.Plain) : (Forest.elem tag id k rest).Plain := ⟨ht.1, ht.2.1, ht.2.2.1, ht.2.2.2, hk, h⟩

theorem creationInfo_plain (ag au : String) (rest : Forest) (h : rest.Plain) : (creationInfo ag au rest).Plain :=
  elem_plain _ _ _ _ (by decide) (textElem_plain _ _ _ (by decide) (textElem_plain _ _ _ (by decide) trivial)) h

theorem magnitudeItem_plain (ag au id : String) (value unc : Option String) (type oid : String) :
    (magnitudeItem ag au id value unc type oid).Plain :=
  creationInfo_plain _ _ _ (elem_plain _ _ _ _ (by decide)
    (optElem_plain _ _ _ (by decide) (optElem_plain _ _ _ (by decide) trivial))
    (textElem_plain _ _ _ (by decide) (textElem_plain _ _ _ (by decide) trivial)))

theorem realElem_plain (tag : String) (v u : Option String) (rest : Forest) (ht : tag ≠ "event" ∧ tag ≠ "origin" ∧ tag ≠ "magnitude" ∧ tag.toList ≠ [])
    (h : rest.Plain) : (realElem tag v u rest).Plain :=
  elem_plain _ _ _ _ ht (optElem_plain _ _ _ (by decide) (optElem_plain _ _ _ (by decide) trivial)) h

theorem tree_plain (env : Quakeml.Env) (ag au : String) (g : String → Option Cell) (sec : Dict (Dict Cell)) :
    (eventTree env ag au g sec).Plain := by
  intro i hi
  unfold eventTree at hi
  simp only [List.mem_append, List.mem_cons, List.not_mem_nil, or_false, List.mem_map] at hi
  rcases hi with (((rfl | rfl) | ⟨p, _, rfl⟩) | (rfl | rfl))
  · exact creationInfo_plain _ _ _ trivial
  · exact magnitudeItem_plain _ _ _ _ _ _ _
  · exact magnitudeItem_plain _ _ _ _ _ _ _
  · refine elem_plain _ none _ _ (by decide) (textElem_plain _ _ _ (by decide) trivial) ?_
    refine realElem_plain _ _ _ _ (by decide) (realElem_plain _ _ _ _ (by decide) (textElem_plain _ _ _ (by decide)
      (creationInfo_plain _ _ _ (realElem_plain _ _ _ _ (by decide) ?_))))
    refine elem_plain _ none _ _ (by decide) ?_ trivial
    repeat (refine optElem_plain _ _ _ (by decide) ?_)
    trivial
  · exact textElem_plain _ _ _ (by decide) (textElem_plain _ _ _ (by decide) (textElem_plain _ _ _ (by decide) trivial))

/-! ### Reading one event -/

/-- The names in `magEntries`. -/
def magNames : List String := ["magnitudepublicID", "magnitudecreationInfoagencyID", "magnitudecreationInfoauthor",
  "magnitudemagvalue", "magnitudemaguncertainty", "magnitudetype", "magnitudeoriginID"]

/-- The names in `originEntries`. -/
def originNames : List String := ["originpublicID", "origintimevalue", "originlongitudevalue", "originlongitudeuncertainty",
  "originlatitudevalue", "originlatitudeuncertainty", "originevaluationMode", "origincreationInfoagencyID",
  "origincreationInfoauthor", "origindepthvalue", "origindepthuncertainty", "originqualityassociatedPhaseCount",
  "originqualityusedPhaseCount", "originqualityassociatedStationCount", "originqualityusedStationCount",
  "originqualitydepthPhaseCount", "originqualitystandardError", "originqualityazimuthalGap",
  "originqualitysecondaryAzimuthalGap", "originqualitymaximumDistance", "originqualityminimumDistance", "originqualitymedianDistance"]

/-- The names in `ownEntries`. -/
def ownNames : List String := ["publicID", "creationInfoagencyID", "creationInfoauthor", "preferredOriginID", "preferredMagnitudeID", "type"]

theorem mag_nodup (ag au id : String) (value unc : Option String) (type oid : String) :
    ((magEntries ag au id value unc type oid).map Prod.fst).Nodup := by
  change magNames.Nodup
  decide

theorem origin_nodup (env : Quakeml.Env) (ag au : String) (g : String → Option Cell) : ((originEntries env ag au g).map Prod.fst).Nodup := by
  change originNames.Nodup
  decide

theorem own_nodup (ag au : String) (g : String → Option Cell) : ((ownEntries ag au g).map Prod.fst).Nodup := by
  change ownNames.Nodup
  decide

theorem show1_plainText (o : Option Cell) : show1 o = plainText o := by
  cases o with
  | none => rfl
  | some c => cases c <;> rfl

theorem shows_shown (o : Option Cell) : Shows o (((shown o).bind read).map some) := by
  cases o with
  | none => rfl
  | some c =>
    cases c with
    | nan => rfl
    | none => show Option.map some (read "None") = some (some "None"); decide
    | val s => rfl

/-- The integer of an entry. -/
def intEntry (env : Quakeml.Env) (o : Option Cell) : Option Cell :=
  match o with
  | some (.val s) => some (.val (env.toInt s))
  | some .none => some (.val "0")
  | o => o

theorem shows_shownInt (env : Quakeml.Env) (o : Option Cell) : Shows (intEntry env o) (((shownInt env o).bind read).map some) := by
  cases o with
  | none => rfl
  | some c => cases c <;> rfl

/-- What a row says about a secondary magnitude column: its text, if it is not lost. -/
noncomputable def secText (f : Frame Cell) (r : String → Cell) (pt c : String) : Option String :=
  if c ∈ f.cols ∧ ¬ pt.toList <:+: c.toList then
    match r c with
    | .val v => some v
    | _ => none
  else none

/-- The record that is read back for the row `r` at position `i`. -/
structure Back (env : Quakeml.Env) (all quality : Bool) (f : Frame Cell) (T : List String) (i : ℕ) (r : String → Cell)
    (x : Parser.Rec) : Prop where
  ids : ∀ c ∈ ["eventID", "originID", "magnitudeID", "magnitude_type"], x.get? c = some (some (plainText (entry env f i r c)))
  type : x.get? "event_type" = some (read (plainText (entry env f i r "event_type")))
  mode : x.get? "evaluationmode" = (read (plainText (entry env f i r "evaluationmode"))).map some
  time : x.get? "time" = (read (env.strftime (plainText (entry env f i r "time")))).map some
  values : ∀ c ∈ ["latitude", "longitude", "depth", "magnitude", "latitude_uncertainty", "longitude_uncertainty",
    "depth_uncertainty", "magnitude_uncertainty"], Shows (entry env f i r c) (x.get? c)
  counts : quality = true → ∀ c ∈ ["associatedphasecount", "usedphasecount", "associatedstationcount", "usedstationcount",
    "depthphasecount"], Shows (intEntry env (entry env f i r c)) (x.get? c)
  quality : quality = true → ∀ c ∈ ["standarderror", "azimuthalgap", "secondaryazimuthalgap", "maximumdistance",
    "minimumdistance", "mediandistance"], Shows (entry env f i r c) (x.get? c)
  lost : ∀ v ∈ ["time", "latitude", "longitude", "depth", "magnitude"],
    ∀ s ∈ ["_lowerUncertainty", "_upperUncertainty", "_confidenceLevel"], x.get? (v ++ s) = none
  preferred : all = true → ∀ s ∈ ["", "_uncertainty"],
    x.get? ("magnitude_" ++ plainText (entry env f i r "magnitude_type") ++ s) = x.get? ("magnitude" ++ s)
  secondary : all = true → ∀ t ∈ T, t ≠ plainText (entry env f i r "magnitude_type") →
    (∃ s ∈ suffixes, secText f r (plainText (entry env f i r "magnitude_type")) ("magnitude_" ++ t ++ s) ≠ none) →
    (∀ s ∈ ["", "_uncertainty"], x.get? ("magnitude_" ++ t ++ s) =
      ((secText f r (plainText (entry env f i r "magnitude_type")) ("magnitude_" ++ t ++ s)).bind read).map some) ∧
    x.get? ("magnitude_" ++ t ++ "_magnitudeID") =
      some (some ((secText f r (plainText (entry env f i r "magnitude_type")) ("magnitude_" ++ t ++ "_magnitudeID")).getD ""))
  absent : all = true → ∀ t ∈ T, t ≠ plainText (entry env f i r "magnitude_type") →
    (∀ s ∈ suffixes, secText f r (plainText (entry env f i r "magnitude_type")) ("magnitude_" ++ t ++ s) = none) →
    ∀ s ∈ suffixes, x.get? ("magnitude_" ++ t ++ s) = none

/-- A row whose preferred identifiers and types are texts without surrounding white space, and whose secondary
magnitudes do not use the identifier of the preferred one. -/
structure Readable (env : Quakeml.Env) (f : Frame Cell) (T : List String) (i : ℕ) (r : String → Cell) : Prop where
  origin : Neat (plainText (entry env f i r "originID"))
  magnitude : Neat (plainText (entry env f i r "magnitudeID"))
  type : ∃ pt, r "magnitude_type" = .val pt ∧ Neat pt ∧ PlainType pt
  others : ∀ t ∈ T, r ("magnitude_" ++ t ++ "_magnitudeID") ≠ .val (plainText (entry env f i r "magnitudeID"))

theorem plainType_of_good {t : String} (h : GoodType t) : PlainType t := by
  refine ⟨h.underscore, ?_, ?_, ?_, ?_, ?_⟩ <;> rintro rfl
  · exact h.start "type" (by simp) (List.prefix_refl _)
  · exact h.start "uncertainty" (by simp) (List.prefix_refl _)
  · exact h.start "lowerUncertainty" (by simp) (List.prefix_refl _)
  · exact h.start "upperUncertainty" (by simp) (List.prefix_refl _)
  · exact h.start "confidenceLevel" (by simp) (List.prefix_refl _)

theorem look_text (env : Quakeml.Env) (f : Frame Cell) (T : List String) (hstd : Standard f.cols T) (i : ℕ) (r : String → Cell)
    (pt : String) (hpt : r "magnitude_type" = .val pt) (t s : String) (ht : t ∈ T) (hs : s ∈ suffixes) :
    look (secMags (keys f.cols) (withIds env f i r)) t ("magnitude" ++ s) = (secText f r pt ("magnitude_" ++ t ++ s)).map Cell.val := by
  rw [look_secMags f.cols T hstd _ t s ht hs]
  have hw : ∀ c, c ∉ idColumns → withIds env f i r c = r c := by
    intro c hc
    unfold withIds
    rw [if_neg (fun h => hc h.1)]
  have hne : "magnitude_" ++ t ++ s ∉ idColumns := by
    intro hc
    have h1 : ("magnitude_" ++ t ++ s).toList.take 10 = "magnitude_".toList := by
      rw [String.toList_append, String.toList_append, List.append_assoc]
      rfl
    have h2 : ∀ c ∈ idColumns, c.toList.take 10 ≠ "magnitude_".toList := by decide
    exact h2 _ hc h1
  unfold secText written
  rw [hw _ hne, hw "magnitude_type" (by decide), hpt]
  dsimp only
  unfold contains
  generalize "magnitude_" ++ t ++ s = c
  by_cases h1 : c ∈ f.cols
  · by_cases h2 : pt.toList <:+: c.toList
    · simp [h2]
    · cases r c <;> simp [h1, h2, notna]
  · simp [h1]

theorem entry_col (env : Quakeml.Env) (f : Frame Cell) (i : ℕ) (r : String → Cell) (c : String) (h : c ∈ f.cols) :
    entry env f i r c = some (r c) := if_pos h

theorem forall₂_cons_right {α β : Type} {R : α → β → Prop} {l : List α} {b : β} {bs : List β} (h : List.Forall₂ R l (b :: bs)) :
    ∃ a as, l = a :: as ∧ R a b ∧ List.Forall₂ R as bs := by
  cases h with
  | cons h1 h2 => exact ⟨_, _, rfl, h1, h2⟩

theorem forall₂_mem_left {α β : Type} {R : α → β → Prop} {l : List α} {r : List β} (h : List.Forall₂ R l r) :
    ∀ a ∈ l, ∃ b ∈ r, R a b := by
  induction h with
  | nil => simp
  | cons h1 _ ih =>
    intro a ha
    rcases List.mem_cons.1 ha with rfl | ha
    · exact ⟨_, by simp, h1⟩
    · obtain ⟨b, hb, h⟩ := ih a ha
      exact ⟨b, by simp [hb], h⟩

/-- The magnitudes with the type `t` are those made for the entry `t` of the dictionary. -/
theorem withType_entries (ms : List Parser.Elem) (sec : Dict (Dict Cell)) (F : String × Dict Cell → List (List Char × List Char))
    (hF : ∀ p ∈ sec, textAt (F p) "magnitudetype" = some p.1) (h : List.Forall₂ Holds ms (sec.map F)) (hwf : Dict.WF sec) (t : String) :
    (sec.get? t = none → withType ms t = []) ∧
    (∀ e, sec.get? t = some e → ∃ m, withType ms t = [m] ∧ Holds m (F (t, e))) := by
  induction sec generalizing ms with
  | nil =>
    cases h
    exact ⟨fun _ => rfl, fun e he => by cases he⟩
  | cons p sec ih =>
    obtain ⟨m, ms', rfl, h1, h2⟩ := forall₂_cons_right h
    unfold Dict.WF at hwf
    rw [List.map_cons, List.nodup_cons] at hwf
    have hm : typeOf m = some p.1 := by
      unfold typeOf
      rw [h1, hF p (by simp)]
    obtain ⟨i1, i2⟩ := ih ms' (fun q hq => hF q (by simp [hq])) h2 hwf.2
    by_cases hp : p.1 = t
    · have hnone : Dict.get? sec t = none := by
        rw [Dict.get?_eq_none_iff]
        rw [← hp]
        exact hwf.1
      have hget : Dict.get? (p :: sec) t = some p.2 := by
        simp [Dict.get?, hp]
      have hw : withType (m :: ms') t = [m] := by
        unfold withType
        rw [List.filter_cons_of_pos (by simp [hm, hp])]
        have := i1 hnone
        unfold withType at this
        rw [this]
      rw [hget, hw]
      refine ⟨fun h => (by cases h), fun e he => ⟨m, rfl, ?_⟩⟩
      cases he
      rw [← hp]
      exact h1
    · have hget : Dict.get? (p :: sec) t = Dict.get? sec t := by
        simp [Dict.get?, hp]
      have hw : withType (m :: ms') t = withType ms' t := by
        unfold withType
        rw [List.filter_cons_of_neg (by simp [hm, hp])]
      rw [hget, hw]
      exact ⟨i1, i2⟩

theorem holds_flat {d : Parser.Elem} {l : List (String × Option String)} (h : Holds d (flat l)) (hn : (l.map Prod.fst).Nodup)
    (k : String) (v : Option String) (hm : (k, v) ∈ l) : d.get? k = v := by
  rw [h k]
  exact textAt_flat l hn k v hm

theorem holds_absent {d : Parser.Elem} {l : List (String × Option String)} (h : Holds d (flat l)) (k : String)
    (hk : k ∉ l.map Prod.fst) : d.get? k = none := by
  rw [h k]
  exact textAt_absent l k hk

theorem get_of_mem {V : Type} {d : Dict V} (h : Dict.WF d) {p : String × V} (hp : p ∈ d) : d.get? p.1 = some p.2 := by
  induction d with
  | nil => cases hp
  | cons q d ih =>
    unfold Dict.WF at h
    rw [List.map_cons, List.nodup_cons] at h
    rcases List.mem_cons.1 hp with rfl | hp
    · simp [Dict.get?]
    · have : q.1 ≠ p.1 := fun e => h.1 (e ▸ List.mem_map_of_mem (f := Prod.fst) hp)
      simp only [Dict.get?, this, if_false]
      exact ih h.2 hp

theorem neat_nonempty {s : String} (h : Neat s) : s ≠ "" := by
  rintro rfl
  exact absurd h (by unfold Neat; decide)

/-- The record of one written row. -/
theorem row_back (env : Quakeml.Env) (penv : Parser.Env) (hperm : ∀ l, (penv.setOrder l).Perm l) (all quality : Bool) (ag au : String)
    (f : Frame Cell) (T : List String) (hstd : Standard f.cols T) (hneat : ∀ t ∈ T, Neat t) (hcol : "magnitude_type" ∈ f.cols)
    (i : ℕ) (r : String → Cell) (hr : Readable env f T i r) (own : Parser.Elem) (origins mags : List Parser.Elem)
    (hown : Holds own (treeOf env ag au f (r, i)).own) (ho : List.Forall₂ Holds origins (treeOf env ag au f (r, i)).origins)
    (hm : List.Forall₂ Holds mags (treeOf env ag au f (r, i)).magnitudes) :
    ∃ x, Parser.parseToDict penv own origins mags all quality = .ok x ∧ Back env all quality f T i r x := by
  unfold treeOf at hown ho hm
  rw [tree_own] at hown
  rw [tree_origins] at ho
  rw [tree_magnitudes] at hm
  simp only [show1_plainText] at hm
  generalize hsec : secMags (keys f.cols) (withIds env f i r) = sec at hm
  have hwf : Dict.WF sec := hsec ▸ secMags_WF _ _
  generalize hg : entry env f i r = g at hown ho hm
  obtain ⟨o0, os, rfl, ho0, hos⟩ := forall₂_cons_right ho
  cases hos
  obtain ⟨m0, ms, rfl, hm0, hms⟩ := forall₂_cons_right hm
  obtain ⟨pt, hpt, hptn, hptp⟩ := hr.type
  have hgt : g "magnitude_type" = some (.val pt) := by rw [← hg, entry_col env f i r _ hcol, hpt]
  have htypeT : ∀ p ∈ sec, p.1 ∈ T := by
    intro p hp
    have hsome : ∃ e, (secMags (keys f.cols) (withIds env f i r)).get? p.1 = some e := by
      rw [hsec]
      apply Option.ne_none_iff_exists'.1
      rw [ne_eq, Dict.get?_eq_none_iff]
      push Not
      exact List.mem_map_of_mem (f := Prod.fst) hp
    exact ((mem_secMags f.cols T hstd _ _).1 hsome).1
  -- the magnitudes
  have htype0 : typeOf m0 = some pt := by
    unfold typeOf
    rw [holds_flat hm0 (mag_nodup _ _ _ _ _ _ _) "magnitudetype" (read (plainText (g "magnitude_type"))) (by simp [magEntries]), hgt]
    exact hptn
  have hid0 : idOf m0 = some (plainText (g "magnitudeID")) :=
    holds_flat hm0 (mag_nodup _ _ _ _ _ _ _) "magnitudepublicID" _ (by simp [magEntries])
  have hpref : Dict.get? own "preferredMagnitudeID" = some (plainText (g "magnitudeID")) := by
    rw [holds_flat hown (own_nodup _ _ _) "preferredMagnitudeID" (read (show1 (g "magnitudeID"))) (by simp [ownEntries]), show1_plainText]
    have := hr.magnitude
    rw [hg] at this
    exact this
  have hprefo : Dict.get? own "preferredOriginID" = some (plainText (g "originID")) := by
    rw [holds_flat hown (own_nodup _ _ _) "preferredOriginID" (read (show1 (g "originID"))) (by simp [ownEntries]), show1_plainText]
    have := hr.origin
    rw [hg] at this
    exact this
  have hlook : ∀ t ∈ T, ∀ s ∈ suffixes, look sec t ("magnitude" ++ s) = (secText f r pt ("magnitude_" ++ t ++ s)).map Cell.val := by
    intro t ht s hs
    rw [← hsec]
    exact look_text env f T hstd i r pt hpt t s ht hs
  -- secondary magnitudes
  have hF : ∀ p ∈ sec, textAt ((fun p : String × Dict Cell => flat (magEntries ag au (plainText (p.2.get? "magnitude_magnitudeID")) (shown (p.2.get? "magnitude"))
        (shown (p.2.get? "magnitude_uncertainty")) p.1 (plainText (g "originID")))) p) "magnitudetype" = some p.1 := by
    intro p hp
    dsimp only
    rw [textAt_flat _ (mag_nodup _ _ _ _ _ _ _) "magnitudetype" (read p.1) (by simp [magEntries])]
    exact hneat _ (htypeT p hp)
  have hsecs : ∀ m ∈ ms, ∃ p ∈ sec, Holds m (flat (magEntries ag au (plainText (p.2.get? "magnitude_magnitudeID")) (shown (p.2.get? "magnitude"))
        (shown (p.2.get? "magnitude_uncertainty")) p.1 (plainText (g "originID")))) := by
    intro m hmm
    obtain ⟨b, hb, h⟩ := forall₂_mem_left hms m hmm
    obtain ⟨p, hp, rfl⟩ := List.mem_map.1 hb
    exact ⟨p, hp, h⟩
  have hids : ∀ m ∈ ms, ∃ v, idOf m = some v ∧ v ≠ plainText (g "magnitudeID") := by
    intro m hmm
    obtain ⟨p, hp, h⟩ := hsecs m hmm
    refine ⟨_, holds_flat h (mag_nodup _ _ _ _ _ _ _) "magnitudepublicID" (some (plainText (p.2.get? "magnitude_magnitudeID"))) (by simp [magEntries]), ?_⟩
    have hget : sec.get? p.1 = some p.2 := get_of_mem hwf hp
    have hl := hlook p.1 (htypeT p hp) "_magnitudeID" (by decide)
    have hl2 : look sec p.1 ("magnitude" ++ "_magnitudeID") = p.2.get? "magnitude_magnitudeID" := by
      unfold look
      rw [hget]
      rfl
    rw [← hl2, hl]
    have hne := neat_nonempty hr.magnitude
    rw [hg] at hne
    have ho := hr.others p.1 (htypeT p hp)
    rw [hg] at ho
    unfold secText
    split
    · cases hv : r ("magnitude_" ++ p.1 ++ "_magnitudeID") with
      | val v =>
        intro hc
        exact ho (by rw [hv]; exact congrArg Cell.val hc)
      | nan => exact fun hc => hne hc.symm
      | none => exact fun hc => hne hc.symm
    · exact fun hc => hne hc.symm
  have htypes : ∀ m ∈ ms, ∃ t ∈ T, typeOf m = some t := by
    intro m hmm
    obtain ⟨p, hp, h⟩ := hsecs m hmm
    refine ⟨p.1, htypeT p hp, ?_⟩
    unfold typeOf
    rw [holds_flat h (mag_nodup _ _ _ _ _ _ _) "magnitudetype" (read p.1) (by simp [magEntries])]
    exact hneat _ (htypeT p hp)
  have honly : OnlyOne own (m0 :: ms) := by
    unfold OnlyOne
    rw [hpref, List.filter_cons_of_pos (by simp [hid0])]
    have : ms.filter (fun m => decide (idOf m = some (plainText (g "magnitudeID")))) = [] := by
      rw [List.filter_eq_nil_iff]
      intro m hmm
      obtain ⟨v, hv, hne⟩ := hids m hmm
      rw [hv]
      simpa using hne
    rw [this]
    simp
  have hplain : ∀ m ∈ m0 :: ms, ∀ t, typeOf m = some t → PlainType t := by
    intro m hmm t ht
    rcases List.mem_cons.1 hmm with rfl | hmm
    · rw [htype0] at ht
      cases ht
      exact hptp
    · obtain ⟨t', ht', e⟩ := htypes m hmm
      rw [e] at ht
      cases ht
      exact plainType_of_good (hstd.1 _ ht')
  have hkey : ∀ k, k ∉ magNames → ∀ m ∈ m0 :: ms, Dict.get? m k = none := by
    intro k hk m hmm
    rcases List.mem_cons.1 hmm with rfl | hmm
    · exact holds_absent hm0 k hk
    · obtain ⟨p, hp, h⟩ := hsecs m hmm
      exact holds_absent h k hk
  obtain ⟨x, hx⟩ := C48_no_exception penv hperm own [o0] (m0 :: ms) all quality
    (by
      intro o hoo
      rw [List.mem_singleton.1 hoo]
      exact ⟨_, holds_flat ho0 (origin_nodup _ _ _ _) "originpublicID" _ List.mem_cons_self⟩)
    (by
      intro m hmm
      rcases List.mem_cons.1 hmm with rfl | hmm
      · exact ⟨_, hid0⟩
      · obtain ⟨v, hv, _⟩ := hids m hmm
        exact ⟨v, hv⟩)
    (by
      intro m hmm
      rcases List.mem_cons.1 hmm with rfl | hmm
      · exact ⟨_, htype0⟩
      · obtain ⟨t, _, e⟩ := htypes m hmm
        exact ⟨t, e⟩)
    (by
      intro m hmm v hv
      rw [hkey _ (by decide) m hmm] at hv
      cases hv)
    (by
      intro m hmm v hv
      rw [hkey _ (by decide) m hmm] at hv
      cases hv)
  refine ⟨x, hx, ?_⟩
  have hispref : IsPreferred own (m0 :: ms) (some m0) := ⟨by simp, by rw [hid0, hpref]⟩
  have hisorig : IsPreferredOrigin own [o0] (some o0) := by
    refine ⟨by simp, ?_⟩
    rw [hprefo, ← show1_plainText]
    exact holds_flat ho0 (origin_nodup _ _ _ _) "originpublicID" _ List.mem_cons_self
  have hpm := C48_preferred_magnitude penv hperm own [o0] (m0 :: ms) all quality x honly (fun _ => hplain) hx (some m0) hispref
  obtain ⟨hpo, hpq, hpe, hpt2⟩ := C48_preferred_origin penv hperm own [o0] (m0 :: ms) all quality x (by simp) (fun _ => hplain) hx (some o0) hisorig
  have hO : ∀ k v, (k, v) ∈ originEntries env ag au g → Dict.get? o0 k = v := fun k v h => holds_flat ho0 (origin_nodup _ _ _ _) k v h
  have hM : ∀ k v, (k, v) ∈ magEntries ag au (plainText (g "magnitudeID")) (shown (g "magnitude")) (shown (g "magnitude_uncertainty"))
      (plainText (g "magnitude_type")) (plainText (g "originID")) → Dict.get? m0 k = v := fun k v h => holds_flat hm0 (mag_nodup _ _ _ _ _ _ _) k v h
  have hE : ∀ k v, (k, v) ∈ ownEntries ag au g → Dict.get? own k = v := fun k v h => holds_flat hown (own_nodup _ _ _) k v h
  have hS : ∀ t ∈ T, ∀ e, sec.get? t = some e → ∀ s ∈ suffixes, e.get? ("magnitude" ++ s) = (secText f r pt ("magnitude_" ++ t ++ s)).map Cell.val := by
    intro t ht e he s hs
    rw [← hlook t ht s hs]
    unfold look
    rw [he]
    rfl
  have hex : ∀ t ∈ T, (sec.get? t ≠ none ↔ ∃ s ∈ suffixes, secText f r pt ("magnitude_" ++ t ++ s) ≠ none) := by
    intro t ht
    constructor
    · intro h
      obtain ⟨e, he⟩ := Option.ne_none_iff_exists'.1 h
      have := (mem_secMags f.cols T hstd (withIds env f i r) t).1 ⟨e, by rw [hsec]; exact he⟩
      obtain ⟨_, s, hs, hc, hw⟩ := this
      refine ⟨s, hs, ?_⟩
      have h1 := look_secMags f.cols T hstd (withIds env f i r) t s ht hs
      rw [if_pos ⟨hc, hw⟩, hsec, hlook t ht s hs] at h1
      intro hn
      rw [hn] at h1
      cases h1
    · rintro ⟨s, hs, h⟩ hn
      have := hlook t ht s hs
      unfold look at this
      rw [hn] at this
      apply h
      cases hv : secText f r pt ("magnitude_" ++ t ++ s) with
      | none => rfl
      | some v => rw [hv] at this; cases this
  have hwt : ∀ t, t ≠ pt → withType (m0 :: ms) t = withType ms t := by
    intro t ht
    unfold withType
    rw [List.filter_cons_of_neg]
    rw [decide_eq_true_eq, htype0]
    intro hc
    cases hc
    exact ht rfl
  have hpg : plainText (g "magnitude_type") = pt := by rw [hgt]; rfl
  constructor
  · intro c hc
    rw [hg]
    simp only [List.mem_cons, List.not_mem_nil, or_false] at hc
    rcases hc with rfl | rfl | rfl | rfl
    · rw [hpe, hE "publicID" (some (show1 (g "eventID"))) (by simp [ownEntries]), show1_plainText]
    · rw [hpo "originID" "originpublicID" (by decide)]
      dsimp only
      rw [hO "originpublicID" (some (show1 (g "originID"))) (by simp [originEntries]), show1_plainText]
      rfl
    · rw [hpm "magnitudeID" "magnitudepublicID" (by decide)]
      dsimp only
      rw [hM "magnitudepublicID" (some (plainText (g "magnitudeID"))) (by simp [magEntries])]
      rfl
    · rw [hpm "magnitude_type" "magnitudetype" (by decide)]
      dsimp only
      rw [hM "magnitudetype" (read (plainText (g "magnitude_type"))) (by simp [magEntries]), hpg, hptn]
      rfl
  · rw [hg, hpt2, hE "type" (read (show1 (g "event_type"))) (by simp [ownEntries]), show1_plainText]
  · rw [hg, hpo "evaluationmode" "originevaluationMode" (by decide)]
    dsimp only
    rw [hO "originevaluationMode" (read (show1 (g "evaluationmode"))) (by simp [originEntries]), show1_plainText]
  · rw [hg, hpo "time" "origintimevalue" (by decide)]
    dsimp only
    rw [hO "origintimevalue" (read (env.strftime (show1 (g "time")))) (by simp [originEntries]), show1_plainText]
  · have ho : ∀ c k, (c, k) ∈ originColumns → (k, (shown (g c)).bind read) ∈ originEntries env ag au g → Shows (g c) (x.get? c) := by
      intro c k h1 h2
      rw [hpo c k h1]
      dsimp only
      rw [hO k _ h2]
      exact shows_shown _
    intro c hc
    rw [hg]
    simp only [List.mem_cons, List.not_mem_nil, or_false] at hc
    rcases hc with rfl | rfl | rfl | rfl | rfl | rfl | rfl | rfl
    · exact ho _ "originlatitudevalue" (by decide) (by simp [originEntries])
    · exact ho _ "originlongitudevalue" (by decide) (by simp [originEntries])
    · exact ho _ "origindepthvalue" (by decide) (by simp [originEntries])
    · rw [hpm "magnitude" "magnitudemagvalue" (by decide)]
      dsimp only
      rw [hM "magnitudemagvalue" ((shown (g "magnitude")).bind read) (by simp [magEntries])]
      exact shows_shown _
    · exact ho _ "originlatitudeuncertainty" (by decide) (by simp [originEntries])
    · exact ho _ "originlongitudeuncertainty" (by decide) (by simp [originEntries])
    · exact ho _ "origindepthuncertainty" (by decide) (by simp [originEntries])
    · rw [hpm "magnitude_uncertainty" "magnitudemaguncertainty" (by decide)]
      dsimp only
      rw [hM "magnitudemaguncertainty" ((shown (g "magnitude_uncertainty")).bind read) (by simp [magEntries])]
      exact shows_shown _
  · intro hq
    have ho : ∀ c k, (c, k) ∈ qualityColumns → (k, (shownInt env (g c)).bind read) ∈ originEntries env ag au g → Shows (intEntry env (g c)) (x.get? c) := by
      intro c k h1 h2
      rw [hpq c k h1]
      dsimp only
      rw [if_pos hq, hO k _ h2]
      exact shows_shownInt _ _
    intro c hc
    rw [hg]
    simp only [List.mem_cons, List.not_mem_nil, or_false] at hc
    rcases hc with rfl | rfl | rfl | rfl | rfl
    · exact ho _ "originqualityassociatedPhaseCount" (by decide) (by simp [originEntries])
    · exact ho _ "originqualityusedPhaseCount" (by decide) (by simp [originEntries])
    · exact ho _ "originqualityassociatedStationCount" (by decide) (by simp [originEntries])
    · exact ho _ "originqualityusedStationCount" (by decide) (by simp [originEntries])
    · exact ho _ "originqualitydepthPhaseCount" (by decide) (by simp [originEntries])
  · intro hq
    have ho : ∀ c k, (c, k) ∈ qualityColumns → (k, (shown (g c)).bind read) ∈ originEntries env ag au g → Shows (g c) (x.get? c) := by
      intro c k h1 h2
      rw [hpq c k h1]
      dsimp only
      rw [if_pos hq, hO k _ h2]
      exact shows_shown _
    intro c hc
    rw [hg]
    simp only [List.mem_cons, List.not_mem_nil, or_false] at hc
    rcases hc with rfl | rfl | rfl | rfl | rfl | rfl
    · exact ho _ "originqualitystandardError" (by decide) (by simp [originEntries])
    · exact ho _ "originqualityazimuthalGap" (by decide) (by simp [originEntries])
    · exact ho _ "originqualitysecondaryAzimuthalGap" (by decide) (by simp [originEntries])
    · exact ho _ "originqualitymaximumDistance" (by decide) (by simp [originEntries])
    · exact ho _ "originqualityminimumDistance" (by decide) (by simp [originEntries])
    · exact ho _ "originqualitymedianDistance" (by decide) (by simp [originEntries])
  · have lo : ∀ c k, (c, k) ∈ originColumns → k ∉ originNames → x.get? c = none := by
      intro c k h1 h2
      rw [hpo c k h1]
      dsimp only
      rw [holds_absent ho0 k h2]
      rfl
    have lm : ∀ c k, (c, k) ∈ magnitudeColumns → k ∉ magNames → x.get? c = none := by
      intro c k h1 h2
      rw [hpm c k h1]
      dsimp only
      rw [holds_absent hm0 k h2]
      rfl
    intro v hv s hs
    simp only [List.mem_cons, List.not_mem_nil, or_false] at hv hs
    rcases hv with rfl | rfl | rfl | rfl | rfl <;> rcases hs with rfl | rfl | rfl
    · exact lo "time_lowerUncertainty" "origintimelowerUncertainty" (by decide) (by decide)
    · exact lo "time_upperUncertainty" "origintimeupperUncertainty" (by decide) (by decide)
    · exact lo "time_confidenceLevel" "origintimeconfidenceLevel" (by decide) (by decide)
    · exact lo "latitude_lowerUncertainty" "originlatitudelowerUncertainty" (by decide) (by decide)
    · exact lo "latitude_upperUncertainty" "originlatitudeupperUncertainty" (by decide) (by decide)
    · exact lo "latitude_confidenceLevel" "originlatitudeconfidenceLevel" (by decide) (by decide)
    · exact lo "longitude_lowerUncertainty" "originlongitudelowerUncertainty" (by decide) (by decide)
    · exact lo "longitude_upperUncertainty" "originlongitudeupperUncertainty" (by decide) (by decide)
    · exact lo "longitude_confidenceLevel" "originlongitudeconfidenceLevel" (by decide) (by decide)
    · exact lo "depth_lowerUncertainty" "origindepthlowerUncertainty" (by decide) (by decide)
    · exact lo "depth_upperUncertainty" "origindepthupperUncertainty" (by decide) (by decide)
    · exact lo "depth_confidenceLevel" "origindepthconfidenceLevel" (by decide) (by decide)
    · exact lm "magnitude_lowerUncertainty" "magnitudemaglowerUncertainty" (by decide) (by decide)
    · exact lm "magnitude_upperUncertainty" "magnitudemagupperUncertainty" (by decide) (by decide)
    · exact lm "magnitude_confidenceLevel" "magnitudemagconfidenceLevel" (by decide) (by decide)
  · intro ha s hs
    rw [hg, hpg]
    have h3 := (C48_secondary penv hperm own [o0] (m0 :: ms) all quality x honly hplain hx (some m0) hispref pt hptp).2.2.1 ha m0 rfl htype0
    simp only [List.mem_cons, List.not_mem_nil, or_false] at hs
    rcases hs with rfl | rfl
    · rw [String.append_empty, h3 ("magnitude_" ++ pt) "magnitudemagvalue" (by simp [secondaryColumns]), String.append_empty,
        hpm "magnitude" "magnitudemagvalue" (by decide)]
    · rw [h3 ("magnitude_" ++ pt ++ "_uncertainty") "magnitudemaguncertainty" (by simp [secondaryColumns]),
        show "magnitude" ++ "_uncertainty" = "magnitude_uncertainty" from rfl, hpm "magnitude_uncertainty" "magnitudemaguncertainty" (by decide)]
  · intro ha t ht hne hs
    rw [hg, hpg] at hne hs ⊢
    obtain ⟨e, he⟩ := Option.ne_none_iff_exists'.1 ((hex t ht).2 hs)
    obtain ⟨m, hm1, hm2⟩ := (withType_entries ms sec _ hF hms hwf t).2 e he
    obtain ⟨m', hl, hcol'⟩ := (C48_secondary penv hperm own [o0] (m0 :: ms) all quality x honly hplain hx (some m0) hispref t
      (plainType_of_good (hstd.1 t ht))).2.2.2 ha (by rw [hwt t hne, hm1]; simp) (by
        intro m hm
        cases hm
        rw [htype0]
        intro hc
        cases hc
        exact hne rfl)
    have hmm : m' = m := by
      rw [hwt t hne, hm1] at hl
      obtain ⟨pre, post, h1, _⟩ := hl
      have : m' ∈ [m] := by rw [h1]; simp
      exact List.mem_singleton.1 this
    subst hmm
    have hv : ∀ k v, (k, v) ∈ magEntries ag au (plainText (e.get? "magnitude_magnitudeID")) (shown (e.get? "magnitude"))
        (shown (e.get? "magnitude_uncertainty")) t (plainText (g "originID")) → Dict.get? m' k = v :=
      fun k v h => holds_flat hm2 (mag_nodup _ _ _ _ _ _ _) k v h
    have hsh : ∀ o : Option String, shown (o.map Cell.val) = o := fun o => by cases o <;> rfl
    have hpl : ∀ o : Option String, plainText (o.map Cell.val) = o.getD "" := fun o => by cases o <;> rfl
    have e1 := hS t ht e he "" (by decide)
    have e2 := hS t ht e he "_uncertainty" (by decide)
    have e3 := hS t ht e he "_magnitudeID" (by decide)
    rw [show "magnitude" ++ "" = "magnitude" from rfl] at e1
    rw [show "magnitude" ++ "_uncertainty" = "magnitude_uncertainty" from rfl] at e2
    rw [show "magnitude" ++ "_magnitudeID" = "magnitude_magnitudeID" from rfl] at e3
    refine ⟨?_, ?_⟩
    · intro s hs'
      simp only [List.mem_cons, List.not_mem_nil, or_false] at hs'
      rcases hs' with rfl | rfl
      · rw [← hsh (secText f r pt ("magnitude_" ++ t ++ "")), ← e1, String.append_empty,
          hcol' ("magnitude_" ++ t) "magnitudemagvalue" (by simp [secondaryColumns]), hv "magnitudemagvalue" ((shown (e.get? "magnitude")).bind read) (by simp [magEntries])]
      · rw [← hsh (secText f r pt ("magnitude_" ++ t ++ "_uncertainty")), ← e2,
          hcol' ("magnitude_" ++ t ++ "_uncertainty") "magnitudemaguncertainty" (by simp [secondaryColumns]),
          hv "magnitudemaguncertainty" ((shown (e.get? "magnitude_uncertainty")).bind read) (by simp [magEntries])]
    · rw [← hpl, ← e3, hcol' ("magnitude_" ++ t ++ "_magnitudeID") "magnitudepublicID" (by simp [secondaryColumns]),
        hv "magnitudepublicID" (some (plainText (e.get? "magnitude_magnitudeID"))) (by simp [magEntries])]
      rfl
  · intro ha t ht hne hs
    rw [hg, hpg] at hne hs
    have hnone : sec.get? t = none := by
      by_contra hc
      obtain ⟨s, h1, h2⟩ := (hex t ht).1 hc
      exact h2 (hs s h1)
    have hw := (withType_entries ms sec _ hF hms hwf t).1 hnone
    have h2 := (C48_secondary penv hperm own [o0] (m0 :: ms) all quality x honly hplain hx (some m0) hispref t
      (plainType_of_good (hstd.1 t ht))).2.1 ha (by rw [hwt t hne, hw])
    intro s hss
    fin_cases hss
    · rw [String.append_empty]; exact h2 _ "magnitudemagvalue" (by simp [secondaryColumns])
    · exact h2 _ "magnitudemaguncertainty" (by simp [secondaryColumns])
    · exact h2 _ "magnitudemaglowerUncertainty" (by simp [secondaryColumns])
    · exact h2 _ "magnitudemagupperUncertainty" (by simp [secondaryColumns])
    · exact h2 _ "magnitudemagconfidenceLevel" (by simp [secondaryColumns])
    · exact h2 _ "magnitudepublicID" (by simp [secondaryColumns])

theorem mapM_forall₂ {α β γ : Type} {R : α → γ → Prop} (l : List α) (F : α → β) (G : β → Py γ) (h : ∀ a ∈ l, ∃ c, G (F a) = .ok c ∧ R a c) :
    ∃ r, (l.map F).mapM G = .ok r ∧ List.Forall₂ R l r := by
  induction l with
  | nil => exact ⟨[], rfl, .nil⟩
  | cons a l ih =>
    obtain ⟨c, h1, h2⟩ := h a (by simp)
    obtain ⟨r, h3, h4⟩ := ih fun b hb => h b (by simp [hb])
    refine ⟨c :: r, ?_, .cons h2 h4⟩
    rw [List.map_cons, List.mapM_cons, h1, h3]
    rfl

theorem document_ok (env : Quakeml.Env) (ag au : String) (f : Frame Cell) : ∀ p ∈ document (events env ag au f), p.Ok := by
  intro p hp
  unfold document at hp
  simp only [List.mem_append, List.mem_cons, List.not_mem_nil, or_false, List.mem_map] at hp
  rcases hp with ((rfl | rfl) | ⟨e, he, rfl⟩) | (rfl | rfl)
  · simp [Part.Ok, Outside]
  · simp [Part.Ok, Outside]
  · rw [events_eq] at he
    obtain ⟨q, _, rfl⟩ := List.mem_map.1 he
    exact tree_plain _ _ _ _ _
  · simp [Part.Ok, Outside]
  · simp [Part.Ok, Outside]

/-- C52: reading the document that has been written gives, without an exception, one record for each row with
coordinates and time, in their order, with the contents of the row. -/
theorem C52_round_trip (env : Quakeml.Env) (penv : Parser.Env) (hperm : ∀ l, (penv.setOrder l).Perm l) (all quality : Bool) (ag au : String)
    (f : Frame Cell) (T : List String)
    (hcols : ∀ c ∈ ["longitude", "latitude", "depth", "time", "magnitude", "magnitude_type"], c ∈ f.cols)
    (hstd : Standard f.cols T) (hneat : ∀ t ∈ T, Neat t) (hread : ∀ p ∈ kept f, Readable env f T p.2 p.1) :
    ∃ doc recs, toQuakeml env ag au f = .ok doc ∧ Parser.parseFile penv all quality (docCalls doc) .complete = .ok recs ∧
      List.Forall₂ (fun p x => Back env all quality f T p.2 p.1 x) (kept f) recs := by
  obtain ⟨own, origins, mags, hholds, hparse⟩ := C47_document
  obtain ⟨recs, h1, h2⟩ := mapM_forall₂ (R := fun p x => Back env all quality f T p.2 p.1 x) (kept f) (treeOf env ag au f)
    (fun e => Parser.parseToDict penv (own e) (origins e) (mags e) all quality) (by
      intro p hp
      obtain ⟨g1, g2, g3⟩ := hholds (treeOf env ag au f p)
      exact row_back env penv hperm all quality ag au f T hstd hneat (hcols _ (by simp)) p.2 p.1 (hread p hp) _ _ _ g1 g2 g3)
  refine ⟨document (events env ag au f), recs, if_pos ((hasCols_iff catalogColumns _).2 hcols), ?_, h2⟩
  rw [hparse penv all quality _ (document_ok env ag au f), docEvents_document, events_eq]
  exact h1

/-- C52, defect: a secondary magnitude is lost when the type of the preferred magnitude occurs in its column name
(MLhc with preferred type ML; every secondary magnitude with preferred type m). -/
theorem C52_defect_contained (env : Quakeml.Env) (all quality : Bool) (f : Frame Cell) (T : List String) (i : ℕ) (r : String → Cell)
    (x : Parser.Rec) (hb : Back env all quality f T i r x) (ha : all = true) (t : String) (ht : t ∈ T)
    (hne : t ≠ plainText (entry env f i r "magnitude_type"))
    (hin : (plainText (entry env f i r "magnitude_type")).toList <:+: ("magnitude_" ++ t).toList) :
    ∀ s ∈ suffixes, x.get? ("magnitude_" ++ t ++ s) = none := by
  apply hb.absent ha t ht hne
  intro s _
  unfold secText
  rw [if_neg]
  rintro ⟨_, h⟩
  apply h
  rw [String.toList_append]
  exact hin.trans (List.prefix_append _ _).isInfix

/-- C52, defect: a row without magnitude type is written without its secondary magnitudes. -/
theorem C52_defect_missing_type (env : Quakeml.Env) (ag au : String) (f : Frame Cell) (i : ℕ) (r : String → Cell)
    (h : r "magnitude_type" = .nan ∨ r "magnitude_type" = .none) : (treeOf env ag au f (r, i)).magnitudes.length = 1 := by
  unfold treeOf
  rw [tree_magnitudes]
  have hw : ∀ m, written (withIds env f i r) m = false := by
    intro m
    have e : withIds env f i r "magnitude_type" = r "magnitude_type" := by
      unfold withIds
      rw [if_neg]
      rintro ⟨hc, _⟩
      revert hc
      decide
    unfold written
    rw [e]
    rcases h with h | h <;> rw [h]
  have hs : ∀ (ks : List String) (d : Dict (Dict Cell)), ks.foldl (fun d mag => if written (withIds env f i r) mag then
      setIn d (keyType mag) (keyName mag (keyType mag)) (withIds env f i r mag) else d) d = d := by
    intro ks
    induction ks with
    | nil => exact fun d => rfl
    | cons k ks ih =>
      intro d
      rw [List.foldl_cons, hw k]
      exact ih d
  have : secMags (keys f.cols) (withIds env f i r) = [] := hs _ _
  rw [this]
  rfl

/-! ### Forecast catalogues -/

/-- C52: the events are the content of one `eventParameters` element (with a public id) inside of one `q:quakeml` element, and nothing else is written. -/
theorem C52_wrapped {env : Quakeml.Env} {ag au : String} {f : Frame Cell} {doc : List Part} (h : toQuakeml env ag au f = .ok doc) :
    ∃ (evs : List Event) (pid : String), doc = .other (.start "q:quakeml" none) :: .other (.start "eventParameters" (some pid)) ::
      (evs.map .event ++ [.other (.stop "eventParameters"), .other (.stop "q:quakeml")]) := by
  unfold toQuakeml at h
  split at h
  · injection h with h
    exact ⟨_, _, h.symm⟩
  · cases h

/-- C52: a forecast catalogue without one of its columns can not be written (AttributeError). -/
theorem C52_forecast_refused (env : ℕ → Quakeml.Env) (ag au : String) (cid : (String → Cell) → Option ℤ) (f : Frame Cell)
    (hcol : ∃ c ∈ ["longitude", "latitude", "depth", "time", "magnitude", "magnitude_type", "catalog_id"], c ∉ f.cols) : toQuakemls env ag au cid f = .error .attributeError := by
  obtain ⟨c, hc, hn⟩ := hcol
  unfold toQuakemls
  rw [if_neg]
  rw [hasCols_iff]
  have : ∀ c ∈ ["longitude", "latitude", "depth", "time", "magnitude", "magnitude_type", "catalog_id"], c ∈ catalogColumns ++ ["catalog_id"] := by decide
  exact fun h => hn (h c (this c hc))

/-- C52: a forecast catalogue gives one document for each catalogue number that occurs, in ascending order. The events of each
document are those of the rows with that number; rows without a number are in no document. -/
theorem C52_forecast (env : ℕ → Quakeml.Env) (ag au : String) (cid : (String → Cell) → Option ℤ) (f : Frame Cell)
    (hcols : ∀ c ∈ ["longitude", "latitude", "depth", "time", "magnitude", "magnitude_type", "catalog_id"], c ∈ f.cols) :
    ∃ (docs : List (List Part)) (ks : List ℤ), toQuakemls env ag au cid f = .ok docs ∧ ks.Pairwise (· < ·) ∧
      (∀ k : ℤ, k ∈ ks ↔ ∃ r ∈ f.rows, cid r = some k) ∧ docs.length = ks.length ∧
      ∀ (j : ℕ) (k : ℤ) (doc : List Part), ks[j]? = some k → docs[j]? = some doc →
        toQuakeml (env j) ag au ⟨f.cols, f.rows.filter fun r => decide (cid r = some k)⟩ = .ok doc := by
  let ks := groupKeys (f.rows.map cid)
  have hmem : ∀ k : ℤ, k ∈ ks ↔ ∃ r ∈ f.rows, cid r = some k := by
    intro k
    simp only [ks, groupKeys, List.mem_insertionSort, List.mem_dedup, List.mem_filterMap, List.mem_map, id]
    constructor
    · rintro ⟨o, ⟨r, hr, rfl⟩, ho⟩
      exact ⟨r, hr, ho⟩
    · rintro ⟨r, hr, h⟩
      exact ⟨_, ⟨r, hr, rfl⟩, h⟩
  have hsorted : ks.Pairwise (· < ·) := by
    have h1 : ks.Pairwise (· ≤ ·) := List.pairwise_insertionSort _ _
    have h2 : ks.Nodup := (List.perm_insertionSort (· ≤ ·) _).nodup_iff.2 (List.nodup_dedup _)
    exact (h1.and h2).imp fun h => lt_of_le_of_ne h.1 h.2
  have hc7 : ∀ j rows, toQuakeml (env j) ag au ⟨f.cols, rows⟩ = .ok (document (events (env j) ag au ⟨f.cols, rows⟩)) := fun j rows =>
    if_pos ((hasCols_iff catalogColumns _).2 fun c hc => hcols c (by
      have : ∀ c ∈ catalogColumns, c ∈ ["longitude", "latitude", "depth", "time", "magnitude", "magnitude_type", "catalog_id"] := by decide
      exact this c hc))
  have hall : ∀ l : List (ℕ × List (String → Cell)), (l.mapM fun p => toQuakeml (env p.1) ag au { f with rows := p.2 }) =
      .ok (l.map fun p => document (events (env p.1) ag au ⟨f.cols, p.2⟩)) := by
    intro l
    induction l with
    | nil => rfl
    | cons p l ih =>
      rw [List.mapM_cons, ih]
      have : toQuakeml (env p.1) ag au { f with rows := p.2 } = .ok (document (events (env p.1) ag au ⟨f.cols, p.2⟩)) := hc7 _ _
      rw [this]
      rfl
  refine ⟨((groups cid f.rows).mapIdx fun i g => (i, g)).map fun p => document (events (env p.1) ag au ⟨f.cols, p.2⟩), ks, ?_, hsorted, hmem, ?_, ?_⟩
  · unfold toQuakemls
    rw [if_pos, hall]
    rw [hasCols_iff]
    intro c hc
    apply hcols
    have : ∀ c ∈ catalogColumns ++ ["catalog_id"], c ∈ ["longitude", "latitude", "depth", "time", "magnitude", "magnitude_type", "catalog_id"] := by decide
    exact this c hc
  · simp [groups, ks]
  · intro j k doc hk hd
    rw [hc7]
    rw [List.getElem?_map, List.getElem?_mapIdx] at hd
    unfold groups at hd
    rw [List.getElem?_map] at hd
    have hk' : (groupKeys (f.rows.map cid))[j]? = some k := hk
    rw [hk'] at hd
    simp only [Option.map_some, Option.some.injEq] at hd
    rw [← hd]

/-! ### A catalogue -/

/-- A catalogue with two rows; the second has no time. The preferred magnitude is ML. -/
def quakeCat : Frame Cell :=
  { cols := ["longitude", "latitude", "depth", "time", "magnitude", "magnitude_type", "magnitude_uncertainty", "magnitude_MLhc", "magnitude_Mw",
      "magnitude_Mw_uncertainty"]
    rows := [fun c => if c = "magnitude_type" then .val "ML" else if c = "depth" then .nan else if c = "magnitude_Mw" then .val "2.3" else .val "1.5",
      fun c => if c = "time" then .nan else .val "1"] }

/-- Random identifiers and formats. -/
def quakeEnv : Quakeml.Env := ⟨fun c i => c ++ toString i, fun s => s ++ "Z", id⟩

/-- The hypotheses of the theorems are met: one of the rows is written; MLhc is lost with its column name. -/
example : (∀ c ∈ ["longitude", "latitude", "depth", "time", "magnitude", "magnitude_type"], c ∈ quakeCat.cols) ∧
    Standard quakeCat.cols ["MLhc", "Mw"] ∧ (∀ t ∈ ["MLhc", "Mw"], Neat t) ∧ (kept quakeCat).length = 1 ∧
    (∀ p ∈ kept quakeCat, Readable quakeEnv quakeCat ["MLhc", "Mw"] p.2 p.1) ∧
    ∀ p ∈ kept quakeCat, (plainText (entry quakeEnv quakeCat p.2 p.1 "magnitude_type")).toList <:+: ("magnitude_" ++ "MLhc").toList ∧
      secText quakeCat p.1 "ML" ("magnitude_" ++ "Mw" ++ "") = some "2.3" := by
  have hk : kept quakeCat = [(fun c => if c = "magnitude_type" then .val "ML" else if c = "depth" then .nan else if c = "magnitude_Mw" then .val "2.3" else .val "1.5", 0)] := by
    unfold kept quakeCat
    simp [List.zipIdx, Located]
  refine ⟨by decide, ⟨?_, ?_⟩, ?_, by rw [hk]; rfl, ?_, ?_⟩
  · intro t ht
    simp only [List.mem_cons, List.not_mem_nil, or_false] at ht
    rcases ht with rfl | rfl
    · exact ⟨by decide, by decide, by decide, by decide, by decide⟩
    · exact ⟨by decide, by decide, by decide, by decide, by decide⟩
  · decide
  · intro t ht
    simp only [List.mem_cons, List.not_mem_nil, or_false] at ht
    rcases ht with rfl | rfl <;> unfold Neat <;> decide
  · intro p hp
    rw [hk, List.mem_singleton] at hp
    subst hp
    refine ⟨?_, ?_, ⟨"ML", by simp, by unfold Neat; decide, by unfold PlainType; decide⟩, ?_⟩
    · have : entry quakeEnv quakeCat 0 (fun c => if c = "magnitude_type" then .val "ML" else if c = "depth" then .nan else if c = "magnitude_Mw" then .val "2.3" else .val "1.5") "originID" = some (.val "originID0") := by
        unfold entry
        rw [if_neg (by decide), if_pos (by decide)]
        rfl
      rw [this]
      unfold Neat
      decide
    · have : entry quakeEnv quakeCat 0 (fun c => if c = "magnitude_type" then .val "ML" else if c = "depth" then .nan else if c = "magnitude_Mw" then .val "2.3" else .val "1.5") "magnitudeID" = some (.val "magnitudeID0") := by
        unfold entry
        rw [if_neg (by decide), if_pos (by decide)]
        rfl
      rw [this]
      unfold Neat
      decide
    · intro t ht
      have : entry quakeEnv quakeCat 0 (fun c => if c = "magnitude_type" then .val "ML" else if c = "depth" then .nan else if c = "magnitude_Mw" then .val "2.3" else .val "1.5") "magnitudeID" = some (.val "magnitudeID0") := by
        unfold entry
        rw [if_neg (by decide), if_pos (by decide)]
        rfl
      rw [this]
      simp only [List.mem_cons, List.not_mem_nil, or_false] at ht
      rcases ht with rfl | rfl <;> decide
  · intro p hp
    rw [hk, List.mem_singleton] at hp
    subst hp
    refine ⟨?_, ?_⟩
    · rw [entry_col _ _ _ _ _ (by decide)]
      simp only [if_true, plainText]
      decide
    · unfold secText
      rw [if_pos ⟨by decide, by decide⟩]
      decide

/-- The hypothesis on identifiers is needed: with white space around the identifier, the origin is not found and the coordinates are lost. -/
theorem C52_defect_space (penv : Parser.Env) :
    ∃ doc recs x, toQuakeml quakeEnv "" "" ⟨["longitude", "latitude", "depth", "time", "magnitude", "magnitude_type", "originID"],
      [fun c => if c = "originID" then .val "o1 " else .val "5"]⟩ = .ok doc ∧
      Parser.parseFile penv false false (docCalls doc) .complete = .ok recs ∧ recs[0]? = some x ∧
      x.get? "latitude" = some none ∧ x.get? "magnitude" = some (some "5") := by
  refine ⟨_, _, _, rfl, rfl, rfl, ?_, ?_⟩ <;> rfl

end SeismoStats.Props
