import Verif.Proofs.XmlTwo
import Verif.Proofs.QuakemlText
namespace SeismoStats.XmlText
open SeismoStats SeismoStats.Catalog SeismoStats.Parser SeismoStats.Quakeml SeismoStats.Spec.Parser SeismoStats.Props
open Classical

/-- The content of an event before its last part. -/
def firstItems (env : Quakeml.Env) (ag au : String) (g : String → Option Cell) (sec : Dict (Dict Cell)) : List Item :=
  [.plain (.text (QuakemlText.nl 12) (QuakemlText.creationInfo 12 ag au (.text (QuakemlText.nl2 12) .nil))),
        QuakemlText.magnitudeItem ag au (show1 (g "magnitudeID")) (shown (g "magnitude")) (shown (g "magnitude_uncertainty"))
          (show1 (g "magnitude_type")) (show1 (g "originID")),
        .plain (.text (QuakemlText.nl2 12) .nil)] ++
      (sec.map (QuakemlText.secondaryItems ag au (show1 (g "originID")))).flatten ++
      [.plain (.text (QuakemlText.nl2 12) .nil),
       QuakemlText.originItem env ag au g]

/-- The last part of an event before its type. -/
def beforeType (o m : String) (k : Forest) : Forest :=
  .text (QuakemlText.nl2 12) (textElem "preferredOriginID" o (.text (QuakemlText.nl 12) (textElem "preferredMagnitudeID" m (.text (QuakemlText.nl 12) k))))

/-- The event with another content of its type. -/
def withType (env : Quakeml.Env) (ag au : String) (g : String → Option Cell) (sec : Dict (Dict Cell)) (k : Forest) : Event :=
  { id := some (show1 (g "eventID"))
    items := firstItems env ag au g sec ++
      [.plain (beforeType (show1 (g "originID")) (show1 (g "magnitudeID")) (.elem "type" none k (.text (QuakemlText.nl2 8) .nil)))] }

theorem tree_withType (env : Quakeml.Env) (ag au : String) (g : String → Option Cell) (sec : Dict (Dict Cell)) :
    QuakemlText.eventTree env ag au g sec = withType env ag au g sec (.text (show1 (g "event_type")).toList .nil) := by
  unfold QuakemlText.eventTree withType firstItems
  simp only [List.append_assoc, List.cons_append, List.nil_append]
  rfl

theorem withType_calls (env : Quakeml.Env) (ag au : String) (g : String → Option Cell) (sec : Dict (Dict Cell)) :
    ∃ X Z, ∀ k, (withType env ag au g sec k).calls = X ++ k.calls ++ .stop "type" :: Z := by
  refine ⟨.start "event" (some (show1 (g "eventID"))) :: (itemsCalls (firstItems env ag au g sec) ++
    ([.chars (QuakemlText.nl2 12), .start "preferredOriginID" none, .chars (show1 (g "originID")).toList, .stop "preferredOriginID", .chars (QuakemlText.nl 12),
      .start "preferredMagnitudeID" none, .chars (show1 (g "magnitudeID")).toList, .stop "preferredMagnitudeID", .chars (QuakemlText.nl 12), .start "type" none])),
    [.chars (QuakemlText.nl2 8), .stop "event"], ?_⟩
  intro k
  unfold withType Event.calls itemsCalls beforeType
  simp [Item.calls, Forest.calls, textElem]

theorem withType_plain (env : Quakeml.Env) (ag au : String) (g : String → Option Cell) (sec : Dict (Dict Cell)) (k : Forest) (hk : k.Plain) :
    (withType env ag au g sec k).Plain := by
  intro i hi
  unfold withType at hi
  rcases List.mem_append.1 hi with hi | hi
  · have := text_tree_plain env ag au g sec
    rw [tree_withType] at this
    exact this i (List.mem_append_left _ hi)
  · rw [List.mem_singleton] at hi
    subst hi
    exact text_plain' (QuakemlText.nl2 12) _ (textElem_plain _ _ _ (by decide) (text_plain' _ _ (textElem_plain _ _ _ (by decide)
      (text_plain' _ _ (elem_plain _ none _ _ (by decide) hk trivial)))))

theorem withType_own (env : Quakeml.Env) (ag au : String) (g : String → Option Cell) (sec : Dict (Dict Cell)) :
    ∃ A, ∀ k, (withType env ag au g sec k).own = A ++ k.texts "type".toList := by
  refine ⟨idText [] (some (show1 (g "eventID"))) ++ (((firstItems env ag au g sec).map Item.eventTexts).flatten ++
    (beforeType (show1 (g "originID")) (show1 (g "magnitudeID")) .nil).texts []), ?_⟩
  intro k
  have h1 : ∀ q : Forest, (beforeType (show1 (g "originID")) (show1 (g "magnitudeID")) q).texts [] =
      (beforeType (show1 (g "originID")) (show1 (g "magnitudeID")) .nil).texts [] ++ q.texts [] := by
    intro q
    generalize show1 (g "originID") = a
    generalize show1 (g "magnitudeID") = b
    unfold beforeType textElem
    have el : ∀ (tag : String) (id : Option String) (k r : Forest) (p : List Char), (Forest.elem tag id k r).texts p = k.texts (p ++ tag.toList) ++ r.texts p :=
      fun _ _ _ _ _ => rfl
    have en : ∀ p, Forest.nil.texts p = [] := fun _ => rfl
    rw [texts_nl2, texts_nl2]
    simp only [el, texts_nl, List.append_assoc]
    rw [en]
    rfl
  unfold withType Event.own
  dsimp only
  generalize firstItems env ag au g sec = F
  rw [List.map_append, List.flatten_append, List.append_assoc, List.append_assoc]
  congr 2
  rw [List.map_cons, List.map_nil, List.flatten_cons, List.flatten_nil, List.append_nil]
  show (beforeType _ _ _).texts [] = _
  rw [h1, Forest.texts, texts_nl2, Forest.texts, List.append_nil]
  rfl

theorem withType_origins (env : Quakeml.Env) (ag au : String) (g : String → Option Cell) (sec : Dict (Dict Cell)) (k k' : Forest) :
    (withType env ag au g sec k).origins = (withType env ag au g sec k').origins := by
  unfold withType Event.origins
  simp [Item.originTexts]

theorem withType_magnitudes (env : Quakeml.Env) (ag au : String) (g : String → Option Cell) (sec : Dict (Dict Cell)) (k k' : Forest) :
    (withType env ag au g sec k).magnitudes = (withType env ag au g sec k').magnitudes := by
  unfold withType Event.magnitudes
  simp [Item.magnitudeTexts]

theorem textAt_join (A : List (List Char × List Char)) (t a b : List Char) (k : String) : textAt (A ++ [(t, a), (t, b)]) k = textAt (A ++ [(t, a ++ b)]) k := by
  unfold textAt
  simp only [List.any_append, List.filter_append, List.map_append, List.flatten_append]
  by_cases h : t = k.toList
  · simp [h]
  · simp [h]

theorem strip_join {u v : List Char} (hu : strip u ≠ []) (hv : strip v ≠ []) : strip (strip u ++ strip v) = strip u ++ strip v := by
  obtain ⟨a, b, -, -, -, h1, -⟩ := strip_trimmed u
  obtain ⟨a', b', -, -, -, -, h2⟩ := strip_trimmed v
  have key := strip_eq_of (a := []) (b := []) (t := strip u ++ strip v) (by simp) (by simp) ?_ ?_
  · simpa using key
  · intro c hc
    rw [List.head?_append_of_ne_nil _ hu] at hc
    exact h1 c hc
  · intro c hc
    rw [List.getLast?_append_of_ne_nil _ hv] at hc
    exact h2 c hc

theorem withType_update (env : Quakeml.Env) (ag au : String) (g : String → Option Cell) (o : Option Cell) (sec : Dict (Dict Cell)) (k : Forest) :
    withType env ag au (Function.update g "event_type" o) sec k = withType env ag au g sec k := by
  have h : ∀ c, c ≠ "event_type" → Function.update g "event_type" o c = g c := fun c hc => Function.update_of_ne hc _ _
  unfold withType firstItems QuakemlText.originItem QuakemlText.quality
  simp only [h _ (show "eventID" ≠ "event_type" by decide), h _ (show "magnitudeID" ≠ "event_type" by decide), h _ (show "originID" ≠ "event_type" by decide),
    h _ (show "magnitude" ≠ "event_type" by decide), h _ (show "magnitude_uncertainty" ≠ "event_type" by decide), h _ (show "magnitude_type" ≠ "event_type" by decide),
    h _ (show "time" ≠ "event_type" by decide), h _ (show "longitude" ≠ "event_type" by decide), h _ (show "longitude_uncertainty" ≠ "event_type" by decide),
    h _ (show "latitude" ≠ "event_type" by decide), h _ (show "latitude_uncertainty" ≠ "event_type" by decide), h _ (show "evaluationmode" ≠ "event_type" by decide),
    h _ (show "depth" ≠ "event_type" by decide), h _ (show "depth_uncertainty" ≠ "event_type" by decide), h _ (show "associatedphasecount" ≠ "event_type" by decide),
    h _ (show "usedphasecount" ≠ "event_type" by decide), h _ (show "associatedstationcount" ≠ "event_type" by decide), h _ (show "usedstationcount" ≠ "event_type" by decide),
    h _ (show "depthphasecount" ≠ "event_type" by decide), h _ (show "standarderror" ≠ "event_type" by decide), h _ (show "azimuthalgap" ≠ "event_type" by decide),
    h _ (show "secondaryazimuthalgap" ≠ "event_type" by decide), h _ (show "maximumdistance" ≠ "event_type" by decide), h _ (show "minimumdistance" ≠ "event_type" by decide),
    h _ (show "mediandistance" ≠ "event_type" by decide)]

theorem entry_update (env : Quakeml.Env) (f : Frame Cell) (i : ℕ) (r : String → Cell) (hc : "event_type" ∈ f.cols) (x : Cell) :
    entry env f i (Function.update r "event_type" x) = Function.update (entry env f i r) "event_type" (some x) := by
  funext c
  by_cases h : c = "event_type"
  · subst h
    rw [entry, if_pos hc, Function.update_self, Function.update_self]
  · rw [Function.update_of_ne h]
    unfold entry
    rw [Function.update_of_ne h]

theorem secMags_congr (ks : List String) (r r' : String → Cell) (ht : r "magnitude_type" = r' "magnitude_type") (h : ∀ m ∈ ks, r m = r' m) : secMags ks r = secMags ks r' := by
  unfold secMags
  apply List.foldl_ext
  intro d m hm
  rw [h m hm]
  have : written r m = written r' m := by
    unfold written
    rw [ht, h m hm]
  rw [this]

theorem secMags_update (env : Quakeml.Env) (f : Frame Cell) (i : ℕ) (r : String → Cell) (x : Cell) :
    secMags (keys f.cols) (withIds env f i (Function.update r "event_type" x)) = secMags (keys f.cols) (withIds env f i r) := by
  have h : ∀ c, c ≠ "event_type" → withIds env f i (Function.update r "event_type" x) c = withIds env f i r c := by
    intro c hc
    unfold withIds
    rw [Function.update_of_ne hc]
  apply secMags_congr
  · exact h _ (by decide)
  · intro m hm
    apply h
    rintro rfl
    have := (List.mem_filter.1 hm).2
    revert this
    decide

/-- The event with the type in two texts holds the same as that of the row with the joined type. -/
theorem cut_holds (env : Quakeml.Env) (ag au : String) (f : Frame Cell) (r : String → Cell) (i : ℕ) (hc : "event_type" ∈ f.cols) (u v : List Char)
    (hu : strip u ≠ []) (hv : strip v ≠ []) :
    let e := withType env ag au (entry env f i r) (secMags (keys f.cols) (withIds env f i r)) (.text u (.text v .nil))
    let t := treeOf env ag au f (Function.update r "event_type" (.val (String.ofList (strip u ++ strip v))), i)
    Holds (dictOf e.own) t.own ∧ List.Forall₂ Holds (e.origins.map dictOf) t.origins ∧ List.Forall₂ Holds (e.magnitudes.map dictOf) t.magnitudes := by
  intro e t
  obtain ⟨t1, t2, t3⟩ := textOf_texts env ag au f (Function.update r "event_type" (.val (String.ofList (strip u ++ strip v))), i)
  have hT : textOf env ag au f (Function.update r "event_type" (.val (String.ofList (strip u ++ strip v))), i) =
      withType env ag au (entry env f i r) (secMags (keys f.cols) (withIds env f i r)) (.text (strip u ++ strip v) .nil) := by
    unfold textOf
    dsimp only
    rw [secMags_update, entry_update env f i r hc, tree_withType, withType_update, Function.update_self]
    simp only [show1, String.toList_ofList]
  rw [hT] at t1 t2 t3
  obtain ⟨A, hA⟩ := withType_own env ag au (entry env f i r) (secMags (keys f.cols) (withIds env f i r))
  refine ⟨?_, ?_, ?_⟩
  · intro k
    show (dictOf e.own).get? k = textAt t.own k
    rw [← t1, dictOf_holds e.own k, hA, hA]
    simp only [Forest.texts, if_neg hu, if_neg hv, strip_join hu hv, List.append_nil, List.singleton_append]
    have : strip u ++ strip v ≠ [] := by simp [hu]
    rw [if_neg this]
    exact textAt_join _ _ _ _ _
  · rw [← t2, withType_origins _ _ _ _ _ (.text (strip u ++ strip v) .nil) (.text u (.text v .nil))]
    exact List.forall₂_map_left_iff.2 (List.forall₂_same.2 fun x _ => dictOf_holds x)
  · rw [← t3, withType_magnitudes _ _ _ _ _ (.text (strip u ++ strip v) .nil) (.text u (.text v .nil))]
    exact List.forall₂_map_left_iff.2 (List.forall₂_same.2 fun x _ => dictOf_holds x)

/-- A document of which one value is cut by the end of a buffer is read like the document with two texts there. -/
theorem read_cut (env : Parser.Env) (all quality : Bool) {l1 l2 : List Event} {e e' : Event} (h : ∀ d ∈ l1 ++ e :: l2, Nice oneWord d.calls)
    (hp : ∀ d ∈ l1 ++ e' :: l2, d.Plain) (X Z : List Sax) (u v : List Char) (t : String) (he : e.calls = X ++ .chars (u ++ v) :: .stop t :: Z)
    (he' : e'.calls = X ++ .chars u :: .chars v :: .stop t :: Z) :
    ∃ b1 b2, b1 ++ b2 = QuakemlText.docText (l1 ++ e :: l2) ∧ readFile env all quality [b1, b2] = (l1 ++ e' :: l2).mapM (recOf env all quality) := by
  let P := (l1.map block).flatten ++ .chars QuakemlText.sep :: X
  let S := Z ++ .chars QuakemlText.sep :: ((l2.map block).flatten ++ [.chars QuakemlText.sep, .stop "eventParameters", .chars (QuakemlText.nl 0)])
  have hm : mid (l1 ++ e :: l2) = P ++ .chars (u ++ v) :: .stop t :: S := by
    unfold mid
    simp [block, he, P, S]
  have hm' : mid (l1 ++ e' :: l2) = P ++ .chars u :: .chars v :: .stop t :: S := by
    unfold mid
    simp [block, he', P, S]
  obtain ⟨b1, b2, hb, hend, hrun⟩ := read_two env all quality h P S u v t hm
  refine ⟨b1, b2, hb, ?_⟩
  have hall : headCalls ++ (P ++ .chars u :: .chars v :: .stop t :: S) ++ [.stop "q:quakeml"] = allCalls (l1 ++ e' :: l2) := by
    unfold allCalls
    rw [inner_mid, hm', List.append_assoc]
  have hdoc := run_doc env all quality (docParts (l1 ++ e' :: l2)) (docParts_ok _ hp) []
  rw [docParts_events, docParts_calls] at hdoc
  unfold readFile parseFile
  rw [hend, hrun, hall, hdoc]
  show _ = (l1 ++ e' :: l2).mapM (recOf env all quality)
  have : (fun e : Event => parseToDict env (dictOf e.own) (e.origins.map dictOf) (e.magnitudes.map dictOf) all quality) = recOf env all quality := rfl
  rw [this]
  cases (l1 ++ e' :: l2).mapM (recOf env all quality) with
  | error e => rfl
  | ok c => rfl

end SeismoStats.XmlText
