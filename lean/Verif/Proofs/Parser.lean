/-
Lemmas for C47: the SAX handler.
-/
import Verif.Model.Parser
import Verif.Spec.Parser

namespace SeismoStats.Parser
open SeismoStats SeismoStats.Spec.Parser

/-- The handler's state with records put in front. -/
def pushRecs (c : List Rec) (h : H) : H := { h with catalog := c ++ h.catalog }

theorem setter_push (c : List Rec) (h : H) (v : String) (add : List Char) :
    setter (pushRecs c h) v add = (setter h v add).map (pushRecs c) := by
  unfold setter pushRecs
  cases h.parent <;> dsimp only
  · rfl
  all_goals (generalize updLast _ _ = u; cases u <;> rfl)

theorem setId_push (c : List Rec) (h : H) (id : Option String) :
    setId (pushRecs c h) id = (setId h id).map (pushRecs c) := by
  cases id with
  | none => rfl
  | some v => exact setter_push c h v _

theorem start_push (c : List Rec) (h : H) (tag : String) (id : Option String) :
    startElement (pushRecs c h) tag id = (startElement h tag id).map (pushRecs c) := by
  unfold startElement
  split
  · exact setId_push c { h with parent := .event, location := [], event := h.event ++ [[]] } id
  split
  · exact setId_push c { h with parent := .origin, location := tag.toList, origin := h.origin ++ [[]] } id
  split
  · exact setId_push c { h with parent := .magnitude, location := tag.toList, magnitude := h.magnitude ++ [[]] } id
  · have : (pushRecs c h).parent = h.parent := rfl
    rw [this]
    by_cases hp : h.parent = .none <;> simp [hp] <;> rfl

theorem shorten_push (c : List Rec) (h : H) (tag : String) :
    shorten (pushRecs c h) tag = pushRecs c (shorten h tag) := by
  unfold shorten
  have : (pushRecs c h).parent = h.parent := rfl
  rw [this]
  by_cases hp : h.parent = .none <;> simp [hp] <;> rfl

theorem endEvent_push (env : Env) (all quality : Bool) (c : List Rec) (h : H) :
    endEvent env all quality (pushRecs c h) = (endEvent env all quality h).map (pushRecs c) := by
  unfold endEvent
  have h1 : (pushRecs c h).event = h.event := rfl
  have h2 : (pushRecs c h).origin = h.origin := rfl
  have h3 : (pushRecs c h).magnitude = h.magnitude := rfl
  have h4 : (pushRecs c h).catalog = c ++ h.catalog := rfl
  rw [h1, h2, h3, h4]
  cases h.event.getLast? with
  | none => rfl
  | some e =>
    dsimp only
    cases parseToDict env e h.origin h.magnitude all quality with
    | error e => rfl
    | ok r => simp [Except.map, pushRecs, List.append_assoc]

theorem step_push (env : Env) (all quality : Bool) (c : List Rec) (h : H) (x : Sax) :
    step env all quality (pushRecs c h) x = (step env all quality h x).map (pushRecs c) := by
  cases x with
  | start tag id => exact start_push c h tag id
  | stop tag =>
    simp only [step, endElement]
    split
    · exact endEvent_push env all quality c h
    split
    · exact congrArg Except.ok (shorten_push c { h with parent := .event } tag)
    · exact congrArg Except.ok (shorten_push c h tag)
  | chars s =>
    simp only [step, characters]
    have : (pushRecs c h).parent = h.parent := rfl
    rw [this]
    split
    · exact setter_push c h _ _
    · rfl

theorem run_push (env : Env) (all quality : Bool) (c : List Rec) (h : H) (xs : List Sax) :
    run env all quality (pushRecs c h) xs = (run env all quality h xs).map (pushRecs c) := by
  induction xs generalizing h with
  | nil => rfl
  | cons x r ih =>
    simp only [run, step_push]
    cases step env all quality h x with
    | error e => rfl
    | ok h' => exact ih h'

theorem run_append (env : Env) (all quality : Bool) (h : H) (xs ys : List Sax) :
    run env all quality h (xs ++ ys) =
      match run env all quality h xs with
      | .error e => .error e
      | .ok h' => run env all quality h' ys := by
  induction xs generalizing h with
  | nil => rfl
  | cons x r ih =>
    simp only [List.cons_append, run]
    cases step env all quality h x with
    | error e => rfl
    | ok h' => exact ih h'

/-- After the end of an event nothing is left but the records. -/
theorem run_event_end (env : Env) (all quality : Bool) (h h' : H) (xs : List Sax)
    (hr : run env all quality h (xs ++ [.stop "event"]) = .ok h') : h' = { catalog := h'.catalog } := by
  rw [run_append] at hr
  cases h1 : run env all quality h xs with
  | error e => rw [h1] at hr; cases hr
  | ok h2 =>
    rw [h1] at hr
    simp only [run, step, endElement, if_true, endEvent] at hr
    cases h3 : h2.event.getLast? with
    | none => rw [h3] at hr; cases hr
    | some e =>
      rw [h3] at hr
      simp only at hr
      cases h4 : parseToDict env e h2.origin h2.magnitude all quality with
      | error e => rw [h4] at hr; cases hr
      | ok r => rw [h4] at hr; cases hr; rfl

/-- Whether a call ends an event. -/
def isEnd : Sax → Bool
  | .stop tag => decide (tag = "event")
  | _ => false

theorem setter_catalog (h h' : H) (v : String) (add : List Char) (hs : setter h v add = .ok h') :
    h'.catalog = h.catalog := by
  unfold setter at hs
  revert hs
  cases h.parent <;> dsimp only
  · intro hs; cases hs
  all_goals (generalize updLast _ _ = u; cases u <;> intro hs <;> cases hs; rfl)

theorem step_count (env : Env) (all quality : Bool) (h h' : H) (x : Sax) (hs : step env all quality h x = .ok h') :
    h'.catalog.length = h.catalog.length + (if isEnd x then 1 else 0) := by
  cases x with
  | start tag id =>
    have key : ∀ (g : H) , setId g id = .ok h' → h'.catalog = g.catalog := by
      intro g hg
      cases id with
      | none => cases hg; rfl
      | some v => exact setter_catalog _ _ _ _ hg
    simp only [step, startElement] at hs
    simp only [isEnd, Bool.false_eq_true, if_false, Nat.add_zero]
    split at hs
    · rw [key _ hs]
    split at hs
    · rw [key _ hs]
    split at hs
    · rw [key _ hs]
    split at hs <;> cases hs <;> rfl
  | stop tag =>
    simp only [step, endElement] at hs
    by_cases ht : tag = "event"
    · simp only [ht, if_true, endEvent] at hs
      simp only [isEnd, ht, decide_true, if_true]
      revert hs
      cases h.event.getLast? with
      | none => intro hs; cases hs
      | some e =>
        dsimp only
        cases parseToDict env e h.origin h.magnitude all quality with
        | error e => intro hs; cases hs
        | ok r => intro hs; cases hs; simp
    · have hsh : ∀ g : H, (shorten g tag).catalog = g.catalog := by
        intro g; unfold shorten; split <;> rfl
      simp only [ht, if_false] at hs
      simp only [isEnd, ht, decide_false, Bool.false_eq_true, if_false, Nat.add_zero]
      split at hs <;> cases hs <;> rw [hsh]
  | chars s =>
    simp only [step, characters] at hs
    simp only [isEnd, Bool.false_eq_true, if_false, Nat.add_zero]
    split at hs
    · rw [setter_catalog _ _ _ _ hs]
    · cases hs; rfl

theorem run_count (env : Env) (all quality : Bool) (h h' : H) (xs : List Sax)
    (hr : run env all quality h xs = .ok h') :
    h'.catalog.length = h.catalog.length + xs.countP isEnd := by
  induction xs generalizing h with
  | nil => cases hr; simp
  | cons x r ih =>
    simp only [run] at hr
    cases hs : step env all quality h x with
    | error e => rw [hs] at hr; cases hr
    | ok h1 =>
      rw [hs] at hr
      rw [ih h1 hr, step_count env all quality h h1 x hs, List.countP_cons]
      omega

/-! ### Dictionaries under construction -/

/-- Append a text at a path. -/
def addText (d : Elem) (p : List Char × List Char) : Elem :=
  d.set (String.ofList p.1) (((d.get? (String.ofList p.1)).getD "") ++ String.ofList p.2)

theorem setVal_eq (d : Elem) (loc : List Char) (v : List Char) :
    setVal d loc [] (String.ofList v) = .ok (addText d (loc, v)) := by
  unfold setVal addText
  rw [List.append_nil]
  unfold Dict.has
  cases h : Dict.get? d (String.ofList loc) with
  | none => simp
  | some w => simp

theorem textAt_append_single (l : List (List Char × List Char)) (p : List Char × List Char) (k : String) :
    textAt (l ++ [p]) k = if p.1 = k.toList then some ((textAt l k).getD "" ++ String.ofList p.2) else textAt l k := by
  unfold textAt
  by_cases hp : p.1 = k.toList
  · by_cases hl : (l.any fun p => decide (p.1 = k.toList)) = true
    · have h1 : ((l ++ [p]).any fun p => decide (p.1 = k.toList)) = true := by simp [hp]
      simp only [h1, hl, if_true, hp, Option.getD_some, List.filter_append, List.map_append,
        List.flatten_append, String.ofList_append]
      simp [hp]
    · have h1 : ((l ++ [p]).any fun p => decide (p.1 = k.toList)) = true := by simp [hp]
      have h2 : (l.filter fun p => decide (p.1 = k.toList)) = [] := by
        rw [List.filter_eq_nil_iff]
        intro a ha hc
        exact hl (List.any_eq_true.2 ⟨a, ha, hc⟩)
      have hl' : (l.any fun p => decide (p.1 = k.toList)) = false := Bool.eq_false_iff.2 hl
      simp only [h1, hl', if_true, hp, List.filter_append, h2]
      simp [hp]
  · have h1 : ((l ++ [p]).any fun p => decide (p.1 = k.toList)) = (l.any fun p => decide (p.1 = k.toList)) := by
      simp [hp]
    rw [h1]
    simp [hp, List.filter_append]

theorem holds_addText (d : Elem) (l : List (List Char × List Char)) (p : List Char × List Char) (h : Holds d l) :
    Holds (addText d p) (l ++ [p]) := by
  intro k
  rw [textAt_append_single, addText, Dict.get?_set, h k, h (String.ofList p.1)]
  by_cases hk : p.1 = k.toList
  · have : String.ofList p.1 = k := by rw [hk, String.ofList_toList]
    simp [hk]
  · have : String.ofList p.1 ≠ k := by
      intro hc; apply hk; rw [← hc, String.toList_ofList]
    simp [hk, this]

theorem holds_foldl (d : Elem) (l m : List (List Char × List Char)) (h : Holds d l) :
    Holds (m.foldl addText d) (l ++ m) := by
  induction m generalizing d l with
  | nil => simpa using h
  | cons p r ih =>
    have := ih (addText d p) (l ++ [p]) (holds_addText d l p h)
    simpa using this

theorem holds_nil : Holds [] [] := fun _ => rfl

/-! ### Runs over the content of an event -/

/-- The dictionary that texts are written to. -/
def onLast (l : List Elem) (ts : List (List Char × List Char)) : List Elem :=
  match l.getLast? with
  | none => l
  | some d => l.dropLast ++ [ts.foldl addText d]

/-- The state after the given texts. -/
def writeTexts (h : H) (ts : List (List Char × List Char)) : H :=
  match h.parent with
  | .none => h
  | .event => { h with event := onLast h.event ts }
  | .origin => { h with origin := onLast h.origin ts }
  | .magnitude => { h with magnitude := onLast h.magnitude ts }

/-- There is a dictionary to write to. -/
def Ready (h : H) : Prop :=
  match h.parent with
  | .none => False
  | .event => h.event ≠ []
  | .origin => h.origin ≠ []
  | .magnitude => h.magnitude ≠ []

theorem onLast_nil (l : List Elem) : onLast l [] = l := by
  unfold onLast
  cases h : l.getLast? with
  | none => rfl
  | some d =>
    simp only [List.foldl_nil]
    exact List.dropLast_append_getLast? d (by rw [h]; rfl)

theorem onLast_append (l : List Elem) (a b : List (List Char × List Char)) :
    onLast l (a ++ b) = onLast (onLast l a) b := by
  unfold onLast
  cases h : l.getLast? with
  | none => simp [h]
  | some d => simp [List.foldl_append]

theorem onLast_ne (l : List Elem) (a : List (List Char × List Char)) (h : l ≠ []) : onLast l a ≠ [] := by
  unfold onLast
  cases l.getLast? with
  | none => exact h
  | some d => simp

theorem onLast_snoc (l : List Elem) (d : Elem) (a : List (List Char × List Char)) :
    onLast (l ++ [d]) a = l ++ [a.foldl addText d] := by
  simp [onLast]

theorem writeTexts_parent (h : H) (ts : List (List Char × List Char)) : (writeTexts h ts).parent = h.parent := by
  unfold writeTexts; split <;> simp_all

theorem writeTexts_location (h : H) (ts : List (List Char × List Char)) : (writeTexts h ts).location = h.location := by
  unfold writeTexts; split <;> simp_all

theorem writeTexts_nil (h : H) : writeTexts h [] = h := by
  unfold writeTexts
  split <;> simp only [onLast_nil]

theorem writeTexts_append (h : H) (a b : List (List Char × List Char)) :
    writeTexts h (a ++ b) = writeTexts (writeTexts h a) b := by
  obtain ⟨c, e, o, m, p, l⟩ := h
  cases p <;> simp [writeTexts, onLast_append]

theorem writeTexts_setLoc (h : H) (a : List (List Char × List Char)) (loc : List Char) :
    writeTexts { h with location := loc } a = { writeTexts h a with location := loc } := by
  obtain ⟨c, e, o, m, p, l⟩ := h
  cases p <;> simp [writeTexts]

theorem writeTexts_ready (h : H) (a : List (List Char × List Char)) (hr : Ready h) : Ready (writeTexts h a) := by
  obtain ⟨c, e, o, m, p, l⟩ := h
  cases p <;> simp only [Ready, writeTexts] at hr ⊢
  all_goals exact onLast_ne _ _ hr

theorem ready_setLoc (h : H) (loc : List Char) (hr : Ready h) : Ready { h with location := loc } := hr

theorem ready_parent (h : H) (hr : Ready h) : h.parent ≠ .none := by
  intro hc; rw [Ready, hc] at hr; exact hr

theorem updLast_setVal (l : List Elem) (loc v : List Char) (hl : l ≠ []) :
    updLast l (fun d => setVal d loc [] (String.ofList v)) = .ok (onLast l [(loc, v)]) := by
  unfold updLast onLast
  cases h : l.getLast? with
  | none => rw [List.getLast?_eq_none_iff] at h; exact absurd h hl
  | some d => simp [setVal_eq]

theorem setter_eq (h : H) (v : List Char) (hr : Ready h) :
    setter h (String.ofList v) [] = .ok (writeTexts h [(h.location, v)]) := by
  obtain ⟨c, e, o, m, p, l⟩ := h
  cases p <;> simp only [Ready] at hr <;> simp only [setter, writeTexts, updLast_setVal _ _ _ hr]

/-- The texts a chunk contributes. -/
def chunkTexts (path s : List Char) : List (List Char × List Char) := if strip s = [] then [] else [(path, strip s)]

theorem characters_eq (h : H) (s : List Char) (hr : Ready h) :
    characters h s = .ok (writeTexts h (chunkTexts h.location s)) := by
  unfold characters chunkTexts
  by_cases hs : strip s = []
  · simp [hs, writeTexts_nil]
  · simp only [hs, ne_eq, not_false_eq_true, ready_parent h hr, and_self, if_true, if_false]
    exact setter_eq h _ hr

theorem cutEnd_append (a b : List Char) (hb : b ≠ []) : cutEnd (a ++ b) b.length = a := by
  unfold cutEnd
  have : b.length ≠ 0 := by simpa using hb
  simp [this]

theorem run_forest (env : Env) (all quality : Bool) (f : Forest) :
    ∀ (h : H), Ready h → f.Plain → run env all quality h f.calls = .ok (writeTexts h (f.texts h.location)) := by
  induction f with
  | nil => intro h _ _; rw [Forest.texts, writeTexts_nil]; rfl
  | text s r ih =>
    intro h hr hp
    rw [Forest.texts, Forest.calls, run, step, characters_eq h s hr]
    dsimp only
    rw [ih _ (writeTexts_ready _ _ hr) hp, writeTexts_location, writeTexts_append]
    rfl
  | elem tag id k r ihk ihr =>
    intro h hr hp
    obtain ⟨h1, h2, h3, h4, h5, h6⟩ := hp
    have hpar := ready_parent h hr
    have hst : startElement h tag id = .ok { h with location := h.location ++ tag.toList } := by
      simp [startElement, h1, h2, h3, hpar]
    rw [Forest.texts, Forest.calls, run, step, hst]
    dsimp only
    rw [run_append, ihk _ (ready_setLoc h _ hr) h5]
    dsimp only
    rw [run, step, writeTexts_setLoc]
    have hpar' : (writeTexts h (k.texts (h.location ++ tag.toList))).parent ≠ .none := by
      rw [writeTexts_parent]; exact hpar
    have hen : endElement env all quality { writeTexts h (k.texts (h.location ++ tag.toList)) with location := h.location ++ tag.toList } tag =
        .ok (writeTexts h (k.texts (h.location ++ tag.toList))) := by
      simp only [endElement, h1, h2, h3, if_false, or_self, shorten, ne_eq, hpar', not_false_eq_true, if_true,
        cutEnd_append _ _ h4]
      congr 1
      have := writeTexts_location h (k.texts (h.location ++ tag.toList))
      generalize writeTexts h (k.texts (h.location ++ tag.toList)) = g at this
      obtain ⟨c, e, o, m, p, l⟩ := g
      simp only at this
      rw [this]
    rw [hen]
    dsimp only
    rw [ihr _ (writeTexts_ready _ _ hr) h6, writeTexts_location, writeTexts_append]

/-- The state inside an event. -/
def inEvent (c : List Rec) (d : Elem) (os ms : List Elem) : H :=
  { catalog := c, event := [d], origin := os, magnitude := ms, parent := .event, location := [] }

/-- The dictionary made of texts. -/
def dictOf (l : List (List Char × List Char)) : Elem := l.foldl addText []

theorem dictOf_holds (l : List (List Char × List Char)) : Holds (dictOf l) l := by
  simpa [dictOf] using holds_foldl [] [] l holds_nil

theorem setVal_id (loc : List Char) (v : String) :
    setVal [] loc "publicID".toList v = .ok (dictOf (idText loc (some v))) := by
  simp [setVal, Dict.has, Dict.get?, idText, dictOf, addText]

theorem run_item (env : Env) (all quality : Bool) (i : Item) (hi : i.Plain) (c : List Rec) (d : Elem) (os ms : List Elem) :
    run env all quality (inEvent c d os ms) i.calls =
      .ok (inEvent c (i.eventTexts.foldl addText d) (os ++ i.originTexts.map dictOf) (ms ++ i.magnitudeTexts.map dictOf)) := by
  cases i with
  | plain f =>
    have := run_forest env all quality f (inEvent c d os ms) (by simp [Ready, inEvent]) hi
    simp only [Item.calls, this, Item.eventTexts, Item.originTexts, Item.magnitudeTexts, List.map_nil, List.append_nil]
    simp [writeTexts, inEvent, onLast]
  | origin id f =>
    have hst : startElement (inEvent c d os ms) "origin" id = .ok { inEvent c d os ms with
        parent := .origin, location := "origin".toList, origin := os ++ [dictOf (idText "origin".toList id)] } := by
      cases id with
      | none => simp [startElement, setId, inEvent, idText, dictOf]
      | some v =>
        have hu : updLast (os ++ [[]]) (fun d => setVal d "origin".toList "publicID".toList v) =
            .ok (os ++ [dictOf (idText "origin".toList (some v))]) := by
          simp only [updLast, List.getLast?_append, List.getLast?_singleton, Option.some_or, setVal_id,
            List.dropLast_concat]
        simp only [startElement, setId, inEvent, setter, hu]
        simp
    have hrun := run_forest env all quality f { inEvent c d os ms with
        parent := .origin, location := "origin".toList, origin := os ++ [dictOf (idText "origin".toList id)] }
        (by simp [Ready]) hi
    rw [Item.calls, run, step, hst]
    dsimp only
    rw [run_append, hrun]
    have hen : ∀ g : H, g.parent = .origin → g.location = "origin".toList →
        run env all quality g [.stop "origin"] = .ok { g with parent := .event, location := [] } := by
      intro g h1 h2
      simp [run, step, endElement, shorten, h2, cutEnd]
    dsimp only
    rw [hen _ (by rw [writeTexts_parent]) (by rw [writeTexts_location])]
    simp only [Item.eventTexts, Item.originTexts, Item.magnitudeTexts, List.map_nil, List.append_nil, List.foldl_nil,
      List.map_cons, writeTexts, onLast_snoc, inEvent, dictOf, List.foldl_append]
  | magnitude id f =>
    have hst : startElement (inEvent c d os ms) "magnitude" id = .ok { inEvent c d os ms with
        parent := .magnitude, location := "magnitude".toList, magnitude := ms ++ [dictOf (idText "magnitude".toList id)] } := by
      cases id with
      | none => simp [startElement, setId, inEvent, idText, dictOf]
      | some v =>
        have hu : updLast (ms ++ [[]]) (fun d => setVal d "magnitude".toList "publicID".toList v) =
            .ok (ms ++ [dictOf (idText "magnitude".toList (some v))]) := by
          simp only [updLast, List.getLast?_append, List.getLast?_singleton, Option.some_or, setVal_id,
            List.dropLast_concat]
        simp only [startElement, setId, inEvent, setter, hu]
        simp
    have hrun := run_forest env all quality f { inEvent c d os ms with
        parent := .magnitude, location := "magnitude".toList, magnitude := ms ++ [dictOf (idText "magnitude".toList id)] }
        (by simp [Ready]) hi
    rw [Item.calls, run, step, hst]
    dsimp only
    rw [run_append, hrun]
    have hen : ∀ g : H, g.parent = .magnitude → g.location = "magnitude".toList →
        run env all quality g [.stop "magnitude"] = .ok { g with parent := .event, location := [] } := by
      intro g h1 h2
      simp [run, step, endElement, shorten, h2, cutEnd]
    dsimp only
    rw [hen _ (by rw [writeTexts_parent]) (by rw [writeTexts_location])]
    simp only [Item.eventTexts, Item.originTexts, Item.magnitudeTexts, List.map_nil, List.append_nil, List.foldl_nil,
      List.map_cons, writeTexts, onLast_snoc, inEvent, dictOf, List.foldl_append]

theorem run_items (env : Env) (all quality : Bool) (l : List Item) (hl : ∀ i ∈ l, i.Plain) (c : List Rec) (d : Elem)
    (os ms : List Elem) :
    run env all quality (inEvent c d os ms) (itemsCalls l) =
      .ok (inEvent c ((l.map Item.eventTexts).flatten.foldl addText d)
        (os ++ ((l.map Item.originTexts).flatten.map dictOf)) (ms ++ ((l.map Item.magnitudeTexts).flatten.map dictOf))) := by
  induction l generalizing d os ms with
  | nil => simp [itemsCalls, run]
  | cons i r ih =>
    have : itemsCalls (i :: r) = i.calls ++ itemsCalls r := by simp [itemsCalls]
    rw [this, run_append, run_item env all quality i (hl i (by simp))]
    dsimp only
    rw [ih (fun j hj => hl j (by simp [hj]))]
    simp only [List.map_cons, List.flatten_cons, List.foldl_append, List.map_append, List.append_assoc]

theorem run_event_open (env : Env) (all quality : Bool) (e : Event) (c : List Rec) (l : List Item) (hl : ∀ i ∈ l, i.Plain) :
    run env all quality { catalog := c } (.start "event" e.id :: itemsCalls l) =
      .ok (inEvent c (dictOf (idText [] e.id ++ (l.map Item.eventTexts).flatten))
        ((l.map Item.originTexts).flatten.map dictOf) ((l.map Item.magnitudeTexts).flatten.map dictOf)) := by
  have hst : startElement { catalog := c } "event" e.id = .ok (inEvent c (dictOf (idText [] e.id)) [] []) := by
    cases e.id with
    | none => simp [startElement, setId, inEvent, idText, dictOf]
    | some v =>
      have hu : updLast ([[]] : List Elem) (fun d => setVal d [] "publicID".toList v) =
          .ok [dictOf (idText [] (some v))] := by
        simp only [updLast, List.getLast?_singleton, setVal_id, List.dropLast_singleton, List.nil_append]
      simp only [startElement, if_true, setId, setter, List.nil_append, hu]
      rfl
  rw [run, step, hst]
  dsimp only
  rw [run_items env all quality l hl]
  simp [dictOf]

theorem run_event (env : Env) (all quality : Bool) (e : Event) (he : e.Plain) (c : List Rec) :
    run env all quality { catalog := c } e.calls =
      match parseToDict env (dictOf e.own) (e.origins.map dictOf) (e.magnitudes.map dictOf) all quality with
      | .error x => .error x
      | .ok r => .ok { catalog := c ++ [r] } := by
  have := run_event_open env all quality e c e.items he
  rw [Event.calls, ← List.cons_append, run_append, this]
  simp only [run, step, endElement, if_true, endEvent, inEvent, List.getLast?_singleton, Event.own, Event.origins,
    Event.magnitudes]
  generalize parseToDict _ _ _ _ _ _ = q
  cases q <;> rfl

end SeismoStats.Parser
