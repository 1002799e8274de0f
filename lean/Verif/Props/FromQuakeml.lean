/-
Property C88: Catalog.from_dict and Catalog.from_quakeml, and the way from a catalogue to QuakeML and back.
-/
import Verif.Model.FromQuakeml
import Verif.Props.QuakemlText

namespace SeismoStats.Props
open SeismoStats SeismoStats.Catalog SeismoStats.Quakeml SeismoStats.Spec.Parser SeismoStats.FromQuakeml
open Classical

variable {K A : Type}

/-- Some record has an entry of the given name. -/
def SomeHas (l : List (Dict (Val K))) (c : String) : Prop := ∃ d ∈ l, ∃ v, (c, v) ∈ d

theorem convert_idem (toNumeric toTime : Val K → Val K) (h1 : ∀ v, toNumeric (toNumeric v) = toNumeric v) (h2 : ∀ v, toTime (toTime v) = toTime v) (c : String) (v : Val K) :
    convertCell toNumeric toTime c (convertCell toNumeric toTime c v) = convertCell toNumeric toTime c v := by
  unfold convertCell
  split_ifs
  · exact h1 v
  · exact h2 v
  · unfold cleanString
    cases v with
    | str s =>
      dsimp only
      by_cases hs : s ∈ nullStrings
      · rw [if_pos hs]
      · rw [if_neg hs]
        dsimp only
        rw [if_neg hs]
    | na => rfl
    | num x => rfl
    | time t => rfl
  · rfl

/-- All cells have been converted. -/
def Converted (conv : String → Val K → Val K) (f : Frame (Val K)) : Prop := ∀ r ∈ f.rows, ∀ c, conv c (r c) = r c

theorem convert_converted {conv : String → Val K → Val K} {f : Frame (Val K)} (h : Converted conv f) : f.convert conv = f := by
  unfold Frame.convert
  have : (f.rows.map fun r c => conv c (r c)) = f.rows := by
    conv_rhs => rw [← List.map_id f.rows]
    apply List.map_congr_left
    intro r hr
    funext c
    exact h r hr c
  rw [this]

theorem drop_converted {conv : String → Val K → Val K} {f : Frame (Val K)} (h : Converted conv f) (p : String → Bool) : Converted conv (f.drop p) := h

theorem construct_converted (toNumeric toTime : Val K → Val K) (h1 : ∀ v, toNumeric (toNumeric v) = toNumeric v) (h2 : ∀ v, toTime (toTime v) = toTime v)
    (d : Option (Frame (Val K))) : Converted (convertCell toNumeric toTime) (construct toNumeric toTime d) := by
  intro r hr c
  unfold construct at hr
  cases d with
  | none => cases hr
  | some f =>
    dsimp only at hr
    split at hr
    · cases hr
    · obtain ⟨r', _, rfl⟩ := List.mem_map.1 hr
      exact convert_idem toNumeric toTime h1 h2 c _

/-- A catalogue without attributes. -/
def Fresh (none : A) (o : Obj (Val K) A) : Prop := ∀ n, getAttr none o n = none

theorem getAttr_map (none : A) (l : List String) (n : String) : (Dict.get? (l.map fun m => (m, none)) n).getD none = none := by
  induction l with
  | nil => rfl
  | cons m l ih =>
    rw [List.map_cons]
    unfold Dict.get?
    by_cases h : m = n
    · rw [if_pos h]; rfl
    · rw [if_neg h]; exact ih

theorem getAttr_filterMap (none : A) (l : List String) (g : String → Option A) (hg : ∀ m a, g m = some a → a = none) (n : String) :
    (Dict.get? (l.filterMap fun m => (g m).map fun a => (m, a)) n).getD none = none := by
  induction l with
  | nil => rfl
  | cons m l ih =>
    rw [List.filterMap_cons]
    cases e : g m with
    | none => exact ih
    | some a =>
      dsimp only [Option.map]
      unfold Dict.get?
      by_cases h : m = n
      · rw [if_pos h, hg m a e]; rfl
      · rw [if_neg h]; exact ih

/-- Dropping columns of a catalogue (class found from the columns, nothing else is changed). -/
theorem unary_drop (conv : String → Val K → Val K) (none : A) (o : Obj (Val K) A) (hcls : o.cls ≠ .plain) (hconv : Converted conv o.frame) (hf : ∀ p ∈ o.attrs, p.2 = none)
    (p : String → Bool) : (unary conv none o (o.frame.drop p)).frame = o.frame.drop p ∧
      (unary conv none o (o.frame.drop p)).cls = classOf (o.frame.drop p).cols ∧ (∀ q ∈ (unary conv none o (o.frame.drop p)).attrs, q.2 = none) := by
  have hcon : constructor conv none o (o.frame.drop p) = newObj conv none (o.frame.drop p) := by
    unfold constructor
    cases e : o.cls <;> first | rfl | exact absurd e hcls
  have hget : ∀ n a, o.attrs.get? n = some a → a = none := by
    intro n a ha
    obtain ⟨q, hq, rfl⟩ : ∃ q ∈ o.attrs, q.2 = a := by
      generalize o.attrs = d at ha
      induction d with
      | nil => cases ha
      | cons q d ih =>
        unfold Dict.get? at ha
        by_cases h : q.1 = n
        · rw [if_pos h] at ha
          exact ⟨q, by simp, Option.some.inj ha⟩
        · rw [if_neg h] at ha
          obtain ⟨q', h1, h2⟩ := ih ha
          exact ⟨q', by simp [h1], h2⟩
    exact hf q hq
  unfold unary
  rw [hcon]
  unfold finalizeFrom newObj
  cases e : classOf (o.frame.drop p).cols with
  | plain => exact ⟨rfl, rfl, by simp⟩
  | catalog =>
    refine ⟨convert_converted (drop_converted hconv p), rfl, ?_⟩
    intro q hq
    dsimp only at hq
    obtain ⟨n, _, hn⟩ := List.mem_filterMap.1 hq
    split at hn
    · obtain ⟨a, ha, rfl⟩ := Option.map_eq_some_iff.1 hn
      exact hget n a ha
    · obtain ⟨a, ha, rfl⟩ := Option.map_eq_some_iff.1 hn
      have := getAttr_map none (metadata .catalog) n
      rw [ha] at this
      exact this
  | forecast =>
    refine ⟨convert_converted (drop_converted hconv p), rfl, ?_⟩
    intro q hq
    dsimp only at hq
    obtain ⟨n, _, hn⟩ := List.mem_filterMap.1 hq
    split at hn
    · obtain ⟨a, ha, rfl⟩ := Option.map_eq_some_iff.1 hn
      exact hget n a ha
    · obtain ⟨a, ha, rfl⟩ := Option.map_eq_some_iff.1 hn
      have := getAttr_map none (metadata .forecast) n
      rw [ha] at this
      exact this

theorem classOf_plain (cols : List String) : classOf cols = .plain ↔ "magnitude" ∉ cols := by
  rw [classOf_eq]
  by_cases h : "magnitude" ∈ cols <;> by_cases h2 : "catalog_id" ∈ cols <;> simp [h, h2]

theorem construct_magnitude (toNumeric toTime : Val K → Val K) (l : List (Dict (Val K))) :
    "magnitude" ∈ (construct toNumeric toTime (some (ofRecords .na l))).cols ↔ (∀ d ∈ l, d = []) ∨ SomeHas l "magnitude" := by
  have hc : (ofRecords (Val.na : Val K) l).cols = recordCols l := rfl
  have hnil : recordCols l = [] ↔ ∀ d ∈ l, d = [] := by
    constructor
    · intro h d hd
      by_contra hn
      obtain ⟨⟨k, v⟩, r, rfl⟩ := List.exists_cons_of_ne_nil hn
      have hk : k ∈ recordCols l := (recordCols_mem l k).2 ⟨_, hd, v, by simp⟩
      rw [h] at hk
      cases hk
    · intro h
      by_contra hn
      obtain ⟨k, hk⟩ := List.exists_mem_of_ne_nil _ hn
      obtain ⟨d, hd, v, hv⟩ := (recordCols_mem l k).1 hk
      rw [h d hd] at hv
      cases hv
  unfold construct
  dsimp only
  by_cases h : (ofRecords (Val.na : Val K) l).cols = []
  · rw [if_pos h]
    rw [hc, hnil] at h
    exact iff_of_true (by simp [catalogColumns]) (.inl h)
  · rw [if_neg h]
    show "magnitude" ∈ recordCols l ↔ _
    rw [recordCols_mem]
    rw [hc, hnil] at h
    simp [h, SomeHas]

/-- C88: `from_dict` raises exactly if both kinds of columns are to be dropped, and the records have entries but none has a magnitude (AttributeError);
otherwise it gives the content described in C49, without attributes. It is a catalogue if there is a magnitude, or if nothing is to be dropped. -/
theorem C88_from_dict (toNumeric toTime : Val K → Val K) (h1 : ∀ v, toNumeric (toNumeric v) = toNumeric v) (h2 : ∀ v, toTime (toTime v) = toTime v) (none : A)
    (l : List (Dict (Val K))) (u i : Bool) :
    ((u = false ∧ i = false ∧ (∃ d ∈ l, d ≠ []) ∧ ¬ SomeHas l "magnitude") → fromDictObj toNumeric toTime none l u i = .error .attributeError) ∧
    (¬ (u = false ∧ i = false ∧ (∃ d ∈ l, d ≠ []) ∧ ¬ SomeHas l "magnitude") → ∃ o, fromDictObj toNumeric toTime none l u i = .ok o ∧
      o.frame = fromDict toNumeric toTime l u i ∧ (∀ p ∈ o.attrs, p.2 = none) ∧
      (o.cls ≠ .plain ↔ (u = true ∧ i = true) ∨ (∀ d ∈ l, d = []) ∨ SomeHas l "magnitude")) := by
  have hm := construct_magnitude toNumeric toTime l
  have hconv := construct_converted toNumeric toTime h1 h2 (some (ofRecords .na l))
  have hneg : (∃ d ∈ l, d ≠ []) ∧ ¬ SomeHas l "magnitude" ↔ "magnitude" ∉ (construct toNumeric toTime (some (ofRecords .na l))).cols := by
    rw [hm]
    push Not
    rfl
  rw [← hm, hneg]
  clear hneg hm
  let o := newCatalog toNumeric toTime none l
  have ho1 : o.frame = construct toNumeric toTime (some (ofRecords .na l)) := rfl
  have ho2 : o.cls ≠ .plain := by
    show Cls.catalog ≠ .plain
    decide
  have ho3 : ∀ p ∈ o.attrs, p.2 = none := by
    intro p hp
    obtain ⟨n, _, rfl⟩ := List.mem_map.1 hp
    rfl
  obtain ⟨a1, a2, a3⟩ := unary_drop (convertCell toNumeric toTime) none o ho2 hconv ho3 isUncertainty
  obtain ⟨b1, b2, b3⟩ := unary_drop (convertCell toNumeric toTime) none o ho2 hconv ho3 isId
  have ka := (kept_required o.frame (c := "magnitude") (.inl rfl)).1
  have kb := (kept_required o.frame (c := "magnitude") (.inl rfl)).2
  have hdrop : ∀ q : Obj (Val K) A, q.cls ≠ .plain → dropIdsOf (convertCell toNumeric toTime) none q = .ok (dropIdsObj (convertCell toNumeric toTime) none q) := by
    intro q hq
    unfold dropIdsOf
    cases e : q.cls <;> first | rfl | exact absurd e hq
  have hplain : ∀ q : Obj (Val K) A, q.cls = .plain → dropIdsOf (convertCell toNumeric toTime) none q = .error .attributeError := by
    intro q hq
    unfold dropIdsOf
    rw [hq]
  generalize hF : construct toNumeric toTime (some (ofRecords .na l)) = F at *
  cases u <;> cases i
  · have e : fromDictObj toNumeric toTime none l false false = dropIdsOf (convertCell toNumeric toTime) none (dropUncertaintiesObj (convertCell toNumeric toTime) none o) := rfl
    rw [e]
    have hcl : (dropUncertaintiesObj (convertCell toNumeric toTime) none o).cls = .plain ↔ "magnitude" ∉ F.cols := by
      rw [show (dropUncertaintiesObj (convertCell toNumeric toTime) none o).cls = _ from a2, classOf_plain, ← ho1]
      exact not_congr ka
    constructor
    · intro h
      exact hplain _ (hcl.2 h.2.2)
    · intro h
      have hmag : "magnitude" ∈ F.cols := by
        by_contra hc
        exact h ⟨rfl, rfl, hc⟩
      have hnp : (dropUncertaintiesObj (convertCell toNumeric toTime) none o).cls ≠ .plain := fun hc => (hcl.1 hc) hmag
      have hconv2 : Converted (convertCell toNumeric toTime) (dropUncertaintiesObj (convertCell toNumeric toTime) none o).frame := by
        rw [show (dropUncertaintiesObj (convertCell toNumeric toTime) none o).frame = _ from a1]
        rw [ho1]
        exact drop_converted hconv _
      obtain ⟨c1, c2, c3⟩ := unary_drop (convertCell toNumeric toTime) none _ hnp hconv2 a3 isId
      refine ⟨_, hdrop _ hnp, ?_, c3, ?_⟩
      · refine c1.trans ?_
        rw [show (dropUncertaintiesObj (convertCell toNumeric toTime) none o).frame = _ from a1, ho1, ← hF]
        rfl
      · rw [show (dropIdsObj (convertCell toNumeric toTime) none (dropUncertaintiesObj (convertCell toNumeric toTime) none o)).cls = _ from c2, ne_eq, classOf_plain]
        have := (kept_required (dropUncertaintiesObj (convertCell toNumeric toTime) none o).frame (c := "magnitude") (.inl rfl)).2
        simp only [not_not, Bool.false_eq_true, false_and, false_or]
        refine this.trans ?_
        rw [show (dropUncertaintiesObj (convertCell toNumeric toTime) none o).frame = _ from a1, ← ho1]
        exact ka
  · refine ⟨fun h => absurd h.2.1 (by decide), fun _ => ⟨dropUncertaintiesObj (convertCell toNumeric toTime) none o, rfl, ?_, a3, ?_⟩⟩
    · refine a1.trans ?_
      rw [ho1, ← hF]
      rfl
    · rw [show (dropUncertaintiesObj (convertCell toNumeric toTime) none o).cls = _ from a2, ne_eq, classOf_plain, ← ho1]
      simp only [not_not, Bool.false_eq_true, false_and, false_or]
      exact ka
  · refine ⟨fun h => absurd h.1 (by decide), fun _ => ⟨_, hdrop o ho2, ?_, b3, ?_⟩⟩
    · refine b1.trans ?_
      rw [ho1, ← hF]
      rfl
    · rw [show (dropIdsObj (convertCell toNumeric toTime) none o).cls = _ from b2, ne_eq, classOf_plain, ← ho1]
      simp only [not_not, Bool.false_eq_true, and_false, false_or]
      exact kb
  · refine ⟨fun h => absurd h.1 (by decide), fun _ => ⟨o, rfl, ?_, ho3, ?_⟩⟩
    · rw [ho1, ← hF]
      rfl
    · exact iff_of_true ho2 (.inl ⟨rfl, rfl⟩)

/-! ### From a catalogue to QuakeML and back -/

/-- A text in a cell; a text that is not there is a missing cell. -/
def textCell (t : Option String) : Val K :=
  match t with
  | some t => .str t
  | none => .na

/-- The text of an entry in a cell: without surrounding white space; missing if there is no entry or it is NaN. -/
def cellOf (o : Option Cell) : Val K :=
  match o with
  | some (.val s) => textCell (Quakeml.read s)
  | some .none => .str "None"
  | _ => .na

/-- The row that is read for the row `r` at position `i`. -/
structure RowBack (toNumeric toTime : Val K → Val K) (env : Quakeml.Env) (all quality : Bool) (f : Frame Cell) (T : List String) (i : ℕ) (r : String → Cell)
    (row : String → Val K) : Prop where
  numbers : ∀ c ∈ ["latitude", "longitude", "depth", "magnitude"], row c = toNumeric (cellOf (entry env f i r c))
  time : row "time" = toTime (textCell (Quakeml.read (env.strftime (plainText (entry env f i r "time")))))
  magnitudeType : row "magnitude_type" = cleanString (.str (plainText (entry env f i r "magnitude_type")))
  eventType : row "event_type" = cleanString (textCell (Quakeml.read (plainText (entry env f i r "event_type"))))
  mode : row "evaluationmode" = textCell (Quakeml.read (plainText (entry env f i r "evaluationmode")))
  ids : ∀ c ∈ ["eventID", "originID", "magnitudeID"], row c = .str (plainText (entry env f i r c))
  uncertainties : ∀ c ∈ ["latitude_uncertainty", "longitude_uncertainty", "depth_uncertainty", "magnitude_uncertainty"], row c = cellOf (entry env f i r c)
  counts : quality = true → ∀ c ∈ ["associatedphasecount", "usedphasecount", "associatedstationcount", "usedstationcount", "depthphasecount"],
    row c = if c = "depthphasecount" then cellOf (intEntry env (entry env f i r c)) else toNumeric (cellOf (intEntry env (entry env f i r c)))
  quality : quality = true → ∀ c ∈ ["standarderror", "azimuthalgap", "secondaryazimuthalgap", "maximumdistance", "minimumdistance", "mediandistance"],
    row c = toNumeric (cellOf (entry env f i r c))
  preferred : all = true → ∀ s ∈ ["", "_uncertainty"], row ("magnitude_" ++ plainText (entry env f i r "magnitude_type") ++ s) = cellOf (entry env f i r ("magnitude" ++ s))
  secondary : all = true → ∀ t ∈ T, t ≠ plainText (entry env f i r "magnitude_type") → ∀ s ∈ ["", "_uncertainty"],
    row ("magnitude_" ++ t ++ s) = textCell ((secText f r (plainText (entry env f i r "magnitude_type")) ("magnitude_" ++ t ++ s)).bind Quakeml.read)

/-- The cell of a record. -/
theorem cells_get (x : Parser.Rec) (c : String) : ((Download.cells x : Dict (Val K)).get? c).getD .na = textCell ((x.get? c).join) := by
  unfold Download.cells
  induction x with
  | nil => rfl
  | cons p x ih =>
    rw [List.map_cons]
    simp only [Dict.get?] at ih ⊢
    by_cases hk : p.1 = c
    · rw [if_pos hk, if_pos hk]
      cases p.2 <;> rfl
    · rw [if_neg hk, if_neg hk]
      exact ih

theorem cells_has (x : Parser.Rec) (c : String) : (∃ v, (c, v) ∈ (Download.cells x : Dict (Val K))) ↔ x.get? c ≠ none := by
  unfold Download.cells
  induction x with
  | nil => simp [Dict.get?]
  | cons p x ih =>
    rw [List.map_cons]
    simp only [Dict.get?, List.mem_cons]
    by_cases hk : p.1 = c
    · rw [if_pos hk]
      exact iff_of_true ⟨_, .inl (by rw [← hk])⟩ (by simp)
    · rw [if_neg hk, ← ih]
      constructor
      · rintro ⟨v, h | h⟩
        · exact absurd (congrArg Prod.fst h).symm hk
        · exact ⟨v, h⟩
      · rintro ⟨v, h⟩
        exact ⟨v, .inr h⟩

theorem shows_cell {o : Option Cell} {x : Option (Option String)} (h : Shows o x) : (textCell x.join : Val K) = cellOf o := by
  match o, h with
  | some (.val s), h =>
    rw [show x = _ from h]
    show textCell (((Quakeml.read s).map some).join) = textCell (Quakeml.read s)
    cases Quakeml.read s <;> rfl
  | some .none, h => rw [show x = _ from h]; rfl
  | some .nan, h => rw [show x = _ from h]; rfl
  | none, h => rw [show x = _ from h]; rfl

theorem shows_some {o : Option Cell} {x : Option (Option String)} (h : Shows o x) : x ≠ none ↔ (cellOf o : Val K) ≠ .na := by
  match o, h with
  | some (.val s), h =>
    rw [show x = _ from h]
    show _ ↔ (textCell (Quakeml.read s) : Val K) ≠ .na
    cases Quakeml.read s <;> simp [textCell]
  | some .none, h => rw [show x = _ from h]; simp [cellOf]
  | some .nan, h => rw [show x = _ from h]; simp [cellOf]
  | none, h => rw [show x = _ from h]; simp [cellOf]

theorem convert_secondary (toNumeric toTime : Val K → Val K) {t s : String} (ht : PlainType t) (hs : s ∈ ["", "_uncertainty"]) (v : Val K) :
    convertCell toNumeric toTime ("magnitude_" ++ t ++ s) v = v := by
  have hpre : ("magnitude_" ++ t ++ s).toList.take 10 = "magnitude_".toList := by
    rw [String.toList_append, String.toList_append, List.append_assoc]
    rfl
  have h1 : "magnitude_" ++ t ++ s ∉ numericCols := by
    intro hc
    have : ∀ c ∈ numericCols, c.toList.take 10 ≠ "magnitude_".toList := by decide
    exact this _ hc hpre
  have h2 : "magnitude_" ++ t ++ s ≠ "time" := by
    intro hc
    rw [hc] at hpre
    exact absurd hpre (by decide)
  have h3 : ¬ ("magnitude_" ++ t ++ s = "magnitude_type" ∨ "magnitude_" ++ t ++ s = "event_type") := by
    rintro (hc | hc)
    · have h4 := congrArg (fun c : String => c.toList.drop 10) hc
      simp only [String.toList_append, List.append_assoc] at h4
      have h5 : t.toList ++ s.toList = "type".toList := by
        have e : ("magnitude_".toList ++ (t.toList ++ s.toList)).drop 10 = t.toList ++ s.toList := rfl
        rw [e] at h4
        rw [h4]
        decide
      simp only [List.mem_cons, List.not_mem_nil, or_false] at hs
      rcases hs with rfl | rfl
      · exact ht.2.1 (String.toList_inj.1 (by simpa using h5))
      · have : '_' ∈ "type".toList := by rw [← h5]; simp
        exact absurd this (by decide)
    · rw [hc] at hpre
      exact absurd hpre (by decide)
  unfold convertCell
  rw [if_neg h1, if_neg h2, if_neg h3]

/-- A record as a row. -/
theorem row_of_record (toNumeric toTime : Val K → Val K) (env : Quakeml.Env) (all quality : Bool) (f : Frame Cell) (T : List String) (hstd : Standard f.cols T) (i : ℕ)
    (r : String → Cell) (hr : Readable env f T i r) (hcol : "magnitude_type" ∈ f.cols) (x : Parser.Rec) (h : Back env all quality f T i r x) (row : String → Val K)
    (hrow : ∀ c, row c = convertCell toNumeric toTime c (textCell (x.get? c).join)) : RowBack toNumeric toTime env all quality f T i r row := by
  have hpt : PlainType (plainText (entry env f i r "magnitude_type")) := by
    obtain ⟨pt, h1, _, h2⟩ := hr.type
    rw [entry_col env f i r _ hcol, h1]
    exact h2
  have hval : ∀ c ∈ ["latitude", "longitude", "depth", "magnitude", "latitude_uncertainty", "longitude_uncertainty", "depth_uncertainty", "magnitude_uncertainty"],
      row c = convertCell toNumeric toTime c (cellOf (entry env f i r c)) := by
    intro c hc
    rw [hrow, shows_cell (h.values c hc)]
  have hnum : ∀ c ∈ numericCols, ∀ v, convertCell toNumeric toTime c v = toNumeric v := fun c hc v => if_pos hc
  have hother : ∀ c, c ∉ numericCols → c ≠ "time" → ¬ (c = "magnitude_type" ∨ c = "event_type") → ∀ v, convertCell toNumeric toTime c v = v := by
    intro c h1 h2 h3 v
    unfold convertCell
    rw [if_neg h1, if_neg h2, if_neg h3]
  have hjoin : ∀ o : Option String, (o.map some).join = o := by
    intro o
    cases o <;> rfl
  refine ⟨?_, ?_, ?_, ?_, ?_, ?_, ?_, ?_, ?_, ?_, ?_⟩
  · intro c hc
    rw [hval c (by simp only [List.mem_cons, List.not_mem_nil, or_false] at hc ⊢; tauto)]
    apply hnum
    simp only [List.mem_cons, List.not_mem_nil, or_false] at hc
    rcases hc with rfl | rfl | rfl | rfl <;> decide
  · rw [hrow, h.time, hjoin]
    rfl
  · rw [hrow, h.ids _ (by simp)]
    rfl
  · rw [hrow, h.type]
    rfl
  · rw [hrow, h.mode, hjoin]
    rfl
  · intro c hc
    have hc' : c ∈ ["eventID", "originID", "magnitudeID", "magnitude_type"] := by
      simp only [List.mem_cons, List.not_mem_nil, or_false] at hc ⊢
      tauto
    rw [hrow, h.ids c hc']
    simp only [List.mem_cons, List.not_mem_nil, or_false] at hc
    rcases hc with rfl | rfl | rfl <;> rfl
  · intro c hc
    rw [hval c (by simp only [List.mem_cons, List.not_mem_nil, or_false] at hc ⊢; tauto)]
    simp only [List.mem_cons, List.not_mem_nil, or_false] at hc
    rcases hc with rfl | rfl | rfl | rfl <;> exact hother _ (by decide) (by decide) (by decide) _
  · intro hq c hc
    rw [hrow, shows_cell (h.counts hq c hc)]
    simp only [List.mem_cons, List.not_mem_nil, or_false] at hc
    rcases hc with rfl | rfl | rfl | rfl | rfl
    · rw [if_neg (by decide)]; exact hnum _ (by decide) _
    · rw [if_neg (by decide)]; exact hnum _ (by decide) _
    · rw [if_neg (by decide)]; exact hnum _ (by decide) _
    · rw [if_neg (by decide)]; exact hnum _ (by decide) _
    · rw [if_pos rfl]; exact hother _ (by decide) (by decide) (by decide) _
  · intro hq c hc
    rw [hrow, shows_cell (h.quality hq c hc)]
    simp only [List.mem_cons, List.not_mem_nil, or_false] at hc
    rcases hc with rfl | rfl | rfl | rfl | rfl | rfl <;> exact hnum _ (by decide) _
  · intro ha s hs
    rw [hrow, h.preferred ha s hs, convert_secondary _ _ hpt hs]
    simp only [List.mem_cons, List.not_mem_nil, or_false] at hs
    rcases hs with rfl | rfl
    · exact shows_cell (h.values "magnitude" (by simp))
    · exact shows_cell (h.values "magnitude_uncertainty" (by simp))
  · intro ha t ht hne s hs
    have hs' : s ∈ suffixes := by
      simp only [List.mem_cons, List.not_mem_nil, or_false] at hs
      rcases hs with rfl | rfl <;> decide
    rw [hrow, convert_secondary _ _ (plainType_of_good (hstd.1 t ht)) hs]
    by_cases hex : ∃ s ∈ suffixes, secText f r (plainText (entry env f i r "magnitude_type")) ("magnitude_" ++ t ++ s) ≠ none
    · rw [(h.secondary ha t ht hne hex).1 s hs, hjoin]
    · push Not at hex
      rw [h.absent ha t ht hne hex s hs', hex s hs']
      rfl

/-- The text is given to `from_quakeml` as a file or as it is, and handed to the XML parser in the given buffers. -/
def Given (src : Source) (q : String) (text : List Char) (bufs : List (List Char)) : Prop :=
  bufs.flatten = text ∧ (src.file q = some bufs ∨ (src.file q = none ∧ q.toList = text ∧ src.buffers q = bufs))

theorem fromDict_rows (toNumeric toTime : Val K → Val K) (l : List (Dict (Val K))) (u i : Bool) (hne : ∃ d ∈ l, d ≠ []) :
    (fromDict toNumeric toTime l u i).rows = l.map fun d c => convertCell toNumeric toTime c ((d.get? c).getD .na) := by
  have hcols : (ofRecords (Val.na : Val K) l).cols ≠ [] := by
    obtain ⟨d, hd, hn⟩ := hne
    obtain ⟨⟨k, v⟩, r, rfl⟩ := List.exists_cons_of_ne_nil hn
    have hk : k ∈ recordCols l := (recordCols_mem l k).2 ⟨_, hd, v, by simp⟩
    intro h
    rw [show (ofRecords (Val.na : Val K) l).cols = recordCols l from rfl] at h
    rw [h] at hk
    cases hk
  have hc : (construct toNumeric toTime (some (ofRecords .na l))).rows = l.map fun d c => convertCell toNumeric toTime c ((d.get? c).getD .na) := by
    unfold construct
    dsimp only
    rw [if_neg hcols]
    show List.map _ (List.map _ l) = _
    rw [List.map_map]
    rfl
  unfold fromDict
  cases u <;> cases i <;> exact hc

/-- The records that `from_quakeml` gets. -/
theorem given_records (env : Quakeml.Env) (penv : Parser.Env) (hperm : ∀ l, (penv.setOrder l).Perm l) (all quality : Bool) (ag au : String)
    (f : Frame Cell) (T : List String) (hcols : ∀ c ∈ ["longitude", "latitude", "depth", "time", "magnitude", "magnitude_type"], c ∈ f.cols)
    (hstd : Standard f.cols T) (hneat : ∀ t ∈ T, Neat t) (hread : ∀ p ∈ kept f, Readable env f T p.2 p.1) (text : List Char)
    (ht : QuakemlText.toQuakeml env ag au f = .ok text) (src : Source) (q : String) (bufs : List (List Char)) (hg : Given src q text bufs)
    (hb : Buffers env ag au f T bufs) :
    ∃ recs, records penv src q all quality = .ok recs ∧ List.Forall₂ (fun p x => Back env all quality f T p.2 p.1 x) (kept f) recs := by
  obtain ⟨text', ht', h⟩ := C86_round_trip env penv hperm all quality ag au f T hcols hstd hneat hread
  rw [ht] at ht'
  have e : text = text' := Except.ok.inj ht'
  obtain ⟨h1, h2⟩ := hg
  obtain ⟨recs, r1, r2, r3⟩ := h bufs (h1.trans e) hb
  refine ⟨recs, ?_, r3⟩
  unfold records
  rcases h2 with h2 | ⟨h2, _, h3⟩
  · rw [h2]; exact r1
  · rw [h2]
    dsimp only
    rw [h3]
    exact r2

theorem forall₂_right_mem {α β : Type} {R : α → β → Prop} {l : List α} {m : List β} (h : List.Forall₂ R l m) (b : β) (hb : b ∈ m) : ∃ a ∈ l, R a b := by
  induction h with
  | nil => cases hb
  | cons h1 _ ih =>
    rcases List.mem_cons.1 hb with rfl | hb
    · exact ⟨_, by simp, h1⟩
    · obtain ⟨a, ha, hr⟩ := ih hb
      exact ⟨a, by simp [ha], hr⟩

theorem forall₂_left_mem {α β : Type} {R : α → β → Prop} {l : List α} {m : List β} (h : List.Forall₂ R l m) (a : α) (ha : a ∈ l) : ∃ b ∈ m, R a b := by
  induction h with
  | nil => cases ha
  | cons h1 _ ih =>
    rcases List.mem_cons.1 ha with rfl | ha
    · exact ⟨_, by simp, h1⟩
    · obtain ⟨b, hb, hr⟩ := ih ha
      exact ⟨b, by simp [hb], hr⟩

/-- A column whose entries are written only where they are there: it is in the records if some row has it. -/
theorem has_iff {env : Quakeml.Env} {all quality : Bool} {f : Frame Cell} {T : List String} {recs : List Parser.Rec}
    (h : List.Forall₂ (fun p x => Back env all quality f T p.2 p.1 x) (kept f) recs) {c : String}
    (hc : c ∈ ["latitude", "longitude", "depth", "magnitude", "latitude_uncertainty", "longitude_uncertainty", "depth_uncertainty", "magnitude_uncertainty"]) :
    SomeHas (recs.map (Download.cells (K := K))) c ↔ ∃ p ∈ kept f, (cellOf (entry env f p.2 p.1 c) : Val K) ≠ .na := by
  constructor
  · rintro ⟨d, hd, hv⟩
    obtain ⟨x, hx, rfl⟩ := List.mem_map.1 hd
    obtain ⟨p, hp, hb⟩ := forall₂_right_mem h x hx
    exact ⟨p, hp, (shows_some (hb.values c hc)).1 ((cells_has x c).1 hv)⟩
  · rintro ⟨p, hp, hv⟩
    obtain ⟨x, hx, hb⟩ := forall₂_left_mem h p hp
    exact ⟨_, List.mem_map_of_mem hx, (cells_has x c).2 ((shows_some (hb.values c hc)).2 hv)⟩

theorem recs_nonempty {env : Quakeml.Env} {all quality : Bool} {f : Frame Cell} {T : List String} {recs : List Parser.Rec}
    (h : List.Forall₂ (fun p x => Back env all quality f T p.2 p.1 x) (kept f) recs) (hk : kept f ≠ []) :
    ∃ d ∈ recs.map (Download.cells (K := K)), d ≠ [] := by
  obtain ⟨p, hp⟩ := List.exists_mem_of_ne_nil _ hk
  obtain ⟨x, hx, hb⟩ := forall₂_left_mem h p hp
  refine ⟨_, List.mem_map_of_mem hx, ?_⟩
  intro hc
  have h1 : x.get? "event_type" ≠ none := by rw [hb.type]; simp
  obtain ⟨v, hv⟩ := (cells_has (K := K) x "event_type").2 h1
  rw [hc] at hv
  cases hv

theorem names_values : ∀ c ∈ ["latitude", "longitude", "depth", "magnitude"], isUncertainty c = false ∧ isId c = false := by decide

theorem names_uncertainties : ∀ c ∈ ["latitude_uncertainty", "longitude_uncertainty", "depth_uncertainty", "magnitude_uncertainty"], isUncertainty c = true ∧ isId c = false := by decide

theorem names_ids : ∀ c ∈ ["eventID", "originID", "magnitudeID"], isUncertainty c = false ∧ isId c = true := by decide

theorem names_types : ∀ c ∈ ["magnitude_type", "event_type"], isUncertainty c = false ∧ isId c = false := by decide

/-- C88: a catalogue is written by `to_quakeml` and read by `from_quakeml`, as a file or as a text: one row for each row with coordinates and time, in the same
order, with the contents of `RowBack`; a column of coordinates, magnitudes or uncertainties is there exactly if one of the rows has a value in it and it is
wanted; the identifiers are there exactly if they are wanted. Hypothesis: some row has a magnitude, or one of the two kinds of columns is wanted. -/
theorem C88_round_trip (env : Quakeml.Env) (penv : Parser.Env) (hperm : ∀ l, (penv.setOrder l).Perm l) (toNumeric toTime : Val K → Val K)
    (h1 : ∀ v, toNumeric (toNumeric v) = toNumeric v) (h2 : ∀ v, toTime (toTime v) = toTime v) (none : A) (ag au : String) (f : Frame Cell) (T : List String)
    (hcols : ∀ c ∈ ["longitude", "latitude", "depth", "time", "magnitude", "magnitude_type"], c ∈ f.cols) (hstd : Standard f.cols T) (hneat : ∀ t ∈ T, Neat t)
    (hread : ∀ p ∈ kept f, Readable env f T p.2 p.1) (hk : kept f ≠ []) (text : List Char) (ht : QuakemlText.toQuakeml env ag au f = .ok text)
    (src : Source) (q : String) (bufs : List (List Char)) (hg : Given src q text bufs) (hb : Buffers env ag au f T bufs) (o : Options)
    (hm : o.uncertainties = true ∨ o.ids = true ∨ ∃ p ∈ kept f, (cellOf (entry env f p.2 p.1 "magnitude") : Val K) ≠ .na) :
    ∃ x : Obj (Val K) A, fromQuakeml penv toNumeric toTime none src q o = .ok x ∧ (∀ p ∈ x.attrs, p.2 = none) ∧
      (x.cls ≠ .plain ↔ (o.uncertainties = true ∧ o.ids = true) ∨ ∃ p ∈ kept f, (cellOf (entry env f p.2 p.1 "magnitude") : Val K) ≠ .na) ∧
      List.Forall₂ (fun p row => RowBack toNumeric toTime env o.all o.quality f T p.2 p.1 row) (kept f) x.frame.rows ∧
      (∀ c ∈ ["latitude", "longitude", "depth", "magnitude"], (c ∈ x.frame.cols ↔ ∃ p ∈ kept f, (cellOf (entry env f p.2 p.1 c) : Val K) ≠ .na)) ∧
      (∀ c ∈ ["latitude_uncertainty", "longitude_uncertainty", "depth_uncertainty", "magnitude_uncertainty"],
        (c ∈ x.frame.cols ↔ o.uncertainties = true ∧ ∃ p ∈ kept f, (cellOf (entry env f p.2 p.1 c) : Val K) ≠ .na)) ∧
      (∀ c ∈ ["eventID", "originID", "magnitudeID"], (c ∈ x.frame.cols ↔ o.ids = true)) ∧
      (∀ c ∈ ["magnitude_type", "event_type"], c ∈ x.frame.cols) := by
  obtain ⟨recs, hr, hback⟩ := given_records env penv hperm o.all o.quality ag au f T hcols hstd hneat hread text ht src q bufs hg hb
  have hne := recs_nonempty (K := K) hback hk
  have hmag : ¬ (o.uncertainties = false ∧ o.ids = false ∧ (∃ d ∈ recs.map (Download.cells (K := K)), d ≠ []) ∧
      ¬ SomeHas (recs.map (Download.cells (K := K))) "magnitude") := by
    rintro ⟨a1, a2, _, a4⟩
    rcases hm with hm | hm | hm
    · rw [a1] at hm; cases hm
    · rw [a2] at hm; cases hm
    · exact a4 ((has_iff hback (by simp)).2 hm)
  obtain ⟨x, hx, hfr, hat, hcls⟩ := (C88_from_dict toNumeric toTime h1 h2 none (recs.map (Download.cells (K := K))) o.uncertainties o.ids).2 hmag
  have hc49 := C49_from_dict toNumeric toTime (recs.map (Download.cells (K := K))) o.uncertainties o.ids hne
  refine ⟨x, ?_, hat, ?_, ?_, ?_, ?_, ?_, ?_⟩
  · unfold fromQuakeml
    rw [hr]
    exact hx
  · rw [hcls, has_iff hback (by simp)]
    have : ¬ ∀ d ∈ recs.map (Download.cells (K := K)), d = [] := by
      obtain ⟨d, hd, hn⟩ := hne
      exact fun h => hn (h d hd)
    simp only [this, false_or]
  · rw [hfr, fromDict_rows _ _ _ _ _ hne, List.map_map]
    rw [List.forall₂_map_right_iff]
    have hmem : ∀ p ∈ kept f, Readable env f T p.2 p.1 := hread
    clear hne hmag hc49 hfr hx hm hr hcls
    generalize kept f = ks at hback hmem
    induction hback with
    | nil => exact .nil
    | cons h _ ih =>
      refine .cons ?_ (ih fun p hp => hmem p (by simp [hp]))
      refine row_of_record toNumeric toTime env o.all o.quality f T hstd _ _ (hmem _ (by simp)) (hcols _ (by simp)) _ h _ ?_
      intro c
      show convertCell toNumeric toTime c _ = _
      rw [cells_get]
  · intro c hc
    have hc' : c ∈ ["latitude", "longitude", "depth", "magnitude", "latitude_uncertainty", "longitude_uncertainty", "depth_uncertainty", "magnitude_uncertainty"] :=
      List.mem_append_left ["latitude_uncertainty", "longitude_uncertainty", "depth_uncertainty", "magnitude_uncertainty"] hc
    rw [hfr, (hc49 c).1, ← has_iff (K := K) hback hc']
    have hn : ¬ UncertaintyName c ∧ ¬ IdName c := by
      rw [← isUncertainty_iff, ← isId_iff, (names_values c hc).1, (names_values c hc).2]
      simp
    exact ⟨fun h => h.1, fun h => ⟨h, fun _ => hn.1, fun _ => hn.2⟩⟩
  · intro c hc
    have hc' : c ∈ ["latitude", "longitude", "depth", "magnitude", "latitude_uncertainty", "longitude_uncertainty", "depth_uncertainty", "magnitude_uncertainty"] :=
      List.mem_append_right ["latitude", "longitude", "depth", "magnitude"] hc
    rw [hfr, (hc49 c).1, ← has_iff (K := K) hback hc']
    have hn : UncertaintyName c ∧ ¬ IdName c := by
      rw [← isUncertainty_iff, ← isId_iff, (names_uncertainties c hc).1, (names_uncertainties c hc).2]
      simp
    constructor
    · rintro ⟨a1, a2, _⟩
      refine ⟨?_, a1⟩
      by_contra hcon
      exact a2 (by simpa using hcon) hn.1
    · rintro ⟨a1, a2⟩
      exact ⟨a2, fun h => absurd (h.symm.trans a1) (by decide), fun _ => hn.2⟩
  · intro c hc
    have hsome : SomeHas (recs.map (Download.cells (K := K))) c := by
      obtain ⟨p, hp⟩ := List.exists_mem_of_ne_nil _ hk
      obtain ⟨y, hy, hby⟩ := forall₂_left_mem hback p hp
      refine ⟨_, List.mem_map_of_mem hy, (cells_has y c).2 ?_⟩
      rw [hby.ids c (List.mem_append_left ["magnitude_type"] hc)]
      simp
    rw [hfr, (hc49 c).1]
    have hn : ¬ UncertaintyName c ∧ IdName c := by
      rw [← isUncertainty_iff, ← isId_iff, (names_ids c hc).1, (names_ids c hc).2]
      simp
    constructor
    · rintro ⟨_, _, a3⟩
      by_contra hcon
      exact a3 (by simpa using hcon) hn.2
    · intro a1
      exact ⟨hsome, fun _ => hn.1, fun h => absurd (h.symm.trans a1) (by decide)⟩
  · intro c hc
    have hsome : SomeHas (recs.map (Download.cells (K := K))) c := by
      obtain ⟨p, hp⟩ := List.exists_mem_of_ne_nil _ hk
      obtain ⟨y, hy, hby⟩ := forall₂_left_mem hback p hp
      refine ⟨_, List.mem_map_of_mem hy, (cells_has y c).2 ?_⟩
      simp only [List.mem_cons, List.not_mem_nil, or_false] at hc
      rcases hc with rfl | rfl
      · rw [hby.ids _ (by simp)]; simp
      · rw [hby.type]; simp
    rw [hfr, (hc49 c).1]
    have hn : ¬ UncertaintyName c ∧ ¬ IdName c := by
      rw [← isUncertainty_iff, ← isId_iff, (names_types c hc).1, (names_types c hc).2]
      simp
    exact ⟨hsome, fun _ => hn.1, fun _ => hn.2⟩

/-- C88, defect: if no row with coordinates and time has a magnitude, the text written by `to_quakeml` cannot be read by `from_quakeml` with its default
arguments: AttributeError. -/
theorem C88_defect_no_magnitude (env : Quakeml.Env) (penv : Parser.Env) (hperm : ∀ l, (penv.setOrder l).Perm l) (toNumeric toTime : Val K → Val K)
    (h1 : ∀ v, toNumeric (toNumeric v) = toNumeric v) (h2 : ∀ v, toTime (toTime v) = toTime v) (none : A) (ag au : String) (f : Frame Cell) (T : List String)
    (hcols : ∀ c ∈ ["longitude", "latitude", "depth", "time", "magnitude", "magnitude_type"], c ∈ f.cols) (hstd : Standard f.cols T) (hneat : ∀ t ∈ T, Neat t)
    (hread : ∀ p ∈ kept f, Readable env f T p.2 p.1) (hk : kept f ≠ []) (text : List Char) (ht : QuakemlText.toQuakeml env ag au f = .ok text)
    (src : Source) (q : String) (bufs : List (List Char)) (hg : Given src q text bufs) (hb : Buffers env ag au f T bufs)
    (hm : ∀ p ∈ kept f, p.1 "magnitude" = .nan) : fromQuakeml penv toNumeric toTime none src q {} = .error .attributeError := by
  obtain ⟨recs, hr, hback⟩ := given_records env penv hperm true false ag au f T hcols hstd hneat hread text ht src q bufs hg hb
  have hne := recs_nonempty (K := K) hback hk
  unfold fromQuakeml
  rw [show records penv src q ({} : Options).all ({} : Options).quality = records penv src q true false from rfl, hr]
  refine (C88_from_dict toNumeric toTime h1 h2 none (recs.map (Download.cells (K := K))) false false).1 ⟨rfl, rfl, hne, ?_⟩
  rw [has_iff hback (by simp)]
  rintro ⟨p, hp, hc⟩
  rw [entry_col _ _ _ _ _ (hcols _ (by simp)), hm p hp] at hc
  exact hc rfl

/-- C88: a text without records (also the empty text) gives an empty catalogue with the default columns. -/
theorem C88_empty (penv : Parser.Env) (toNumeric toTime : Val K → Val K) (h1 : ∀ v, toNumeric (toNumeric v) = toNumeric v) (h2 : ∀ v, toTime (toTime v) = toTime v) (none : A)
    (src : Source) (q : String) (o : Options) (h : records penv src q o.all o.quality = .ok []) :
    ∃ x : Obj (Val K) A, fromQuakeml penv toNumeric toTime none src q o = .ok x ∧ x.cls ≠ .plain ∧ x.frame.rows = [] ∧ x.frame.cols = catalogColumns := by
  obtain ⟨x, hx, hf, _, hcl⟩ := (C88_from_dict toNumeric toTime h1 h2 none ([] : List (Dict (Val K))) o.uncertainties o.ids).2 (by simp)
  refine ⟨x, ?_, hcl.2 (.inr (.inl (by simp))), ?_, ?_⟩
  · unfold fromQuakeml
    rw [h]
    exact hx
  · rw [hf]
    cases o.uncertainties <;> cases o.ids <;> rfl
  · rw [hf]
    cases o.uncertainties <;> cases o.ids <;> (unfold fromDict construct dropUncertainties dropIds Frame.drop; simp [ofRecords, recordCols, catalogColumns]) <;> decide

/-! ### A catalogue -/

/-- A reader of numbers. -/
noncomputable def textNumeric (v : Val ℝ) : Val ℝ :=
  match v with
  | .str s => if s = "1.5" then .num (3 / 2) else .na
  | .num x => .num x
  | _ => .na

/-- The hypotheses are met, and the magnitude comes back as a number, that of type Mw as a text. -/
example (penv : Parser.Env) (hperm : ∀ l, (penv.setOrder l).Perm l) : ∃ text, QuakemlText.toQuakeml textEnv "ETH" "SED" (textCat "earthquake") = .ok text ∧
    ∃ x : Obj (Val ℝ) ℕ, fromQuakeml penv textNumeric id 0 ⟨fun _ => some [text], fun _ => []⟩ "cat.xml" {} = .ok x ∧ x.cls ≠ .plain ∧
      ∃ row, x.frame.rows = [row] ∧ row "magnitude" = .num (3 / 2) ∧ row "magnitude_Mw" = .str "2.3" := by
  obtain ⟨h1, h2, h3, h4⟩ := textCat_hyps "earthquake"
  obtain ⟨text, ht, -⟩ := C86_round_trip textEnv penv hperm true false "ETH" "SED" (textCat "earthquake") ["Mw"] h1 h2 h3 h4
  refine ⟨text, ht, ?_⟩
  have hent : entry textEnv (textCat "earthquake") 0 (textRow "earthquake") "magnitude" = some (.val "1.5") := by
    rw [entry_col _ _ _ _ _ (h1 _ (by simp))]
    simp [textRow]
  have hcell : (cellOf (entry textEnv (textCat "earthquake") 0 (textRow "earthquake") "magnitude") : Val ℝ) = .str "1.5" := by
    rw [hent]
    show textCell (Quakeml.read "1.5") = _
    rw [show Quakeml.read "1.5" = some "1.5" by decide]
    rfl
  have hbuf : Buffers textEnv "ETH" "SED" (textCat "earthquake") ["Mw"] [text] := by
    refine .inl ⟨by simp, textCat_texts _ ?_ _ (show ∀ c ∈ "earthquake".toList, XmlText.Plain c by decide)⟩
    intro s hs
    simp only [List.mem_cons, List.not_mem_nil, or_false] at hs
    rcases hs with rfl | rfl | rfl | rfl | rfl | rfl | rfl | rfl | rfl | rfl | rfl <;> exact fun c hc => by revert c; decide
  obtain ⟨x, hx, -, hcl, hrows, -⟩ := C88_round_trip (K := ℝ) textEnv penv hperm textNumeric id (by
      intro v
      cases v with
      | str s =>
        unfold textNumeric
        dsimp only
        by_cases h : s = "1.5"
        · rw [if_pos h]
        · rw [if_neg h]
      | na => rfl
      | num y => rfl
      | time t => rfl) (fun _ => rfl) (0 : ℕ) "ETH" "SED" (textCat "earthquake") ["Mw"] h1 h2 h3 h4 (by rw [textCat_kept]; simp) text ht
    ⟨fun _ => some [text], fun _ => []⟩ "cat.xml" [text] ⟨by simp, .inl rfl⟩ hbuf {} (.inr (.inr ⟨_, by rw [textCat_kept]; exact List.mem_singleton.2 rfl, by rw [hcell]; simp⟩))
  have hk := textCat_kept "earthquake"
  refine ⟨x, hx, hcl.2 (.inr ⟨(textRow "earthquake", 0), by rw [hk]; simp, by rw [hcell]; simp⟩), ?_⟩
  rw [hk] at hrows
  obtain ⟨row, rest, hrow, hrest, he⟩ := List.forall₂_cons_left_iff.1 hrows
  cases hrest
  refine ⟨row, he, ?_, ?_⟩
  · rw [hrow.numbers _ (by simp), hcell]
    simp [textNumeric]
  · have hty : plainText (entry textEnv (textCat "earthquake") 0 (textRow "earthquake") "magnitude_type") = "ML" := by
      rw [entry_col _ _ _ _ _ (h1 _ (by simp))]
      simp [textRow, plainText]
    have := hrow.secondary rfl "Mw" (by simp) (by rw [hty]; decide) "" (by simp)
    rw [hty] at this
    have e : "magnitude_" ++ "Mw" ++ "" = "magnitude_Mw" := by decide
    rw [e] at this
    rw [this]
    have hs : secText (textCat "earthquake") (textRow "earthquake") "ML" "magnitude_Mw" = some "2.3" := by
      unfold secText
      rw [if_pos ⟨show "magnitude_Mw" ∈ textCols by decide, by decide⟩]
      simp [textRow]
    rw [hs]
    show textCell (Quakeml.read "2.3") = _
    rw [show Quakeml.read "2.3" = some "2.3" by decide]
    rfl

end SeismoStats.Props
