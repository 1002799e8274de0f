/-
Properties C49 (drop_uncertainties, drop_ids), C54 (class and attributes of results), C57 (required columns),
C68 (strip, clean-up of strings).
-/
import Verif.Model.Catalog
import Mathlib.Data.List.Dedup
import Mathlib.Data.List.Nodup
import Mathlib.Data.List.Perm.Basic

namespace SeismoStats.Props
open SeismoStats SeismoStats.Catalog
open Classical

variable {V A : Type}

/-! ### Specification -/

/-- The name `c` ends in the text `s`, possibly followed by one line break (as `$` of a regular expression). -/
def EndsIn (c s : String) : Prop := ∃ p, c = p ++ s ∨ c = p ++ s ++ "\n"

/-- Names of uncertainty columns. -/
def UncertaintyName (c : String) : Prop :=
  EndsIn c "_uncertainty" ∨ EndsIn c "_lowerUncertainty" ∨ EndsIn c "_upperUncertainty" ∨ EndsIn c "_confidenceLevel"

/-- Names of columns with identifiers. -/
def IdName (c : String) : Prop := EndsIn c "eventID" ∨ EndsIn c "originID" ∨ EndsIn c "magnitudeID"

/-- Two frames have the same cells in the columns of the second. -/
def SameCells (f g : Frame V) : Prop := ∀ c ∈ g.cols, f.column c = g.column c

theorem endsRe_iff (s c : String) : endsRe s c = true ↔ EndsIn c s := by
  unfold endsRe EndsIn
  rw [Bool.or_eq_true, decide_eq_true_eq, decide_eq_true_eq]
  constructor
  · rintro (⟨p, h⟩ | ⟨p, h⟩)
    · exact ⟨String.ofList p, Or.inl (String.toList_inj.1 (by simp [← h]))⟩
    · exact ⟨String.ofList p, Or.inr (String.toList_inj.1 (by simp [← h]))⟩
  · rintro ⟨p, h | h⟩
    · exact Or.inl ⟨p.toList, by simp [h]⟩
    · exact Or.inr ⟨p.toList, by simp [h]⟩

theorem isUncertainty_iff (c : String) : isUncertainty c = true ↔ UncertaintyName c := by
  unfold isUncertainty UncertaintyName
  simp only [Bool.or_eq_true, endsRe_iff, or_assoc]

theorem isId_iff (c : String) : isId c = true ↔ IdName c := by
  unfold isId IdName
  simp only [Bool.or_eq_true, endsRe_iff, or_assoc]

/-! ### C49 -/

theorem drop_cols_filter (f : Frame V) (p : String → Bool) (P : String → Prop) (h : ∀ c, p c = true ↔ P c) :
    (f.drop p).cols = f.cols.filter (fun c => decide (¬ P c)) := by
  simp only [Frame.drop]
  apply List.filter_congr
  intro c _
  have := h c
  by_cases hp : P c
  · simp [hp, this.2 hp]
  · simp [hp, Bool.eq_false_iff.2 (fun e => hp (this.1 e))]

/-- C49: `drop_uncertainties` removes exactly the columns with an uncertainty suffix; the other columns keep
their order and all their cells, and the number of rows is the same. -/
theorem C49_drop_uncertainties (f : Frame V) :
    (dropUncertainties f).cols = f.cols.filter (fun c => decide (¬ UncertaintyName c)) ∧
      SameCells f (dropUncertainties f) ∧ (dropUncertainties f).rows.length = f.rows.length :=
  ⟨drop_cols_filter f isUncertainty _ isUncertainty_iff, fun _ _ => rfl, rfl⟩

/-- C49: the same for `drop_ids`. -/
theorem C49_drop_ids (f : Frame V) :
    (dropIds f).cols = f.cols.filter (fun c => decide (¬ IdName c)) ∧
      SameCells f (dropIds f) ∧ (dropIds f).rows.length = f.rows.length :=
  ⟨drop_cols_filter f isId _ isId_iff, fun _ _ => rfl, rfl⟩

/-- C49: both are idempotent and commute. -/
theorem C49_idempotent_and_commute (f : Frame V) :
    dropUncertainties (dropUncertainties f) = dropUncertainties f ∧ dropIds (dropIds f) = dropIds f ∧
      dropIds (dropUncertainties f) = dropUncertainties (dropIds f) := by
  refine ⟨?_, ?_, ?_⟩ <;> simp only [dropUncertainties, dropIds, Frame.drop, Frame.mk.injEq, and_true, List.filter_filter, Bool.and_self]
  apply List.filter_congr
  intro c _
  exact Bool.and_comm _ _

theorem kept_required {c : String} (f : Frame V) (h : c = "magnitude" ∨ c = "catalog_id") :
    (c ∈ (dropUncertainties f).cols ↔ c ∈ f.cols) ∧ (c ∈ (dropIds f).cols ↔ c ∈ f.cols) := by
  have h1 : isUncertainty "magnitude" = false := by decide
  have h2 : isUncertainty "catalog_id" = false := by decide
  have h3 : isId "magnitude" = false := by decide
  have h4 : isId "catalog_id" = false := by decide
  constructor <;> simp only [dropUncertainties, dropIds, Frame.drop, List.mem_filter] <;> rcases h with rfl | rfl <;> simp [h1, h2, h3, h4]

theorem classOf_eq (cols : List String) :
    classOf cols = if "magnitude" ∈ cols then (if "catalog_id" ∈ cols then .forecast else .catalog) else .plain := by
  unfold classOf hasCols
  by_cases h : "magnitude" ∈ cols <;> by_cases h2 : "catalog_id" ∈ cols <;> simp [h, h2]

/-- C49: the class never changes by these operations (for an object whose class agrees with its columns). -/
theorem C49_class_unchanged (conv : String → V → V) (none : A) (o : Obj V A) (h : o.cls = classOf o.frame.cols) :
    (dropUncertaintiesObj conv none o).cls = o.cls ∧ (dropIdsObj conv none o).cls = o.cls := by
  have hu : classOf (dropUncertainties o.frame).cols = o.cls := by
    rw [h, classOf_eq, classOf_eq]
    simp only [(kept_required o.frame (Or.inl rfl)).1, (kept_required o.frame (Or.inr rfl)).1]
  have hi : classOf (dropIds o.frame).cols = o.cls := by
    rw [h, classOf_eq, classOf_eq]
    simp only [(kept_required o.frame (Or.inl rfl)).2, (kept_required o.frame (Or.inr rfl)).2]
  constructor
  · unfold dropUncertaintiesObj unary constructor finalizeFrom newObj
    rw [hu]
    cases hc : o.cls <;> rfl
  · unfold dropIdsObj unary constructor finalizeFrom newObj
    rw [hi]
    cases hc : o.cls <;> rfl

theorem recordCols_mem (l : List (Dict V)) (c : String) : c ∈ recordCols l ↔ ∃ d ∈ l, ∃ v, (c, v) ∈ d := by
  unfold recordCols
  simp only [List.mem_reverse, List.mem_dedup, List.mem_flatMap, List.mem_map, Prod.exists, exists_and_right, exists_eq_right]

/-- C49: `from_dict` has exactly the keys of the records as columns (each once), without the uncertainty columns
and without the identifiers if they are not wanted, and one row for each record. -/
theorem C49_from_dict {K : Type} (toNumeric toTime : Val K → Val K) (l : List (Dict (Val K))) (u i : Bool)
    (hne : ∃ d ∈ l, d ≠ []) (c : String) :
    (c ∈ (fromDict toNumeric toTime l u i).cols ↔
      (∃ d ∈ l, ∃ v, (c, v) ∈ d) ∧ (u = false → ¬ UncertaintyName c) ∧ (i = false → ¬ IdName c)) ∧
    (fromDict toNumeric toTime l u i).cols.Nodup ∧ (fromDict toNumeric toTime l u i).rows.length = l.length := by
  have hcols : (ofRecords (Val.na : Val K) l).cols ≠ [] := by
    obtain ⟨d, hd, hn⟩ := hne
    obtain ⟨⟨k, v⟩, r, rfl⟩ := List.exists_cons_of_ne_nil hn
    have hk : k ∈ recordCols l := (recordCols_mem l k).2 ⟨_, hd, v, by simp⟩
    intro h
    rw [show (ofRecords (Val.na : Val K) l).cols = recordCols l from rfl] at h
    rw [h] at hk
    cases hk
  have hnd : (recordCols l).Nodup := by
    unfold recordCols
    exact List.nodup_reverse.2 (List.nodup_dedup _)
  have hc := recordCols_mem l c
  have hu := isUncertainty_iff c
  have hi := isId_iff c
  have hcon : construct toNumeric toTime (some (ofRecords .na l)) =
      { cols := recordCols l, rows := (ofRecords Val.na l).rows.map fun r c => convertCell toNumeric toTime c (r c) } := by
    unfold construct
    simp only [if_neg hcols]
    rfl
  have hlen : (ofRecords (Val.na : Val K) l).rows.length = l.length := by simp [ofRecords]
  unfold fromDict
  rw [hcon, ← hc, ← hu, ← hi]
  cases u <;> cases i
  · refine ⟨?_, (hnd.filter _).filter _, by simp [dropUncertainties, dropIds, Frame.drop, hlen]⟩
    simp [dropUncertainties, dropIds, Frame.drop, List.mem_filter]
    tauto
  · refine ⟨?_, hnd.filter _, by simp [dropUncertainties, Frame.drop, hlen]⟩
    simp [dropUncertainties, Frame.drop, List.mem_filter]
  · refine ⟨?_, hnd.filter _, by simp [dropIds, Frame.drop, hlen]⟩
    simp [dropIds, Frame.drop, List.mem_filter]
  · exact ⟨by simp, hnd, by simp [hlen]⟩

/-- C49, finding: although documented to drop the columns *named* eventID, originID and magnitudeID, `drop_ids`
also drops every other column whose name ends so. -/
theorem C49_drops_other_names (f : Frame V) (p : String) : (p ++ "eventID") ∉ (dropIds f).cols := by
  rw [(C49_drop_ids f).1, List.mem_filter]
  rintro ⟨_, h⟩
  have : IdName (p ++ "eventID") := Or.inl ⟨p, Or.inl rfl⟩
  simp [this] at h

example : (dropIds ({ cols := ["magnitude", "eventID", "magnitude_Mw_magnitudeID", "time"], rows := [] } : Frame ℕ)).cols = ["magnitude", "time"] := by
  decide

example : (dropUncertainties ({ cols := ["magnitude", "magnitude_uncertainty", "uncertainty", "depth_confidenceLevel"], rows := [] } : Frame ℕ)).cols = ["magnitude", "uncertainty"] := by
  decide

/-! ### C57 -/

theorem hasCols_iff (req cols : List String) : hasCols req cols = true ↔ ∀ c ∈ req, c ∈ cols := by
  simp [hasCols, List.all_eq_true]

theorem mem_effective (req excl : List String) (c : String) : c ∈ effective req excl ↔ c ∈ req ∧ c ∉ excl := by
  simp [effective, List.mem_filter]

/-- C57: the method runs, unchanged, if every required and not excluded column is there. -/
theorem C57_runs {S R : Type} (req excl cols : List String) (s : S) (body : S → S × Py R)
    (h : ∀ c ∈ req, c ∉ excl → c ∈ cols) : requireCols req excl cols s body = body s := by
  unfold requireCols
  rw [if_pos]
  rw [hasCols_iff]
  intro c hc
  rw [mem_effective] at hc
  exact h c hc.1 hc.2

/-- C57: otherwise an AttributeError is raised and nothing has happened. -/
theorem C57_raises {S R : Type} (req excl cols : List String) (s : S) (body : S → S × Py R) (c : String)
    (hc : c ∈ req) (he : c ∉ excl) (hn : c ∉ cols) : requireCols req excl cols s body = (s, .error .attributeError) := by
  unfold requireCols
  rw [if_neg]
  rw [hasCols_iff]
  exact fun h => hn (h c ((mem_effective _ _ _).2 ⟨hc, he⟩))

/-- C57: the message names exactly the columns that are missing. -/
theorem C57_names (req excl cols : List String) (c : String) :
    c ∈ missingCols req excl cols ↔ c ∈ req ∧ c ∉ excl ∧ c ∉ cols := by
  simp [missingCols, List.mem_filter, mem_effective, and_assoc]

/-- C57: a decorated method treats every call alike, however often it was called before and with which objects. -/
theorem C57_every_call {S R : Type} (req excl : List String) (cols : S → List String) (body : S → S × Py R) (l : List S) :
    requireCalls excl cols body req l = l.map fun s => requireCols req excl (cols s) s body := by
  have he : ∀ r : List String, effective (effective r excl) excl = effective r excl := fun r => by
    simp [effective, List.filter_filter]
  induction l generalizing req with
  | nil => rfl
  | cons s l ih =>
    simp only [requireCalls, requireCall, List.map_cons, ih, List.cons.injEq, true_and]
    apply List.map_congr_left
    intro t _
    simp only [requireCols, he]

example : (requireCols ["magnitude", "time"] ["time"] ["magnitude"] (0 : ℕ) fun s => (s + 1, .ok s)).1 = 1 := by decide

example : (requireCols ["magnitude", "time"] [] ["magnitude"] (0 : ℕ) fun s => (s + 1, .ok s)).1 = 0 := by decide

/-! ### C54 -/

/-- The object carries a value for every attribute of its class and for no other. -/
def Complete (o : Obj V A) : Prop := o.attrs.map Prod.fst = metadata o.cls

theorem get_map (l : List String) (g : String → A) (n : String) (h : n ∈ l) :
    Dict.get? (l.map fun k => (k, g k)) n = some (g n) := by
  induction l with
  | nil => cases h
  | cons a r ih =>
    simp only [List.map_cons, Dict.get?]
    by_cases e : a = n
    · simp [e]
    · rw [if_neg e]
      rcases List.mem_cons.1 h with h | h
      · exact absurd h.symm e
      · exact ih h

theorem get_isSome (d : Dict A) (n : String) (h : n ∈ d.map Prod.fst) : ∃ a, Dict.get? d n = some a := by
  cases hg : Dict.get? d n with
  | none => exact absurd h ((Dict.get?_eq_none_iff d n).1 hg)
  | some a => exact ⟨a, rfl⟩

/-- The attribute that a result takes over from the operand `o`: its value if `o` has it, otherwise None. -/
def Carried (none : A) (o r : Obj V A) : Prop :=
  ∀ n ∈ metadata r.cls, Dict.get? r.attrs n = some (if n ∈ metadata o.cls then getAttr none o n else none)

theorem newObj_cls (conv : String → V → V) (none : A) (f : Frame V) : (newObj conv none f).cls = classOf f.cols := by
  unfold newObj
  cases h : classOf f.cols <;> rfl

theorem newObj_complete (conv : String → V → V) (none : A) (f : Frame V) : Complete (newObj conv none f) := by
  unfold newObj Complete
  cases h : classOf f.cols <;> simp [metadata]

theorem newObj_get (conv : String → V → V) (none : A) (f : Frame V) (n : String) (h : n ∈ metadata (classOf f.cols)) :
    Dict.get? (newObj conv none f).attrs n = some none := by
  unfold newObj
  cases hc : classOf f.cols with
  | plain => rw [hc] at h; cases h
  | catalog => rw [hc] at h; exact get_map _ (fun _ => none) n h
  | forecast => rw [hc] at h; exact get_map _ (fun _ => none) n h

theorem unary_cls (conv : String → V → V) (none : A) (o : Obj V A) (f : Frame V) :
    (unary conv none o f).cls = if o.cls = .plain then .plain else classOf f.cols := by
  unfold unary constructor
  cases h : o.cls
  · rfl
  all_goals
    simp only [finalizeFrom, newObj_cls, reduceCtorEq, if_false]
    cases hk : classOf f.cols <;> simp [newObj, hk]

theorem joined_cls (conv : String → V → V) (none : A) (o : Obj V A) (f : Frame V) :
    (joined conv none o f).cls = if o.cls = .plain then .plain else classOf f.cols := by
  unfold joined constructor
  cases h : o.cls
  · rfl
  all_goals
    simp only [finalizeAll, newObj_cls, reduceCtorEq, if_false]
    cases hk : classOf f.cols <;> simp [newObj, hk]

/-- C54: the class of the result of an operation on a catalogue depends only on the columns of the result: with a
`magnitude` and a `catalog_id` column a ForecastCatalog, with `magnitude` only a Catalog, otherwise a plain frame. -/
theorem C54_class (conv : String → V → V) (none : A) (o : Obj V A) (f : Frame V) (h : o.cls ≠ .plain) :
    ((unary conv none o f).cls = .forecast ↔ "magnitude" ∈ f.cols ∧ "catalog_id" ∈ f.cols) ∧
    ((unary conv none o f).cls = .catalog ↔ "magnitude" ∈ f.cols ∧ "catalog_id" ∉ f.cols) ∧
    ((unary conv none o f).cls = .plain ↔ "magnitude" ∉ f.cols) ∧
    (joined conv none o f).cls = (unary conv none o f).cls := by
  rw [joined_cls, unary_cls, if_neg h, classOf_eq]
  by_cases h1 : "magnitude" ∈ f.cols <;> by_cases h2 : "catalog_id" ∈ f.cols <;> simp [h1, h2]

theorem get_filterMap (l : List String) (g : String → Option A) (n : String) (h : n ∈ l) :
    Dict.get? (l.filterMap fun k => (g k).map fun a => (k, a)) n = g n := by
  induction l with
  | nil => cases h
  | cons a r ih =>
    rw [List.filterMap_cons]
    by_cases e : a = n
    · subst e
      cases hg : g a with
      | none =>
        simp only [Option.map_none]
        by_cases hr : a ∈ r
        · rw [ih hr, hg]
        · rw [Dict.get?_eq_none_iff]
          simp only [List.mem_map, List.mem_filterMap, Option.map_eq_some_iff, not_exists, not_and]
          rintro ⟨k, b⟩ ⟨x, hx, y, _, hy⟩ rfl
          cases hy
          exact hr hx
      | some v => simp [Dict.get?]
    · have hn : n ∈ r := (List.mem_cons.1 h).resolve_left (fun h => e h.symm)
      cases hg : g a with
      | none => simpa using ih hn
      | some v => simp [Dict.get?, e, ih hn]

theorem finalizeFrom_eq (s o : Obj V A) (h : s.cls ≠ .plain) :
    finalizeFrom s o = { s with attrs := (metadata s.cls).filterMap fun n =>
      (if n ∈ metadata o.cls then o.attrs.get? n else s.attrs.get? n).map (fun a => (n, a))
                                required := if o.cls = .plain then s.required else o.required } := by
  unfold finalizeFrom
  cases hk : s.cls with
  | plain => exact absurd hk h
  | catalog =>
    simp only [Obj.mk.injEq, true_and, and_true]
    apply List.filterMap_congr
    intro n _
    by_cases hn : n ∈ metadata o.cls <;> simp [hn]
  | forecast =>
    simp only [Obj.mk.injEq, true_and, and_true]
    apply List.filterMap_congr
    intro n _
    by_cases hn : n ∈ metadata o.cls <;> simp [hn]

/-- C54: an operation on one catalogue that returns a catalogue keeps every attribute the operand has (mc,
delta_m, b_value, ...); an attribute the operand does not have is None. -/
theorem C54_attributes (conv : String → V → V) (none : A) (o : Obj V A) (f : Frame V) (h : Complete o) :
    Carried none o (unary conv none o f) := by
  intro n hn
  rw [unary_cls] at hn
  by_cases hp : o.cls = .plain
  · rw [if_pos hp] at hn; cases hn
  rw [if_neg hp] at hn
  have hcons : constructor conv none o f = newObj conv none f := by
    unfold constructor
    cases hc : o.cls <;> simp_all
  have hk : (newObj conv none f).cls ≠ .plain := by
    rw [newObj_cls]
    intro e
    rw [e] at hn
    cases hn
  unfold unary
  rw [hcons, finalizeFrom_eq _ _ hk]
  dsimp only
  rw [newObj_cls, get_filterMap (metadata (classOf f.cols)) (fun n => if n ∈ metadata o.cls then o.attrs.get? n else (newObj conv none f).attrs.get? n) n hn]
  by_cases hm : n ∈ metadata o.cls
  · rw [if_pos hm, if_pos hm]
    rw [← h] at hm
    obtain ⟨a, ha⟩ := get_isSome _ _ hm
    simp [getAttr, ha]
  · rw [if_neg hm, if_neg hm]
    exact newObj_get conv none f n hn

/-- C54: merge and concat take the attributes from the left or first operand, None where it has none. -/
theorem C54_merge_concat (conv : String → V → V) (none : A) (first : Obj V A) (f : Frame V) (h : Complete first) :
    Carried none first (joined conv none first f) := by
  intro n hn
  rw [joined_cls] at hn
  by_cases hp : first.cls = .plain
  · rw [if_pos hp] at hn; cases hn
  rw [if_neg hp] at hn
  have hcons : constructor conv none first f = newObj conv none f := by
    unfold constructor
    cases hc : first.cls <;> simp_all
  unfold joined
  rw [hcons]
  have hget : ∀ k, (newObj conv none f).cls = k → k ≠ .plain →
      (finalizeAll none (newObj conv none f) first).attrs = (metadata k).map fun n => (n, getAttr none first n) := by
    intro k hk hne
    unfold finalizeAll
    rw [hk]
    cases k <;> first | rfl | exact absurd rfl hne
  rw [hget _ (newObj_cls conv none f) (by intro e; rw [e] at hn; cases hn), get_map (metadata (classOf f.cols)) _ n hn]
  by_cases hm : n ∈ metadata first.cls
  · rw [if_pos hm]
  · rw [if_neg hm]
    rw [← h] at hm
    unfold getAttr
    rw [(Dict.get?_eq_none_iff _ _).2 hm]
    rfl

theorem unary_complete (conv : String → V → V) (none : A) (o : Obj V A) (f : Frame V) (h : Complete o) :
    Complete (unary conv none o f) := by
  by_cases hp : o.cls = .plain
  · unfold unary constructor Complete
    rw [hp]
    rfl
  have hcons : constructor conv none o f = newObj conv none f := by
    unfold constructor
    cases hc : o.cls <;> simp_all
  by_cases hk : (newObj conv none f).cls = .plain
  · unfold unary
    rw [hcons]
    have : finalizeFrom (newObj conv none f) o = newObj conv none f := by
      unfold finalizeFrom
      rw [hk]
    rw [this]
    exact newObj_complete conv none f
  have hc := C54_attributes conv none o f h
  unfold Carried at hc
  rw [unary_cls, if_neg hp] at hc
  unfold unary at hc ⊢
  rw [hcons, finalizeFrom_eq _ _ hk] at hc ⊢
  unfold Complete
  dsimp only at hc ⊢
  rw [newObj_cls] at hc ⊢
  rw [List.map_filterMap]
  conv_rhs => rw [← List.filterMap_some (l := metadata (classOf f.cols))]
  apply List.filterMap_congr
  intro n hn
  have := hc n hn
  rw [get_filterMap (metadata (classOf f.cols)) (fun n => if n ∈ metadata o.cls then o.attrs.get? n else (newObj conv none f).attrs.get? n) n hn] at this
  rw [this]
  rfl

theorem catalog_meta_mem {n : String} (h : n ∈ metadata .catalog) (k : Cls) (hk : k ≠ .plain) : n ∈ metadata k := by
  cases k with
  | plain => exact absurd rfl hk
  | catalog => exact h
  | forecast => exact List.mem_append_left ["n_catalogs"] h

/-- C54, for every history of operations: as long as the `magnitude` column stays, every attribute of a
Catalog (name, mc, delta_m, b_value, ...) survives any sequence of operations. -/
theorem C54_attributes_survive (conv : String → V → V) (none : A) (o : Obj V A) (ops : List (Frame V → Frame V))
    (hc : Complete o) (hp : o.cls ≠ .plain)
    (hm : ∀ (l : List (Frame V → Frame V)), l <+: ops → l ≠ [] →
      "magnitude" ∈ (l.foldl (fun o g => unary conv none o (g o.frame)) o).frame.cols)
    (n : String) (hn : n ∈ metadata .catalog) :
    (ops.foldl (fun o g => unary conv none o (g o.frame)) o).cls ≠ .plain ∧
      getAttr none (ops.foldl (fun o g => unary conv none o (g o.frame)) o) n = getAttr none o n := by
  induction ops generalizing o with
  | nil => exact ⟨hp, rfl⟩
  | cons g r ih =>
    have hcols : ∀ (f : Frame V), (unary conv none o f).frame.cols = f.cols := by
      intro f
      have hcons : constructor conv none o f = newObj conv none f := by
        unfold constructor
        cases hc : o.cls <;> simp_all
      have h1 : (newObj conv none f).frame.cols = f.cols := by
        unfold newObj
        cases classOf f.cols <;> rfl
      have h2 : ∀ s : Obj V A, (finalizeFrom s o).frame = s.frame := by
        intro s
        unfold finalizeFrom
        cases s.cls <;> rfl
      unfold unary
      rw [hcons, h2, h1]
    have h1 : "magnitude" ∈ (g o.frame).cols := by
      have := hm [g] (by simp) (by simp)
      simp only [List.foldl_cons, List.foldl_nil] at this
      rwa [hcols] at this
    have hcls : (unary conv none o (g o.frame)).cls ≠ .plain := fun e => ((C54_class conv none o _ hp).2.2.1.1 e) h1
    have := ih (unary conv none o (g o.frame)) (unary_complete conv none o _ hc) hcls
      (fun l hl hne => hm (g :: l) (List.cons_prefix_cons.2 ⟨rfl, hl⟩) (by simp))
    refine ⟨this.1, ?_⟩
    rw [List.foldl_cons, this.2]
    have hcar := C54_attributes conv none o (g o.frame) hc n (catalog_meta_mem hn _ hcls)
    rw [if_pos (catalog_meta_mem hn _ hp)] at hcar
    unfold getAttr at hcar ⊢
    rw [hcar]
    rfl

/-- C54: without the `magnitude` column the result is a plain frame, and no later operation brings the class or
the attributes back, not even one that adds the column again. -/
theorem C54_plain_stays_plain (conv : String → V → V) (none : A) (o : Obj V A) (ops : List (Frame V → Frame V)) (hp : o.cls = .plain) :
    (ops.foldl (fun o g => unary conv none o (g o.frame)) o).cls = .plain := by
  induction ops generalizing o with
  | nil => exact hp
  | cons g r ih => exact ih _ (by rw [unary_cls, if_pos hp])

/-- C54: the content of a result is the content of the operation, with the cells converted by the constructor;
a plain frame is left alone. -/
theorem C54_content (conv : String → V → V) (none : A) (o : Obj V A) (f : Frame V) :
    (unary conv none o f).frame = if (unary conv none o f).cls = .plain then f else f.convert conv := by
  have h2 : ∀ s : Obj V A, (finalizeFrom s o).frame = s.frame ∧ (finalizeFrom s o).cls = s.cls := by
    intro s
    unfold finalizeFrom
    cases h : s.cls <;> simp [h]
  unfold unary
  rw [(h2 _).1, (h2 _).2]
  unfold constructor newObj
  cases o.cls <;> cases classOf f.cols <;> rfl

/-! ### C68 -/

theorem drop_not_required (f : Frame V) (req : List String) :
    (f.drop fun c => !decide (c ∈ req)).cols = f.cols.filter fun c => decide (c ∈ req) := by
  simp [Frame.drop]

/-- C68: `strip` raises an AttributeError, without any effect, if a column of a catalogue is missing. -/
theorem C68_missing_column (conv : String → V → V) (none : A) (o : Obj V A) (inplace : Bool) (c : String)
    (hc : c ∈ ["longitude", "latitude", "depth", "time", "magnitude", "magnitude_type"]) (hn : c ∉ o.frame.cols) :
    strip conv none o inplace = (o, .error .attributeError) :=
  C57_raises catalogColumns [] _ o _ c hc (by simp) hn

theorem strip_eq (conv : String → V → V) (none : A) (o : Obj V A) (inplace : Bool)
    (h : ∀ c ∈ ["longitude", "latitude", "depth", "time", "magnitude", "magnitude_type"], c ∈ o.frame.cols) :
    strip conv none o inplace =
      if inplace then ({ o with frame := o.frame.drop fun c => !decide (c ∈ o.required) }, .ok .none)
      else (o, .ok (some (unary conv none o (o.frame.drop fun c => !decide (c ∈ o.required))))) :=
  C57_runs catalogColumns [] _ o _ fun c hc _ => h c hc

/-- C68: in place, `strip` keeps exactly the columns required by the object, in their order, with all cells, and
keeps class and attributes. -/
theorem C68_strip_inplace (conv : String → V → V) (none : A) (o : Obj V A)
    (h : ∀ c ∈ ["longitude", "latitude", "depth", "time", "magnitude", "magnitude_type"], c ∈ o.frame.cols) :
    ∃ o', strip conv none o true = (o', .ok .none) ∧ o'.frame.cols = o.frame.cols.filter (fun c => decide (c ∈ o.required)) ∧
      SameCells o.frame o'.frame ∧ o'.frame.rows.length = o.frame.rows.length ∧
      o'.cls = o.cls ∧ o'.attrs = o.attrs ∧ o'.required = o.required := by
  refine ⟨{ o with frame := o.frame.drop fun c => !decide (c ∈ o.required) }, by rw [strip_eq _ _ _ _ h, if_pos rfl], ?_,
    fun _ _ => rfl, rfl, rfl, rfl, rfl⟩
  exact drop_not_required _ _

/-- C68: not in place, the object is not changed, and the result is a catalogue with the same columns and cells
(for cells that the constructor has already converted) and with the attributes of the object. -/
theorem C68_strip_copy (conv : String → V → V) (none : A) (o : Obj V A)
    (h : ∀ c ∈ ["longitude", "latitude", "depth", "time", "magnitude", "magnitude_type"], c ∈ o.frame.cols)
    (hreq : "magnitude" ∈ o.required) (hp : o.cls ≠ .plain) (hconv : ∀ r ∈ o.frame.rows, ∀ c, conv c (r c) = r c) (hcomp : Complete o) :
    ∃ o', strip conv none o false = (o, .ok (some o')) ∧ o'.frame.cols = o.frame.cols.filter (fun c => decide (c ∈ o.required)) ∧
      SameCells o.frame o'.frame ∧ o'.frame.rows.length = o.frame.rows.length ∧ o'.cls ≠ .plain ∧ Carried none o o' := by
  refine ⟨_, by rw [strip_eq _ _ _ _ h]; rfl, ?_, ?_, ?_, ?_, C54_attributes conv none o _ hcomp⟩
  · rw [C54_content]
    split
    · exact drop_not_required _ _
    · exact drop_not_required _ _
  · intro c _
    rw [C54_content]
    split
    · rfl
    · simp only [Frame.column, Frame.convert, Frame.drop, List.map_map]
      apply List.map_congr_left
      intro r hr
      exact (hconv r hr c).symm
  · rw [C54_content]
    split <;> simp [Frame.drop, Frame.convert]
  · intro e
    apply (C54_class conv none o _ hp).2.2.1.1 e
    rw [drop_not_required, List.mem_filter]
    exact ⟨h _ (by simp), by simpa using hreq⟩

/-- C68: `strip` in place is idempotent (for objects that require the columns of a catalogue). -/
theorem C68_idempotent (conv : String → V → V) (none : A) (o o' : Obj V A) (r : Py (Option (Obj V A)))
    (hreq : ∀ c ∈ ["longitude", "latitude", "depth", "time", "magnitude", "magnitude_type"], c ∈ o.required)
    (h : strip conv none o true = (o', r)) : strip conv none o' true = (o', r) := by
  by_cases hh : ∀ c ∈ ["longitude", "latitude", "depth", "time", "magnitude", "magnitude_type"], c ∈ o.frame.cols
  · obtain ⟨o1, h1, hcols, _, _, _, _, hr⟩ := C68_strip_inplace conv none o hh
    rw [h1] at h
    obtain ⟨rfl, rfl⟩ := Prod.mk.inj h
    have h2 : ∀ c ∈ ["longitude", "latitude", "depth", "time", "magnitude", "magnitude_type"], c ∈ o1.frame.cols := by
      intro c hc
      rw [hcols, List.mem_filter]
      exact ⟨hh c hc, by simpa using hreq c hc⟩
    rw [strip_eq _ _ _ _ h2, if_pos rfl]
    have : (o1.frame.drop fun c => !decide (c ∈ o1.required)) = o1.frame := by
      unfold Frame.drop
      have : (o1.frame.cols.filter fun c => !!decide (c ∈ o1.required)) = o1.frame.cols := by
        rw [List.filter_eq_self]
        intro c hc
        rw [hcols, List.mem_filter] at hc
        rw [hr]
        simpa using hc.2
      rw [this]
    rw [this]
  · push Not at hh
    obtain ⟨c, hc, hn⟩ := hh
    rw [C68_missing_column conv none o true c hc hn] at h
    cases h
    exact C68_missing_column conv none o true c hc hn

/-- C68: the constructor replaces exactly the texts that stand for nothing in the text columns; other texts,
numbers and times in them are kept. -/
theorem C68_string_cleanup {K : Type} (toNumeric toTime : Val K → Val K) (c : String) (hc : c = "magnitude_type" ∨ c = "event_type") (v : Val K) :
    convertCell toNumeric toTime c v = match v with
      | .str s => if s ∈ ["", "nan", "NaN", "none", "None", "na", "Na", "NA", "null", "Null", "NULL"] then .na else .str s
      | v => v := by
  have h1 : "magnitude_type" ∉ numericCols := by decide
  have h2 : "event_type" ∉ numericCols := by decide
  rcases hc with rfl | rfl
  · unfold convertCell
    rw [if_neg h1, if_neg (by decide), if_pos (Or.inl rfl)]
    cases v <;> rfl
  · unfold convertCell
    rw [if_neg h2, if_neg (by decide), if_pos (Or.inr rfl)]
    cases v <;> rfl

/-- C68: cells of other columns than the numeric, time and text columns are never touched by the constructor. -/
theorem C68_other_cells_kept {K : Type} (toNumeric toTime : Val K → Val K) (c : String) (v : Val K)
    (h : c ∉ numericCols) (ht : c ≠ "time") (h1 : c ≠ "magnitude_type") (h2 : c ≠ "event_type") :
    convertCell toNumeric toTime c v = v := by
  unfold convertCell
  rw [if_neg h, if_neg ht, if_neg (by simp [h1, h2])]

/-- C68: without data, or with data without columns, the catalogue has the six columns of a catalogue and no events; otherwise the
constructor keeps the columns and the events in their order and converts every cell by itself. -/
theorem C68_constructor_content {K : Type} (toNumeric toTime : Val K → Val K) :
    (∀ data : Option (Frame (Val K)), (∀ f, data = some f → f.cols = []) →
      (Catalog.construct toNumeric toTime data).cols = ["longitude", "latitude", "depth", "time", "magnitude", "magnitude_type"] ∧
      (Catalog.construct toNumeric toTime data).rows = []) ∧
    ∀ f : Frame (Val K), f.cols ≠ [] → (Catalog.construct toNumeric toTime (some f)).cols = f.cols ∧
      List.Forall₂ (fun r r' => ∀ c, r' c = convertCell toNumeric toTime c (r c)) f.rows (Catalog.construct toNumeric toTime (some f)).rows := by
  constructor
  · intro data h
    unfold Catalog.construct
    cases data with
    | none => exact ⟨rfl, rfl⟩
    | some f => dsimp only; rw [if_pos (h f rfl)]; exact ⟨rfl, rfl⟩
  · intro f h
    unfold Catalog.construct
    dsimp only
    rw [if_neg h]
    refine ⟨rfl, ?_⟩
    dsimp only
    induction f.rows with
    | nil => exact .nil
    | cons r l ih => exact .cons (fun _ => rfl) ih

/-- C68: converting twice is converting once if the number and time parsers have that property. -/
theorem C68_conversion_idempotent {K : Type} (toNumeric toTime : Val K → Val K) (hn : ∀ v, toNumeric (toNumeric v) = toNumeric v)
    (ht : ∀ v, toTime (toTime v) = toTime v) (c : String) (v : Val K) :
    convertCell toNumeric toTime c (convertCell toNumeric toTime c v) = convertCell toNumeric toTime c v := by
  have hclean : ∀ v : Val K, cleanString (cleanString v) = cleanString v := by
    intro v
    cases v with
    | str s =>
      by_cases h : s ∈ nullStrings <;> simp [cleanString, h]
    | na => rfl
    | num x => rfl
    | time t => rfl
  unfold convertCell
  by_cases h1 : c ∈ numericCols
  · simp [h1, hn]
  · by_cases h2 : c = "time"
    · simp only [if_neg h1, if_pos h2, ht]
    · by_cases h3 : c = "magnitude_type" ∨ c = "event_type"
      · simp only [if_neg h1, if_neg h2, if_pos h3, hclean]
      · simp only [if_neg h1, if_neg h2, if_neg h3]

/-- C54: assigning a column in place sets the cells of this column, one for each event, and nothing else; a new column is the last one. -/
theorem C54_set_column (o : Obj V A) (c : String) (vals : List V) (h : vals.length = o.frame.rows.length) :
    (setItem o c vals).cls = o.cls ∧ (setItem o c vals).attrs = o.attrs ∧ (setItem o c vals).required = o.required ∧
    (setItem o c vals).frame.rows.map (fun r => r c) = vals ∧
    (∀ k, k ≠ c → (setItem o c vals).frame.rows.map (fun r => r k) = o.frame.rows.map fun r => r k) ∧
    (c ∈ o.frame.cols → (setItem o c vals).frame.cols = o.frame.cols) ∧
    (c ∉ o.frame.cols → (setItem o c vals).frame.cols = o.frame.cols ++ [c]) := by
  refine ⟨rfl, rfl, rfl, ?_, ?_, ?_, ?_⟩
  · apply List.ext_getElem
    · simp [setItem, h]
    · intro i hi hj; simp [setItem]
  · intro k hk
    apply List.ext_getElem
    · simp [setItem, h]
    · intro i hi hj; simp [setItem, hk]
  · intro hc
    exact if_pos hc
  · intro hc
    exact if_neg hc

/-- C68: a new ForecastCatalog (columns `magnitude` and `catalog_id`) requires the columns of a Catalog and `catalog_id`, so that `strip` keeps `catalog_id` and the
class. -/
theorem C68_strip_forecast (conv : String → V → V) (none : A) (f : Frame V)
    (h : ∀ c ∈ ["longitude", "latitude", "depth", "time", "magnitude", "magnitude_type", "catalog_id"], c ∈ f.cols) :
    ∃ o', strip conv none (newObj conv none f) false = (newObj conv none f, .ok (some o')) ∧ o'.cls = .forecast ∧
      ∀ c, c ∈ o'.frame.cols ↔ c ∈ ["longitude", "latitude", "depth", "time", "magnitude", "magnitude_type", "catalog_id"] := by
  have hmag : "magnitude" ∈ f.cols := h _ (by simp)
  have hid : "catalog_id" ∈ f.cols := h _ (by simp)
  have hcl : classOf f.cols = .forecast := by rw [classOf_eq, if_pos hmag, if_pos hid]
  have hreq : (newObj conv none f).required = ["longitude", "latitude", "depth", "time", "magnitude", "magnitude_type", "catalog_id"] := by
    unfold newObj
    rw [hcl]
    rfl
  have hcols : (newObj conv none f).frame.cols = f.cols := by
    unfold newObj
    rw [hcl]
    rfl
  have hk : (newObj conv none f).cls ≠ .plain := by rw [newObj_cls, hcl]; decide
  have hs := strip_eq conv none (newObj conv none f) false (fun c hc => by rw [hcols]; exact h c (by simp at hc ⊢; tauto))
  have hfc : ∀ c, c ∈ ((newObj conv none f).frame.drop fun c => !decide (c ∈ (newObj conv none f).required)).cols ↔
      c ∈ ["longitude", "latitude", "depth", "time", "magnitude", "magnitude_type", "catalog_id"] := by
    intro c
    rw [drop_not_required, List.mem_filter, hreq, hcols]
    constructor
    · rintro ⟨-, hc⟩; exact of_decide_eq_true hc
    · intro hc; exact ⟨h c hc, decide_eq_true hc⟩
  refine ⟨_, hs, ?_, ?_⟩
  · exact (C54_class conv none _ _ hk).1.2 ⟨(hfc _).2 (by simp), (hfc _).2 (by simp)⟩
  · intro c
    rw [← hfc c, C54_content]
    split <;> rfl

/-- C54 / C68, finding: a catalogue that gets a `catalog_id` column in place stays a Catalog; the next operation
makes it a ForecastCatalog, but one that still requires only the columns of a Catalog, so that `strip` drops
`catalog_id` and the result is no ForecastCatalog any more. -/
theorem C54_forecast_from_catalog (conv : String → V → V) (none : A) (o : Obj V A) (vals : List V)
    (hcls : o.cls = .catalog) (hreq : o.required = ["longitude", "latitude", "depth", "time", "magnitude", "magnitude_type"])
    (hcols : ∀ c ∈ ["longitude", "latitude", "depth", "time", "magnitude", "magnitude_type"], c ∈ o.frame.cols) :
    (setItem o "catalog_id" vals).cls = .catalog ∧
    (unary conv none (setItem o "catalog_id" vals) (setItem o "catalog_id" vals).frame).cls = .forecast ∧
    ∃ o', strip conv none (unary conv none (setItem o "catalog_id" vals) (setItem o "catalog_id" vals).frame) false =
        (unary conv none (setItem o "catalog_id" vals) (setItem o "catalog_id" vals).frame, .ok (some o')) ∧ o'.cls = .catalog := by
  have hp : (setItem o "catalog_id" vals).cls ≠ .plain := by
    show o.cls ≠ .plain
    rw [hcls]
    decide
  have hin : ∀ c ∈ o.frame.cols, c ∈ (setItem o "catalog_id" vals).frame.cols := by
    intro c hc
    show c ∈ if "catalog_id" ∈ o.frame.cols then o.frame.cols else o.frame.cols ++ ["catalog_id"]
    split
    · exact hc
    · exact List.mem_append_left _ hc
  have hid : "catalog_id" ∈ (setItem o "catalog_id" vals).frame.cols := by
    show "catalog_id" ∈ if "catalog_id" ∈ o.frame.cols then o.frame.cols else o.frame.cols ++ ["catalog_id"]
    split
    · assumption
    · simp
  have hmag : "magnitude" ∈ (setItem o "catalog_id" vals).frame.cols := hin _ (hcols _ (by simp))
  generalize hs : setItem o "catalog_id" vals = s at *
  have hsreq : s.required = ["longitude", "latitude", "depth", "time", "magnitude", "magnitude_type"] := by
    rw [← hs]; exact hreq
  have hscls : s.cls = .catalog := by rw [← hs]; exact hcls
  have hu : (unary conv none s s.frame).cls = .forecast := (C54_class conv none s s.frame hp).1.2 ⟨hmag, hid⟩
  have hcons : constructor conv none s s.frame = newObj conv none s.frame := by
    unfold constructor
    rw [hscls]
  have hk : (newObj conv none s.frame).cls ≠ .plain := by
    rw [newObj_cls, classOf_eq, if_pos hmag, if_pos hid]
    decide
  have hureq : (unary conv none s s.frame).required = ["longitude", "latitude", "depth", "time", "magnitude", "magnitude_type"] := by
    unfold unary
    rw [hcons, finalizeFrom_eq _ _ hk]
    dsimp only
    rw [if_neg hp, hsreq]
  have hucols : (unary conv none s s.frame).frame.cols = s.frame.cols := by
    rw [C54_content]
    split <;> rfl
  refine ⟨hscls, hu, unary conv none (unary conv none s s.frame)
    ((unary conv none s s.frame).frame.drop fun c => !decide (c ∈ (unary conv none s s.frame).required)), ?_, ?_⟩
  · rw [strip_eq _ _ _ _ (fun c hc => by rw [hucols]; exact hin _ (hcols c hc))]
    rfl
  · apply (C54_class conv none _ _ (by rw [hu]; decide)).2.1.2
    rw [drop_not_required, List.mem_filter, List.mem_filter, hureq, hucols]
    exact ⟨⟨hmag, by simp⟩, by simp⟩

/-- A catalogue with one event. -/
def sampleObj : Obj ℕ (Option ℕ) :=
  { cls := .catalog
    frame := { cols := ["longitude", "latitude", "depth", "time", "magnitude", "magnitude_type", "note"], rows := [fun _ => 3] }
    attrs := (metadata .catalog).map fun n => (n, if n = "mc" then some 2 else none)
    required := catalogColumns }

example : Complete sampleObj := by
  unfold Complete
  decide

example : getAttr none (unary (fun _ v => v) none sampleObj (dropIds sampleObj.frame)) "mc" = some 2 := by decide

example : (strip (fun _ v => v) none sampleObj true).1.frame.cols = catalogColumns := by decide

end SeismoStats.Props
