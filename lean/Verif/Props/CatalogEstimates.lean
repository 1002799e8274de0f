/-
Property C89: what `Catalog.estimate_b` and `Catalog.estimate_a` compute from the rows of a catalogue, with the estimator classes of the
package.
-/
import Verif.Model.CatalogEstimates
import Verif.Props.CatalogMethods
import Verif.Props.BValueMle
import Verif.Props.BValueWeights
import Verif.Props.BPositiveOrder
import Verif.Props.AValueRate
import Verif.Props.AValueState

namespace SeismoStats.Props
open SeismoStats SeismoStats.Catalog SeismoStats.CatalogEstimates
open Classical

/-! ### Specification: the rows as events -/

/-- The weight in a row (0 if it is no number). -/
noncomputable def weightIn (r : String → Val ℝ) : ℝ :=
  match r "weight" with
  | .num x => x
  | _ => 0

/-- The time in a row (0 if it is no time). -/
noncomputable def timeIn (r : String → Val ℝ) : ℝ :=
  match r "time" with
  | .time t => t
  | _ => 0

/-- The magnitude in a row, none if it is no number. -/
noncomputable def magIn (r : String → Val ℝ) : Option ℝ :=
  match r "magnitude" with
  | .num x => some x
  | _ => none

/-- A catalogue with magnitudes in which every row has a weight if there is a column of weights and a time if there is a column of times,
and whose columns do not have the names of other arguments. -/
structure Ordinary (f : Frame (Val ℝ)) : Prop where
  magnitude : "magnitude" ∈ f.cols
  weight : "weight" ∈ f.cols → ∀ r ∈ f.rows, ∃ x, r "weight" = .num x
  time : "time" ∈ f.cols → ∀ r ∈ f.rows, ∃ t, r "time" = .time t
  times : "times" ∉ f.cols
  dmc : "dmc" ∉ f.cols

/-- `dmc=x` in a call, or no such argument. -/
noncomputable def givenDmc : Option ℝ → Dict Argument
  | none => []
  | some x => [("dmc", .value (.num x))]

/-- `weights=w` in a call, or no such argument. -/
noncomputable def givenWeights : Option (List ℝ) → Option Argument
  | none => none
  | some w => some (.value (.list w))

/-- The weights that count: those of the call, else the column, else none. -/
noncomputable def weightsFrom (f : Frame (Val ℝ)) (w : Option (List ℝ)) : Option (List ℝ) :=
  match w with
  | some w => some w
  | none => if "weight" ∈ f.cols then some (f.rows.map weightIn) else none

/-- The times that count: those of the column `time`. -/
noncomputable def timesFrom (f : Frame (Val ℝ)) : Option (List ℝ) :=
  if "time" ∈ f.cols then some (f.rows.map timeIn) else none

/-- The classes that use differences of magnitudes in time. -/
def UsesTimes (c : BValue.Cls) : Prop := c = .positive ∨ c = .morePositive

/-! ### Reading the columns -/

theorem mags_column (f : Frame (Val ℝ)) : CatalogEstimates.mags (f.column "magnitude") = f.rows.map magIn := by
  unfold CatalogEstimates.mags Frame.column
  rw [List.map_map]
  apply List.map_congr_left
  intro r _
  show toNum (r "magnitude") = magIn r
  unfold magIn
  cases r "magnitude" <;> rfl

theorem mapM_real {f : Frame (Val ℝ)} {k : String} {g : (String → Val ℝ) → ℝ} (h : ∀ r ∈ f.rows, real (r k) = .ok (g r)) :
    (f.column k).mapM real = .ok (f.rows.map g) := by
  unfold Frame.column
  generalize f.rows = l at h
  induction l with
  | nil => rfl
  | cons r t ih =>
    rw [List.map_cons, List.mapM_cons, h r (by simp), ih fun x hx => h x (by simp [hx])]
    rfl

theorem array_weight {f : Frame (Val ℝ)} (h : ∀ r ∈ f.rows, ∃ x, r "weight" = .num x) :
    arrayArg (.column (f.column "weight")) = .ok (some (f.rows.map weightIn)) := by
  unfold arrayArg
  dsimp only
  rw [mapM_real (g := weightIn)]
  · rfl
  · intro r hr
    obtain ⟨x, hx⟩ := h r hr
    unfold weightIn
    rw [hx]
    rfl

theorem array_time {f : Frame (Val ℝ)} (h : ∀ r ∈ f.rows, ∃ t, r "time" = .time t) :
    arrayArg (.column (f.column "time")) = .ok (some (f.rows.map timeIn)) := by
  unfold arrayArg
  dsimp only
  rw [mapM_real (g := timeIn)]
  · rfl
  · intro r hr
    obtain ⟨x, hx⟩ := h r hr
    unfold timeIn
    rw [hx]
    rfl

/-- The columns found for the additional parameters. -/
theorem checkCols_extra (ref : List String) (f : Frame (Val ℝ)) (hr : "times" ∉ ref ∧ "dmc" ∉ ref) :
    checkCols (ref ++ ["times", "dmc"]) ref f =
      ([("times", "time"), ("dmc", "dmc"), ("times", "times"), ("dmc", "dmc")] : List (String × String)).foldl
        (fun d p => if p.2 ∈ f.cols then Dict.set d p.1 (f.column p.2) else d) ([] : Dict (List (Val ℝ))) := by
  have h : (ref ++ ["times", "dmc"]).filter (fun n => !decide (n ∈ ref)) = ["times", "dmc"] := by
    rw [List.filter_append, List.filter_eq_nil_iff.2 (by intro a ha; simp [ha]), List.nil_append,
      List.filter_eq_self.2]
    intro a ha
    rcases List.mem_cons.1 ha with rfl | ha
    · simp [hr.1]
    · rw [List.mem_singleton.1 ha]
      simp [hr.2]
  have hs : (["times", "dmc"] : List String).map singular = ["time", "dmc"] := by decide
  unfold checkCols
  dsimp only
  rw [h, hs]
  rfl

theorem checkCols_same (ref : List String) (f : Frame (Val ℝ)) : checkCols (ref ++ []) ref f = [] := by
  have h : (ref ++ []).filter (fun n => !decide (n ∈ ref)) = [] := by
    rw [List.append_nil, List.filter_eq_nil_iff]
    intro a ha
    simp [ha]
  unfold checkCols
  dsimp only
  rw [h]
  rfl

theorem checkCols_ordinary {f : Frame (Val ℝ)} (hf : Ordinary f) (ref : List String) (hr : "times" ∉ ref ∧ "dmc" ∉ ref) :
    checkCols (ref ++ ["times", "dmc"]) ref f = if "time" ∈ f.cols then [("times", f.column "time")] else [] := by
  rw [checkCols_extra ref f hr]
  simp only [List.foldl_cons, List.foldl_nil, if_neg hf.times, if_neg hf.dmc]
  rfl

/-- The keyword arguments of the estimator. -/
noncomputable def kwOf (f : Frame (Val ℝ)) (dmc : Option ℝ) : Dict Argument :=
  (if "time" ∈ f.cols then [("times", .column (f.column "time"))] else []) ++ givenDmc dmc

theorem kwargs_ordinary {f : Frame (Val ℝ)} (hf : Ordinary f) (ref : List String) (hr : "times" ∉ ref ∧ "dmc" ∉ ref) (dmc : Option ℝ) :
    allKwargs (ref ++ ["times", "dmc"]) ref f (givenDmc dmc) = kwOf f dmc := by
  unfold allKwargs kwOf
  rw [checkCols_ordinary hf ref hr]
  by_cases ht : "time" ∈ f.cols
  · rw [if_pos ht, if_pos ht]
    cases dmc <;> rfl
  · rw [if_neg ht, if_neg ht]
    cases dmc <;> rfl

theorem kwOf_times (f : Frame (Val ℝ)) (dmc : Option ℝ) :
    (kwOf f dmc).get? "times" = if "time" ∈ f.cols then some (.column (f.column "time")) else none := by
  unfold kwOf
  by_cases ht : "time" ∈ f.cols
  · rw [if_pos ht, if_pos ht]; rfl
  · rw [if_neg ht, if_neg ht]; cases dmc <;> rfl

theorem kwOf_dmc (f : Frame (Val ℝ)) (dmc : Option ℝ) : optional dmcArg ((kwOf f dmc).get? "dmc") = .ok dmc := by
  unfold kwOf
  by_cases ht : "time" ∈ f.cols
  · rw [if_pos ht]; cases dmc <;> rfl
  · rw [if_neg ht]; cases dmc <;> rfl

theorem kwOf_keys (f : Frame (Val ℝ)) (dmc : Option ℝ) : keysOk ["times", "dmc"] (kwOf f dmc) = .ok () := by
  unfold kwOf
  by_cases ht : "time" ∈ f.cols
  · rw [if_pos ht]; cases dmc <;> rfl
  · rw [if_neg ht]; cases dmc <;> rfl

theorem times_read {f : Frame (Val ℝ)} (hf : Ordinary f) (dmc : Option ℝ) :
    optional arrayArg ((kwOf f dmc).get? "times") = .ok (timesFrom f) := by
  rw [kwOf_times]
  unfold timesFrom
  by_cases ht : "time" ∈ f.cols
  · rw [if_pos ht, if_pos ht]
    exact array_time (hf.time ht)
  · rw [if_neg ht, if_neg ht]
    rfl

theorem weights_read {f : Frame (Val ℝ)} (hf : Ordinary f) (w : Option (List ℝ)) :
    optional arrayArg (chooseWeights true (givenWeights w) f) = .ok (weightsFrom f w) := by
  unfold chooseWeights weightsFrom givenWeights
  cases w with
  | some w => rfl
  | none =>
    by_cases hw : "weight" ∈ f.cols
    · simp only [Bool.not_true, Bool.false_eq_true, if_false, if_pos hw]
      exact array_weight (hf.weight hw)
    · simp only [Bool.not_true, Bool.false_eq_true, if_false, if_neg hw]
      rfl

/-! ### b-values -/

/-- The call of the estimator that `estimate_b` stands for. -/
noncomputable def bArgsOf (cls : BValue.Cls) (f : Frame (Val ℝ)) (mc δ : ℝ) (w : Option (List ℝ)) (dmc : Option ℝ) : BValue.Args :=
  { mags := f.rows.map magIn, mc := mc, δ := δ, weights := weightsFrom f w,
    times := if UsesTimes cls then timesFrom f else none, dmc := dmc }

theorem bCalculate_ordinary (cls : BValue.Cls) (warn : Bool) {f : Frame (Val ℝ)} (hf : Ordinary f) (mc δ : ℝ) (w : Option (List ℝ))
    (dmc : Option ℝ) (hd : UsesTimes cls ∨ dmc = none) :
    bCalculate cls warn (f.column "magnitude") (.fin mc) δ (chooseWeights true (givenWeights w) f)
        (allKwargs (bRef ++ bExtra cls) bRef f (givenDmc dmc)) =
      match BValue.calculate cls warn BValue.State.init (bArgsOf cls f mc δ w dmc) with
      | (_, .error e) => .error e
      | (s, .ok _) => .ok s := by
  unfold bCalculate
  have hr : "times" ∉ bRef ∧ "dmc" ∉ bRef := by decide
  by_cases hc : UsesTimes cls
  · have he : bExtra cls = ["times", "dmc"] := by rcases hc with rfl | rfl <;> rfl
    rw [he, kwargs_ordinary hf bRef hr, kwOf_keys, times_read hf, kwOf_dmc, weights_read hf, mags_column]
    unfold bArgsOf
    rw [if_pos hc]
    rfl
  · obtain rfl := hd.resolve_left hc
    have he : bExtra cls = [] := by
      cases cls with
      | classic => rfl
      | utsu => rfl
      | positive => exact absurd (Or.inl rfl) hc
      | morePositive => exact absurd (Or.inr rfl) hc
    have hk : allKwargs (bRef ++ []) bRef f (givenDmc none) = [] := by
      unfold allKwargs
      rw [checkCols_same]
      rfl
    rw [he, hk, weights_read hf, mags_column]
    unfold bArgsOf
    rw [if_neg hc]
    rfl

theorem bOf_readings {s : BValue.State} {r : Fl ℝ} (h : s.bValue = .ok r) : s.b = some r := by
  unfold BValue.State.bValue at h
  cases hb : s.b with
  | none => rw [hb] at h; cases h
  | some b => rw [hb] at h; rw [Except.ok.inj h]

/-- C89: `estimate_b` with any of the four classes is the class's `calculate` on the rows: the magnitudes, the weights of the call or else of
the column `weight`, and for b-positive and b-more-positive the times of the column `time`, found by themselves. The b-value is stored, nothing
else is changed; if `calculate` raises, nothing is changed. -/
theorem C89_estimate_b (cls : BValue.Cls) (warn : Bool) (c : Ct) (hf : Ordinary c.frame) (mcArg : Option (Fl ℝ)) (δArg : Option ℝ) (mc δ : ℝ)
    (h1 : Stands mcArg c.mc (.fin mc)) (h2 : Stands δArg c.deltaM δ) (w : Option (List ℝ)) (dmc : Option ℝ) (hd : UsesTimes cls ∨ dmc = none) :
    estimateB c mcArg δArg (givenWeights w) (bMethod cls warn) (givenDmc dmc) =
      match BValue.calculate cls warn BValue.State.init (bArgsOf cls c.frame mc δ w dmc) with
      | (_, .error e) => (c, .error e)
      | (s, .ok r) => ({ c with bValue := some r }, .ok s) := by
  unfold estimateB
  rw [C57_runs _ _ _ _ _ (by simpa using hf.magnitude)]
  unfold bCall
  rw [(resolve_ok _ _ _).2 h1, (resolve_ok _ _ _).2 h2]
  have hc : (bMethod cls warn).call (c.frame.column "magnitude") (.fin mc) δ (chooseWeights (bMethod cls warn).weightsSupported (givenWeights w) c.frame)
      (allKwargs (bMethod cls warn).sig bRef c.frame (givenDmc dmc)) = _ := bCalculate_ordinary cls warn hf mc δ w dmc hd
  simp only [bind, Except.bind]
  rw [hc]
  cases hk : BValue.calculate cls warn BValue.State.init (bArgsOf cls c.frame mc δ w dmc) with
  | mk s v =>
    cases v with
    | error e => rfl
    | ok r =>
      have hb := (C12_readings warn .init (bArgsOf cls c.frame mc δ w dmc) (r := r) (by rw [hk])).1
      rw [hk] at hb
      dsimp only at hb ⊢
      have e : (bMethod cls warn).bValue s = some r := bOf_readings hb
      rw [e]

/-- The stored b-value and the value of the estimator after `estimate_b`. -/
theorem estimate_b_result (cls : BValue.Cls) (warn : Bool) (c : Ct) (hf : Ordinary c.frame) (mcArg : Option (Fl ℝ)) (δArg : Option ℝ) (mc δ : ℝ)
    (h1 : Stands mcArg c.mc (.fin mc)) (h2 : Stands δArg c.deltaM δ) (w : Option (List ℝ)) (dmc : Option ℝ) (hd : UsesTimes cls ∨ dmc = none) :
    (estimateB c mcArg δArg (givenWeights w) (bMethod cls warn) (givenDmc dmc)).1.bValue =
        (match (BValue.calculate cls warn BValue.State.init (bArgsOf cls c.frame mc δ w dmc)).2 with
        | .error _ => c.bValue
        | .ok r => some r) ∧
      (estimateB c mcArg δArg (givenWeights w) (bMethod cls warn) (givenDmc dmc)).2.bind BValue.State.bValue =
        (BValue.calculate cls warn BValue.State.init (bArgsOf cls c.frame mc δ w dmc)).2 := by
  rw [C89_estimate_b cls warn c hf mcArg δArg mc δ h1 h2 w dmc hd]
  cases hk : BValue.calculate cls warn BValue.State.init (bArgsOf cls c.frame mc δ w dmc) with
  | mk s v =>
    cases v with
    | error e => exact ⟨rfl, rfl⟩
    | ok r =>
      have hb := (C12_readings warn .init (bArgsOf cls c.frame mc δ w dmc) (r := r) (by rw [hk])).1
      rw [hk] at hb
      exact ⟨rfl, hb⟩

/-- C89: the classic `estimate_b` stores the maximum-likelihood b-value of the rows with a magnitude of at least mc - delta_m/2, each with its
weight in the column `weight` (1 if there is none): every other value has a smaller likelihood. -/
theorem C89_maximum_likelihood (warn : Bool) (c : Ct) (hf : Ordinary c.frame) (mcArg : Option (Fl ℝ)) (δArg : Option ℝ) (mc δ : ℝ)
    (h1 : Stands mcArg c.mc (.fin mc)) (h2 : Stands δArg c.deltaM δ) (E : List (ℝ × ℝ))
    (hE : E = Spec.selected (c.frame.rows.map magIn) (c.frame.rows.map fun r => if "weight" ∈ c.frame.cols then weightIn r else 1) (mc - δ / 2))
    (hb : c.frame.rows = [] ∨ binningTest (c.frame.rows.map magIn) δ (1 / 10 ^ 15) false = .ok true)
    (hw : "weight" ∈ c.frame.cols → ∀ r ∈ c.frame.rows, 0 ≤ weightIn r) (ht : 0 < Spec.total E) (hm : mc < Spec.wmean E) :
    ∃ b, (estimateB c mcArg δArg none (bMethod .classic warn) []).1 = { c with bValue := some (.fin b) } ∧ 0 < b ∧
      ∀ β, 0 < β → β ≠ b * Real.log 10 → Spec.logLik (law mc δ) E β < Spec.logLik (law mc δ) E (b * Real.log 10) := by
  have hE' : eventsOf (bArgsOf .classic c.frame mc δ none none) = E := by
    rw [hE]
    unfold eventsOf weightsOf bArgsOf weightsFrom
    dsimp only
    by_cases h : "weight" ∈ c.frame.cols
    · rw [if_pos h]
      simp only [if_pos h]
      rfl
    · rw [if_neg h]
      simp only [if_neg h, Option.getD_none, List.map_map]
      rfl
  have ha : Accepted (bArgsOf .classic c.frame mc δ none none) := by
    refine ⟨hb.imp (fun h => by unfold bArgsOf; rw [h]; rfl) id, ?_⟩
    intro w h
    unfold bArgsOf weightsFrom at h
    dsimp only at h
    by_cases hh : "weight" ∈ c.frame.cols
    · rw [if_pos hh] at h
      obtain rfl := Option.some.inj h
      refine ⟨by simp [bArgsOf], ?_⟩
      intro x hx
      obtain ⟨r, hr, rfl⟩ := List.mem_map.1 hx
      exact hw hh r hr
    · rw [if_neg hh] at h
      cases h
  obtain ⟨b, e, hb0, hmax⟩ := C13_classic_is_mle warn .init (bArgsOf .classic c.frame mc δ none none) ha (by rw [hE']; exact ht) (by rw [hE']; exact hm)
  have hk := C89_estimate_b .classic warn c hf mcArg δArg mc δ h1 h2 none none (Or.inr rfl)
  refine ⟨b, ?_, hb0, ?_⟩
  · have : (estimateB c mcArg δArg none (bMethod .classic warn) []) = _ := hk
    rw [this]
    cases hh : BValue.calculate .classic warn BValue.State.init (bArgsOf .classic c.frame mc δ none none) with
    | mk s v =>
      rw [hh] at e
      dsimp only at e
      rw [e]
  · rw [hE'] at hmax
    exact hmax

theorem Ordinary.perm {f : Frame (Val ℝ)} (hf : Ordinary f) {rows : List (String → Val ℝ)} (h : f.rows.Perm rows) :
    Ordinary { f with rows := rows } :=
  ⟨hf.magnitude, fun hw r hr => hf.weight hw r (h.mem_iff.2 hr), fun ht r hr => hf.time ht r (h.mem_iff.2 hr), hf.times, hf.dmc⟩

theorem b_perm (cls : BValue.Cls) (warn : Bool) (f : Frame (Val ℝ)) (mc δ : ℝ) (dmc : Option ℝ) (hd : UsesTimes cls ∨ dmc = none)
    {rows : List (String → Val ℝ)} (h : f.rows.Perm rows) (ht : UsesTimes cls → "time" ∈ f.cols ∧ (f.rows.map timeIn).Nodup) :
    (BValue.calculate cls warn BValue.State.init (bArgsOf cls { f with rows := rows } mc δ none dmc)).2 =
      (BValue.calculate cls warn BValue.State.init (bArgsOf cls f mc δ none dmc)).2 := by
  by_cases hc : UsesTimes cls
  · obtain ⟨h1, h2⟩ := ht hc
    have e : ∀ l : List (String → Val ℝ), bArgsOf cls { f with rows := l } mc δ none dmc =
        timed (l.map fun r => (magIn r, weightIn r, timeIn r)) (decide ("weight" ∈ f.cols)) mc δ dmc := by
      intro l
      unfold bArgsOf timed weightsFrom timesFrom
      dsimp only
      rw [if_pos hc, if_pos h1, List.map_map, List.map_map, List.map_map]
      by_cases hw : "weight" ∈ f.cols
      · rw [if_pos hw, if_pos (by simpa using hw)]
        rfl
      · rw [if_neg hw, if_neg (by simpa using hw)]
        rfl
    have e0 := e f.rows
    rw [e, show bArgsOf cls f mc δ none dmc = _ from e0]
    refine (C23_permutation hc warn BValue.State.init _ _ _ mc δ dmc (h.map _) ?_).1.symm
    rw [List.map_map]
    exact h2
  · obtain rfl := hd.resolve_left hc
    have hcl : cls = .classic ∨ cls = .utsu := by
      cases cls with
      | classic => exact Or.inl rfl
      | utsu => exact Or.inr rfl
      | positive => exact absurd (Or.inl rfl) hc
      | morePositive => exact absurd (Or.inr rfl) hc
    by_cases hw : "weight" ∈ f.cols
    · have e : ∀ l : List (String → Val ℝ), bArgsOf cls { f with rows := l } mc δ none none =
          weighted (l.map fun r => (magIn r, weightIn r)) mc δ := by
        intro l
        unfold bArgsOf weighted weightsFrom
        dsimp only
        rw [if_neg hc, if_pos hw, List.map_map, List.map_map]
        rfl
      have e0 := e f.rows
      rw [e, show bArgsOf cls f mc δ none none = _ from e0]
      exact (C16_weighted hcl warn .init _ _ mc δ (h.map _)).1.symm
    · have e : ∀ l : List (String → Val ℝ), bArgsOf cls { f with rows := l } mc δ none none = unweighted (l.map magIn) mc δ := by
        intro l
        unfold bArgsOf unweighted weightsFrom
        dsimp only
        rw [if_neg hc, if_neg hw]
      have e0 := e f.rows
      rw [e, show bArgsOf cls f mc δ none none = _ from e0]
      exact (C16_unweighted hcl warn .init _ _ mc δ (h.map _)).1.symm

/-- C89: the order of the rows does not matter: a catalogue sorted in another way gives the same b-value or the same exception, and stores the
same b-value, with every class, as b-positive and b-more-positive take the times from the catalogue (distinct times). -/
theorem C89_row_order (cls : BValue.Cls) (warn : Bool) (c : Ct) (hf : Ordinary c.frame) (mcArg : Option (Fl ℝ)) (δArg : Option ℝ) (mc δ : ℝ)
    (h1 : Stands mcArg c.mc (.fin mc)) (h2 : Stands δArg c.deltaM δ) (dmc : Option ℝ) (hd : UsesTimes cls ∨ dmc = none)
    (rows : List (String → Val ℝ)) (h : c.frame.rows.Perm rows)
    (ht : UsesTimes cls → "time" ∈ c.frame.cols ∧ (c.frame.rows.map timeIn).Nodup) (c' : Ct)
    (hc' : c' = { c with frame := { c.frame with rows := rows } }) :
    (estimateB c' mcArg δArg none (bMethod cls warn) (givenDmc dmc)).1.bValue =
        (estimateB c mcArg δArg none (bMethod cls warn) (givenDmc dmc)).1.bValue ∧
      (estimateB c' mcArg δArg none (bMethod cls warn) (givenDmc dmc)).2.bind BValue.State.bValue =
        (estimateB c mcArg δArg none (bMethod cls warn) (givenDmc dmc)).2.bind BValue.State.bValue := by
  subst hc'
  obtain ⟨a1, a2⟩ := estimate_b_result cls warn c hf mcArg δArg mc δ h1 h2 none dmc hd
  obtain ⟨b1, b2⟩ := estimate_b_result cls warn { c with frame := { c.frame with rows := rows } } (hf.perm h) mcArg δArg mc δ h1 h2 none dmc hd
  have e := b_perm cls warn c.frame mc δ dmc hd h ht
  rw [e] at b1 b2
  exact ⟨b1.trans a1.symm, b2.trans a2.symm⟩

/-! ### Names of columns -/

/-- C89, finding: a column named `dmc` is taken for the argument `dmc`: with such a column b-positive and b-more-positive always raise a
ValueError, unless the caller gives the argument. -/
theorem C89_defect_dmc_column (cls : BValue.Cls) (hcls : UsesTimes cls) (warn : Bool) (c : Ct) (hm : "magnitude" ∈ c.frame.cols)
    (hd : "dmc" ∈ c.frame.cols) (ht : "time" ∈ c.frame.cols → ∀ r ∈ c.frame.rows, ∃ t, r "time" = .time t) (hts : "times" ∉ c.frame.cols)
    (mcArg : Option (Fl ℝ)) (δArg : Option ℝ) (w : Option Argument) :
    estimateB c mcArg δArg w (bMethod cls warn) [] = (c, .error .valueError) := by
  unfold estimateB
  rw [C57_runs _ _ _ _ _ (by simpa using hm)]
  have key : bCall c mcArg δArg w (bMethod cls warn) [] = .error .valueError := by
    unfold bCall
    cases h1 : resolve mcArg c.mc with
    | error e =>
      have : e = .valueError := by
        cases mcArg <;> cases hh : c.mc <;> rw [hh] at h1 <;> cases h1 <;> rfl
      rw [this]; rfl
    | ok mc =>
      cases h2 : resolve δArg c.deltaM with
      | error e =>
        have : e = .valueError := by
          cases δArg <;> cases hh : c.deltaM <;> rw [hh] at h2 <;> cases h2 <;> rfl
        rw [this]; rfl
      | ok δ =>
        have he : bExtra cls = ["times", "dmc"] := by rcases hcls with rfl | rfl <;> rfl
        have hk : allKwargs (A := Extra) (bRef ++ bExtra cls) bRef c.frame [] =
            (if "time" ∈ c.frame.cols then [("times", Arg.column (c.frame.column "time"))] else []) ++ [("dmc", Arg.column (c.frame.column "dmc"))] := by
          unfold allKwargs
          rw [he, checkCols_extra bRef c.frame (by decide)]
          simp only [List.foldl_cons, List.foldl_nil, if_neg hts, if_pos hd]
          by_cases h : "time" ∈ c.frame.cols
          · rw [if_pos h, if_pos h]; rfl
          · rw [if_neg h, if_neg h]; rfl
        show bCalculate cls warn (c.frame.column "magnitude") mc δ (chooseWeights true w c.frame) (allKwargs (bRef ++ bExtra cls) bRef c.frame []) = _
        unfold bCalculate
        rw [hk, he]
        by_cases h : "time" ∈ c.frame.cols
        · rw [if_pos h]
          have e1 : optional arrayArg (Dict.get? ([("times", Arg.column (c.frame.column "time"))] ++ [("dmc", Arg.column (c.frame.column "dmc"))]) "times") = .ok (some (c.frame.rows.map timeIn)) :=
            array_time (ht h)
          rw [e1]
          rfl
        · rw [if_neg h]
          rfl
  rw [key]

/-- C89, limit: a column named `weights` is not used: the result is that of the catalogue without it. -/
theorem C89_limit_weights_column (cls : BValue.Cls) (warn : Bool) (c c' : Ct) (hf : Ordinary c.frame) (hw : "weight" ∉ c.frame.cols)
    (hc : c'.frame.cols = c.frame.cols.filter fun k => !decide (k = "weights")) (hr : c'.frame.rows = c.frame.rows) (h1' : c'.mc = c.mc) (h2' : c'.deltaM = c.deltaM)
    (mcArg : Option (Fl ℝ)) (δArg : Option ℝ) (mc δ : ℝ) (h1 : Stands mcArg c.mc (.fin mc)) (h2 : Stands δArg c.deltaM δ) (dmc : Option ℝ)
    (hd : UsesTimes cls ∨ dmc = none) :
    (estimateB c' mcArg δArg none (bMethod cls warn) (givenDmc dmc)).2 = (estimateB c mcArg δArg none (bMethod cls warn) (givenDmc dmc)).2 := by
  have hmem : ∀ k, k ≠ "weights" → (k ∈ c'.frame.cols ↔ k ∈ c.frame.cols) := by
    intro k hk
    rw [hc, List.mem_filter]
    simp [hk]
  have hf' : Ordinary c'.frame := by
    refine ⟨(hmem _ (by decide)).2 hf.magnitude, fun h => absurd ((hmem _ (by decide)).1 h) hw, fun h r hr' => ?_, fun h => hf.times ((hmem _ (by decide)).1 h), fun h => hf.dmc ((hmem _ (by decide)).1 h)⟩
    exact hf.time ((hmem _ (by decide)).1 h) r (by rw [← hr]; exact hr')
  have e : bArgsOf cls c'.frame mc δ none dmc = bArgsOf cls c.frame mc δ none dmc := by
    unfold bArgsOf weightsFrom timesFrom
    rw [hr, if_neg hw, if_neg (fun h => hw ((hmem _ (by decide)).1 h))]
    simp only [hmem "time" (by decide)]
  have k1 := C89_estimate_b cls warn c hf mcArg δArg mc δ h1 h2 none dmc hd
  have k2 := C89_estimate_b cls warn c' hf' mcArg δArg mc δ (by rw [h1']; exact h1) (by rw [h2']; exact h2) none dmc hd
  rw [show (none : Option Argument) = givenWeights none from rfl, k1, k2, e]
  cases hk : BValue.calculate cls warn BValue.State.init (bArgsOf cls c.frame mc δ none dmc) with
  | mk s v => cases v <;> rfl

/-! ### a-values -/

/-- The call of the estimator that `estimate_a` stands for. -/
noncomputable def aArgsOf (cls : AValue.Cls) (f : Frame (Val ℝ)) (mc δ : ℝ) (scaling mRef b dmc : Option ℝ) : AValue.Args :=
  { mags := f.rows.map magIn, mc := mc, δ := δ, times := if cls = .classic then [] else f.rows.map timeIn, scaling := scaling, mref := mRef, b := b, dmc := dmc }

/-- A finite number as an argument, or no argument. -/
noncomputable def asFloat (x : Option ℝ) : Option (Fl ℝ) := x.map .fin

theorem finiteOpt_asFloat (x : Option ℝ) : finiteOpt (asFloat x) = .ok x := by
  cases x <;> rfl

theorem aRef_extra : "times" ∉ aRef ∧ "dmc" ∉ aRef := by decide

theorem aCalculate_ordinary (cls : AValue.Cls) (warn : Bool) {f : Frame (Val ℝ)} (hf : Ordinary f) (mc δ : ℝ) (scaling mRef b dmc : Option ℝ)
    (hd : cls ≠ .classic ∧ "time" ∈ f.cols ∨ cls = .classic ∧ dmc = none) :
    aCalculate cls warn (f.column "magnitude") (.fin mc) δ (asFloat scaling) (asFloat mRef) (asFloat b) (allKwargs (aRef ++ aExtra cls) aRef f (givenDmc dmc)) =
      match AValue.calculate cls warn AValue.State.init (aArgsOf cls f mc δ scaling mRef b dmc) with
      | (_, .error e) => .error e
      | (s, .ok _) => .ok s := by
  unfold aCalculate
  rw [finiteOpt_asFloat, finiteOpt_asFloat, finiteOpt_asFloat, mags_column]
  rcases hd with ⟨hc, ht⟩ | ⟨rfl, rfl⟩
  · have he : aExtra cls = ["times", "dmc"] := by
      cases cls with
      | classic => exact absurd rfl hc
      | positive => rfl
      | morePositive => rfl
    have ha : aTimes cls (kwOf f dmc) = .ok (f.rows.map timeIn) := by
      have e : aTimes cls (kwOf f dmc) = (match (kwOf f dmc).get? "times" with
          | none => .error .typeError
          | some x => do
            let t ← arrayArg x
            match t with
            | none => .error .indexError
            | some t => pure t) := by
        cases cls with
        | classic => exact absurd rfl hc
        | positive => rfl
        | morePositive => rfl
      rw [e, kwOf_times, if_pos ht]
      dsimp only
      rw [array_time (hf.time ht)]
      rfl
    rw [he, kwargs_ordinary hf aRef aRef_extra, kwOf_keys, ha, kwOf_dmc]
    unfold aArgsOf
    rw [if_neg hc]
    rfl
  · have hk : allKwargs (aRef ++ []) aRef f (givenDmc none) = [] := by
      unfold allKwargs
      rw [checkCols_same]
      rfl
    rw [show aExtra .classic = [] from rfl, hk]
    unfold aArgsOf
    rw [if_pos rfl]
    rfl

theorem aOf_readings {s : AValue.State} {r : Fl ℝ} (h : s.aValue = .ok r) : s.a = some r := by
  unfold AValue.State.aValue at h
  cases hb : s.a with
  | none => rw [hb] at h; cases h
  | some b => rw [hb] at h; rw [Except.ok.inj h]

/-- C89: `estimate_a` with any of the three classes is the class's `calculate` on the magnitudes of the rows, for a-positive and a-more-positive
with the times of the column `time`. The a-value is stored, nothing else is changed; if `calculate` raises, nothing is changed. -/
theorem C89_estimate_a (cls : AValue.Cls) (warn : Bool) (c : Ct) (hf : Ordinary c.frame) (mcArg : Option (Fl ℝ)) (δArg : Option ℝ) (mc δ : ℝ)
    (h1 : Stands mcArg c.mc (.fin mc)) (h2 : Stands δArg c.deltaM δ) (scaling mRef b dmc : Option ℝ)
    (hd : cls ≠ .classic ∧ "time" ∈ c.frame.cols ∨ cls = .classic ∧ dmc = none) :
    estimateA c mcArg δArg (asFloat scaling) (asFloat mRef) (asFloat b) (aMethod cls warn) (givenDmc dmc) =
      match AValue.calculate cls warn AValue.State.init (aArgsOf cls c.frame mc δ scaling mRef b dmc) with
      | (_, .error e) => (c, .error e)
      | (s, .ok r) => ({ c with aValue := some r }, .ok s) := by
  unfold estimateA
  rw [C57_runs _ _ _ _ _ (by simpa using hf.magnitude)]
  unfold aCall
  rw [(resolve_ok _ _ _).2 h1, (resolve_ok _ _ _).2 h2]
  have hc : (aMethod cls warn).call (c.frame.column "magnitude") (.fin mc) δ (asFloat scaling) (asFloat mRef) (asFloat b)
      (allKwargs (aMethod cls warn).sig aRef c.frame (givenDmc dmc)) = _ := aCalculate_ordinary cls warn hf mc δ scaling mRef b dmc hd
  simp only [bind, Except.bind]
  rw [hc]
  cases hk : AValue.calculate cls warn AValue.State.init (aArgsOf cls c.frame mc δ scaling mRef b dmc) with
  | mk s v =>
    cases v with
    | error e => rfl
    | ok r =>
      have hb := (C70_readings warn .init (aArgsOf cls c.frame mc δ scaling mRef b dmc) (r := r) (by rw [hk])).1
      rw [hk] at hb
      dsimp only at hb ⊢
      have e : (aMethod cls warn).aValue s = some r := aOf_readings hb
      rw [e]

theorem estimate_a_result (cls : AValue.Cls) (warn : Bool) (c : Ct) (hf : Ordinary c.frame) (mcArg : Option (Fl ℝ)) (δArg : Option ℝ) (mc δ : ℝ)
    (h1 : Stands mcArg c.mc (.fin mc)) (h2 : Stands δArg c.deltaM δ) (scaling mRef b dmc : Option ℝ)
    (hd : cls ≠ .classic ∧ "time" ∈ c.frame.cols ∨ cls = .classic ∧ dmc = none) :
    (estimateA c mcArg δArg (asFloat scaling) (asFloat mRef) (asFloat b) (aMethod cls warn) (givenDmc dmc)).1 =
        (match (AValue.calculate cls warn AValue.State.init (aArgsOf cls c.frame mc δ scaling mRef b dmc)).2 with
        | .error _ => c
        | .ok r => { c with aValue := some r }) ∧
      (estimateA c mcArg δArg (asFloat scaling) (asFloat mRef) (asFloat b) (aMethod cls warn) (givenDmc dmc)).2.bind AValue.State.aValue =
        (AValue.calculate cls warn AValue.State.init (aArgsOf cls c.frame mc δ scaling mRef b dmc)).2 := by
  rw [C89_estimate_a cls warn c hf mcArg δArg mc δ h1 h2 scaling mRef b dmc hd]
  cases hk : AValue.calculate cls warn AValue.State.init (aArgsOf cls c.frame mc δ scaling mRef b dmc) with
  | mk s v =>
    cases v with
    | error e => exact ⟨rfl, rfl⟩
    | ok r =>
      have hb := (C70_readings warn .init (aArgsOf cls c.frame mc δ scaling mRef b dmc) (r := r) (by rw [hk])).1
      rw [hk] at hb
      exact ⟨rfl, hb⟩

/-- C89: the classic `estimate_a` stores the logarithm of the number of rows with a magnitude of at least mc - delta_m/2. -/
theorem C89_count (warn : Bool) (c : Ct) (hf : Ordinary c.frame) (mcArg : Option (Fl ℝ)) (δArg : Option ℝ) (mc δ : ℝ)
    (h1 : Stands mcArg c.mc (.fin mc)) (h2 : Stands δArg c.deltaM δ) (n : ℕ)
    (hn : n = (c.frame.rows.filter fun r => decide (∃ x, r "magnitude" = .num x ∧ mc - δ / 2 ≤ x)).length) (hpos : 0 < n)
    (hb : binningTest (c.frame.rows.map magIn) δ (1 / 10 ^ 15) false = .ok true) :
    ∃ a : ℝ, (estimateA c mcArg δArg none none none (aMethod .classic warn) []).1 = { c with aValue := some (.fin a) } ∧ (10 : ℝ) ^ a = n := by
  have hcount : countAbove (c.frame.rows.map magIn) (mc - δ / 2) = n := by
    rw [hn]
    unfold countAbove
    rw [List.countP_map, List.countP_eq_length_filter]
    congr 1
    apply List.filter_congr
    intro r _
    show (match magIn r with | some m => decide (mc - δ / 2 ≤ m) | none => false) = _
    unfold magIn
    cases hm : r "magnitude" with
    | num x => dsimp only; rw [decide_eq_decide]; constructor
               · exact fun h => ⟨x, rfl, h⟩
               · rintro ⟨y, hy, h⟩; cases hy; exact h
    | na => symm; simp
    | str s => symm; simp
    | time t => symm; simp
  obtain ⟨a, s', e, he, -⟩ := C28_count warn AValue.State.init (aArgsOf .classic c.frame mc δ none none none none) (Or.inr hb)
    (by show 0 < countAbove (c.frame.rows.map magIn) (mc - δ / 2); rw [hcount]; exact hpos)
  have hp : AValue.calculate .classic warn AValue.State.init (aArgsOf .classic c.frame mc δ none none none none) = (s', .ok (.fin a)) := e
  have hk := (estimate_a_result .classic warn c hf mcArg δArg mc δ h1 h2 none none none none (Or.inr ⟨rfl, rfl⟩)).1
  rw [hp] at hk
  refine ⟨a, hk, ?_⟩
  rw [he]
  exact congrArg Nat.cast hcount

/-- C89: the order of the rows does not matter for `estimate_a` either (distinct times). -/
theorem C89_row_order_a (cls : AValue.Cls) (warn : Bool) (c : Ct) (hf : Ordinary c.frame) (mcArg : Option (Fl ℝ)) (δArg : Option ℝ) (mc δ : ℝ)
    (h1 : Stands mcArg c.mc (.fin mc)) (h2 : Stands δArg c.deltaM δ) (scaling mRef b dmc : Option ℝ)
    (hd : cls ≠ .classic ∧ "time" ∈ c.frame.cols ∨ cls = .classic ∧ dmc = none) (rows : List (String → Val ℝ)) (h : c.frame.rows.Perm rows)
    (ht : cls ≠ .classic → (c.frame.rows.map timeIn).Nodup) (c' : Ct) (hc' : c' = { c with frame := { c.frame with rows := rows } }) :
    (estimateA c' mcArg δArg (asFloat scaling) (asFloat mRef) (asFloat b) (aMethod cls warn) (givenDmc dmc)).1.aValue =
        (estimateA c mcArg δArg (asFloat scaling) (asFloat mRef) (asFloat b) (aMethod cls warn) (givenDmc dmc)).1.aValue ∧
      (estimateA c' mcArg δArg (asFloat scaling) (asFloat mRef) (asFloat b) (aMethod cls warn) (givenDmc dmc)).2.bind AValue.State.aValue =
        (estimateA c mcArg δArg (asFloat scaling) (asFloat mRef) (asFloat b) (aMethod cls warn) (givenDmc dmc)).2.bind AValue.State.aValue := by
  subst hc'
  obtain ⟨a1, a2⟩ := estimate_a_result cls warn c hf mcArg δArg mc δ h1 h2 scaling mRef b dmc hd
  obtain ⟨b1, b2⟩ := estimate_a_result cls warn { c with frame := { c.frame with rows := rows } } (hf.perm h) mcArg δArg mc δ h1 h2 scaling mRef b dmc hd
  have e : (AValue.calculate cls warn AValue.State.init (aArgsOf cls { c.frame with rows := rows } mc δ scaling mRef b dmc)).2 =
      (AValue.calculate cls warn AValue.State.init (aArgsOf cls c.frame mc δ scaling mRef b dmc)).2 := by
    by_cases hc : cls = .classic
    · subst hc
      exact C28_order warn AValue.State.init (aArgsOf .classic c.frame mc δ scaling mRef b dmc) (rows.map magIn) (h.map _)
    · have e : ∀ l : List (String → Val ℝ), aArgsOf cls { c.frame with rows := l } mc δ scaling mRef b dmc =
          onEvents (aArgsOf cls c.frame mc δ scaling mRef b dmc) (l.map fun r => (magIn r, timeIn r)) := by
        intro l
        unfold aArgsOf onEvents
        dsimp only
        rw [if_neg hc, List.map_map, List.map_map]
        rfl
      have e0 := e c.frame.rows
      rw [e]
      conv_rhs => rw [show aArgsOf cls c.frame mc δ scaling mRef b dmc = _ from e0]
      refine (a_permutation cls warn AValue.State.init _ _ _ (h.map _) ?_).symm
      rw [List.map_map]
      exact ht hc
  rw [e] at b1 b2
  refine ⟨?_, b2.trans a2.symm⟩
  rw [a1, b1]
  cases (AValue.calculate cls warn AValue.State.init (aArgsOf cls c.frame mc δ scaling mRef b dmc)).2 <;> rfl

/-- C89: without a column of times a-positive and a-more-positive raise a TypeError (b-positive goes by the order of the rows). -/
theorem C89_no_times (cls : AValue.Cls) (hc : cls ≠ .classic) (warn : Bool) (c : Ct) (hf : Ordinary c.frame) (ht : "time" ∉ c.frame.cols)
    (mcArg : Option (Fl ℝ)) (δArg : Option ℝ) (mc : Fl ℝ) (δ : ℝ) (h1 : Stands mcArg c.mc mc) (h2 : Stands δArg c.deltaM δ) (scaling mRef b : Option (Fl ℝ)) (dmc : Option ℝ) :
    estimateA c mcArg δArg scaling mRef b (aMethod cls warn) (givenDmc dmc) = (c, .error .typeError) := by
  unfold estimateA
  rw [C57_runs _ _ _ _ _ (by simpa using hf.magnitude)]
  unfold aCall
  rw [(resolve_ok _ _ _).2 h1, (resolve_ok _ _ _).2 h2]
  have he : aExtra cls = ["times", "dmc"] := by
    cases cls with
    | classic => exact absurd rfl hc
    | positive => rfl
    | morePositive => rfl
  have key : aCalculate cls warn (c.frame.column "magnitude") mc δ scaling mRef b (allKwargs (aRef ++ aExtra cls) aRef c.frame (givenDmc dmc)) = .error .typeError := by
    unfold aCalculate
    rw [he, kwargs_ordinary hf aRef aRef_extra, kwOf_keys]
    have ha : aTimes cls (kwOf c.frame dmc) = .error .typeError := by
      have hg : (kwOf c.frame dmc).get? "times" = none := by rw [kwOf_times, if_neg ht]
      cases cls with
      | classic => exact absurd rfl hc
      | positive => unfold aTimes; dsimp only; rw [hg]
      | morePositive => unfold aTimes; dsimp only; rw [hg]
    rw [ha]
    rfl
  have key' : (aMethod cls warn).call (c.frame.column "magnitude") mc δ scaling mRef b (allKwargs (aMethod cls warn).sig aRef c.frame (givenDmc dmc)) = .error .typeError := key
  simp only [bind, Except.bind]
  rw [key']

/-- C89, finding: `estimate_a` with the a-more-positive class raises a ValueError if no b-value is given in the call, also if the catalogue has
a b-value. -/
theorem C89_defect_stored_b (warn : Bool) (c : Ct) (hf : Ordinary c.frame) (ht : "time" ∈ c.frame.cols) (mcArg : Option (Fl ℝ)) (δArg : Option ℝ) (mc δ : ℝ)
    (h1 : Stands mcArg c.mc (.fin mc)) (h2 : Stands δArg c.deltaM δ) (scaling mRef dmc : Option ℝ) :
    estimateA c mcArg δArg (asFloat scaling) (asFloat mRef) none (aMethod .morePositive warn) (givenDmc dmc) = (c, .error .valueError) := by
  have h := C89_estimate_a .morePositive warn c hf mcArg δArg mc δ h1 h2 scaling mRef none dmc (Or.inl ⟨by decide, ht⟩)
  rw [show asFloat none = none from rfl] at h
  rw [h]
  unfold AValue.calculate aArgsOf
  simp

/-! ### An example -/

/-- A row with a magnitude, a time and a weight. -/
noncomputable def quakeRow (m : Val ℝ) (t w : ℝ) : String → Val ℝ := fun k =>
  if k = "magnitude" then m else if k = "time" then .time t else if k = "weight" then .num w else .na

theorem quakeRow_magnitude (m : Val ℝ) (t w : ℝ) : quakeRow m t w "magnitude" = m := rfl

theorem quakeRow_time (m : Val ℝ) (t w : ℝ) : quakeRow m t w "time" = .time t := by
  unfold quakeRow
  rw [if_neg (by decide), if_pos rfl]

theorem quakeRow_weight (m : Val ℝ) (t w : ℝ) : quakeRow m t w "weight" = .num w := by
  unfold quakeRow
  rw [if_neg (by decide), if_neg (by decide), if_pos rfl]

/-- Four events, one without a magnitude, latest first; mc and delta_m are known. -/
noncomputable def quakes : Ct :=
  { frame := { cols := ["magnitude", "time", "weight"], rows := [quakeRow (.num 2) 4 2, quakeRow (.num 1) 3 1, quakeRow .na 2 1, quakeRow (.num 0) 1 5] },
    mc := some (.fin 1), deltaM := some 1 }

theorem quakes_ordinary : Ordinary quakes.frame := by
  refine ⟨by decide, fun _ r hr => ?_, fun _ r hr => ?_, by decide, by decide⟩
  · simp only [quakes, List.mem_cons, List.not_mem_nil, or_false] at hr
    rcases hr with rfl | rfl | rfl | rfl <;> exact ⟨_, quakeRow_weight _ _ _⟩
  · simp only [quakes, List.mem_cons, List.not_mem_nil, or_false] at hr
    rcases hr with rfl | rfl | rfl | rfl <;> exact ⟨_, quakeRow_time _ _ _⟩

theorem quakes_mags : quakes.frame.rows.map magIn = [some 2, some 1, none, some 0] := rfl

theorem quakes_weights : quakes.frame.rows.map weightIn = [2, 1, 1, 5] := by
  simp [quakes, weightIn, quakeRow_weight]

theorem quakes_times : quakes.frame.rows.map timeIn = [4, 3, 2, 1] := by
  simp [quakes, timeIn, quakeRow_time]

theorem quakes_binned : binningTest (quakes.frame.rows.map magIn) 1 (1 / 10 ^ 15) false = .ok true := by
  rw [quakes_mags]
  have := C08_grid_accepted (K := ℝ) [some 2, some 1, none, some 0] 0 1 (1 / 10 ^ 15) (by norm_num) (by norm_num) ⟨2, by simp⟩
  simpa using this

theorem quakes_events :
    Spec.selected (quakes.frame.rows.map magIn) (quakes.frame.rows.map fun r => if "weight" ∈ quakes.frame.cols then weightIn r else 1) (1 - 1 / 2) =
      [(2, 2), (1, 1)] := by
  have h : (quakes.frame.rows.map fun r => if "weight" ∈ quakes.frame.cols then weightIn r else 1) = [2, 1, 1, 5] := by
    rw [← quakes_weights]
    apply List.map_congr_left
    intro r _
    rw [if_pos (by decide)]
  rw [quakes_mags, h]
  have h0 : ¬ ((1 : ℝ) ≤ 2⁻¹) := by norm_num
  have h1 : (1 : ℝ) ≤ 2 + 2⁻¹ := by norm_num
  have h2 : (1 : ℝ) - 1 / 2 ≤ 2 := by norm_num
  simp [Spec.selected, h0, h1]

/-- C89 applies: the b-value of the two events at or above 0.5, of weights 2 and 1, is stored. -/
example : ∃ b, (estimateB quakes none none none (bMethod .classic true) []).1 = { quakes with bValue := some (.fin b) } ∧ 0 < b := by
  obtain ⟨b, h1, h2, -⟩ := C89_maximum_likelihood true quakes quakes_ordinary none none 1 1 (Or.inr ⟨rfl, rfl⟩) (Or.inr ⟨rfl, rfl⟩) _ rfl
    (Or.inr quakes_binned) (fun _ r hr => by
      have : weightIn r ∈ quakes.frame.rows.map weightIn := List.mem_map_of_mem hr
      rw [quakes_weights] at this
      simp only [List.mem_cons, List.not_mem_nil, or_false] at this
      rcases this with h | h | h | h <;> rw [h] <;> norm_num)
    (by rw [quakes_events]; norm_num [Spec.total]) (by rw [quakes_events]; norm_num [Spec.wmean])
  exact ⟨b, h1, h2⟩

/-- C89 applies: two events are counted. -/
example : ∃ a : ℝ, (estimateA quakes none none none none none (aMethod .classic true) []).1 = { quakes with aValue := some (.fin a) } ∧ (10 : ℝ) ^ a = 2 := by
  have e1 : (1 : ℝ) - 1 / 2 ≤ 2 := by norm_num
  have e2 : (1 : ℝ) - 1 / 2 ≤ 1 := by norm_num
  have e3 : ¬ (1 : ℝ) - 1 / 2 ≤ 0 := by norm_num
  have hn : 2 = (quakes.frame.rows.filter fun r => decide (∃ x, r "magnitude" = .num x ∧ (1 : ℝ) - 1 / 2 ≤ x)).length := by
    simp only [quakes]
    rw [List.filter_cons_of_pos (by rw [decide_eq_true_iff]; exact ⟨2, rfl, e1⟩), List.filter_cons_of_pos (by rw [decide_eq_true_iff]; exact ⟨1, rfl, e2⟩),
      List.filter_cons_of_neg (by rw [decide_eq_true_iff]; rintro ⟨x, h, -⟩; cases h), List.filter_cons_of_neg (by rw [decide_eq_true_iff]; rintro ⟨x, h, h'⟩; cases h; exact e3 h')]
    rfl
  have := C89_count true quakes quakes_ordinary none none 1 1 (Or.inr ⟨rfl, rfl⟩) (Or.inr ⟨rfl, rfl⟩) 2 hn (by norm_num) quakes_binned
  simpa using this

/-- C89 applies: the times of the example are distinct, so that the catalogue can be reversed. -/
example : "time" ∈ quakes.frame.cols ∧ (quakes.frame.rows.map timeIn).Nodup ∧ quakes.frame.rows.Perm quakes.frame.rows.reverse := by
  refine ⟨by decide, ?_, (List.reverse_perm _).symm⟩
  rw [quakes_times]
  norm_num

/-- C89 applies: a catalogue with a column `dmc`, and one with a column `weights`. -/
example : "dmc" ∈ (["magnitude", "dmc"] : List String) ∧ "times" ∉ (["magnitude", "dmc"] : List String) ∧
    Ordinary { cols := ["magnitude", "weights"], rows := [quakeRow (.num 2) 4 2] } ∧ "weight" ∉ (["magnitude", "weights"] : List String) := by
  refine ⟨by decide, by decide, ⟨by decide, fun h => absurd h (by decide), fun h => absurd h (by decide), by decide, by decide⟩, by decide⟩

end SeismoStats.Props
