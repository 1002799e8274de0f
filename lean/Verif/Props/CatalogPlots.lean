/-
Property C90: the plot methods of `Catalog`.
-/
import Verif.Model.CatalogPlots
import Verif.Props.CatalogEstimates
import Verif.Props.PlotFmd
import Verif.Props.PlotSeries
import Verif.Props.PlotBasics
import Verif.Props.PlotSeismicity

namespace SeismoStats.Props
open SeismoStats SeismoStats.Catalog SeismoStats.CatalogEstimates
open Classical

/-- Which value counts: the argument if it is given, else the attribute of the catalogue (which may be missing too). -/
def Counts {T : Type} (arg attr value : Option T) : Prop := (∃ x, arg = some x ∧ value = some x) ∨ arg = none ∧ value = attr

theorem orAttr_counts {T : Type} {arg attr value : Option T} (h : Counts arg attr value) : CatalogPlots.orAttr arg attr = value := by
  rcases h with ⟨x, rfl, rfl⟩ | ⟨rfl, rfl⟩ <;> rfl

/-! ### Frequency-magnitude distribution -/

/-- C90: `plot_cum_fmd` of a catalogue draws what the function of the same name draws for its magnitudes, with completeness magnitude, bin size
and b-value of the call or else of the catalogue; the catalogue is not changed. -/
theorem C90_cum_fmd (c : Ct) (hm : "magnitude" ∈ c.frame.cols) (mcArg bArg : Option (Fl ℝ)) (binArg : Option ℝ) (w : Option (List ℝ)) (pos : BinPos)
    (mc b δ : Option ℝ) (h1 : Counts mcArg c.mc (asFloat mc)) (h2 : Counts binArg c.deltaM δ) (h3 : Counts bArg c.bValue (asFloat b)) :
    CatalogPlots.plotCumFmd c mcArg binArg w bArg pos = (c, PlotBasics.plotCumFmd (c.frame.rows.map magIn) mc δ w b pos) := by
  unfold CatalogPlots.plotCumFmd
  rw [C57_runs _ _ _ _ _ (by simpa using hm)]
  rw [orAttr_counts h1, orAttr_counts h2, orAttr_counts h3, finiteOpt_asFloat, finiteOpt_asFloat, mags_column]
  rfl

/-- C90: `plot_fmd` likewise; the bin size is always that of the call. -/
theorem C90_fmd (c : Ct) (hm : "magnitude" ∈ c.frame.cols) (δ : ℝ) (w : Option (List ℝ)) (pos : BinPos) :
    CatalogPlots.plotFmd c δ w pos = (c, PlotBasics.plotFmd (c.frame.rows.map magIn) δ w pos) := by
  unfold CatalogPlots.plotFmd
  rw [C57_runs _ _ _ _ _ (by simpa using hm), mags_column]

/-- The magnitudes of the catalogue that are numbers. -/
theorem mem_mags {f : Frame (Val ℝ)} {x : ℝ} : x ∈ (f.rows.map magIn).filterMap id ↔ ∃ r ∈ f.rows, r "magnitude" = .num x := by
  rw [List.mem_filterMap]
  constructor
  · rintro ⟨o, ho, hx⟩
    obtain ⟨r, hr, rfl⟩ := List.mem_map.1 ho
    refine ⟨r, hr, ?_⟩
    unfold magIn at hx
    cases hm : r "magnitude" with
    | num y => rw [hm] at hx; rw [Option.some.inj hx]
    | na => rw [hm] at hx; cases hx
    | str s => rw [hm] at hx; cases hx
    | time t => rw [hm] at hx; cases hx
  · rintro ⟨r, hr, hx⟩
    refine ⟨magIn r, List.mem_map_of_mem hr, ?_⟩
    unfold magIn
    rw [hx]
    rfl

theorem forall₂_left {α β : Type} {R : α → β → Prop} {l : List α} {r : List β} (h : List.Forall₂ R l r) {x : α} (hx : x ∈ l) : ∃ y ∈ r, R x y := by
  induction h with
  | nil => cases hx
  | @cons a b l r hab _ ih =>
    rcases List.mem_cons.1 hx with rfl | hx
    · exact ⟨b, by simp, hab⟩
    · obtain ⟨y, hy, hr⟩ := ih hx
      exact ⟨y, by simp [hy], hr⟩

theorem fmdBinned_near {δ : ℝ} {mags mb : List ℝ} (h : FmdBinned δ mags mb) {x : ℝ} (hx : x ∈ mags) : ∃ v ∈ mb, v ≤ x + δ := by
  rcases h with ⟨h0, rfl⟩ | ⟨h0, h⟩
  · exact ⟨x, hx, by rw [h0]; linarith⟩
  · have hp : 0 < δ := lt_of_lt_of_le (by positivity) h0
    obtain ⟨v, hv, -, hr, -⟩ := forall₂_left h hx
    refine ⟨v, hv, ?_⟩
    have : (1 / 2 + 1 / 10 ^ 12) * δ ≤ 1 * δ := mul_le_mul_of_nonneg_right (by norm_num) hp.le
    linarith

/-- Without a completeness magnitude the line reaches down to every event (up to a bin). -/
theorem line_reaches (mags : List (Option ℝ)) (δ : Option ℝ) (b : ℝ) (pos : BinPos) (hδ : δ.getD 0 = 0 ∨ 1 / 10 ^ 12 ≤ δ.getD 0) (hpos : pos ≠ .other)
    {x : ℝ} (hx : x ∈ mags.filterMap id) :
    ∃ d l, PlotBasics.plotCumFmd mags none δ none (some b) pos = .ok d ∧ d.line = some l ∧ ∃ q ∈ l, centreOf pos (δ.getD 0) q.1 ≤ x + δ.getD 0 := by
  have hne : mags.filterMap id ≠ [] := List.ne_nil_of_mem hx
  obtain ⟨bins, cc, mb, h1, h2, h3⟩ := cumFmd_shape _ _ none pos hδ hne hpos (by simp [effWeights])
  obtain ⟨v, hv, hvx⟩ := fmdBinned_near h2 hx
  obtain ⟨m, hm⟩ := exists_amin (List.ne_nil_of_mem hv)
  have hleast := (amin?_eq_some_iff _ _).1 hm
  have hδ0 : 0 ≤ δ.getD 0 := by
    rcases hδ with h | h
    · exact h.ge
    · exact le_trans (by positivity) h
  have hmv : ∀ u ∈ mb, m - δ.getD 0 / 2 ≤ u := by
    intro u hu
    have := hleast.2 hu
    linarith
  obtain ⟨d, l, p, e1, e2, -, -, e3, -⟩ := C71_line_starts_on_data mags none δ b pos hδ hpos m mb ⟨bins, cc, h1⟩ (Or.inr ⟨rfl, hleast⟩) ⟨v, hv, hmv v hv⟩
  refine ⟨d, l, e1, e2, ?_⟩
  have hsc : d.scatter = bins.zip cc := by
    unfold PlotBasics.plotCumFmd at e1
    simp only [h1, bind, Except.bind] at e1
    split at e1
    · cases e1
    · rw [← Except.ok.inj e1]
  obtain ⟨y, hy, hc⟩ := h3.all v hv
  have hyl : y ∈ l.map Prod.fst := by
    rw [e3]
    unfold lineXs
    rw [hsc, List.map_fst_zip (by rw [h3.length]), List.mem_filter, decide_eq_true_eq]
    refine ⟨hy, ?_⟩
    rw [← hc]
    exact hmv v hv
  obtain ⟨q, hq, rfl⟩ := List.mem_map.1 hyl
  exact ⟨q, hq, by rw [← hc]; exact hvx⟩

/-- C90, finding: a b-value that `estimate_b` has stored for a completeness magnitude of the call is drawn over a different range: the call has
not stored the completeness magnitude, and the line of `plot_cum_fmd` reaches down to the smallest event. -/
theorem C90_defect_line_of_b (cls : BValue.Cls) (warn : Bool) (c : Ct) (hf : Ordinary c.frame) (hmc : c.mc = none) (δ m b : ℝ) (hd : c.deltaM = some δ)
    (hδ : δ = 0 ∨ 1 / 10 ^ 12 ≤ δ) (pos : BinPos) (hpos : pos ≠ .other) (x : ℝ) (hx : ∃ r ∈ c.frame.rows, r "magnitude" = .num x) (hlow : x + δ < m)
    (he : (estimateB c (some (.fin m)) none none (bMethod cls warn) []).1.bValue = some (.fin b)) (hok : ∃ s, (estimateB c (some (.fin m)) none none (bMethod cls warn) []).2 = .ok s) :
    ∃ d l, CatalogPlots.plotCumFmd (estimateB c (some (.fin m)) none none (bMethod cls warn) []).1 none none none none pos =
        ((estimateB c (some (.fin m)) none none (bMethod cls warn) []).1, .ok d) ∧ d.line = some l ∧ ∃ q ∈ l, centreOf pos δ q.1 < m := by
  have h1 : estimateB c (some (.fin m)) none none (bMethod cls warn) [] = _ :=
    C89_estimate_b cls warn c hf (some (.fin m)) none m δ (Or.inl rfl) (Or.inr ⟨rfl, hd⟩) none none (Or.inr rfl)
  have h2 : ∃ s, estimateB c (some (.fin m)) none none (bMethod cls warn) [] = ({ c with bValue := some (.fin b) }, .ok s) := by
    rw [h1] at he hok ⊢
    cases hk : BValue.calculate cls warn BValue.State.init (bArgsOf cls c.frame m δ none none) with
    | mk s v =>
      rw [hk] at he hok
      cases v with
      | error e => obtain ⟨_, h⟩ := hok; cases h
      | ok r =>
        dsimp only at he ⊢
        rw [Option.some.inj he]
        exact ⟨s, rfl⟩
  obtain ⟨s, h2⟩ := h2
  rw [h2]
  obtain ⟨d, l, e1, e2, q, hq, e3⟩ := line_reaches (c.frame.rows.map magIn) (some δ) b pos hδ hpos (mem_mags.2 hx)
  refine ⟨d, l, ?_, e2, q, hq, lt_of_le_of_lt e3 hlow⟩
  rw [C90_cum_fmd { c with bValue := some (.fin b) } hf.magnitude none none none none pos none (some b) (some δ) (Or.inr ⟨rfl, hmc.symm⟩)
    (Or.inr ⟨rfl, hd.symm⟩) (Or.inr ⟨rfl, rfl⟩), e1]

/-! ### Cumulative count -/

/-- Python's `min` beginning with a number passes over NaN: the smallest number. -/
theorem minFold (l : List (Option ℝ)) (x : ℝ) : ∃ m, l.foldl CatalogPlots.minStep (some x) = some m ∧ IsLeast {v | some v ∈ some x :: l} m := by
  induction l generalizing x with
  | nil => exact ⟨x, rfl, by simp, fun v hv => by simp at hv; exact hv.ge⟩
  | cons o l ih =>
    cases o with
    | none =>
      obtain ⟨m, h1, h2, h3⟩ := ih x
      refine ⟨m, h1, ?_, ?_⟩
      · simp only [Set.mem_setOf_eq, List.mem_cons] at h2 ⊢
        tauto
      · intro v hv
        apply h3
        simp only [Set.mem_setOf_eq, List.mem_cons] at hv ⊢
        rcases hv with h | h | h
        · exact Or.inl h
        · cases h
        · exact Or.inr h
    | some y =>
      have hs : CatalogPlots.minStep (some x) (some y) = some (min x y) := by
        unfold CatalogPlots.minStep
        dsimp only
        by_cases h : y < x
        · rw [if_pos h, min_eq_right h.le]
        · rw [if_neg h, min_eq_left (not_lt.1 h)]
      obtain ⟨m, h1, h2, h3⟩ := ih (min x y)
      refine ⟨m, by rw [List.foldl_cons, hs, h1], ?_, ?_⟩
      · simp only [Set.mem_setOf_eq, List.mem_cons, Option.some.injEq] at h2 ⊢
        rcases h2 with h | h
        · rcases min_choice x y with e | e
          · left; rw [h, e]
          · right; left; rw [h, e]
        · exact Or.inr (Or.inr h)
      · intro v hv
        simp only [Set.mem_setOf_eq, List.mem_cons, Option.some.injEq] at hv
        have hm : m ≤ min x y := h3 (by simp)
        rcases hv with rfl | rfl | h
        · exact hm.trans (min_le_left _ _)
        · exact hm.trans (min_le_right _ _)
        · exact h3 (by simp [h])

/-- The times of all rows. -/
theorem real_time {f : Frame (Val ℝ)} (h : ∀ r ∈ f.rows, ∃ t, r "time" = .time t) : (f.column "time").mapM real = .ok (f.rows.map timeIn) := by
  apply mapM_real
  intro r hr
  obtain ⟨x, hx⟩ := h r hr
  unfold timeIn
  rw [hx]
  rfl

theorem selected_low (times : List ℝ) (mags : List (Option ℝ)) (w : List ℝ) (mc δ low : ℝ) (h : low < mc - δ / 2) :
    CatalogPlots.selected times mags w (some mc) δ = PlotBasics.selected times (mags.map fun o => o.getD low) w mc δ := by
  unfold CatalogPlots.selected PlotBasics.selected
  congr 1
  rw [List.zip_map_right, List.filter_map, List.map_map]
  have e1 : (Prod.fst ∘ Prod.map id fun o : Option ℝ => o.getD low : (ℝ × ℝ) × Option ℝ → ℝ × ℝ) = Prod.fst := by
    funext p; rfl
  rw [e1]
  congr 1
  apply List.filter_congr
  rintro ⟨p, o⟩ _
  cases o with
  | none =>
    simp [CatalogPlots.aboveMc]
    linarith
  | some v => simp [CatalogPlots.aboveMc]

theorem cumLine_low (times : List ℝ) (mags : List (Option ℝ)) (w : List ℝ) (first last δ : ℝ) (normalize : Bool) (mc low : ℝ) (h : low < mc - δ / 2) :
    CatalogPlots.cumLine times mags w first last δ normalize (some mc) = PlotBasics.cumLine times (mags.map fun o => o.getD low) w first last δ normalize mc := by
  unfold CatalogPlots.cumLine PlotBasics.cumLine
  rw [selected_low _ _ _ _ _ _ h, List.length_map]

theorem cumCount_low (times : List ℝ) (mags : List (Option ℝ)) (mcs : List ℝ) (δ : Option ℝ) (w : Option (List ℝ)) (normalize : Bool) (colors : Option ℕ) (low : ℝ)
    (h : ∀ mc ∈ mcs, low < mc - δ.getD 0 / 2) :
    CatalogPlots.cumCount times mags (some mcs) δ w normalize colors = PlotBasics.plotCumCount times (mags.map fun o => o.getD low) (some mcs) δ w normalize colors := by
  unfold CatalogPlots.cumCount PlotBasics.plotCumCount
  cases amin? times with
  | none => rfl
  | some first =>
    cases amax? times with
    | none => rfl
    | some last =>
      have key : (mcs.map some).mapM (CatalogPlots.cumLine times mags (w.getD (times.map fun _ => 1)) first last (δ.getD 0) normalize) =
          mcs.mapM (PlotBasics.cumLine times (mags.map fun o => o.getD low) (w.getD (times.map fun _ => 1)) first last (δ.getD 0) normalize) := by
        clear colors
        induction mcs with
        | nil => rfl
        | cons mc mcs ih =>
          rw [List.map_cons, List.mapM_cons, List.mapM_cons, cumLine_low _ _ _ _ _ _ _ _ _ (h mc (by simp)), ih fun m hm => h m (by simp [hm])]
      dsimp only [CatalogPlots.mcList, bind, Except.bind]
      rw [key, List.length_map]
      cases colors with
      | none => rfl
      | some k =>
        unfold CatalogPlots.checkColors
        dsimp only
        by_cases hk : k ≠ mcs.length
        · rw [if_pos hk, if_pos hk]
        · rw [if_neg hk, if_neg hk]

/-- C90: `plot_cum_count` of a catalogue with given completeness magnitudes draws what the function of the same name draws for its times and
magnitudes, an event without a magnitude being taken as one below all completeness magnitudes; the bin size is that of the call or else of the
catalogue, weights are those of the call only, and the catalogue is not changed. -/
theorem C90_cum_count (c : Ct) (hm : "magnitude" ∈ c.frame.cols) (ht : "time" ∈ c.frame.cols) (htime : ∀ r ∈ c.frame.rows, ∃ t, r "time" = .time t)
    (mcs : List ℝ) (δArg δ : Option ℝ) (hδ : Counts δArg c.deltaM δ) (w : Option (List ℝ)) (normalize : Bool) (colors : Option ℕ) (low : ℝ)
    (h : ∀ mc ∈ mcs, low < mc - δ.getD 0 / 2) :
    CatalogPlots.plotCumCount c (some mcs) δArg w normalize colors =
      (c, PlotBasics.plotCumCount (c.frame.rows.map timeIn) (c.frame.rows.map fun r => (magIn r).getD low) (some mcs) δ w normalize colors) := by
  unfold CatalogPlots.plotCumCount
  rw [C57_runs _ _ _ _ _ (by
    intro k hk _
    rcases List.mem_cons.1 hk with rfl | hk
    · exact ht
    · rw [List.mem_singleton.1 hk]; exact hm)]
  rw [orAttr_counts hδ, real_time htime, mags_column]
  show (c, CatalogPlots.cumCount (c.frame.rows.map timeIn) (c.frame.rows.map magIn) (some mcs) δ w normalize colors) = _
  rw [cumCount_low _ _ _ _ _ _ _ low h, List.map_map]
  rfl

/-- C90: without completeness magnitudes that of all events with a magnitude is taken, provided that the first event has one. -/
theorem C90_cum_count_all (c : Ct) (r0 : String → Val ℝ) (rest : List (String → Val ℝ)) (hr : c.frame.rows = r0 :: rest) (x0 : ℝ) (h0 : r0 "magnitude" = .num x0)
    (m : ℝ) (hmin : IsLeast {x | ∃ r ∈ c.frame.rows, r "magnitude" = .num x} m) (δArg : Option ℝ) (w : Option (List ℝ)) (normalize : Bool) (colors : Option ℕ) :
    CatalogPlots.plotCumCount c none δArg w normalize colors = CatalogPlots.plotCumCount c (some [m]) δArg w normalize colors := by
  have key : CatalogPlots.mcList (c.frame.rows.map magIn) none = CatalogPlots.mcList (c.frame.rows.map magIn) (some [m]) := by
    have hx : magIn r0 = some x0 := by unfold magIn; rw [h0]
    obtain ⟨m', e1, e2⟩ := minFold (rest.map magIn) x0
    have hset : {v | some v ∈ some x0 :: rest.map magIn} = {x | ∃ r ∈ c.frame.rows, r "magnitude" = .num x} := by
      ext v
      rw [← hx, ← List.map_cons, ← hr, Set.mem_setOf_eq, Set.mem_setOf_eq, ← mem_mags, List.mem_filterMap]
      simp
    rw [hset] at e2
    obtain rfl := hmin.unique e2
    unfold CatalogPlots.mcList CatalogPlots.pyMin
    rw [hr, List.map_cons, hx]
    dsimp only
    rw [e1]
    rfl
  unfold CatalogPlots.plotCumCount requireCols
  by_cases hc : hasCols (effective ["time", "magnitude"] []) c.frame.cols = true
  · rw [if_pos hc, if_pos hc]
    dsimp only
    rw [mags_column]
    unfold CatalogPlots.cumCount
    rw [key]
  · rw [if_neg hc, if_neg hc]

theorem nan_fold (l : List (Option ℝ)) : l.foldl CatalogPlots.minStep none = none := by
  induction l with
  | nil => rfl
  | cons o l ih => cases o <;> exact ih

/-- C90, finding: if the first event of the catalogue has no magnitude, `plot_cum_count` without completeness magnitudes draws nothing, whatever
the other events are. -/
theorem C90_defect_first_nan (c : Ct) (hm : "magnitude" ∈ c.frame.cols) (ht : "time" ∈ c.frame.cols) (htime : ∀ r ∈ c.frame.rows, ∃ t, r "time" = .time t)
    (r0 : String → Val ℝ) (rest : List (String → Val ℝ)) (hr : c.frame.rows = r0 :: rest) (h0 : r0 "magnitude" = .na) (δArg : Option ℝ) (normalize : Bool) :
    CatalogPlots.plotCumCount c none δArg none normalize none = (c, .ok [none]) := by
  unfold CatalogPlots.plotCumCount
  rw [C57_runs _ _ _ _ _ (by
    intro k hk _
    rcases List.mem_cons.1 hk with rfl | hk
    · exact ht
    · rw [List.mem_singleton.1 hk]; exact hm)]
  rw [real_time htime, mags_column]
  have hx : magIn r0 = none := by unfold magIn; rw [h0]
  have hne : c.frame.rows.map timeIn ≠ [] := by rw [hr]; simp
  obtain ⟨first, hf⟩ := exists_amin hne
  obtain ⟨last, hl⟩ := exists_amax hne
  have hmc : CatalogPlots.mcList (c.frame.rows.map magIn) none = .ok [none] := by
    unfold CatalogPlots.mcList CatalogPlots.pyMin
    rw [hr, List.map_cons, hx]
    dsimp only
    rw [nan_fold]
    rfl
  have hs : ∀ w δ, CatalogPlots.selected (c.frame.rows.map timeIn) (c.frame.rows.map magIn) w none δ = [] := by
    intro w δ
    unfold CatalogPlots.selected
    rw [List.filter_eq_nil_iff.2 (by intro p _; simp [CatalogPlots.aboveMc])]
    rfl
  show (c, CatalogPlots.cumCount (c.frame.rows.map timeIn) (c.frame.rows.map magIn) none (CatalogPlots.orAttr δArg c.deltaM) none normalize none) = _
  unfold CatalogPlots.cumCount
  rw [hf, hl]
  dsimp only
  rw [hmc]
  have hline : CatalogPlots.cumLine (c.frame.rows.map timeIn) (c.frame.rows.map magIn) ((c.frame.rows.map timeIn).map fun _ => 1) first last
      ((CatalogPlots.orAttr δArg c.deltaM).getD 0) normalize none = .ok none := by
    unfold CatalogPlots.cumLine
    rw [if_neg (by simp), hs]
    dsimp only
    rw [if_neg (by simp [PlotBasics.cumulative, cumsumFrom])]
  simp only [bind, Except.bind, CatalogPlots.checkColors, Option.getD_none]
  rw [List.mapM_cons, hline]
  rfl

/-! ### b-value against completeness magnitude -/

/-- C90: `plot_mc_vs_b` of a catalogue draws what the function of the same name draws for its magnitudes, with the bin size of the call or else
of the catalogue; the catalogue is not changed. -/
theorem C90_mc_vs_b (ppf : ℝ → ℝ) (ω : ℕ → List (List ℕ)) (warn : Bool) (c : Ct) (hm : "magnitude" ∈ c.frame.cols) (mcs : List ℝ) (δArg : Option ℝ) (δ : ℝ)
    (hδ : Counts δArg c.deltaM (some δ)) (cls : BValue.Cls) (conf : ℝ) (dmc : Option ℝ) :
    CatalogPlots.plotMcVsB ppf ω warn c mcs δArg cls conf dmc = (c, PlotStatistical.plotMcVsB ppf cls ω warn (c.frame.rows.map magIn) mcs δ dmc conf) := by
  unfold CatalogPlots.plotMcVsB
  rw [C57_runs _ _ _ _ _ (by simpa using hm), orAttr_counts hδ, mags_column]
  rfl

/-- C90: without a bin size in the call and in the catalogue `plot_mc_vs_b` raises a TypeError, except if there is no completeness magnitude to draw. -/
theorem C90_mc_vs_b_no_bin (ppf : ℝ → ℝ) (ω : ℕ → List (List ℕ)) (warn : Bool) (c : Ct) (hm : "magnitude" ∈ c.frame.cols) (hd : c.deltaM = none) (mcs : List ℝ)
    (cls : BValue.Cls) (conf : ℝ) (dmc : Option ℝ) :
    CatalogPlots.plotMcVsB ppf ω warn c mcs none cls conf dmc = (c, if mcs = [] then Except.ok [] else Except.error PyErr.typeError) := by
  unfold CatalogPlots.plotMcVsB
  rw [C57_runs _ _ _ _ _ (by simpa using hm), hd]
  rfl

/-- C90, limit: only the magnitudes and their order count for `plot_mc_vs_b`: the columns of weights and times, which `estimate_b` uses, do not. -/
theorem C90_limit_mc_vs_b (ppf : ℝ → ℝ) (ω : ℕ → List (List ℕ)) (warn : Bool) (c c' : Ct) (hm : "magnitude" ∈ c.frame.cols) (hm' : "magnitude" ∈ c'.frame.cols)
    (hδ : c'.deltaM = c.deltaM) (h : c'.frame.rows.map (fun r => r "magnitude") = c.frame.rows.map (fun r => r "magnitude"))
    (mcs : List ℝ) (δArg : Option ℝ) (cls : BValue.Cls) (conf : ℝ) (dmc : Option ℝ) :
    (CatalogPlots.plotMcVsB ppf ω warn c' mcs δArg cls conf dmc).2 = (CatalogPlots.plotMcVsB ppf ω warn c mcs δArg cls conf dmc).2 := by
  unfold CatalogPlots.plotMcVsB
  rw [C57_runs _ _ _ _ _ (by simpa using hm'), C57_runs _ _ _ _ _ (by simpa using hm), hδ]
  have e : c'.frame.column "magnitude" = c.frame.column "magnitude" := h
  rw [e]

/-! ### Map and magnitudes in time -/

/-- The longitude in a row, and likewise the latitude (0 if it is no number). -/
noncomputable def numIn (k : String) (r : String → Val ℝ) : ℝ :=
  match r k with
  | .num x => x
  | _ => 0

theorem real_num {f : Frame (Val ℝ)} {k : String} (h : ∀ r ∈ f.rows, ∃ x, r k = .num x) : (f.column k).mapM real = .ok (f.rows.map (numIn k)) := by
  apply mapM_real
  intro r hr
  obtain ⟨x, hx⟩ := h r hr
  unfold numIn
  rw [hx]
  rfl

/-- C90: `plot_in_space` of a catalogue in which every event has coordinates and a magnitude shows one dot for each event, in the order of the
rows, at the coordinates of the row, sized by its magnitude with power 2 unless the call says otherwise; the catalogue is not changed. -/
theorem C90_in_space (current : Option PlotSeismicity.Extent) (c : Ct) (hcols : ∀ k ∈ ["latitude", "longitude", "magnitude"], k ∈ c.frame.cols)
    (hnum : ∀ k ∈ ["latitude", "longitude", "magnitude"], ∀ r ∈ c.frame.rows, ∃ x, r k = .num x) (a : CatalogPlots.SpaceArgs) :
    CatalogPlots.plotInSpace current c a = (c, PlotSeismicity.plotInSpace current
      { lons := c.frame.rows.map (numIn "longitude"), lats := c.frame.rows.map (numIn "latitude"), mags := c.frame.rows.map (numIn "magnitude"),
        smallest := a.smallest, largest := a.largest, power := a.power, includeMap := a.includeMap, country := a.country }) ∧
    CatalogPlots.SpaceArgs.power {} = 2 := by
  refine ⟨?_, rfl⟩
  unfold CatalogPlots.plotInSpace
  rw [C57_runs _ _ _ _ _ (fun k hk _ => hcols k hk)]
  rw [real_num (hnum "longitude" (by simp)), real_num (hnum "latitude" (by simp)), real_num (hnum "magnitude" (by simp))]
  rfl

/-- C90: `plot_mags_in_time` hands times and magnitudes to the function of the same name; the catalogue is not changed (the lists of the caller
can be, see C66). -/
theorem C90_mags_in_time (newYear : ℤ → ℝ) (c : Ct) (hcols : ∀ k ∈ ["time", "magnitude"], k ∈ c.frame.cols)
    (htime : ∀ r ∈ c.frame.rows, ∃ t, r "time" = .time t) (hmag : ∀ r ∈ c.frame.rows, ∃ x, r "magnitude" = .num x) (s : PlotBasics.Lists) :
    CatalogPlots.plotMagsInTime newYear c s =
      (c, .ok (PlotBasics.plotMagsInTime newYear (c.frame.rows.map timeIn) (c.frame.rows.map (numIn "magnitude")) s)) := by
  unfold CatalogPlots.plotMagsInTime
  rw [C57_runs _ _ _ _ _ (fun k hk _ => hcols k hk), real_time htime, real_num hmag]
  rfl

/-- C90: without the columns a plot needs it raises an AttributeError: magnitudes for all, times for the two plots against time, coordinates for
the map. -/
theorem C90_errors (c : Ct) (mc b : Option (Fl ℝ)) (δ : Option ℝ) (δ' conf : ℝ) (w : Option (List ℝ)) (pos : BinPos) (mcs : Option (List ℝ)) (mcs' : List ℝ) (normalize : Bool)
    (colors : Option ℕ) (ppf : ℝ → ℝ) (ω : ℕ → List (List ℕ)) (warn : Bool) (cls : BValue.Cls) (dmc : Option ℝ) (newYear : ℤ → ℝ) (s : PlotBasics.Lists)
    (current : Option PlotSeismicity.Extent) (a : CatalogPlots.SpaceArgs) :
    ("magnitude" ∉ c.frame.cols → CatalogPlots.plotCumFmd c mc δ w b pos = (c, .error .attributeError) ∧ CatalogPlots.plotFmd c δ' w pos = (c, .error .attributeError) ∧
      CatalogPlots.plotMcVsB ppf ω warn c mcs' δ cls conf dmc = (c, .error .attributeError)) ∧
    ("magnitude" ∉ c.frame.cols ∨ "time" ∉ c.frame.cols → CatalogPlots.plotCumCount c mcs δ w normalize colors = (c, .error .attributeError) ∧
      CatalogPlots.plotMagsInTime newYear c s = (c, .error .attributeError)) ∧
    ("magnitude" ∉ c.frame.cols ∨ "latitude" ∉ c.frame.cols ∨ "longitude" ∉ c.frame.cols → CatalogPlots.plotInSpace current c a = (c, .error .attributeError)) := by
  refine ⟨fun h => ⟨?_, ?_, ?_⟩, fun h => ?_, fun h => ?_⟩
  · exact C57_raises _ _ _ _ _ "magnitude" (by simp) (by simp) h
  · exact C57_raises _ _ _ _ _ "magnitude" (by simp) (by simp) h
  · exact C57_raises _ _ _ _ _ "magnitude" (by simp) (by simp) h
  · rcases h with h | h
    · exact ⟨C57_raises _ _ _ _ _ "magnitude" (by simp) (by simp) h, C57_raises _ _ _ _ _ "magnitude" (by simp) (by simp) h⟩
    · exact ⟨C57_raises _ _ _ _ _ "time" (by simp) (by simp) h, C57_raises _ _ _ _ _ "time" (by simp) (by simp) h⟩
  · rcases h with h | h | h
    · exact C57_raises _ _ _ _ _ "magnitude" (by simp) (by simp) h
    · exact C57_raises _ _ _ _ _ "latitude" (by simp) (by simp) h
    · exact C57_raises _ _ _ _ _ "longitude" (by simp) (by simp) h

/-! ### Examples -/

/-- C90 applies to the example: its times are known, the second event by row has a magnitude, all completeness magnitudes are above -1. -/
example : CatalogPlots.plotCumCount quakes (some [1, 2]) none none true none =
    (quakes, PlotBasics.plotCumCount [4, 3, 2, 1] [2, 1, -1, 0] (some [1, 2]) (some 1) none true none) := by
  have h := C90_cum_count quakes (by decide) (by decide) (fun r hr => quakes_ordinary.time (by decide) r hr) [1, 2] none (some 1) (Or.inr ⟨rfl, rfl⟩) none true none (-1)
    (by intro mc hmc; simp at hmc; rcases hmc with rfl | rfl <;> norm_num)
  rw [h, quakes_times]
  rfl

/-- The smallest magnitude of the example is 0. -/
example : CatalogPlots.plotCumCount quakes none none none false none = CatalogPlots.plotCumCount quakes (some [0]) none none false none := by
  refine C90_cum_count_all quakes _ _ rfl 2 rfl 0 ⟨?_, ?_⟩ none none false none
  · exact ⟨quakeRow (.num 0) 1 5, by simp [quakes], rfl⟩
  · rintro x ⟨r, hr, hx⟩
    simp only [quakes, List.mem_cons, List.not_mem_nil, or_false] at hr
    rcases hr with rfl | rfl | rfl | rfl <;> rw [quakeRow_magnitude] at hx <;> cases hx <;> norm_num

/-- A catalogue whose first event has no magnitude. -/
noncomputable def late : Ct := { frame := { cols := ["magnitude", "time"], rows := [quakeRow .na 1 1, quakeRow (.num 3) 2 1, quakeRow (.num 4) 3 1] } }

/-- C90_defect_first_nan applies. -/
example (normalize : Bool) : CatalogPlots.plotCumCount late none none none normalize none = (late, .ok [none]) := by
  refine C90_defect_first_nan late (by decide) (by decide) ?_ _ _ rfl rfl none normalize
  intro r hr
  simp only [late, List.mem_cons, List.not_mem_nil, or_false] at hr
  rcases hr with rfl | rfl | rfl <;> exact ⟨_, quakeRow_time _ _ _⟩

/-- Three events, no completeness magnitude. -/
noncomputable def three : Ct := { frame := { cols := ["magnitude"], rows := [quakeRow (.num 0) 1 1, quakeRow (.num 2) 2 1, quakeRow (.num 3) 3 1] }, deltaM := some 1 }

theorem three_ordinary : Ordinary three.frame :=
  ⟨by decide, fun h => absurd h (by decide), fun h => absurd h (by decide), by decide, by decide⟩

theorem three_events :
    Spec.selected (three.frame.rows.map magIn) (three.frame.rows.map fun r => if "weight" ∈ three.frame.cols then weightIn r else 1) (2 - 1 / 2) = [(2, 1), (3, 1)] := by
  have h : (three.frame.rows.map fun r => if "weight" ∈ three.frame.cols then weightIn r else 1) = [1, 1, 1] := by
    have : ¬ "weight" ∈ three.frame.cols := by decide
    simp [three] at this ⊢
  have hm : three.frame.rows.map magIn = [some 0, some 2, some 3] := rfl
  rw [h, hm]
  have h1 : ¬ (2 : ℝ) - 1 / 2 ≤ 0 := by norm_num
  have h2 : (2 : ℝ) - 1 / 2 ≤ 2 := by norm_num
  have h3 : (2 : ℝ) - 1 / 2 ≤ 3 := by norm_num
  unfold Spec.selected
  simp only [List.zip_cons_cons, List.zip_nil_left, List.filterMap_cons, List.filterMap_nil, h1, h2, h3]
  simp

/-- C90_defect_line_of_b applies: the b-value of the two events from 2 on is drawn down to the event of magnitude 0. -/
example : ∃ d l, CatalogPlots.plotCumFmd (estimateB three (some (.fin 2)) none none (bMethod .classic true) []).1 none none none none .center =
    ((estimateB three (some (.fin 2)) none none (bMethod .classic true) []).1, .ok d) ∧ d.line = some l ∧ ∃ q ∈ l, centreOf .center 1 q.1 < 2 := by
  have hbin : binningTest (three.frame.rows.map magIn) 1 (1 / 10 ^ 15) false = .ok true := by
    have := C08_grid_accepted (K := ℝ) [some 0, some 2, some 3] 0 1 (1 / 10 ^ 15) (by norm_num) (by norm_num) ⟨0, by simp⟩
    have hm : three.frame.rows.map magIn = [some 0, some 2, some 3] := rfl
    rw [hm]
    simpa using this
  obtain ⟨b, h1, -, -⟩ := C89_maximum_likelihood true three three_ordinary (some (.fin 2)) none 2 1 (Or.inl rfl) (Or.inr ⟨rfl, rfl⟩) _ rfl (Or.inr hbin)
    (fun h => absurd h (by decide)) (by rw [three_events]; norm_num [Spec.total]) (by rw [three_events]; norm_num [Spec.wmean])
  refine C90_defect_line_of_b .classic true three three_ordinary rfl 1 2 b rfl (Or.inr (by norm_num)) .center (by decide) 0
    ⟨quakeRow (.num 0) 1 1, by simp [three], rfl⟩ (by norm_num) (by rw [h1]) ?_
  have h2 : estimateB three (some (.fin 2)) none none (bMethod .classic true) [] = _ :=
    C89_estimate_b .classic true three three_ordinary (some (.fin 2)) none 2 1 (Or.inl rfl) (Or.inr ⟨rfl, rfl⟩) none none (Or.inr rfl)
  rw [h2] at h1 ⊢
  cases hk : BValue.calculate .classic true BValue.State.init (bArgsOf .classic three.frame 2 1 none none) with
  | mk s v =>
    rw [hk] at h1
    cases v with
    | error e =>
      have := congrArg Cat.bValue h1
      cases this
    | ok r => exact ⟨s, rfl⟩

/-- The classic b-value of the four events with given weights. -/
theorem quakes_b (w : Option (List ℝ)) (hw : ∀ v, w = some v → v.length = 4 ∧ ∀ x ∈ v, 0 ≤ x) (E : List (ℝ × ℝ))
    (hE : Spec.selected [some 2, some 1, none, some 0] (w.getD [1, 1, 1, 1]) (1 - 1 / 2) = E) (ht : 0 < Spec.total E) (hm : 0 < Spec.wmean E - 1) :
    (BValue.calculate .classic true BValue.State.init { mags := [some 2, some 1, none, some 0], mc := 1, δ := 1, weights := w }).2 =
      .ok (.fin (Real.log (1 + 1 / (Spec.wmean E - 1)) / Real.log 10)) := by
  have ha : Accepted { mags := [some 2, some 1, none, some 0], mc := 1, δ := 1, weights := w } :=
    ⟨Or.inr (by rw [← quakes_mags]; exact quakes_binned), fun v hv => hw v hv⟩
  have he : BValue.used { mags := [some 2, some 1, none, some 0], mc := 1, δ := 1, weights := w } = E := by
    rw [← eventsOf_eq]
    exact hE
  rw [result_eq (Or.inl rfl) true .init ha, result_of_total (by rw [he]; exact ht), he]
  simp only [betaOf_pos hm]
  have : betaVal (Spec.wmean E - 1) 1 = Real.log (1 + 1 / (Spec.wmean E - 1)) := by
    unfold betaVal
    rw [if_pos (by norm_num), div_one]
  rw [this]
  rfl

theorem quakes_selected (a b c d : ℝ) : Spec.selected [some 2, some 1, none, some 0] [a, b, c, d] (1 - 1 / 2) = [((2 : ℝ), a), (1, b)] := by
  have h1 : ¬ (1 : ℝ) - 1 / 2 ≤ 0 := by norm_num
  have h2 : (1 : ℝ) - 1 / 2 ≤ 2 := by norm_num
  have h3 : (1 : ℝ) - 1 / 2 ≤ 1 := by norm_num
  unfold Spec.selected
  simp only [List.zip_cons_cons, List.zip_nil_left, List.filterMap_cons, List.filterMap_nil, h1, h2, h3]
  simp

/-- C90_limit_mc_vs_b: for the four events, whose weights differ, `plot_mc_vs_b` does not draw the b-value that `estimate_b` stores. -/
example (ppf : ℝ → ℝ) (ω : ℕ → List (List ℕ)) (conf : ℝ) (p : PlotStatistical.McPoint)
    (h : CatalogPlots.plotMcVsB ppf ω true quakes [1] none .classic conf none = (quakes, .ok [p])) :
    (estimateB quakes none none none (bMethod .classic true) []).1.bValue = some (.fin (Real.log (5 / 2) / Real.log 10)) ∧ p.b = .fin (Real.log 3 / Real.log 10) := by
  constructor
  · have h1 : (estimateB quakes none none none (bMethod .classic true) []).1.bValue = _ :=
      (estimate_b_result .classic true quakes quakes_ordinary none none 1 1 (Or.inr ⟨rfl, rfl⟩) (Or.inr ⟨rfl, rfl⟩) none none (Or.inr rfl)).1
    rw [h1]
    have e : bArgsOf .classic quakes.frame 1 1 none none = { mags := [some 2, some 1, none, some 0], mc := 1, δ := 1, weights := some [2, 1, 1, 5] } := by
      unfold bArgsOf weightsFrom
      dsimp only
      rw [if_pos (by decide), quakes_weights, quakes_mags, if_neg (by rintro (h | h) <;> cases h)]
    rw [e, quakes_b (some [2, 1, 1, 5]) (by rintro v hv; cases hv; exact ⟨rfl, by intro x hx; simp at hx; rcases hx with rfl | rfl | rfl <;> norm_num⟩) _
      (quakes_selected 2 1 1 5) (by norm_num [Spec.total]) (by norm_num [Spec.wmean])]
    dsimp only
    norm_num [Spec.wmean]
  · rw [C90_mc_vs_b ppf ω true quakes (by decide) [1] none 1 (Or.inr ⟨rfl, rfl⟩), quakes_mags] at h
    have h1 := C73_values ppf .classic ω true _ _ _ _ _ (Prod.mk.inj h).2
    cases h1 with
    | cons hp _ =>
      obtain ⟨-, s, b, sd, e1, -, e2, -⟩ := hp
      have e3 := quakes_b none (by rintro v hv; cases hv) _ (quakes_selected 1 1 1 1) (by norm_num [Spec.total]) (by norm_num [Spec.wmean])
      rw [show (BValue.calculate .classic true BValue.State.init { mags := [some 2, some 1, none, some 0], mc := 1, δ := 1, weights := none }) = (s, .ok b) from e1] at e3
      rw [e2, Except.ok.inj e3]
      norm_num [Spec.wmean]

end SeismoStats.Props
