/-
C128: missing coordinates and magnitudes on the map.
-/
import Verif.Model.MapMissing
import Verif.Props.PlotSeismicity

namespace SeismoStats
namespace Props
open PlotSeismicity

private theorem builtinMin_some (a : ℝ) (r : List (Option ℝ)) : builtinMin (some a) r = some ((r.filterMap id).foldl min a) := by
  unfold builtinMin
  induction r generalizing a with
  | nil => rfl
  | cons x r ih =>
    rw [List.foldl_cons]
    cases x with
    | none =>
      rw [if_neg (by rintro ⟨u, v, h, -⟩; exact (nomatch h)), ih]
      rfl
    | some x =>
      change _ = some ((r.filterMap id).foldl min (min a x))
      by_cases h : x < a
      · rw [if_pos ⟨x, a, rfl, rfl, h⟩, ih, min_eq_right h.le]
      · rw [if_neg (by rintro ⟨u, v, h1, h2, h3⟩; injection h1 with h1; injection h2 with h2; subst h1; subst h2; exact h h3), ih,
          min_eq_left (not_lt.1 h)]

private theorem builtinMax_some (a : ℝ) (r : List (Option ℝ)) : builtinMax (some a) r = some ((r.filterMap id).foldl max a) := by
  unfold builtinMax
  induction r generalizing a with
  | nil => rfl
  | cons x r ih =>
    rw [List.foldl_cons]
    cases x with
    | none =>
      rw [if_neg (by rintro ⟨u, v, -, h, -⟩; exact (nomatch h)), ih]
      rfl
    | some x =>
      change _ = some ((r.filterMap id).foldl max (max a x))
      by_cases h : a < x
      · rw [if_pos ⟨a, x, rfl, rfl, h⟩, ih, max_eq_right h.le]
      · rw [if_neg (by rintro ⟨u, v, h1, h2, h3⟩; injection h1 with h1; injection h2 with h2; subst h1; subst h2; exact h h3), ih,
          max_eq_left (not_lt.1 h)]

private theorem builtin_none (r : List (Option ℝ)) : builtinMin none r = none ∧ builtinMax none r = none := by
  constructor
  · unfold builtinMin
    induction r with
    | nil => rfl
    | cons x r ih => rw [List.foldl_cons, if_neg (by rintro ⟨u, v, -, h, -⟩; exact (nomatch h)), ih]
  · unfold builtinMax
    induction r with
    | nil => rfl
    | cons x r ih => rw [List.foldl_cons, if_neg (by rintro ⟨u, v, h, -⟩; exact (nomatch h)), ih]

/-- A first entry that is not missing. -/
def FirstKnown (l : List (Option ℝ)) : Prop := ∃ a r, l = some a :: r

private theorem rangeM_known {l : List (Option ℝ)} (h : FirstKnown l) :
    ∃ lo hi, amin? (l.filterMap id) = some lo ∧ amax? (l.filterMap id) = some hi ∧ rangeM l = .ok (some (lo - pad lo hi), some (hi + pad lo hi)) := by
  obtain ⟨a, r, rfl⟩ := h
  refine ⟨(r.filterMap id).foldl min a, (r.filterMap id).foldl max a, rfl, rfl, ?_⟩
  unfold rangeM
  dsimp only
  rw [builtinMin_some, builtinMax_some]

/-- An extent of numbers. -/
def wholeExtent (x : Extent) : ExtentM := ⟨some x.west, some x.east, some x.south, some x.north⟩

private theorem dataExtent_known {lons lats : List (Option ℝ)} (h1 : FirstKnown lons) (h2 : FirstKnown lats) :
    dataExtentM lons lats = (dataExtent (lons.filterMap id) (lats.filterMap id)).map wholeExtent := by
  obtain ⟨w, e, a1, a2, a3⟩ := rangeM_known h1
  obtain ⟨s, n, b1, b2, b3⟩ := rangeM_known h2
  unfold dataExtentM dataExtent
  rw [a1, a2, a3, b1, b2, b3]
  rfl

private theorem setExtent_known (c : Option Extent) (x : Extent) : setExtentM c (wholeExtent x) = wholeExtent (setExtent c x) := by
  cases c with
  | none => rfl
  | some c =>
    unfold setExtentM
    dsimp only
    rw [builtinMin_some, builtinMax_some, builtinMin_some, builtinMax_some]
    rfl

private theorem plotInSpaceM_ok {c : Option Extent} {series : Bool} {lons lats mags : List (Option ℝ)} {smallest largest p : ℝ} {r : ExtentM × List DotM}
    (h : plotInSpaceM c series lons lats mags smallest largest p = .ok r) :
    ∃ x sizes, dataExtentM lons lats = .ok x ∧ dotSizeM series mags smallest largest p = .ok sizes ∧ lats.length = lons.length ∧
      (spread lons.length sizes).length = lons.length ∧
      r = (setExtentM c x, List.zipWith (fun (p : Option ℝ × Option ℝ) s => ⟨p.1, p.2, s⟩) (lons.zip lats) (spread lons.length sizes)) := by
  unfold plotInSpaceM at h
  cases e1 : dataExtentM lons lats with
  | error e => rw [e1] at h; cases h
  | ok x =>
    cases e2 : dotSizeM series mags smallest largest p with
    | error e => rw [e1, e2] at h; cases h
    | ok sizes =>
      rw [e1, e2] at h
      dsimp only at h
      unfold scatterM at h
      by_cases hl : lats.length ≠ lons.length ∨ (spread lons.length sizes).length ≠ lons.length
      · rw [if_pos hl] at h; cases h
      · rw [if_neg hl] at h
        cases h
        rw [not_or, not_not, not_not] at hl
        exact ⟨x, sizes, rfl, rfl, hl.1, hl.2, rfl⟩

private theorem map_ok {α β : Type} {f : α → β} {x : Py α} {y : β} (h : x.map f = .ok y) : ∃ a, x = .ok a ∧ y = f a := by
  cases x with
  | error e => cases h
  | ok a => cases h; exact ⟨a, rfl, rfl⟩

private theorem dataExtent_padded {lons lats : List ℝ} {x : Extent} (h1 : dataExtent lons lats = .ok x) :
    Padded lons x.west x.east ∧ Padded lats x.south x.north := by
  unfold dataExtent at h1
  split at h1
  · rename_i w e s n hw he hs hn
    cases h1
    have a1 := (amin?_eq_some_iff _ _).1 hw
    have a2 := (amax?_eq_some_iff _ _).1 he
    have a3 := (amin?_eq_some_iff _ _).1 hs
    have a4 := (amax?_eq_some_iff _ _).1 hn
    exact ⟨⟨w, e, a1, a2, by rw [space_pad (a2.2 a1.1)], by rw [space_pad (a2.2 a1.1)]⟩,
      ⟨s, n, a3, a4, by rw [space_pad (a4.2 a3.1)], by rw [space_pad (a4.2 a3.1)]⟩⟩
  · cases h1

private theorem zip_dots {lons lats : List (Option ℝ)} (sizes : List (Fl ℝ)) (hl : lats.length = lons.length) (hs : sizes.length = lons.length) :
    (List.zipWith (fun (p : Option ℝ × Option ℝ) s => (⟨p.1, p.2, s⟩ : DotM)) (lons.zip lats) sizes).map DotM.lon = lons ∧
    (List.zipWith (fun (p : Option ℝ × Option ℝ) s => (⟨p.1, p.2, s⟩ : DotM)) (lons.zip lats) sizes).map DotM.lat = lats ∧
    (List.zipWith (fun (p : Option ℝ × Option ℝ) s => (⟨p.1, p.2, s⟩ : DotM)) (lons.zip lats) sizes).map DotM.size = sizes := by
  refine ⟨?_, ?_, ?_⟩
  · apply List.ext_getElem
    · simp [hl, hs]
    · intro i hi hj; simp
  · apply List.ext_getElem
    · simp [hl, hs]
    · intro i hi hj; simp
  · apply List.ext_getElem
    · simp [hl, hs]
    · intro i hi hj; simp

/-- C128: if longitude and latitude of the first event are known, the map is that of the known longitudes and latitudes, and every event with
both coordinates lies on it; the dots are at the coordinates of the events. -/
theorem C128_extent {c : Option Extent} {series : Bool} {lons lats mags : List (Option ℝ)} {smallest largest p : ℝ} {x : ExtentM} {dots : List DotM}
    (h1 : FirstKnown lons) (h2 : FirstKnown lats) (h : plotInSpaceM c series lons lats mags smallest largest p = .ok (x, dots)) :
    dots.map DotM.lon = lons ∧ dots.map DotM.lat = lats ∧
    ∃ y : Extent, x = wholeExtent y ∧ (c = none → Padded (lons.filterMap id) y.west y.east ∧ Padded (lats.filterMap id) y.south y.north) ∧
      (∀ z, c = some z → Extent.Within z y) ∧
      ∀ d ∈ dots, ∀ u v, d.lon = some u → d.lat = some v → Extent.Has y u v := by
  obtain ⟨b, sizes, e1, -, hl, hl2, e2⟩ := plotInSpaceM_ok h
  rw [dataExtent_known h1 h2] at e1
  obtain ⟨b, e3, rfl⟩ := map_ok e1
  cases e2
  have n1 : (lons.filterMap id) ≠ [] := by obtain ⟨a, r, rfl⟩ := h1; exact List.cons_ne_nil _ _
  have n2 : (lats.filterMap id) ≠ [] := by obtain ⟨a, r, rfl⟩ := h2; exact List.cons_ne_nil _ _
  obtain ⟨p1, p2⟩ := dataExtent_padded e3
  have hw := setExtent_within c b
  have hz := zip_dots (spread lons.length sizes) hl hl2
  refine ⟨hz.1, hz.2.1, setExtent c b, setExtent_known c b, ?_, fun z hz => hw.2 z hz, ?_⟩
  · rintro rfl
    exact ⟨p1, p2⟩
  · intro d hd u v hu hv
    refine has_within ?_ hw.1
    have g1 := p1.has (v := u) (List.mem_filterMap.2 ⟨some u, hu ▸ hz.1 ▸ List.mem_map_of_mem hd, rfl⟩)
    have g2 := p2.has (v := v) (List.mem_filterMap.2 ⟨some v, hv ▸ hz.2.1 ▸ List.mem_map_of_mem hd, rfl⟩)
    exact ⟨g1.1, g1.2, g2.1, g2.2⟩

private theorem rangeM_first_none {l : List (Option ℝ)} : rangeM (none :: l) = .ok (none, none) := by
  unfold rangeM
  dsimp only
  rw [(builtin_none l).1, (builtin_none l).2]

/-- C128 (Defect): if the longitude of the first event is missing, `set_extent` is given NaN as western and eastern limit, or, with axes given, the limits of these
axes, wherever the other events are. -/
theorem C128_defect_first_lon {c : Option Extent} {series : Bool} {l lats mags : List (Option ℝ)} {smallest largest p : ℝ} {x : ExtentM} {dots : List DotM}
    (h : plotInSpaceM c series (none :: l) lats mags smallest largest p = .ok (x, dots)) :
    x.west = c.map Extent.west ∧ x.east = c.map Extent.east := by
  obtain ⟨b, sizes, e1, -, -, -, e2⟩ := plotInSpaceM_ok h
  cases e2
  unfold dataExtentM at e1
  rw [rangeM_first_none] at e1
  cases e3 : rangeM lats with
  | error e => rw [e3] at e1; cases e1
  | ok y =>
    rw [e3] at e1
    cases e1
    cases c with
    | none => exact ⟨rfl, rfl⟩
    | some c =>
      unfold setExtentM
      dsimp only
      rw [builtinMin_some, builtinMax_some]
      exact ⟨rfl, rfl⟩

/-- C128 (Defect): the same with the latitude. -/
theorem C128_defect_first_lat {c : Option Extent} {series : Bool} {l lons mags : List (Option ℝ)} {smallest largest p : ℝ} {x : ExtentM} {dots : List DotM}
    (h : plotInSpaceM c series lons (none :: l) mags smallest largest p = .ok (x, dots)) :
    x.south = c.map Extent.south ∧ x.north = c.map Extent.north := by
  obtain ⟨b, sizes, e1, -, -, -, e2⟩ := plotInSpaceM_ok h
  cases e2
  unfold dataExtentM at e1
  rw [rangeM_first_none] at e1
  cases e3 : rangeM lons with
  | error e => rw [e3] at e1; cases e1
  | ok y =>
    rw [e3] at e1
    cases e1
    cases c with
    | none => exact ⟨rfl, rfl⟩
    | some c =>
      unfold setExtentM
      dsimp only
      rw [builtinMin_some (a := c.south), builtinMax_some (a := c.north)]
      exact ⟨rfl, rfl⟩

private theorem dotSizeM_ok {series : Bool} {mags : List (Option ℝ)} {s l p : ℝ} {r : List (Fl ℝ)} (h : dotSizeM series mags s l p = .ok r) :
    r = mags.map (sizeM (scaleRange series mags) p s (PlotBasics.largestDot s l)) := by
  unfold dotSizeM at h
  by_cases hb : series = false ∧ mags = []
  · rw [if_pos hb] at h; cases h
  · rw [if_neg hb] at h; cases h; rfl

/-- C128: with a pandas Series of magnitudes (as `Catalog.plot_in_space` has), the events with a magnitude have the sizes that `dot_size` gives without the others, and those
without a magnitude no size. -/
theorem C128_sizes_series {c : Option Extent} {lons lats mags : List (Option ℝ)} {smallest largest p : ℝ} {x : ExtentM} {dots : List DotM}
    (h : plotInSpaceM c true lons lats mags smallest largest p = .ok (x, dots)) (hm : mags.length = lons.length) (hk : mags.filterMap id ≠ []) (hp : p ≠ 0) :
    ∃ g : ℝ → Fl ℝ, PlotBasics.dotSize (mags.filterMap id) smallest largest p = .ok ((mags.filterMap id).map g) ∧
      dots.map DotM.size = mags.map fun m => m.elim .nan g := by
  obtain ⟨b, sizes, -, e1, hl, hl2, e2⟩ := plotInSpaceM_ok h
  cases e2
  have e1 := dotSizeM_ok e1
  rw [spread_eq (by rw [e1, List.length_map, hm])] at hl2 ⊢
  obtain ⟨lo, hlo⟩ := exists_amin hk
  obtain ⟨hi, hhi⟩ := exists_amax hk
  refine ⟨PlotBasics.rescale lo hi p smallest (PlotBasics.largestDot smallest largest), ?_, ?_⟩
  · unfold PlotBasics.dotSize
    rw [hlo, hhi]
  · rw [(zip_dots sizes hl hl2).2.2, e1]
    apply List.map_congr_left
    intro m _
    have e : scaleRange true mags = (some lo, some hi) := by
      unfold scaleRange
      rw [if_neg (fun hb => (nomatch hb.1)), hlo, hhi]
    rw [e]
    cases m with
    | none =>
      change Fl.mapFin _ (if p = 0 then Fl.fin 1 else Fl.nan) = Fl.nan
      rw [if_neg hp]
      rfl
    | some m => rfl

/-- C128 (Defect): with an array of magnitudes one missing magnitude takes the size of all dots: no dot is drawn. -/
theorem C128_defect_sizes {c : Option Extent} {lons lats mags : List (Option ℝ)} {smallest largest p : ℝ} {x : ExtentM} {dots : List DotM}
    (h : plotInSpaceM c false lons lats mags smallest largest p = .ok (x, dots)) (hm : mags.length = lons.length) (hn : none ∈ mags) (hp : p ≠ 0) :
    ∀ d ∈ dots, d.size = .nan := by
  obtain ⟨b, sizes, -, e1, hl, hl2, e2⟩ := plotInSpaceM_ok h
  cases e2
  have e1 := dotSizeM_ok e1
  rw [spread_eq (by rw [e1, List.length_map, hm])] at hl2 ⊢
  intro d hd
  have hs := List.mem_map_of_mem (f := DotM.size) hd
  rw [(zip_dots sizes hl hl2).2.2, e1] at hs
  obtain ⟨m, -, hs⟩ := List.mem_map.1 hs
  rw [← hs]
  have e : scaleRange false mags = (none, none) := by
    unfold scaleRange
    rw [if_pos ⟨rfl, hn⟩]
  rw [e]
  cases m <;>
  · change Fl.mapFin _ (if p = 0 then Fl.fin 1 else Fl.nan) = Fl.nan
    rw [if_neg hp]
    rfl

/-- A dot of numbers. -/
def wholeDot (d : Dot) : DotM := ⟨some d.lon, some d.lat, d.size⟩

private theorem mapMissing_known (l : List ℝ) : (l.map some).filterMap id = l := by
  induction l with
  | nil => rfl
  | cons a l ih => change a :: _ = _; rw [ih]

private theorem dataExtentM_complete (lons lats : List ℝ) : dataExtentM (lons.map some) (lats.map some) = (dataExtent lons lats).map wholeExtent := by
  cases lons with
  | nil =>
    unfold dataExtentM dataExtent
    rfl
  | cons a l =>
    cases lats with
    | nil =>
      unfold dataExtentM dataExtent
      cases rangeM (List.map some (a :: l)) <;> rfl
    | cons b r =>
      rw [dataExtent_known (lons := (a :: l).map some) (lats := (b :: r).map some) ⟨a, l.map some, rfl⟩ ⟨b, r.map some, rfl⟩, mapMissing_known, mapMissing_known]

private theorem dotSizeM_complete {series : Bool} {mags : List ℝ} (s l p : ℝ) (h : mags ≠ []) :
    dotSizeM series (mags.map some) s l p = PlotBasics.dotSize mags s l p := by
  obtain ⟨lo, hlo⟩ := exists_amin h
  obtain ⟨hi, hhi⟩ := exists_amax h
  have e : scaleRange series (mags.map some) = (some lo, some hi) := by
    unfold scaleRange
    rw [if_neg (by rintro ⟨-, hb⟩; obtain ⟨x, -, hx⟩ := List.mem_map.1 hb; exact (nomatch hx)), mapMissing_known, hlo, hhi]
  unfold dotSizeM PlotBasics.dotSize
  rw [if_neg (fun hb => h (List.map_eq_nil_iff.1 hb.2)), hlo, hhi, e, List.map_map]
  rfl

private theorem scatterM_complete (lons lats : List ℝ) (sizes : List (Fl ℝ)) :
    scatterM (lons.map some) (lats.map some) sizes = (scatter lons lats sizes).map fun d => d.map wholeDot := by
  unfold scatterM scatter
  rw [List.length_map, List.length_map]
  by_cases h : lats.length ≠ lons.length ∨ (spread lons.length sizes).length ≠ lons.length
  · rw [if_pos h, if_pos h]; rfl
  · rw [if_neg h, if_neg h]
    refine congrArg Except.ok ?_
    apply List.ext_getElem
    · simp
    · intro i hi hj
      simp [wholeDot]

/-- C128: if nothing is missing, the map is that of C72. -/
theorem C128_complete (c : Option Extent) (series : Bool) (lons lats mags : List ℝ) (smallest largest p : ℝ) :
    plotInSpaceM c series (lons.map some) (lats.map some) (mags.map some) smallest largest p =
      (plotInSpace c { lons := lons, lats := lats, mags := mags, smallest := smallest, largest := largest, power := p }).map
        fun r => (wholeExtent r.1, r.2.map wholeDot) := by
  unfold plotInSpaceM plotInSpace
  rw [dataExtentM_complete, boxOf_event (Or.inl rfl)]
  by_cases hm : mags = []
  · subst hm
    cases e1 : dataExtent lons lats with
    | error e =>
      have : e = .valueError := by
        unfold dataExtent at e1
        split at e1
        · cases e1
        · cases e1; rfl
      subst this
      rfl
    | ok x =>
      have hne : lons ≠ [] := by
        rintro rfl
        unfold dataExtent at e1
        cases e1
      cases series with
      | false => rfl
      | true =>
        have : ([] : List (Fl ℝ)).length ≠ lons.length := fun h => hne (List.length_eq_zero_iff.1 h.symm)
        change Except.map _ (scatterM (lons.map some) (lats.map some) []) = _
        have hs : scatter lons lats [] = .error .valueError := by
          unfold scatter
          exact if_pos (Or.inr this)
        rw [scatterM_complete, hs]
        rfl
  · rw [dotSizeM_complete _ _ _ hm]
    cases e1 : dataExtent lons lats with
    | error e =>
      have : e = .valueError := by
        unfold dataExtent at e1
        split at e1
        · cases e1
        · cases e1; rfl
      subst this
      rfl
    | ok x =>
      dsimp only [bind, Except.bind, Except.map]
      cases e2 : PlotBasics.dotSize mags smallest largest p with
      | error e =>
        have : e = .valueError := by
          unfold PlotBasics.dotSize at e2
          split at e2
          · cases e2
          · cases e2; rfl
        subst this
        rfl
      | ok sizes =>
        dsimp only
        rw [scatterM_complete]
        cases scatter lons lats sizes with
        | error e => rfl
        | ok d =>
          dsimp only [Except.map, pure, Except.pure]
          rw [setExtent_known]

/-- A map of three events, the second one without latitude, the third without magnitude. -/
example : ∃ x dots, plotInSpaceM none true [some 0, some 10, some 5] [some 0, none, some 10] [some 1, some 2, none] 10 200 2 = .ok (x, dots) ∧
    FirstKnown [some 0, some 10, some 5] ∧ FirstKnown [some 0, none, some 10] ∧ ([some 1, some 2, none] : List (Option ℝ)).filterMap id ≠ [] := by
  have h1 : FirstKnown [some 0, some 10, some 5] := ⟨_, _, rfl⟩
  have h2 : FirstKnown [some 0, none, some 10] := ⟨_, _, rfl⟩
  have e : ∃ x dots, plotInSpaceM none true [some 0, some 10, some 5] [some 0, none, some 10] [some 1, some 2, none] 10 200 2 = .ok (x, dots) := by
    unfold plotInSpaceM
    rw [dataExtent_known h1 h2]
    exact ⟨_, _, rfl⟩
  obtain ⟨x, dots, e⟩ := e
  exact ⟨x, dots, e, h1, h2, List.cons_ne_nil _ _⟩

/-- The first longitude missing and axes that show another region: the known event is not on the map. -/
example : ∃ x dots, plotInSpaceM (some ⟨0, 1, 0, 1⟩) false [none, some 50] [some 0, some 1] [some 1, none] 10 200 2 = .ok (x, dots) ∧ x.east = some 1 ∧
    (∃ d ∈ dots, d.lon = some 50) ∧ ∀ d ∈ dots, d.size = .nan := by
  have e : ∃ x dots, plotInSpaceM (some ⟨0, 1, 0, 1⟩) false [none, some 50] [some 0, some 1] [some 1, none] 10 200 2 = .ok (x, dots) ∧ (∃ d ∈ dots, d.lon = some 50) := by
    obtain ⟨lo, hi, -, -, h3⟩ := rangeM_known (l := [some 0, some 1]) ⟨_, _, rfl⟩
    have e4 : ∃ sizes, dotSizeM false [some 1, none] 10 200 2 = .ok sizes ∧ sizes.length = 2 := by
      unfold dotSizeM
      rw [if_neg (fun hb => List.cons_ne_nil _ _ hb.2)]
      exact ⟨_, rfl, rfl⟩
    obtain ⟨sizes, e4, e5⟩ := e4
    obtain ⟨s, t, rfl⟩ := List.length_eq_two.1 e5
    unfold plotInSpaceM dataExtentM
    rw [rangeM_first_none, h3, e4]
    exact ⟨_, _, rfl, ⟨some 50, some 1, t⟩, List.mem_cons_of_mem _ (List.mem_singleton.2 rfl), rfl⟩
  obtain ⟨x, dots, e, hd⟩ := e
  exact ⟨x, dots, e, (C128_defect_first_lon e).2, hd, C128_defect_sizes e rfl (by simp) (by norm_num)⟩

end Props
end SeismoStats
