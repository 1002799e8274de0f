/-
Property C72 (`plot_in_space`, `_rect_from_bound`).
-/
import Verif.Model.PlotSeismicity
import Verif.Props.PlotBasics
import Verif.Proofs.Binning
import Verif.Proofs.Py

namespace SeismoStats.Props
open SeismoStats SeismoStats.PlotSeismicity
open Classical
noncomputable section

/-! ### specification -/

/-- The point lies in the extent. -/
def Extent.Has (x : Extent) (lon lat : ℝ) : Prop := x.west ≤ lon ∧ lon ≤ x.east ∧ x.south ≤ lat ∧ lat ≤ x.north

/-- The first extent lies in the second. -/
def Extent.Within (x y : Extent) : Prop := y.west ≤ x.west ∧ x.east ≤ y.east ∧ y.south ≤ x.south ∧ x.north ≤ y.north

/-- `[w, e]` is the range of the values, and `[lo, hi]` exceeds it by five percent of its length on both sides. -/
def Padded (l : List ℝ) (lo hi : ℝ) : Prop :=
  ∃ w e, IsLeast {v | v ∈ l} w ∧ IsGreatest {v | v ∈ l} e ∧ lo = w - (e - w) * (5 / 100) ∧ hi = e + (e - w) * (5 / 100)

/-- Twice the signed area of a polygon (shoelace formula). -/
def shoelace (l : List (ℝ × ℝ)) : ℝ := (List.zipWith (fun (p q : ℝ × ℝ) => p.1 * q.2 - q.1 * p.2) l (l.rotate 1)).sum

/-- The box of the events is asked for: no map, or no country. -/
def EventBox (a : Args) : Prop := a.includeMap = false ∨ a.country = none

/-! ### lemmas -/

theorem boxOf_event {a : Args} (h : EventBox a) : boxOf a = dataExtent a.lons a.lats := by
  unfold boxOf
  rcases h with h | h
  · rw [h]
  · rw [h]; cases a.includeMap <;> rfl

theorem space_range {l : List ℝ} (h : l ≠ []) : ∃ w e, amin? l = some w ∧ amax? l = some e ∧ IsLeast {v | v ∈ l} w ∧ IsGreatest {v | v ∈ l} e ∧ w ≤ e := by
  obtain ⟨w, hw⟩ := exists_amin h
  obtain ⟨e, he⟩ := exists_amax h
  have h1 := (amin?_eq_some_iff _ _).1 hw
  have h2 := (amax?_eq_some_iff _ _).1 he
  exact ⟨w, e, hw, he, h1, h2, h2.2 h1.1⟩

theorem space_pad {w e : ℝ} (h : w ≤ e) : pad w e = (e - w) * (5 / 100) := by
  unfold pad; rw [abs_of_nonneg (by linarith)]

theorem Padded.has {l : List ℝ} {lo hi v : ℝ} (h : Padded l lo hi) (hv : v ∈ l) : lo ≤ v ∧ v ≤ hi := by
  obtain ⟨w, e, h1, h2, rfl, rfl⟩ := h
  have a1 := h1.2 hv
  have a2 := h2.2 hv
  have a3 := h2.2 h1.1
  constructor <;> linarith

theorem within_refl (x : Extent) : Extent.Within x x := ⟨le_rfl, le_rfl, le_rfl, le_rfl⟩

theorem within_trans {x y z : Extent} (h : Extent.Within x y) (k : Extent.Within y z) : Extent.Within x z :=
  ⟨k.1.trans h.1, h.2.1.trans k.2.1, k.2.2.1.trans h.2.2.1, h.2.2.2.trans k.2.2.2⟩

theorem has_within {x y : Extent} {a b : ℝ} (h : Extent.Has x a b) (k : Extent.Within x y) : Extent.Has y a b :=
  ⟨k.1.trans h.1, h.2.1.trans k.2.1, k.2.2.1.trans h.2.2.1, h.2.2.2.trans k.2.2.2⟩

theorem setExtent_within (c : Option Extent) (x : Extent) : Extent.Within x (setExtent c x) ∧ ∀ y, c = some y → Extent.Within y (setExtent c x) := by
  cases c with
  | none => exact ⟨within_refl x, fun y h => by cases h⟩
  | some y =>
    refine ⟨⟨min_le_right _ _, le_max_right _ _, min_le_right _ _, le_max_right _ _⟩, ?_⟩
    rintro z h
    cases h
    exact ⟨min_le_left _ _, le_max_left _ _, min_le_left _ _, le_max_left _ _⟩

theorem dotSize_length {mags : List ℝ} {s l p : ℝ} {r : List (Fl ℝ)} (h : PlotBasics.dotSize mags s l p = .ok r) : r.length = mags.length := by
  unfold PlotBasics.dotSize at h
  split at h
  · cases h; simp
  · cases h

theorem spread_eq {n : ℕ} {sizes : List (Fl ℝ)} (h : sizes.length = n) : spread n sizes = sizes := by
  unfold spread
  split
  · rename_i s
    simp at h
    rw [← h]
    rfl
  · rfl

theorem spread_one {n : ℕ} {sizes : List (Fl ℝ)} (h : sizes.length ≠ n) (h2 : (spread n sizes).length = n) : ∃ s, sizes = [s] := by
  unfold spread at h2
  split at h2
  · exact ⟨_, rfl⟩
  · exact absurd h2 h

theorem spread_length {n : ℕ} {sizes : List (Fl ℝ)} (h : sizes.length = n ∨ sizes.length = 1) : (spread n sizes).length = n := by
  rcases h with h | h
  · rw [spread_eq h, h]
  · obtain ⟨s, rfl⟩ := List.length_eq_one_iff.1 h
    simp [spread]

theorem dotSize_one {mags : List ℝ} {s l p : ℝ} {v : Fl ℝ} (hp : p ≠ 0) (h1 : mags.length = 1) (h : PlotBasics.dotSize mags s l p = .ok [v]) : v = .nan := by
  obtain ⟨m, rfl⟩ := List.length_eq_one_iff.1 h1
  have e1 : amin? [m] = some m := (amin?_eq_some_iff _ _).2 ⟨by simp, fun x hx => by simp at hx; rw [hx]⟩
  have e2 : amax? [m] = some m := (amax?_eq_some_iff _ _).2 ⟨by simp, fun x hx => by simp at hx; rw [hx]⟩
  unfold PlotBasics.dotSize at h
  rw [e1, e2] at h
  simp only [List.map_cons, List.map_nil] at h
  injection h with h
  injection h with h _
  rw [← h]
  simp [PlotBasics.rescale, Fl.div, PlotBasics.npPower, hp, Fl.mapFin]

theorem plotInSpace_ok {c : Option Extent} {a : Args} {r : Extent × List Dot} (h : plotInSpace c a = .ok r) :
    ∃ x sizes, boxOf a = .ok x ∧
      PlotBasics.dotSize a.mags a.smallest a.largest a.power = .ok sizes ∧ a.lats.length = a.lons.length ∧ (spread a.lons.length sizes).length = a.lons.length ∧
      r = (setExtent c x, List.zipWith (fun (p : ℝ × ℝ) s => ⟨p.1, p.2, s⟩) (a.lons.zip a.lats) (spread a.lons.length sizes)) := by
  unfold plotInSpace at h
  simp only [bind, Except.bind] at h
  cases hx : boxOf a with
  | error e => rw [hx] at h; cases h
  | ok x =>
    rw [hx] at h
    simp only at h
    cases hs : PlotBasics.dotSize a.mags a.smallest a.largest a.power with
    | error e => rw [hs] at h; cases h
    | ok sizes =>
      rw [hs] at h
      simp only at h
      unfold scatter at h
      by_cases hl : a.lats.length ≠ a.lons.length ∨ (spread a.lons.length sizes).length ≠ a.lons.length
      · rw [if_pos hl] at h; cases h
      · rw [if_neg hl] at h
        cases h
        rw [not_or, not_not, not_not] at hl
        exact ⟨x, sizes, rfl, rfl, hl.1, hl.2, rfl⟩

/-! ## C72 -/

/-- C72: without country (or without map) and axes the map shows the range of the events and five percent on each side, so that every event lies on it. -/
theorem C72_extent {a : Args} {x : Extent} {dots : List Dot} (hc : EventBox a) (h : plotInSpace none a = .ok (x, dots)) :
    Padded a.lons x.west x.east ∧ Padded a.lats x.south x.north ∧ ∀ d ∈ dots, Extent.Has x d.lon d.lat := by
  obtain ⟨y, sizes, h1, -, hl, hl2, h2⟩ := plotInSpace_ok h
  rw [boxOf_event hc] at h1
  cases h2
  unfold dataExtent at h1
  split at h1
  · rename_i w e s n hw he hs hn
    cases h1
    have a1 := (amin?_eq_some_iff _ _).1 hw
    have a2 := (amax?_eq_some_iff _ _).1 he
    have a3 := (amin?_eq_some_iff _ _).1 hs
    have a4 := (amax?_eq_some_iff _ _).1 hn
    have p1 : Padded a.lons (w - pad w e) (e + pad w e) := ⟨w, e, a1, a2, by rw [space_pad (a2.2 a1.1)], by rw [space_pad (a2.2 a1.1)]⟩
    have p2 : Padded a.lats (s - pad s n) (n + pad s n) := ⟨s, n, a3, a4, by rw [space_pad (a4.2 a3.1)], by rw [space_pad (a4.2 a3.1)]⟩
    refine ⟨p1, p2, ?_⟩
    intro d hd
    obtain ⟨i, hi, rfl⟩ := List.mem_iff_getElem.1 hd
    simp only [setExtent, List.getElem_zipWith, List.getElem_zip]
    have g1 := p1.has (List.getElem_mem (l := a.lons) (n := i) (by simp at hi; omega))
    have g2 := p2.has (List.getElem_mem (l := a.lats) (n := i) (by simp at hi; omega))
    exact ⟨g1.1, g1.2, g2.1, g2.2⟩
  · cases h1

/-- C72: there is one dot for each event, at its coordinates. There are as many magnitudes as events, and the sizes are those given by `dot_size`; or
there is one magnitude, and all sizes are NaN. -/
theorem C72_dots {c : Option Extent} {a : Args} {x : Extent} {dots : List Dot} (h : plotInSpace c a = .ok (x, dots)) :
    dots.map Dot.lon = a.lons ∧ dots.map Dot.lat = a.lats ∧
    (a.mags.length = a.lons.length → PlotBasics.dotSize a.mags a.smallest a.largest a.power = .ok (dots.map Dot.size)) ∧
    (a.mags.length ≠ a.lons.length → a.mags.length = 1 ∧ (a.power ≠ 0 → ∀ d ∈ dots, d.size = .nan)) := by
  obtain ⟨y, sizes, -, hs, hl, hl2, h2⟩ := plotInSpace_ok h
  cases h2
  rw [hs]
  have e := dotSize_length hs
  refine ⟨?_, ?_, fun hm => congrArg _ ?_, fun hm => ?_⟩
  · apply List.ext_getElem
    · simp [hl, hl2]
    · intro i hi hj; simp
  · apply List.ext_getElem
    · simp [hl, hl2]
    · intro i hi hj; simp
  · rw [spread_eq (e.trans hm)]
    apply List.ext_getElem
    · simp [hl, e, hm]
    · intro i hi hj; simp
  · obtain ⟨m, hm1⟩ := spread_one (sizes := sizes) (by rw [e]; exact hm) hl2
    rw [hm1] at e hs ⊢
    refine ⟨e.symm, fun hp d hd => ?_⟩
    rw [dotSize_one hp e.symm hs] at hd
    obtain ⟨i, hi, rfl⟩ := List.mem_iff_getElem.1 hd
    simp only [List.getElem_zipWith, spread, List.getElem_replicate]

/-- C72: with the default arguments the dots have sizes from 10 to 200, growing with the square of the position of the magnitude in its range. -/
theorem C72_default_sizes {c : Option Extent} {lons lats mags : List ℝ} {x : Extent} {dots : List Dot} {lo hi : ℝ}
    (h : plotInSpace c { lons := lons, lats := lats, mags := mags } = .ok (x, dots)) (hm : mags.length = lons.length)
    (hlo : IsLeast {v | v ∈ mags} lo) (hhi : IsGreatest {v | v ∈ mags} hi) (hne : lo < hi) :
    dots.map Dot.size = mags.map fun m => .fin (10 + ((m - lo) / (hi - lo)) ^ 2 * (200 - 10)) := by
  have h1 := (C72_dots h).2.2.1 hm
  unfold PlotBasics.dotSize at h1
  rw [(amin?_eq_some_iff _ _).2 hlo, (amax?_eq_some_iff _ _).2 hhi] at h1
  simp only at h1
  injection h1 with h1
  rw [← h1]
  apply List.map_congr_left
  intro m _
  rw [rescale_fin _ _ _ _ _ _ hne (by norm_num)]
  unfold PlotBasics.largestDot
  rw [if_neg (by norm_num), Real.rpow_two, add_comm]

/-- C72: with map and country the plot shows the bounds of the country and five percent on each side, whatever the events; an unknown country is an
IndexError. -/
theorem C72_country {a : Args} (b : Option Extent) (hm : a.includeMap = true) (hc : a.country = some b) :
    (b = none → ∀ c, plotInSpace c a = .error .indexError) ∧
    ∀ y, b = some y → y.west ≤ y.east → y.south ≤ y.north → ∀ x dots, plotInSpace none a = .ok (x, dots) →
      x = ⟨y.west - (y.east - y.west) * (5 / 100), y.east + (y.east - y.west) * (5 / 100), y.south - (y.north - y.south) * (5 / 100), y.north + (y.north - y.south) * (5 / 100)⟩ := by
  constructor
  · rintro rfl c
    unfold plotInSpace boxOf
    rw [hm, hc]
    rfl
  · rintro y rfl h1 h2 x dots h
    obtain ⟨x', sizes, hx, -, -, -, h3⟩ := plotInSpace_ok h
    unfold boxOf at hx
    rw [hm, hc] at hx
    cases hx
    cases h3
    simp only [setExtent, space_pad h1, space_pad h2]

/-- C72: plotting into given axes shows the smallest extent that has both the old one and the one of the new plot alone. -/
theorem C72_axes {c : Extent} {a : Args} {x : Extent} {dots : List Dot} (h : plotInSpace (some c) a = .ok (x, dots)) :
    ∃ y, plotInSpace none a = .ok (y, dots) ∧ Extent.Within c x ∧ Extent.Within y x ∧
      ∀ z, Extent.Within c z → Extent.Within y z → Extent.Within x z := by
  obtain ⟨y, sizes, h1, hs, hl, hl2, h2⟩ := plotInSpace_ok h
  cases h2
  refine ⟨y, ?_, (setExtent_within _ _).2 c rfl, (setExtent_within _ _).1, ?_⟩
  · unfold plotInSpace
    simp only [bind, Except.bind]
    rw [h1, hs]
    simp only [scatter]
    rw [if_neg (by rw [not_or, not_not, not_not]; exact ⟨hl, hl2⟩)]
    rfl
  · intro z k1 k2
    exact ⟨le_min k1.1 k2.1, max_le k1.2.1 k2.2.1, le_min k1.2.2.1 k2.2.2.1, max_le k1.2.2.2 k2.2.2.2⟩

theorem plotAll_within {l : List Args} {c x : Extent} {dots : List Dot} (h : plotAll (some c) l = .ok (some x, dots)) : Extent.Within c x := by
  induction l generalizing c dots with
  | nil => cases h; exact within_refl _
  | cons a r ih =>
    unfold plotAll at h
    simp only [bind, Except.bind] at h
    cases hp : plotInSpace (some c) a with
    | error e => rw [hp] at h; cases h
    | ok p =>
      rw [hp] at h
      simp only at h
      cases hq : plotAll (some p.1) r with
      | error e => rw [hq] at h; cases h
      | ok q =>
        rw [hq] at h
        simp only [pure, Except.pure] at h
        obtain ⟨q1, q2⟩ := q
        cases h
        obtain ⟨y, sizes, -, -, -, -, h2⟩ := plotInSpace_ok hp
        subst h2
        exact within_trans ((setExtent_within _ _).2 c rfl) (ih hq)

/-- C72: however many catalogs are plotted into one axes, at the end every dot of every catalog lies on the map (no map, or no country given). -/
theorem C72_history {l : List Args} (hc : ∀ a ∈ l, EventBox a) {c : Option Extent} {x : Extent} {dots : List Dot}
    (h : plotAll c l = .ok (some x, dots)) : (∀ y, c = some y → Extent.Within y x) ∧ ∀ d ∈ dots, Extent.Has x d.lon d.lat := by
  induction l generalizing c dots with
  | nil => cases h; exact ⟨fun y hy => by cases hy; exact within_refl _, fun d hd => by cases hd⟩
  | cons a r ih =>
    unfold plotAll at h
    simp only [bind, Except.bind] at h
    cases hp : plotInSpace c a with
    | error e => rw [hp] at h; cases h
    | ok p =>
      rw [hp] at h
      simp only at h
      cases hq : plotAll (some p.1) r with
      | error e => rw [hq] at h; cases h
      | ok q =>
        rw [hq] at h
        simp only [pure, Except.pure] at h
        obtain ⟨q1, q2⟩ := q
        cases h
        obtain ⟨k1, k2⟩ := ih (fun b hb => hc b (by simp [hb])) hq
        have hw := k1 p.1 rfl
        obtain ⟨p1, p2⟩ := p
        have hin : ∀ d ∈ p2, Extent.Has p1 d.lon d.lat := by
          cases c with
          | none => exact (C72_extent (hc a (by simp)) hp).2.2
          | some c =>
            obtain ⟨y, hy, -, hyx, -⟩ := C72_axes hp
            intro d hd
            exact has_within ((C72_extent (hc a (by simp)) hy).2.2 d hd) hyx
        constructor
        · rintro y rfl
          obtain ⟨_, _, hy, -⟩ := C72_axes hp
          exact within_trans hy hw
        · intro d hd
          rcases List.mem_append.1 hd with hd | hd
          · exact has_within (hin d hd) hw
          · exact k2 d hd

/-- C72: no events, or arrays of different lengths, are ValueErrors (except for a single magnitude); otherwise the plot is drawn. -/
theorem C72_errors (c : Option Extent) {a : Args} (hc : EventBox a) :
    (∃ r, plotInSpace c a = .ok r) ↔ a.lons ≠ [] ∧ a.lats.length = a.lons.length ∧ (a.mags.length = a.lons.length ∨ a.mags.length = 1) := by
  constructor
  · rintro ⟨r, h⟩
    obtain ⟨y, sizes, h1, hs, hl, hl2, -⟩ := plotInSpace_ok h
    refine ⟨?_, hl, ?_⟩
    · intro h0
      rw [boxOf_event hc, h0] at h1
      cases h1
    · rw [← dotSize_length hs]
      by_cases hn : sizes.length = a.lons.length
      · exact Or.inl hn
      · obtain ⟨s, rfl⟩ := spread_one hn hl2
        exact Or.inr rfl
  · rintro ⟨h0, h1, h2⟩
    obtain ⟨w, e, hw, he, -⟩ := space_range h0
    obtain ⟨s, n, hs, hn, -⟩ := space_range (l := a.lats) (by rw [← List.length_pos_iff, h1]; exact List.length_pos_iff.2 h0)
    obtain ⟨lo, hi, hlo, hhi, -⟩ := space_range (l := a.mags) (by
      rw [← List.length_pos_iff]
      rcases h2 with h2 | h2
      · rw [h2]; exact List.length_pos_iff.2 h0
      · rw [h2]; exact one_pos)
    unfold plotInSpace
    rw [boxOf_event hc]
    unfold dataExtent PlotBasics.dotSize scatter
    simp only [hw, he, hs, hn, hlo, hhi, bind, Except.bind]
    rw [if_neg (by
      rw [not_or, not_not, not_not]
      exact ⟨h1, spread_length (by simpa using h2)⟩)]
    exact ⟨_, rfl⟩

/-- C72: the rectangle of a country box has the four corners as vertices, in counterclockwise order, and its area. -/
theorem C72_rectangle (xmin xmax ymin ymax : ℝ) :
    (∀ p : ℝ × ℝ, p ∈ rectFromBound xmin xmax ymin ymax ↔ (p.1 = xmin ∨ p.1 = xmax) ∧ (p.2 = ymin ∨ p.2 = ymax)) ∧
    (rectFromBound xmin xmax ymin ymax).length = 4 ∧
    shoelace (rectFromBound xmin xmax ymin ymax) = 2 * ((xmax - xmin) * (ymax - ymin)) := by
  refine ⟨?_, rfl, ?_⟩
  · rintro ⟨a, b⟩
    simp only [rectFromBound, List.zip_cons_cons, List.zip_nil_right, List.mem_cons, Prod.mk.injEq, List.not_mem_nil, or_false]
    tauto
  · have : (rectFromBound xmin xmax ymin ymax).rotate 1 = [(xmin, ymax), (xmin, ymin), (xmax, ymin), (xmax, ymax)] := rfl
    unfold shoelace
    rw [this]
    simp only [rectFromBound, List.zip_cons_cons, List.zip_nil_right, List.zipWith_cons_cons, List.zipWith_nil_right, List.sum_cons, List.sum_nil]
    ring

/-- Two catalogs in one axes. -/
example : ∃ x dots, plotAll none [{ lons := [7, 8], lats := [46, 47], mags := [1, 2] }, { lons := [6], lats := [45], mags := [3] }] = .ok (some x, dots) ∧ dots.length = 3 := by
  obtain ⟨r, hr⟩ := (C72_errors none (a := { lons := [7, 8], lats := [46, 47], mags := [1, 2] }) (Or.inr rfl)).2 ⟨by simp, rfl, Or.inl rfl⟩
  obtain ⟨q, hq⟩ := (C72_errors (some r.1) (a := { lons := [6], lats := [45], mags := [3] }) (Or.inr rfl)).2 ⟨by simp, rfl, Or.inl rfl⟩
  have l1 := congrArg List.length (C72_dots (x := r.1) (dots := r.2) hr).1
  have l2 := congrArg List.length (C72_dots (x := q.1) (dots := q.2) hq).1
  refine ⟨q.1, r.2 ++ q.2, ?_, ?_⟩
  · unfold plotAll plotAll plotAll
    simp only [bind, Except.bind, hr, hq, pure, Except.pure, List.append_nil]
  · simp only [List.length_map] at l1 l2
    rw [List.length_append, l1, l2]
    rfl

end
end SeismoStats.Props
