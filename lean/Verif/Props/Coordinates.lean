/-
Property C61: transformation between external and local coordinates, bounding boxes.
-/
import Verif.Model.Coordinates
import Verif.Proofs.Binning
import Mathlib.Tactic.NormNum
import Mathlib.Tactic.Linarith
import Mathlib.Tactic.Ring
import Mathlib.Data.Real.Archimedean

set_option linter.unusedSectionVars false

namespace SeismoStats.Props
open SeismoStats SeismoStats.Coordinates

/-- Specification: two transformers are inverse to each other, in the plane and in space. -/
structure Inverse {K : Type} (s t : Transformer K) : Prop where
  two : ∀ x y, t.two (s.two x y).1 (s.two x y).2 = (x, y)
  three : ∀ x y z, t.three (s.three x y z).1 (s.three x y z).2.1 (s.three x y z).2.2 = (x, y, z)

section
variable {K : Type} [Field K] [LinearOrder K] [IsStrictOrderedRing K] [FloorRing K]

/-- C61: a point goes to local coordinates and back unchanged, with or without altitude. -/
theorem C61_round_trip (t : CT K) (h : Inverse t.toLocal t.toExternal) (lon lat : K) (alt : Option K) :
    fromLocal t (toLocal t lon lat alt).1 (toLocal t lon lat alt).2.1 (toLocal t lon lat alt).2.2 = (lon, lat, alt) := by
  cases alt with
  | none =>
    have := h.two lon lat
    simp [toLocal, fromLocal, this]
  | some z =>
    have := h.three lon lat z
    simp [toLocal, fromLocal, this]

/-- C61: a local point goes to external coordinates and back unchanged. -/
theorem C61_round_trip_local (t : CT K) (h : Inverse t.toExternal t.toLocal) (e n : K) (alt : Option K) :
    toLocal t (fromLocal t e n alt).1 (fromLocal t e n alt).2.1 (fromLocal t e n alt).2.2 = (e, n, alt) := by
  cases alt with
  | none =>
    have := h.two (e + t.refE) (n + t.refN)
    simp [toLocal, fromLocal, this]
  | some z =>
    have := h.three (e + t.refE) (n + t.refN) (z + t.refA)
    simp [toLocal, fromLocal, this]

/-- C61: local coordinates are those of the projection minus those of the reference point: shifting the reference shifts all points. -/
theorem C61_reference_is_origin {P : Type} (proj : Proj P K) (loc ext : P) (e n a : K) (rp : Option P) (lon lat : K) :
    (∀ z, toLocal (make proj loc e n a ext rp) lon lat (some z) =
      (((proj ext loc).three lon lat z).1 - (reference proj loc e n rp).1, ((proj ext loc).three lon lat z).2.1 - (reference proj loc e n rp).2,
        some (((proj ext loc).three lon lat z).2.2 - a))) ∧
    toLocal (make proj loc e n a ext none) lon lat none = (((proj ext loc).two lon lat).1 - e, ((proj ext loc).two lon lat).2 - n, none) ∧
    -- the reference point, given in the external system, is the origin
    toLocal (make proj loc lon lat a ext (some ext)) lon lat none = (0, 0, none) := by
  refine ⟨fun z => rfl, rfl, ?_⟩
  simp [toLocal, make, reference]

theorem points_none (x y : List K) (h : x.length = y.length) : points x y none = .ok ((x.zip y).map fun p => (p.1, p.2, none)) := by
  unfold points
  rw [if_pos ⟨h, by simp⟩]

theorem points_some (x y z : List K) (h : x.length = y.length) (hz : z.length = x.length) :
    points x y (some z) = .ok ((x.zip (y.zip z)).map fun p => (p.1, p.2.1, some p.2.2)) := by
  unfold points
  rw [if_pos ⟨h, by simpa using hz⟩]

/-- The points of the arrays that are returned are the points that were returned. -/
theorem points_columns (z : Option (List K)) (l : List (K × K × Option K)) (h : ∀ p ∈ l, p.2.2.isSome = z.isSome) :
    points (columns z l).1 (columns z l).2.1 (columns z l).2.2 = .ok l := by
  cases z with
  | none =>
    unfold columns
    simp only [Option.map_none]
    rw [points_none _ _ (by simp)]
    congr 1
    induction l with
    | nil => rfl
    | cons p l ih =>
      have hp := h p (by simp)
      obtain ⟨a, b, c⟩ := p
      cases c with
      | some c => simp at hp
      | none =>
        rw [List.map_cons, List.map_cons, List.zip_cons_cons, List.map_cons, ih fun q hq => h q (by simp [hq])]
  | some w =>
    unfold columns
    simp only [Option.map_some]
    have hlen : (l.filterMap fun p => p.2.2).length = l.length := by
      induction l with
      | nil => rfl
      | cons p l ih =>
        have hp := h p (by simp)
        obtain ⟨a, b, c⟩ := p
        cases c with
        | none => simp at hp
        | some c =>
          rw [List.filterMap_cons_some (f := fun p : K × K × Option K => p.2.2) (b := c) rfl, List.length_cons, List.length_cons, ih fun q hq => h q (by simp [hq])]
    rw [points_some _ _ _ (by simp) (by simpa using hlen)]
    congr 1
    clear hlen
    induction l with
    | nil => rfl
    | cons p l ih =>
      have hp := h p (by simp)
      obtain ⟨a, b, c⟩ := p
      cases c with
      | none => simp at hp
      | some c =>
        rw [List.map_cons, List.map_cons, List.filterMap_cons_some (f := fun p : K × K × Option K => p.2.2) (b := c) rfl, List.zip_cons_cons, List.zip_cons_cons, List.map_cons,
          ih fun q hq => h q (by simp [hq])]

theorem points_isSome (x y : List K) (z : Option (List K)) (l : List (K × K × Option K)) (h : points x y z = .ok l) : ∀ p ∈ l, p.2.2.isSome = z.isSome := by
  unfold points at h
  split at h
  · cases z with
    | none =>
      cases h
      intro p hp
      obtain ⟨q, _, rfl⟩ := List.mem_map.1 hp
      rfl
    | some w =>
      cases h
      intro p hp
      obtain ⟨q, _, rfl⟩ := List.mem_map.1 hp
      rfl
  · cases h

theorem toLocal_isSome (t : CT K) (x y : K) (z : Option K) : (toLocal t x y z).2.2.isSome = z.isSome := by cases z <;> rfl

theorem columns_points (x y : List K) (z : Option (List K)) (l : List (K × K × Option K)) (h : points x y z = .ok l) : columns z l = (x, y, z) := by
  unfold points at h
  split at h
  · rename_i hc
    cases z with
    | none =>
      cases h
      unfold columns
      simp only [List.map_map, Option.map_none]
      rw [show ((fun p : K × K × Option K => p.1) ∘ fun p : K × K => (p.1, p.2, none)) = Prod.fst from rfl,
        show ((fun p : K × K × Option K => p.2.1) ∘ fun p : K × K => (p.1, p.2, none)) = Prod.snd from rfl,
        List.map_fst_zip (by omega), List.map_snd_zip (by omega)]
    | some w =>
      cases h
      have hw : w.length = x.length := hc.2 w (by simp)
      have hlen : (y.zip w).length = x.length := by rw [List.length_zip]; omega
      unfold columns
      simp only [List.map_map, Option.map_some, List.filterMap_map]
      rw [show ((fun p : K × K × Option K => p.1) ∘ fun p : K × K × K => (p.1, p.2.1, some p.2.2)) = Prod.fst from rfl,
        show ((fun p : K × K × Option K => p.2.1) ∘ fun p : K × K × K => (p.1, p.2.1, some p.2.2)) = Prod.fst ∘ Prod.snd from rfl,
        show ((fun p : K × K × Option K => p.2.2) ∘ fun p : K × K × K => (p.1, p.2.1, some p.2.2)) = some ∘ (Prod.snd ∘ Prod.snd) from rfl,
        List.filterMap_eq_map, ← List.map_map, ← List.map_map, List.map_snd_zip (by omega), List.map_fst_zip (by omega), List.map_snd_zip (by omega),
        List.map_fst_zip (by omega)]
  · cases h

/-- C61: arrays of points of equal length go to local coordinates and back unchanged. -/
theorem C61_round_trip_arrays (t : CT K) (h : Inverse t.toLocal t.toExternal) (lon lat : List K) (alt : Option (List K))
    (h1 : lon.length = lat.length) (h2 : ∀ z, alt = some z → z.length = lon.length) :
    ∃ e n a, toLocalArr t lon lat alt = .ok (e, n, a) ∧ fromLocalArr t e n a = .ok (lon, lat, alt) := by
  obtain ⟨l, hl⟩ : ∃ l, points lon lat alt = .ok l := by
    cases alt with
    | none => exact ⟨_, points_none lon lat h1⟩
    | some z => exact ⟨_, points_some lon lat z h1 (h2 z rfl)⟩
  have hs := points_isSome _ _ _ _ hl
  set l' := l.map fun p => toLocal t p.1 p.2.1 p.2.2 with hl'
  have hs' : ∀ p ∈ l', p.2.2.isSome = alt.isSome := by
    intro p hp
    obtain ⟨q, hq, rfl⟩ := List.mem_map.1 hp
    rw [toLocal_isSome]
    exact hs q hq
  refine ⟨(columns alt l').1, (columns alt l').2.1, (columns alt l').2.2, ?_, ?_⟩
  · unfold toLocalArr
    rw [hl]
    rfl
  · unfold fromLocalArr
    rw [points_columns alt l' hs']
    simp only [bind, Except.bind, pure, Except.pure]
    rw [hl', List.map_map]
    have : (l.map ((fun p : K × K × Option K => fromLocal t p.1 p.2.1 p.2.2) ∘ fun p => toLocal t p.1 p.2.1 p.2.2)) = l := by
      rw [List.map_congr_left (g := id) (fun p _ => C61_round_trip t h p.1 p.2.1 p.2.2)]
      simp
    rw [this]
    have hc : ∀ l, columns ((columns alt l').2.2) l = columns alt l := by
      intro l
      cases alt <;> rfl
    have hc' := hc l
    rw [hl'] at hc'
    rw [hc', columns_points lon lat alt l hl]

theorem poly_map_map (f g : K × K × Option K → K × K × Option K) (p : Poly K) : (p.map f).map g = p.map (g ∘ f) := by
  simp [Poly.map, List.map_map, Function.comp_def]

theorem poly_map_id (f : K × K × Option K → K × K × Option K) (h : ∀ v, f v = v) (p : Poly K) : p.map f = p := by
  have : f = id := funext h
  subst this
  simp [Poly.map]

theorem polygon_maps (t : CT K) (p : Poly K) :
    polygonToLocal t p = p.map (fun v => toLocal t v.1 v.2.1 v.2.2) ∧ polygonFromLocal t p = p.map (fun v => fromLocal t v.1 v.2.1 v.2.2) := by
  unfold polygonToLocal polygonFromLocal
  rw [poly_map_map, poly_map_map]
  constructor
  · congr 1
    funext v
    obtain ⟨x, y, z⟩ := v
    cases z <;> simp [transformVertex, translateVertex, toLocal, sub_eq_add_neg]
  · congr 1
    funext v
    obtain ⟨x, y, z⟩ := v
    cases z <;> simp [transformVertex, translateVertex, fromLocal]

/-- C61: the vertices of a transformed polygon, holes included, are the transformed vertices, in order. -/
theorem C61_polygon_vertices (t : CT K) (p : Poly K) :
    (polygonToLocal t p).exterior = p.exterior.map (fun v => toLocal t v.1 v.2.1 v.2.2) ∧
    (polygonToLocal t p).holes = p.holes.map (fun ring => ring.map fun v => toLocal t v.1 v.2.1 v.2.2) ∧
    (polygonFromLocal t p).exterior = p.exterior.map (fun v => fromLocal t v.1 v.2.1 v.2.2) ∧
    (polygonFromLocal t p).holes = p.holes.map (fun ring => ring.map fun v => fromLocal t v.1 v.2.1 v.2.2) := by
  rw [(polygon_maps t p).1, (polygon_maps t p).2]
  exact ⟨rfl, rfl, rfl, rfl⟩

/-- C61: a polygon goes to local coordinates and back unchanged. -/
theorem C61_polygon_round_trip (t : CT K) (h : Inverse t.toLocal t.toExternal) (p : Poly K) : polygonFromLocal t (polygonToLocal t p) = p := by
  rw [(polygon_maps t _).2, (polygon_maps t p).1, poly_map_map]
  exact poly_map_id _ (fun v => C61_round_trip t h v.1 v.2.1 v.2.2) p

/-- C61: the bounding box of a polygon contains its vertices, and every side is touched. -/
theorem C61_bounding_box (p : Poly K) (hne : p.exterior ≠ []) :
    ∃ x0 y0 x1 y1, polygonToBoundingBox p = some (x0, y0, x1, y1) ∧
      (∀ v ∈ p.exterior, x0 ≤ v.1 ∧ v.1 ≤ x1 ∧ y0 ≤ v.2.1 ∧ v.2.1 ≤ y1) ∧
      (∃ v ∈ p.exterior, v.1 = x0) ∧ (∃ v ∈ p.exterior, v.1 = x1) ∧ (∃ v ∈ p.exterior, v.2.1 = y0) ∧ ∃ v ∈ p.exterior, v.2.1 = y1 := by
  have h1 : p.exterior.map (fun v => v.1) ≠ [] := by simpa using hne
  have h2 : p.exterior.map (fun v => v.2.1) ≠ [] := by simpa using hne
  obtain ⟨x0, hx0⟩ := exists_amin h1
  obtain ⟨x1, hx1⟩ := exists_amax h1
  obtain ⟨y0, hy0⟩ := exists_amin h2
  obtain ⟨y1, hy1⟩ := exists_amax h2
  refine ⟨x0, y0, x1, y1, ?_, ?_, ?_, ?_, ?_, ?_⟩
  · unfold polygonToBoundingBox
    rw [hx0, hx1, hy0, hy1]
  · rw [amin?_eq_some_iff] at hx0 hy0
    rw [amax?_eq_some_iff] at hx1 hy1
    intro v hv
    have a1 : v.1 ∈ p.exterior.map (fun v => v.1) := List.mem_map.2 ⟨v, hv, rfl⟩
    have a2 : v.2.1 ∈ p.exterior.map (fun v => v.2.1) := List.mem_map.2 ⟨v, hv, rfl⟩
    exact ⟨hx0.2 a1, hx1.2 a1, hy0.2 a2, hy1.2 a2⟩
  · exact List.mem_map.1 ((amin?_eq_some_iff _ _).1 hx0).1
  · exact List.mem_map.1 ((amax?_eq_some_iff _ _).1 hx1).1
  · exact List.mem_map.1 ((amin?_eq_some_iff _ _).1 hy0).1
  · exact List.mem_map.1 ((amax?_eq_some_iff _ _).1 hy1).1

theorem bounds_box (a b c d : K) : polygonToBoundingBox (boundingBoxToPolygon a b c d) = some (min a b, min c d, max a b, max c d) := by
  unfold polygonToBoundingBox boundingBoxToPolygon
  simp only [List.map_cons, List.map_nil]
  have e1 : amin? [b, b, a, a, b] = some (min a b) := by
    rw [amin?_eq_some_iff]
    refine ⟨by rcases min_choice a b with h | h <;> simp [h], fun v hv => ?_⟩
    simp only [Set.mem_ofPred_eq, List.mem_cons, List.not_mem_nil, or_false] at hv
    rcases hv with rfl | rfl | rfl | rfl | rfl <;> simp
  have e2 : amin? [c, d, d, c, c] = some (min c d) := by
    rw [amin?_eq_some_iff]
    refine ⟨by rcases min_choice c d with h | h <;> simp [h], fun v hv => ?_⟩
    simp only [Set.mem_ofPred_eq, List.mem_cons, List.not_mem_nil, or_false] at hv
    rcases hv with rfl | rfl | rfl | rfl | rfl <;> simp
  have e3 : amax? [b, b, a, a, b] = some (max a b) := by
    rw [amax?_eq_some_iff]
    refine ⟨by rcases max_choice a b with h | h <;> simp [h], fun v hv => ?_⟩
    simp only [Set.mem_ofPred_eq, List.mem_cons, List.not_mem_nil, or_false] at hv
    rcases hv with rfl | rfl | rfl | rfl | rfl <;> simp
  have e4 : amax? [c, d, d, c, c] = some (max c d) := by
    rw [amax?_eq_some_iff]
    refine ⟨by rcases max_choice c d with h | h <;> simp [h], fun v hv => ?_⟩
    simp only [Set.mem_ofPred_eq, List.mem_cons, List.not_mem_nil, or_false] at hv
    rcases hv with rfl | rfl | rfl | rfl | rfl <;> simp
  rw [e1, e2, e3, e4]

/-- C61: a box keeps its bounds. -/
theorem C61_box_round_trip (xMin xMax yMin yMax : K) (h1 : xMin ≤ xMax) (h2 : yMin ≤ yMax) :
    polygonToBoundingBox (boundingBoxToPolygon xMin xMax yMin yMax) = some (xMin, yMin, xMax, yMax) := by
  rw [bounds_box, min_eq_left h1, min_eq_left h2, max_eq_right h1, max_eq_right h2]

/-- C61 (defect): the two functions do not agree on the order of the bounds: handing the tuple of one to the other changes the box, unless the upper x
bound happens to be the lower y bound. -/
theorem C61_defect_argument_order (p : Poly K) (x0 y0 x1 y1 : K) (h : polygonToBoundingBox p = some (x0, y0, x1, y1)) (hx : x0 < x1) (hxy : x1 ≠ y0) :
    polygonToBoundingBox (boundingBoxToPolygon x0 y0 x1 y1) ≠ polygonToBoundingBox p := by
  rw [bounds_box, h]
  intro he
  simp only [Option.some.injEq, Prod.mk.injEq] at he
  obtain ⟨_, _, h3, _⟩ := he
  rcases max_choice x0 y0 with hm | hm
  · rw [hm] at h3; exact hx.ne h3
  · rw [hm] at h3; exact hxy h3.symm

end

/-- A case: the projections `x ↦ 2x`, `y ↦ 3y` and back, with a reference point. -/
def scaling (K : Type) [Field K] : Proj Bool K := fun a b =>
  if a = b then ⟨fun x y => (x, y), fun x y z => (x, y, z)⟩
  else if b then ⟨fun x y => (2 * x, 3 * y), fun x y z => (2 * x, 3 * y, z)⟩
  else ⟨fun x y => (x / 2, y / 3), fun x y z => (x / 2, y / 3, z)⟩

example : Inverse (make (scaling ℝ) true 5 7 100 false none).toLocal (make (scaling ℝ) true 5 7 100 false none).toExternal := by
  constructor <;> intros <;> simp [make, scaling]

example : toLocal (make (scaling ℝ) true 5 7 100 false none) 10 20 (some 500) = (15, 53, some 400) := by
  norm_num [make, scaling, toLocal, reference]

/-- A case of the defect: the unit square moved to the right by one. -/
example : polygonToBoundingBox (boundingBoxToPolygon (1 : ℝ) 2 0 1) = some (1, 0, 2, 1) ∧
    polygonToBoundingBox (boundingBoxToPolygon (1 : ℝ) 0 2 1) ≠ polygonToBoundingBox (boundingBoxToPolygon (1 : ℝ) 2 0 1) := by
  have h := C61_box_round_trip (1 : ℝ) 2 0 1 (by norm_num) (by norm_num)
  exact ⟨h, C61_defect_argument_order _ _ _ _ _ h (by norm_num) (by norm_num)⟩

end SeismoStats.Props
