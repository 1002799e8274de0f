/-
Property C58: the events of a catalogue in a polygon.
-/
import Verif.Model.Filtering
import Mathlib.Tactic.NormNum
import Mathlib.Tactic.Linarith
import Mathlib.Data.Rat.Defs
import Mathlib.Algebra.Order.Ring.Rat

namespace SeismoStats.Props
open SeismoStats SeismoStats.Filtering SeismoStats.Catalog

theorem zip_filter_map {α : Type} (l : List α) (p : α → Bool) : ((l.zip (l.map p)).filter fun q => q.2).map Prod.fst = l.filter p := by
  induction l with
  | nil => rfl
  | cons a l ih =>
    rw [List.map_cons, List.zip_cons_cons]
    by_cases h : p a
    · rw [List.filter_cons_of_pos (by simpa using h), List.filter_cons_of_pos h, List.map_cons, ih]
    · rw [List.filter_cons_of_neg (by simpa using h), List.filter_cons_of_neg h, ih]

theorem filter_inside (cols : List String) :
    (withColumn cols "inside_polygon").filter (fun c => !decide (c = "inside_polygon")) = cols.filter fun c => !decide (c = "inside_polygon") := by
  unfold withColumn
  split
  · rfl
  · simp

/-- C58: a catalogue with events and coordinates keeps exactly the rows whose point (latitude, longitude) meets the polygon, in order and with all
columns; the columns stay as they are if none of them is called 'inside_polygon'. -/
theorem C58_filter {V : Type} (inside : V → V → Bool) (f : Frame V) (hne : f.rows ≠ []) (h1 : "latitude" ∈ f.cols) (h2 : "longitude" ∈ f.cols) :
    ∃ g, catIntersectPolygon inside f = .ok g ∧ g.rows = (f.rows.filter fun r => inside (r "latitude") (r "longitude")) ∧
      (∀ c, c ∈ g.cols ↔ c ∈ f.cols ∧ c ≠ "inside_polygon") ∧ ("inside_polygon" ∉ f.cols → g.cols = f.cols) := by
  refine ⟨{ cols := f.cols.filter fun c => !decide (c = "inside_polygon"), rows := f.rows.filter fun r => inside (r "latitude") (r "longitude") }, ?_, rfl, ?_, ?_⟩
  · unfold catIntersectPolygon insideColumn
    rw [if_neg hne, if_pos ⟨h1, h2⟩]
    simp only [bind, Except.bind, pure, Except.pure]
    rw [zip_filter_map, filter_inside]
  · intro c; simp
  · intro h
    rw [List.filter_eq_self]
    intro c hc
    have : c ≠ "inside_polygon" := fun he => h (he ▸ hc)
    simpa using this

/-- C58: filtering again with the same polygon changes nothing, and a smaller polygon can be applied to the result. -/
theorem C58_nested {V : Type} (inside inside' : V → V → Bool) (f g g' : Frame V) (hsub : ∀ a b, inside' a b = true → inside a b = true)
    (h : catIntersectPolygon inside f = .ok g) (h' : catIntersectPolygon inside' g = .ok g') : catIntersectPolygon inside' f = .ok g' := by
  unfold catIntersectPolygon insideColumn at h
  by_cases hf : f.rows = []
  · rw [if_pos hf] at h; cases h
  · rw [if_neg hf] at h
    by_cases hc : "latitude" ∈ f.cols ∧ "longitude" ∈ f.cols
    · rw [if_pos hc] at h
      simp only [bind, Except.bind, pure, Except.pure] at h
      rw [zip_filter_map, filter_inside] at h
      cases h
      unfold catIntersectPolygon insideColumn at h' ⊢
      rw [if_neg hf, if_pos hc]
      simp only [bind, Except.bind, pure, Except.pure] at h' ⊢
      rw [zip_filter_map, filter_inside]
      split at h'
      · cases h'
      · rename_i b hb
        split at hb
        · cases hb
        · rename_i hr
          rw [if_pos (by simpa using hc)] at hb
          cases hb
          rw [← h', zip_filter_map, filter_inside]
          congr 2
          · simp
          · rw [List.filter_filter]
            apply List.filter_congr
            intro r _
            have := hsub (r "latitude") (r "longitude")
            cases h3 : inside' (r "latitude") (r "longitude") <;> simp_all
    · rw [if_neg hc] at h; cases h

/-- Specification: the points of a box given by x and y. -/
def boxed (x0 x1 y0 y1 : ℚ) (a b : ℚ) : Bool := decide (x0 ≤ a ∧ a ≤ x1 ∧ y0 ≤ b ∧ b ≤ y1)

/-- C58 (defect): vertices are documented as (x, y), but the first coordinate is compared with the latitude: of the events in a box of longitudes
`[x0, x1]` and latitudes `[y0, y1]` none is kept if no latitude lies in `[x0, x1]`. -/
theorem C58_defect_swapped (x0 x1 y0 y1 : ℚ) (f : Frame ℚ) (hne : f.rows ≠ []) (h1 : "latitude" ∈ f.cols) (h2 : "longitude" ∈ f.cols)
    (hdis : y1 < x0 ∨ x1 < y0) (hin : ∀ r ∈ f.rows, boxed x0 x1 y0 y1 (r "longitude") (r "latitude") = true) :
    ∃ g, catIntersectPolygon (boxed x0 x1 y0 y1) f = .ok g ∧ g.rows = [] := by
  obtain ⟨g, hg, hr, _⟩ := C58_filter (boxed x0 x1 y0 y1) f hne h1 h2
  refine ⟨g, hg, ?_⟩
  rw [hr, List.filter_eq_nil_iff]
  intro r hr
  have := hin r hr
  simp only [boxed, decide_eq_true_eq] at this ⊢
  rintro ⟨a1, a2, _, _⟩
  rcases hdis with h | h <;> linarith [this.1, this.2.1, this.2.2.1, this.2.2.2]

/-- C58 (defect): a catalogue without events is a ValueError, not an empty catalogue. -/
theorem C58_defect_empty {V : Type} (inside : V → V → Bool) (cols : List String) :
    catIntersectPolygon inside { cols := cols, rows := [] } = .error .valueError := rfl

/-- C58 (defect): so the result of a filter that keeps nothing cannot be filtered again. -/
theorem C58_defect_twice {V : Type} (inside inside' : V → V → Bool) (f g : Frame V) (h : catIntersectPolygon inside f = .ok g)
    (hnone : ∀ r ∈ f.rows, inside (r "latitude") (r "longitude") = false) : catIntersectPolygon inside' g = .error .valueError := by
  have hg : g.rows = [] := by
    unfold catIntersectPolygon insideColumn at h
    by_cases hf : f.rows = []
    · rw [if_pos hf] at h; cases h
    · rw [if_neg hf] at h
      by_cases hc : "latitude" ∈ f.cols ∧ "longitude" ∈ f.cols
      · rw [if_pos hc] at h
        simp only [bind, Except.bind, pure, Except.pure] at h
        rw [zip_filter_map] at h
        cases h
        rw [List.filter_eq_nil_iff]
        intro r hr
        simp [hnone r hr]
      · rw [if_neg hc] at h; cases h
  unfold catIntersectPolygon insideColumn
  rw [if_pos hg]
  rfl

/-- C58 (defect): a column called 'inside_polygon' is lost. -/
theorem C58_defect_column {V : Type} (inside : V → V → Bool) (f g : Frame V) (h : catIntersectPolygon inside f = .ok g) : "inside_polygon" ∉ g.cols := by
  unfold catIntersectPolygon at h
  cases hb : insideColumn inside f with
  | error e => rw [hb] at h; cases h
  | ok b =>
    rw [hb] at h
    cases h
    simp

/-- C58: without coordinate columns a KeyError. -/
theorem C58_missing_columns {V : Type} (inside : V → V → Bool) (f : Frame V) (hne : f.rows ≠ []) (h : "latitude" ∉ f.cols ∨ "longitude" ∉ f.cols) :
    catIntersectPolygon inside f = .error .keyError := by
  unfold catIntersectPolygon insideColumn
  rw [if_neg hne, if_neg (by rintro ⟨a, b⟩; rcases h with h | h; exact h a; exact h b)]
  rfl

/-- Events of Switzerland: longitude 8, latitudes 47 and 40. -/
def swiss : Frame ℚ :=
  { cols := ["longitude", "latitude"], rows := [fun c => if c = "latitude" then 47 else 8, fun c => if c = "latitude" then 40 else 8] }

/-- A case: vertices given as (latitude, longitude) keep the first of two events. -/
example : ∃ g, catIntersectPolygon (boxed 45 48 6 11) swiss = .ok g ∧ g.rows.map (fun r => r "latitude") = [47] := by
  obtain ⟨g, hg, hr, _⟩ := C58_filter (boxed 45 48 6 11) swiss (by simp [swiss]) (by simp [swiss]) (by simp [swiss])
  refine ⟨g, hg, ?_⟩
  rw [hr]
  have hl : ¬ ("longitude" = "latitude") := by decide
  simp only [swiss, List.filter_cons, List.filter_nil, boxed, if_neg hl]
  norm_num

/-- A case of the defect: the documented order of the vertices loses both events of the box. -/
example : ∃ g, catIntersectPolygon (boxed 6 11 39 48) swiss = .ok g ∧ g.rows = [] :=
  C58_defect_swapped 6 11 39 48 swiss (by simp [swiss]) (by simp [swiss]) (by simp [swiss]) (Or.inr (by norm_num)) (by
    intro r hr
    have hl : ¬ ("longitude" = "latitude") := by decide
    simp only [swiss, List.mem_cons, List.not_mem_nil, or_false] at hr
    rcases hr with rfl | rfl <;> simp only [boxed, if_neg hl] <;> norm_num)

end SeismoStats.Props
