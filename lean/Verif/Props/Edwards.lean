/-
Property C62: conversion of local magnitudes.
-/
import Verif.Model.Edwards
import Mathlib.Data.Real.Basic
import Mathlib.Tactic.NormNum
import Mathlib.Tactic.Linarith
import Mathlib.Tactic.Ring
import Mathlib.Tactic.Push

namespace SeismoStats.Props
open SeismoStats SeismoStats.Edwards

theorem toLower_iff_l (d : Char) : d.toLower = 'l' ↔ d = 'l' ∨ d = 'L' := by
  constructor
  · intro h
    by_cases hu : d.val ≥ 'A'.val ∧ d.val ≤ 'Z'.val
    · right
      have : d.toLower.val = 'l'.val := by rw [h]
      unfold Char.toLower at this
      split at this
      · apply Char.ext
        have h2 : d.val + ('a'.val - 'A'.val) = 'l'.val := by simpa using this
        have h3 : d.val = 'l'.val - ('a'.val - 'A'.val) := by rw [← h2]; simp
        rw [h3]; decide
      · rename_i hn
        exact absurd hu (by simpa using hn)
    · left
      unfold Char.toLower at h
      split at h
      · rename_i hy
        exact absurd hy (by simpa using hu)
      · exact h
  · rintro (rfl | rfl) <;> decide

theorem toLower_iff_w (d : Char) : d.toLower = 'w' ↔ d = 'w' ∨ d = 'W' := by
  constructor
  · intro h
    by_cases hu : d.val ≥ 'A'.val ∧ d.val ≤ 'Z'.val
    · right
      have : d.toLower.val = 'w'.val := by rw [h]
      unfold Char.toLower at this
      split at this
      · apply Char.ext
        have h2 : d.val + ('a'.val - 'A'.val) = 'w'.val := by simpa using this
        have h3 : d.val = 'w'.val - ('a'.val - 'A'.val) := by rw [← h2]; simp
        rw [h3]; decide
      · rename_i hn
        exact absurd hu (by simpa using hn)
    · left
      unfold Char.toLower at h
      split at h
      · rename_i hy
        exact absurd hy (by simpa using hu)
      · exact h
  · rintro (rfl | rfl) <;> decide

theorem hasLetter_l (s : String) : hasLetter 'l' s = true ↔ 'l' ∈ s.toList ∨ 'L' ∈ s.toList := by
  unfold hasLetter
  simp only [List.any_eq_true, decide_eq_true_eq, toLower_iff_l]
  constructor
  · rintro ⟨d, hd, rfl | rfl⟩ <;> simp [hd]
  · rintro (h | h)
    · exact ⟨_, h, Or.inl rfl⟩
    · exact ⟨_, h, Or.inr rfl⟩

theorem hasLetter_w (s : String) : hasLetter 'w' s = true ↔ 'w' ∈ s.toList ∨ 'W' ∈ s.toList := by
  unfold hasLetter
  simp only [List.any_eq_true, decide_eq_true_eq, toLower_iff_w]
  constructor
  · rintro ⟨d, hd, rfl | rfl⟩ <;> simp [hd]
  · rintro (h | h)
    · exact ⟨_, h, Or.inl rfl⟩
    · exact ⟨_, h, Or.inr rfl⟩

/-- C62: a type with the letter l is converted by the polynomial of Edwards et al., one with w and no l stays, any other gives nothing. -/
theorem C62_conversion (ty : String) (m : ℝ) :
    ('l' ∈ ty.toList ∨ 'L' ∈ ty.toList → applyEdwards ty m = some ("Mw_converted", 1.02 + 0.472 * m + 0.0491 * m ^ 2)) ∧
    (('l' ∉ ty.toList ∧ 'L' ∉ ty.toList) → ('w' ∈ ty.toList ∨ 'W' ∈ ty.toList) → applyEdwards ty m = some (ty, m)) ∧
    (('l' ∉ ty.toList ∧ 'L' ∉ ty.toList) → ('w' ∉ ty.toList ∧ 'W' ∉ ty.toList) → applyEdwards ty m = none) := by
  refine ⟨?_, ?_, ?_⟩
  · intro h
    unfold applyEdwards
    rw [if_pos ((hasLetter_l ty).2 h)]
    unfold convert
    norm_num
  · intro h1 h2
    unfold applyEdwards
    rw [if_neg (by rw [hasLetter_l]; tauto), if_pos ((hasLetter_w ty).2 h2)]
  · intro h1 h2
    unfold applyEdwards
    rw [if_neg (by rw [hasLetter_l]; tauto), if_neg (by rw [hasLetter_w]; tauto)]

/-- C62: applying the conversion to its own result changes nothing. -/
theorem C62_idempotent (ty : String) (m : ℝ) (r : String × ℝ) (h : applyEdwards ty m = some r) : applyEdwards r.1 r.2 = some r := by
  obtain ⟨c1, c2, c3⟩ := C62_conversion ty m
  by_cases hl : 'l' ∈ ty.toList ∨ 'L' ∈ ty.toList
  · rw [c1 hl] at h
    cases h
    exact (C62_conversion "Mw_converted" _).2.1 (by decide) (by decide)
  · by_cases hw : 'w' ∈ ty.toList ∨ 'W' ∈ ty.toList
    · rw [c2 (by tauto) hw] at h
      cases h
      exact c2 (by tauto) hw
    · rw [c3 (by tauto) (by tauto)] at h
      cases h

/-- C62: the conversion keeps the order of magnitudes from the vertex of the parabola (about -4.8) on. -/
theorem C62_increasing (ty : String) (m m' : ℝ) (r r' : String × ℝ) (h0 : -0.472 / (2 * 0.0491) ≤ m) (hm : m < m')
    (h : applyEdwards ty m = some r) (h' : applyEdwards ty m' = some r') : r.2 < r'.2 := by
  obtain ⟨c1, c2, c3⟩ := C62_conversion ty m
  obtain ⟨d1, d2, d3⟩ := C62_conversion ty m'
  by_cases hl : 'l' ∈ ty.toList ∨ 'L' ∈ ty.toList
  · rw [c1 hl] at h
    rw [d1 hl] at h'
    cases h; cases h'
    have : -0.472 ≤ m * (2 * 0.0491 : ℝ) := by rwa [div_le_iff₀ (by norm_num)] at h0
    norm_num at this ⊢
    nlinarith
  · by_cases hw : 'w' ∈ ty.toList ∨ 'W' ∈ ty.toList
    · rw [c2 (by tauto) hw] at h
      rw [d2 (by tauto) hw] at h'
      cases h; cases h'
      exact hm
    · rw [c3 (by tauto) (by tauto)] at h
      cases h

/-- C62 (defect): below the vertex the order is reversed. -/
theorem C62_defect_decreasing (ty : String) (hl : 'l' ∈ ty.toList ∨ 'L' ∈ ty.toList) (m m' : ℝ) (h0 : m' ≤ -0.472 / (2 * 0.0491)) (hm : m < m') :
    ∃ r r', applyEdwards ty m = some r ∧ applyEdwards ty m' = some r' ∧ r'.2 < r.2 := by
  refine ⟨_, _, (C62_conversion ty m).1 hl, (C62_conversion ty m').1 hl, ?_⟩
  have : m' * (2 * 0.0491 : ℝ) ≤ -0.472 := by rwa [le_div_iff₀ (by norm_num)] at h0
  norm_num at this ⊢
  nlinarith

/-- C62 (defect): a surface or body wave type with an l in its name, as mb_Lg, is taken for a local magnitude. -/
theorem C62_defect_other_types (m : ℝ) : applyEdwards "mb_Lg" m = some ("Mw_converted", 1.02 + 0.472 * m + 0.0491 * m ^ 2) :=
  (C62_conversion "mb_Lg" m).1 (by decide)

/-- Cases: a local magnitude of 3, a moment magnitude, a body wave magnitude. -/
example : applyEdwards "ML" (3 : ℝ) = some ("Mw_converted", 2.8779) := by
  rw [(C62_conversion "ML" 3).1 (by decide)]
  norm_num
example : applyEdwards "Mw" (3 : ℝ) = some ("Mw", 3) := (C62_conversion "Mw" 3).2.1 (by decide) (by decide)
example : applyEdwards "mb" (3 : ℝ) = none := (C62_conversion "mb" 3).2.2 (by decide) (by decide)
/-- The order of the magnitudes 1 and 2. -/
example : -0.472 / (2 * 0.0491) ≤ (1 : ℝ) := by norm_num

end SeismoStats.Props
