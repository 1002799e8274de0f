/-
Lemmas for Props/DoubleFmd: error bounds of `np.arange` in double precision.
-/
import Verif.Proofs.DoubleBinning
import Verif.Model.DoubleFmd
import Verif.Proofs.Binning

namespace SeismoStats
namespace Double
noncomputable section
open Classical

theorem rnd_close {x X c ε : ℝ} (h : |x - X| ≤ ε) (hc : |X| + ε ≤ c) : |rnd x - X| ≤ ε + c * (12 / 10 ^ 17) := by
  have h1 := rnd_err x
  have h2 : |x| ≤ c := by
    have := abs_add_le (x - X) X
    rw [sub_add_cancel] at this
    linarith
  have h3 : |x| / 2 ^ 53 ≤ c * (12 / 10 ^ 17) := by
    have h0 := (abs_nonneg x).trans h2
    rw [div_le_iff₀ (by norm_num)]
    norm_num
    linarith
  have h4 := abs_sub_le (rnd x) x X
  linarith

/-- The quotient that gives the number of entries. -/
theorem arange_quot {D A B s t : ℝ} (hD : 0 < D) (hs : |s - A * D| ≤ D / 100) (ht : |t - B * D| ≤ D / 100) (hAB : |B - A| ≤ 10 ^ 10) :
    |div (sub t s) (rnd D) - (B - A)| ≤ 3 / 100 := by
  have h1 : |t - s - (B - A) * D| ≤ D / 50 := by
    have e : t - s - (B - A) * D = (t - B * D) - (s - A * D) := by ring
    rw [e]
    have := abs_sub (t - B * D) (s - A * D)
    linarith
  have hb : |(B - A) * D| ≤ 10 ^ 10 * D := by
    rw [abs_mul, abs_of_pos hD]
    exact mul_le_mul_of_nonneg_right hAB hD.le
  have h2 : |sub t s - (B - A) * D| ≤ D / 50 + (10 ^ 10 + 1) * D * (12 / 10 ^ 17) := rnd_close h1 (by linarith)
  set q := sub t s
  have h3 : |q / D - (B - A)| ≤ 1 / 40 := by
    have e : q / D - (B - A) = (q - (B - A) * D) / D := by field_simp
    rw [e, abs_div, abs_of_pos hD, div_le_iff₀ hD]
    norm_num at h2 ⊢
    linarith
  have h4 : |q / D| ≤ 10 ^ 10 + 1 := by
    have := abs_add_le (q / D - (B - A)) (B - A)
    rw [sub_add_cancel] at this
    linarith
  have h5 := err_div (x := q) hD
  have h6 := abs_sub_le (div q (rnd D)) (q / D) (B - A)
  norm_num at h4 h5 h6 h3 ⊢
  linarith

/-- The entries. -/
theorem arange_val {D A s : ℝ} (hD : 0 < D) (hs : |s - A * D| ≤ D / 10 ^ 9) (hA : |A| ≤ 10 ^ 6) (i : ℕ) (hi : (i : ℝ) ≤ 4 * 10 ^ 6) :
    |(if i = 0 then s else if i = 1 then add s (rnd D) else add s (mul i (sub (add s (rnd D)) s))) - (A + i) * D| ≤ D / 50 := by
  have hAD : |A * D| ≤ 10 ^ 6 * D := by
    rw [abs_mul, abs_of_pos hD]
    exact mul_le_mul_of_nonneg_right hA hD.le
  have hd : |rnd D - D| ≤ D * (12 / 10 ^ 17) := by
    have := rnd_close (x := D) (X := D) (c := D) (ε := 0) (by simp) (by rw [abs_of_pos hD]; linarith)
    linarith
  have hA1 : |(A + 1) * D| ≤ (10 ^ 6 + 1) * D := by
    have := abs_add_le (A * D) D
    rw [abs_of_pos hD] at this
    rw [add_mul, one_mul, add_mul, one_mul]
    linarith
  have h1 : |add s (rnd D) - (A + 1) * D| ≤ (D / 10 ^ 9 + D * (12 / 10 ^ 17)) + (10 ^ 6 + 2) * D * (12 / 10 ^ 17) := by
    apply rnd_close
    · have e : s + rnd D - (A + 1) * D = (s - A * D) + (rnd D - D) := by ring
      rw [e]
      have := abs_add_le (s - A * D) (rnd D - D)
      linarith
    · norm_num at hA1 ⊢
      linarith
  by_cases h0 : i = 0
  · rw [if_pos h0, h0]
    norm_num at hs ⊢
    linarith
  · rw [if_neg h0]
    by_cases hi1 : i = 1
    · rw [if_pos hi1, hi1]
      norm_num at h1 ⊢
      linarith
    · rw [if_neg hi1]
      set u := add s (rnd D)
      have h1' : |u - (A + 1) * D| ≤ D * (12 / 10 ^ 10) := by
        norm_num at h1 ⊢
        linarith
      have h2 : |sub u s - D| ≤ D * (22 / 10 ^ 10) + 2 * D * (12 / 10 ^ 17) := by
        apply rnd_close
        · have e : u - s - D = (u - (A + 1) * D) - (s - A * D) := by ring
          rw [e]
          have := abs_sub (u - (A + 1) * D) (s - A * D)
          norm_num at this h1' hs ⊢
          linarith
        · rw [abs_of_pos hD]
          norm_num
          linarith
      set d := sub u s
      have hi0 : (0 : ℝ) ≤ i := Nat.cast_nonneg i
      have h2' : |d - D| ≤ D * (23 / 10 ^ 10) := by
        norm_num at h2 ⊢
        linarith
      have h3 : |(i : ℝ) * d - i * D| ≤ D * (92 / 10 ^ 4) := by
        rw [← mul_sub, abs_mul, abs_of_nonneg hi0]
        calc (i : ℝ) * |d - D| ≤ 4 * 10 ^ 6 * (D * (23 / 10 ^ 10)) := mul_le_mul hi h2' (abs_nonneg _) (by norm_num)
          _ = D * (92 / 10 ^ 4) := by ring
      have hiD : |(i : ℝ) * D| ≤ 4 * 10 ^ 6 * D := by
        rw [abs_mul, abs_of_pos hD, abs_of_nonneg hi0]
        exact mul_le_mul_of_nonneg_right hi hD.le
      have h4 : |mul i d - i * D| ≤ D * (92 / 10 ^ 4) + (4 * 10 ^ 6 + 1) * D * (12 / 10 ^ 17) := by
        apply rnd_close h3
        norm_num at hiD ⊢
        linarith
      set v := mul i d
      have h4' : |v - i * D| ≤ D * (93 / 10 ^ 4) := by
        norm_num at h4 ⊢
        linarith
      have h5 : |add s v - (A + i) * D| ≤ (D / 10 ^ 9 + D * (93 / 10 ^ 4)) + (5 * 10 ^ 6 + 1) * D * (12 / 10 ^ 17) := by
        apply rnd_close
        · have e : s + v - (A + i) * D = (s - A * D) + (v - i * D) := by ring
          rw [e]
          have := abs_add_le (s - A * D) (v - i * D)
          linarith
        · have := abs_add_le (A * D) (i * D)
          rw [← add_mul] at this
          norm_num at this hAD hiD ⊢
          linarith
      norm_num at h5 ⊢
      linarith

/-- Entries of a list of which each is close to a grid value, binned: the doubles of the grid values. -/
theorem ceil_of_near {q : ℝ} (n : ℤ) (f : ℝ) (h : |q - (n + f)| ≤ 3 / 100) (h0 : 1 / 10 ≤ f) (h1 : f ≤ 9 / 10) : ⌈q⌉ = n + 1 := by
  have := abs_le.1 h
  rw [Int.ceil_eq_iff]
  push_cast
  constructor <;> linarith [this.1, this.2]

end
end Double
end SeismoStats
