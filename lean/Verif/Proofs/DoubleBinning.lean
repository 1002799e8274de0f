/-
Error bounds for the double precision versions of the binning functions.
-/
import Verif.Proofs.Double
import Verif.Model.DoubleBinning

namespace SeismoStats
namespace Double
noncomputable section
open Classical

theorem err_add_eps (x : ℝ) : |add (add x (1 / 2)) eps - (x + 1 / 2 + 1 / 10 ^ 12)| ≤ (|x| + 1) * (23 / 10 ^ 17) := by
  unfold add
  set a := rnd (x + 1 / 2) with ha
  have h1 : |a - (x + 1 / 2)| ≤ |x + 1 / 2| / 2 ^ 53 := rnd_err _
  have h2 : |eps - 1 / 10 ^ 12| ≤ |(1 : ℝ) / 10 ^ 12| / 2 ^ 53 := rnd_err _
  have h3 : |rnd (a + eps) - (a + eps)| ≤ |a + eps| / 2 ^ 53 := rnd_err _
  have hx : |x + 1 / 2| ≤ |x| + 1 / 2 := by
    refine (abs_add_le _ _).trans ?_
    rw [abs_of_pos (by norm_num : (0 : ℝ) < 1 / 2)]
  have he : |(1 : ℝ) / 10 ^ 12| = 1 / 10 ^ 12 := abs_of_pos (by norm_num)
  rw [he] at h2
  have t : ∀ p q : ℝ, |p| ≤ |p - q| + |q| := fun p q => by
    have := abs_add_le (p - q) q
    rwa [sub_add_cancel] at this
  have ha' := t a (x + 1 / 2)
  have hae := abs_add_le a eps
  have hee := t eps (1 / 10 ^ 12)
  rw [he] at hee
  have e : rnd (a + eps) - (x + 1 / 2 + 1 / 10 ^ 12) = (rnd (a + eps) - (a + eps)) + ((a - (x + 1 / 2)) + (eps - 1 / 10 ^ 12)) := by ring
  rw [e]
  have f1 := abs_add_le (rnd (a + eps) - (a + eps)) ((a - (x + 1 / 2)) + (eps - 1 / 10 ^ 12))
  have f2 := abs_add_le (a - (x + 1 / 2)) (eps - 1 / 10 ^ 12)
  norm_num at *
  linarith [abs_nonneg x]

/-- When the rounding to an integer gives `k`. -/
theorem roundToInt_eq {x : ℝ} (k : ℤ) (h1 : (k : ℝ) + (|x| + 1) * (23 / 10 ^ 17) ≤ x + 1 / 2 + 1 / 10 ^ 12)
    (h2 : x + 1 / 2 + 1 / 10 ^ 12 + (|x| + 1) * (23 / 10 ^ 17) < k + 1) : roundToInt x = k := by
  have h := abs_le.1 (err_add_eps x)
  unfold roundToInt
  rw [Int.floor_eq_iff]
  constructor <;> linarith [h.1, h.2]

theorem rnd_pos {D : ℝ} (hD : 0 < D) : 0 < rnd D := by
  have := (abs_le.1 (rnd_err D)).1
  rw [abs_of_pos hD] at this
  have : D / 2 ^ 53 ≤ D / 2 := by
    apply div_le_div_of_nonneg_left hD.le (by norm_num) (by norm_num)
  linarith

/-- The quotient by a rounded bin size. -/
theorem err_div {x D : ℝ} (hD : 0 < D) : |div x (rnd D) - x / D| ≤ |x / D| * (23 / 10 ^ 17) := by
  unfold div
  set δ := rnd D with hδ
  have hp : 0 < δ := rnd_pos hD
  have h0 := rnd_err D
  rw [abs_of_pos hD, ← hδ] at h0
  have h1 : |rnd (x / δ) - x / δ| ≤ |x / δ| / 2 ^ 53 := rnd_err _
  have hlo : D * (1 - 1 / 2 ^ 53) ≤ δ := by have := (abs_le.1 h0).1; linarith
  have e1 : x / δ - x / D = x / D * ((D - δ) / δ) := by field_simp
  have b1 : |(D - δ) / δ| ≤ 1112 / 10 ^ 19 := by
    rw [abs_div, abs_of_pos hp, div_le_iff₀ hp, abs_sub_comm]
    refine h0.trans ?_
    nlinarith
  have b2 : |x / δ - x / D| ≤ |x / D| * (1112 / 10 ^ 19) := by
    rw [e1, abs_mul]
    exact mul_le_mul_of_nonneg_left b1 (abs_nonneg _)
  have b3 : |x / δ| ≤ |x / D| * (1 + 1112 / 10 ^ 19) := by
    have := abs_add_le (x / δ - x / D) (x / D)
    rw [sub_add_cancel] at this
    linarith
  have e2 : rnd (x / δ) - x / D = (rnd (x / δ) - x / δ) + (x / δ - x / D) := by ring
  rw [e2]
  have := abs_add_le (rnd (x / δ) - x / δ) (x / δ - x / D)
  norm_num at *
  linarith [abs_nonneg (x / D)]

/-- The clean-up rounding gives the double nearest to the decimal number `K * j / 10 ^ p`. -/
theorem cleanup (K : ℤ) (j p : ℕ) (h : |(K : ℝ)| * j ≤ 10 ^ 14) (hj : 1 ≤ j) :
    normalRound (mul K (rnd ((j : ℝ) / 10 ^ p))) p = rnd (K * ((j : ℝ) / 10 ^ p)) := by
  set D : ℝ := (j : ℝ) / 10 ^ p with hDdef
  have hP : (0 : ℝ) < 10 ^ p := by positivity
  have hj' : (1 : ℝ) ≤ j := by exact_mod_cast hj
  have hD : 0 < D := by positivity
  have hDj : D * 10 ^ p = j := by rw [hDdef]; field_simp
  set δ := rnd D
  have h0 := rnd_err D
  rw [abs_of_pos hD] at h0
  set y := mul K δ with hy
  have h1 : |y - K * δ| ≤ |K * δ| / 2 ^ 53 := rnd_err _
  set z := mul y (10 ^ p) with hz
  have h2 : |z - y * 10 ^ p| ≤ |y * 10 ^ p| / 2 ^ 53 := rnd_err _
  have hK := abs_nonneg (K : ℝ)
  -- scale everything by 10 ^ p
  have a1 : |(K : ℝ) * δ - K * D| ≤ |(K : ℝ)| * D / 2 ^ 53 := by
    rw [← mul_sub, abs_mul]
    calc _ ≤ |(K : ℝ)| * (D / 2 ^ 53) := mul_le_mul_of_nonneg_left h0 hK
      _ = _ := by ring
  have a0 : |(K : ℝ) * D| = |(K : ℝ)| * D := by rw [abs_mul, abs_of_pos hD]
  have t : ∀ p q : ℝ, |p| ≤ |p - q| + |q| := fun p q => by
    have := abs_add_le (p - q) q
    rwa [sub_add_cancel] at this
  have t2 : ∀ p q r : ℝ, |p - r| ≤ |p - q| + |q - r| := fun p q r => abs_sub_le p q r
  have a2 : |(K : ℝ) * δ| ≤ |(K : ℝ)| * D * (1 + 1 / 2 ^ 53) := by
    have := t (K * δ) (K * D)
    rw [a0] at this
    linarith
  have a3 : |y - K * D| ≤ |(K : ℝ)| * D * (23 / 10 ^ 17) := by
    have := t2 y (K * δ) (K * D)
    have h5 : 0 ≤ |(K : ℝ)| * D := by positivity
    norm_num at *
    linarith
  have a4 : |y| ≤ |(K : ℝ)| * D * (1 + 23 / 10 ^ 17) := by
    have := t y (K * D)
    rw [a0] at this
    linarith
  have s1 : |y * 10 ^ p - K * j| ≤ |(K : ℝ)| * j * (23 / 10 ^ 17) := by
    have e : y * 10 ^ p - K * j = (y - K * D) * 10 ^ p := by rw [← hDj]; ring
    rw [e, abs_mul, abs_of_pos hP, ← hDj]
    calc _ ≤ |(K : ℝ)| * D * (23 / 10 ^ 17) * 10 ^ p := mul_le_mul_of_nonneg_right a3 hP.le
      _ = _ := by ring
  have s2 : |y * 10 ^ p| ≤ |(K : ℝ)| * j * (1 + 23 / 10 ^ 17) := by
    rw [abs_mul, abs_of_pos hP, ← hDj]
    calc _ ≤ |(K : ℝ)| * D * (1 + 23 / 10 ^ 17) * 10 ^ p := mul_le_mul_of_nonneg_right a4 hP.le
      _ = _ := by ring
  have hB : 0 ≤ |(K : ℝ)| * j := by positivity
  have s3 : |z - K * j| ≤ |(K : ℝ)| * j * (35 / 10 ^ 17) := by
    have := t2 z (y * 10 ^ p) (K * j)
    norm_num at *
    linarith
  have s4 : |z| ≤ 10 ^ 14 + 1 := by
    have := t z (K * j)
    rw [abs_mul, Nat.abs_cast] at this
    norm_num at *
    linarith
  have hN : roundToInt z = K * j := by
    apply roundToInt_eq
    · have := (abs_le.1 s3).1
      push_cast
      norm_num at *
      linarith
    · have := (abs_le.1 s3).2
      push_cast
      norm_num at *
      linarith
  unfold normalRound
  rw [← hz, hN]
  unfold div
  congr 1
  push_cast
  rw [hDdef]; ring

end
end Double
end SeismoStats
