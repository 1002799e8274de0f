/-
Lemmas about rounding to double precision.
-/
import Verif.Model.Double
import Mathlib.Tactic.Linarith
import Mathlib.Tactic.Positivity
import Mathlib.Tactic.NormNum
import Mathlib.Tactic.Ring
import Mathlib.Tactic.FieldSimp

namespace SeismoStats
namespace Double
noncomputable section
open Classical

theorem rne_near (t : ℝ) : |t - rne t| ≤ 1 / 2 := by
  have h := Int.floor_add_fract t
  have h0 := Int.fract_nonneg t
  have h1 := Int.fract_lt_one t
  unfold rne
  split_ifs with a b c
  all_goals push_cast; rw [abs_le]; constructor <;> linarith

theorem rne_int (n : ℤ) : rne n = n := by
  unfold rne
  simp

theorem rne_mono {s t : ℝ} (h : s ≤ t) : rne s ≤ rne t := by
  have hs := Int.floor_add_fract s
  have ht := Int.floor_add_fract t
  have hs1 := Int.fract_lt_one s
  have ht0 := Int.fract_nonneg t
  have hf := Int.floor_mono h
  rcases hf.lt_or_eq with hlt | heq
  · have : rne s ≤ ⌊s⌋ + 1 := by unfold rne; split_ifs <;> omega
    have h2 : ⌊t⌋ ≤ rne t := by unfold rne; split_ifs <;> omega
    omega
  · have hfr : Int.fract s ≤ Int.fract t := by
      have : ((⌊s⌋ : ℤ) : ℝ) = ⌊t⌋ := by exact_mod_cast heq
      linarith
    unfold rne
    rw [heq]
    split_ifs <;> first | omega | linarith

theorem ulp_pos (x : ℝ) : 0 < ulp x := zpow_pos (by norm_num) _

/-- `|x|` lies between `2^52` and `2^53` units. -/
theorem ulp_bounds {x : ℝ} (hx : x ≠ 0) : 2 ^ 52 * ulp x ≤ |x| ∧ |x| < 2 ^ 53 * ulp x := by
  have hp : 0 < |x| := abs_pos.2 hx
  have h1 := Int.zpow_log_le_self (b := 2) (by norm_num) hp
  have h2 := Int.lt_zpow_succ_log_self (b := 2) (by norm_num) |x|
  unfold ulp
  set e := Int.log 2 |x|
  have e1 : (2 : ℝ) ^ 52 * 2 ^ (e - 52) = 2 ^ e := by
    rw [show (2 : ℝ) ^ 52 = 2 ^ (52 : ℤ) by norm_cast, ← zpow_add₀ (by norm_num)]; congr 1; ring
  have e2 : (2 : ℝ) ^ 53 * 2 ^ (e - 52) = 2 ^ (e + 1) := by
    rw [show (2 : ℝ) ^ 53 = 2 ^ (53 : ℤ) by norm_cast, ← zpow_add₀ (by norm_num)]; congr 1; ring
  rw [e1, e2]
  exact ⟨by exact_mod_cast h1, by exact_mod_cast h2⟩

theorem rnd_zero : rnd 0 = 0 := if_pos rfl

theorem rnd_err_ulp (x : ℝ) : |rnd x - x| ≤ ulp x / 2 := by
  by_cases hx : x = 0
  · subst hx; rw [rnd_zero]; simp; exact (half_pos (ulp_pos 0)).le
  · unfold rnd
    rw [if_neg hx]
    have hu := ulp_pos x
    have h := rne_near (x / ulp x)
    have e : (rne (x / ulp x) : ℝ) * ulp x - x = -((x / ulp x - rne (x / ulp x)) * ulp x) := by field_simp; ring
    rw [e, abs_neg, abs_mul, abs_of_pos hu]
    calc _ ≤ 1 / 2 * ulp x := mul_le_mul_of_nonneg_right h hu.le
      _ = ulp x / 2 := by ring

/-- The relative error is at most `2^-53`. -/
theorem rnd_err (x : ℝ) : |rnd x - x| ≤ |x| / 2 ^ 53 := by
  by_cases hx : x = 0
  · subst hx; rw [rnd_zero]; simp
  · have h := rnd_err_ulp x
    have := (ulp_bounds hx).1
    rw [le_div_iff₀ (by positivity)]
    calc |rnd x - x| * 2 ^ 53 ≤ ulp x / 2 * 2 ^ 53 := by nlinarith
      _ = 2 ^ 52 * ulp x := by ring
      _ ≤ |x| := this

theorem rne_neg (t : ℝ) : rne (-t) = - rne t := by
  by_cases hi : Int.fract t = 0
  · have : t = ⌊t⌋ := by have := Int.floor_add_fract t; linarith
    rw [this, ← Int.cast_neg, rne_int, rne_int]
  · have hf : Int.fract (-t) = 1 - Int.fract t := Int.fract_neg hi
    have h1 := Int.floor_add_fract t
    have h2 := Int.floor_add_fract (-t)
    have h3 : ⌊-t⌋ = -⌊t⌋ - 1 := by
      have : ((⌊-t⌋ : ℤ) : ℝ) = ((-⌊t⌋ - 1 : ℤ) : ℝ) := by push_cast; linarith
      exact_mod_cast this
    unfold rne
    rw [hf, h3]
    have hev : Even (-⌊t⌋ - 1) ↔ ¬ Even ⌊t⌋ := by
      rw [Int.even_sub_one, even_neg]
    split_ifs <;> first | omega | linarith | (exfalso; tauto)

theorem ulp_neg (x : ℝ) : ulp (-x) = ulp x := by unfold ulp; rw [abs_neg]

theorem rnd_neg (x : ℝ) : rnd (-x) = - rnd x := by
  by_cases hx : x = 0
  · subst hx; simp [rnd_zero]
  · unfold rnd
    rw [if_neg hx, if_neg (neg_ne_zero.2 hx), ulp_neg, neg_div, rne_neg]
    push_cast; ring

/-- A number with at most 53 binary digits is a double. -/
theorem rnd_exact {x : ℝ} (n g : ℤ) (hn : |n| ≤ 2 ^ 53) (hx : x = n * (2 : ℝ) ^ g) : rnd x = x := by
  by_cases h0 : x = 0
  · rw [h0, rnd_zero]
  · unfold rnd
    rw [if_neg h0]
    -- the unit divides `2 ^ g` or x is a power of two
    have hu := ulp_pos x
    have hb := ulp_bounds h0
    have hg : (0 : ℝ) < 2 ^ g := zpow_pos (by norm_num) _
    have habs : |x| = |(n : ℝ)| * 2 ^ g := by rw [hx, abs_mul, abs_of_pos hg]
    have hnr : |(n : ℝ)| ≤ 2 ^ 53 := by exact_mod_cast hn
    have hmul : ∃ m : ℤ, x = m * ulp x := by
      rcases hnr.lt_or_eq with hlt | heq
      · have hle : ulp x ≤ 2 ^ g := by
          by_contra hc
          push Not at hc
          have hlog : g < Int.log 2 |x| - 52 := by
            have : (2 : ℝ) ^ g < 2 ^ (Int.log 2 |x| - 52) := hc
            exact (zpow_lt_zpow_iff_right₀ (by norm_num)).1 this
          have h2 : (2 : ℝ) * 2 ^ g ≤ ulp x := by
            have : (2 : ℝ) * 2 ^ g = 2 ^ (g + 1) := by rw [zpow_add₀ (by norm_num)]; ring
            rw [this]
            unfold ulp
            exact zpow_le_zpow_right₀ (by norm_num) (by omega)
          have h3 := hb.1
          rw [habs] at h3
          nlinarith [abs_nonneg (n : ℝ)]
        have hlog : Int.log 2 |x| - 52 ≤ g := by
          have : (2 : ℝ) ^ (Int.log 2 |x| - 52) ≤ 2 ^ g := hle
          exact (zpow_le_zpow_iff_right₀ (by norm_num)).1 this
        obtain ⟨k, hk⟩ := Int.eq_ofNat_of_zero_le (sub_nonneg.2 hlog)
        refine ⟨n * 2 ^ k, ?_⟩
        have e : (2 : ℝ) ^ g = 2 ^ k * 2 ^ (Int.log 2 |x| - 52) := by
          rw [← zpow_natCast, ← zpow_add₀ (by norm_num)]; congr 1; omega
        unfold ulp
        push_cast
        rw [mul_assoc, ← e]
        exact hx
      · -- |n| = 2^53
        have hle : ulp x ≤ 2 * 2 ^ g := by
          have h3 := hb.1
          rw [habs, heq] at h3
          nlinarith
        have e1 : (2 : ℝ) * 2 ^ g = 2 ^ (g + 1) := by rw [zpow_add₀ (by norm_num)]; ring
        have hlog : Int.log 2 |x| - 52 ≤ g + 1 := by
          rw [e1] at hle
          have : (2 : ℝ) ^ (Int.log 2 |x| - 52) ≤ 2 ^ (g + 1) := hle
          exact (zpow_le_zpow_iff_right₀ (by norm_num)).1 this
        obtain ⟨k, hk⟩ := Int.eq_ofNat_of_zero_le (sub_nonneg.2 hlog)
        have hnn : |n| = 2 ^ 53 := by exact_mod_cast heq
        have hx2 : ∃ s : ℤ, n = s * 2 := by
          rcases abs_choice n with h | h
          · exact ⟨2 ^ 52, by rw [h] at hnn; omega⟩
          · exact ⟨-2 ^ 52, by rw [h] at hnn; omega⟩
        obtain ⟨s, hs⟩ := hx2
        refine ⟨s * 2 ^ k, ?_⟩
        have e : (2 : ℝ) ^ (g + 1) = 2 ^ k * 2 ^ (Int.log 2 |x| - 52) := by
          rw [← zpow_natCast, ← zpow_add₀ (by norm_num)]; congr 1; omega
        unfold ulp
        push_cast
        rw [mul_assoc, ← e, ← e1, hx, hs]
        push_cast; ring
    obtain ⟨m, hm⟩ := hmul
    have : x / ulp x = m := by rw [div_eq_iff hu.ne']; exact hm
    rw [this, rne_int, ← hm]

/-- A rounded number has at most 53 binary digits. -/
theorem rnd_form (x : ℝ) : ∃ n : ℤ, |n| ≤ 2 ^ 53 ∧ rnd x = n * (2 : ℝ) ^ (Int.log 2 |x| - 52) := by
  by_cases hx : x = 0
  · exact ⟨0, by norm_num, by rw [hx, rnd_zero]; simp⟩
  · refine ⟨rne (x / ulp x), ?_, by unfold rnd; rw [if_neg hx]; rfl⟩
    have hu := ulp_pos x
    have hb := (ulp_bounds hx).2
    have h1 : |x / ulp x| ≤ 2 ^ 53 := by
      rw [abs_div, abs_of_pos hu, div_le_iff₀ hu]; exact hb.le
    rw [abs_le] at h1 ⊢
    constructor
    · have := rne_mono h1.1
      have e : (-(2 ^ 53) : ℝ) = ((-(2 ^ 53) : ℤ) : ℝ) := by norm_num
      rw [e, rne_int] at this
      exact this
    · have := rne_mono h1.2
      have e : ((2 ^ 53) : ℝ) = (((2 ^ 53) : ℤ) : ℝ) := by norm_num
      rw [e, rne_int] at this
      exact this

theorem rnd_rnd (x : ℝ) : rnd (rnd x) = rnd x := by
  obtain ⟨n, hn, h⟩ := rnd_form x
  exact rnd_exact n _ hn h

theorem rnd_int (n : ℤ) (hn : |n| ≤ 2 ^ 53) : rnd n = n := rnd_exact n 0 hn (by simp)

/-- The integer found by `rne` is a nearest one. -/
theorem rne_nearest (t : ℝ) (m : ℤ) : |t - rne t| ≤ |t - m| := by
  by_cases h : (rne t : ℤ) = m
  · rw [h]
  · have h1 := rne_near t
    have h2 : (1 : ℝ) ≤ |(rne t : ℝ) - m| := by
      have : (1 : ℤ) ≤ |rne t - m| := Int.one_le_abs (sub_ne_zero.2 h)
      exact_mod_cast this
    have h3 : |(rne t : ℝ) - m| ≤ |t - rne t| + |t - m| := by
      have e : (rne t : ℝ) - m = -(t - rne t) + (t - m) := by ring
      rw [e]
      calc _ ≤ |-(t - rne t)| + |t - m| := abs_add_le _ _
        _ = _ := by rw [abs_neg]
    linarith

/-- No double is nearer to `x` than `rnd x`. -/
theorem rnd_nearest (x : ℝ) (n g : ℤ) (hn : |n| ≤ 2 ^ 53) : |x - rnd x| ≤ |x - n * (2 : ℝ) ^ g| := by
  by_cases hx : x = 0
  · subst hx; rw [rnd_zero, sub_zero, abs_zero]; exact abs_nonneg _
  · have hu := ulp_pos x
    have hb := ulp_bounds hx
    have hgrid : ∀ m : ℤ, |x - rnd x| ≤ |x - m * ulp x| := by
      intro m
      have h := rne_nearest (x / ulp x) m
      have e : ∀ k : ℤ, |x - k * ulp x| = |x / ulp x - k| * ulp x := by
        intro k
        rw [← abs_of_pos hu, ← abs_mul, abs_of_pos hu]
        congr 1; field_simp
      unfold rnd
      rw [if_neg hx, e, e]
      exact mul_le_mul_of_nonneg_right h hu.le
    by_cases hle : ulp x ≤ 2 ^ g
    · have hlog : Int.log 2 |x| - 52 ≤ g := by
        have : (2 : ℝ) ^ (Int.log 2 |x| - 52) ≤ 2 ^ g := hle
        exact (zpow_le_zpow_iff_right₀ (by norm_num)).1 this
      obtain ⟨k, hk⟩ := Int.eq_ofNat_of_zero_le (sub_nonneg.2 hlog)
      have h := hgrid (n * 2 ^ k)
      have e : (2 : ℝ) ^ g = 2 ^ k * ulp x := by
        unfold ulp
        rw [← zpow_natCast, ← zpow_add₀ (by norm_num)]; congr 1; omega
      rw [e]
      push_cast at h
      rw [← mul_assoc]
      exact h
    · push Not at hle
      have hlog : g < Int.log 2 |x| - 52 := by
        have : (2 : ℝ) ^ g < 2 ^ (Int.log 2 |x| - 52) := hle
        exact (zpow_lt_zpow_iff_right₀ (by norm_num)).1 this
      have h2 : (2 : ℝ) * 2 ^ g ≤ ulp x := by
        have : (2 : ℝ) * 2 ^ g = 2 ^ (g + 1) := by rw [zpow_add₀ (by norm_num)]; ring
        rw [this]
        unfold ulp
        exact zpow_le_zpow_right₀ (by norm_num) (by omega)
      have hg : (0 : ℝ) < 2 ^ g := zpow_pos (by norm_num) _
      have hnr : |(n : ℝ)| ≤ 2 ^ 53 := by exact_mod_cast hn
      have hy : |(n : ℝ) * 2 ^ g| ≤ 2 ^ 52 * ulp x := by
        rw [abs_mul, abs_of_pos hg]
        nlinarith
      have htri : |x| - |(n : ℝ) * 2 ^ g| ≤ |x - n * 2 ^ g| := abs_sub_abs_le_abs_sub _ _
      rcases lt_or_gt_of_ne hx with hneg | hpos
      · have h := hgrid (-(2 ^ 52))
        rw [abs_of_neg hneg] at hb htri
        push_cast at h
        rw [abs_of_nonpos (by linarith [hb.1] : x - -4503599627370496 * ulp x ≤ 0)] at h
        norm_num at hb
        linarith
      · have h := hgrid (2 ^ 52)
        rw [abs_of_pos hpos] at hb htri
        push_cast at h
        rw [abs_of_nonneg (by linarith [hb.1] : 0 ≤ x - 4503599627370496 * ulp x)] at h
        norm_num at hb
        linarith

theorem rnd_mono {x y : ℝ} (h : x ≤ y) : rnd x ≤ rnd y := by
  by_contra hc
  push Not at hc
  obtain ⟨n, hn, e1⟩ := rnd_form x
  obtain ⟨m, hm, e2⟩ := rnd_form y
  have h1 := rnd_nearest x m (Int.log 2 |y| - 52) hm
  have h2 := rnd_nearest y n (Int.log 2 |x| - 52) hn
  rw [← e2] at h1
  rw [← e1] at h2
  rcases h.lt_or_eq with hlt | heq
  · have a1 : x - rnd y ≥ 0 := by
      by_contra hcc
      push Not at hcc
      rw [abs_of_neg (by linarith : x - rnd x < 0), abs_of_neg hcc] at h1
      linarith
    have a2 : y - rnd x ≤ 0 := by
      by_contra hcc
      push Not at hcc
      rw [abs_of_pos hcc, abs_of_pos (by linarith : 0 < y - rnd y)] at h2
      linarith
    rw [abs_of_nonneg a1] at h1
    rw [abs_of_nonpos a2] at h2
    have b1 := le_abs_self (y - rnd y)
    have b2 := neg_abs_le (x - rnd x)
    linarith
  · rw [heq] at hc; exact lt_irrefl _ hc

/-- How to find the double for a number. -/
theorem rnd_eq_of {x : ℝ} (n g : ℤ) (h1 : (2 : ℝ) ^ (g + 52) ≤ |x|) (h2 : |x| < 2 ^ (g + 53)) (h : |x - n * (2 : ℝ) ^ g| < 2 ^ g / 2) :
    rnd x = n * (2 : ℝ) ^ g := by
  have hx : x ≠ 0 := by
    intro h0
    rw [h0, abs_zero] at h1
    have : (0 : ℝ) < 2 ^ (g + 52) := zpow_pos (by norm_num) _
    linarith
  have hp : 0 < |x| := abs_pos.2 hx
  have hlog : Int.log 2 |x| = g + 52 := by
    apply le_antisymm
    · have a := Int.zpow_log_le_self (b := 2) (by norm_num) hp
      have : ((2 : ℕ) : ℝ) ^ Int.log 2 |x| < 2 ^ (g + 53) := lt_of_le_of_lt a h2
      push_cast at this
      have := (zpow_lt_zpow_iff_right₀ (by norm_num : (1 : ℝ) < 2)).1 this
      omega
    · have a := Int.lt_zpow_succ_log_self (b := 2) (by norm_num) |x|
      have : (2 : ℝ) ^ (g + 52) < ((2 : ℕ) : ℝ) ^ (Int.log 2 |x| + 1) := lt_of_le_of_lt h1 a
      push_cast at this
      have := (zpow_lt_zpow_iff_right₀ (by norm_num : (1 : ℝ) < 2)).1 this
      omega
  have hu : ulp x = 2 ^ g := by unfold ulp; rw [hlog]; congr 1; ring
  have hg : (0 : ℝ) < 2 ^ g := zpow_pos (by norm_num) _
  unfold rnd
  rw [if_neg hx, hu]
  have hr : rne (x / 2 ^ g) = n := by
    have a := rne_near (x / 2 ^ g)
    have b : |x / 2 ^ g - n| < 1 / 2 := by
      have e : x / 2 ^ g - n = (x - n * 2 ^ g) / 2 ^ g := by field_simp
      rw [e, abs_div, abs_of_pos hg, div_lt_iff₀ hg]
      linarith
    have c : |((rne (x / 2 ^ g) - n : ℤ) : ℝ)| < 1 := by
      push_cast
      have e : (rne (x / 2 ^ g) : ℝ) - n = -(x / 2 ^ g - rne (x / 2 ^ g)) + (x / 2 ^ g - n) := by ring
      rw [e]
      calc _ ≤ |-(x / 2 ^ g - rne (x / 2 ^ g))| + |x / 2 ^ g - n| := abs_add_le _ _
        _ < 1 := by rw [abs_neg]; linarith
    have d : |rne (x / 2 ^ g) - n| < 1 := by exact_mod_cast c
    rw [Int.abs_lt_one_iff] at d
    omega
  rw [hr]

/-- The same halfway between two doubles: the even one. -/
theorem rnd_eq_tie {x : ℝ} (n g : ℤ) (hn : Even n) (h1 : (2 : ℝ) ^ (g + 52) ≤ |x|) (h2 : |x| < 2 ^ (g + 53)) (h : x - n * (2 : ℝ) ^ g = 2 ^ g / 2 ∨
    x - n * (2 : ℝ) ^ g = -(2 ^ g / 2)) : rnd x = n * (2 : ℝ) ^ g := by
  have hx : x ≠ 0 := by
    intro h0
    rw [h0, abs_zero] at h1
    have : (0 : ℝ) < 2 ^ (g + 52) := zpow_pos (by norm_num) _
    linarith
  have hp : 0 < |x| := abs_pos.2 hx
  have hlog : Int.log 2 |x| = g + 52 := by
    apply le_antisymm
    · have a := Int.zpow_log_le_self (b := 2) (by norm_num) hp
      have : ((2 : ℕ) : ℝ) ^ Int.log 2 |x| < 2 ^ (g + 53) := lt_of_le_of_lt a h2
      push_cast at this
      have := (zpow_lt_zpow_iff_right₀ (by norm_num : (1 : ℝ) < 2)).1 this
      omega
    · have a := Int.lt_zpow_succ_log_self (b := 2) (by norm_num) |x|
      have : (2 : ℝ) ^ (g + 52) < ((2 : ℕ) : ℝ) ^ (Int.log 2 |x| + 1) := lt_of_le_of_lt h1 a
      push_cast at this
      have := (zpow_lt_zpow_iff_right₀ (by norm_num : (1 : ℝ) < 2)).1 this
      omega
  have hu : ulp x = 2 ^ g := by unfold ulp; rw [hlog]; congr 1; ring
  have hg : (0 : ℝ) < 2 ^ g := zpow_pos (by norm_num) _
  unfold rnd
  rw [if_neg hx, hu]
  have hr : rne (x / 2 ^ g) = n := by
    rcases h with h | h
    · have e : x / 2 ^ g = n + 1 / 2 := by
        rw [div_eq_iff hg.ne']; linarith
      have hf : ⌊x / 2 ^ g⌋ = n := by
        rw [e, Int.floor_eq_iff]; constructor <;> linarith
      have hfr : Int.fract (x / 2 ^ g) = 1 / 2 := by
        unfold Int.fract; rw [hf, e]; ring
      unfold rne
      rw [hfr, hf, if_neg (lt_irrefl _), if_neg (lt_irrefl _), if_pos hn]
    · have e : x / 2 ^ g = n - 1 / 2 := by
        rw [div_eq_iff hg.ne']; linarith
      have hf : ⌊x / 2 ^ g⌋ = n - 1 := by
        rw [e, Int.floor_eq_iff]; push_cast; constructor <;> linarith
      have hfr : Int.fract (x / 2 ^ g) = 1 / 2 := by
        unfold Int.fract; rw [hf, e]; push_cast; ring
      have ho : ¬ Even (n - 1) := by
        rw [Int.not_even_iff_odd]
        exact hn.sub_odd odd_one
      unfold rne
      rw [hfr, hf, if_neg (lt_irrefl _), if_neg (lt_irrefl _), if_neg ho]
      omega
  rw [hr]

theorem ulp_half {x : ℝ} (hx : x ≠ 0) : ulp (x / 2) = ulp x / 2 := by
  have hp : 0 < |x| := abs_pos.2 hx
  have hlog : Int.log 2 |x / 2| = Int.log 2 |x| - 1 := by
    have hp2 : 0 < |x / 2| := abs_pos.2 (by simpa using hx)
    have e : |x / 2| = |x| / 2 := by rw [abs_div]; norm_num
    have a := Int.zpow_log_le_self (b := 2) (by norm_num) hp
    have b := Int.lt_zpow_succ_log_self (b := 2) (by norm_num) |x|
    have a' := Int.zpow_log_le_self (b := 2) (by norm_num) hp2
    have b' := Int.lt_zpow_succ_log_self (b := 2) (by norm_num) |x / 2|
    push_cast at a b a' b'
    rw [e] at a' b' ⊢
    have two : ∀ k : ℤ, (2 : ℝ) ^ (k + 1) = 2 * 2 ^ k := by intro k; rw [zpow_add₀ (by norm_num)]; ring
    apply le_antisymm
    · have : (2 : ℝ) ^ (Int.log 2 (|x| / 2) + 1) < 2 ^ (Int.log 2 |x| + 1) := by rw [two]; linarith
      have := (zpow_lt_zpow_iff_right₀ (by norm_num : (1 : ℝ) < 2)).1 this
      omega
    · have : (2 : ℝ) ^ (Int.log 2 |x|) < 2 ^ (Int.log 2 (|x| / 2) + 1 + 1) := by rw [two]; linarith
      have := (zpow_lt_zpow_iff_right₀ (by norm_num : (1 : ℝ) < 2)).1 this
      omega
  unfold ulp
  rw [hlog, show Int.log 2 |x| - 1 - 52 = (Int.log 2 |x| - 52) - 1 by ring, zpow_sub_one₀ (by norm_num)]
  ring

/-- Halving is exact. -/
theorem rnd_half (x : ℝ) : rnd (x / 2) = rnd x / 2 := by
  by_cases hx : x = 0
  · subst hx; simp [rnd_zero]
  · have hx2 : x / 2 ≠ 0 := by simpa using hx
    unfold rnd
    rw [if_neg hx, if_neg hx2, ulp_half hx]
    have hu := (ulp_pos x).ne'
    have : x / 2 / (ulp x / 2) = x / ulp x := by field_simp
    rw [this]; ring

/-- Absolute error up to a power of two. -/
theorem rnd_err_le {x : ℝ} (e : ℤ) (h : |x| ≤ 2 ^ e) : |rnd x - x| ≤ 2 ^ (e - 54) := by
  by_cases hx : x = 0
  · subst hx; rw [rnd_zero]; simp; exact (zpow_pos (by norm_num : (0 : ℝ) < 2) _).le
  · rcases h.lt_or_eq with hlt | heq
    · refine (rnd_err_ulp x).trans ?_
      have hp : 0 < |x| := abs_pos.2 hx
      have a := Int.zpow_log_le_self (b := 2) (by norm_num) hp
      have : (2 : ℝ) ^ Int.log 2 |x| < 2 ^ e := by
        refine lt_of_le_of_lt ?_ hlt
        exact_mod_cast a
      have hl := (zpow_lt_zpow_iff_right₀ (by norm_num : (1 : ℝ) < 2)).1 this
      have e1 : ulp x / 2 = 2 ^ (Int.log 2 |x| - 53) := by
        unfold ulp
        rw [show Int.log 2 |x| - 53 = (Int.log 2 |x| - 52) - 1 by ring, zpow_sub_one₀ (by norm_num)]
        ring
      rw [e1]
      exact zpow_le_zpow_right₀ (by norm_num) (by omega)
    · have hr : rnd x = x := by
        rcases abs_choice x with h' | h'
        · exact rnd_exact 1 e (by norm_num) (by rw [← h', heq]; simp)
        · exact rnd_exact (-1) e (by norm_num) (by
            have : x = -(2 : ℝ) ^ e := by rw [← heq, h']; ring
            rw [this]; simp)
      rw [hr]; simp; exact (zpow_pos (by norm_num : (0 : ℝ) < 2) _).le

end
end Double
end SeismoStats
