/-
Support for properties C121 and C122: the mean and the variance of the estimate of a window.
-/
import Verif.Proofs.InvSum
import Mathlib.MeasureTheory.Integral.IntegralEqImproper
import Mathlib.Analysis.SpecialFunctions.NonIntegrable

namespace SeismoStats.Blocks
open SeismoStats SeismoStats.Simulate SeismoStats.Props MeasureTheory ProbabilityTheory Filter Topology
open scoped BigOperators NNReal
open Classical
noncomputable section

variable {Ω : Type} [MeasurableSpace Ω] {P : Measure Ω} [IsProbabilityMeasure P] {g : Ω → Rng}

theorem draws_sum_pos {ω : Ω} (h : ∀ i, 0 < (g ω).expo i) {n : ℕ} (hn : 0 < n) (a : ℕ) : 0 < ∑ r : Fin n, (g ω).expo (a + r) :=
  Finset.sum_pos (fun _ _ => h _) ⟨⟨0, hn⟩, Finset.mem_univ _⟩

omit [IsProbabilityMeasure P] in
theorem winB_meas (hg : Spec.RandomDraws P g) (b : ℝ) (n a : ℕ) : Measurable fun ω => win (winB b : (Fin n → ℝ) → ℝ) (fun i => (g ω).expo i) a :=
  win_meas (E := fun i ω => (g ω).expo i) hg.expo_measurable (winB_measurable b n) a

/-- The mean of the estimate of a window. -/
theorem winB_mean (hg : Spec.RandomDraws P g) {b : ℝ} (hb : 0 < b) {n : ℕ} (hn : 2 ≤ n) (a : ℕ) :
    Integrable (fun ω => win (winB b : (Fin n → ℝ) → ℝ) (fun i => (g ω).expo i) a) P ∧ ∫ ω, win (winB b : (Fin n → ℝ) → ℝ) (fun i => (g ω).expo i) a ∂P = b * n / (n - 1) := by
  obtain ⟨k, rfl⟩ : ∃ k, n = k + 2 := ⟨n - 2, by omega⟩
  have hm := winB_meas hg b (k + 2) a
  have h0 : 0 ≤ᵐ[P] fun ω => win (winB b : (Fin (k + 2) → ℝ) → ℝ) (fun i => (g ω).expo i) a := by
    filter_upwards [all_pos hg] with ω hω
    have := draws_sum_pos (g := g) hω (n := k + 2) (by omega) a
    simp only [Pi.zero_apply]
    unfold win winB
    positivity
  have hl : ∫⁻ ω, ENNReal.ofReal (win (winB b : (Fin (k + 2) → ℝ) → ℝ) (fun i => (g ω).expo i) a) ∂P = ENNReal.ofReal (b * (k + 2 : ℕ) * (1 / (k + 1))) := by
    rw [ENNReal.ofReal_mul (by positivity), ← inv_sum hg k a, ← lintegral_const_mul' _ _ ENNReal.ofReal_ne_top]
    refine lintegral_congr fun ω => ?_
    rw [← ENNReal.ofReal_mul (by positivity)]
    unfold win winB
    rw [mul_one_div]
  have hi : Integrable (fun ω => win (winB b : (Fin (k + 2) → ℝ) → ℝ) (fun i => (g ω).expo i) a) P :=
    ⟨hm.aestronglyMeasurable, by rw [hasFiniteIntegral_iff_ofReal h0, hl]; exact ENNReal.ofReal_lt_top⟩
  refine ⟨hi, ?_⟩
  rw [integral_eq_lintegral_of_nonneg_ae h0 hm.aestronglyMeasurable, hl, ENNReal.toReal_ofReal (by positivity)]
  push_cast
  rw [show (k : ℝ) + 2 - 1 = k + 1 by ring, mul_one_div]

/-- The second moment of the estimate of a window. -/
theorem winB_second (hg : Spec.RandomDraws P g) {b : ℝ} {n : ℕ} (hn : 3 ≤ n) (a : ℕ) :
    ∫ ω, win (winB b : (Fin n → ℝ) → ℝ) (fun i => (g ω).expo i) a ^ 2 ∂P = (b * n) ^ 2 / ((n - 2) * (n - 1)) := by
  obtain ⟨k, rfl⟩ : ∃ k, n = k + 3 := ⟨n - 3, by omega⟩
  have hm := winB_meas hg b (k + 3) a
  have hl : ∫⁻ ω, ENNReal.ofReal (win (winB b : (Fin (k + 3) → ℝ) → ℝ) (fun i => (g ω).expo i) a ^ 2) ∂P = ENNReal.ofReal ((b * (k + 3 : ℕ)) ^ 2 * (1 / ((k + 1) * (k + 2)))) := by
    rw [ENNReal.ofReal_mul (by positivity), ← inv_sum_sq hg k a, ← lintegral_const_mul' _ _ ENNReal.ofReal_ne_top]
    refine lintegral_congr fun ω => ?_
    rw [← ENNReal.ofReal_mul (by positivity)]
    unfold win winB
    rw [mul_one_div, div_pow]
  rw [integral_eq_lintegral_of_nonneg_ae (Eventually.of_forall fun ω => sq_nonneg _) (hm.pow_const 2).aestronglyMeasurable, hl, ENNReal.toReal_ofReal (by positivity)]
  push_cast
  rw [show (k : ℝ) + 3 - 2 = k + 1 by ring, show (k : ℝ) + 3 - 1 = k + 2 by ring, mul_one_div]

/-- The variance of the estimate of a window. -/
theorem winB_var (hg : Spec.RandomDraws P g) {b : ℝ} (hb : 0 < b) {n : ℕ} (hn : 3 ≤ n) :
    Var[fun ω => win (winB b : (Fin n → ℝ) → ℝ) (fun i => (g ω).expo i) 0; P] = (b * n / (n - 1)) ^ 2 / (n - 2) := by
  have h2 := invSum_memLp hg hn b
  rw [variance_eq_sub h2]
  have e : ∫ ω, ((fun ω => win (winB b : (Fin n → ℝ) → ℝ) (fun i => (g ω).expo i) 0) ^ 2) ω ∂P = _ := winB_second hg hn 0
  rw [e, (winB_mean hg hb (by omega) 0).2]
  have hn3 : (3 : ℝ) ≤ n := by exact_mod_cast hn
  have h1 : (n : ℝ) - 1 ≠ 0 := by intro h; linarith
  have h3 : (n : ℝ) - 2 ≠ 0 := by intro h; linarith
  field_simp
  ring

/-- The second moment of the estimate of two magnitudes is infinite. -/
theorem winB_two (hg : Spec.RandomDraws P g) {b : ℝ} (hb : 0 < b) : ¬ MemLp (fun ω => win (winB b : (Fin 2 → ℝ) → ℝ) (fun i => (g ω).expo i) 0) 2 P := by
  intro h
  have hm := winB_meas hg b 2 0
  have hi := (h.integrable_sq).const_mul ((b * 2) ^ 2)⁻¹
  have hu : Measurable fun p : Ω × ℝ => ∑ r : Fin 2, (g p.1).expo (0 + r) := Finset.measurable_sum _ fun r _ => (hg.expo_measurable (0 + r)).comp measurable_fst
  have hswap := lintegral_lintegral_swap (μ := P) (ν := volume.restrict (Set.Ioi (0 : ℝ))) (f := fun ω t => ENNReal.ofReal (t * Real.exp (-(t * ∑ r : Fin 2, (g ω).expo (0 + r)))))
    (ENNReal.measurable_ofReal.comp (measurable_snd.mul (Real.measurable_exp.comp (measurable_snd.mul hu).neg))).aemeasurable
  have h1 : ∀ᵐ ω ∂P, ENNReal.ofReal (((b * 2) ^ 2)⁻¹ * win (winB b : (Fin 2 → ℝ) → ℝ) (fun i => (g ω).expo i) 0 ^ 2) =
      ∫⁻ t in Set.Ioi (0 : ℝ), ENNReal.ofReal (t * Real.exp (-(t * ∑ r : Fin 2, (g ω).expo (0 + r)))) := by
    filter_upwards [all_pos hg] with ω hω
    rw [inv_sq_eq_lintegral (draws_sum_pos hω two_pos 0)]
    congr 1
    unfold win winB
    push_cast
    rw [div_pow, ← mul_div_assoc, inv_mul_cancel₀ (by positivity)]
  have hlt := hi.lintegral_lt_top
  rw [lintegral_congr_ae h1, hswap] at hlt
  have h2 : ∫⁻ t in Set.Ioi (1 : ℝ), ENNReal.ofReal (1 / 4 * t⁻¹) < ⊤ := by
    refine lt_of_le_of_lt ?_ hlt
    refine le_trans ?_ (lintegral_mono_set (Set.Ioi_subset_Ioi zero_le_one))
    refine setLIntegral_mono' measurableSet_Ioi fun t ht => ?_
    have ht1 : 1 < t := ht
    have ht0 : 0 ≤ t := by linarith
    simp_rw [ENNReal.ofReal_mul ht0]
    rw [lintegral_const_mul' _ _ ENNReal.ofReal_ne_top, sum_laplace hg 2 0 ht0, ← ENNReal.ofReal_mul ht0]
    refine ENNReal.ofReal_le_ofReal ?_
    have : 0 < t := by linarith
    rw [← div_eq_mul_inv, ← div_eq_mul_inv, div_div, div_le_div_iff₀ (by positivity) (by positivity)]
    nlinarith
  have h3 : IntegrableOn (fun t : ℝ => 1 / 4 * t⁻¹) (Set.Ioi 1) := by
    refine ⟨(measurable_inv.const_mul _).aestronglyMeasurable, ?_⟩
    rw [hasFiniteIntegral_iff_ofReal (ae_restrict_of_forall_mem measurableSet_Ioi fun t ht => by
      have : (0 : ℝ) < t := lt_trans one_pos ht
      simp only [Pi.zero_apply]; positivity)]
    exact h2
  exact not_integrableOn_Ioi_inv ((integrable_const_mul_iff (by norm_num) _).1 h3)

theorem winMean_value (hg : Spec.RandomDraws P g) {b : ℝ} (hb : 0 < b) {n : ℕ} (hn : 2 ≤ n) : winMean P g b n = b * n / (n - 1) := (winB_mean hg hb hn 0).2

end
end SeismoStats.Blocks
