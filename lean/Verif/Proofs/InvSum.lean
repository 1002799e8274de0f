/-
Support for properties C121 and C122: the first two moments of the reciprocal of a sum of exponential draws.
-/
import Verif.Proofs.MacMoments
import Mathlib.MeasureTheory.Integral.IntegralEqImproper

namespace SeismoStats.Blocks
open SeismoStats SeismoStats.Simulate SeismoStats.Props MeasureTheory ProbabilityTheory Filter Topology
open scoped BigOperators NNReal
open Classical
noncomputable section

/-- The Laplace transform of an exponential draw. -/
theorem exp_laplace {t : ℝ} (ht : 0 ≤ t) : ∫⁻ x, ENNReal.ofReal (Real.exp (-(t * x))) ∂(expMeasure 1) = ENNReal.ofReal (1 / (1 + t)) := by
  unfold expMeasure gammaMeasure
  rw [lintegral_withDensity_eq_lintegral_mul₀ (by unfold gammaPDF; fun_prop) (by fun_prop)]
  have h : ∀ x, (gammaPDF 1 1 * fun x => ENNReal.ofReal (Real.exp (-(t * x)))) x = ENNReal.ofReal (1 / (1 + t)) * gammaPDF 1 (1 + t) x := by
    intro x
    simp only [Pi.mul_apply]
    unfold gammaPDF gammaPDFReal
    rw [← ENNReal.ofReal_mul (by split_ifs <;> positivity), ← ENNReal.ofReal_mul (by positivity)]
    congr 1
    split_ifs
    · have : 1 + t ≠ 0 := by positivity
      simp only [Real.one_rpow, Real.Gamma_one, sub_self, Real.rpow_zero, Real.rpow_one, one_mul, div_one, mul_one]
      rw [← mul_assoc, one_div_mul_cancel this, one_mul, ← Real.exp_add]
      congr 1
      ring
    · simp
  simp_rw [h]
  rw [lintegral_const_mul' _ _ ENNReal.ofReal_ne_top, lintegral_gammaPDF_eq_one one_pos (by linarith), mul_one]

/-- The reciprocal as an integral. -/
theorem inv_eq_lintegral {S : ℝ} (hS : 0 < S) : ∫⁻ t in Set.Ioi (0 : ℝ), ENNReal.ofReal (Real.exp (-(t * S))) = ENNReal.ofReal (1 / S) := by
  have h := lintegral_gammaPDF_eq_one one_pos hS
  have e : ∀ t, ENNReal.ofReal (1 / S) * gammaPDF 1 S t = (Set.Ici (0 : ℝ)).indicator (fun t => ENNReal.ofReal (Real.exp (-(t * S)))) t := by
    intro t
    unfold gammaPDF gammaPDFReal
    rw [← ENNReal.ofReal_mul (by positivity)]
    by_cases ht : 0 ≤ t
    · rw [if_pos ht, Set.indicator_of_mem (Set.mem_Ici.2 ht)]
      simp only [Real.Gamma_one, sub_self, Real.rpow_zero, Real.rpow_one, div_one, mul_one]
      rw [← mul_assoc, one_div_mul_cancel hS.ne', one_mul, mul_comm]
    · rw [if_neg ht, Set.indicator_of_notMem (by simpa using ht)]
      simp
  have h2 := lintegral_const_mul' (ENNReal.ofReal (1 / S)) (gammaPDF 1 S) ENNReal.ofReal_ne_top (μ := volume)
  rw [h, mul_one] at h2
  simp_rw [e] at h2
  rw [lintegral_indicator measurableSet_Ici, setLIntegral_congr Ioi_ae_eq_Ici.symm] at h2
  exact h2

/-- The squared reciprocal as an integral. -/
theorem inv_sq_eq_lintegral {S : ℝ} (hS : 0 < S) : ∫⁻ t in Set.Ioi (0 : ℝ), ENNReal.ofReal (t * Real.exp (-(t * S))) = ENNReal.ofReal (1 / S ^ 2) := by
  have h := lintegral_gammaPDF_eq_one two_pos hS
  have e : ∀ t, ENNReal.ofReal (1 / S ^ 2) * gammaPDF 2 S t = (Set.Ici (0 : ℝ)).indicator (fun t => ENNReal.ofReal (t * Real.exp (-(t * S)))) t := by
    intro t
    unfold gammaPDF gammaPDFReal
    rw [← ENNReal.ofReal_mul (by positivity)]
    by_cases ht : 0 ≤ t
    · rw [if_pos ht, Set.indicator_of_mem (Set.mem_Ici.2 ht), (show Real.Gamma 2 = 1 by rw [show (2 : ℝ) = ((1 : ℕ) : ℝ) + 1 by norm_num, Real.Gamma_nat_eq_factorial]; simp), show (2 : ℝ) - 1 = 1 by norm_num, Real.rpow_one, Real.rpow_two, div_one]
      congr 1
      rw [mul_comm t S]
      field_simp
    · rw [if_neg ht, Set.indicator_of_notMem (by simpa using ht)]
      simp
  have h2 := lintegral_const_mul' (ENNReal.ofReal (1 / S ^ 2)) (gammaPDF 2 S) ENNReal.ofReal_ne_top (μ := volume)
  rw [h, mul_one] at h2
  simp_rw [e] at h2
  rw [lintegral_indicator measurableSet_Ici, setLIntegral_congr Ioi_ae_eq_Ici.symm] at h2
  exact h2

theorem pow_deriv (k : ℕ) {x : ℝ} (hx : 0 ≤ x) : HasDerivAt (fun t : ℝ => -((1 + t) ^ (k + 1))⁻¹ / ((k : ℝ) + 1)) (((1 + x) ^ (k + 2))⁻¹) x := by
  have h1 : (1 + x) ≠ 0 := by positivity
  have h := ((((hasDerivAt_id x).const_add 1).pow (k + 1)).inv (pow_ne_zero _ h1)).neg.div_const ((k : ℝ) + 1)
  refine h.congr_deriv ?_
  have : ((k : ℝ) + 1) ≠ 0 := by positivity
  change -(-(((k + 1 : ℕ) : ℝ) * (1 + x) ^ (k + 1 - 1) * 1) / ((1 + x) ^ (k + 1)) ^ 2) / ((k : ℝ) + 1) = _
  rw [Nat.add_sub_cancel]
  push_cast
  field_simp
  ring

theorem pow_zero_lim (k : ℕ) : Tendsto (fun t : ℝ => -((1 + t) ^ (k + 1))⁻¹ / ((k : ℝ) + 1)) atTop (𝓝 0) := by
  have h : Tendsto (fun t : ℝ => (1 + t) ^ (k + 1)) atTop atTop := (tendsto_pow_atTop (Nat.succ_ne_zero k)).comp (tendsto_atTop_add_const_left _ 1 tendsto_id)
  have := (h.inv_tendsto_atTop.neg).div_const ((k : ℝ) + 1)
  simpa using this

theorem lint_pow (k : ℕ) : ∫⁻ t in Set.Ioi (0 : ℝ), ENNReal.ofReal (((1 + t) ^ (k + 2))⁻¹) = ENNReal.ofReal (1 / ((k : ℝ) + 1)) := by
  have hpos : ∀ x ∈ Set.Ioi (0 : ℝ), 0 ≤ ((1 + x) ^ (k + 2))⁻¹ := fun x hx => by
    have : 0 < x := hx
    positivity
  have h1 := integrableOn_Ioi_deriv_of_nonneg' (fun x hx => pow_deriv k hx) hpos (pow_zero_lim k)
  have h2 := integral_Ioi_of_hasDerivAt_of_nonneg' (fun x hx => pow_deriv k hx) hpos (pow_zero_lim k)
  rw [← ofReal_integral_eq_lintegral_ofReal h1 (ae_restrict_of_forall_mem measurableSet_Ioi hpos), h2]
  congr 1
  simp [neg_div]

theorem lint_pow_mul (k : ℕ) : ∫⁻ t in Set.Ioi (0 : ℝ), ENNReal.ofReal (t * ((1 + t) ^ (k + 3))⁻¹) = ENNReal.ofReal (1 / (((k : ℝ) + 1) * (k + 2))) := by
  have hpos : ∀ x ∈ Set.Ioi (0 : ℝ), 0 ≤ ((1 + x) ^ (k + 2))⁻¹ - ((1 + x) ^ (k + 1 + 2))⁻¹ := fun x hx => by
    have : 0 < x := hx
    rw [sub_nonneg]
    exact inv_anti₀ (by positivity) (pow_le_pow_right₀ (by linarith) (by omega))
  have hd : ∀ x ∈ Set.Ici (0 : ℝ), _ := fun x hx => (pow_deriv k hx).sub (pow_deriv (k + 1) hx)
  have hl := (pow_zero_lim k).sub (pow_zero_lim (k + 1))
  have h1 := integrableOn_Ioi_deriv_of_nonneg' hd hpos hl
  have h2 := integral_Ioi_of_hasDerivAt_of_nonneg' hd hpos hl
  have e : ∀ t ∈ Set.Ioi (0 : ℝ), ENNReal.ofReal (t * ((1 + t) ^ (k + 3))⁻¹) = ENNReal.ofReal (((1 + t) ^ (k + 2))⁻¹ - ((1 + t) ^ (k + 1 + 2))⁻¹) := by
    intro t ht
    have : 0 < t := ht
    congr 1
    rw [show k + 1 + 2 = k + 2 + 1 by ring, show k + 3 = k + 2 + 1 by ring, pow_succ]
    field_simp
    ring
  rw [setLIntegral_congr_fun measurableSet_Ioi e, ← ofReal_integral_eq_lintegral_ofReal h1 (ae_restrict_of_forall_mem measurableSet_Ioi hpos), h2]
  congr 1
  simp only [Pi.sub_apply]
  push_cast
  simp only [add_zero, one_pow, inv_one]
  field_simp
  ring

variable {Ω : Type} [MeasurableSpace Ω] {P : Measure Ω} [IsProbabilityMeasure P] {g : Ω → Rng}

omit [IsProbabilityMeasure P] in
/-- The Laplace transform of a sum of draws. -/
theorem sum_laplace (hg : Spec.RandomDraws P g) (n a : ℕ) {t : ℝ} (ht : 0 ≤ t) :
    ∫⁻ ω, ENNReal.ofReal (Real.exp (-(t * ∑ r : Fin n, (g ω).expo (a + r)))) ∂P = ENNReal.ofReal (((1 + t) ^ n)⁻¹) := by
  have h1 : ∀ ω, ENNReal.ofReal (Real.exp (-(t * ∑ r : Fin n, (g ω).expo (a + r)))) = ∏ r : Fin n, ENNReal.ofReal (Real.exp (-(t * (g ω).expo (a + r)))) := by
    intro ω
    rw [Finset.mul_sum, ← Finset.sum_neg_distrib, Real.exp_sum, ENNReal.ofReal_prod_of_nonneg fun _ _ => (Real.exp_pos _).le]
  simp_rw [h1]
  have hi : iIndepFun (fun (r : Fin n) ω => (g ω).expo (a + r)) P := hg.expo_indep.precomp (g := fun r : Fin n => a + (r : ℕ)) (by intro r r' h; exact Fin.ext (by simpa using h))
  have hi2 := hi.comp (fun _ x => ENNReal.ofReal (Real.exp (-(t * x)))) fun _ => by fun_prop
  have h2 := lintegral_prod_eq_prod_lintegral_of_indepFun Finset.univ (fun (r : Fin n) ω => ENNReal.ofReal (Real.exp (-(t * (g ω).expo (a + r))))) hi2
    fun r => by have := hg.expo_measurable (a + r); fun_prop
  rw [h2]
  have h3 : ∀ r : Fin n, ∫⁻ ω, ENNReal.ofReal (Real.exp (-(t * (g ω).expo (a + r)))) ∂P = ENNReal.ofReal (1 / (1 + t)) := by
    intro r
    rw [← exp_laplace ht, ← hg.expo_law (a + r), lintegral_map (by fun_prop) (hg.expo_measurable _)]
  simp_rw [h3]
  rw [Finset.prod_const, Finset.card_univ, Fintype.card_fin, ← ENNReal.ofReal_pow (by positivity), one_div, inv_pow]

theorem inv_sum (hg : Spec.RandomDraws P g) (k a : ℕ) : ∫⁻ ω, ENNReal.ofReal (1 / ∑ r : Fin (k + 2), (g ω).expo (a + r)) ∂P = ENNReal.ofReal (1 / ((k : ℝ) + 1)) := by
  have hu : Measurable fun p : Ω × ℝ => ∑ r : Fin (k + 2), (g p.1).expo (a + r) := Finset.measurable_sum _ fun r _ => (hg.expo_measurable (a + r)).comp measurable_fst
  have hswap := lintegral_lintegral_swap (μ := P) (ν := volume.restrict (Set.Ioi (0 : ℝ))) (f := fun ω t => ENNReal.ofReal (Real.exp (-(t * ∑ r : Fin (k + 2), (g ω).expo (a + r)))))
    (ENNReal.measurable_ofReal.comp (Real.measurable_exp.comp (measurable_snd.mul hu).neg)).aemeasurable
  have h1 : ∀ᵐ ω ∂P, ENNReal.ofReal (1 / ∑ r : Fin (k + 2), (g ω).expo (a + r)) = ∫⁻ t in Set.Ioi (0 : ℝ), ENNReal.ofReal (Real.exp (-(t * ∑ r : Fin (k + 2), (g ω).expo (a + r)))) := by
    filter_upwards [all_pos hg] with ω hω
    exact (inv_eq_lintegral (Finset.sum_pos (fun _ _ => hω _) ⟨0, Finset.mem_univ _⟩)).symm
  rw [lintegral_congr_ae h1, hswap, ← lint_pow k]
  exact setLIntegral_congr_fun measurableSet_Ioi fun t ht => sum_laplace hg _ _ (le_of_lt ht)

theorem inv_sum_sq (hg : Spec.RandomDraws P g) (k a : ℕ) : ∫⁻ ω, ENNReal.ofReal (1 / (∑ r : Fin (k + 3), (g ω).expo (a + r)) ^ 2) ∂P = ENNReal.ofReal (1 / (((k : ℝ) + 1) * (k + 2))) := by
  have hu : Measurable fun p : Ω × ℝ => ∑ r : Fin (k + 3), (g p.1).expo (a + r) := Finset.measurable_sum _ fun r _ => (hg.expo_measurable (a + r)).comp measurable_fst
  have hswap := lintegral_lintegral_swap (μ := P) (ν := volume.restrict (Set.Ioi (0 : ℝ))) (f := fun ω t => ENNReal.ofReal (t * Real.exp (-(t * ∑ r : Fin (k + 3), (g ω).expo (a + r)))))
    (ENNReal.measurable_ofReal.comp (measurable_snd.mul (Real.measurable_exp.comp (measurable_snd.mul hu).neg))).aemeasurable
  have h1 : ∀ᵐ ω ∂P, ENNReal.ofReal (1 / (∑ r : Fin (k + 3), (g ω).expo (a + r)) ^ 2) =
      ∫⁻ t in Set.Ioi (0 : ℝ), ENNReal.ofReal (t * Real.exp (-(t * ∑ r : Fin (k + 3), (g ω).expo (a + r)))) := by
    filter_upwards [all_pos hg] with ω hω
    exact (inv_sq_eq_lintegral (Finset.sum_pos (fun _ _ => hω _) ⟨0, Finset.mem_univ _⟩)).symm
  rw [lintegral_congr_ae h1, hswap, ← lint_pow_mul k]
  refine setLIntegral_congr_fun measurableSet_Ioi fun t ht => ?_
  have ht' : 0 ≤ t := le_of_lt ht
  simp_rw [ENNReal.ofReal_mul ht']
  rw [lintegral_const_mul' _ _ ENNReal.ofReal_ne_top, sum_laplace hg _ _ ht']

end
end SeismoStats.Blocks
