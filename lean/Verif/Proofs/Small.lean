/-
Support for property C120: products and sums of random variables that vanish in probability.
-/
import Verif.Proofs.WindowClt

namespace SeismoStats.Blocks
open MeasureTheory ProbabilityTheory Filter Topology
open scoped BigOperators NNReal
open Classical
noncomputable section

variable {Ω : Type} [MeasurableSpace Ω] {P : Measure Ω} [IsProbabilityMeasure P]

theorem null_add {U V : ℕ → Ω → ℝ} (hU : TendstoInMeasure P U atTop 0) (hV : TendstoInMeasure P V atTop 0) : TendstoInMeasure P (fun N ω => U N ω + V N ω) atTop 0 := by
  rw [tendstoInMeasure_iff_measureReal_norm] at *
  intro ε hε
  have h := (hU (ε / 2) (by positivity)).add (hV (ε / 2) (by positivity))
  rw [add_zero] at h
  refine squeeze_zero (fun N => measureReal_nonneg) (fun N => ?_) h
  refine (measureReal_mono ?_).trans (measureReal_union_le _ _)
  intro ω hω
  simp only [Set.mem_setOf_eq, Set.mem_union, Pi.zero_apply, sub_zero, Real.norm_eq_abs] at hω ⊢
  by_contra hc
  push Not at hc
  have := abs_add_le (U N ω) (V N ω)
  linarith [hc.1, hc.2]

theorem null_sum {ι : Type} (T : Finset ι) {U : ι → ℕ → Ω → ℝ} (h : ∀ i ∈ T, TendstoInMeasure P (U i) atTop 0) : TendstoInMeasure P (fun N ω => ∑ i ∈ T, U i N ω) atTop 0 := by
  induction T using Finset.induction_on with
  | empty =>
    rw [tendstoInMeasure_iff_measureReal_norm]
    intro ε hε
    refine tendsto_const_nhds.congr fun N => ?_
    have : {ω : Ω | ε ≤ ‖∑ i ∈ (∅ : Finset ι), U i N ω - (0 : Ω → ℝ) ω‖} = ∅ := by
      ext ω
      simp [hε]
    rw [this, measureReal_empty]
  | insert a s ha ih =>
    have := null_add (h a (Finset.mem_insert_self a s)) (ih fun i hi => h i (Finset.mem_insert_of_mem hi))
    simpa only [Finset.sum_insert ha] using this

/-- A sequence bounded in mean square times one that vanishes almost surely vanishes in probability. -/
theorem mul_small {U V : ℕ → Ω → ℝ} {C : ℝ} (hU : ∀ᶠ N in atTop, MemLp (U N) 2 P ∧ ∫ ω, U N ω ^ 2 ∂P ≤ C) (hVm : ∀ N, AEStronglyMeasurable (V N) P)
    (hV : ∀ᵐ ω ∂P, Tendsto (fun N => V N ω) atTop (𝓝 0)) : TendstoInMeasure P (fun N ω => U N ω * V N ω) atTop 0 := by
  have hVt : TendstoInMeasure P V atTop 0 := tendstoInMeasure_of_tendsto_ae hVm hV
  rw [tendstoInMeasure_iff_measureReal_norm] at *
  intro ε hε
  rw [Metric.tendsto_atTop]
  intro δ hδ
  obtain ⟨R, hR0, hR⟩ : ∃ R : ℝ, 0 < R ∧ C < δ / 2 * R ^ 2 := by
    refine ⟨2 * (|C| + 1) / δ + 1, by positivity, ?_⟩
    have h1 : 0 ≤ 2 * (|C| + 1) / δ := by positivity
    have h3 : δ / 2 * (2 * (|C| + 1) / δ) = |C| + 1 := by field_simp
    have h4 := le_abs_self C
    nlinarith [mul_nonneg h1 h1]
  have e := Metric.tendsto_atTop.1 (hVt (ε / R) (by positivity)) (δ / 2) (by positivity)
  obtain ⟨N1, h1⟩ := e
  obtain ⟨N2, h2⟩ := eventually_atTop.1 hU
  refine ⟨max N1 N2, fun N hN => ?_⟩
  have g1 := h1 N ((le_max_left _ _).trans hN)
  obtain ⟨m, b⟩ := h2 N ((le_max_right _ _).trans hN)
  simp only [Real.dist_eq, sub_zero, Pi.zero_apply, Real.norm_eq_abs] at g1 ⊢
  rw [abs_of_nonneg measureReal_nonneg] at g1 ⊢
  have mk := mul_meas_ge_le_integral_of_nonneg (Eventually.of_forall fun ω => sq_nonneg (U N ω)) m.integrable_sq (R ^ 2)
  have g2 : P.real {ω | R ^ 2 ≤ U N ω ^ 2} < δ / 2 := by
    have hR2 : 0 < R ^ 2 := by positivity
    by_contra hc
    push Not at hc
    have := mul_le_mul_of_nonneg_left hc hR2.le
    linarith
  have hsub : {ω | ε ≤ |U N ω * V N ω|} ⊆ {ω | R ^ 2 ≤ U N ω ^ 2} ∪ {ω | ε / R ≤ |V N ω|} := by
    intro ω hω
    simp only [Set.mem_setOf_eq, Set.mem_union] at hω ⊢
    by_contra hc
    push Not at hc
    obtain ⟨c1, c2⟩ := hc
    have c3 : |U N ω| < R := by
      rw [← abs_of_pos hR0]; exact sq_lt_sq.1 c1
    rw [abs_mul] at hω
    rw [lt_div_iff₀ hR0] at c2
    nlinarith [abs_nonneg (U N ω), abs_nonneg (V N ω)]
  have := (measureReal_mono (μ := P) hsub).trans (measureReal_union_le _ _)
  linarith

/-! ### powers of exponential draws -/

/-- The root of the sixth moment of the reciprocal: finite. -/
theorem exp_inv_integrable : Integrable (fun x : ℝ => x ^ (-(2 / 3) : ℝ)) (expMeasure 1) := by
  have hG := Real.GammaIntegral_convergent (s := 1 / 3) (by norm_num)
  unfold expMeasure gammaMeasure
  refine ⟨(measurable_id.pow_const _).aestronglyMeasurable, ?_⟩
  have hpos : ∀ x : ℝ, ‖x ^ (-(2 / 3) : ℝ)‖ₑ * gammaPDF 1 1 x = (Set.Ici (0 : ℝ)).indicator (fun x => ENNReal.ofReal (Real.exp (-x) * x ^ ((1 / 3 : ℝ) - 1))) x := by
    intro x
    unfold gammaPDF gammaPDFReal
    by_cases hx : 0 ≤ x
    · rw [if_pos hx, Set.indicator_of_mem (Set.mem_Ici.2 hx), Real.enorm_eq_ofReal (by positivity), ← ENNReal.ofReal_mul (by positivity)]
      congr 1
      norm_num
      ring
    · rw [if_neg hx, Set.indicator_of_notMem (by simpa using hx)]
      simp
  unfold HasFiniteIntegral
  rw [lintegral_withDensity_eq_lintegral_mul₀ (by unfold gammaPDF; fun_prop) (by fun_prop)]
  simp only [Pi.mul_apply]
  rw [lintegral_congr fun x => by rw [mul_comm, hpos], lintegral_indicator measurableSet_Ici, setLIntegral_congr Ioi_ae_eq_Ici.symm]
  have h := hG.hasFiniteIntegral
  rw [hasFiniteIntegral_iff_ofReal] at h
  · exact h
  · filter_upwards [ae_restrict_mem measurableSet_Ioi] with t ht
    have ht' : 0 < t := ht
    positivity

end
end SeismoStats.Blocks
