/-
A central limit theorem for weighted sums of independent, identically distributed variables with bounded weights.
-/
import Mathlib.Probability.CentralLimitTheorem

namespace SeismoStats.Props
open MeasureTheory ProbabilityTheory Filter Topology
noncomputable section

/-- Products of numbers in the unit disc are as close as their factors. -/
theorem prod_close {ι : Type} (s : Finset ι) (a b : ι → ℂ) (ha : ∀ i ∈ s, ‖a i‖ ≤ 1) (hb : ∀ i ∈ s, ‖b i‖ ≤ 1) : ‖∏ i ∈ s, a i - ∏ i ∈ s, b i‖ ≤ ∑ i ∈ s, ‖a i - b i‖ := by
  classical
  induction s using Finset.induction_on with
  | empty => simp
  | insert i s hi ih =>
    rw [Finset.prod_insert hi, Finset.prod_insert hi, Finset.sum_insert hi]
    have h1 := ih (fun j hj => ha j (Finset.mem_insert_of_mem hj)) (fun j hj => hb j (Finset.mem_insert_of_mem hj))
    have h2 : ‖∏ j ∈ s, b j‖ ≤ 1 := by
      rw [norm_prod]
      exact Finset.prod_le_one (fun j _ => norm_nonneg _) fun j hj => hb j (Finset.mem_insert_of_mem hj)
    have e : a i * ∏ j ∈ s, a j - b i * ∏ j ∈ s, b j = (a i - b i) * ∏ j ∈ s, b j + a i * (∏ j ∈ s, a j - ∏ j ∈ s, b j) := by ring
    rw [e]
    refine (norm_add_le _ _).trans (add_le_add ?_ ?_)
    · rw [norm_mul]
      exact mul_le_of_le_one_right (norm_nonneg _) h2
    · rw [norm_mul]
      refine (mul_le_of_le_one_left (norm_nonneg _) (ha i (Finset.mem_insert_self _ _))).trans h1

variable {Ω : Type} [MeasurableSpace Ω] {P : Measure Ω} [IsProbabilityMeasure P] {X : ℕ → Ω → ℝ}

/-- Near zero a characteristic function with mean zero and variance one differs little from that of the normal law. -/
theorem charFun_near {Y : Ω → ℝ} (hY : AEMeasurable Y P) (h0 : P[Y] = 0) (h1 : P[Y ^ 2] = 1) {ε : ℝ} (hε : 0 < ε) :
    ∃ δ > 0, ∀ u : ℝ, |u| < δ → ‖charFun (P.map Y) u - Complex.exp (-(u : ℂ) ^ 2 / 2)‖ ≤ ε * u ^ 2 := by
  have hT := taylor_charFun_two hY h0 h1
  have hG := taylor_charFun_two (P := gaussianReal 0 1) (X := fun x : ℝ => x) aemeasurable_id (by simp) (by
    have h := variance_id_gaussianReal (μ := 0) (v := 1)
    rw [variance_eq_integral aemeasurable_id] at h
    simpa using h)
  rw [Measure.map_id'] at hG
  have h := hT.sub hG
  have h2 := (h.def hε)
  rw [Metric.eventually_nhds_iff] at h2
  obtain ⟨δ, hδ, h3⟩ := h2
  refine ⟨δ, hδ, fun u hu => ?_⟩
  have h4 := h3 (y := u) (by rwa [Real.dist_eq, sub_zero])
  rw [Real.norm_of_nonneg (sq_nonneg u)] at h4
  have e : charFun (gaussianReal 0 1) u = Complex.exp (-(u : ℂ) ^ 2 / 2) := by
    rw [charFun_gaussianReal]
    simp [neg_div]
  rw [← e]
  refine le_trans (le_of_eq ?_) h4
  congr 1
  ring

/-- Weighted central limit theorem. -/
theorem clt_weighted (h0 : P[X 0] = 0) (h1 : P[X 0 ^ 2] = 1) (hindep : iIndepFun X P) (hident : ∀ i, IdentDistrib (X i) (X 0) P P) {w : ℕ → ℝ} {M : ℝ} (hw : ∀ i, |w i| ≤ M)
    (hs : Tendsto (fun n => ∑ i ∈ Finset.range n, w i ^ 2) atTop atTop) :
    TendstoInDistribution (fun (n : ℕ) ω => (Real.sqrt (∑ i ∈ Finset.range n, w i ^ 2))⁻¹ * ∑ i ∈ Finset.range n, w i * X i ω) atTop (id : ℝ → ℝ) (fun _ => P) (gaussianReal 0 1) where
  forall_aemeasurable n := .const_mul (Finset.aemeasurable_fun_sum _ fun i _ => (hident i).aemeasurable_fst.const_mul _) _
  tendsto := by
    refine ProbabilityMeasure.tendsto_iff_tendsto_charFun.2 fun t => ?_
    have mX : ∀ i, AEMeasurable (X i) P := fun i => (hident i).aemeasurable_fst
    set s : ℕ → ℝ := fun n => Real.sqrt (∑ i ∈ Finset.range n, w i ^ 2) with hsd
    have hs' : Tendsto s atTop atTop := Real.tendsto_sqrt_atTop.comp hs
    have e1 : ∀ n, charFun (P.map fun ω => (s n)⁻¹ * ∑ i ∈ Finset.range n, w i * X i ω) t = ∏ i ∈ Finset.range n, charFun (P.map (X 0)) (w i * ((s n)⁻¹ * t)) := by
      intro n
      have hi : iIndepFun (fun i ω => w i * X i ω) P := hindep.comp (fun i x => w i * x) fun i => by fun_prop
      rw [charFun_map_mul_comp (Finset.aemeasurable_fun_sum _ fun i _ => (mX i).const_mul _), (hi.restrict _).charFun_map_fun_finsetSum_eq_prod (fun i _ => (mX i).const_mul _)]
      rw [Finset.prod_apply]
      refine Finset.prod_congr rfl fun i _ => ?_
      rw [charFun_map_mul_comp (mX i), (hident i).map_eq]
    have e2 : charFun ((gaussianReal 0 1).map id) t = Complex.exp (-(t : ℂ) ^ 2 / 2) := by
      rw [Measure.map_id, charFun_gaussianReal]
      simp [neg_div]
    change Tendsto (fun n => charFun (P.map fun ω => (s n)⁻¹ * ∑ i ∈ Finset.range n, w i * X i ω) t) atTop (𝓝 (charFun ((gaussianReal 0 1).map id) t))
    rw [e2]
    simp only [e1]
    rw [Metric.tendsto_atTop']
    intro ε hε
    have hη : 0 < ε / (2 * (t ^ 2 + 1)) := by positivity
    obtain ⟨δ, hδ, hnear⟩ := charFun_near (mX 0) h0 h1 hη
    have hM : 0 ≤ M := (abs_nonneg _).trans (hw 0)
    obtain ⟨N, hN⟩ := eventually_atTop.1 ((hs'.eventually (eventually_gt_atTop 0)).and (hs'.eventually (eventually_gt_atTop (M * |t| / δ))))
    refine ⟨N, fun n hn => ?_⟩
    obtain ⟨hp, hl⟩ := hN n hn.le
    have hss : s n ^ 2 = ∑ i ∈ Finset.range n, w i ^ 2 := Real.sq_sqrt (Finset.sum_nonneg fun i _ => sq_nonneg _)
    have hu : ∀ i, |w i * ((s n)⁻¹ * t)| < δ := by
      intro i
      rw [abs_mul, abs_mul, abs_of_pos (inv_pos.2 hp)]
      calc |w i| * ((s n)⁻¹ * |t|) ≤ M * ((s n)⁻¹ * |t|) := mul_le_mul_of_nonneg_right (hw i) (by positivity)
        _ = M * |t| / s n := by field_simp
        _ < δ := by
          rw [div_lt_iff₀ hδ] at hl
          rw [div_lt_iff₀ hp]
          linarith
    have e3 : ∑ i ∈ Finset.range n, (w i * ((s n)⁻¹ * t)) ^ 2 = t ^ 2 := by
      simp only [mul_pow]
      rw [← Finset.sum_mul, ← hss]
      field_simp
    have e4 : Complex.exp (-(t : ℂ) ^ 2 / 2) = ∏ i ∈ Finset.range n, Complex.exp (-((w i * ((s n)⁻¹ * t) : ℝ) : ℂ) ^ 2 / 2) := by
      rw [← Complex.exp_sum, ← Finset.sum_div, Finset.sum_neg_distrib]
      congr 3
      rw [← Complex.ofReal_pow, ← e3]
      push_cast
      rfl
    rw [dist_eq_norm, e4]
    have : IsProbabilityMeasure (P.map (X 0)) := Measure.isProbabilityMeasure_map (mX 0)
    calc ‖∏ i ∈ Finset.range n, charFun (P.map (X 0)) (w i * ((s n)⁻¹ * t)) - ∏ i ∈ Finset.range n, Complex.exp (-((w i * ((s n)⁻¹ * t) : ℝ) : ℂ) ^ 2 / 2)‖
        ≤ ∑ i ∈ Finset.range n, ‖charFun (P.map (X 0)) (w i * ((s n)⁻¹ * t)) - Complex.exp (-((w i * ((s n)⁻¹ * t) : ℝ) : ℂ) ^ 2 / 2)‖ := by
          refine prod_close _ _ _ (fun i _ => norm_charFun_le_one _) fun i _ => ?_
          rw [Complex.norm_exp]
          have : (-((w i * ((s n)⁻¹ * t) : ℝ) : ℂ) ^ 2 / 2) = ((-(w i * ((s n)⁻¹ * t)) ^ 2 / 2 : ℝ) : ℂ) := by push_cast; ring
          rw [this, Complex.ofReal_re, Real.exp_le_one_iff]
          have := sq_nonneg (w i * ((s n)⁻¹ * t))
          linarith
      _ ≤ ∑ i ∈ Finset.range n, ε / (2 * (t ^ 2 + 1)) * (w i * ((s n)⁻¹ * t)) ^ 2 := Finset.sum_le_sum fun i _ => hnear _ (hu i)
      _ = ε / (2 * (t ^ 2 + 1)) * t ^ 2 := by rw [← Finset.mul_sum, e3]
      _ < ε := by
        rw [div_mul_eq_mul_div, div_lt_iff₀ (by positivity)]
        nlinarith [sq_nonneg t]

end
end SeismoStats.Props
