/-
Property C114: the estimators on magnitudes that are truncated at a maximum magnitude.
-/
import Verif.Props.Consistency
import Verif.Props.SimulateLaw
import Mathlib.MeasureTheory.Integral.IntervalIntegral.FundThmCalculus
import Mathlib.Analysis.Convex.SpecificFunctions.Basic
import Mathlib.Analysis.Complex.ExponentialBounds

namespace SeismoStats.Props
open SeismoStats SeismoStats.Simulate BValue MeasureTheory ProbabilityTheory Filter Topology
open Classical
noncomputable section

variable {Ω : Type} [MeasurableSpace Ω] {P : Measure Ω} {g : Ω → Rng}

/-- As `ConvergesTo`, for magnitudes (not binned) simulated with the maximum magnitude `M`. -/
def ConvergesTruncated (P : Measure Ω) (g : Ω → Rng) (c : Cls) (b mc M : ℝ) (limit : ℝ) : Prop :=
  ∀ᵐ ω ∂P, ∃ est : ℕ → ℝ,
    (∀ᶠ n in atTop, ∃ mags, simulateBinned n (fun _ => b) mc 0 (some M) .bValue (g ω) = .ok mags ∧
      ∀ warn s, Reachable c s → (calculate c warn s { mags := mags.map some, mc := mc, δ := 0, dmc := none }).2 = .ok (.fin (est n))) ∧
    Tendsto est atTop (𝓝 limit)

/-- The limit of the estimates for b-value `b` and a magnitude range of `L`: with `x = b ln(10) L` it is `b / (1 - x / (e^x - 1))`. -/
def truncLimit (b L : ℝ) : ℝ := b / (1 - b * Real.log 10 * L / (Real.exp (b * Real.log 10 * L) - 1))

theorem truncated_form {β mc M u : ℝ} (hβ : 0 < β) (hM : mc < M) (h1 : u ≤ 1) :
    truncated β mc M u - mc = -(Real.log (1 - (1 - Real.exp (-β * (M - mc))) * u)) / β := by
  have hc : 0 < 1 - (1 - Real.exp (-β * (M - mc))) * u := by
    have h2 : Real.exp (-β * (M - mc)) < 1 := Real.exp_lt_one_iff.2 (by nlinarith)
    have h3 := Real.exp_pos (-β * (M - mc))
    nlinarith
  unfold truncated
  have e : 1 - ((1 - Real.exp (-β * mc)) + u * ((1 - Real.exp (-β * M)) - (1 - Real.exp (-β * mc)))) = Real.exp (-β * mc) * (1 - (1 - Real.exp (-β * (M - mc))) * u) := by
    have : Real.exp (-β * M) = Real.exp (-β * mc) * Real.exp (-β * (M - mc)) := by rw [← Real.exp_add]; congr 1; ring
    rw [this]; ring
  rw [e, Real.log_mul (Real.exp_pos _).ne' hc.ne', Real.log_exp]
  field_simp
  ring

/-- The mean excess over `mc`. -/
theorem truncated_mean {β mc M : ℝ} (hβ : 0 < β) (hM : mc < M) :
    ∫ u in (0 : ℝ)..1, (truncated β mc M u - mc) = (1 - β * (M - mc) / (Real.exp (β * (M - mc)) - 1)) / β := by
  set x := β * (M - mc) with hx
  have hx0 : 0 < x := mul_pos hβ (by linarith)
  set c := 1 - Real.exp (-β * (M - mc)) with hc
  have hE : Real.exp (-β * (M - mc)) = Real.exp (-x) := by congr 1; rw [hx]; ring
  have hc1 : c < 1 := by rw [hc]; linarith [Real.exp_pos (-β * (M - mc))]
  have hc0 : 0 < c := by rw [hc, hE]; linarith [Real.exp_lt_one_iff.2 (show -x < 0 by linarith)]
  have hpos : ∀ u ∈ Set.uIcc (0 : ℝ) 1, 0 < 1 - c * u := by
    intro u hu
    rw [Set.uIcc_of_le zero_le_one, Set.mem_Icc] at hu
    nlinarith [hu.1, hu.2]
  have e1 : ∫ u in (0 : ℝ)..1, (truncated β mc M u - mc) = ∫ u in (0 : ℝ)..1, -(Real.log (1 - c * u)) / β := by
    apply intervalIntegral.integral_congr
    intro u hu
    rw [Set.uIcc_of_le zero_le_one, Set.mem_Icc] at hu
    exact truncated_form hβ hM hu.2
  have hd : ∀ u ∈ Set.uIcc (0 : ℝ) 1, HasDerivAt (fun u => ((1 - c * u) * Real.log (1 - c * u) - (1 - c * u)) / (c * β)) (-(Real.log (1 - c * u)) / β) u := by
    intro u hu
    have hp := hpos u hu
    have h1 : HasDerivAt (fun u => 1 - c * u) (-c) u := by
      have := ((hasDerivAt_id u).const_mul c).const_sub 1
      simpa using this
    have h2 := ((h1.mul (h1.log hp.ne')).sub h1).div_const (c * β)
    refine h2.congr_deriv ?_
    have := hp.ne'
    have := hc0.ne'
    have := hβ.ne'
    field_simp
    ring
  have hcont : IntervalIntegrable (fun u => -(Real.log (1 - c * u)) / β) volume 0 1 := by
    apply ContinuousOn.intervalIntegrable
    apply ContinuousOn.div_const
    apply ContinuousOn.neg
    apply ContinuousOn.log (by fun_prop)
    intro u hu
    exact (hpos u hu).ne'
  rw [e1, intervalIntegral.integral_eq_sub_of_hasDerivAt hd hcont]
  have e2 : 1 - c * 1 = Real.exp (-x) := by rw [hc, hE]; ring
  rw [e2, Real.log_exp]
  simp only [mul_zero, sub_zero, Real.log_one]
  have hey : Real.exp x - 1 ≠ 0 := by
    have := Real.one_lt_exp_iff.2 hx0
    linarith
  have e3 : c = (Real.exp x - 1) / Real.exp x := by rw [hc, hE, Real.exp_neg]; field_simp
  rw [e3, Real.exp_neg]
  have := (Real.exp_pos x).ne'
  have := hβ.ne'
  field_simp
  ring

/-- Averages of functions of the uniform draws. -/
theorem uniform_average (hg : Spec.RandomDraws P g) (f : ℝ → ℝ) (hf : Measurable f) (hi : IntervalIntegrable f volume 0 1) :
    ∀ᵐ ω ∂P, Tendsto (fun n : ℕ => (∑ i ∈ Finset.range n, f ((g ω).uniform i)) / n) atTop (𝓝 (∫ u in (0 : ℝ)..1, f u)) := by
  have hi' : Integrable f (volume.restrict (Set.Ico 0 1)) := by
    rw [Measure.restrict_congr_set Ico_ae_eq_Ioc]
    exact (intervalIntegrable_iff_integrableOn_Ioc_of_le zero_le_one).1 hi
  have hv : ∫ u, f u ∂(volume.restrict (Set.Ico 0 1)) = ∫ u in (0 : ℝ)..1, f u := by
    rw [intervalIntegral.integral_of_le zero_le_one, Measure.restrict_congr_set Ico_ae_eq_Ioc]
  have hm : ∀ i, AEMeasurable (fun ω => (g ω).uniform i) P := fun i => (hg.uniform_measurable i).aemeasurable
  have key := strong_law_ae_real (μ := P) (fun i ω => f ((g ω).uniform i)) ?_ ?_ ?_
  · have e : ∫ ω, f ((g ω).uniform 0) ∂P = ∫ u in (0 : ℝ)..1, f u := by
      rw [← hv, ← hg.uniform_law 0, integral_map (hm 0) hf.aestronglyMeasurable]
    rw [e] at key
    exact key
  · have : Integrable f (P.map fun ω => (g ω).uniform 0) := by rw [hg.uniform_law]; exact hi'
    exact this.comp_measurable (hg.uniform_measurable 0)
  · intro i j hij
    exact (hg.uniform_indep.indepFun hij).comp hf hf
  · intro i
    have : IdentDistrib (fun ω => (g ω).uniform i) (fun ω => (g ω).uniform 0) P P := ⟨hm i, hm 0, by rw [hg.uniform_law, hg.uniform_law]⟩
    exact this.comp hf

theorem all_proper (hg : Spec.RandomDraws P g) : ∀ᵐ ω ∂P, ∀ i, 0 ≤ (g ω).uniform i ∧ (g ω).uniform i < 1 := ae_all_iff.2 fun i => uniform_proper hg i

theorem mean_truncated (hg : Spec.RandomDraws P g) {β mc M : ℝ} (hβ : 0 < β) (hM : mc < M) :
    ∀ᵐ ω ∂P, Tendsto (fun n : ℕ => (∑ i ∈ Finset.range n, (truncated β mc M ((g ω).uniform i) - mc)) / (n : ℝ)) atTop (𝓝 ((1 - β * (M - mc) / (Real.exp (β * (M - mc)) - 1)) / β)) := by
  rw [← truncated_mean hβ hM]
  refine uniform_average hg (fun u => truncated β mc M u - mc) ((truncated_measurable β mc M).sub_const mc) ?_
  refine (intervalIntegrable_iff_integrableOn_Ioc_of_le zero_le_one).2 ?_
  have hb : IntegrableOn (fun _ : ℝ => M - mc) (Set.Ioc 0 1) volume := integrableOn_const (by simp)
  rw [IntegrableOn, ← Measure.restrict_congr_set Ico_ae_eq_Ioc] at hb ⊢
  refine hb.mono' ((truncated_measurable β mc M).sub_const mc).aestronglyMeasurable ?_
  filter_upwards [ae_restrict_mem measurableSet_Ico] with u hu
  obtain ⟨h1, h2, -⟩ := truncated_range β mc M u hβ.ne' hM hu.1 hu.2
  rw [Real.norm_eq_abs, abs_of_nonneg (by linarith)]
  linarith

theorem simulate_maximum (r : Rng) (n : ℕ) {b mc M : ℝ} (hb : 0 < b) (hM0 : M ≠ 0) :
    simulateBinned n (fun _ => b) mc 0 (some M) .bValue r = .ok (firstMags (fun i => truncated (b * Real.log 10) mc M (r.uniform i)) n) := by
  unfold simulateBinned toBeta
  simp only [Bind.bind, Except.bind, zero_div, sub_zero]
  rw [simulate_truncated n _ mc M r (fun i _ => (mul_pos hb log_ten_pos).ne') hM0]
  simp only [binIf, lt_irrefl, if_false]
  rfl

theorem excess_ratio {x : ℝ} (hx : 0 < x) : 0 < x / (Real.exp x - 1) ∧ x / (Real.exp x - 1) < 1 := by
  have h := Real.add_one_lt_exp hx.ne'
  have hp : 0 < Real.exp x - 1 := by linarith
  exact ⟨div_pos hx hp, (div_lt_one hp).2 (by linarith)⟩

theorem truncLimit_eq {b mc M : ℝ} (hb : 0 < b) : 1 / ((1 - b * Real.log 10 * (M - mc) / (Real.exp (b * Real.log 10 * (M - mc)) - 1)) / (b * Real.log 10)) / Real.log 10 = truncLimit b (M - mc) := by
  unfold truncLimit
  rw [one_div_div, div_right_comm]
  congr 1
  have := log_ten_pos.ne'
  field_simp

/-- C114: the classic estimates on magnitudes with a maximum magnitude converge to `truncLimit`. -/
theorem C114_classic (hg : Spec.RandomDraws P g) {b mc M : ℝ} (hb : 0 < b) (hM : mc < M) (hM0 : M ≠ 0) : ConvergesTruncated P g .classic b mc M (truncLimit b (M - mc)) := by
  have hβ : 0 < b * Real.log 10 := mul_pos hb log_ten_pos
  filter_upwards [mean_truncated hg hβ hM, all_proper hg] with ω h hpr
  have hA : 0 < (1 - b * Real.log 10 * (M - mc) / (Real.exp (b * Real.log 10 * (M - mc)) - 1)) / (b * Real.log 10) :=
    div_pos (by have := (excess_ratio (mul_pos hβ (sub_pos.2 hM))).2; linarith) hβ
  obtain ⟨est, h1, h2⟩ := classic_tendsto (fun i => truncated (b * Real.log 10) mc M ((g ω).uniform i)) mc 0 _ hA
    (fun i => by have := (truncated_range _ mc M _ hβ.ne' hM (hpr i).1 (hpr i).2).1; linarith) (Or.inl rfl) h
  refine ⟨est, ?_, ?_⟩
  · filter_upwards [h1] with n hn
    exact ⟨_, simulate_maximum (g ω) n hb hM0, hn⟩
  · unfold betaVal at h2
    rwa [if_neg (lt_irrefl 0), truncLimit_eq hb] at h2

/-- C114: the same for the Utsu estimates. -/
theorem C114_utsu (hg : Spec.RandomDraws P g) {b mc M : ℝ} (hb : 0 < b) (hM : mc < M) (hM0 : M ≠ 0) : ConvergesTruncated P g .utsu b mc M (truncLimit b (M - mc)) := by
  have hβ : 0 < b * Real.log 10 := mul_pos hb log_ten_pos
  filter_upwards [mean_truncated hg hβ hM, all_proper hg] with ω h hpr
  have hA : 0 < (1 - b * Real.log 10 * (M - mc) / (Real.exp (b * Real.log 10 * (M - mc)) - 1)) / (b * Real.log 10) :=
    div_pos (by have := (excess_ratio (mul_pos hβ (sub_pos.2 hM))).2; linarith) hβ
  obtain ⟨est, h1, h2⟩ := utsu_tendsto (fun i => truncated (b * Real.log 10) mc M ((g ω).uniform i)) mc 0 _ hA
    (fun i => by have := (truncated_range _ mc M _ hβ.ne' hM (hpr i).1 (hpr i).2).1; linarith) (Or.inl rfl) h
  refine ⟨est, ?_, ?_⟩
  · filter_upwards [h1] with n hn
    exact ⟨_, simulate_maximum (g ω) n hb hM0, hn⟩
  · rwa [zero_div, add_zero, truncLimit_eq hb] at h2

/-- C114, limit: the estimates are too large in the limit. -/
theorem C114_biased {b L : ℝ} (hb : 0 < b) (hL : 0 < L) : b < truncLimit b L := by
  obtain ⟨h1, h2⟩ := excess_ratio (mul_pos (mul_pos hb log_ten_pos) hL)
  unfold truncLimit
  rw [lt_div_iff₀ (by linarith)]
  nlinarith

/-- C114: the bias decreases with the magnitude range. -/
theorem C114_decreasing {b L L' : ℝ} (hb : 0 < b) (hL : 0 < L) (hLL : L < L') : truncLimit b L' < truncLimit b L := by
  have hβ : 0 < b * Real.log 10 := mul_pos hb log_ten_pos
  have hx := mul_pos hβ hL
  have hxy : b * Real.log 10 * L < b * Real.log 10 * L' := mul_lt_mul_of_pos_left hLL hβ
  have hsec := strictConvexOn_exp.secant_strict_mono (a := 0) (Set.mem_univ _) (Set.mem_univ _) (Set.mem_univ _) hx.ne' (hx.trans hxy).ne' hxy
  simp only [sub_zero, Real.exp_zero] at hsec
  have h1 := excess_ratio hx
  have h2 := excess_ratio (hx.trans hxy)
  unfold truncLimit
  apply div_lt_div_of_pos_left hb (by linarith)
  have e1 : b * Real.log 10 * L' / (Real.exp (b * Real.log 10 * L') - 1) = ((Real.exp (b * Real.log 10 * L') - 1) / (b * Real.log 10 * L'))⁻¹ := by rw [inv_div]
  have e2 : b * Real.log 10 * L / (Real.exp (b * Real.log 10 * L) - 1) = ((Real.exp (b * Real.log 10 * L) - 1) / (b * Real.log 10 * L))⁻¹ := by rw [inv_div]
  have hp : 0 < (Real.exp (b * Real.log 10 * L) - 1) / (b * Real.log 10 * L) := by
    have := Real.one_lt_exp_iff.2 hx
    exact div_pos (by linarith) hx
  have := inv_strictAnti₀ hp hsec
  rw [e1, e2]
  linarith

/-- C114: the bias vanishes if the magnitude range grows. -/
theorem C114_vanishes {b : ℝ} (hb : 0 < b) : Tendsto (fun L => truncLimit b L) atTop (𝓝 b) := by
  have hβ : 0 < b * Real.log 10 := mul_pos hb log_ten_pos
  have h1 : Tendsto (fun x : ℝ => x / (Real.exp x - 1)) atTop (𝓝 0) := by
    have h2 : Tendsto (fun x : ℝ => 1 * (x ^ 1 / Real.exp x) * (Real.exp x / (Real.exp x - 1))) atTop (𝓝 (1 * 0 * 1)) := by
      refine Tendsto.mul (Tendsto.const_mul 1 (Real.tendsto_div_pow_mul_exp_add_atTop 1 0 1 (by norm_num) |>.congr fun x => by simp)) ?_
      have h3 : Tendsto (fun x : ℝ => 1 + 1 / (Real.exp x - 1)) atTop (𝓝 (1 + 0)) := by
        refine Tendsto.const_add 1 ?_
        have h4 : Tendsto (fun x : ℝ => Real.exp x - 1) atTop atTop := by
          simpa [sub_eq_add_neg] using tendsto_atTop_add_const_right atTop (-1 : ℝ) Real.tendsto_exp_atTop
        exact h4.const_div_atTop 1
      rw [add_zero] at h3
      refine h3.congr' ?_
      filter_upwards [eventually_gt_atTop 0] with x hx
      have : Real.exp x - 1 ≠ 0 := by have := Real.one_lt_exp_iff.2 hx; linarith
      field_simp
      ring
    simp only [mul_zero, mul_one] at h2
    refine h2.congr' ?_
    filter_upwards [eventually_gt_atTop 0] with x hx
    have : Real.exp x - 1 ≠ 0 := by have := Real.one_lt_exp_iff.2 hx; linarith
    have := (Real.exp_pos x).ne'
    field_simp
  have h2 : Tendsto (fun L : ℝ => b * Real.log 10 * L) atTop atTop := Tendsto.const_mul_atTop hβ tendsto_id
  have h3 := ((h1.comp h2).const_sub 1)
  rw [sub_zero] at h3
  have h4 := (tendsto_const_nhds (x := b) (f := atTop (α := ℝ))).div h3 one_ne_zero
  rw [div_one] at h4
  exact h4

/-- C114, limit: a range of one magnitude unit with b-value 1 gives estimates above 1.3. -/
theorem C114_large (hg : Spec.RandomDraws P g) : ∃ limit > 13 / 10, ConvergesTruncated P g .classic 1 2 3 limit := by
  refine ⟨_, ?_, C114_classic hg one_pos (by norm_num) (by norm_num)⟩
  unfold truncLimit
  have h10 : Real.exp (Real.log 10) = 10 := Real.exp_log (by norm_num)
  have hlog : 2079 / 1000 < Real.log 10 := by
    have h1 : Real.log 8 < Real.log 10 := Real.log_lt_log (by norm_num) (by norm_num)
    have h2 : Real.log 8 = 3 * Real.log 2 := by
      rw [show (8 : ℝ) = 2 ^ 3 by norm_num, Real.log_pow]
      norm_num
    have := Real.log_two_gt_d9
    linarith
  have hu : Real.log 10 < 9 := by
    have := Real.log_lt_sub_one_of_pos (show (0 : ℝ) < 10 by norm_num) (by norm_num)
    linarith
  rw [show (1 : ℝ) * Real.log 10 * (3 - 2) = Real.log 10 by ring, h10, gt_iff_lt, lt_div_iff₀ (by linarith)]
  linarith

end
end SeismoStats.Props
