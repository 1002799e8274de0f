/-
The mean of exponential draws is asymptotically normal, and the standard deviation read from the classic and the Utsu class.
-/
import Verif.Proofs.Law
import Verif.Proofs.Sequence
import Verif.Props.BValueUtils
import Verif.Props.Consistency
import Mathlib.Probability.CentralLimitTheorem
import Mathlib.MeasureTheory.Function.ConvergenceInDistribution
import Mathlib.MeasureTheory.Measure.Portmanteau
import Mathlib.Analysis.SpecialFunctions.Pow.Integral
import Mathlib.Analysis.SpecialFunctions.Gamma.Basic

namespace SeismoStats.Props
open SeismoStats SeismoStats.Simulate BValue MeasureTheory ProbabilityTheory Filter Topology
open Classical
noncomputable section

/-- Second moment of the standard exponential law. -/
theorem exp_second : ∫⁻ e, ENNReal.ofReal (e ^ 2) ∂(expMeasure 1) = ENNReal.ofReal 2 := by
  have hpos : 0 ≤ᵐ[expMeasure 1] (fun e : ℝ => e) := by
    filter_upwards [exp_ae_pos] with x hx using hx.le
  have h := lintegral_rpow_eq_lintegral_meas_le_mul (μ := expMeasure 1) (f := fun e : ℝ => e) hpos measurable_id.aemeasurable (p := 2) two_pos
  have e1 : ∫⁻ e, ENNReal.ofReal (e ^ 2) ∂(expMeasure 1) = ∫⁻ e, ENNReal.ofReal (e ^ (2 : ℝ)) ∂(expMeasure 1) := by
    apply lintegral_congr
    intro x
    rw [← Real.rpow_natCast]
    norm_num
  rw [e1, h]
  have h1 : ∀ t ∈ Set.Ioi (0 : ℝ), expMeasure 1 {a | t ≤ a} * ENNReal.ofReal (t ^ ((2 : ℝ) - 1)) = ENNReal.ofReal (Real.exp (-t) * t ^ ((2 : ℝ) - 1)) := by
    intro t ht
    have ht' : 0 < t := ht
    have e2 : {a : ℝ | t ≤ a} = Set.Ici t := rfl
    rw [e2, exp_tail ht'.le, ENNReal.ofReal_mul (Real.exp_pos _).le]
  rw [setLIntegral_congr_fun measurableSet_Ioi h1, ← ofReal_integral_eq_lintegral_ofReal (Real.GammaIntegral_convergent two_pos)]
  · rw [← Real.Gamma_eq_integral two_pos]
    have : Real.Gamma 2 = 1 := by norm_num
    rw [this]; simp
  · filter_upwards [ae_restrict_mem measurableSet_Ioi] with t ht
    have ht' : 0 < t := ht
    positivity

theorem exp_first : ∫⁻ e, ENNReal.ofReal e ∂(expMeasure 1) = ENNReal.ofReal 1 := by
  have h := exp_excess (c := 0) le_rfl
  simp only [neg_zero, Real.exp_zero] at h
  rw [← h]
  apply lintegral_congr
  intro x
  rw [sub_zero, ENNReal.ofReal_max]; simp

theorem exp_integral {f : ℝ → ℝ} (hf : Measurable f) (h0 : ∀ x, 0 < x → 0 ≤ f x) {L : ℝ} (hL : 0 ≤ L) (h : ∫⁻ e, ENNReal.ofReal (f e) ∂(expMeasure 1) = ENNReal.ofReal L) :
    Integrable f (expMeasure 1) ∧ ∫ e, f e ∂(expMeasure 1) = L := by
  have hp : 0 ≤ᵐ[expMeasure 1] f := by
    filter_upwards [exp_ae_pos] with x hx using h0 x hx
  constructor
  · refine ⟨hf.aestronglyMeasurable, ?_⟩
    rw [hasFiniteIntegral_iff_ofReal hp, h]
    exact ENNReal.ofReal_lt_top
  · rw [integral_eq_lintegral_of_nonneg_ae hp hf.aestronglyMeasurable, h, ENNReal.toReal_ofReal hL]

variable {Ω : Type} [MeasurableSpace Ω] {P : Measure Ω} {g : Ω → Rng}

/-- Mean of the first `n` exponential draws. -/
def meanE (r : Rng) (n : ℕ) : ℝ := (∑ i ∈ Finset.range n, r.expo i) / n
/-- Mean of their squares. -/
def meanE2 (r : Rng) (n : ℕ) : ℝ := (∑ i ∈ Finset.range n, r.expo i ^ 2) / n

theorem meanE_tendsto (hg : Spec.RandomDraws P g) : ∀ᵐ ω ∂P, Tendsto (meanE (g ω)) atTop (𝓝 1) := by
  have h := strong_law_expo hg (fun e => max (e - 0) 0) (by fun_prop) (fun e => le_max_right _ _) 1 zero_le_one (by
    rw [exp_excess le_rfl]; simp)
  filter_upwards [h, all_pos hg] with ω h hpos
  refine h.congr fun n => ?_
  unfold meanE
  congr 1
  apply Finset.sum_congr rfl
  intro i _
  rw [sub_zero, max_eq_left (hpos i).le]

theorem meanE2_tendsto (hg : Spec.RandomDraws P g) : ∀ᵐ ω ∂P, Tendsto (meanE2 (g ω)) atTop (𝓝 2) :=
  strong_law_expo hg (fun e => e ^ 2) (by fun_prop) (fun e => sq_nonneg e) 2 zero_le_two exp_second

theorem meanE_measurable (hg : Spec.RandomDraws P g) (n : ℕ) : Measurable fun ω => meanE (g ω) n := by
  unfold meanE
  exact (Finset.measurable_sum _ fun i _ => hg.expo_measurable i).div_const _

theorem meanE2_measurable (hg : Spec.RandomDraws P g) (n : ℕ) : Measurable fun ω => meanE2 (g ω) n := by
  unfold meanE2
  exact (Finset.measurable_sum _ fun i _ => (hg.expo_measurable i).pow_const 2).div_const _

/-- Central limit theorem for the exponential draws. -/
theorem clt_expo [IsProbabilityMeasure P] (hg : Spec.RandomDraws P g) :
    TendstoInDistribution (fun (n : ℕ) ω => (Real.sqrt n)⁻¹ * ∑ i ∈ Finset.range n, ((g ω).expo i - 1)) atTop (id : ℝ → ℝ) (fun _ => P) (gaussianReal 0 1) := by
  have hP : IsProbabilityMeasure (expMeasure 1) := isProbabilityMeasure_expMeasure one_pos
  obtain ⟨i1, v1⟩ := exp_integral (f := fun e => e) (by fun_prop) (fun x hx => hx.le) zero_le_one exp_first
  obtain ⟨i2, v2⟩ := exp_integral (f := fun e => e ^ 2) (by fun_prop) (fun x hx => sq_nonneg x) zero_le_two exp_second
  have hm : ∀ i, AEMeasurable (fun ω => (g ω).expo i) P := fun i => (hg.expo_measurable i).aemeasurable
  refine tendstoInDistribution_inv_sqrt_mul_sum (X := fun i ω => (g ω).expo i - 1) ⟨aemeasurable_id, Measure.map_id⟩ ?_ ?_ ?_ ?_
  · have e : ∫ ω, ((g ω).expo 0 - 1) ∂P = ∫ e, (e - 1) ∂(expMeasure 1) := by
      rw [← hg.expo_law 0, integral_map (hm 0) (by fun_prop)]
    change ∫ ω, ((g ω).expo 0 - 1) ∂P = 0
    rw [e, integral_sub i1 (integrable_const 1), v1]
    simp
  · have e : ∫ ω, ((g ω).expo 0 - 1) ^ 2 ∂P = ∫ e, (e - 1) ^ 2 ∂(expMeasure 1) := by
      rw [← hg.expo_law 0, integral_map (hm 0) (by fun_prop)]
    change ∫ ω, ((g ω).expo 0 - 1) ^ 2 ∂P = 1
    rw [e]
    have e2 : ∀ e : ℝ, (e - 1) ^ 2 = e ^ 2 - 2 * e + 1 := fun e => by ring
    simp only [e2]
    have i3 : Integrable (fun e : ℝ => e ^ 2 - 2 * e) (expMeasure 1) := i2.sub (i1.const_mul 2)
    rw [integral_add i3 (integrable_const 1), integral_sub i2 (i1.const_mul 2), integral_const_mul, v1, v2]
    simp
  · exact hg.expo_indep.comp (fun _ e => e - 1) fun _ => by fun_prop
  · intro i
    have : IdentDistrib (fun ω => (g ω).expo i) (fun ω => (g ω).expo 0) P P := ⟨hm i, hm 0, by rw [hg.expo_law, hg.expo_law]⟩
    exact this.comp (u := fun e => e - 1) (by fun_prop)

/-- Slutsky: limit of the probability that an asymptotically normal variable falls into a random interval. -/
theorem slutsky_interval [IsProbabilityMeasure P] {A U V : ℕ → Ω → ℝ} (hA : TendstoInDistribution A atTop (id : ℝ → ℝ) (fun _ => P) (gaussianReal 0 1))
    (hU : ∀ n, Measurable (U n)) (hV : ∀ n, Measurable (V n)) (tU : ∀ᵐ ω ∂P, Tendsto (fun n => U n ω) atTop (𝓝 1)) (tV : ∀ᵐ ω ∂P, Tendsto (fun n => V n ω) atTop (𝓝 1))
    {z : ℝ} (hz : 0 < z) :
    Tendsto (fun n => P.real {ω | |A n ω| * U n ω ≤ z * V n ω}) atTop (𝓝 ((gaussianReal 0 1).real (Set.Icc (-z) z))) := by
  have hY : TendstoInMeasure P (fun n ω => (U n ω, V n ω)) atTop (fun _ => ((1 : ℝ), (1 : ℝ))) := by
    apply tendstoInMeasure_of_tendsto_ae
    · intro n
      exact ((hU n).prodMk (hV n)).aestronglyMeasurable
    · filter_upwards [tU, tV] with ω h1 h2
      exact h1.prodMk_nhds h2
  have hc : Continuous fun p : ℝ × (ℝ × ℝ) => |p.1| * p.2.1 - z * p.2.2 := by fun_prop
  have h := hA.continuous_comp_prodMk_of_tendstoInMeasure_const hc hY fun n => ((hU n).prodMk (hV n)).aemeasurable
  have hm : Measurable fun a : ℝ => |id a| * 1 - z * 1 := by fun_prop
  have key := ProbabilityMeasure.tendsto_measure_of_null_frontier_of_tendsto' h.tendsto (E := Set.Iic 0) (by
    rw [frontier_Iic]
    change (Measure.map _ _) _ = 0
    rw [Measure.map_apply hm (measurableSet_singleton 0)]
    have hsub : (fun a : ℝ => |id a| * 1 - z * 1) ⁻¹' {0} ⊆ {z, -z} := by
      intro a ha
      have : |a| * 1 - z * 1 = 0 := ha
      have : |a| = z := by linarith
      rcases abs_eq hz.le |>.1 this with h | h
      · left; exact h
      · right; exact h
    have na : NullSingletonClass (gaussianReal 0 1) := nullSingletonClass_gaussianReal one_ne_zero
    exact measure_mono_null hsub (Set.Finite.measure_zero (by simp) _))
  have hG : IsProbabilityMeasure (Measure.map (fun a : ℝ => |id a| * 1 - z * 1) (gaussianReal 0 1)) := Measure.isProbabilityMeasure_map hm.aemeasurable
  have key2 := (ENNReal.tendsto_toReal (measure_ne_top (Measure.map (fun a : ℝ => |id a| * 1 - z * 1) (gaussianReal 0 1)) _)).comp key
  have e1 : ((Measure.map (fun a : ℝ => |id a| * 1 - z * 1) (gaussianReal 0 1)) (Set.Iic 0)).toReal = (gaussianReal 0 1).real (Set.Icc (-z) z) := by
    rw [Measure.map_apply hm measurableSet_Iic, Measure.real]
    congr 2
    ext a
    change |a| * 1 - z * 1 ≤ 0 ↔ a ∈ Set.Icc (-z) z
    rw [Set.mem_Icc, ← abs_le]
    constructor <;> intro h <;> linarith
  have key3 : Tendsto _ atTop (𝓝 ((gaussianReal 0 1).real (Set.Icc (-z) z))) := e1 ▸ key2
  refine key3.congr fun n => ?_
  change ((Measure.map (fun ω => |A n ω| * U n ω - z * V n ω) P) (Set.Iic 0)).toReal = _
  have hAn : AEMeasurable (fun ω => |A n ω| * U n ω - z * V n ω) P := h.forall_aemeasurable n
  rw [Measure.map_apply_of_aemeasurable hAn measurableSet_Iic, Measure.real]
  congr 2
  ext ω
  change |A n ω| * U n ω - z * V n ω ≤ 0 ↔ |A n ω| * U n ω ≤ z * V n ω
  exact sub_nonpos

end
end SeismoStats.Props
