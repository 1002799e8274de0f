/-
The excesses of growing pairs of exponential draws: memorylessness, central limit theorem and strong laws.
-/
import Verif.Proofs.MartClt
import Verif.Proofs.Normal

namespace SeismoStats.Props
open SeismoStats SeismoStats.Simulate MeasureTheory ProbabilityTheory Filter Topology
open Classical
noncomputable section

theorem exp_Ici (x : ℝ) : expMeasure 1 (Set.Ici x) = ENNReal.ofReal (Real.exp (-max x 0)) := by
  rw [← exp_tail (le_max_right x 0)]
  apply measure_congr
  filter_upwards [exp_ae_pos] with y hy
  change (x ≤ y) = (max x 0 ≤ y)
  rw [max_le_iff]
  simp [hy.le]

/-- The exponential law has no memory. -/
theorem exp_memoryless {a : ℝ} (ha : 0 ≤ a) : ((expMeasure 1).restrict (Set.Ici a)).map (fun y => y - a) = ENNReal.ofReal (Real.exp (-a)) • expMeasure 1 := by
  have hP : IsProbabilityMeasure (expMeasure 1) := isProbabilityMeasure_expMeasure one_pos
  have hfin : IsFiniteMeasure (((expMeasure 1).restrict (Set.Ici a)).map (fun y => y - a)) := inferInstance
  refine Measure.ext_of_Ici _ _ fun x => ?_
  have hm : Measurable fun y : ℝ => y - a := by fun_prop
  rw [Measure.map_apply hm measurableSet_Ici, Measure.restrict_apply (hm measurableSet_Ici), Measure.smul_apply, smul_eq_mul, exp_Ici]
  have e : (fun y : ℝ => y - a) ⁻¹' Set.Ici x ∩ Set.Ici a = Set.Ici (max x 0 + a) := by
    ext y
    change (x ≤ y - a ∧ a ≤ y) ↔ max x 0 + a ≤ y
    constructor
    · rintro ⟨h1, h2⟩
      have : max x 0 ≤ y - a := max_le h1 (by linarith)
      linarith
    · intro h
      have h1 := le_max_left x 0
      have h2 := le_max_right x 0
      constructor <;> linarith
  rw [e, exp_tail (add_nonneg (le_max_right _ _) ha), ← ENNReal.ofReal_mul (Real.exp_pos _).le, ← Real.exp_add]
  congr 2
  ring

/-- A function of the excess of a growing pair: the pair grows if its second member is at least `a` of the first one. -/
def excessOf (a F : ℝ → ℝ) (p : ℝ × ℝ) : ℝ := if a p.1 ≤ p.2 then F (p.2 - a p.1) else 0

theorem excessOf_measurable {a F : ℝ → ℝ} (ha : Measurable a) (hF : Measurable F) : Measurable (excessOf a F) := by
  have h1 : Measurable fun p : ℝ × ℝ => a p.1 := ha.comp measurable_fst
  exact Measurable.ite (measurableSet_le h1 measurable_snd) (hF.comp (measurable_snd.sub h1)) measurable_const

/-- Probability that a pair with this first member grows. -/
def growP (a : ℝ → ℝ) (e : ℝ) : ℝ := Real.exp (-max (a e) 0)

/-- Conditional mean of a function of the excess. -/
theorem excess_lintegral {a F : ℝ → ℝ} (hF : Measurable F) {L : ℝ} (hL : ∫⁻ u, ENNReal.ofReal (F u) ∂(expMeasure 1) = ENNReal.ofReal L) {e : ℝ} (he : 0 ≤ a e) :
    ∫⁻ y, ENNReal.ofReal (excessOf a F (e, y)) ∂(expMeasure 1) = ENNReal.ofReal (L * growP a e) := by
  have e1 : (fun y : ℝ => ENNReal.ofReal (excessOf a F (e, y))) = Set.indicator (Set.Ici (a e)) fun y => ENNReal.ofReal (F (y - a e)) := by
    funext y
    unfold excessOf
    by_cases h : a e ≤ y
    · rw [if_pos h, Set.indicator_of_mem (Set.mem_Ici.2 h)]
    · rw [if_neg h, Set.indicator_of_notMem (fun h' => h (Set.mem_Ici.1 h'))]; simp
  rw [e1, lintegral_indicator measurableSet_Ici]
  have e2 : ∫⁻ y in Set.Ici (a e), ENNReal.ofReal (F (y - a e)) ∂(expMeasure 1) = ∫⁻ x, ENNReal.ofReal (F x) ∂(((expMeasure 1).restrict (Set.Ici (a e))).map (fun y => y - a e)) := by
    rw [lintegral_map (by fun_prop) (by fun_prop)]
  rw [e2, exp_memoryless he, lintegral_smul_measure, hL, smul_eq_mul, ← ENNReal.ofReal_mul (Real.exp_pos _).le, mul_comm]
  unfold growP
  rw [max_eq_left he]

/-- Conditional characteristic function. -/
theorem excess_charFun {a F : ℝ → ℝ} (ha : Measurable a) (hF : Measurable F) (s : ℝ) {e : ℝ} (he : 0 ≤ a e) :
    ∫ y, Complex.exp (s * excessOf a F (e, y) * Complex.I) ∂(expMeasure 1) = 1 + (growP a e : ℂ) * (charFun ((expMeasure 1).map F) s - 1) := by
  have hP : IsProbabilityMeasure (expMeasure 1) := isProbabilityMeasure_expMeasure one_pos
  have hq : growP a e = Real.exp (-a e) := by unfold growP; rw [max_eq_left he]
  have hmeas : Measurable fun y : ℝ => Complex.exp (s * excessOf a F (e, y) * Complex.I) :=
    Complex.measurable_exp.comp (((Complex.measurable_ofReal.comp ((excessOf_measurable ha hF).comp (measurable_const.prodMk measurable_id))).const_mul _).mul_const _)
  have hint : Integrable (fun y : ℝ => Complex.exp (s * excessOf a F (e, y) * Complex.I)) (expMeasure 1) := by
    refine Integrable.of_bound (C := 1) hmeas.aestronglyMeasurable (Eventually.of_forall fun y => ?_)
    rw [← Complex.ofReal_mul, norm_exp_I]
  rw [← integral_add_compl (measurableSet_Ici (a := a e)) hint]
  have e1 : ∫ y in Set.Ici (a e), Complex.exp (s * excessOf a F (e, y) * Complex.I) ∂(expMeasure 1) = (Real.exp (-a e) : ℂ) * charFun ((expMeasure 1).map F) s := by
    have h1 : ∫ y in Set.Ici (a e), Complex.exp (s * excessOf a F (e, y) * Complex.I) ∂(expMeasure 1) =
        ∫ y in Set.Ici (a e), Complex.exp (s * (F (y - a e) : ℂ) * Complex.I) ∂(expMeasure 1) := by
      apply setIntegral_congr_fun measurableSet_Ici
      intro y hy
      simp only [excessOf]
      rw [if_pos (Set.mem_Ici.1 hy)]
    have hm2 : Measurable fun x : ℝ => Complex.exp (s * (F x : ℂ) * Complex.I) :=
      Complex.measurable_exp.comp (((Complex.measurable_ofReal.comp hF).const_mul _).mul_const _)
    have h2 : ∫ y in Set.Ici (a e), Complex.exp (s * (F (y - a e) : ℂ) * Complex.I) ∂(expMeasure 1) =
        ∫ x, Complex.exp (s * (F x : ℂ) * Complex.I) ∂(((expMeasure 1).restrict (Set.Ici (a e))).map (fun y => y - a e)) := by
      rw [integral_map (by fun_prop) hm2.aestronglyMeasurable]
    rw [h1, h2, exp_memoryless he, integral_smul_measure, ENNReal.toReal_ofReal (Real.exp_pos _).le, charFun_apply_real, integral_map hF.aemeasurable (by fun_prop)]
    simp
  have e2 : ∫ y in (Set.Ici (a e))ᶜ, Complex.exp (s * excessOf a F (e, y) * Complex.I) ∂(expMeasure 1) = 1 - (Real.exp (-a e) : ℂ) := by
    have h1 : ∫ y in (Set.Ici (a e))ᶜ, Complex.exp (s * excessOf a F (e, y) * Complex.I) ∂(expMeasure 1) = ∫ y in (Set.Ici (a e))ᶜ, (1 : ℂ) ∂(expMeasure 1) := by
      apply setIntegral_congr_fun measurableSet_Ici.compl
      intro y hy
      simp only [excessOf]
      rw [if_neg (fun h => hy (Set.mem_Ici.2 h))]
      simp
    rw [h1, setIntegral_const, measureReal_compl measurableSet_Ici, Measure.real, Measure.real, exp_tail he, ENNReal.toReal_ofReal (Real.exp_pos _).le]
    simp
  rw [e1, e2, hq]
  ring

variable {Ω : Type} [MeasurableSpace Ω] {P : Measure Ω} {g : Ω → Rng}

/-- Central limit theorem for functions of the excesses of growing pairs: `p` is the probability that a pair grows. -/
theorem clt_excess [IsProbabilityMeasure P] (hg : Spec.RandomDraws P g) {a F : ℝ → ℝ} (ha : Measurable a) (ha0 : ∀ e, 0 < e → 0 ≤ a e) (hF : Measurable F)
    (h0 : ∫ u, F u ∂(expMeasure 1) = 0) (h1 : ∫ u, F u ^ 2 ∂(expMeasure 1) = 1) {p : ℝ} (hp : 0 < p)
    (hpq : ∫⁻ e, ENNReal.ofReal (growP a e) ∂(expMeasure 1) = ENNReal.ofReal p) :
    TendstoInDistribution (fun (n : ℕ) ω => (Real.sqrt (n * p))⁻¹ * pairSum (excessOf a F) n (g ω).expo) atTop (id : ℝ → ℝ) (fun _ => P) (gaussianReal 0 1) := by
  have hP : IsProbabilityMeasure (expMeasure 1) := isProbabilityMeasure_expMeasure one_pos
  have hPF : IsProbabilityMeasure ((expMeasure 1).map F) := Measure.isProbabilityMeasure_map hF.aemeasurable
  have hqm : Measurable (growP a) := Real.measurable_exp.comp (ha.max measurable_const).neg
  have hseq : Measurable fun ω => (g ω).expo := measurable_pi_iff.2 hg.expo_measurable
  have hS : ∀ n : ℕ, Measurable fun ω => (Real.sqrt (n * p))⁻¹ * pairSum (excessOf a F) n (g ω).expo := fun n =>
    ((pairSum_measurable (excessOf_measurable ha hF) n).comp hseq).const_mul _
  refine ⟨fun n => (hS n).aemeasurable, aemeasurable_id, ?_⟩
  refine ProbabilityMeasure.tendsto_iff_tendsto_charFun.2 fun t => ?_
  have hq0 : ∀ e, 0 ≤ growP a e := fun e => (Real.exp_pos _).le
  have hq1 : ∀ e, growP a e ≤ 1 := fun e => Real.exp_le_one_iff.2 (by have := le_max_right (a e) 0; linarith)
  have hlln := strong_law_expo hg (growP a) hqm hq0 p hp.le hpq
  have m0 : ∫ x, x ∂((expMeasure 1).map F) = 0 := by rw [integral_map hF.aemeasurable (by fun_prop)]; exact h0
  have m1 : ∫ x, x ^ 2 ∂((expMeasure 1).map F) = 1 := by rw [integral_map hF.aemeasurable (by fun_prop)]; exact h1
  have hsec := charFun_second m0 m1 ((Real.sqrt p)⁻¹ * t)
  have key := charFun_pairs_tendsto (E := fun i ω => (g ω).expo i) hg.expo_measurable hg.expo_indep hg.expo_law (excessOf_measurable ha hF) hqm hq0 hq1
    (ψ := charFun ((expMeasure 1).map F)) (fun s => by filter_upwards [exp_ae_pos] with e he using excess_charFun ha hF s (ha0 e he))
    (s := fun n : ℕ => (Real.sqrt n)⁻¹ * ((Real.sqrt p)⁻¹ * t)) hsec hlln
  have e1 : charFun (Measure.map (id : ℝ → ℝ) (gaussianReal 0 1)) t = Complex.exp (-(((Real.sqrt p)⁻¹ * t : ℝ) : ℂ) ^ 2 / 2 * p) := by
    rw [Measure.map_id, charFun_gaussianReal]
    congr 1
    have : ((Real.sqrt p)⁻¹ * t) ^ 2 * p = t ^ 2 := by
      rw [mul_pow, inv_pow, Real.sq_sqrt hp.le]; field_simp
    have h2 : ((((Real.sqrt p)⁻¹ * t : ℝ)) : ℂ) ^ 2 * p = (t : ℂ) ^ 2 := by exact_mod_cast this
    push_cast at h2 ⊢
    linear_combination (1 / 2 : ℂ) * h2
  change Tendsto (fun n : ℕ => charFun (Measure.map (fun ω => (Real.sqrt (n * p))⁻¹ * pairSum (excessOf a F) n (g ω).expo) P) t) atTop
    (𝓝 (charFun (Measure.map (id : ℝ → ℝ) (gaussianReal 0 1)) t))
  rw [e1]
  refine key.congr fun n => ?_
  rw [charFun_apply_real, integral_map (hS n).aemeasurable (by fun_prop)]
  apply integral_congr_ae
  refine Eventually.of_forall fun ω => ?_
  simp only
  congr 2
  rw [Real.sqrt_mul (Nat.cast_nonneg n), mul_inv]
  push_cast
  ring

/-- Strong laws for functions of the excesses of growing pairs. -/
theorem excess_tendsto [IsProbabilityMeasure P] (hg : Spec.RandomDraws P g) {a : ℝ → ℝ} (ha : Measurable a) (ha0 : ∀ e, 0 < e → 0 ≤ a e) :
    ∃ p, 0 < p ∧ ∫⁻ e, ENNReal.ofReal (growP a e) ∂(expMeasure 1) = ENNReal.ofReal p ∧
      ∀ (F : ℝ → ℝ) (L : ℝ), Measurable F → (∀ u, 0 ≤ F u) → 0 ≤ L → ∫⁻ u, ENNReal.ofReal (F u) ∂(expMeasure 1) = ENNReal.ofReal L →
        ∀ᵐ ω ∂P, Tendsto (fun n : ℕ => pairSum (excessOf a F) n (g ω).expo / n) atTop (𝓝 (L * p)) := by
  have hP : IsProbabilityMeasure (expMeasure 1) := isProbabilityMeasure_expMeasure one_pos
  have hqm : Measurable (growP a) := Real.measurable_exp.comp (ha.max measurable_const).neg
  have hq1 : ∀ e, 0 < e → growP a e ≤ 1 := fun e _ => Real.exp_le_one_iff.2 (by have := le_max_right (a e) 0; linarith)
  have hone : ∫⁻ u, ENNReal.ofReal ((fun _ : ℝ => (1 : ℝ)) u) ∂(expMeasure 1) = ENNReal.ofReal 1 := by simp
  have i1 : ∀ e, 0 < e → ∫⁻ y, ENNReal.ofReal (excessOf a (fun _ => 1) (e, y)) ∂(expMeasure 1) = ENNReal.ofReal (growP a e) := fun e he => by
    rw [excess_lintegral measurable_const hone (ha0 e he), one_mul]
  have m1 : Measurable (excessOf a fun _ => 1) := excessOf_measurable ha measurable_const
  have hr := fun (F : ℝ → ℝ) (L : ℝ) (hF : Measurable F) (hL0 : 0 ≤ L) (hL : ∫⁻ u, ENNReal.ofReal (F u) ∂(expMeasure 1) = ENNReal.ofReal L) =>
    pair_ratio (excessOf a F) (excessOf a fun _ => 1) (excessOf_measurable ha hF) m1 L hL0 (growP a) (fun e => Real.exp_pos _) hqm hq1 i1
      (fun e he => excess_lintegral hF hL (ha0 e he))
  obtain ⟨p, hp, j1, -⟩ := hr _ 1 measurable_const zero_le_one hone
  refine ⟨p, hp, ?_, ?_⟩
  · rw [← j1, lintegral_prod _ (by fun_prop)]
    apply lintegral_congr_ae
    filter_upwards [exp_ae_pos] with e he
    exact (i1 e he).symm
  · intro F L hF hF0 hL0 hL
    obtain ⟨p', hp', j1', j2⟩ := hr F L hF hL0 hL
    have hpp : p' = p := by
      rw [j1] at j1'
      exact ((ENNReal.ofReal_eq_ofReal_iff hp.le hp'.le).1 j1').symm
    rw [hpp] at j2
    refine strong_law_pairs hg _ (excessOf_measurable ha hF) (fun e => ?_) (L * p) (by positivity) j2
    unfold excessOf
    split_ifs
    · exact hF0 _
    · exact le_rfl

end
end SeismoStats.Props
