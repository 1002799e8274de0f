/-
A strong law for the excess of the next larger draw over a draw: every draw is paired with the first later one that reaches its threshold.
-/
import Verif.Proofs.PairClt
import Mathlib.NumberTheory.Harmonic.Bounds
import Mathlib.Analysis.SpecificLimits.FloorPow
import Mathlib.MeasureTheory.Integral.IntegralEqImproper

namespace SeismoStats.Props
open SeismoStats SeismoStats.Simulate MeasureTheory ProbabilityTheory Filter Topology
open Classical
noncomputable section

/-- No draw between `i` and `j` reaches the threshold of `i`. -/
def alive (a : ℝ → ℝ) (v : ℕ → ℝ) (i j : ℕ) : ℝ := if ∀ l, i < l → l < j → v l < a (v i) then 1 else 0

/-- Sum of a function of the excess over all pairs of a draw and the first later one that reaches its threshold, among the first `n` draws. -/
def nextSum (a F : ℝ → ℝ) (n : ℕ) (v : ℕ → ℝ) : ℝ := ∑ j ∈ Finset.range n, ∑ i ∈ Finset.range j, alive a v i j * excessOf a F (v i, v j)

theorem alive_nonneg (a : ℝ → ℝ) (v : ℕ → ℝ) (i j : ℕ) : 0 ≤ alive a v i j := by unfold alive; split_ifs <;> norm_num
theorem alive_le_one (a : ℝ → ℝ) (v : ℕ → ℝ) (i j : ℕ) : alive a v i j ≤ 1 := by unfold alive; split_ifs <;> norm_num
theorem alive_sq (a : ℝ → ℝ) (v : ℕ → ℝ) (i j : ℕ) : alive a v i j ^ 2 = alive a v i j := by unfold alive; split_ifs <;> norm_num

theorem alive_self (a : ℝ → ℝ) (v : ℕ → ℝ) (i : ℕ) : alive a v i (i + 1) = 1 := by
  unfold alive
  rw [if_pos]
  intro l h1 h2
  omega

theorem alive_succ (a : ℝ → ℝ) (v : ℕ → ℝ) {i j : ℕ} (h : i < j) : alive a v i (j + 1) = alive a v i j * if v j < a (v i) then 1 else 0 := by
  unfold alive
  by_cases h1 : ∀ l, i < l → l < j → v l < a (v i)
  · rw [if_pos h1, one_mul]
    by_cases h2 : v j < a (v i)
    · rw [if_pos h2, if_pos]
      intro l hl1 hl2
      rcases Nat.lt_succ_iff_lt_or_eq.1 hl2 with h3 | rfl
      · exact h1 l hl1 h3
      · exact h2
    · rw [if_neg h2, if_neg]
      intro h3
      exact h2 (h3 j h (Nat.lt_succ_self j))
  · rw [if_neg h1, zero_mul, if_neg]
    intro h3
    exact h1 fun l hl1 hl2 => h3 l hl1 (by omega)

theorem alive_congr (a : ℝ → ℝ) {v w : ℕ → ℝ} {i j : ℕ} (hij : i < j) (h : ∀ l < j, v l = w l) : alive a v i j = alive a w i j := by
  unfold alive
  have : (∀ l, i < l → l < j → v l < a (v i)) ↔ ∀ l, i < l → l < j → w l < a (w i) := by
    constructor
    · intro H l h1 h2
      have := H l h1 h2
      rwa [h l h2, h i hij] at this
    · intro H l h1 h2
      have := H l h1 h2
      rwa [← h l h2, ← h i hij] at this
  simp only [this]

theorem alive_measurable {a : ℝ → ℝ} (ha : Measurable a) (i j : ℕ) : Measurable fun v : ℕ → ℝ => alive a v i j := by
  unfold alive
  refine Measurable.ite ?_ measurable_const measurable_const
  have : {v : ℕ → ℝ | ∀ l, i < l → l < j → v l < a (v i)} = ⋂ l, ⋂ (_ : i < l), ⋂ (_ : l < j), {v | v l < a (v i)} := by
    ext v; simp
  rw [this]
  exact MeasurableSet.iInter fun l => MeasurableSet.iInter fun _ => MeasurableSet.iInter fun _ => measurableSet_lt (measurable_pi_apply l) (ha.comp (measurable_pi_apply i))

theorem nextSum_measurable {a F : ℝ → ℝ} (ha : Measurable a) (hF : Measurable F) (n : ℕ) : Measurable (nextSum a F n) := by
  unfold nextSum
  refine Finset.measurable_sum _ fun j _ => Finset.measurable_sum _ fun i _ => ?_
  exact (alive_measurable ha i j).mul ((excessOf_measurable ha hF).comp ((measurable_pi_apply i).prodMk (measurable_pi_apply j)))

theorem nextSum_congr (a F : ℝ → ℝ) (n : ℕ) {v w : ℕ → ℝ} (h : ∀ l < n, v l = w l) : nextSum a F n v = nextSum a F n w := by
  unfold nextSum
  refine Finset.sum_congr rfl fun j hj => Finset.sum_congr rfl fun i hi => ?_
  have h1 := Finset.mem_range.1 hj
  have h2 := Finset.mem_range.1 hi
  rw [alive_congr a h2 (fun l hl => h l (by omega)), h i (by omega), h j h1]

section Fubini
variable {Ω : Type} [MeasurableSpace Ω] {P : Measure Ω} [IsProbabilityMeasure P] {E : ℕ → Ω → ℝ} {μ : Measure ℝ} [IsProbabilityMeasure μ]

omit [IsProbabilityMeasure μ] in
/-- The past and the next draw are independent. -/
theorem past_next (hm : ∀ i, Measurable (E i)) (hi : iIndepFun E P) (hl : ∀ i, P.map (E i) = μ) (n : ℕ) :
    ∃ p : Ω → ℕ → ℝ, Measurable p ∧ (∀ ω, ∀ j < n, p ω j = E j ω) ∧ P.map (fun ω => (p ω, E n ω)) = (P.map p).prod μ := by
  set S := Finset.range n with hS
  have hdis : Disjoint S {n} := by rw [Finset.disjoint_singleton_right, hS]; simp
  have hind := hi.indepFun_finset S {n} hdis hm
  have htm : Measurable fun ω (i : S) => E i ω := measurable_pi_iff.2 fun i => hm i
  have hind2 : IndepFun (fun ω => extend fun i : S => E i ω) (E n) P :=
    hind.comp (φ := extend) (ψ := fun w : (({n} : Finset ℕ) → ℝ) => w ⟨n, by simp⟩) extend_measurable (measurable_pi_apply _)
  have hpm : Measurable fun ω => extend fun i : S => E i ω := extend_measurable.comp htm
  refine ⟨_, hpm, ?_, ?_⟩
  · intro ω j hj
    unfold extend
    rw [dif_pos (by rw [hS]; simpa using hj)]
  · have hlaw := hind2.map_prod_eq_prod_map_map hpm.aemeasurable (hm n).aemeasurable
    rw [hl n] at hlaw
    exact hlaw

theorem fubini_lintegral (hm : ∀ i, Measurable (E i)) (hi : iIndepFun E P) (hl : ∀ i, P.map (E i) = μ) (n : ℕ) {G : (ℕ → ℝ) × ℝ → ENNReal} (hG : Measurable G)
    (hc : ∀ v w y, (∀ j < n, v j = w j) → G (v, y) = G (w, y)) :
    ∫⁻ ω, G (fun j => E j ω, E n ω) ∂P = ∫⁻ ω, ∫⁻ y, G (fun j => E j ω, y) ∂μ ∂P := by
  obtain ⟨p, hp, hpe, hlaw⟩ := past_next hm hi hl n
  have e1 : ∫⁻ ω, G (fun j => E j ω, E n ω) ∂P = ∫⁻ ω, G (p ω, E n ω) ∂P :=
    lintegral_congr fun ω => hc _ _ _ fun j hj => (hpe ω j hj).symm
  have e2 : ∫⁻ ω, ∫⁻ y, G (fun j => E j ω, y) ∂μ ∂P = ∫⁻ ω, ∫⁻ y, G (p ω, y) ∂μ ∂P :=
    lintegral_congr fun ω => lintegral_congr fun y => hc _ _ _ fun j hj => (hpe ω j hj).symm
  rw [e1, e2, ← lintegral_map hG (hp.prodMk (hm n)), hlaw, lintegral_prod _ hG.aemeasurable, lintegral_map hG.lintegral_prod_right' hp]

theorem fubini_zero (hm : ∀ i, Measurable (E i)) (hi : iIndepFun E P) (hl : ∀ i, P.map (E i) = μ) (n : ℕ) {G : (ℕ → ℝ) × ℝ → ℝ} (hG : Measurable G)
    (hc : ∀ v w y, (∀ j < n, v j = w j) → G (v, y) = G (w, y)) (hint : Integrable (fun ω => G (fun j => E j ω, E n ω)) P)
    (h0 : ∀ᵐ ω ∂P, ∫ y, G (fun j => E j ω, y) ∂μ = 0) : ∫ ω, G (fun j => E j ω, E n ω) ∂P = 0 := by
  obtain ⟨p, hp, hpe, hlaw⟩ := past_next hm hi hl n
  have e0 : (fun ω => G (fun j => E j ω, E n ω)) = fun ω => G (p ω, E n ω) := by
    funext ω; exact hc _ _ _ fun j hj => (hpe ω j hj).symm
  have hpn : Measurable fun ω => (p ω, E n ω) := hp.prodMk (hm n)
  have hint2 : Integrable G ((P.map p).prod μ) := by
    rw [← hlaw]
    rw [e0] at hint
    exact (integrable_map_measure hG.aestronglyMeasurable hpn.aemeasurable).2 hint
  rw [e0, ← integral_map (φ := fun ω => (p ω, E n ω)) hpn.aemeasurable hG.aestronglyMeasurable, hlaw, integral_prod _ hint2]
  have hpP : IsProbabilityMeasure (P.map p) := Measure.isProbabilityMeasure_map hp.aemeasurable
  have hsm : StronglyMeasurable fun v : ℕ → ℝ => ∫ y, G (v, y) ∂μ := hG.stronglyMeasurable.integral_prod_right'
  rw [integral_map hp.aemeasurable hsm.aestronglyMeasurable]
  have : (fun ω => ∫ y, G (p ω, y) ∂μ) =ᵐ[P] fun _ => 0 := by
    filter_upwards [h0] with ω h
    rw [← h]
    exact integral_congr_ae (Eventually.of_forall fun y => hc _ _ _ fun j hj => hpe ω j hj)
  rw [integral_congr_ae this, integral_zero]

end Fubini

variable {Ω : Type} [MeasurableSpace Ω] {P : Measure Ω} {g : Ω → Rng}

theorem growP_pos (a : ℝ → ℝ) (e : ℝ) : 0 < growP a e := Real.exp_pos _
theorem growP_le_one (a : ℝ → ℝ) (e : ℝ) : growP a e ≤ 1 := Real.exp_le_one_iff.2 (by have := le_max_right (a e) 0; linarith)
theorem growP_measurable {a : ℝ → ℝ} (ha : Measurable a) : Measurable (growP a) := Real.measurable_exp.comp (ha.max measurable_const).neg

/-- Probability that a draw does not reach the threshold. -/
theorem below_lintegral (a : ℝ → ℝ) (e : ℝ) : ∫⁻ y, ENNReal.ofReal (if y < a e then 1 else 0) ∂(expMeasure 1) = ENNReal.ofReal (1 - growP a e) := by
  have hP : IsProbabilityMeasure (expMeasure 1) := isProbabilityMeasure_expMeasure one_pos
  have e1 : (fun y : ℝ => ENNReal.ofReal (if y < a e then 1 else 0)) = Set.indicator (Set.Iio (a e)) 1 := by
    funext y
    by_cases h : y < a e
    · rw [if_pos h, Set.indicator_of_mem (Set.mem_Iio.2 h)]; simp
    · rw [if_neg h, Set.indicator_of_notMem (fun h' => h (Set.mem_Iio.1 h'))]; simp
  rw [e1, lintegral_indicator_one measurableSet_Iio]
  have : Set.Iio (a e) = (Set.Ici (a e))ᶜ := by ext y; simp
  rw [this, prob_compl_eq_one_sub measurableSet_Ici, exp_Ici, ENNReal.ofReal_sub _ (growP_pos a e).le, ENNReal.ofReal_one]
  rfl

/-- Probability that `k` draws after one do not reach its threshold. -/
theorem alive_lintegral [IsProbabilityMeasure P] (hg : Spec.RandomDraws P g) {a : ℝ → ℝ} (ha : Measurable a) (i k : ℕ) (f : ℝ → ENNReal) (hf : Measurable f) :
    ∫⁻ ω, f ((g ω).expo i) * ENNReal.ofReal (alive a (g ω).expo i (i + 1 + k)) ∂P = ∫⁻ e, f e * ENNReal.ofReal ((1 - growP a e) ^ k) ∂(expMeasure 1) := by
  have hP : IsProbabilityMeasure (expMeasure 1) := isProbabilityMeasure_expMeasure one_pos
  induction k generalizing f with
  | zero =>
    simp only [add_zero, alive_self, pow_zero, ENNReal.ofReal_one, mul_one]
    rw [← hg.expo_law i, lintegral_map hf (hg.expo_measurable i)]
  | succ k ih =>
    have h1 : ∀ v : ℕ → ℝ, alive a v i (i + 1 + (k + 1)) = alive a v i (i + 1 + k) * if v (i + 1 + k) < a (v i) then 1 else 0 :=
      fun v => alive_succ a v (i := i) (j := i + 1 + k) (by omega)
    have hGm : Measurable fun q : (ℕ → ℝ) × ℝ => f (q.1 i) * ENNReal.ofReal (alive a q.1 i (i + 1 + k)) * ENNReal.ofReal (if q.2 < a (q.1 i) then 1 else 0) := by
      refine ((hf.comp ((measurable_pi_apply i).comp measurable_fst)).mul (((alive_measurable ha i _).comp measurable_fst).ennreal_ofReal)).mul ?_
      exact (Measurable.ite (measurableSet_lt measurable_snd (ha.comp ((measurable_pi_apply i).comp measurable_fst))) measurable_const measurable_const).ennreal_ofReal
    have key := fubini_lintegral hg.expo_measurable hg.expo_indep hg.expo_law (i + 1 + k) hGm (by
      intro v w y h
      have e0 : v i = w i := h i (by omega)
      simp only [alive_congr a (i := i) (j := i + 1 + k) (by omega) h, e0])
    simp only at key
    have e1 : ∀ ω, f ((g ω).expo i) * ENNReal.ofReal (alive a (g ω).expo i (i + 1 + (k + 1))) =
        f ((g ω).expo i) * ENNReal.ofReal (alive a (g ω).expo i (i + 1 + k)) * ENNReal.ofReal (if (g ω).expo (i + 1 + k) < a ((g ω).expo i) then 1 else 0) := by
      intro ω
      rw [h1, ENNReal.ofReal_mul (alive_nonneg _ _ _ _), mul_assoc]
    rw [lintegral_congr e1]
    refine key.trans ?_
    have e2 : ∀ ω, ∫⁻ y, f ((g ω).expo i) * ENNReal.ofReal (alive a (g ω).expo i (i + 1 + k)) * ENNReal.ofReal (if y < a ((g ω).expo i) then 1 else 0) ∂(expMeasure 1) =
        (fun e => f e * ENNReal.ofReal (1 - growP a e)) ((g ω).expo i) * ENNReal.ofReal (alive a (g ω).expo i (i + 1 + k)) := by
      intro ω
      rw [lintegral_const_mul _ ((Measurable.ite measurableSet_Iio measurable_const measurable_const).ennreal_ofReal), below_lintegral]
      ring
    have hfm : Measurable fun e => f e * ENNReal.ofReal (1 - growP a e) := hf.mul ((growP_measurable ha).const_sub 1).ennreal_ofReal
    rw [lintegral_congr e2, ih _ hfm]
    apply lintegral_congr
    intro e
    have := growP_le_one a e
    rw [pow_succ, ENNReal.ofReal_mul (pow_nonneg (by linarith) k)]
    ring

/-- Second moment of one term. -/
theorem term_lintegral [IsProbabilityMeasure P] (hg : Spec.RandomDraws P g) {a F : ℝ → ℝ} (ha : Measurable a) (ha0 : ∀ e, 0 < e → 0 ≤ a e) (hF : Measurable F) {L : ℝ} (hL0 : 0 ≤ L)
    (hL : ∫⁻ u, ENNReal.ofReal (F u) ∂(expMeasure 1) = ENNReal.ofReal L) (i k : ℕ) :
    ∫⁻ ω, ENNReal.ofReal (alive a (g ω).expo i (i + 1 + k) * excessOf a F ((g ω).expo i, (g ω).expo (i + 1 + k))) ∂P =
      ENNReal.ofReal L * ∫⁻ e, ENNReal.ofReal (growP a e * (1 - growP a e) ^ k) ∂(expMeasure 1) := by
  have hP : IsProbabilityMeasure (expMeasure 1) := isProbabilityMeasure_expMeasure one_pos
  have hGm : Measurable fun q : (ℕ → ℝ) × ℝ => ENNReal.ofReal (alive a q.1 i (i + 1 + k) * excessOf a F (q.1 i, q.2)) := by
    refine Measurable.ennreal_ofReal (((alive_measurable ha i _).comp measurable_fst).mul ?_)
    exact (excessOf_measurable ha hF).comp (((measurable_pi_apply i).comp measurable_fst).prodMk measurable_snd)
  have key := fubini_lintegral hg.expo_measurable hg.expo_indep hg.expo_law (i + 1 + k) hGm (by
    intro v w y h
    simp only
    rw [alive_congr a (by omega) h, h i (by omega)])
  simp only at key
  refine key.trans ?_
  have e2 : ∀ᵐ ω ∂P, ∫⁻ y, ENNReal.ofReal (alive a (fun j => (g ω).expo j) i (i + 1 + k) * excessOf a F ((g ω).expo i, y)) ∂(expMeasure 1) =
      (fun e => ENNReal.ofReal (L * growP a e)) ((g ω).expo i) * ENNReal.ofReal (alive a (g ω).expo i (i + 1 + k)) := by
    filter_upwards [expo_pos hg i] with ω hω
    simp only [ENNReal.ofReal_mul (alive_nonneg _ _ _ _)]
    have hxm : Measurable fun y : ℝ => ENNReal.ofReal (excessOf a F ((g ω).expo i, y)) :=
      ((excessOf_measurable ha hF).comp (measurable_const.prodMk measurable_id)).ennreal_ofReal
    rw [lintegral_const_mul _ hxm, excess_lintegral hF hL (ha0 _ hω), mul_comm]
  rw [lintegral_congr_ae e2, alive_lintegral hg ha i k _ ((growP_measurable ha).const_mul L).ennreal_ofReal, ← lintegral_const_mul]
  · apply lintegral_congr
    intro e
    have := growP_le_one a e
    rw [ENNReal.ofReal_mul hL0, ENNReal.ofReal_mul (growP_pos a e).le, mul_assoc]
  · exact ((growP_measurable ha).mul ((measurable_const.sub (growP_measurable ha)).pow_const k)).ennreal_ofReal

/-- The integral behind the bounds: `∫ (1 - q e^{-x})^k e^{-x} dx ≤ 1 / (q (k + 1))`. -/
theorem power_lintegral {q : ℝ} (hq : 0 < q) (hq1 : q ≤ 1) (k : ℕ) : ∫⁻ e, ENNReal.ofReal ((1 - q * Real.exp (-e)) ^ k) ∂(expMeasure 1) ≤ ENNReal.ofReal (1 / q / (k + 1)) := by
  set G : ℝ → ℝ := fun e => (1 - q * Real.exp (-e)) ^ (k + 1) / (q * (k + 1)) with hG
  set D : ℝ → ℝ := fun e => (1 - q * Real.exp (-e)) ^ k * Real.exp (-e) with hD
  have hk : (0 : ℝ) < k + 1 := by positivity
  have hder : ∀ x ∈ Set.Ici (0 : ℝ), HasDerivAt G (D x) x := by
    intro x _
    have h1 : HasDerivAt (fun e : ℝ => Real.exp (-e)) (-Real.exp (-x)) x := by
      have := (hasDerivAt_neg x).exp
      simpa using this
    have h2 : HasDerivAt (fun e : ℝ => 1 - q * Real.exp (-e)) (q * Real.exp (-x)) x :=
      ((h1.const_mul q).const_sub 1).congr_deriv (by ring)
    refine ((h2.pow (k + 1)).div_const (q * (k + 1))).congr_deriv ?_
    rw [hD]
    push_cast
    have := hq.ne'; have := hk.ne'
    field_simp
  have hbase : ∀ x : ℝ, 0 ≤ x → 0 ≤ 1 - q * Real.exp (-x) := by
    intro x hx
    have h1 : Real.exp (-x) ≤ 1 := Real.exp_le_one_iff.2 (by linarith)
    nlinarith [Real.exp_pos (-x)]
  have hpos : ∀ x ∈ Set.Ioi (0 : ℝ), 0 ≤ D x := fun x hx => mul_nonneg (pow_nonneg (hbase x (le_of_lt hx)) k) (Real.exp_pos _).le
  have hlim : Tendsto G atTop (𝓝 (1 / (q * (k + 1)))) := by
    have h1 : Tendsto (fun e : ℝ => Real.exp (-e)) atTop (𝓝 0) := Real.tendsto_exp_neg_atTop_nhds_zero
    have h2 := (((h1.const_mul q).const_sub 1).pow (k + 1)).div_const (q * (k + 1))
    simpa using h2
  have hint := integrableOn_Ioi_deriv_of_nonneg' hder hpos hlim
  have hval := integral_Ioi_of_hasDerivAt_of_nonneg' hder hpos hlim
  have e1 : ∫⁻ e, ENNReal.ofReal ((1 - q * Real.exp (-e)) ^ k) ∂(expMeasure 1) = ∫⁻ e in Set.Ioi 0, ENNReal.ofReal (D e) := by
    have hm : Measurable fun e : ℝ => ENNReal.ofReal ((1 - q * Real.exp (-e)) ^ k) := by fun_prop
    have hpm : Measurable (gammaPDF 1 1) := (measurable_gammaPDFReal 1 1).ennreal_ofReal
    unfold expMeasure gammaMeasure
    rw [lintegral_withDensity_eq_lintegral_mul _ hpm hm, ← lintegral_indicator measurableSet_Ioi]
    apply lintegral_congr_ae
    have h0 : ∀ᵐ x : ℝ, x ≠ 0 := by
      rw [ae_iff]
      simp
    filter_upwards [h0] with x hx
    simp only [Pi.mul_apply]
    have hpdf : gammaPDF 1 1 x = exponentialPDF 1 x := rfl
    rw [hpdf]
    rcases lt_or_gt_of_ne hx with h | h
    · rw [exponentialPDF_of_neg h, zero_mul, Set.indicator_of_notMem (by simp [h.le])]
    · rw [exponentialPDF_of_nonneg h.le, Set.indicator_of_mem (Set.mem_Ioi.2 h), ← ENNReal.ofReal_mul (by positivity)]
      congr 1
      rw [hD]
      simp only [one_mul]
      ring
  rw [e1, ← ofReal_integral_eq_lintegral_ofReal hint (by filter_upwards [ae_restrict_mem measurableSet_Ioi] with x hx using hpos x hx), hval]
  apply ENNReal.ofReal_le_ofReal
  have hG0 : 0 ≤ G 0 := div_nonneg (pow_nonneg (hbase 0 le_rfl) _) (by positivity)
  rw [div_div]
  linarith

/-- Bounds for the probabilities to wait. -/
theorem wait_lintegral {a : ℝ → ℝ} {K : ℝ} (hK : 0 ≤ K) (haK : ∀ e, 0 < e → a e ≤ e + K) (k : ℕ) :
    ∫⁻ e, ENNReal.ofReal ((1 - growP a e) ^ k) ∂(expMeasure 1) ≤ ENNReal.ofReal (Real.exp K / (k + 1)) := by
  have h := power_lintegral (Real.exp_pos (-K)) (Real.exp_le_one_iff.2 (by linarith)) k
  have e1 : 1 / Real.exp (-K) = Real.exp K := by rw [Real.exp_neg]; simp
  rw [e1] at h
  refine le_trans (lintegral_mono_ae ?_) h
  filter_upwards [exp_ae_pos] with e he
  apply ENNReal.ofReal_le_ofReal
  apply pow_le_pow_left₀ (by have := growP_le_one a e; linarith)
  have : Real.exp (-K) * Real.exp (-e) ≤ growP a e := by
    rw [← Real.exp_add]
    unfold growP
    apply Real.exp_le_exp.2
    have := max_le (haK e he) (by linarith : (0 : ℝ) ≤ e + K)
    linarith
  linarith

theorem mul_pow_le {t : ℝ} (h0 : 0 ≤ t) (h1 : t ≤ 1) (m : ℕ) : t * (1 - t) ^ m ≤ 1 / (m + 1) := by
  have h2 : (0 : ℝ) < m + 1 := by positivity
  rw [le_div_iff₀ h2]
  have h3 : ∀ j ∈ Finset.range (m + 1), t * (1 - t) ^ m ≤ t * (1 - t) ^ j := by
    intro j hj
    apply mul_le_mul_of_nonneg_left _ h0
    exact pow_le_pow_of_le_one (by linarith) (by linarith) (by have := Finset.mem_range.1 hj; omega)
  have h4 := Finset.sum_le_sum h3
  rw [Finset.sum_const, Finset.card_range, nsmul_eq_mul, ← Finset.mul_sum] at h4
  have h5 := mul_neg_geom_sum (1 - t) (m + 1)
  rw [sub_sub_cancel] at h5
  rw [h5] at h4
  have h6 : 0 ≤ (1 - t) ^ (m + 1) := pow_nonneg (by linarith) _
  push_cast at h4
  linarith

theorem hit_lintegral {a : ℝ → ℝ} (ha : Measurable a) {K : ℝ} (hK : 0 ≤ K) (haK : ∀ e, 0 < e → a e ≤ e + K) (k : ℕ) :
    ∫⁻ e, ENNReal.ofReal (growP a e * (1 - growP a e) ^ k) ∂(expMeasure 1) ≤ ENNReal.ofReal (4 * Real.exp K / (k + 1) ^ 2) := by
  obtain ⟨m, r, hmr, hm, hr⟩ : ∃ m r : ℕ, k = m + r ∧ k + 1 ≤ 2 * (m + 1) ∧ k + 1 ≤ 2 * (r + 1) := ⟨k / 2, k - k / 2, by omega, by omega, by omega⟩
  have hw := wait_lintegral hK haK r
  have h1 : ∀ e, ENNReal.ofReal (growP a e * (1 - growP a e) ^ k) ≤ ENNReal.ofReal (1 / (m + 1)) * ENNReal.ofReal ((1 - growP a e) ^ r) := by
    intro e
    rw [← ENNReal.ofReal_mul (by positivity)]
    apply ENNReal.ofReal_le_ofReal
    rw [hmr, pow_add, ← mul_assoc]
    exact mul_le_mul_of_nonneg_right (mul_pow_le (growP_pos a e).le (growP_le_one a e) m) (pow_nonneg (by have := growP_le_one a e; linarith) r)
  refine (lintegral_mono h1).trans ?_
  rw [lintegral_const_mul _ (((growP_measurable ha).const_sub 1).pow_const r).ennreal_ofReal]
  refine (mul_le_mul_right hw _).trans ?_
  rw [← ENNReal.ofReal_mul (by positivity)]
  apply ENNReal.ofReal_le_ofReal
  have hm' : ((k : ℝ) + 1) ≤ 2 * (m + 1) := by exact_mod_cast hm
  have hr' : ((k : ℝ) + 1) ≤ 2 * (r + 1) := by exact_mod_cast hr
  have hk0 : (0 : ℝ) < k + 1 := by positivity
  rw [div_mul_div_comm, one_mul, div_le_div_iff₀ (by positivity) (by positivity)]
  have : ((k : ℝ) + 1) ^ 2 ≤ 4 * ((m + 1) * (r + 1)) := by nlinarith [mul_le_mul hm' hr' hk0.le (by positivity)]
  nlinarith [mul_le_mul_of_nonneg_left this (Real.exp_pos K).le]

theorem excess_mean_zero {a F : ℝ → ℝ} (hF : Measurable F) (h0 : ∫ u, F u ∂(expMeasure 1) = 0) {e : ℝ} (he : 0 ≤ a e) : ∫ y, excessOf a F (e, y) ∂(expMeasure 1) = 0 := by
  have e1 : (fun y : ℝ => excessOf a F (e, y)) = Set.indicator (Set.Ici (a e)) fun y => F (y - a e) := by
    funext y
    unfold excessOf
    by_cases h : a e ≤ y
    · rw [if_pos h, Set.indicator_of_mem (Set.mem_Ici.2 h)]
    · rw [if_neg h, Set.indicator_of_notMem (fun h' => h (Set.mem_Ici.1 h'))]
  have hm : Measurable fun y : ℝ => y - a e := by fun_prop
  rw [e1, integral_indicator measurableSet_Ici, ← integral_map (φ := fun y : ℝ => y - a e) hm.aemeasurable hF.aestronglyMeasurable, exp_memoryless he, integral_smul_measure, h0, smul_zero]

theorem excess_sq (a F : ℝ → ℝ) (q : ℝ × ℝ) : excessOf a F q ^ 2 = excessOf a (fun u => F u ^ 2) q := by
  unfold excessOf; split_ifs <;> simp

/-- The sum of the first `n` reciprocals. -/
def harm (n : ℕ) : ℝ := ∑ i ∈ Finset.range n, 1 / ((i : ℝ) + 1)

theorem harm_reflect (n : ℕ) : harm n = ∑ i ∈ Finset.range n, 1 / ((n : ℝ) - i) := by
  unfold harm
  rw [← Finset.sum_range_reflect]
  apply Finset.sum_congr rfl
  intro i hi
  have := Finset.mem_range.1 hi
  congr 1
  have h1 : ((n - 1 - i : ℕ) : ℝ) = (n : ℝ) - 1 - i := by
    rw [Nat.cast_sub (by omega), Nat.cast_sub (by omega)]; simp
  rw [h1]; ring

theorem harm_mono {m n : ℕ} (h : m ≤ n) : harm m ≤ harm n :=
  Finset.sum_le_sum_of_subset_of_nonneg (Finset.range_mono h) fun i _ _ => by positivity

theorem harm_nonneg (n : ℕ) : 0 ≤ harm n := Finset.sum_nonneg fun i _ => by positivity

theorem harm_pow (m : ℕ) : harm ((m + 1) ^ 4) ≤ 4 * (m + 1) := by
  have h := harmonic_le_one_add_log ((m + 1) ^ 4)
  have e : ((harmonic ((m + 1) ^ 4) : ℚ) : ℝ) = harm ((m + 1) ^ 4) := by
    unfold harmonic harm
    push_cast
    apply Finset.sum_congr rfl
    intro i _
    rw [one_div]
  rw [e] at h
  have h2 : Real.log (((m + 1) ^ 4 : ℕ) : ℝ) = 4 * Real.log (m + 1) := by
    push_cast
    rw [Real.log_pow]; norm_num
  rw [h2] at h
  have h3 : Real.log ((m : ℝ) + 1) ≤ m + 1 - 1 := Real.log_le_sub_one_of_pos (by positivity)
  linarith

/-- The pairs with second member `n`. -/
def step (a F : ℝ → ℝ) (n : ℕ) (v : ℕ → ℝ) : ℝ := ∑ i ∈ Finset.range n, alive a v i n * excessOf a F (v i, v n)

theorem nextSum_succ (a F : ℝ → ℝ) (n : ℕ) (v : ℕ → ℝ) : nextSum a F (n + 1) v = nextSum a F n v + step a F n v := by
  unfold nextSum step
  rw [Finset.sum_range_succ]

section Variance
variable [IsProbabilityMeasure P] (hg : Spec.RandomDraws P g) {a F : ℝ → ℝ} (ha : Measurable a) (ha0 : ∀ e, 0 < e → 0 ≤ a e) {K : ℝ} (hK : 0 ≤ K) (haK : ∀ e, 0 < e → a e ≤ e + K)
  (hF : Measurable F) {L : ℝ} (hL0 : 0 ≤ L) (hL : ∫⁻ u, ENNReal.ofReal (F u ^ 2) ∂(expMeasure 1) = ENNReal.ofReal L)
include hg ha ha0 hK haK hF hL0 hL

theorem term_memLp {i n : ℕ} (hin : i < n) :
    MemLp (fun ω => alive a (g ω).expo i n * excessOf a F ((g ω).expo i, (g ω).expo n)) 2 P ∧
      ∫ ω, (alive a (g ω).expo i n * excessOf a F ((g ω).expo i, (g ω).expo n)) ^ 2 ∂P ≤ 4 * Real.exp K * L / ((n : ℝ) - i) ^ 2 := by
  obtain ⟨k, rfl⟩ : ∃ k, n = i + 1 + k := ⟨n - i - 1, by omega⟩
  have hE : Measurable fun ω => (g ω).expo := measurable_pi_iff.2 hg.expo_measurable
  have hm : Measurable fun ω => alive a (g ω).expo i (i + 1 + k) * excessOf a F ((g ω).expo i, (g ω).expo (i + 1 + k)) :=
    ((alive_measurable ha i _).comp hE).mul ((excessOf_measurable ha hF).comp ((hg.expo_measurable i).prodMk (hg.expo_measurable _)))
  have h1 := term_lintegral hg ha ha0 (hF.pow_const 2) hL0 hL i k
  have hsq : ∀ ω, (alive a (g ω).expo i (i + 1 + k) * excessOf a F ((g ω).expo i, (g ω).expo (i + 1 + k))) ^ 2 =
      alive a (g ω).expo i (i + 1 + k) * excessOf a (fun u => F u ^ 2) ((g ω).expo i, (g ω).expo (i + 1 + k)) := by
    intro ω
    rw [mul_pow, alive_sq, excess_sq]
  have h2 : ∫⁻ ω, ENNReal.ofReal ((alive a (g ω).expo i (i + 1 + k) * excessOf a F ((g ω).expo i, (g ω).expo (i + 1 + k))) ^ 2) ∂P ≤
      ENNReal.ofReal (4 * Real.exp K * L / (((i + 1 + k : ℕ) : ℝ) - i) ^ 2) := by
    simp only [hsq]
    rw [h1]
    refine (mul_le_mul_right (hit_lintegral ha hK haK k) _).trans ?_
    rw [← ENNReal.ofReal_mul hL0]
    apply ENNReal.ofReal_le_ofReal
    apply le_of_eq
    push_cast
    rw [show (i : ℝ) + 1 + k - i = k + 1 by ring]
    ring
  have hint : Integrable (fun ω => (alive a (g ω).expo i (i + 1 + k) * excessOf a F ((g ω).expo i, (g ω).expo (i + 1 + k))) ^ 2) P := by
    refine ⟨(hm.pow_const 2).aestronglyMeasurable, ?_⟩
    rw [hasFiniteIntegral_iff_ofReal (Eventually.of_forall fun ω => sq_nonneg _)]
    exact lt_of_le_of_lt h2 ENNReal.ofReal_lt_top
  refine ⟨(memLp_two_iff_integrable_sq hm.aestronglyMeasurable).2 hint, ?_⟩
  rw [integral_eq_lintegral_of_nonneg_ae (Eventually.of_forall fun ω => sq_nonneg _) (hm.pow_const 2).aestronglyMeasurable]
  apply ENNReal.toReal_le_of_le_ofReal _ h2
  positivity

theorem step_memLp (n : ℕ) : MemLp (fun ω => step a F n (g ω).expo) 2 P ∧ ∫ ω, step a F n (g ω).expo ^ 2 ∂P ≤ 4 * Real.exp K * L * harm n ^ 2 := by
  have hY := fun i (hi : i ∈ Finset.range n) => term_memLp hg ha ha0 hK haK hF hL0 hL (Finset.mem_range.1 hi)
  constructor
  · unfold step
    exact memLp_finsetSum _ fun i hi => (hY i hi).1
  · have hw : ∀ i ∈ Finset.range n, (0 : ℝ) < n - i := by
      intro i hi
      have : (i : ℝ) < n := by exact_mod_cast Finset.mem_range.1 hi
      linarith
    have hpt : ∀ ω, step a F n (g ω).expo ^ 2 ≤ harm n * ∑ i ∈ Finset.range n, ((n : ℝ) - i) * (alive a (g ω).expo i n * excessOf a F ((g ω).expo i, (g ω).expo n)) ^ 2 := by
      intro ω
      unfold step
      rw [harm_reflect]
      apply Finset.sum_sq_le_sum_mul_sum_of_sq_le_mul
      · intro i hi; have := hw i hi; positivity
      · intro i hi; have := hw i hi; positivity
      · intro i hi
        have := (hw i hi).ne'
        exact le_of_eq (by field_simp)
    have hi1 : ∀ i ∈ Finset.range n, Integrable (fun ω => ((n : ℝ) - i) * (alive a (g ω).expo i n * excessOf a F ((g ω).expo i, (g ω).expo n)) ^ 2) P :=
      fun i hi => (hY i hi).1.integrable_sq.const_mul _
    have hi2 : Integrable (fun ω => harm n * ∑ i ∈ Finset.range n, ((n : ℝ) - i) * (alive a (g ω).expo i n * excessOf a F ((g ω).expo i, (g ω).expo n)) ^ 2) P :=
      (integrable_finsetSum _ hi1).const_mul _
    refine (integral_mono_of_nonneg (Eventually.of_forall fun ω => sq_nonneg _) hi2 (Eventually.of_forall hpt)).trans ?_
    rw [integral_const_mul, integral_finsetSum _ hi1]
    have hsum : ∑ i ∈ Finset.range n, ∫ ω, ((n : ℝ) - i) * (alive a (g ω).expo i n * excessOf a F ((g ω).expo i, (g ω).expo n)) ^ 2 ∂P ≤
        ∑ i ∈ Finset.range n, 4 * Real.exp K * L * (1 / ((n : ℝ) - i)) := by
      apply Finset.sum_le_sum
      intro i hi
      rw [integral_const_mul]
      refine (mul_le_mul_of_nonneg_left (hY i hi).2 (hw i hi).le).trans (le_of_eq ?_)
      have := (hw i hi).ne'
      field_simp
    rw [← Finset.mul_sum, ← harm_reflect] at hsum
    calc harm n * _ ≤ harm n * (4 * Real.exp K * L * harm n) := mul_le_mul_of_nonneg_left hsum (harm_nonneg n)
      _ = _ := by ring

theorem nextSum_memLp (h0 : ∫ u, F u ∂(expMeasure 1) = 0) (n : ℕ) :
    MemLp (fun ω => nextSum a F n (g ω).expo) 2 P ∧ ∫ ω, nextSum a F n (g ω).expo ^ 2 ∂P ≤ 4 * Real.exp K * L * n * harm n ^ 2 := by
  have hP : IsProbabilityMeasure (expMeasure 1) := isProbabilityMeasure_expMeasure one_pos
  have hE : Measurable fun ω => (g ω).expo := measurable_pi_iff.2 hg.expo_measurable
  induction n with
  | zero => simp [nextSum]
  | succ n ih =>
    obtain ⟨h1, h2⟩ := ih
    obtain ⟨h3, h4⟩ := step_memLp hg ha ha0 hK haK hF hL0 hL n
    have e : ∀ ω, nextSum a F (n + 1) (g ω).expo = nextSum a F n (g ω).expo + step a F n (g ω).expo := fun ω => nextSum_succ a F n _
    have hY := fun i (hi : i ∈ Finset.range n) => term_memLp hg ha ha0 hK haK hF hL0 hL (Finset.mem_range.1 hi)
    refine ⟨by simp only [e]; exact h1.add h3, ?_⟩
    have horth : ∫ ω, nextSum a F n (g ω).expo * step a F n (g ω).expo ∂P = 0 := by
      unfold step
      simp only [Finset.mul_sum]
      have hint : ∀ i ∈ Finset.range n, Integrable (fun ω => nextSum a F n (g ω).expo * (alive a (g ω).expo i n * excessOf a F ((g ω).expo i, (g ω).expo n))) P :=
        fun i hi => h1.integrable_mul (hY i hi).1
      rw [integral_finsetSum _ hint]
      apply Finset.sum_eq_zero
      intro i hi
      have hin := Finset.mem_range.1 hi
      have hGm : Measurable fun q : (ℕ → ℝ) × ℝ => nextSum a F n q.1 * (alive a q.1 i n * excessOf a F (q.1 i, q.2)) :=
        ((nextSum_measurable ha hF n).comp measurable_fst).mul (((alive_measurable ha i n).comp measurable_fst).mul
          ((excessOf_measurable ha hF).comp (((measurable_pi_apply i).comp measurable_fst).prodMk measurable_snd)))
      refine fubini_zero hg.expo_measurable hg.expo_indep hg.expo_law n hGm ?_ (hint i hi) ?_
      · intro v w y h
        simp only
        rw [nextSum_congr a F n h, alive_congr a hin h, h i hin]
      · filter_upwards [expo_pos hg i] with ω hω
        rw [integral_const_mul, integral_const_mul, excess_mean_zero hF h0 (ha0 _ hω), mul_zero, mul_zero]
    have hexp : ∀ ω, nextSum a F (n + 1) (g ω).expo ^ 2 = nextSum a F n (g ω).expo ^ 2 + (2 * (nextSum a F n (g ω).expo * step a F n (g ω).expo) + step a F n (g ω).expo ^ 2) := by
      intro ω; rw [e]; ring
    have hi2 : Integrable (fun ω => 2 * (nextSum a F n (g ω).expo * step a F n (g ω).expo)) P := (h1.integrable_mul h3).const_mul 2
    have hi3 : Integrable (fun ω => 2 * (nextSum a F n (g ω).expo * step a F n (g ω).expo) + step a F n (g ω).expo ^ 2) P := hi2.add h3.integrable_sq
    simp only [hexp]
    rw [integral_add h1.integrable_sq hi3, integral_add hi2 h3.integrable_sq, integral_const_mul, horth, mul_zero, zero_add]
    have hC : 0 ≤ 4 * Real.exp K * L := by positivity
    have hh := harm_mono (Nat.le_succ n)
    have hh0 := harm_nonneg n
    have hsq : harm n ^ 2 ≤ harm (n + 1) ^ 2 := pow_le_pow_left₀ hh0 hh 2
    push_cast
    calc _ ≤ 4 * Real.exp K * L * n * harm n ^ 2 + 4 * Real.exp K * L * harm n ^ 2 := add_le_add h2 h4
      _ = 4 * Real.exp K * L * (n + 1) * harm n ^ 2 := by ring
      _ ≤ _ := mul_le_mul_of_nonneg_left hsq (by positivity)

end Variance

/-- The draws without a later one that reaches their threshold. -/
def waiting (a : ℝ → ℝ) (n : ℕ) (v : ℕ → ℝ) : ℝ := ∑ i ∈ Finset.range n, alive a v i n

theorem nextSum_one (a : ℝ → ℝ) (n : ℕ) (v : ℕ → ℝ) : nextSum a (fun _ => 1) n v + waiting a n v = n := by
  induction n with
  | zero => simp [nextSum, waiting]
  | succ n ih =>
    rw [nextSum_succ]
    have e : step a (fun _ => 1) n v + waiting a (n + 1) v = waiting a n v + 1 := by
      unfold step waiting
      rw [Finset.sum_range_succ, alive_self, ← add_assoc, ← Finset.sum_add_distrib]
      congr 1
      apply Finset.sum_congr rfl
      intro i hi
      rw [alive_succ a v (Finset.mem_range.1 hi), ← mul_add]
      unfold excessOf
      by_cases h : a (v i) ≤ v n
      · rw [if_pos h, if_neg (not_lt.2 h)]; ring
      · rw [if_neg h, if_pos (not_le.1 h)]; ring
    push_cast
    linarith

theorem waiting_nonneg (a : ℝ → ℝ) (n : ℕ) (v : ℕ → ℝ) : 0 ≤ waiting a n v := Finset.sum_nonneg fun i _ => alive_nonneg a v i n

theorem waiting_lintegral [IsProbabilityMeasure P] (hg : Spec.RandomDraws P g) {a : ℝ → ℝ} (ha : Measurable a) {K : ℝ} (hK : 0 ≤ K) (haK : ∀ e, 0 < e → a e ≤ e + K) (n : ℕ) :
    ∫⁻ ω, ENNReal.ofReal (waiting a n (g ω).expo) ∂P ≤ ENNReal.ofReal (Real.exp K * harm n) := by
  have hE : Measurable fun ω => (g ω).expo := measurable_pi_iff.2 hg.expo_measurable
  unfold waiting
  have e1 : ∀ ω, ENNReal.ofReal (∑ i ∈ Finset.range n, alive a (g ω).expo i n) = ∑ i ∈ Finset.range n, ENNReal.ofReal (alive a (g ω).expo i n) :=
    fun ω => ENNReal.ofReal_sum_of_nonneg fun i _ => alive_nonneg _ _ _ _
  simp only [e1]
  have hm : ∀ i ∈ Finset.range n, Measurable fun ω => ENNReal.ofReal (alive a (g ω).expo i n) := fun i _ => ((alive_measurable ha i n).comp hE).ennreal_ofReal
  rw [lintegral_finsetSum _ hm, harm_reflect, Finset.mul_sum, ENNReal.ofReal_sum_of_nonneg]
  · apply Finset.sum_le_sum
    intro i hi
    obtain ⟨k, hk⟩ : ∃ k, n = i + 1 + k := ⟨n - i - 1, by have := Finset.mem_range.1 hi; omega⟩
    have h := alive_lintegral hg ha i k (fun _ => 1) measurable_const
    simp only [one_mul] at h
    rw [← hk] at h
    rw [h]
    refine (wait_lintegral hK haK k).trans (le_of_eq ?_)
    congr 1
    rw [hk]
    push_cast
    rw [show (i : ℝ) + 1 + k - i = k + 1 by ring, mul_one_div]
  · intro i hi
    have : (i : ℝ) < n := by exact_mod_cast Finset.mem_range.1 hi
    have : 0 ≤ 1 / ((n : ℝ) - i) := by apply div_nonneg zero_le_one; linarith
    positivity

/-- Nonnegative variables with summable means converge to zero. -/
theorem ae_zero_of_summable {Z : ℕ → Ω → ℝ} (hZ0 : ∀ m ω, 0 ≤ Z m ω) (hZm : ∀ m, Measurable (Z m)) {c : ℕ → ℝ} (hc0 : ∀ m, 0 ≤ c m) (hc : Summable c)
    (h : ∀ m, ∫⁻ ω, ENNReal.ofReal (Z m ω) ∂P ≤ ENNReal.ofReal (c m)) : ∀ᵐ ω ∂P, Tendsto (fun m => Z m ω) atTop (𝓝 0) := by
  have h1 : ∫⁻ ω, ∑' m, ENNReal.ofReal (Z m ω) ∂P ≠ ⊤ := by
    rw [lintegral_tsum fun m => (hZm m).ennreal_ofReal.aemeasurable]
    refine ne_top_of_le_ne_top ?_ (ENNReal.tsum_le_tsum h)
    rw [← ENNReal.ofReal_tsum_of_nonneg hc0 hc]
    exact ENNReal.ofReal_ne_top
  filter_upwards [ae_lt_top (Measurable.tsum fun m => (hZm m).ennreal_ofReal) h1] with ω hω
  have h2 := ENNReal.tendsto_atTop_zero_of_tsum_ne_top hω.ne
  have h3 := (ENNReal.tendsto_toReal ENNReal.zero_ne_top).comp h2
  refine (h3.congr fun m => ?_)
  simp [ENNReal.toReal_ofReal (hZ0 m ω)]

theorem summable_inv_sq (C : ℝ) : Summable fun m : ℕ => C / ((m : ℝ) + 1) ^ 2 := by
  have h := (summable_nat_add_iff (f := fun m : ℕ => C / ((m : ℝ)) ^ 2) 1).2 (by
    have := (Real.summable_one_div_nat_pow (p := 2)).2 one_lt_two
    exact (this.mul_left C).congr fun m => by rw [mul_one_div])
  exact h.congr fun m => by push_cast; rfl

theorem fourth_powers {u : ℕ → ℝ} (hu : Monotone u) {l : ℝ} (h : Tendsto (fun m : ℕ => u ((m + 1) ^ 4) / (((m + 1) ^ 4 : ℕ) : ℝ)) atTop (𝓝 l)) :
    Tendsto (fun n : ℕ => u n / n) atTop (𝓝 l) := by
  apply tendsto_div_of_monotone_of_exists_subseq_tendsto_div u l hu
  intro q hq
  refine ⟨fun m => (m + 1) ^ 4, ?_, ?_, h⟩
  · have h1 : Tendsto (fun m : ℕ => (1 + 1 / ((m : ℝ) + 1)) ^ 4) atTop (𝓝 1) := by
      have := ((tendsto_one_div_add_atTop_nhds_zero_nat (𝕜 := ℝ)).const_add 1).pow 4
      simpa using this
    filter_upwards [h1.eventually (gt_mem_nhds hq)] with m hm
    push_cast
    have h2 : (0 : ℝ) < (m : ℝ) + 1 := by positivity
    have e : ((m : ℝ) + 1 + 1) ^ 4 = (1 + 1 / ((m : ℝ) + 1)) ^ 4 * ((m : ℝ) + 1) ^ 4 := by
      rw [← mul_pow]; congr 1; field_simp
    rw [e]
    exact mul_le_mul_of_nonneg_right hm.le (by positivity)
  · exact (tendsto_pow_atTop (by norm_num)).comp (tendsto_add_atTop_nat 1)

theorem excess_shift (a F : ℝ → ℝ) (κ : ℝ) (n : ℕ) (v : ℕ → ℝ) : nextSum a F n v = κ * nextSum a (fun _ => 1) n v + nextSum a (fun u => F u - κ) n v := by
  unfold nextSum
  rw [Finset.mul_sum, ← Finset.sum_add_distrib]
  apply Finset.sum_congr rfl
  intro j _
  rw [Finset.mul_sum, ← Finset.sum_add_distrib]
  apply Finset.sum_congr rfl
  intro i _
  unfold excessOf
  split_ifs <;> ring

theorem nextSum_mono {a F : ℝ → ℝ} (hF0 : ∀ u, 0 ≤ F u) (v : ℕ → ℝ) : Monotone fun n => nextSum a F n v := by
  apply monotone_nat_of_le_succ
  intro n
  rw [nextSum_succ]
  have : 0 ≤ step a F n v := Finset.sum_nonneg fun i _ => mul_nonneg (alive_nonneg _ _ _ _) (by unfold excessOf; split_ifs; exacts [hF0 _, le_rfl])
  linarith

/-- The strong law: almost every draw finds a later one that reaches its threshold, and the mean of a function of the excess is that of a fresh draw. -/
theorem strong_law_next [IsProbabilityMeasure P] (hg : Spec.RandomDraws P g) {a F : ℝ → ℝ} (ha : Measurable a) (ha0 : ∀ e, 0 < e → 0 ≤ a e) {K : ℝ} (hK : 0 ≤ K)
    (haK : ∀ e, 0 < e → a e ≤ e + K) (hF : Measurable F) (hF0 : ∀ u, 0 ≤ F u) {κ L : ℝ} (hκ0 : 0 ≤ κ) (hκ : ∫⁻ u, ENNReal.ofReal (F u) ∂(expMeasure 1) = ENNReal.ofReal κ)
    (hL : ∫⁻ u, ENNReal.ofReal (F u ^ 2) ∂(expMeasure 1) = ENNReal.ofReal L) :
    ∀ᵐ ω ∂P, Tendsto (fun n : ℕ => nextSum a (fun _ => 1) n (g ω).expo / n) atTop (𝓝 1) ∧ Tendsto (fun n : ℕ => nextSum a F n (g ω).expo / n) atTop (𝓝 κ) := by
  have hP : IsProbabilityMeasure (expMeasure 1) := isProbabilityMeasure_expMeasure one_pos
  have hE : Measurable fun ω => (g ω).expo := measurable_pi_iff.2 hg.expo_measurable
  have hFi : Integrable F (expMeasure 1) := by
    refine ⟨hF.aestronglyMeasurable, ?_⟩
    rw [hasFiniteIntegral_iff_ofReal (Eventually.of_forall hF0), hκ]
    exact ENNReal.ofReal_lt_top
  have hF2 : Integrable (fun u => F u ^ 2) (expMeasure 1) := by
    refine ⟨(hF.pow_const 2).aestronglyMeasurable, ?_⟩
    rw [hasFiniteIntegral_iff_ofReal (Eventually.of_forall fun u => sq_nonneg _), hL]
    exact ENNReal.ofReal_lt_top
  have hmean : ∫ u, F u ∂(expMeasure 1) = κ := by
    rw [integral_eq_lintegral_of_nonneg_ae (Eventually.of_forall hF0) hF.aestronglyMeasurable, hκ, ENNReal.toReal_ofReal hκ0]
  have hDm : Measurable fun u => F u - κ := hF.sub_const κ
  have h0 : ∫ u, (F u - κ) ∂(expMeasure 1) = 0 := by
    rw [integral_sub hFi (integrable_const κ), hmean]; simp
  have hD2 : MemLp (fun u => F u - κ) 2 (expMeasure 1) := ((memLp_two_iff_integrable_sq hF.aestronglyMeasurable).2 hF2).sub (memLp_const κ)
  set M := ∫ u, (F u - κ) ^ 2 ∂(expMeasure 1) with hM
  have hM0 : 0 ≤ M := integral_nonneg fun u => sq_nonneg _
  have hML : ∫⁻ u, ENNReal.ofReal ((F u - κ) ^ 2) ∂(expMeasure 1) = ENNReal.ofReal M := by
    rw [hM, ofReal_integral_eq_lintegral_ofReal hD2.integrable_sq (Eventually.of_forall fun u => sq_nonneg _)]
  have hS := nextSum_memLp hg ha ha0 hK haK hDm hM0 hML h0
  have hSm : ∀ n, Measurable fun ω => nextSum a (fun u => F u - κ) n (g ω).expo := fun n => (nextSum_measurable ha hDm n).comp hE
  have hWm : ∀ n, Measurable fun ω => waiting a n (g ω).expo := fun n => Finset.measurable_sum _ fun i _ => (alive_measurable ha i n).comp hE
  have hcast : ∀ m : ℕ, (((m + 1) ^ 4 : ℕ) : ℝ) = ((m : ℝ) + 1) ^ 4 := fun m => by push_cast; rfl
  -- along fourth powers
  have z1 : ∀ᵐ ω ∂P, Tendsto (fun m : ℕ => (nextSum a (fun u => F u - κ) ((m + 1) ^ 4) (g ω).expo / (((m + 1) ^ 4 : ℕ) : ℝ)) ^ 2) atTop (𝓝 0) := by
    refine ae_zero_of_summable (c := fun m => 64 * Real.exp K * M / ((m : ℝ) + 1) ^ 2) (fun m ω => sq_nonneg _) (fun m => ((hSm _).div_const _).pow_const 2) (fun m => by positivity)
      (summable_inv_sq _) fun m => ?_
    obtain ⟨k1, k2⟩ := hS ((m + 1) ^ 4)
    have hi : Integrable (fun ω => (nextSum a (fun u => F u - κ) ((m + 1) ^ 4) (g ω).expo / (((m + 1) ^ 4 : ℕ) : ℝ)) ^ 2) P := by
      simp only [div_pow]; exact k1.integrable_sq.div_const _
    rw [← ofReal_integral_eq_lintegral_ofReal hi (Eventually.of_forall fun ω => sq_nonneg _)]
    apply ENNReal.ofReal_le_ofReal
    simp only [div_pow]
    rw [integral_div, hcast] at *
    have hm0 : (0 : ℝ) < (m : ℝ) + 1 := by positivity
    have hh := harm_pow m
    have hh2 : harm ((m + 1) ^ 4) ^ 2 ≤ (4 * ((m : ℝ) + 1)) ^ 2 := pow_le_pow_left₀ (harm_nonneg _) hh 2
    rw [div_le_div_iff₀ (by positivity) (by positivity)]
    calc _ ≤ (4 * Real.exp K * M * ((m : ℝ) + 1) ^ 4 * harm ((m + 1) ^ 4) ^ 2) * ((m : ℝ) + 1) ^ 2 := mul_le_mul_of_nonneg_right k2 (by positivity)
      _ ≤ (4 * Real.exp K * M * ((m : ℝ) + 1) ^ 4 * (4 * ((m : ℝ) + 1)) ^ 2) * ((m : ℝ) + 1) ^ 2 := by gcongr
      _ = _ := by ring
  have z2 : ∀ᵐ ω ∂P, Tendsto (fun m : ℕ => waiting a ((m + 1) ^ 4) (g ω).expo / (((m + 1) ^ 4 : ℕ) : ℝ)) atTop (𝓝 0) := by
    refine ae_zero_of_summable (c := fun m => 4 * Real.exp K / ((m : ℝ) + 1) ^ 2) (fun m ω => div_nonneg (waiting_nonneg _ _ _) (Nat.cast_nonneg _)) (fun m => (hWm _).div_const _)
      (fun m => by positivity) (summable_inv_sq _) fun m => ?_
    have hm0 : (0 : ℝ) < (m : ℝ) + 1 := by positivity
    have hm1 : (1 : ℝ) ≤ (m : ℝ) + 1 := by have : (0 : ℝ) ≤ m := Nat.cast_nonneg m; linarith
    have hh := harm_pow m
    have e : ∀ ω, ENNReal.ofReal (waiting a ((m + 1) ^ 4) (g ω).expo / (((m + 1) ^ 4 : ℕ) : ℝ)) =
        ENNReal.ofReal (1 / ((m : ℝ) + 1) ^ 4) * ENNReal.ofReal (waiting a ((m + 1) ^ 4) (g ω).expo) := by
      intro ω
      rw [← ENNReal.ofReal_mul (by positivity), hcast]; congr 1; ring
    rw [lintegral_congr e, lintegral_const_mul _ (hWm _).ennreal_ofReal]
    refine (mul_le_mul_right (waiting_lintegral hg ha hK haK _) _).trans ?_
    rw [← ENNReal.ofReal_mul (by positivity)]
    apply ENNReal.ofReal_le_ofReal
    rw [one_div_mul_eq_div, div_le_div_iff₀ (by positivity) (by positivity)]
    calc _ ≤ Real.exp K * (4 * ((m : ℝ) + 1)) * ((m : ℝ) + 1) ^ 2 := by gcongr
      _ = 4 * Real.exp K * ((m : ℝ) + 1) ^ 3 := by ring
      _ ≤ 4 * Real.exp K * ((m : ℝ) + 1) ^ 4 := mul_le_mul_of_nonneg_left (pow_le_pow_right₀ hm1 (by norm_num)) (by positivity)
  filter_upwards [z1, z2] with ω z1 z2
  have n1 : Tendsto (fun m : ℕ => nextSum a (fun _ => 1) ((m + 1) ^ 4) (g ω).expo / (((m + 1) ^ 4 : ℕ) : ℝ)) atTop (𝓝 1) := by
    have h := z2.const_sub 1
    rw [sub_zero] at h
    refine h.congr fun m => ?_
    have hne : (((m + 1) ^ 4 : ℕ) : ℝ) ≠ 0 := by rw [hcast]; positivity
    have h2 := nextSum_one a ((m + 1) ^ 4) (g ω).expo
    rw [eq_div_iff hne, sub_mul, div_mul_cancel₀ _ hne]
    linarith
  have n2 : Tendsto (fun m : ℕ => nextSum a (fun u => F u - κ) ((m + 1) ^ 4) (g ω).expo / (((m + 1) ^ 4 : ℕ) : ℝ)) atTop (𝓝 0) := by
    have h := (Real.continuous_sqrt.tendsto 0).comp z1
    rw [Real.sqrt_zero] at h
    rw [tendsto_zero_iff_abs_tendsto_zero]
    refine h.congr fun m => ?_
    simp only [Function.comp_apply]
    rw [Real.sqrt_sq_eq_abs]
  refine ⟨fourth_powers (nextSum_mono (fun _ => zero_le_one) _) n1, fourth_powers (nextSum_mono hF0 _) ?_⟩
  have h := (n1.const_mul κ).add n2
  rw [mul_one, add_zero] at h
  refine h.congr fun m => ?_
  rw [excess_shift a F κ, ← mul_div_assoc, ← add_div]

end
end SeismoStats.Props
