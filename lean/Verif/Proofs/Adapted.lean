/-
Sums over adapted sequences: a law of large numbers for the terms used by a rule that depends on the past, with a random number of terms.
-/
import Mathlib.Probability.Martingale.BorelCantelli
import Mathlib.Probability.Independence.Integration
import Mathlib.Probability.Independence.Basic
import Mathlib.Analysis.Asymptotics.SpecificAsymptotics
import Mathlib.MeasureTheory.Integral.Prod

namespace SeismoStats.Props
open MeasureTheory ProbabilityTheory Filter Topology
open Classical
noncomputable section

/-! ### Kronecker's lemma -/

theorem kronecker_lemma {a x : ℕ → ℝ} (ha : Monotone a) (hinf : Tendsto a atTop atTop) {s : ℝ}
    (hs : Tendsto (fun n : ℕ => ∑ k ∈ Finset.range n, x k) atTop (𝓝 s)) : Tendsto (fun n : ℕ => (∑ k ∈ Finset.range n, a k * x k) / a n) atTop (𝓝 0) := by
  set S : ℕ → ℝ := fun n => ∑ k ∈ Finset.range n, x k with hS
  have abel : ∀ n : ℕ, ∑ k ∈ Finset.range n, a k * x k = a n * S n - ∑ k ∈ Finset.range n, (a (k + 1) - a k) * S (k + 1) := by
    intro n
    induction n with
    | zero => simp [hS]
    | succ n ih =>
      rw [Finset.sum_range_succ, ih, Finset.sum_range_succ]
      have : S (n + 1) = S n + x n := Finset.sum_range_succ _ _
      rw [this]; ring
  have tel : ∀ n : ℕ, ∑ k ∈ Finset.range n, (a (k + 1) - a k) = a n - a 0 := fun n => Finset.sum_range_sub a n
  have hg : ∀ k, 0 ≤ a (k + 1) - a k := fun k => sub_nonneg.2 (ha (Nat.le_succ k))
  have hGinf : Tendsto (fun n => ∑ k ∈ Finset.range n, (a (k + 1) - a k)) atTop atTop := by
    simp only [tel]
    exact tendsto_atTop_add_const_right _ _ hinf
  have ho : (fun k => (a (k + 1) - a k) * (S (k + 1) - s)) =o[atTop] fun k => a (k + 1) - a k := by
    have h1 : Tendsto (fun k => S (k + 1) - s) atTop (𝓝 0) := by
      have := (hs.comp (tendsto_add_atTop_nat 1)).sub_const s
      rwa [sub_self] at this
    have h2 : (fun k => S (k + 1) - s) =o[atTop] fun _ => (1 : ℝ) := (Asymptotics.isLittleO_one_iff ℝ).2 h1
    simpa using (Asymptotics.isBigO_refl (fun k => a (k + 1) - a k) atTop).mul_isLittleO h2
  have hsum := ho.sum_range hg hGinf
  have h3 : Tendsto (fun n => (∑ k ∈ Finset.range n, (a (k + 1) - a k) * (S (k + 1) - s)) / ∑ k ∈ Finset.range n, (a (k + 1) - a k)) atTop (𝓝 0) := hsum.tendsto_div_nhds_zero
  have h4 : Tendsto (fun n => (a n - a 0) / a n) atTop (𝓝 1) := by
    have : Tendsto (fun n => 1 - a 0 / a n) atTop (𝓝 (1 - 0)) := tendsto_const_nhds.sub (Tendsto.div_atTop tendsto_const_nhds hinf)
    rw [sub_zero] at this
    refine this.congr' ?_
    filter_upwards [hinf.eventually (eventually_gt_atTop 0)] with n hn
    field_simp
  have h5 := ((hs.sub_const s).add (((tendsto_const_nhds (x := s)).sub (h4.mul_const s)).sub (h3.mul h4)))
  have e0 : s - s + (s - 1 * s - 0 * 1) = 0 := by ring
  rw [e0] at h5
  refine h5.congr' ?_
  filter_upwards [hinf.eventually (eventually_gt_atTop 0), hGinf.eventually (eventually_gt_atTop 0)] with n hn hGn
  rw [abel]
  have e1 : ∑ k ∈ Finset.range n, (a (k + 1) - a k) * S (k + 1) = ∑ k ∈ Finset.range n, (a (k + 1) - a k) * (S (k + 1) - s) + s * (a n - a 0) := by
    rw [← tel n, Finset.mul_sum, ← Finset.sum_add_distrib]
    exact Finset.sum_congr rfl fun k _ => by ring
  rw [e1, tel n]
  rw [tel n] at hGn
  generalize ∑ k ∈ Finset.range n, (a (k + 1) - a k) * (S (k + 1) - s) = T
  change S n - s + _ = _
  field_simp
  ring

/-! ### Conditional expectations given the past -/

variable {Ω : Type} {m : MeasurableSpace Ω} [m0 : MeasurableSpace Ω] {P : Measure Ω} [IsProbabilityMeasure P] {μ : Measure ℝ} [IsProbabilityMeasure μ]

/-- The conditional expectation of a function of something known and an independent draw. -/
theorem condExp_known {α : Type} [MeasurableSpace α] (hm : m ≤ m0) {S : Ω → α} (hS : Measurable[m] S) {Y : Ω → ℝ} (hY : Measurable Y)
    (hind : Indep (MeasurableSpace.comap Y inferInstance) m P) (hl : P.map Y = μ) {f : α × ℝ → ℝ} (hf : Measurable f) (hint : Integrable (fun ω => f (S ω, Y ω)) P) :
    P[fun ω => f (S ω, Y ω) | m] =ᵐ[P] fun ω => ∫ y, f (S ω, y) ∂μ := by
  have law : ∀ {β : Type} [MeasurableSpace β] (Z : Ω → β) (hZ : Measurable[m] Z), P.map (fun ω => (Z ω, Y ω)) = (P.map Z).prod μ := by
    intro β _ Z hZ
    have h1 : IndepFun Z Y P := by
      have := indep_of_indep_of_le_right hind (hZ.comap_le)
      exact this.symm
    rw [h1.map_prod_eq_prod_map_map (hZ.mono hm le_rfl).aemeasurable hY.aemeasurable, hl]
  have hS0 : Measurable S := hS.mono hm le_rfl
  have hsm : StronglyMeasurable fun s : α => ∫ y, f (s, y) ∂μ := hf.stronglyMeasurable.integral_prod_right'
  have hPS : IsProbabilityMeasure (P.map S) := Measure.isProbabilityMeasure_map hS0.aemeasurable
  have hint2 : Integrable f ((P.map S).prod μ) := by
    rw [← law S hS]
    exact (integrable_map_measure hf.aestronglyMeasurable (hS0.prodMk hY).aemeasurable).2 hint
  have hint3 : Integrable (fun ω => ∫ y, f (S ω, y) ∂μ) P := by
    have := hint2.integral_prod_left
    exact (integrable_map_measure hsm.aestronglyMeasurable hS0.aemeasurable).1 this
  symm
  refine ae_eq_condExp_of_forall_setIntegral_eq hm hint (fun _ _ _ => hint3.integrableOn) ?_ ?_
  · intro A hA _
    have hA0 : MeasurableSet A := hm A hA
    set Z : Ω → ℝ × α := fun ω => (A.indicator 1 ω, S ω) with hZ
    have hZm : Measurable[m] Z := by
      have h1 : Measurable[m] (A.indicator (1 : Ω → ℝ)) := Measurable.indicator (@measurable_const ℝ Ω _ m 1) hA
      exact h1.prodMk hS
    have hZ0 : Measurable Z := hZm.mono hm le_rfl
    have hPZ : IsProbabilityMeasure (P.map Z) := Measure.isProbabilityMeasure_map hZ0.aemeasurable
    have hG : Measurable fun q : (ℝ × α) × ℝ => q.1.1 * f (q.1.2, q.2) :=
      (measurable_fst.comp measurable_fst).mul (hf.comp ((measurable_snd.comp measurable_fst).prodMk measurable_snd))
    have e1 : ∀ u : Ω → ℝ, ∫ ω in A, u ω ∂P = ∫ ω, A.indicator 1 ω * u ω ∂P := by
      intro u
      rw [← integral_indicator hA0]
      refine integral_congr_ae (Eventually.of_forall fun ω => ?_)
      by_cases h : ω ∈ A <;> simp [h]
    have hi : Integrable (fun q : (ℝ × α) × ℝ => q.1.1 * f (q.1.2, q.2)) ((P.map Z).prod μ) := by
      rw [← law Z hZm]
      refine (integrable_map_measure hG.aestronglyMeasurable (hZ0.prodMk hY).aemeasurable).2 ?_
      have : (fun q : (ℝ × α) × ℝ => q.1.1 * f (q.1.2, q.2)) ∘ (fun ω => (Z ω, Y ω)) = A.indicator fun ω => f (S ω, Y ω) := by
        funext ω
        by_cases h : ω ∈ A <;> simp [hZ, h]
      rw [this]
      exact hint.indicator hA0
    rw [e1, e1]
    have e2 : ∫ ω, A.indicator 1 ω * f (S ω, Y ω) ∂P = ∫ q, q.1.1 * f (q.1.2, q.2) ∂((P.map Z).prod μ) := by
      rw [← law Z hZm, integral_map (hZ0.prodMk hY).aemeasurable hG.aestronglyMeasurable]
    rw [e2, integral_prod _ hi]
    have hsm2 : StronglyMeasurable fun z : ℝ × α => ∫ y, z.1 * f (z.2, y) ∂μ := hG.stronglyMeasurable.integral_prod_right'
    rw [integral_map hZ0.aemeasurable hsm2.aestronglyMeasurable]
    refine integral_congr_ae (Eventually.of_forall fun ω => ?_)
    simp only [hZ]
    rw [integral_const_mul]
  · exact (hsm.comp_measurable hS).aestronglyMeasurable

theorem lintegral_known {α : Type} [MeasurableSpace α] (hm : m ≤ m0) {S : Ω → α} (hS : Measurable[m] S) {Y : Ω → ℝ} (hY : Measurable Y)
    (hind : Indep (MeasurableSpace.comap Y inferInstance) m P) (hl : P.map Y = μ) {f : α × ℝ → ENNReal} (hf : Measurable f) :
    ∫⁻ ω, f (S ω, Y ω) ∂P = ∫⁻ ω, ∫⁻ y, f (S ω, y) ∂μ ∂P := by
  have hS0 : Measurable S := hS.mono hm le_rfl
  have h1 : IndepFun S Y P := (indep_of_indep_of_le_right hind hS.comap_le).symm
  have law : P.map (fun ω => (S ω, Y ω)) = (P.map S).prod μ := by
    rw [h1.map_prod_eq_prod_map_map hS0.aemeasurable hY.aemeasurable, hl]
  rw [← lintegral_map hf (hS0.prodMk hY), law, lintegral_prod _ hf.aemeasurable, lintegral_map hf.lintegral_prod_right' hS0]

/-! ### A law of large numbers with a random number of terms -/

section Adapted
variable {α : Type} [MeasurableSpace α]

/-- Sum of a function of the state and the next draw. -/
def stepSum (f : α × ℝ → ℝ) (S : ℕ → Ω → α) (E : ℕ → Ω → ℝ) (n : ℕ) (ω : Ω) : ℝ := ∑ k ∈ Finset.range n, f (S k ω, E (k + 1) ω)

/-- Sum of the terms divided by one plus the number of terms before. -/
def weightedSum (ψ F : α × ℝ → ℝ) (S : ℕ → Ω → α) (E : ℕ → Ω → ℝ) (n : ℕ) (ω : Ω) : ℝ :=
  ∑ k ∈ Finset.range n, F (S k ω, E (k + 1) ω) / (stepSum ψ S E k ω + 1)

theorem inv_sq_sum {u : ℕ → ℝ} (hu : ∀ k, 0 ≤ u k ∧ u k ≤ 1) (n : ℕ) :
    ∑ k ∈ Finset.range n, u k / ((∑ j ∈ Finset.range k, u j) + 1) ^ 2 ≤ 2 * (1 - 1 / ((∑ j ∈ Finset.range n, u j) + 1)) := by
  induction n with
  | zero => simp
  | succ n ih =>
    rw [Finset.sum_range_succ, Finset.sum_range_succ (f := u)]
    have h0 : 0 ≤ ∑ j ∈ Finset.range n, u j := Finset.sum_nonneg fun j _ => (hu j).1
    set N := ∑ j ∈ Finset.range n, u j
    obtain ⟨h1, h2⟩ := hu n
    generalize u n = v at *
    have : v / (N + 1) ^ 2 ≤ 2 * (1 - 1 / (N + v + 1)) - 2 * (1 - 1 / (N + 1)) := by
      rw [show 2 * (1 - 1 / (N + v + 1)) - 2 * (1 - 1 / (N + 1)) = 2 * v / ((N + 1) * (N + v + 1)) by field_simp; ring]
      rw [div_le_div_iff₀ (by positivity) (by positivity)]
      have : v * ((N + 1) * (N + v + 1)) ≤ v * ((N + 1) * (2 * (N + 1))) :=
        mul_le_mul_of_nonneg_left (mul_le_mul_of_nonneg_left (by linarith) (by linarith)) h1
      nlinarith
    linarith

variable {ℱ : Filtration ℕ m0} {E : ℕ → Ω → ℝ} {S : ℕ → Ω → α}

omit [IsProbabilityMeasure P] in
theorem stepSum_adapted (hE : ∀ i, Measurable[ℱ i] (E i)) (hS : ∀ k, Measurable[ℱ k] (S k)) {f : α × ℝ → ℝ} (hf : Measurable f) (n : ℕ) : Measurable[ℱ n] (stepSum f S E n) := by
  unfold stepSum
  refine Finset.measurable_sum _ fun k hk => ?_
  have hk' := Finset.mem_range.1 hk
  exact hf.comp (((hS k).mono (ℱ.mono hk'.le) le_rfl).prodMk ((hE (k + 1)).mono (ℱ.mono hk') le_rfl))

theorem weightedSum_adapted (hE : ∀ i, Measurable[ℱ i] (E i)) (hS : ∀ k, Measurable[ℱ k] (S k)) {ψ F : α × ℝ → ℝ} (hψ : Measurable ψ) (hF : Measurable F) (n : ℕ) :
    Measurable[ℱ n] (weightedSum ψ F S E n) := by
  unfold weightedSum
  refine Finset.measurable_sum _ fun k hk => ?_
  have hk' := Finset.mem_range.1 hk
  have h1 : Measurable[ℱ n] fun ω => F (S k ω, E (k + 1) ω) := hF.comp (((hS k).mono (ℱ.mono hk'.le) le_rfl).prodMk ((hE (k + 1)).mono (ℱ.mono hk') le_rfl))
  have h2 : Measurable[ℱ n] (stepSum ψ S E k) := (stepSum_adapted hE hS hψ k).mono (ℱ.mono hk'.le) le_rfl
  exact h1.div (h2.add_const 1)

variable (hE : ∀ i, Measurable[ℱ i] (E i)) (hind : ∀ i, Indep (MeasurableSpace.comap (E (i + 1)) inferInstance) (ℱ i) P) (hl : ∀ i, P.map (E i) = μ) (hS : ∀ k, Measurable[ℱ k] (S k))
  {ψ F : α × ℝ → ℝ} (hψm : Measurable ψ) (hFm : Measurable F) (hψ : ∀ q, ψ q = 0 ∨ ψ q = 1) (hψb : ∀ q, 0 ≤ ψ q ∧ ψ q ≤ 1) {K : ℝ} (hK : 0 ≤ K)
  (hF0 : ∀ k, ∀ᵐ ω ∂P, ∫ y, F (S k ω, y) ∂μ = 0)
  (hF2 : ∀ k, ∀ᵐ ω ∂P, ∫⁻ y, ENNReal.ofReal (F (S k ω, y) ^ 2) ∂μ ≤ ENNReal.ofReal K * ∫⁻ y, ENNReal.ofReal (ψ (S k ω, y)) ∂μ)

omit m0 [MeasurableSpace α] in
include hψb in
theorem stepSum_nonneg (n : ℕ) (ω : Ω) : 0 ≤ stepSum ψ S E n ω := Finset.sum_nonneg fun k _ => (hψb (S k ω, E (k + 1) ω)).1

include hE hind hl hS hψm hFm hψb hK hF2 in
/-- Second moment of one term. -/
theorem term_second (n : ℕ) : MemLp (fun ω => F (S n ω, E (n + 1) ω) / (stepSum ψ S E n ω + 1)) 2 P ∧
    ∫ ω, (F (S n ω, E (n + 1) ω) / (stepSum ψ S E n ω + 1)) ^ 2 ∂P ≤ K * ∫ ω, ψ (S n ω, E (n + 1) ω) / (stepSum ψ S E n ω + 1) ^ 2 ∂P := by
  have hE0 : ∀ i, Measurable (E i) := fun i => (hE i).mono (ℱ.le i) le_rfl
  have hS0 : ∀ i, Measurable (S i) := fun i => (hS i).mono (ℱ.le i) le_rfl
  have hN := stepSum_adapted hE hS hψm n
  have hN0 : Measurable (stepSum ψ S E n) := hN.mono (ℱ.le n) le_rfl
  have hTm : Measurable fun ω => F (S n ω, E (n + 1) ω) / (stepSum ψ S E n ω + 1) := (hFm.comp ((hS0 n).prodMk (hE0 _))).div (hN0.add_const 1)
  have hUm : Measurable fun ω => ψ (S n ω, E (n + 1) ω) / (stepSum ψ S E n ω + 1) ^ 2 := (hψm.comp ((hS0 n).prodMk (hE0 _))).div ((hN0.add_const 1).pow_const 2)
  have hψ0 : ∀ q, 0 ≤ ψ q := fun q => (hψb q).1
  have hψ1 : ∀ q, ψ q ≤ 1 := fun q => (hψb q).2
  have hNn : ∀ ω, 0 ≤ stepSum ψ S E n ω := fun ω => stepSum_nonneg hψb n ω
  have hU0 : ∀ ω, 0 ≤ ψ (S n ω, E (n + 1) ω) / (stepSum ψ S E n ω + 1) ^ 2 := fun ω => div_nonneg (hψ0 _) (sq_nonneg _)
  have hU1 : ∀ ω, ψ (S n ω, E (n + 1) ω) / (stepSum ψ S E n ω + 1) ^ 2 ≤ 1 := fun ω => by
    have := hNn ω
    have h2 := hψ1 (S n ω, E (n + 1) ω)
    rw [div_le_one (by positivity)]
    nlinarith
  have hUi : Integrable (fun ω => ψ (S n ω, E (n + 1) ω) / (stepSum ψ S E n ω + 1) ^ 2) P := by
    refine Integrable.of_bound hUm.aestronglyMeasurable 1 (Eventually.of_forall fun ω => ?_)
    rw [Real.norm_eq_abs, abs_of_nonneg (hU0 ω)]; exact hU1 ω
  have hZ : Measurable[ℱ n] fun ω => (S n ω, stepSum ψ S E n ω) := (hS n).prodMk hN
  have key : ∫⁻ ω, ENNReal.ofReal ((F (S n ω, E (n + 1) ω) / (stepSum ψ S E n ω + 1)) ^ 2) ∂P ≤
      ENNReal.ofReal (K * ∫ ω, ψ (S n ω, E (n + 1) ω) / (stepSum ψ S E n ω + 1) ^ 2 ∂P) := by
    have hf1 : Measurable fun q : (α × ℝ) × ℝ => ENNReal.ofReal ((F (q.1.1, q.2) / (q.1.2 + 1)) ^ 2) :=
      ((((hFm.comp ((measurable_fst.comp measurable_fst).prodMk measurable_snd)).div ((measurable_snd.comp measurable_fst).add_const 1)).pow_const 2)).ennreal_ofReal
    have hf2 : Measurable fun q : (α × ℝ) × ℝ => ENNReal.ofReal (ψ (q.1.1, q.2) / (q.1.2 + 1) ^ 2) :=
      ((hψm.comp ((measurable_fst.comp measurable_fst).prodMk measurable_snd)).div (((measurable_snd.comp measurable_fst).add_const 1).pow_const 2)).ennreal_ofReal
    have e1 := lintegral_known (ℱ.le n) hZ (hE0 (n + 1)) (hind n) (hl (n + 1)) hf1
    have e2 := lintegral_known (ℱ.le n) hZ (hE0 (n + 1)) (hind n) (hl (n + 1)) hf2
    simp only at e1 e2
    have hm2 : Measurable fun ω => ∫⁻ y, ENNReal.ofReal (ψ (S n ω, y) / (stepSum ψ S E n ω + 1) ^ 2) ∂μ :=
      hf2.lintegral_prod_right'.comp ((hS0 n).prodMk hN0)
    rw [ENNReal.ofReal_mul hK, ofReal_integral_eq_lintegral_ofReal hUi (Eventually.of_forall hU0), e1, e2, ← lintegral_const_mul _ hm2]
    refine lintegral_mono_ae ?_
    filter_upwards [hF2 n] with ω h
    have hc : (0 : ℝ) ≤ 1 / (stepSum ψ S E n ω + 1) ^ 2 := by positivity
    have a1 : ∀ y, ENNReal.ofReal ((F (S n ω, y) / (stepSum ψ S E n ω + 1)) ^ 2) = ENNReal.ofReal (1 / (stepSum ψ S E n ω + 1) ^ 2) * ENNReal.ofReal (F (S n ω, y) ^ 2) := by
      intro y; rw [← ENNReal.ofReal_mul hc, div_pow, one_div_mul_eq_div]
    have a2 : ∀ y, ENNReal.ofReal (ψ (S n ω, y) / (stepSum ψ S E n ω + 1) ^ 2) = ENNReal.ofReal (1 / (stepSum ψ S E n ω + 1) ^ 2) * ENNReal.ofReal (ψ (S n ω, y)) := by
      intro y; rw [← ENNReal.ofReal_mul hc, one_div_mul_eq_div]
    have b1 : Measurable fun y => ENNReal.ofReal (F (S n ω, y) ^ 2) := ((hFm.comp (measurable_const.prodMk measurable_id)).pow_const 2).ennreal_ofReal
    have b2 : Measurable fun y => ENNReal.ofReal (ψ (S n ω, y)) := (hψm.comp (measurable_const.prodMk measurable_id)).ennreal_ofReal
    rw [lintegral_congr a1, lintegral_congr a2, lintegral_const_mul _ b1, lintegral_const_mul _ b2, mul_left_comm]
    exact mul_le_mul_right h _
  have hTi : Integrable (fun ω => (F (S n ω, E (n + 1) ω) / (stepSum ψ S E n ω + 1)) ^ 2) P := by
    refine ⟨(hTm.pow_const 2).aestronglyMeasurable, ?_⟩
    rw [hasFiniteIntegral_iff_ofReal (Eventually.of_forall fun ω => sq_nonneg _)]
    exact lt_of_le_of_lt key ENNReal.ofReal_lt_top
  refine ⟨(memLp_two_iff_integrable_sq hTm.aestronglyMeasurable).2 hTi, ?_⟩
  rw [← ofReal_integral_eq_lintegral_ofReal hTi (Eventually.of_forall fun ω => sq_nonneg _)] at key
  exact (ENNReal.ofReal_le_ofReal_iff (mul_nonneg hK (integral_nonneg hU0))).1 key

include hE hind hl hS hψm hFm hF0 in
/-- A term times something known has mean zero. -/
theorem term_mean (n : ℕ) {G : Ω → ℝ} (hG : Measurable[ℱ n] G) (hi : Integrable (fun ω => G ω * (F (S n ω, E (n + 1) ω) / (stepSum ψ S E n ω + 1))) P) :
    P[fun ω => G ω * (F (S n ω, E (n + 1) ω) / (stepSum ψ S E n ω + 1)) | ℱ n] =ᵐ[P] 0 := by
  have hE0 : ∀ i, Measurable (E i) := fun i => (hE i).mono (ℱ.le i) le_rfl
  have hZ : Measurable[ℱ n] fun ω => (S n ω, stepSum ψ S E n ω, G ω) := (hS n).prodMk ((stepSum_adapted hE hS hψm n).prodMk hG)
  have hf : Measurable fun q : (α × ℝ × ℝ) × ℝ => q.1.2.2 * (F (q.1.1, q.2) / (q.1.2.1 + 1)) := by
    have h1 : Measurable fun q : (α × ℝ × ℝ) × ℝ => F (q.1.1, q.2) := hFm.comp ((measurable_fst.comp measurable_fst).prodMk measurable_snd)
    exact (measurable_snd.comp (measurable_snd.comp measurable_fst)).mul (h1.div ((measurable_fst.comp (measurable_snd.comp measurable_fst)).add_const 1))
  have h := condExp_known (ℱ.le n) hZ (hE0 (n + 1)) (hind n) (hl (n + 1)) hf hi
  refine h.trans ?_
  filter_upwards [hF0 n] with ω h0
  simp only [Pi.zero_apply]
  rw [integral_const_mul, integral_div, h0, zero_div, mul_zero]

include hE hind hl hS hψm hFm hψb hK hF0 hF2 in
theorem weightedSum_second (n : ℕ) : MemLp (weightedSum ψ F S E n) 2 P ∧
    ∫ ω, weightedSum ψ F S E n ω ^ 2 ∂P ≤ K * ∫ ω, ∑ k ∈ Finset.range n, ψ (S k ω, E (k + 1) ω) / (stepSum ψ S E k ω + 1) ^ 2 ∂P := by
  have hE0 : ∀ i, Measurable (E i) := fun i => (hE i).mono (ℱ.le i) le_rfl
  have hS0 : ∀ i, Measurable (S i) := fun i => (hS i).mono (ℱ.le i) le_rfl
  have hUi : ∀ k, Integrable (fun ω => ψ (S k ω, E (k + 1) ω) / (stepSum ψ S E k ω + 1) ^ 2) P := by
    intro k
    have hN0 : Measurable (stepSum ψ S E k) := (stepSum_adapted hE hS hψm k).mono (ℱ.le k) le_rfl
    have hUm : Measurable fun ω => ψ (S k ω, E (k + 1) ω) / (stepSum ψ S E k ω + 1) ^ 2 := (hψm.comp ((hS0 k).prodMk (hE0 _))).div ((hN0.add_const 1).pow_const 2)
    refine Integrable.of_bound hUm.aestronglyMeasurable 1 (Eventually.of_forall fun ω => ?_)
    have h1 : 0 ≤ stepSum ψ S E k ω := stepSum_nonneg hψb k ω
    have h2 : 0 ≤ ψ (S k ω, E (k + 1) ω) ∧ ψ (S k ω, E (k + 1) ω) ≤ 1 := hψb (S k ω, E (k + 1) ω)
    rw [Real.norm_eq_abs, abs_of_nonneg (div_nonneg h2.1 (sq_nonneg _)), div_le_one (by positivity)]
    nlinarith
  induction n with
  | zero =>
    have : weightedSum ψ F S E 0 = fun _ => 0 := by funext ω; simp [weightedSum]
    rw [this]
    exact ⟨memLp_const 0, by simp⟩
  | succ n ih =>
    obtain ⟨i1, i2⟩ := ih
    obtain ⟨t1, t2⟩ := term_second hE hind hl hS hψm hFm hψb hK hF2 n
    have es : weightedSum ψ F S E (n + 1) = fun ω => weightedSum ψ F S E n ω + F (S n ω, E (n + 1) ω) / (stepSum ψ S E n ω + 1) := by
      funext ω; exact Finset.sum_range_succ _ _
    rw [es]
    refine ⟨i1.add t1, ?_⟩
    have hcross : Integrable (fun ω => weightedSum ψ F S E n ω * (F (S n ω, E (n + 1) ω) / (stepSum ψ S E n ω + 1))) P := i1.integrable_mul t1
    have hzero : ∫ ω, weightedSum ψ F S E n ω * (F (S n ω, E (n + 1) ω) / (stepSum ψ S E n ω + 1)) ∂P = 0 := by
      rw [← integral_condExp (ℱ.le n), integral_congr_ae (term_mean hE hind hl hS hψm hFm hF0 n (weightedSum_adapted hE hS hψm hFm n) hcross)]
      simp
    have e : (fun ω => (weightedSum ψ F S E n ω + F (S n ω, E (n + 1) ω) / (stepSum ψ S E n ω + 1)) ^ 2) = fun ω =>
        weightedSum ψ F S E n ω ^ 2 + (2 * (weightedSum ψ F S E n ω * (F (S n ω, E (n + 1) ω) / (stepSum ψ S E n ω + 1))) +
          (F (S n ω, E (n + 1) ω) / (stepSum ψ S E n ω + 1)) ^ 2) := by funext ω; ring
    have hrest : Integrable (fun ω => 2 * (weightedSum ψ F S E n ω * (F (S n ω, E (n + 1) ω) / (stepSum ψ S E n ω + 1))) +
          (F (S n ω, E (n + 1) ω) / (stepSum ψ S E n ω + 1)) ^ 2) P := (hcross.const_mul 2).add t1.integrable_sq
    rw [e, integral_add i1.integrable_sq hrest, integral_add (hcross.const_mul 2) t1.integrable_sq, integral_const_mul, hzero]
    simp only [Finset.sum_range_succ]
    rw [integral_add (integrable_finsetSum _ fun k _ => hUi k) (hUi n), mul_add]
    linarith

include hE hind hl hS hψm hFm hψb hK hF0 hF2 in
theorem weightedSum_bound (n : ℕ) : ∫ ω, weightedSum ψ F S E n ω ^ 2 ∂P ≤ K * 2 := by
  refine (weightedSum_second hE hind hl hS hψm hFm hψb hK hF0 hF2 n).2.trans (mul_le_mul_of_nonneg_left ?_ hK)
  have h : ∀ ω, ∑ k ∈ Finset.range n, ψ (S k ω, E (k + 1) ω) / (stepSum ψ S E k ω + 1) ^ 2 ≤ 2 := by
    intro ω
    refine (inv_sq_sum (fun k => hψb (S k ω, E (k + 1) ω)) n).trans ?_
    have h1 : 0 ≤ stepSum ψ S E n ω := stepSum_nonneg hψb n ω
    have : 0 ≤ 1 / (stepSum ψ S E n ω + 1) := by positivity
    unfold stepSum at this
    linarith
  have h0 : ∀ ω, 0 ≤ ∑ k ∈ Finset.range n, ψ (S k ω, E (k + 1) ω) / (stepSum ψ S E k ω + 1) ^ 2 := fun ω =>
    Finset.sum_nonneg fun k _ => div_nonneg ((hψb (S k ω, E (k + 1) ω)).1) (sq_nonneg _)
  have := integral_mono_of_nonneg (μ := P) (Eventually.of_forall h0) (integrable_const (2 : ℝ)) (Eventually.of_forall h)
  simpa using this

include hE hind hl hS hψm hFm hψb hK hF0 hF2 in
theorem weightedSum_converges : ∀ᵐ ω ∂P, ∃ c, Tendsto (fun n => weightedSum ψ F S E n ω) atTop (𝓝 c) := by
  have hM : Martingale (weightedSum ψ F S E) ℱ P := by
    refine martingale_of_condExp_sub_eq_zero_nat (fun n => (weightedSum_adapted hE hS hψm hFm n).stronglyMeasurable)
      (fun n => (weightedSum_second hE hind hl hS hψm hFm hψb hK hF0 hF2 n).1.integrable (by norm_num)) fun n => ?_
    obtain ⟨t1, -⟩ := term_second hE hind hl hS hψm hFm hψb hK hF2 n
    have e : weightedSum ψ F S E (n + 1) - weightedSum ψ F S E n = fun ω => (fun _ => (1 : ℝ)) ω * (F (S n ω, E (n + 1) ω) / (stepSum ψ S E n ω + 1)) := by
      funext ω
      simp only [Pi.sub_apply, one_mul]
      rw [sub_eq_iff_eq_add']
      exact Finset.sum_range_succ _ _
    rw [e]
    exact term_mean hE hind hl hS hψm hFm hF0 n measurable_const (by simpa using t1.integrable (by norm_num))
  refine hM.submartingale.exists_ae_tendsto_of_bdd (R := Real.toNNReal (1 + K * 2)) fun n => ?_
  obtain ⟨i1, -⟩ := weightedSum_second hE hind hl hS hψm hFm hψb hK hF0 hF2 n
  have hb := weightedSum_bound hE hind hl hS hψm hFm hψb hK hF0 hF2 n
  rw [eLpNorm_one_eq_lintegral_enorm]
  calc ∫⁻ ω, ‖weightedSum ψ F S E n ω‖ₑ ∂P ≤ ∫⁻ ω, ENNReal.ofReal (1 + weightedSum ψ F S E n ω ^ 2) ∂P := by
        refine lintegral_mono fun ω => ?_
        rw [Real.enorm_eq_ofReal_abs]
        refine ENNReal.ofReal_le_ofReal ?_
        rw [← sq_abs]
        nlinarith [sq_nonneg (|weightedSum ψ F S E n ω| - 1), abs_nonneg (weightedSum ψ F S E n ω)]
    _ = ENNReal.ofReal (∫ ω, (1 + weightedSum ψ F S E n ω ^ 2) ∂P) :=
        (ofReal_integral_eq_lintegral_ofReal ((integrable_const 1).add i1.integrable_sq) (Eventually.of_forall fun ω => add_nonneg zero_le_one (sq_nonneg _))).symm
    _ ≤ ENNReal.ofReal (1 + K * 2) := by
        refine ENNReal.ofReal_le_ofReal ?_
        rw [integral_add (integrable_const 1) i1.integrable_sq]
        simp only [integral_const, probReal_univ, smul_eq_mul, mul_one]
        linarith
    _ = _ := rfl

include hE hind hl hS hψm hFm hψb hK hF0 hF2 in
/-- The weighted mean of the terms converges to zero wherever the sum of the weights grows without bound. -/
theorem weights_mean : ∀ᵐ ω ∂P, Tendsto (fun n => stepSum ψ S E n ω) atTop atTop → Tendsto (fun n => stepSum F S E n ω / stepSum ψ S E n ω) atTop (𝓝 0) := by
  filter_upwards [weightedSum_converges hE hind hl hS hψm hFm hψb hK hF0 hF2] with ω ⟨c, hc⟩ hinf
  have hmono : Monotone fun n => stepSum ψ S E n ω + 1 := by
    refine monotone_nat_of_le_succ fun n => ?_
    have : stepSum ψ S E (n + 1) ω = stepSum ψ S E n ω + ψ (S n ω, E (n + 1) ω) := Finset.sum_range_succ _ _
    rw [this]
    linarith [(hψb (S n ω, E (n + 1) ω)).1]
  have h := kronecker_lemma hmono (tendsto_atTop_add_const_right _ 1 hinf) hc
  have e : ∀ n, ∑ k ∈ Finset.range n, (stepSum ψ S E k ω + 1) * (F (S k ω, E (k + 1) ω) / (stepSum ψ S E k ω + 1)) = stepSum F S E n ω := by
    intro n
    refine Finset.sum_congr rfl fun k _ => ?_
    have := stepSum_nonneg (S := S) (E := E) hψb k ω
    field_simp
  simp only [e] at h
  have h4 : Tendsto (fun n => 1 + 1 / stepSum ψ S E n ω) atTop (𝓝 (1 + 0)) := tendsto_const_nhds.add (Tendsto.div_atTop tendsto_const_nhds hinf)
  have h5 := h.mul h4
  rw [zero_mul] at h5
  refine h5.congr' ?_
  filter_upwards [hinf.eventually (eventually_gt_atTop 0)] with n hn
  field_simp

include hE hind hl hS hψm hFm hψ hK hF0 hF2 in
/-- The mean of the terms used converges to zero wherever their number grows without bound. -/
theorem used_mean : ∀ᵐ ω ∂P, Tendsto (fun n => stepSum ψ S E n ω) atTop atTop → Tendsto (fun n => stepSum F S E n ω / stepSum ψ S E n ω) atTop (𝓝 0) :=
  weights_mean hE hind hl hS hψm hFm (fun q => by rcases hψ q with h | h <;> rw [h] <;> norm_num) hK hF0 hF2

include hE hind hl hS hψm hψ in
/-- Infinitely many terms are used exactly where the conditional probabilities have an infinite sum. -/
theorem used_infinite : ∀ᵐ ω ∂P, Tendsto (fun n => stepSum ψ S E n ω) atTop atTop ↔ Tendsto (fun n => ∑ k ∈ Finset.range n, ∫ y, ψ (S k ω, y) ∂μ) atTop atTop := by
  have hE0 : ∀ i, Measurable (E i) := fun i => (hE i).mono (ℱ.le i) le_rfl
  have hS0 : ∀ i, Measurable (S i) := fun i => (hS i).mono (ℱ.le i) le_rfl
  set s : ℕ → Set Ω := fun n => {ω | 0 < n ∧ ψ (S (n - 1) ω, E n ω) = 1} with hs
  have hsm : ∀ n, MeasurableSet[ℱ n] (s n) := by
    intro n
    rcases n with - | n
    · have : s 0 = ∅ := by simp [hs]
      rw [this]; exact @MeasurableSet.empty _ (ℱ 0)
    · have : s (n + 1) = (fun ω => ψ (S n ω, E (n + 1) ω)) ⁻¹' {1} := by ext ω; simp [hs]
      rw [this]
      have hm : Measurable[ℱ (n + 1)] fun ω => ψ (S n ω, E (n + 1) ω) := hψm.comp (((hS n).mono (ℱ.mono (Nat.le_succ n)) le_rfl).prodMk (hE (n + 1)))
      exact hm (measurableSet_singleton 1)
  have h := tendsto_sum_indicator_atTop_iff' (μ := P) hsm
  have ei : ∀ k, (s (k + 1)).indicator (1 : Ω → ℝ) = fun ω => ψ (S k ω, E (k + 1) ω) := by
    intro k
    funext ω
    rcases hψ (S k ω, E (k + 1) ω) with h | h
    · rw [Set.indicator_of_notMem (by simp [hs, h]), h]
    · rw [Set.indicator_of_mem (by simp [hs, h]), h]; rfl
  have hc : ∀ k, P[(s (k + 1)).indicator (1 : Ω → ℝ) | ℱ k] =ᵐ[P] fun ω => ∫ y, ψ (S k ω, y) ∂μ := by
    intro k
    rw [ei k]
    refine condExp_known (ℱ.le k) (hS k) (hE0 (k + 1)) (hind k) (hl (k + 1)) hψm ?_
    refine Integrable.of_bound (hψm.comp ((hS0 k).prodMk (hE0 (k + 1)))).aestronglyMeasurable 1 (Eventually.of_forall fun ω => ?_)
    rcases hψ (S k ω, E (k + 1) ω) with h | h <;> simp [h]
  filter_upwards [h, ae_all_iff.2 hc] with ω h1 h2
  simp only [h2] at h1
  simp only [ei] at h1
  exact h1

end Adapted

end
end SeismoStats.Props
