/-
Deviation of the fraction of independent values in a set (used by C113).
-/
import Mathlib.Probability.Moments.SubGaussian

namespace SeismoStats.Hoeffding
open MeasureTheory ProbabilityTheory Filter Topology
open scoped BigOperators NNReal
open Classical

variable {Ω : Type} [MeasurableSpace Ω] {P : Measure Ω}

/-- The fraction of the first `m` values in `A` differs from the probability of `A` by at least `η` with a probability of at most `2 e^{-2 m η²}`. -/
theorem frac_deviation [IsProbabilityMeasure P] {E : ℕ → Ω → ℝ} (hm : ∀ i, Measurable (E i)) (hi : iIndepFun E P) {A : Set ℝ} (hA : MeasurableSet A) {q : ℝ}
    (hq : ∀ i, P.real (E i ⁻¹' A) = q) {η : ℝ} (hη : 0 < η) {m : ℕ} (hpos : 0 < m) :
    P.real {ω | η ≤ |(∑ i ∈ Finset.range m, A.indicator (fun _ => (1 : ℝ)) (E i ω)) / m - q|} ≤ 2 * Real.exp (-2 * m * η ^ 2) := by
  set f : ℝ → ℝ := A.indicator fun _ => (1 : ℝ) with hf
  have hfm : Measurable f := measurable_const.indicator hA
  have hmR : (0 : ℝ) < m := by exact_mod_cast hpos
  have hmean : ∀ i, ∫ ω, f (E i ω) ∂P = q := by
    intro i
    have e : (fun ω => f (E i ω)) = (E i ⁻¹' A).indicator fun _ => (1 : ℝ) := by
      funext ω
      rw [hf]
      rfl
    rw [e, integral_indicator (hm i hA), setIntegral_const]
    simp [hq i]
  have hrange : ∀ i ω, f (E i ω) ∈ Set.Icc (0 : ℝ) 1 := by
    intro i ω
    rw [hf, Set.indicator_apply]
    split <;> simp
  have hsub : ∀ i, HasSubgaussianMGF (fun ω => f (E i ω) - q) ((‖(1 : ℝ) - 0‖₊ / 2) ^ 2) P := by
    intro i
    have := hasSubgaussianMGF_of_mem_Icc (μ := P) (X := fun ω => f (E i ω)) (hfm.comp (hm i)).aemeasurable (Eventually.of_forall (hrange i))
    rw [hmean i] at this
    exact this
  have hc : (((‖(1 : ℝ) - 0‖₊ / 2) ^ 2 : ℝ≥0) : ℝ) = 1 / 4 := by
    simp; norm_num
  have hind : iIndepFun (fun i ω => f (E i ω) - q) P := hi.comp (fun _ y => f y - q) fun _ => hfm.sub_const q
  have hind' : iIndepFun (fun i ω => -(f (E i ω) - q)) P := hi.comp (fun _ y => -(f y - q)) fun _ => (hfm.sub_const q).neg
  have hε : 0 ≤ (m : ℝ) * η := by positivity
  have h1 := HasSubgaussianMGF.measure_sum_range_ge_le_of_iIndepFun hind (n := m) (fun i _ => hsub i) hε
  have h2 := HasSubgaussianMGF.measure_sum_range_ge_le_of_iIndepFun hind' (n := m) (fun i _ => (hsub i).neg) hε
  have hval : Real.exp (-((m : ℝ) * η) ^ 2 / (2 * m * ((‖(1 : ℝ) - 0‖₊ / 2) ^ 2 : ℝ≥0))) = Real.exp (-2 * m * η ^ 2) := by
    rw [hc]
    congr 1
    field_simp
    ring
  rw [hval] at h1 h2
  have hcover : {ω | η ≤ |(∑ i ∈ Finset.range m, f (E i ω)) / m - q|} ⊆
      {ω | (m : ℝ) * η ≤ ∑ i ∈ Finset.range m, (f (E i ω) - q)} ∪ {ω | (m : ℝ) * η ≤ ∑ i ∈ Finset.range m, -(f (E i ω) - q)} := by
    intro ω h
    have h : η ≤ |(∑ i ∈ Finset.range m, f (E i ω)) / m - q| := h
    have e : (∑ i ∈ Finset.range m, f (E i ω)) / m - q = (∑ i ∈ Finset.range m, (f (E i ω) - q)) / m := by
      rw [Finset.sum_sub_distrib]
      simp only [Finset.sum_const, Finset.card_range, nsmul_eq_mul]
      field_simp
    rw [e] at h
    rcases le_abs'.1 h with h | h
    · right
      change (m : ℝ) * η ≤ ∑ i ∈ Finset.range m, -(f (E i ω) - q)
      rw [Finset.sum_neg_distrib]
      rw [div_le_iff₀ hmR] at h
      linarith
    · left
      change (m : ℝ) * η ≤ ∑ i ∈ Finset.range m, (f (E i ω) - q)
      rw [le_div_iff₀ hmR] at h
      linarith
  refine (measureReal_mono hcover (measure_ne_top P _)).trans ((measureReal_union_le _ _).trans ?_)
  linarith

end SeismoStats.Hoeffding
