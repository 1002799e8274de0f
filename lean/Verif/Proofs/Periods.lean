/-
Events in several completeness periods: the excesses of the events above the completeness magnitude of their period.
-/
import Verif.Proofs.Detected

namespace SeismoStats.Props
open SeismoStats SeismoStats.Simulate BValue MeasureTheory ProbabilityTheory Filter Topology
open Classical
noncomputable section

variable {Ω : Type} [m0 : MeasurableSpace Ω] {P : Measure Ω} [IsProbabilityMeasure P] {ℱ : Filtration ℕ m0} {E : ℕ → Ω → ℝ}

/-- A positive number added infinitely often. -/
theorem frequent_sum {p : ℕ → Prop} (h : ∃ᶠ k in atTop, p k) {c : ℝ} (hc : 0 < c) : Tendsto (fun n => ∑ k ∈ Finset.range n, if p k then c else 0) atTop atTop := by
  have h0 : ∀ k, 0 ≤ if p k then c else 0 := fun k => by split_ifs; exacts [hc.le, le_rfl]
  refine (not_summable_iff_tendsto_nat_atTop_of_nonneg h0).1 fun hs => ?_
  have h1 := hs.tendsto_atTop_zero.eventually (gt_mem_nhds hc)
  refine h (h1.mono fun k hk hp => ?_)
  rw [if_pos hp] at hk
  exact lt_irrefl _ hk

/-- An event of the period `j` with draw `e` is counted: the period is one of `J` and the draw reaches the threshold of the period. -/
def countedIn (J : ℕ → Prop) (thr : ℕ → ℝ) (j : ℕ) (e : ℝ) : Prop := J j ∧ thr j ≤ e

/-- The mean of a centred function of the excess, over the events of the periods `J` that are complete. -/
theorem period_mean (hE : ∀ i, Measurable[ℱ i] (E i)) (hind : ∀ i, Indep (MeasurableSpace.comap (E (i + 1)) inferInstance) (ℱ i) P) (hl : ∀ i, P.map (E i) = expMeasure 1)
    {S : ℕ → Ω → ℕ} (hS : ∀ k, Measurable[ℱ k] (S k)) {J : ℕ → Prop} {thr : ℕ → ℝ} (ht : ∀ j, J j → 0 ≤ thr j) (hsome : ∀ᵐ ω ∂P, ∃ j, J j ∧ ∃ᶠ k in atTop, S k ω = j)
    {F : ℝ → ℝ} (hF : Measurable F) {L : ℝ} (hL0 : 0 ≤ L)
    (hF0 : ∫ u, F u ∂(expMeasure 1) = 0) (hF2 : ∫⁻ u, ENNReal.ofReal (F u ^ 2) ∂(expMeasure 1) = ENNReal.ofReal L) :
    ∀ᵐ ω ∂P, Tendsto (fun n => ∑ k ∈ Finset.range n, if countedIn J thr (S k ω) (E (k + 1) ω) then (1 : ℝ) else 0) atTop atTop ∧
      Tendsto (fun n => (∑ k ∈ Finset.range n, if countedIn J thr (S k ω) (E (k + 1) ω) then F (E (k + 1) ω - thr (S k ω)) else 0) /
        ∑ k ∈ Finset.range n, if countedIn J thr (S k ω) (E (k + 1) ω) then (1 : ℝ) else 0) atTop (𝓝 0) := by
  have hP : IsProbabilityMeasure (expMeasure 1) := isProbabilityMeasure_expMeasure one_pos
  set ψ : ℕ × ℝ → ℝ := fun q => if countedIn J thr q.1 q.2 then 1 else 0 with hψd
  set G : ℕ × ℝ → ℝ := fun q => if countedIn J thr q.1 q.2 then F (q.2 - thr q.1) else 0 with hGd
  have ht' : Measurable fun q : ℕ × ℝ => thr q.1 := (measurable_from_top : Measurable thr).comp measurable_fst
  have hset : MeasurableSet {q : ℕ × ℝ | countedIn J thr q.1 q.2} := by
    have h1 : MeasurableSet {q : ℕ × ℝ | J q.1} := measurable_fst (MeasurableSpace.measurableSet_top (s := {j | J j}))
    exact h1.inter (measurableSet_le ht' measurable_snd)
  have hψm : Measurable ψ := Measurable.ite hset measurable_const measurable_const
  have hGm : Measurable G := Measurable.ite hset (hF.comp (measurable_snd.sub ht')) measurable_const
  have hψ : ∀ q, ψ q = 0 ∨ ψ q = 1 := fun q => by rw [hψd]; simp only; split_ifs <;> simp
  have hψ1 : ∀ j, J j → ∀ y, ψ (j, y) = if thr j ≤ y then 1 else 0 := fun j h y => by simp only [hψd, countedIn, h, true_and]
  have hG1 : ∀ j, J j → ∀ y, G (j, y) = excessOf (fun _ => thr j) F (0, y) := fun j h y => by simp only [hGd, countedIn, h, true_and, excessOf]
  have hψ0 : ∀ j, ¬ J j → ∀ y, ψ (j, y) = 0 := fun j h y => by simp only [hψd, countedIn, h, false_and, if_false]
  have hG0 : ∀ j, ¬ J j → ∀ y, G (j, y) = 0 := fun j h y => by simp only [hGd, countedIn, h, false_and, if_false]
  have k1 := used_mean (μ := expMeasure 1) hE hind hl hS hψm hGm hψ hL0
    (fun k => Eventually.of_forall fun ω => by
      by_cases hc : J (S k ω)
      · simp only [hG1 _ hc]
        exact excess_mean_zero hF hF0 (ht _ hc)
      · simp only [hG0 _ hc, integral_zero])
    (fun k => Eventually.of_forall fun ω => by
      by_cases hc : J (S k ω)
      · simp only [hG1 _ hc, hψ1 _ hc, excess_sq]
        rw [excess_lintegral (hF.pow_const 2) hF2 (ht _ hc)]
        have : ∫⁻ y, ENNReal.ofReal (if thr (S k ω) ≤ y then 1 else 0) ∂(expMeasure 1) = ENNReal.ofReal (growP (fun _ => thr (S k ω)) 0) := by
          rw [← ofReal_integral_eq_lintegral_ofReal, reach_integral]
          · rfl
          · refine Integrable.of_bound (Measurable.ite measurableSet_Ici measurable_const measurable_const).aestronglyMeasurable 1 (Eventually.of_forall fun y => ?_)
            split_ifs <;> simp
          · exact Eventually.of_forall fun y => by simp only [Pi.zero_apply]; split_ifs <;> norm_num
        rw [this, ENNReal.ofReal_mul hL0]
      · simp only [hG0 _ hc]; simp)
  have k2 := used_infinite (μ := expMeasure 1) hE hind hl hS hψm hψ
  filter_upwards [k1, k2, hsome] with ω k1 k2 ⟨j, hj, hf⟩
  have hinf : Tendsto (fun n => stepSum ψ S E n ω) atTop atTop := by
    refine k2.2 ?_
    refine tendsto_atTop_mono (fun n => ?_) (frequent_sum hf (Real.exp_pos (-max (thr j) 0)))
    refine Finset.sum_le_sum fun k _ => ?_
    split_ifs with h
    · rw [h]
      simp only [hψ1 _ hj]
      rw [reach_integral]
    · refine integral_nonneg fun y => ?_
      change (0 : ℝ) ≤ ψ (S k ω, y)
      rcases hψ (S k ω, y) with h | h <;> rw [h]; norm_num
  exact ⟨hinf, k1 hinf⟩

end
end SeismoStats.Props
