/-
Sums over the events since a year, for magnitudes in bins.
-/
import Verif.Proofs.Adapted
import Verif.Props.CoveragePositive
import Mathlib.MeasureTheory.Integral.Bochner.Set

namespace SeismoStats.Props
open SeismoStats SeismoStats.Simulate MeasureTheory ProbabilityTheory Filter Topology
open Classical
noncomputable section

/-! ### The bin of a draw -/

/-- Number of the bin of a draw, for bins of width `x` (in units of the scale). -/
def binOf (x e : ℝ) : ℕ := ⌊e / x + 1 / 10 ^ 12⌋.toNat

theorem binOf_measurable (x : ℝ) : Measurable (binOf x) := by
  have h1 : Measurable fun z : ℤ => z.toNat := measurable_from_top
  exact h1.comp (Int.measurable_floor.comp (by fun_prop))

/-- Constant of the geometric law. -/
def binConst (x : ℝ) : ℝ := Real.exp (x / 10 ^ 12) * (1 - Real.exp (-x))

theorem binConst_pos {x : ℝ} (hx : 0 < x) : 0 < binConst x := by
  unfold binConst
  have : Real.exp (-x) < 1 := Real.exp_lt_one_iff.2 (by linarith)
  exact mul_pos (Real.exp_pos _) (by linarith)

theorem bin_law {x : ℝ} (hx : 0 < x) {j : ℕ} (hj : 1 ≤ j) : (expMeasure 1).real {e | binOf x e = j} = binConst x * Real.exp (-(x * j)) := by
  have hP : IsProbabilityMeasure (expMeasure 1) := isProbabilityMeasure_expMeasure one_pos
  have hj' : (1 : ℝ) ≤ j := by exact_mod_cast hj
  have e1 : {e | binOf x e = j} = Set.Ici (x * (j - 1 / 10 ^ 12)) \ Set.Ici (x * (j + 1 - 1 / 10 ^ 12)) := by
    ext e
    have h1 : ∀ z : ℝ, x * (z - 1 / 10 ^ 12) ≤ e ↔ z ≤ e / x + 1 / 10 ^ 12 := fun z => by
      rw [← sub_le_iff_le_add, le_div_iff₀ hx, mul_comm]
    simp only [Set.mem_ofPred_eq, Set.mem_sdiff, Set.mem_Ici, h1]
    unfold binOf
    have h2 : ((j : ℤ) : ℝ) = j := by push_cast; rfl
    have h3 : ((j + 1 : ℤ) : ℝ) = (j : ℝ) + 1 := by push_cast; rfl
    rw [← h3, ← h2, ← Int.le_floor, ← Int.le_floor]
    omega
  have hε : (1 : ℝ) / 10 ^ 12 ≤ 1 := by norm_num
  have hsub : Set.Ici (x * ((j : ℝ) + 1 - 1 / 10 ^ 12)) ⊆ Set.Ici (x * ((j : ℝ) - 1 / 10 ^ 12)) :=
    Set.Ici_subset_Ici.2 (mul_le_mul_of_nonneg_left (by linarith) hx.le)
  rw [e1, measureReal_sdiff hsub measurableSet_Ici, Measure.real, Measure.real, exp_tail (mul_nonneg hx.le (by linarith)), exp_tail (mul_nonneg hx.le (by linarith)),
    ENNReal.toReal_ofReal (Real.exp_pos _).le, ENNReal.toReal_ofReal (Real.exp_pos _).le]
  unfold binConst
  have a1 : Real.exp (-(x * ((j : ℝ) - 1 / 10 ^ 12))) = Real.exp (x / 10 ^ 12) * Real.exp (-(x * j)) := by rw [← Real.exp_add]; congr 1; ring
  have a2 : Real.exp (-(x * ((j : ℝ) + 1 - 1 / 10 ^ 12))) = Real.exp (x / 10 ^ 12) * Real.exp (-x) * Real.exp (-(x * j)) := by
    rw [← Real.exp_add, ← Real.exp_add]; congr 1; ring
  rw [a1, a2]
  ring

theorem bin_bound {x e : ℝ} (hx : 0 < x) : (binOf x e : ℝ) ≤ max e 0 / x + 1 := by
  unfold binOf
  have h1 : ((⌊e / x + 1 / 10 ^ 12⌋.toNat : ℕ) : ℝ) = ((max ⌊e / x + 1 / 10 ^ 12⌋ 0 : ℤ) : ℝ) := by
    rw [← Int.toNat_eq_max]; rfl
  rw [h1]
  push_cast
  refine max_le ?_ (by positivity)
  have h2 := Int.floor_le (e / x + 1 / 10 ^ 12)
  have h3 : e / x ≤ max e 0 / x := div_le_div_of_nonneg_right (le_max_left _ _) hx.le
  have h4 : (1 : ℝ) / 10 ^ 12 ≤ 1 := by norm_num
  linarith

theorem bin_memLp {x A : ℝ} (hx : 0 < x) {h : ℕ → ℝ} (hh : ∀ j, |h j| ≤ A * (1 + j)) : MemLp (fun e => h (binOf x e)) 2 (expMeasure 1) := by
  have hP : IsProbabilityMeasure (expMeasure 1) := isProbabilityMeasure_expMeasure one_pos
  obtain ⟨-, m2⟩ := moments_continuous hx
  have hm : Measurable fun u : ℝ => max u 0 / x := by fun_prop
  have hF2 : Integrable (fun u : ℝ => (max u 0 / x) ^ 2) (expMeasure 1) := by
    refine ⟨(hm.pow_const 2).aestronglyMeasurable, ?_⟩
    rw [hasFiniteIntegral_iff_ofReal (Eventually.of_forall fun u => sq_nonneg _), m2]
    exact ENNReal.ofReal_lt_top
  have hL : MemLp (fun u : ℝ => max u 0 / x) 2 (expMeasure 1) := (memLp_two_iff_integrable_sq hm.aestronglyMeasurable).2 hF2
  have hL2 := (hL.add (memLp_const (2 : ℝ))).const_mul A
  have hA : 0 ≤ A := by
    have := (abs_nonneg _).trans (hh 0)
    simpa using this
  refine hL2.mono' ((measurable_from_top : Measurable h).comp (binOf_measurable x)).aestronglyMeasurable (Eventually.of_forall fun e => ?_)
  rw [Real.norm_eq_abs]
  refine (hh _).trans ?_
  refine mul_le_mul_of_nonneg_left ?_ hA
  have := bin_bound (e := e) hx
  simp only [Pi.add_apply]
  linarith

theorem bin_mean {x A : ℝ} (hx : 0 < x) {h : ℕ → ℝ} (hh : ∀ j, |h j| ≤ A * (1 + j)) (h0 : h 0 = 0) :
    ∫ e, h (binOf x e) ∂(expMeasure 1) = binConst x * ∑' j : ℕ, h j * Real.exp (-(x * j)) := by
  have hP : IsProbabilityMeasure (expMeasure 1) := isProbabilityMeasure_expMeasure one_pos
  have hm := binOf_measurable x
  have hi : Integrable (fun e => h (binOf x e)) (expMeasure 1) := (bin_memLp hx hh).integrable (by norm_num)
  rw [← integral_map (f := h) hm.aemeasurable (measurable_from_top : Measurable h).aestronglyMeasurable,
    integral_countable ((integrable_map_measure (measurable_from_top : Measurable h).aestronglyMeasurable hm.aemeasurable).2 hi), ← tsum_mul_left]
  refine tsum_congr fun j => ?_
  rcases Nat.eq_zero_or_pos j with rfl | hj
  · rw [h0]; simp
  · rw [map_measureReal_apply hm (measurableSet_singleton j), show binOf x ⁻¹' {j} = {e | binOf x e = j} from rfl, bin_law hx hj, smul_eq_mul]
    ring

/-! ### Sums over the events since a year -/

variable {Ω : Type} [m0 : MeasurableSpace Ω] {P : Measure Ω} [IsProbabilityMeasure P] {ℱ : Filtration ℕ m0} {E : ℕ → Ω → ℝ}

theorem since_mean (hE : ∀ i, Measurable[ℱ i] (E i)) (hind : ∀ i, Indep (MeasurableSpace.comap (E (i + 1)) inferInstance) (ℱ i) P) (hl : ∀ i, P.map (E i) = expMeasure 1)
    {y : ℕ → Ω → ℝ} (hy : ∀ k, Measurable[ℱ k] (y (k + 1))) (t : ℝ) {h : ℝ → ℝ} (hh : Measurable h) (h2 : MemLp h 2 (expMeasure 1)) :
    ∀ᵐ ω ∂P, ∀ c, 0 < c → Tendsto (fun n : ℕ => (∑ i ∈ Finset.range n, if t ≤ y i ω then (1 : ℝ) else 0) / n) atTop (𝓝 c) →
      Tendsto (fun n : ℕ => (∑ i ∈ Finset.range n, if t ≤ y i ω then h (E i ω) else 0) / n) atTop (𝓝 (c * ∫ e, h e ∂(expMeasure 1))) := by
  have hP : IsProbabilityMeasure (expMeasure 1) := isProbabilityMeasure_expMeasure one_pos
  set m := ∫ e, h e ∂(expMeasure 1) with hm
  set ψ : ℝ × ℝ → ℝ := fun q => if t ≤ q.1 then 1 else 0 with hψd
  set F : ℝ × ℝ → ℝ := fun q => if t ≤ q.1 then h q.2 - m else 0 with hFd
  have hset : MeasurableSet {q : ℝ × ℝ | t ≤ q.1} := measurableSet_le measurable_const measurable_fst
  have hψm : Measurable ψ := Measurable.ite hset measurable_const measurable_const
  have hFm : Measurable F := Measurable.ite hset ((hh.comp measurable_snd).sub_const m) measurable_const
  have hi : Integrable h (expMeasure 1) := h2.integrable (by norm_num)
  have hD2 : MemLp (fun u => h u - m) 2 (expMeasure 1) := h2.sub (memLp_const m)
  have k1 := used_mean (μ := expMeasure 1) hE hind hl hy hψm hFm (fun q => by simp only [hψd]; split_ifs <;> simp)
    (integral_nonneg fun u => sq_nonneg (h u - m) : 0 ≤ ∫ u, (h u - m) ^ 2 ∂(expMeasure 1))
    (fun k => Eventually.of_forall fun ω => by
      by_cases hc : t ≤ y (k + 1) ω
      · simp only [hFd, hc, if_true]
        rw [integral_sub hi (integrable_const m)]
        simp [← hm]
      · simp only [hFd, hc, if_false, integral_zero])
    (fun k => Eventually.of_forall fun ω => by
      by_cases hc : t ≤ y (k + 1) ω
      · simp only [hFd, hψd, hc, if_true]
        rw [← ofReal_integral_eq_lintegral_ofReal hD2.integrable_sq (Eventually.of_forall fun u => sq_nonneg _)]
        simp
      · simp only [hFd, hψd, hc, if_false]; simp)
  filter_upwards [k1] with ω k1 c hc hD
  set D : ℕ → ℝ := fun n => ∑ i ∈ Finset.range n, if t ≤ y i ω then (1 : ℝ) else 0 with hDd
  have hψs : ∀ n, stepSum ψ (fun k => y (k + 1)) E n ω = D (n + 1) - D 1 := by
    intro n
    simp only [hDd]
    rw [Finset.sum_range_succ', Finset.sum_range_one, add_sub_cancel_right]
    rfl
  have hpos : Tendsto (fun n : ℕ => D (n + 1)) atTop atTop := by
    have h1 : Tendsto (fun n : ℕ => D n / n * n) atTop atTop := hD.pos_mul_atTop hc tendsto_natCast_atTop_atTop
    refine (tendsto_add_atTop_iff_nat 1).2 (h1.congr' ?_)
    filter_upwards [eventually_gt_atTop 0] with n hn
    have : (n : ℝ) ≠ 0 := by exact_mod_cast hn.ne'
    field_simp
  have hinf : Tendsto (fun n => stepSum ψ (fun k => y (k + 1)) E n ω) atTop atTop := by
    simp only [hψs]
    exact tendsto_atTop_add_const_right _ _ hpos
  have k2 := k1 hinf
  have hD1 : Tendsto (fun n : ℕ => D (n + 1) / ((n + 1 : ℕ) : ℝ)) atTop (𝓝 c) := (tendsto_add_atTop_iff_nat 1).2 hD
  have hn0 : Tendsto (fun n : ℕ => ((n + 1 : ℕ) : ℝ)) atTop atTop := tendsto_natCast_atTop_atTop.comp (tendsto_add_atTop_nat 1)
  have hψn : Tendsto (fun n : ℕ => stepSum ψ (fun k => y (k + 1)) E n ω / ((n + 1 : ℕ) : ℝ)) atTop (𝓝 c) := by
    have := hD1.sub (Tendsto.div_atTop (tendsto_const_nhds (x := D 1)) hn0)
    rw [sub_zero] at this
    refine this.congr fun n => ?_
    rw [hψs, sub_div]
  have hFn : Tendsto (fun n : ℕ => stepSum F (fun k => y (k + 1)) E n ω / ((n + 1 : ℕ) : ℝ)) atTop (𝓝 0) := by
    have := k2.mul hψn
    rw [zero_mul] at this
    refine this.congr' ?_
    filter_upwards [hinf.eventually (eventually_gt_atTop 0)] with n hn
    field_simp
  rw [← tendsto_add_atTop_iff_nat 1]
  have hsum : ∀ n, (∑ i ∈ Finset.range (n + 1), if t ≤ y i ω then h (E i ω) else 0) =
      stepSum F (fun k => y (k + 1)) E n ω + m * stepSum ψ (fun k => y (k + 1)) E n ω + if t ≤ y 0 ω then h (E 0 ω) else 0 := by
    intro n
    rw [Finset.sum_range_succ']
    congr 1
    unfold stepSum
    rw [Finset.mul_sum, ← Finset.sum_add_distrib]
    refine Finset.sum_congr rfl fun k _ => ?_
    simp only [hFd, hψd]
    split_ifs <;> ring
  have := (hFn.add (hψn.const_mul m)).add (Tendsto.div_atTop (tendsto_const_nhds (x := if t ≤ y 0 ω then h (E 0 ω) else 0)) hn0)
  rw [zero_add, add_zero, mul_comm] at this
  refine this.congr fun n => ?_
  rw [hsum]
  ring

end
end SeismoStats.Props
