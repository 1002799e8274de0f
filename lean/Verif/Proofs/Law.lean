/-
Expectations under the exponential law and strong laws of large numbers for simulated magnitudes.
-/
import Verif.Props.SimulateLaw
import Mathlib.Probability.StrongLaw
import Mathlib.MeasureTheory.Integral.Layercake
import Mathlib.MeasureTheory.Integral.IntegralEqImproper
import Mathlib.MeasureTheory.Integral.Prod

namespace SeismoStats.Props
open SeismoStats SeismoStats.Simulate MeasureTheory ProbabilityTheory Filter Topology
open Classical

/-- Probability of at least `c`. -/
theorem exp_tail {c : ℝ} (hc : 0 ≤ c) : expMeasure 1 (Set.Ici c) = ENNReal.ofReal (Real.exp (-c)) := by
  have hP : IsProbabilityMeasure (expMeasure 1) := isProbabilityMeasure_expMeasure one_pos
  have hcdf := cdf_expMeasure_eq one_pos c
  rw [cdf_eq_real, if_pos hc, one_mul] at hcdf
  have h1 : expMeasure 1 (Set.Ici c) = expMeasure 1 (Set.Ioi c) := by
    apply measure_congr
    have : expMeasure 1 {c} = 0 := by
      unfold expMeasure gammaMeasure
      exact withDensity_absolutelyContinuous _ _ (measure_singleton c)
    exact (Ioi_ae_eq_Ici' this).symm
  have h2 : (expMeasure 1).real (Set.Ioi c) = Real.exp (-c) := by
    have h3 : Set.Ioi c = (Set.Iic c)ᶜ := by ext; simp
    rw [h3, measureReal_compl measurableSet_Iic, hcdf]
    simp
  rw [h1, ← h2, Measure.real, ENNReal.ofReal_toReal (measure_ne_top _ _)]

theorem exp_ae_pos : ∀ᵐ x ∂(expMeasure 1), 0 < x := by
  have hP : IsProbabilityMeasure (expMeasure 1) := isProbabilityMeasure_expMeasure one_pos
  rw [ae_iff]
  have hc := cdf_expMeasure_eq one_pos 0
  rw [cdf_eq_real, if_pos le_rfl] at hc
  have : {a : ℝ | ¬ 0 < a} = Set.Iic 0 := by ext x; simp
  rw [this]
  simpa [Measure.real, ENNReal.toReal_eq_zero_iff] using hc

/-- Mean excess over `c`. -/
theorem exp_excess {c : ℝ} (hc : 0 ≤ c) : ∫⁻ e, ENNReal.ofReal (max (e - c) 0) ∂(expMeasure 1) = ENNReal.ofReal (Real.exp (-c)) := by
  rw [lintegral_eq_lintegral_meas_le (expMeasure 1) (f := fun e : ℝ => max (e - c) 0) (Eventually.of_forall fun x => le_max_right _ _) (by fun_prop)]
  have h1 : ∀ t ∈ Set.Ioi (0 : ℝ), expMeasure 1 {a | t ≤ max (a - c) 0} = ENNReal.ofReal (Real.exp (-c) * Real.exp (-t)) := by
    intro t ht
    have ht' : 0 < t := ht
    have : {a : ℝ | t ≤ max (a - c) 0} = Set.Ici (c + t) := by
      ext a
      change t ≤ max (a - c) 0 ↔ c + t ≤ a
      rw [le_max_iff]
      constructor
      · rintro (h | h) <;> linarith
      · intro h; left; linarith
    rw [this, exp_tail (by linarith), neg_add, Real.exp_add]
  rw [setLIntegral_congr_fun measurableSet_Ioi h1]
  rw [← ofReal_integral_eq_lintegral_ofReal]
  · rw [integral_const_mul, integral_exp_neg_Ioi_zero, mul_one]
  · exact (integrableOn_exp_neg_Ioi 0).const_mul _
  · exact Eventually.of_forall fun x => by positivity

/-- Sum of indicators of the levels below an integer. -/
theorem sum_levels (y : ℝ) (z : ℤ) : ENNReal.ofReal (max (((⌊y⌋ : ℤ) : ℝ) - z) 0) = ∑' j : ℕ, if (z : ℝ) + j + 1 ≤ y then 1 else 0 := by
  set n := (⌊y⌋ - z).toNat with hn
  have h1 : ∀ j : ℕ, ((z : ℝ) + j + 1 ≤ y) ↔ j ∈ Finset.range n := by
    intro j
    rw [Finset.mem_range, hn, Int.lt_toNat, lt_sub_iff_add_lt, ← Int.add_one_le_iff, Int.le_floor]
    push_cast
    constructor <;> intro h <;> linarith
  rw [tsum_eq_sum (s := Finset.range n)]
  · rw [Finset.sum_congr rfl (g := fun _ => (1 : ENNReal))]
    · rw [Finset.sum_const, Finset.card_range, nsmul_eq_mul, mul_one]
      rcases le_total ⌊y⌋ z with h | h
      · have h0 : n = 0 := by rw [hn]; omega
        have : ((⌊y⌋ : ℤ) : ℝ) ≤ z := by exact_mod_cast h
        rw [h0, max_eq_right (by linarith)]; simp
      · have h0 : ((n : ℤ) : ℝ) = ((⌊y⌋ - z : ℤ) : ℝ) := by
          rw [hn, Int.toNat_of_nonneg (by omega)]
        have : (z : ℝ) ≤ ⌊y⌋ := by exact_mod_cast h
        rw [max_eq_left (by linarith), ← Int.cast_sub, ← h0, Int.cast_natCast, ENNReal.ofReal_natCast]
    · intro j hj
      rw [if_pos ((h1 j).2 hj)]
  · intro j hj
    rw [if_neg (fun h => hj ((h1 j).1 h))]

/-- Mean excess of the number of bins over `z`. -/
theorem floor_excess {x ε : ℝ} (hx : 0 < x) (hε : ε ≤ 1) {z : ℤ} (hz : 0 ≤ z) :
    ∫⁻ e, ENNReal.ofReal (max (((⌊e / x + ε⌋ : ℤ) : ℝ) - z) 0) ∂(expMeasure 1) = ENNReal.ofReal (Real.exp (-x * (z - ε)) / (Real.exp x - 1)) := by
  simp only [sum_levels]
  have hset : ∀ j : ℕ, MeasurableSet {e : ℝ | (z : ℝ) + j + 1 ≤ e / x + ε} := fun j => measurableSet_le (by fun_prop) (by fun_prop)
  rw [lintegral_tsum]
  · have h1 : ∀ j : ℕ, ∫⁻ e, (if (z : ℝ) + j + 1 ≤ e / x + ε then (1 : ENNReal) else 0) ∂(expMeasure 1) = ENNReal.ofReal (Real.exp (-x * (z - ε)) * Real.exp (-x) * Real.exp (-x) ^ j) := by
      intro j
      have e1 : (fun e : ℝ => if (z : ℝ) + j + 1 ≤ e / x + ε then (1 : ENNReal) else 0) = Set.indicator (Set.Ici (x * (z + j + 1 - ε))) 1 := by
        funext e
        have : (z : ℝ) + j + 1 ≤ e / x + ε ↔ e ∈ Set.Ici (x * (z + j + 1 - ε)) := by
          rw [Set.mem_Ici, ← sub_le_iff_le_add, le_div_iff₀ hx, mul_comm]
        by_cases h : (z : ℝ) + j + 1 ≤ e / x + ε
        · rw [if_pos h, Set.indicator_of_mem (this.1 h)]; rfl
        · rw [if_neg h, Set.indicator_of_notMem (fun h' => h (this.2 h'))]
      have hz' : (0 : ℝ) ≤ z := by exact_mod_cast hz
      rw [e1, lintegral_indicator_one measurableSet_Ici, exp_tail (mul_nonneg hx.le (by have : (0 : ℝ) ≤ j := Nat.cast_nonneg j; linarith))]
      congr 1
      rw [← Real.exp_nat_mul, ← Real.exp_add, ← Real.exp_add]
      congr 1; ring
    simp only [h1]
    have hq0 : 0 ≤ Real.exp (-x) := (Real.exp_pos _).le
    have hq1 : Real.exp (-x) < 1 := Real.exp_lt_one_iff.2 (by linarith)
    have hs := (hasSum_geometric_of_lt_one hq0 hq1).mul_left (Real.exp (-x * (z - ε)) * Real.exp (-x))
    rw [← ENNReal.ofReal_tsum_of_nonneg (fun j => by positivity) hs.summable, hs.tsum_eq]
    congr 1
    have hxp : Real.exp x - 1 ≠ 0 := by
      have : (1 : ℝ) < Real.exp x := Real.one_lt_exp_iff.2 hx
      linarith
    have hxq : 1 - Real.exp (-x) ≠ 0 := by linarith
    have hxx : Real.exp (-x) * Real.exp x = 1 := by rw [← Real.exp_add]; simp
    rw [eq_div_iff hxp, mul_assoc, mul_assoc]
    have : Real.exp (-x) * ((1 - Real.exp (-x))⁻¹ * (Real.exp x - 1)) = 1 := by
      rw [← mul_assoc, mul_comm (Real.exp (-x)), mul_assoc, mul_sub, mul_one, hxx]
      exact inv_mul_cancel₀ hxq
    rw [this, mul_one]
  · intro j
    exact (Measurable.ite (hset j) measurable_const measurable_const).aemeasurable

variable {Ω : Type} [MeasurableSpace Ω] {P : Measure Ω} {g : Ω → Rng}

/-- Strong law for functions of the exponential draws. -/
theorem strong_law_expo (hg : Spec.RandomDraws P g) (f : ℝ → ℝ) (hf : Measurable f) (h0 : ∀ e, 0 ≤ f e) (L : ℝ) (hL : 0 ≤ L)
    (hint : ∫⁻ e, ENNReal.ofReal (f e) ∂(expMeasure 1) = ENNReal.ofReal L) :
    ∀ᵐ ω ∂P, Tendsto (fun n : ℕ => (∑ i ∈ Finset.range n, f ((g ω).expo i)) / n) atTop (𝓝 L) := by
  have hi : Integrable f (expMeasure 1) := by
    refine ⟨hf.aestronglyMeasurable, ?_⟩
    rw [hasFiniteIntegral_iff_ofReal (Eventually.of_forall h0), hint]
    exact ENNReal.ofReal_lt_top
  have hv : ∫ e, f e ∂(expMeasure 1) = L := by
    rw [integral_eq_lintegral_of_nonneg_ae (Eventually.of_forall h0) hf.aestronglyMeasurable, hint, ENNReal.toReal_ofReal hL]
  have hm : ∀ i, AEMeasurable (fun ω => (g ω).expo i) P := fun i => (hg.expo_measurable i).aemeasurable
  have key := strong_law_ae_real (μ := P) (fun i ω => f ((g ω).expo i)) ?_ ?_ ?_
  · have e : ∫ ω, f ((g ω).expo 0) ∂P = L := by
      rw [← hv, ← hg.expo_law 0, integral_map (hm 0) hf.aestronglyMeasurable]
    rw [e] at key
    exact key
  · have : Integrable f (P.map fun ω => (g ω).expo 0) := by rw [hg.expo_law]; exact hi
    exact this.comp_measurable (hg.expo_measurable 0)
  · intro i j hij
    exact (hg.expo_indep.indepFun hij).comp hf hf
  · intro i
    have : IdentDistrib (fun ω => (g ω).expo i) (fun ω => (g ω).expo 0) P P := ⟨hm i, hm 0, by rw [hg.expo_law, hg.expo_law]⟩
    exact this.comp hf

/-- Averages of the even and of the odd members. -/
theorem tendsto_merge (a : ℕ → ℝ) (L : ℝ) (he : Tendsto (fun n : ℕ => (∑ i ∈ Finset.range n, a (2 * i)) / n) atTop (𝓝 L))
    (ho : Tendsto (fun n : ℕ => (∑ i ∈ Finset.range n, a (2 * i + 1)) / n) atTop (𝓝 L)) :
    Tendsto (fun n : ℕ => (∑ i ∈ Finset.range n, a i) / n) atTop (𝓝 L) := by
  -- the sum up to `n` splits
  have hsplit : ∀ n, ∑ i ∈ Finset.range n, a i = (∑ i ∈ Finset.range ((n + 1) / 2), a (2 * i)) + ∑ i ∈ Finset.range (n / 2), a (2 * i + 1) := by
    intro n
    induction n with
    | zero => simp
    | succ n ih =>
      rw [Finset.sum_range_succ, ih]
      rcases Nat.even_or_odd' n with ⟨k, rfl | rfl⟩
      · rw [show (2 * k + 1) / 2 = k by omega, show 2 * k / 2 = k by omega, show (2 * k + 1 + 1) / 2 = k + 1 by omega, Finset.sum_range_succ]; ring
      · rw [show (2 * k + 1 + 1) / 2 = k + 1 by omega, show (2 * k + 1) / 2 = k by omega, show (2 * k + 1 + 1 + 1) / 2 = k + 1 by omega, Finset.sum_range_succ _ k, Finset.sum_range_succ _ k]; ring
  have hq : ∀ c : ℕ, Tendsto (fun n : ℕ => (((n + c) / 2 : ℕ) : ℝ) / n) atTop (𝓝 (1 / 2)) := by
    intro c
    have hb : Tendsto (fun n : ℕ => ((c : ℝ) + 1) / n) atTop (𝓝 0) := tendsto_const_div_atTop_nhds_zero_nat _
    refine tendsto_of_tendsto_of_tendsto_of_le_of_le' (g := fun n : ℕ => 1 / 2 - ((c : ℝ) + 1) / n) (h := fun n : ℕ => 1 / 2 + ((c : ℝ) + 1) / n) ?_ ?_ ?_ ?_
    · simpa using (tendsto_const_nhds (x := (1 / 2 : ℝ))).sub hb
    · simpa using (tendsto_const_nhds (x := (1 / 2 : ℝ))).add hb
    · filter_upwards [eventually_gt_atTop 0] with n hn
      have hn' : (0 : ℝ) < n := by exact_mod_cast hn
      have h1 : n + c ≤ 2 * ((n + c) / 2) + 1 := by omega
      have h2 : (n : ℝ) + c ≤ 2 * (((n + c) / 2 : ℕ) : ℝ) + 1 := by exact_mod_cast h1
      have hc : (0 : ℝ) ≤ c := Nat.cast_nonneg c
      rw [sub_le_iff_le_add, ← add_div, le_div_iff₀ hn']; linarith
    · filter_upwards [eventually_gt_atTop 0] with n hn
      have hn' : (0 : ℝ) < n := by exact_mod_cast hn
      have h1 : 2 * ((n + c) / 2) ≤ n + c := by omega
      have h2 : 2 * (((n + c) / 2 : ℕ) : ℝ) ≤ (n : ℝ) + c := by exact_mod_cast h1
      have hc : (0 : ℝ) ≤ c := Nat.cast_nonneg c
      have e : (1 : ℝ) / 2 + ((c : ℝ) + 1) / n = (n / 2 + c + 1) / n := by field_simp; ring
      rw [e]
      exact div_le_div_of_nonneg_right (by linarith) hn'.le
  have hhalf : ∀ c : ℕ, Tendsto (fun n : ℕ => (n + c) / 2) atTop atTop := by
    intro c
    apply tendsto_atTop.2
    intro b
    filter_upwards [eventually_ge_atTop (2 * b)] with n hn
    omega
  have hE := (he.comp (hhalf 1)).mul (hq 1)
  have hO := (ho.comp (hhalf 0)).mul (hq 0)
  have := hE.add hO
  rw [show L * (1 / 2) + L * (1 / 2) = L by ring] at this
  refine this.congr' ?_
  filter_upwards [eventually_gt_atTop 1] with n hn
  have h1 : (((n + 1) / 2 : ℕ) : ℝ) ≠ 0 := by
    have : 0 < (n + 1) / 2 := by omega
    exact_mod_cast this.ne'
  have h2 : (((n + 0) / 2 : ℕ) : ℝ) ≠ 0 := by
    have : 0 < (n + 0) / 2 := by omega
    exact_mod_cast this.ne'
  simp only [Function.comp_apply]
  rw [hsplit n, add_div, div_mul_div_cancel₀ h1, div_mul_div_cancel₀ h2, add_zero]

/-- Strong law for functions of two consecutive exponential draws. -/
theorem strong_law_pairs [IsProbabilityMeasure P] (hg : Spec.RandomDraws P g) (f : ℝ × ℝ → ℝ) (hf : Measurable f) (h0 : ∀ e, 0 ≤ f e) (L : ℝ) (hL : 0 ≤ L)
    (hint : ∫⁻ e, ENNReal.ofReal (f e) ∂((expMeasure 1).prod (expMeasure 1)) = ENNReal.ofReal L) :
    ∀ᵐ ω ∂P, Tendsto (fun n : ℕ => (∑ i ∈ Finset.range n, f ((g ω).expo i, (g ω).expo (i + 1))) / n) atTop (𝓝 L) := by
  have hi : Integrable f ((expMeasure 1).prod (expMeasure 1)) := by
    refine ⟨hf.aestronglyMeasurable, ?_⟩
    rw [hasFiniteIntegral_iff_ofReal (Eventually.of_forall h0), hint]
    exact ENNReal.ofReal_lt_top
  have hv : ∫ e, f e ∂((expMeasure 1).prod (expMeasure 1)) = L := by
    rw [integral_eq_lintegral_of_nonneg_ae (Eventually.of_forall h0) hf.aestronglyMeasurable, hint, ENNReal.toReal_ofReal hL]
  have hmp : ∀ i, Measurable fun ω => ((g ω).expo i, (g ω).expo (i + 1)) := fun i => (hg.expo_measurable i).prodMk (hg.expo_measurable (i + 1))
  have hlaw : ∀ i, P.map (fun ω => ((g ω).expo i, (g ω).expo (i + 1))) = (expMeasure 1).prod (expMeasure 1) := by
    intro i
    have h := (hg.expo_indep.indepFun (Nat.succ_ne_self i).symm).map_prod_eq_prod_map_map (hg.expo_measurable i).aemeasurable (hg.expo_measurable (i + 1)).aemeasurable
    rw [hg.expo_law, hg.expo_law] at h
    exact h
  have half : ∀ c : ℕ, ∀ᵐ ω ∂P, Tendsto (fun n : ℕ => (∑ i ∈ Finset.range n, f ((g ω).expo (2 * i + c), (g ω).expo (2 * i + c + 1))) / n) atTop (𝓝 L) := by
    intro c
    have key := strong_law_ae_real (μ := P) (fun i ω => f ((g ω).expo (2 * i + c), (g ω).expo (2 * i + c + 1))) ?_ ?_ ?_
    · have e : ∫ ω, f ((g ω).expo (2 * 0 + c), (g ω).expo (2 * 0 + c + 1)) ∂P = L := by
        rw [← hv, ← hlaw (2 * 0 + c), integral_map (hmp _).aemeasurable hf.aestronglyMeasurable]
      rw [e] at key
      exact key
    · have : Integrable f (P.map fun ω => ((g ω).expo (2 * 0 + c), (g ω).expo (2 * 0 + c + 1))) := by rw [hlaw]; exact hi
      exact this.comp_measurable (hmp _)
    · intro i j hij
      have := hg.expo_indep.indepFun_prodMk_prodMk hg.expo_measurable (2 * i + c) (2 * i + c + 1) (2 * j + c) (2 * j + c + 1)
        (by omega) (by omega) (by omega) (by omega)
      exact this.comp hf hf
    · intro i
      have : IdentDistrib (fun ω => ((g ω).expo (2 * i + c), (g ω).expo (2 * i + c + 1))) (fun ω => ((g ω).expo (2 * 0 + c), (g ω).expo (2 * 0 + c + 1))) P P :=
        ⟨(hmp _).aemeasurable, (hmp _).aemeasurable, by rw [hlaw, hlaw]⟩
      exact this.comp hf
  filter_upwards [half 0, half 1] with ω h1 h2
  exact tendsto_merge (fun i => f ((g ω).expo i, (g ω).expo (i + 1))) L h1 h2

/-- The law of the number of bins: at least `z`. -/
theorem floor_tail {x ε : ℝ} (hx : 0 < x) (hε : ε ≤ 1) {z : ℤ} (hz : 1 ≤ z) :
    ∫⁻ e, ENNReal.ofReal (if z ≤ ⌊e / x + ε⌋ then 1 else 0) ∂(expMeasure 1) = ENNReal.ofReal (Real.exp (-x * (z - ε))) := by
  have hz' : (1 : ℝ) ≤ z := by exact_mod_cast hz
  have e1 : (fun e : ℝ => ENNReal.ofReal (if z ≤ ⌊e / x + ε⌋ then 1 else 0)) = Set.indicator (Set.Ici (x * (z - ε))) 1 := by
    funext e
    have : z ≤ ⌊e / x + ε⌋ ↔ e ∈ Set.Ici (x * (z - ε)) := by
      rw [Int.le_floor, Set.mem_Ici, ← sub_le_iff_le_add, le_div_iff₀ hx, mul_comm]
    by_cases h : z ≤ ⌊e / x + ε⌋
    · rw [if_pos h, Set.indicator_of_mem (this.1 h)]; simp
    · rw [if_neg h, Set.indicator_of_notMem (fun h' => h (this.2 h'))]; simp
  rw [e1, lintegral_indicator_one measurableSet_Ici, exp_tail (mul_nonneg hx.le (by linarith)), neg_mul]

theorem tail_lintegral {c : ℝ} (hc : 0 ≤ c) : ∫⁻ e, ENNReal.ofReal (if c ≤ e then 1 else 0) ∂(expMeasure 1) = ENNReal.ofReal (Real.exp (-c)) := by
  have e1 : (fun e : ℝ => ENNReal.ofReal (if c ≤ e then 1 else 0)) = Set.indicator (Set.Ici c) 1 := by
    funext e
    by_cases h : c ≤ e
    · rw [if_pos h, Set.indicator_of_mem (Set.mem_Ici.2 h)]; simp
    · rw [if_neg h, Set.indicator_of_notMem (fun h' => h (Set.mem_Ici.1 h'))]; simp
  rw [e1, lintegral_indicator_one measurableSet_Ici, exp_tail hc]

/-- Two functionals of pairs whose conditional means have the ratio `κ`. -/
theorem pair_ratio (φ ψ : ℝ × ℝ → ℝ) (hφ : Measurable φ) (hψ : Measurable ψ) (κ : ℝ) (hκ : 0 ≤ κ) (h : ℝ → ℝ) (hpos : ∀ e, 0 < h e) (hh : Measurable h) (h1 : ∀ e, 0 < e → h e ≤ 1)
    (iψ : ∀ e, 0 < e → ∫⁻ y, ENNReal.ofReal (ψ (e, y)) ∂(expMeasure 1) = ENNReal.ofReal (h e))
    (iφ : ∀ e, 0 < e → ∫⁻ y, ENNReal.ofReal (φ (e, y)) ∂(expMeasure 1) = ENNReal.ofReal (κ * h e)) :
    ∃ p, 0 < p ∧ ∫⁻ e, ENNReal.ofReal (ψ e) ∂((expMeasure 1).prod (expMeasure 1)) = ENNReal.ofReal p ∧
      ∫⁻ e, ENNReal.ofReal (φ e) ∂((expMeasure 1).prod (expMeasure 1)) = ENNReal.ofReal (κ * p) := by
  have hP : IsProbabilityMeasure (expMeasure 1) := isProbabilityMeasure_expMeasure one_pos
  set q := ∫⁻ e, ENNReal.ofReal (h e) ∂(expMeasure 1) with hq
  have hq1 : q ≤ 1 := by
    have : q ≤ ∫⁻ _, 1 ∂(expMeasure 1) := by
      apply lintegral_mono_ae
      filter_upwards [exp_ae_pos] with e he
      exact ENNReal.ofReal_le_one.2 (h1 e he)
    simpa using this
  have hqt : q ≠ ⊤ := ne_top_of_le_ne_top ENNReal.one_ne_top hq1
  have hq0 : 0 < q := by
    rw [hq, lintegral_pos_iff_support (by fun_prop)]
    have : Function.support (fun e => ENNReal.ofReal (h e)) = Set.univ := by
      ext e
      simp [hpos e]
    rw [this, measure_univ]
    exact one_pos
  refine ⟨q.toReal, ENNReal.toReal_pos hq0.ne' hqt, ?_, ?_⟩
  · rw [lintegral_prod _ (by fun_prop), ENNReal.ofReal_toReal hqt, hq]
    apply lintegral_congr_ae
    filter_upwards [exp_ae_pos] with e he
    exact iψ e he
  · rw [lintegral_prod _ (by fun_prop), ENNReal.ofReal_mul hκ, ENNReal.ofReal_toReal hqt, hq, ← lintegral_const_mul _ (by fun_prop)]
    apply lintegral_congr_ae
    filter_upwards [exp_ae_pos] with e he
    rw [← ENNReal.ofReal_mul hκ]
    exact iφ e he

end SeismoStats.Props
