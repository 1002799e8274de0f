/-
Support for property C120: the normalised mean autocorrelation converges in law.
-/
import Verif.Proofs.MacClt

namespace SeismoStats.Blocks
open SeismoStats SeismoStats.Simulate SeismoStats.Props MeasureTheory ProbabilityTheory Filter Topology
open scoped BigOperators NNReal
open Classical
noncomputable section

/-! ### the numbers -/

/-- The mean number of windows of an offset. -/
def meanN (n N : ℕ) : ℝ := ((N + 1 - n : ℕ) : ℝ) / n

/-- The deviation of the mean autocorrelation. -/
def devN (n N : ℕ) : ℝ := (meanN n N - 1 - 2) / ((meanN n N - 1) * Real.sqrt (meanN n N - 1))

theorem shift_ratio (a : ℕ) : Tendsto (fun N : ℕ => ((N - a : ℕ) : ℝ) / N) atTop (𝓝 1) := by
  have h := ((tendsto_natCast_atTop_atTop (R := ℝ)).const_div_atTop (a : ℝ)).const_sub 1
  rw [sub_zero] at h
  refine h.congr' ?_
  filter_upwards [eventually_gt_atTop a] with N hN
  have : (N : ℝ) ≠ 0 := by exact_mod_cast (by omega : N ≠ 0)
  rw [Nat.cast_sub hN.le]
  field_simp

theorem tendsto_sub_nat (a : ℕ) : Tendsto (fun N : ℕ => N - a) atTop atTop := tendsto_sub_atTop_nat a

theorem count_ratio {n : ℕ} (hn : 0 < n) (off : ℕ) : Tendsto (fun N : ℕ => (((N - off) / n : ℕ) : ℝ) / N) atTop (𝓝 (1 / n)) := by
  have hnR : (0 : ℝ) < n := by exact_mod_cast hn
  have h1 : Tendsto (fun M : ℕ => ((M / n : ℕ) : ℝ) / M) atTop (𝓝 (1 / n)) := by
    have := (tendsto_nat_floor_mul_div_atTop (R := ℝ) (a := 1 / (n : ℝ)) (by positivity)).comp tendsto_natCast_atTop_atTop
    refine this.congr fun M => ?_
    simp only [Function.comp]
    rw [one_div_mul_eq_div, Nat.floor_div_eq_div]
  have h := (h1.comp (tendsto_sub_nat off)).mul (shift_ratio off)
  rw [mul_one] at h
  refine h.congr' ?_
  filter_upwards [eventually_gt_atTop off] with N hN
  have : ((N - off : ℕ) : ℝ) ≠ 0 := by exact_mod_cast (by omega : N - off ≠ 0)
  simp only [Function.comp]
  rw [div_mul_div_cancel₀ this]

theorem count_atTop {n : ℕ} (hn : 0 < n) (off : ℕ) : Tendsto (fun N : ℕ => (N - off) / n) atTop atTop :=
  (Nat.tendsto_div_const_atTop hn.ne').comp (tendsto_sub_nat off)

theorem meanN_ratio {n : ℕ} (hn : 0 < n) (c : ℝ) : Tendsto (fun N : ℕ => (meanN n N - c) / N) atTop (𝓝 (1 / n)) := by
  have hnR : (0 : ℝ) < n := by exact_mod_cast hn
  have h1 := (shift_ratio (n - 1)).div_const (n : ℝ)
  have h := h1.sub ((tendsto_natCast_atTop_atTop (R := ℝ)).const_div_atTop c)
  rw [sub_zero] at h
  refine h.congr fun N => ?_
  unfold meanN
  rw [show N + 1 - n = N - (n - 1) by omega]
  ring

theorem meanN_atTop {n : ℕ} (hn : 0 < n) : Tendsto (meanN n) atTop atTop := by
  have hnR : (0 : ℝ) < n := by exact_mod_cast hn
  unfold meanN
  refine Tendsto.atTop_div_const hnR (tendsto_natCast_atTop_atTop.comp ?_)
  refine (tendsto_sub_nat (n - 1)).congr fun N => by omega

theorem mean_over {n : ℕ} (hn : 0 < n) (c d : ℝ) : Tendsto (fun N : ℕ => (meanN n N - c) / (meanN n N - d)) atTop (𝓝 1) := by
  have hnR : (0 : ℝ) < n := by exact_mod_cast hn
  have h := (meanN_ratio hn c).div (meanN_ratio hn d) (by positivity)
  rw [div_self (by positivity)] at h
  refine h.congr' ?_
  filter_upwards [eventually_gt_atTop 0] with N hN
  have : (N : ℝ) ≠ 0 := by exact_mod_cast hN.ne'
  simp only [Pi.div_apply]
  rw [div_div_div_cancel_right₀ this]

theorem factor_limit {n : ℕ} (hn : 0 < n) (off : ℕ) : Tendsto (fun N : ℕ => 1 / (n * devN n N * Real.sqrt ((N - off) / n : ℕ))) atTop (𝓝 (1 / n)) := by
  have hnR : (0 : ℝ) < n := by exact_mod_cast hn
  have h1 : Tendsto (fun N : ℕ => (meanN n N - 1) / ((N - off) / n : ℕ)) atTop (𝓝 1) := by
    have h := (meanN_ratio hn 1).div (count_ratio hn off) (by positivity)
    rw [div_self (by positivity)] at h
    refine h.congr' ?_
    filter_upwards [eventually_gt_atTop 0] with N hN
    have : (N : ℝ) ≠ 0 := by exact_mod_cast hN.ne'
    simp only [Pi.div_apply]
    rw [div_div_div_cancel_right₀ this]
  have h2 := (Real.continuous_sqrt.tendsto 1).comp h1
  rw [Real.sqrt_one] at h2
  have h3 := ((mean_over hn 1 3).mul h2).const_mul (1 / (n : ℝ))
  rw [mul_one, mul_one] at h3
  refine h3.congr' ?_
  filter_upwards [(meanN_atTop hn).eventually_gt_atTop 3] with N hN
  simp only [Function.comp]
  unfold devN
  rw [Real.sqrt_div (by linarith)]
  rw [show meanN n N - 1 - 2 = meanN n N - 3 by ring]
  have a1 : 0 < Real.sqrt (meanN n N - 1) := Real.sqrt_pos.2 (by linarith)
  have a2 : meanN n N - 1 ≠ 0 := by intro h; linarith
  have a3 : meanN n N - 3 ≠ 0 := by intro h; linarith
  by_cases hz : Real.sqrt ((N - off) / n : ℕ) = 0
  · rw [hz]; simp
  · field_simp

theorem sum_factor {n : ℕ} (hn : 0 < n) (off : ℕ) (v : ℝ) :
    Tendsto (fun N : ℕ => Real.sqrt ((N - off) / n : ℕ) * (1 / (Real.sqrt (N + 1 - 2 * n : ℕ) * (v * Real.sqrt n)))) atTop (𝓝 (1 / n / v)) := by
  have hnR : (0 : ℝ) < n := by exact_mod_cast hn
  have h1 : Tendsto (fun N : ℕ => (((N - off) / n : ℕ) : ℝ) / (N + 1 - 2 * n : ℕ)) atTop (𝓝 (1 / n)) := by
    have h := (count_ratio hn off).div (shift_ratio (2 * n - 1)) one_ne_zero
    rw [div_one] at h
    refine h.congr' ?_
    filter_upwards [eventually_gt_atTop 0] with N hN
    have : (N : ℝ) ≠ 0 := by exact_mod_cast hN.ne'
    simp only [Pi.div_apply]
    rw [div_div_div_cancel_right₀ this, show N + 1 - 2 * n = N - (2 * n - 1) by omega]
  have h2 := ((Real.continuous_sqrt.tendsto _).comp h1).mul_const (1 / (v * Real.sqrt n))
  have e : Real.sqrt (1 / n) * (1 / (v * Real.sqrt n)) = 1 / n / v := by
    have : 0 < Real.sqrt n := Real.sqrt_pos.2 hnR
    have h3 : Real.sqrt n * Real.sqrt n = n := Real.mul_self_sqrt hnR.le
    rw [Real.sqrt_div zero_le_one, Real.sqrt_one]
    nth_rewrite 3 [← h3]
    rw [div_mul_div_comm, div_div]
    congr 1
    · ring
    · ring
  rw [e] at h2
  refine h2.congr fun N => ?_
  simp only [Function.comp]
  rw [Real.sqrt_div (Nat.cast_nonneg _), div_mul_eq_mul_div, mul_one_div, mul_one_div, div_div, mul_comm (v * _)]

theorem mu_limit {n : ℕ} (hn : 0 < n) : Tendsto (fun N : ℕ => -1 / meanN n N / devN n N) atTop (𝓝 0) := by
  have h1 := (Real.tendsto_sqrt_atTop.comp (tendsto_atTop_add_const_right _ (-1) (meanN_atTop hn))).const_div_atTop (-1)
  have h := ((mean_over hn 1 3).mul (mean_over hn 1 0)).mul h1
  rw [mul_zero] at h
  refine h.congr' ?_
  filter_upwards [(meanN_atTop hn).eventually_gt_atTop 3] with N hN
  simp only [Function.comp]
  unfold devN
  rw [show meanN n N - 1 - 2 = meanN n N - 3 by ring, ← sub_eq_add_neg, sub_zero]
  have a0 : Real.sqrt (meanN n N - 1) * Real.sqrt (meanN n N - 1) = meanN n N - 1 := Real.mul_self_sqrt (by linarith)
  have a1 : 0 < Real.sqrt (meanN n N - 1) := Real.sqrt_pos.2 (by linarith)
  have a3 : meanN n N - 3 ≠ 0 := by intro h; linarith
  have a4 : meanN n N ≠ 0 := by intro h; linarith
  generalize Real.sqrt (meanN n N - 1) = x at *
  rw [← a0]
  field_simp

variable {Ω : Type} [MeasurableSpace Ω] {P : Measure Ω} [IsProbabilityMeasure P] {E : ℕ → Ω → ℝ} {μ : Measure ℝ}

/-- The mean over the offsets of the autocorrelations of the windows, centred and divided by its deviation. -/
def macZ {n : ℕ} (f : (Fin n → ℝ) → ℝ) (E : ℕ → Ω → ℝ) (N : ℕ) (ω : Ω) : ℝ :=
  ((∑ off ∈ Finset.range n, seriesI (offY f E off ω) ((N - off) / n)) / n - -1 / meanN n N) / devN n N

variable (hm : ∀ i, Measurable (E i)) (hi : iIndepFun E P) (hl : ∀ i, P.map (E i) = μ) {n : ℕ} {f : (Fin n → ℝ) → ℝ} (hf : Measurable f)
  (h0 : ∫ ω, win f (fun i => E i ω) 0 ∂P = 0) (h2 : MemLp (fun ω => win f (fun i => E i ω) 0) 2 P)

omit [IsProbabilityMeasure P] in
include hm hf in
theorem macZ_measurable (N : ℕ) : Measurable (macZ f E N) := by
  have hym : ∀ off k, Measurable fun ω => offY f E off ω k := fun off k => win_meas hm hf _
  have hI : ∀ off K, Measurable fun ω => seriesI (offY f E off ω) K := by
    intro off K
    unfold seriesI
    have hs : Measurable fun ω => (∑ j ∈ Finset.range K, offY f E off ω j) / (K : ℝ) := (Finset.measurable_sum _ fun i _ => hym off i).div_const _
    exact (Finset.measurable_sum _ fun i _ => ((hym off i).sub hs).mul ((hym off (i + 1)).sub hs)).div
      (Finset.measurable_sum _ fun i _ => ((hym off i).sub hs).pow_const 2)
  exact ((((Finset.measurable_sum _ fun off _ => hI off _).div_const _).sub_const _).div_const _)

include hm hi hl hf h0 h2 in
/-- The normalised mean autocorrelation is asymptotically normal with a variance of at most one. -/
theorem macZ_clt (hn : 0 < n) (hv : 0 < ∫ ω, win f (fun i => E i ω) 0 ^ 2 ∂P) :
    ∃ γ : ℝ≥0, γ ≤ 1 ∧ TendstoInDistribution (macZ f E) atTop (id : ℝ → ℝ) (fun _ => P) (gaussianReal 0 γ) := by
  set v := ∫ ω, win f (fun i => E i ω) 0 ^ 2 ∂P with hvd
  have hnR : (0 : ℝ) < n := by exact_mod_cast hn
  obtain ⟨τ, hτ, hclt⟩ := clt_windows hm hi hl hf h0 h2 hn
  set c : ℝ := v * Real.sqrt n with hc
  have hc0 : 0 < c := mul_pos hv (Real.sqrt_pos.2 hnR)
  have hc2 : c ^ 2 = n * v ^ 2 := by rw [hc, mul_pow, Real.sq_sqrt hnR.le, mul_comm]
  have hM : Tendsto (fun N : ℕ => N + 1 - 2 * n) atTop atTop := (tendsto_sub_nat (2 * n - 1)).congr fun N => by omega
  have h1 : TendstoInDistribution (fun N => allSum f E (N + 1 - 2 * n)) atTop (id : ℝ → ℝ) (fun _ => P) (gaussianReal 0 τ) :=
    ⟨fun N => hclt.forall_aemeasurable _, hclt.aemeasurable_limit, hclt.tendsto.comp hM⟩
  have h3 := h1.continuous_comp (g := fun x : ℝ => x / c) (by fun_prop)
  refine ⟨τ / .mk (c ^ 2) (sq_nonneg _), ?_, ?_⟩
  · rw [← NNReal.coe_le_coe, NNReal.coe_div, NNReal.coe_mk, NNReal.coe_one, div_le_one (by positivity), hc2]
    exact hτ
  have h4 : TendstoInDistribution (fun N => (fun x : ℝ => x / c) ∘ allSum f E (N + 1 - 2 * n)) atTop (id : ℝ → ℝ) (fun _ => P) (gaussianReal 0 (τ / .mk (c ^ 2) (sq_nonneg _))) := by
    refine ⟨h3.forall_aemeasurable, aemeasurable_id, ?_⟩
    have h5 := h3.tendsto
    have e : (gaussianReal 0 τ).map ((fun x : ℝ => x / c) ∘ id) = (gaussianReal 0 (τ / .mk (c ^ 2) (sq_nonneg _))).map id := by
      rw [Function.comp_id, gaussianReal_map_div_const, zero_div, Measure.map_id]
    simp only [e] at h5
    exact h5
  refine tendstoInDistribution_of_tendstoInMeasure_sub (macZ f E) id h4 ?_ fun N => (macZ_measurable hm hf N).aemeasurable
  have hoff := null_sum (P := P) (Finset.range n) (U := fun off N ω => seriesI (offY f E off ω) ((N - off) / n) / (n * devN n N) -
      prodSum (offY f E off ω) ((N - off) / n) * (1 / (Real.sqrt (N + 1 - 2 * n : ℕ) * (v * Real.sqrt n)))) fun off _ =>
    offset_limit hm hi hl hf h0 h2 hn off (count_atTop hn off) hv (factor_limit hn off) (sum_factor hn off v)
  have hmu : TendstoInMeasure P (fun N (_ : Ω) => -(-1 / meanN n N / devN n N)) atTop 0 := by
    have := (mu_limit hn).neg
    rw [neg_zero] at this
    exact tendstoInMeasure_of_tendsto_ae (fun N => aestronglyMeasurable_const) (Eventually.of_forall fun _ => this)
  refine (null_add hoff hmu).congr' ?_ (by rfl)
  filter_upwards [eventually_ge_atTop (2 * n)] with N hN
  refine Eventually.of_forall fun ω => ?_
  simp only [Pi.sub_apply, Function.comp]
  unfold macZ allSum
  rw [← sum_offsets_windows (fun t => prodW f (fun i => E i ω) t) hn hN, Finset.sum_sub_distrib, ← Finset.sum_div, ← Finset.sum_mul]
  have e : ∀ off ∈ Finset.range n, prodSum (offY f E off ω) ((N - off) / n) = ∑ i ∈ Finset.range ((N - off) / n - 1), prodW f (fun i => E i ω) (off + i * n) := by
    intro off _
    unfold prodSum
    refine Finset.sum_congr rfl fun i _ => ?_
    unfold offY prodW
    rw [Nat.succ_mul, ← Nat.add_assoc]
  rw [Finset.sum_congr rfl e, mul_one_div, div_div (∑ off ∈ Finset.range n, ∑ i ∈ Finset.range ((N - off) / n - 1), prodW f (fun i => E i ω) (off + i * n)), sub_div, div_div]
  ring

end
end SeismoStats.Blocks
