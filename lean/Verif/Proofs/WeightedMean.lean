/-
Weighted means of functions of the exponential draws, and the estimates for weighted samples.
-/
import Verif.Proofs.Adapted
import Verif.Proofs.Normal
import Verif.Props.DetectedLaw

namespace SeismoStats.Props
open SeismoStats SeismoStats.Simulate BValue MeasureTheory ProbabilityTheory Filter Topology
open Classical
noncomputable section

/-- Fourth moment of the standard exponential law. -/
theorem exp_fourth : ∫⁻ e, ENNReal.ofReal (e ^ 4) ∂(expMeasure 1) = ENNReal.ofReal 24 := by
  have hpos : 0 ≤ᵐ[expMeasure 1] (fun e : ℝ => e) := by
    filter_upwards [exp_ae_pos] with x hx using hx.le
  have h := lintegral_rpow_eq_lintegral_meas_le_mul (μ := expMeasure 1) (f := fun e : ℝ => e) hpos measurable_id.aemeasurable (p := 4) four_pos
  have e1 : ∫⁻ e, ENNReal.ofReal (e ^ 4) ∂(expMeasure 1) = ∫⁻ e, ENNReal.ofReal (e ^ (4 : ℝ)) ∂(expMeasure 1) := by
    apply lintegral_congr
    intro x
    rw [← Real.rpow_natCast]
    norm_num
  rw [e1, h]
  have h1 : ∀ t ∈ Set.Ioi (0 : ℝ), expMeasure 1 {a | t ≤ a} * ENNReal.ofReal (t ^ ((4 : ℝ) - 1)) = ENNReal.ofReal (Real.exp (-t) * t ^ ((4 : ℝ) - 1)) := by
    intro t ht
    have ht' : 0 < t := ht
    have e2 : {a : ℝ | t ≤ a} = Set.Ici t := rfl
    rw [e2, exp_tail ht'.le, ENNReal.ofReal_mul (Real.exp_pos _).le]
  rw [setLIntegral_congr_fun measurableSet_Ioi h1, ← ofReal_integral_eq_lintegral_ofReal (Real.GammaIntegral_convergent four_pos)]
  · rw [← Real.Gamma_eq_integral four_pos]
    have : Real.Gamma 4 = 6 := by norm_num [Nat.factorial]
    rw [this, ← ENNReal.ofReal_mul (by norm_num)]; norm_num
  · filter_upwards [ae_restrict_mem measurableSet_Ioi] with t ht
    have ht' : 0 < t := ht
    positivity

variable {Ω : Type} [m0 : MeasurableSpace Ω] {P : Measure Ω} {g : Ω → Rng}

/-- The weighted mean of a function of the draws converges to its mean, if each weight is known before the draw it belongs to and the weights are bounded, wherever the
sum of the weights grows without bound. -/
theorem weighted_mean_expo [IsProbabilityMeasure P] (hg : Spec.RandomDraws P g) {ℱ : Filtration ℕ m0} (hk : KnownSoFar P g ℱ) {W : ℕ → Ω → ℝ}
    (hW : ∀ i, Measurable[ℱ i] (W (i + 1))) {M : ℝ} (hM : 0 < M) (hW0 : ∀ i ω, 0 ≤ W i ω) (hW1 : ∀ i ω, W i ω ≤ M) {φ : ℝ → ℝ} (hφ : Measurable φ)
    (hφ2 : MemLp φ 2 (expMeasure 1)) :
    ∀ᵐ ω ∂P, Tendsto (fun n => ∑ i ∈ Finset.range n, W i ω) atTop atTop →
      Tendsto (fun n => (∑ i ∈ Finset.range n, W i ω * φ ((g ω).expo i)) / ∑ i ∈ Finset.range n, W i ω) atTop (𝓝 (∫ e, φ e ∂(expMeasure 1))) := by
  have : IsProbabilityMeasure (expMeasure 1) := isProbabilityMeasure_expMeasure one_pos
  set L := ∫ e, φ e ∂(expMeasure 1) with hL
  set ψ : ℝ × ℝ → ℝ := fun q => max 0 (min q.1 1) with hψ
  set F : ℝ × ℝ → ℝ := fun q => ψ q * (φ q.2 - L) with hF
  have hψm : Measurable ψ := by fun_prop
  have hFm : Measurable F := hψm.mul ((hφ.comp measurable_snd).sub_const L)
  have hψb : ∀ q, 0 ≤ ψ q ∧ ψ q ≤ 1 := fun q => ⟨le_max_left _ _, max_le zero_le_one (min_le_right _ _)⟩
  have hc2 : MemLp (fun e => φ e - L) 2 (expMeasure 1) := hφ2.sub (memLp_const L)
  have hsq : Integrable (fun e => (φ e - L) ^ 2) (expMeasure 1) := hc2.integrable_sq
  set K := ∫ e, (φ e - L) ^ 2 ∂(expMeasure 1) with hK
  have hK0 : 0 ≤ K := integral_nonneg fun e => sq_nonneg _
  have hi1 : Integrable φ (expMeasure 1) := hφ2.integrable (by norm_num)
  have hmean : ∀ s, ∫ y, F (s, y) ∂(expMeasure 1) = 0 := by
    intro s
    simp only [hF]
    have : ∀ y, ψ (s, y) = ψ (s, 0) := fun y => rfl
    simp only [this]
    rw [integral_const_mul, integral_sub hi1 (integrable_const L)]
    simp [hL]
  have hsec : ∀ s, ∫⁻ y, ENNReal.ofReal (F (s, y) ^ 2) ∂(expMeasure 1) ≤ ENNReal.ofReal K * ∫⁻ y, ENNReal.ofReal (ψ (s, y)) ∂(expMeasure 1) := by
    intro s
    have e : ∀ y, ψ (s, y) = ψ (s, 0) := fun y => rfl
    have hb := hψb (s, 0)
    calc ∫⁻ y, ENNReal.ofReal (F (s, y) ^ 2) ∂(expMeasure 1) ≤ ∫⁻ y, ENNReal.ofReal (ψ (s, 0)) * ENNReal.ofReal ((φ y - L) ^ 2) ∂(expMeasure 1) := by
          refine lintegral_mono fun y => ?_
          rw [← ENNReal.ofReal_mul hb.1]
          refine ENNReal.ofReal_le_ofReal ?_
          simp only [hF, e, mul_pow]
          have : ψ (s, 0) ^ 2 ≤ ψ (s, 0) := by nlinarith
          exact mul_le_mul_of_nonneg_right this (sq_nonneg _)
      _ = ENNReal.ofReal (ψ (s, 0)) * ENNReal.ofReal K := by
          rw [lintegral_const_mul' _ _ ENNReal.ofReal_ne_top, ← ofReal_integral_eq_lintegral_ofReal hsq (Eventually.of_forall fun e => sq_nonneg _)]
      _ = _ := by
          simp only [e, lintegral_const, measure_univ, mul_one]
          rw [mul_comm]
  have h := weights_mean (ℱ := ℱ) (E := fun i ω => (g ω).expo i) (S := fun k ω => W (k + 1) ω / M) (μ := expMeasure 1) hk.draw hk.next hg.expo_law
    (fun k => (hW k).div_const M) hψm hFm hψb hK0 (fun k => Eventually.of_forall fun ω => hmean _) (fun k => Eventually.of_forall fun ω => hsec _)
  filter_upwards [h] with ω h hinf
  have hψW : ∀ k y, ψ (W k ω / M, y) = W k ω / M := by
    intro k y
    simp only [hψ]
    rw [min_eq_left ((div_le_one hM).2 (hW1 k ω)), max_eq_right (div_nonneg (hW0 k ω) hM.le)]
  have e1 : ∀ n, stepSum ψ (fun k ω => W (k + 1) ω / M) (fun i ω => (g ω).expo i) n ω = (∑ i ∈ Finset.range n, W (i + 1) ω) / M := by
    intro n
    unfold stepSum
    rw [Finset.sum_div]
    exact Finset.sum_congr rfl fun k _ => hψW _ _
  have e2 : ∀ n, stepSum F (fun k ω => W (k + 1) ω / M) (fun i ω => (g ω).expo i) n ω = (∑ i ∈ Finset.range n, W (i + 1) ω * (φ ((g ω).expo (i + 1)) - L)) / M := by
    intro n
    unfold stepSum
    rw [Finset.sum_div]
    refine Finset.sum_congr rfl fun k _ => ?_
    simp only [hF, hψW]
    ring
  simp only [e1, e2] at h
  have hT : ∀ n, ∑ i ∈ Finset.range (n + 1), W i ω = ∑ i ∈ Finset.range n, W (i + 1) ω + W 0 ω := fun n => Finset.sum_range_succ' _ n
  have hinf1 : Tendsto (fun n => ∑ i ∈ Finset.range (n + 1), W i ω) atTop atTop := hinf.comp (tendsto_add_atTop_nat 1)
  have hinf2 : Tendsto (fun n => ∑ i ∈ Finset.range n, W (i + 1) ω) atTop atTop := by
    have := tendsto_atTop_add_const_right _ (-W 0 ω) hinf1
    refine this.congr fun n => ?_
    rw [hT]; ring
  have h1 := h (hinf2.atTop_div_const hM)
  rw [← tendsto_add_atTop_iff_nat 1]
  set T : ℕ → ℝ := fun n => ∑ i ∈ Finset.range n, W (i + 1) ω with hTd
  have h2 : Tendsto (fun n => W 0 ω * (φ ((g ω).expo 0) - L) / T n) atTop (𝓝 0) := Tendsto.div_atTop tendsto_const_nhds hinf2
  have h3 : Tendsto (fun n => 1 + W 0 ω / T n) atTop (𝓝 (1 + 0)) := tendsto_const_nhds.add (Tendsto.div_atTop tendsto_const_nhds hinf2)
  have h4 := ((h1.add h2).div h3 (by norm_num)).add_const L
  norm_num at h4
  refine h4.congr' ?_
  filter_upwards [hinf2.eventually (eventually_gt_atTop 0)] with n hn
  have hTn : T n ≠ 0 := ne_of_gt hn
  have hW00 := hW0 0 ω
  have hs : T n + W 0 ω ≠ 0 := by
    have : 0 < T n := hn
    positivity
  simp only [hT]
  rw [Finset.sum_range_succ' (fun i => W i ω * φ ((g ω).expo i))]
  have e3 : ∑ i ∈ Finset.range n, W (i + 1) ω * (φ ((g ω).expo (i + 1)) - L) = ∑ i ∈ Finset.range n, W (i + 1) ω * φ ((g ω).expo (i + 1)) - T n * L := by
    rw [hTd, Finset.sum_mul, ← Finset.sum_sub_distrib]
    exact Finset.sum_congr rfl fun i _ => by ring
  have e4 : (T n / M) ≠ 0 := div_ne_zero hTn hM.ne'
  change ((∑ i ∈ Finset.range n, W (i + 1) ω * (φ ((g ω).expo (i + 1)) - L)) / M / (T n / M) + W 0 ω * (φ ((g ω).expo 0) - L) / T n) / (1 + W 0 ω / T n) + L = _ / (T n + W 0 ω)
  rw [e3]
  generalize ∑ i ∈ Finset.range n, W (i + 1) ω * φ ((g ω).expo (i + 1)) = A
  have hs' : 1 + W 0 ω / T n ≠ 0 := by
    have : 0 < T n := hn
    positivity
  field_simp
  ring

/-! ### The outcome for a weighted sample -/

/-- The first `n` magnitudes with their weights. -/
def weightedPairs (X w : ℕ → ℝ) (n : ℕ) : List (ℝ × ℝ) := (List.range n).map fun i => (X i, w i)

/-- The call with the first `n` magnitudes and their weights. -/
def weightedCall (X w : ℕ → ℝ) (n : ℕ) (mc δ : ℝ) : Args := { mags := (firstMags X n).map some, mc := mc, δ := δ, weights := some (firstMags w n) }

theorem sum_weightedPairs (X w : ℕ → ℝ) (n : ℕ) (f : ℝ × ℝ → ℝ) : ((weightedPairs X w n).map f).sum = ∑ i ∈ Finset.range n, f (X i, w i) := by
  unfold weightedPairs
  rw [List.map_map, ← firstMags_sum (fun i => f (X i, w i)) n]
  rfl

theorem total_weightedPairs (X w : ℕ → ℝ) (n : ℕ) : Spec.total (weightedPairs X w n) = ∑ i ∈ Finset.range n, w i := by
  unfold Spec.total
  exact sum_weightedPairs X w n Prod.snd

theorem wmean_weightedPairs (X w : ℕ → ℝ) (n : ℕ) : Spec.wmean (weightedPairs X w n) = (∑ i ∈ Finset.range n, w i * X i) / ∑ i ∈ Finset.range n, w i := by
  unfold Spec.wmean
  rw [sum_weightedPairs X w n fun p => p.2 * p.1, sum_weightedPairs X w n Prod.snd]

theorem variance_weightedPairs (X w : ℕ → ℝ) (n : ℕ) (hT : ∑ i ∈ Finset.range n, w i ≠ 0) :
    Spec.variance (weightedPairs X w n) = (∑ i ∈ Finset.range n, w i * X i ^ 2) / (∑ i ∈ Finset.range n, w i) - ((∑ i ∈ Finset.range n, w i * X i) / ∑ i ∈ Finset.range n, w i) ^ 2 := by
  unfold Spec.variance
  rw [total_weightedPairs, wmean_weightedPairs]
  set μ := (∑ i ∈ Finset.range n, w i * X i) / ∑ i ∈ Finset.range n, w i with hμ
  rw [sum_weightedPairs X w n fun p => p.2 * (p.1 - μ) ^ 2]
  have e2 : ∀ i, w i * (X i - μ) ^ 2 = w i * X i ^ 2 - 2 * μ * (w i * X i) + μ ^ 2 * w i := fun i => by ring
  simp only [e2]
  rw [Finset.sum_add_distrib, Finset.sum_sub_distrib, ← Finset.mul_sum, ← Finset.mul_sum]
  have e3 : ∑ i ∈ Finset.range n, w i * X i = μ * ∑ i ∈ Finset.range n, w i := by rw [hμ]; field_simp
  rw [e3]
  field_simp
  ring

theorem used_weighted (X w : ℕ → ℝ) (n : ℕ) (mc δ : ℝ) (h : ∀ i, mc - δ / 2 ≤ X i) : used (weightedCall X w n mc δ) = weightedPairs X w n := by
  unfold used effW weightedCall firstMags weightedPairs
  change Spec.selected (((List.range n).map X).map some) ((List.range n).map w) (mc - δ / 2) = _
  generalize List.range n = l
  unfold Spec.selected
  induction l with
  | nil => rfl
  | cons i r ih =>
    simp only [List.map_cons, List.zip_cons_cons, List.filterMap_cons, h i, if_true]
    rw [ih]

theorem accepted_weighted (X w : ℕ → ℝ) (n : ℕ) (mc δ : ℝ) (hδ : δ = 0 ∨ 1 / 10 ^ 12 ≤ δ ∧ ∀ i, ∃ z : ℤ, X i = z * δ) (hw : ∀ i, 0 ≤ w i) :
    Accepted (weightedCall X w n mc δ) := by
  have h := accepted_all (firstMags X n) mc δ none (by
    rcases hδ with h | ⟨h1, h2⟩
    · exact Or.inl h
    · exact Or.inr ⟨h1, fun m hm => by obtain ⟨i, rfl⟩ := mem_firstMags hm; exact h2 i⟩)
  refine ⟨h.1, fun w' hw' => ?_⟩
  have e : w' = firstMags w n := by
    unfold weightedCall at hw'
    injection hw' with hw'
    exact hw'.symm
  rw [e]
  refine ⟨?_, fun x hx => ?_⟩
  · simp [weightedCall, firstMags_length]
  · obtain ⟨i, rfl⟩ := mem_firstMags hx
    exact hw i

/-- Result of the classic and the Utsu class for a weighted sample. -/
theorem calculate_weighted {c : Cls} (hc : c = .classic ∨ c = .utsu) (warn : Bool) {s : State} (hs : Reachable c s) (X w : ℕ → ℝ) (n : ℕ) (mc δ : ℝ)
    (hlow : ∀ i, mc - δ / 2 ≤ X i) (hδ : δ = 0 ∨ 1 / 10 ^ 12 ≤ δ ∧ ∀ i, ∃ z : ℤ, X i = z * δ) (hw : ∀ i, 0 ≤ w i) (hT : 0 < ∑ i ∈ Finset.range n, w i) :
    (calculate c warn s (weightedCall X w n mc δ)).2 = .ok (betaToB (match c with
      | .utsu => Fl.div 1 ((∑ i ∈ Finset.range n, w i * (X i - mc)) / (∑ i ∈ Finset.range n, w i) + δ / 2)
      | _ => betaOf ((∑ i ∈ Finset.range n, w i * (X i - mc)) / ∑ i ∈ Finset.range n, w i) δ)) := by
  have hm : (∑ i ∈ Finset.range n, w i * (X i - mc)) / (∑ i ∈ Finset.range n, w i) = (∑ i ∈ Finset.range n, w i * X i) / (∑ i ∈ Finset.range n, w i) - mc := by
    simp only [mul_sub]
    rw [Finset.sum_sub_distrib, ← Finset.sum_mul]
    field_simp
  rw [result_eq hc warn hs (accepted_weighted X w n mc δ hδ hw), result_of_total]
  · rw [used_weighted X w n mc δ hlow, wmean_weightedPairs, hm]; rfl
  · rw [used_weighted X w n mc δ hlow, total_weightedPairs]; exact hT

/-- `std` read after `calculate` with a weighted sample. -/
theorem std_weighted {c : Cls} (hc : c = .classic ∨ c = .utsu) (warn : Bool) {s : State} (hs : Reachable c s) (X w : ℕ → ℝ) (n : ℕ) (mc δ : ℝ)
    (hlow : ∀ i, mc - δ / 2 ≤ X i) (hδ : δ = 0 ∨ 1 / 10 ^ 12 ≤ δ ∧ ∀ i, ∃ z : ℤ, X i = z * δ) (hw : ∀ i, 0 ≤ w i) (hT : 1 < ∑ i ∈ Finset.range n, w i) {b : ℝ}
    (hb : (calculate c warn s (weightedCall X w n mc δ)).2 = .ok (.fin b)) :
    (calculate c warn s (weightedCall X w n mc δ)).1.std =
      .ok (.fin (Real.log 10 * b ^ 2 * Real.sqrt (Spec.variance (weightedPairs X w n)) / Real.sqrt (∑ i ∈ Finset.range n, w i - 1))) := by
  have hv := (accepted_iff _).1 (accepted_weighted X w n mc δ hδ hw)
  have e1 := calculate_classic_valid hc warn s _ hv (reachable_times hc hs).1
  have hra := ok_result hc hs hb
  rw [hra] at e1
  rw [e1]
  simp only [State.std, store, usedState]
  rw [nums_used, used_weighted X w n mc δ hlow]
  have e3 : (weightedCall X w n mc δ).weights.map (fun _ => (weightedPairs X w n).map Prod.snd) = some ((weightedPairs X w n).map Prod.snd) := rfl
  rw [e3]
  have e4 : weightedMags ((weightedPairs X w n).map Prod.fst) (some ((weightedPairs X w n).map Prod.snd)) = weightedPairs X w n := by
    unfold weightedMags
    exact (List.zip_of_prod rfl rfl).symm
  rw [C20_formula _ b _ (fun _ h => by cases h; simp) (by rw [e4, total_weightedPairs]; exact hT), e4, total_weightedPairs]

/-- The classic estimates of weighted samples converge when the weighted mean does. -/
theorem classic_weighted_tendsto (X w : ℕ → ℝ) (mc δ A : ℝ) (hA : 0 < A) (hlow : ∀ i, mc - δ / 2 ≤ X i) (hδ : δ = 0 ∨ 1 / 10 ^ 12 ≤ δ ∧ ∀ i, ∃ z : ℤ, X i = z * δ)
    (hw : ∀ i, 0 ≤ w i) (hT : Tendsto (fun n => ∑ i ∈ Finset.range n, w i) atTop atTop)
    (h : Tendsto (fun n : ℕ => (∑ i ∈ Finset.range n, w i * (X i - mc)) / ∑ i ∈ Finset.range n, w i) atTop (𝓝 A)) :
    ∃ est : ℕ → ℝ, (∀ᶠ n in atTop, ∀ warn s, Reachable .classic s → (calculate .classic warn s (weightedCall X w n mc δ)).2 = .ok (.fin (est n))) ∧
      Tendsto est atTop (𝓝 (betaVal A δ / Real.log 10)) := by
  have hδ0 : 0 ≤ δ := by
    rcases hδ with rfl | ⟨h, -⟩
    · exact le_rfl
    · exact le_trans (by positivity) h
  refine ⟨fun n => betaVal ((∑ i ∈ Finset.range n, w i * (X i - mc)) / ∑ i ∈ Finset.range n, w i) δ / Real.log 10, ?_, (betaVal_tendsto hδ0 hA h).div_const _⟩
  filter_upwards [hT.eventually (eventually_gt_atTop 0), h.eventually (lt_mem_nhds hA)] with n hn hpos warn s hs
  rw [calculate_weighted (Or.inl rfl) warn hs X w n mc δ hlow hδ hw hn]
  simp only
  rw [betaOf_pos hpos]
  rfl

/-- The same for the Utsu estimates. -/
theorem utsu_weighted_tendsto (X w : ℕ → ℝ) (mc δ A : ℝ) (hA : 0 < A) (hlow : ∀ i, mc - δ / 2 ≤ X i) (hδ : δ = 0 ∨ 1 / 10 ^ 12 ≤ δ ∧ ∀ i, ∃ z : ℤ, X i = z * δ)
    (hw : ∀ i, 0 ≤ w i) (hT : Tendsto (fun n => ∑ i ∈ Finset.range n, w i) atTop atTop)
    (h : Tendsto (fun n : ℕ => (∑ i ∈ Finset.range n, w i * (X i - mc)) / ∑ i ∈ Finset.range n, w i) atTop (𝓝 A)) :
    ∃ est : ℕ → ℝ, (∀ᶠ n in atTop, ∀ warn s, Reachable .utsu s → (calculate .utsu warn s (weightedCall X w n mc δ)).2 = .ok (.fin (est n))) ∧
      Tendsto est atTop (𝓝 (1 / (A + δ / 2) / Real.log 10)) := by
  have hδ0 : 0 ≤ δ := by
    rcases hδ with rfl | ⟨h, -⟩
    · exact le_rfl
    · exact le_trans (by positivity) h
  refine ⟨fun n => 1 / ((∑ i ∈ Finset.range n, w i * (X i - mc)) / (∑ i ∈ Finset.range n, w i) + δ / 2) / Real.log 10, ?_,
    (tendsto_const_nhds.div (h.add_const (δ / 2)) (by positivity)).div_const _⟩
  filter_upwards [hT.eventually (eventually_gt_atTop 0), h.eventually (lt_mem_nhds hA)] with n hn hpos warn s hs
  rw [calculate_weighted (Or.inr rfl) warn hs X w n mc δ hlow hδ hw hn]
  simp only
  have hne : (∑ i ∈ Finset.range n, w i * (X i - mc)) / (∑ i ∈ Finset.range n, w i) + δ / 2 ≠ 0 := by positivity
  simp only [Fl.div, hne, if_false]
  rfl

end
end SeismoStats.Props
