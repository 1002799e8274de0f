/-
Property C117: weighted b-value estimates on simulated magnitudes.
-/
import Verif.Proofs.WeightedMean
import Verif.Proofs.WeightedClt
import Verif.Props.Coverage
import Verif.Props.Coda

namespace SeismoStats.Props
open SeismoStats SeismoStats.Simulate BValue MeasureTheory ProbabilityTheory Filter Topology
open Classical
noncomputable section

variable {Ω : Type} [m0 : MeasurableSpace Ω] {P : Measure Ω} {g : Ω → Rng}

/-! ### Specification -/

/-- Weights that are not negative and bounded, each of them known before the event it belongs to: it may depend on anything (earlier events, places, times), but not on
the magnitude of its own event or of later ones. -/
structure KnownWeights (ℱ : Filtration ℕ m0) (W : ℕ → Ω → ℝ) (M : ℝ) : Prop where
  known : ∀ i, Measurable[ℱ i] (W (i + 1))
  nonneg : ∀ i ω, 0 ≤ W i ω
  bounded : ∀ i ω, W i ω ≤ M

/-- For almost every sequence of random draws for which the sum of the weights grows without bound: from some size on, the estimate for the first `n` simulated magnitudes
with their weights is a number (for every estimator object), and these numbers converge to `limit`. -/
def WeightedConvergesTo (P : Measure Ω) (g : Ω → Rng) (W : ℕ → Ω → ℝ) (c : Cls) (b mc δ limit : ℝ) : Prop :=
  ∀ᵐ ω ∂P, Tendsto (fun n => ∑ i ∈ Finset.range n, W i ω) atTop atTop → ∃ est : ℕ → ℝ,
    (∀ᶠ n in atTop, ∃ mags, simulateBinned n (fun _ => b) mc δ none .bValue (g ω) = .ok mags ∧
      ∀ warn s, Reachable c s →
        (calculate c warn s { mags := mags.map some, mc := mc, δ := δ, weights := some ((List.range n).map fun i => W i ω) }).2 = .ok (.fin (est n))) ∧
    Tendsto est atTop (𝓝 limit)

/-! ### Estimates -/

theorem max_one_bound {W : ℕ → Ω → ℝ} {M : ℝ} (h : ∀ i ω, W i ω ≤ M) : ∀ i ω, W i ω ≤ max M 1 := fun i ω => (h i ω).trans (le_max_left _ _)

theorem id_memLp : MemLp (fun e : ℝ => e) 2 (expMeasure 1) := by
  obtain ⟨i2, -⟩ := exp_integral (f := fun e => e ^ 2) (by fun_prop) (fun x _ => sq_nonneg x) zero_le_two exp_second
  exact (memLp_two_iff_integrable_sq (by fun_prop)).2 i2

theorem sq_memLp : MemLp (fun e : ℝ => e ^ 2) 2 (expMeasure 1) := by
  obtain ⟨i4, -⟩ := exp_integral (f := fun e => e ^ 4) (by fun_prop) (fun x _ => by positivity) (by norm_num) exp_fourth
  refine (memLp_two_iff_integrable_sq (by fun_prop)).2 ?_
  refine i4.congr (Eventually.of_forall fun e => ?_)
  simp only
  ring

/-- Weighted mean of the draws. -/
def wMeanE (r : Rng) (w : ℕ → ℝ) (n : ℕ) : ℝ := (∑ i ∈ Finset.range n, w i * r.expo i) / ∑ i ∈ Finset.range n, w i
/-- Weighted mean of the squares of the draws. -/
def wMeanE2 (r : Rng) (w : ℕ → ℝ) (n : ℕ) : ℝ := (∑ i ∈ Finset.range n, w i * r.expo i ^ 2) / ∑ i ∈ Finset.range n, w i

theorem wMeanE_tendsto [IsProbabilityMeasure P] (hg : Spec.RandomDraws P g) {ℱ : Filtration ℕ m0} (hk : KnownSoFar P g ℱ) {W : ℕ → Ω → ℝ} {M : ℝ} (hW : KnownWeights ℱ W M) :
    ∀ᵐ ω ∂P, Tendsto (fun n => ∑ i ∈ Finset.range n, W i ω) atTop atTop → Tendsto (wMeanE (g ω) fun i => W i ω) atTop (𝓝 1) := by
  have h := weighted_mean_expo hg hk hW.known (M := max M 1) (by positivity) hW.nonneg (max_one_bound hW.bounded) (φ := fun e => e) (by fun_prop) id_memLp
  rw [(exp_integral (f := fun e => e) (by fun_prop) (fun x hx => hx.le) zero_le_one exp_first).2] at h
  exact h

theorem wMeanE2_tendsto [IsProbabilityMeasure P] (hg : Spec.RandomDraws P g) {ℱ : Filtration ℕ m0} (hk : KnownSoFar P g ℱ) {W : ℕ → Ω → ℝ} {M : ℝ} (hW : KnownWeights ℱ W M) :
    ∀ᵐ ω ∂P, Tendsto (fun n => ∑ i ∈ Finset.range n, W i ω) atTop atTop → Tendsto (wMeanE2 (g ω) fun i => W i ω) atTop (𝓝 2) := by
  have h := weighted_mean_expo hg hk hW.known (M := max M 1) (by positivity) hW.nonneg (max_one_bound hW.bounded) (φ := fun e => e ^ 2) (by fun_prop) sq_memLp
  rw [(exp_integral (f := fun e => e ^ 2) (by fun_prop) (fun x _ => sq_nonneg x) zero_le_two exp_second).2] at h
  exact h

theorem weighted_continuous (r : Rng) (w : ℕ → ℝ) {β : ℝ} (mc : ℝ) (h : Tendsto (wMeanE r w) atTop (𝓝 1)) :
    Tendsto (fun n => (∑ i ∈ Finset.range n, w i * (mc + r.expo i / β - mc)) / ∑ i ∈ Finset.range n, w i) atTop (𝓝 (1 / β)) := by
  refine (h.div_const β).congr fun n => ?_
  unfold wMeanE
  rw [div_right_comm, Finset.sum_div]
  congr 1
  exact Finset.sum_congr rfl fun i _ => by ring

/-- C117: without binning, the weighted classic estimates converge to the b-value of the simulation. -/
theorem C117_classic [IsProbabilityMeasure P] (hg : Spec.RandomDraws P g) {ℱ : Filtration ℕ m0} (hk : KnownSoFar P g ℱ) {W : ℕ → Ω → ℝ} {M : ℝ} (hW : KnownWeights ℱ W M)
    (b mc : ℝ) (hb : 0 < b) : WeightedConvergesTo P g W .classic b mc 0 b := by
  have hβ : 0 < b * Real.log 10 := mul_pos hb log_ten_pos
  filter_upwards [wMeanE_tendsto hg hk hW, all_pos hg] with ω h hpos hT
  obtain ⟨est, h1, h2⟩ := classic_weighted_tendsto (fun i => mc + (g ω).expo i / (b * Real.log 10)) (fun i => W i ω) mc 0 (1 / (b * Real.log 10)) (by positivity)
    (fun i => by have := div_pos (hpos i) hβ; linarith) (Or.inl rfl) (fun i => hW.nonneg i ω) hT (weighted_continuous (g ω) _ mc (h hT))
  refine ⟨est, ?_, ?_⟩
  · filter_upwards [h1] with n hn
    exact ⟨_, simulate_continuous (g ω) n hb, hn⟩
  · unfold betaVal at h2
    rwa [if_neg (lt_irrefl 0), one_div_mul_log hb] at h2

/-- C117: the same for the Utsu estimates. -/
theorem C117_utsu [IsProbabilityMeasure P] (hg : Spec.RandomDraws P g) {ℱ : Filtration ℕ m0} (hk : KnownSoFar P g ℱ) {W : ℕ → Ω → ℝ} {M : ℝ} (hW : KnownWeights ℱ W M)
    (b mc : ℝ) (hb : 0 < b) : WeightedConvergesTo P g W .utsu b mc 0 b := by
  have hβ : 0 < b * Real.log 10 := mul_pos hb log_ten_pos
  filter_upwards [wMeanE_tendsto hg hk hW, all_pos hg] with ω h hpos hT
  obtain ⟨est, h1, h2⟩ := utsu_weighted_tendsto (fun i => mc + (g ω).expo i / (b * Real.log 10)) (fun i => W i ω) mc 0 (1 / (b * Real.log 10)) (by positivity)
    (fun i => by have := div_pos (hpos i) hβ; linarith) (Or.inl rfl) (fun i => hW.nonneg i ω) hT (weighted_continuous (g ω) _ mc (h hT))
  refine ⟨est, ?_, ?_⟩
  · filter_upwards [h1] with n hn
    exact ⟨_, simulate_continuous (g ω) n hb, hn⟩
  · rwa [zero_div, add_zero, one_div_mul_log hb] at h2

/-- The weighted mean of binned magnitudes. -/
theorem weighted_grid [IsProbabilityMeasure P] (hg : Spec.RandomDraws P g) {ℱ : Filtration ℕ m0} (hk : KnownSoFar P g ℱ) {W : ℕ → Ω → ℝ} {M : ℝ} (hW : KnownWeights ℱ W M)
    {x δ ε : ℝ} (hx : 0 < x) (hε0 : 0 ≤ ε) (hε : ε ≤ 1) (a : ℤ) :
    ∀ᵐ ω ∂P, Tendsto (fun n => ∑ i ∈ Finset.range n, W i ω) atTop atTop →
      Tendsto (fun n : ℕ => (∑ i ∈ Finset.range n, W i ω * (((a + ⌊(g ω).expo i / x + ε⌋ : ℤ) : ℝ) * δ - a * δ)) / ∑ i ∈ Finset.range n, W i ω) atTop
        (𝓝 (Real.exp (x * ε) / (Real.exp x - 1) * δ)) := by
  set φ : ℝ → ℝ := fun e => max (((⌊e / x + ε⌋ : ℤ) : ℝ) - ((0 : ℤ) : ℝ)) 0 with hφ
  have hm : Measurable φ := by
    have h1 : Measurable fun x : ℝ => ⌊x⌋ := Int.measurable_floor
    have h2 : Measurable fun z : ℤ => (z : ℝ) := measurable_from_top
    have h3 : Measurable fun e : ℝ => e / x + ε := by fun_prop
    exact ((h2.comp (h1.comp h3)).sub_const _).max measurable_const
  have hex : 0 < Real.exp x - 1 := by
    have : (1 : ℝ) < Real.exp x := Real.one_lt_exp_iff.2 hx
    linarith
  have : IsProbabilityMeasure (expMeasure 1) := isProbabilityMeasure_expMeasure one_pos
  have h2 : MemLp φ 2 (expMeasure 1) := by
    refine MemLp.of_le (g := fun e => e / x + ε) ?_ hm.aestronglyMeasurable ?_
    · have := (id_memLp.const_mul (1 / x)).add (memLp_const ε)
      refine this.congr_norm (by fun_prop) (Eventually.of_forall fun e => ?_)
      simp only [Pi.add_apply]
      congr 2
      ring
    · filter_upwards [exp_ae_pos] with e he
      have h0 : 0 ≤ e / x + ε := by have := div_pos he hx; linarith
      rw [Real.norm_of_nonneg (le_max_right _ _), Real.norm_of_nonneg h0]
      refine max_le ?_ h0
      rw [Int.cast_zero, sub_zero]
      exact Int.floor_le _
  have hv : ∫ e, φ e ∂(expMeasure 1) = Real.exp (x * ε) / (Real.exp x - 1) :=
    (exp_integral hm (fun x _ => le_max_right _ _) (by positivity) (by
      rw [floor_excess hx hε le_rfl]
      congr 3; simp)).2
  have h := weighted_mean_expo hg hk hW.known (M := max M 1) (by positivity) hW.nonneg (max_one_bound hW.bounded) hm h2
  rw [hv] at h
  filter_upwards [h, all_pos hg] with ω h hpos hT
  refine ((h hT).mul_const δ).congr fun n => ?_
  rw [div_mul_eq_mul_div, Finset.sum_mul]
  congr 1
  apply Finset.sum_congr rfl
  intro i _
  have h0 : (0 : ℝ) ≤ ((⌊(g ω).expo i / x + ε⌋ : ℤ) : ℝ) := by
    have : 0 ≤ ⌊(g ω).expo i / x + ε⌋ := Int.floor_nonneg.2 (by have := div_pos (hpos i) hx; linarith)
    exact_mod_cast this
  simp only [hφ]
  rw [Int.cast_zero, sub_zero, max_eq_left h0]
  push_cast; ring

/-- C117: with binned magnitudes, the weighted estimates converge to the same number as the estimates without weights. -/
theorem C117_binned [IsProbabilityMeasure P] (hg : Spec.RandomDraws P g) {ℱ : Filtration ℕ m0} (hk : KnownSoFar P g ℱ) {W : ℕ → Ω → ℝ} {M : ℝ} (hW : KnownWeights ℱ W M)
    {c : Cls} (hc : c = .classic ∨ c = .utsu) (b δ : ℝ) (a : ℤ) (hb : 0 < b) (hδ : 1 / 10 ^ 12 ≤ δ) (limit : ℝ) (hl : ConvergesTo P g c b (a * δ) δ none limit) :
    WeightedConvergesTo P g W c b (a * δ) δ limit := by
  have hp : 0 < δ := lt_of_lt_of_le (by positivity) hδ
  have hβ : 0 < b * Real.log 10 := mul_pos hb log_ten_pos
  have hx : 0 < b * Real.log 10 * δ := mul_pos hβ hp
  set x := b * Real.log 10 * δ with hxd
  set ε : ℝ := 1 / 10 ^ 12 with hε
  have hε0 : 0 ≤ ε := by positivity
  have hε1 : ε ≤ 1 := by rw [hε]; norm_num
  have hex : 0 < Real.exp x - 1 := by
    have : (1 : ℝ) < Real.exp x := Real.one_lt_exp_iff.2 hx
    linarith
  have hA : 0 < Real.exp (x * ε) / (Real.exp x - 1) * δ := by positivity
  rcases hc with rfl | rfl
  · have h1 : ConvergesTo P g .classic b (a * δ) δ none (betaVal (Real.exp (x * ε) / (Real.exp x - 1) * δ) δ / Real.log 10) := by
      filter_upwards [mean_grid (δ := δ) hg hx hε0 hε1 a, all_pos hg] with ω h hpos
      obtain ⟨est, h1, h2⟩ := classic_tendsto _ (a * δ) δ _ hA (grid_low (g ω) hpos hx hp hε0 a) (Or.inr ⟨hδ, fun i => ⟨_, rfl⟩⟩) h
      refine ⟨est, ?_, h2⟩
      filter_upwards [h1] with n hn
      exact ⟨_, simulate_grid (g ω) n a hb hδ, hn⟩
    rw [convergesTo_unique hl h1]
    filter_upwards [weighted_grid (δ := δ) hg hk hW hx hε0 hε1 a, all_pos hg] with ω h hpos hT
    obtain ⟨est, h1, h2⟩ := classic_weighted_tendsto _ (fun i => W i ω) (a * δ) δ _ hA (grid_low (g ω) hpos hx hp hε0 a) (Or.inr ⟨hδ, fun i => ⟨_, rfl⟩⟩) (fun i => hW.nonneg i ω) hT
      (h hT)
    refine ⟨est, ?_, h2⟩
    filter_upwards [h1] with n hn
    exact ⟨_, simulate_grid (g ω) n a hb hδ, hn⟩
  · have h1 : ConvergesTo P g .utsu b (a * δ) δ none (1 / (Real.exp (x * ε) / (Real.exp x - 1) * δ + δ / 2) / Real.log 10) := by
      filter_upwards [mean_grid (δ := δ) hg hx hε0 hε1 a, all_pos hg] with ω h hpos
      obtain ⟨est, h1, h2⟩ := utsu_tendsto _ (a * δ) δ _ hA (grid_low (g ω) hpos hx hp hε0 a) (Or.inr ⟨hδ, fun i => ⟨_, rfl⟩⟩) h
      refine ⟨est, ?_, h2⟩
      filter_upwards [h1] with n hn
      exact ⟨_, simulate_grid (g ω) n a hb hδ, hn⟩
    rw [convergesTo_unique hl h1]
    filter_upwards [weighted_grid (δ := δ) hg hk hW hx hε0 hε1 a, all_pos hg] with ω h hpos hT
    obtain ⟨est, h1, h2⟩ := utsu_weighted_tendsto _ (fun i => W i ω) (a * δ) δ _ hA (grid_low (g ω) hpos hx hp hε0 a) (Or.inr ⟨hδ, fun i => ⟨_, rfl⟩⟩) (fun i => hW.nonneg i ω) hT
      (h hT)
    refine ⟨est, ?_, h2⟩
    filter_upwards [h1] with n hn
    exact ⟨_, simulate_grid (g ω) n a hb hδ, hn⟩

/-! ### Standard deviation and coverage -/

omit m0 in
/-- The outcome for simulated magnitudes with weights. -/
theorem outcome_weighted {c : Cls} (hc : c = .classic ∨ c = .utsu) (r : Rng) (hpos : ∀ i, 0 < r.expo i) {w : ℕ → ℝ} (hw : ∀ i, 0 ≤ w i) {n : ℕ}
    (hT : 1 < ∑ i ∈ Finset.range n, w i) {b mc : ℝ} (hb : 0 < b) (warn : Bool) {s : State} (hs : Reachable c s) :
    let out := calculate c warn s (weightedCall (fun i => mc + r.expo i / (b * Real.log 10)) w n mc 0)
    0 < wMeanE r w n ∧ out.2 = .ok (.fin (b / wMeanE r w n)) ∧
      out.1.std = .ok (.fin (b * Real.sqrt (wMeanE2 r w n - wMeanE r w n ^ 2) / (wMeanE r w n ^ 2 * Real.sqrt (∑ i ∈ Finset.range n, w i - 1)))) := by
  have hβ : 0 < b * Real.log 10 := mul_pos hb log_ten_pos
  set β := b * Real.log 10 with hβd
  set X : ℕ → ℝ := fun i => mc + r.expo i / β with hX
  have hT0 : 0 < ∑ i ∈ Finset.range n, w i := by linarith
  have hM : 0 < wMeanE r w n := by
    unfold wMeanE
    refine div_pos ?_ hT0
    obtain ⟨i, hi, hwi⟩ := Finset.exists_lt_of_sum_lt (s := Finset.range n) (f := fun _ => (0 : ℝ)) (g := w) (by simpa using hT0)
    exact Finset.sum_pos' (fun j _ => mul_nonneg (hw j) (hpos j).le) ⟨i, hi, mul_pos hwi (hpos i)⟩
  have hlow : ∀ i, mc - 0 / 2 ≤ X i := by
    intro i
    have := div_pos (hpos i) hβ
    simp only [hX]; linarith
  have hmean : (∑ i ∈ Finset.range n, w i * (X i - mc)) / (∑ i ∈ Finset.range n, w i) = wMeanE r w n / β := by
    unfold wMeanE
    rw [div_right_comm, Finset.sum_div (Finset.range n) (fun i => w i * r.expo i) β]
    congr 1
    exact Finset.sum_congr rfl fun i _ => by simp only [hX]; ring
  have hpos' : 0 < wMeanE r w n / β := div_pos hM hβ
  have hres : (calculate c warn s (weightedCall X w n mc 0)).2 = .ok (.fin (b / wMeanE r w n)) := by
    rw [calculate_weighted hc warn hs X w n mc 0 hlow (Or.inl rfl) hw hT0, hmean]
    have hl := log_ten_pos.ne'
    rcases hc with rfl | rfl
    · simp only
      rw [betaOf_pos hpos']
      unfold betaVal betaToB Fl.mapFin
      rw [if_neg (lt_irrefl 0)]
      simp only
      congr 2
      rw [hβd]; field_simp
    · simp only
      rw [zero_div, add_zero]
      unfold Fl.div betaToB
      rw [if_neg hpos'.ne']
      unfold Fl.mapFin
      simp only
      congr 2
      rw [hβd]; field_simp
  refine ⟨hM, hres, ?_⟩
  rw [std_weighted hc warn hs X w n mc 0 hlow (Or.inl rfl) hw hT hres, variance_weightedPairs X w n hT0.ne']
  have hvar : (∑ i ∈ Finset.range n, w i * X i ^ 2) / (∑ i ∈ Finset.range n, w i) - ((∑ i ∈ Finset.range n, w i * X i) / ∑ i ∈ Finset.range n, w i) ^ 2 =
      (1 / β) ^ 2 * (wMeanE2 r w n - wMeanE r w n ^ 2) := by
    have e : ∀ i, w i * X i ^ 2 = mc ^ 2 * w i + 2 * mc / β * (w i * r.expo i) + 1 / β ^ 2 * (w i * r.expo i ^ 2) := fun i => by
      simp only [hX]; field_simp; ring
    have e' : ∀ i, w i * X i = mc * w i + 1 / β * (w i * r.expo i) := fun i => by
      simp only [hX]; field_simp
    simp only [e, e']
    rw [Finset.sum_add_distrib, Finset.sum_add_distrib, Finset.sum_add_distrib, ← Finset.mul_sum, ← Finset.mul_sum, ← Finset.mul_sum, ← Finset.mul_sum, ← Finset.mul_sum]
    unfold wMeanE wMeanE2
    field_simp
    ring
  rw [hvar, Real.sqrt_mul (sq_nonneg _), Real.sqrt_sq (by positivity)]
  congr 2
  have hl := log_ten_pos.ne'
  rw [hβd]
  have : 0 < Real.sqrt (∑ i ∈ Finset.range n, w i - 1) := Real.sqrt_pos.2 (by linarith)
  field_simp

theorem sqrt_ratio_tendsto {T : ℕ → ℝ} (hT : Tendsto T atTop atTop) : Tendsto (fun n => Real.sqrt (T n - 1) / Real.sqrt (T n)) atTop (𝓝 1) := by
  have h : Tendsto (fun n => 1 - 1 / T n) atTop (𝓝 (1 - 0)) := tendsto_const_nhds.sub (Tendsto.div_atTop tendsto_const_nhds hT)
  have h2 := (Real.continuous_sqrt.tendsto _).comp h
  rw [sub_zero, Real.sqrt_one] at h2
  refine h2.congr' ?_
  filter_upwards [hT.eventually (eventually_gt_atTop 1)] with n hn
  simp only [Function.comp_apply]
  rw [← Real.sqrt_div (by linarith)]
  congr 1
  field_simp

/-- C117: the reported standard deviation, multiplied by the square root of the sum of the weights, converges to the b-value of the simulation. -/
theorem C117_std [IsProbabilityMeasure P] (hg : Spec.RandomDraws P g) {ℱ : Filtration ℕ m0} (hk : KnownSoFar P g ℱ) {W : ℕ → Ω → ℝ} {M : ℝ} (hW : KnownWeights ℱ W M)
    {c : Cls} (hc : c = .classic ∨ c = .utsu) (b mc : ℝ) (hb : 0 < b) :
    ∀ᵐ ω ∂P, Tendsto (fun n => ∑ i ∈ Finset.range n, W i ω) atTop atTop → ∃ σ : ℕ → ℝ,
      (∀ᶠ n in atTop, ∃ mags, simulateBinned n (fun _ => b) mc 0 none .bValue (g ω) = .ok mags ∧
        ∀ warn s, Reachable c s →
          (calculate c warn s { mags := mags.map some, mc := mc, δ := 0, weights := some ((List.range n).map fun i => W i ω) }).1.std = .ok (.fin (σ n))) ∧
      Tendsto (fun n => Real.sqrt (∑ i ∈ Finset.range n, W i ω) * σ n) atTop (𝓝 b) := by
  filter_upwards [all_pos hg, wMeanE_tendsto hg hk hW, wMeanE2_tendsto hg hk hW] with ω hpos t1 t2 hT
  have t1 := t1 hT
  have t2 := t2 hT
  set w : ℕ → ℝ := fun i => W i ω with hwd
  refine ⟨fun n => b * Real.sqrt (wMeanE2 (g ω) w n - wMeanE (g ω) w n ^ 2) / (wMeanE (g ω) w n ^ 2 * Real.sqrt (∑ i ∈ Finset.range n, w i - 1)), ?_, ?_⟩
  · filter_upwards [hT.eventually (eventually_gt_atTop 1)] with n hn
    exact ⟨_, simulate_continuous (g ω) n hb, fun warn s hs => (outcome_weighted hc (g ω) hpos (fun i => hW.nonneg i ω) hn hb warn hs).2.2⟩
  · have h0 := sqrt_ratio_tendsto hT
    have h1 : Tendsto (fun n => Real.sqrt (wMeanE2 (g ω) w n - wMeanE (g ω) w n ^ 2)) atTop (𝓝 1) := by
      have := (Real.continuous_sqrt.tendsto _).comp (t2.sub (t1.pow 2))
      norm_num at this
      exact this
    have h2 := ((h1.const_mul b).div (t1.pow 2) (by norm_num)).div h0 one_ne_zero
    norm_num at h2
    refine h2.congr' ?_
    filter_upwards [hT.eventually (eventually_gt_atTop 1)] with n hn
    have hsn : 0 < Real.sqrt (∑ i ∈ Finset.range n, w i) := Real.sqrt_pos.2 (by linarith)
    have hs1 : 0 < Real.sqrt (∑ i ∈ Finset.range n, w i - 1) := Real.sqrt_pos.2 (by linarith)
    simp only [Pi.div_apply]
    change b * Real.sqrt (wMeanE2 (g ω) w n - wMeanE (g ω) w n ^ 2) / wMeanE (g ω) w n ^ 2 / (Real.sqrt (∑ i ∈ Finset.range n, w i - 1) / Real.sqrt (∑ i ∈ Finset.range n, w i)) = _
    field_simp

/-- With `n` magnitudes simulated with b-value `b` and weights `w`, the interval of `z` reported standard deviations around the estimate contains `b` (for every
estimator object). -/
def CoversWeighted (c : Cls) (b mc z : ℝ) (w : ℕ → ℝ) (n : ℕ) (r : Rng) : Prop :=
  ∃ mags b' σ, simulateBinned n (fun _ => b) mc 0 none .bValue r = .ok mags ∧ |b' - b| ≤ z * σ ∧
    ∀ warn s, Reachable c s →
      (calculate c warn s { mags := mags.map some, mc := mc, δ := 0, weights := some ((List.range n).map w) }).2 = .ok (.fin b') ∧
      (calculate c warn s { mags := mags.map some, mc := mc, δ := 0, weights := some ((List.range n).map w) }).1.std = .ok (.fin σ)

omit m0 in
theorem coversWeighted_iff {c : Cls} (hc : c = .classic ∨ c = .utsu) (r : Rng) (hpos : ∀ i, 0 < r.expo i) {w : ℕ → ℝ} (hw : ∀ i, 0 ≤ w i) {n : ℕ}
    (hT : 1 < ∑ i ∈ Finset.range n, w i) (hQ : 0 < ∑ i ∈ Finset.range n, w i ^ 2) {b mc z : ℝ} (hb : 0 < b) :
    CoversWeighted c b mc z w n r ↔
      |(Real.sqrt (∑ i ∈ Finset.range n, w i ^ 2))⁻¹ * ∑ i ∈ Finset.range n, w i * (r.expo i - 1)| *
        (wMeanE r w n * (Real.sqrt ((∑ i ∈ Finset.range n, w i ^ 2) / ∑ i ∈ Finset.range n, w i) *
          (Real.sqrt (∑ i ∈ Finset.range n, w i - 1) / Real.sqrt (∑ i ∈ Finset.range n, w i)))) ≤ z * Real.sqrt (wMeanE2 r w n - wMeanE r w n ^ 2) := by
  have hM := (outcome_weighted hc r hpos hw hT (mc := mc) hb false (Reachable.init (c := c))).1
  set T := ∑ i ∈ Finset.range n, w i with hTd
  set Q := ∑ i ∈ Finset.range n, w i ^ 2 with hQd
  have hT0 : 0 < T := by linarith
  have hs1 : 0 < Real.sqrt (T - 1) := Real.sqrt_pos.2 (by linarith)
  have hsT : 0 < Real.sqrt T := Real.sqrt_pos.2 hT0
  have hsQ : 0 < Real.sqrt Q := Real.sqrt_pos.2 hQ
  have hsq : Real.sqrt T * Real.sqrt T = T := Real.mul_self_sqrt hT0.le
  have h2 : ∑ i ∈ Finset.range n, w i * (r.expo i - 1) = T * (wMeanE r w n - 1) := by
    simp only [mul_sub, mul_one]
    rw [Finset.sum_sub_distrib]
    unfold wMeanE
    rw [← hTd]
    field_simp
  set S := Real.sqrt (wMeanE2 r w n - wMeanE r w n ^ 2) with hS
  have h3 : (|b / wMeanE r w n - b| ≤ z * (b * S / (wMeanE r w n ^ 2 * Real.sqrt (T - 1)))) ↔
      |(Real.sqrt Q)⁻¹ * ∑ i ∈ Finset.range n, w i * (r.expo i - 1)| * (wMeanE r w n * (Real.sqrt (Q / T) * (Real.sqrt (T - 1) / Real.sqrt T))) ≤ z * S := by
    rw [h2, Real.sqrt_div hQ.le, abs_mul, abs_mul, abs_of_pos (inv_pos.2 hsQ), abs_of_pos hT0]
    have e1 : b / wMeanE r w n - b = -(b / wMeanE r w n * (wMeanE r w n - 1)) := by field_simp; ring
    rw [e1, abs_neg, abs_mul, abs_of_pos (div_pos hb hM), ← mul_div_assoc, le_div_iff₀ (by positivity)]
    have e2 : b / wMeanE r w n * |wMeanE r w n - 1| * (wMeanE r w n ^ 2 * Real.sqrt (T - 1)) = b * (|wMeanE r w n - 1| * wMeanE r w n * Real.sqrt (T - 1)) := by field_simp
    have e3 : (Real.sqrt Q)⁻¹ * (T * |wMeanE r w n - 1|) * (wMeanE r w n * (Real.sqrt Q / Real.sqrt T * (Real.sqrt (T - 1) / Real.sqrt T))) =
        |wMeanE r w n - 1| * wMeanE r w n * Real.sqrt (T - 1) := by
      have : T / (Real.sqrt T * Real.sqrt T) = 1 := by rw [hsq]; exact div_self hT0.ne'
      calc _ = (T / (Real.sqrt T * Real.sqrt T)) * (|wMeanE r w n - 1| * wMeanE r w n * Real.sqrt (T - 1)) := by field_simp
        _ = _ := by rw [this, one_mul]
    rw [e2, e3, show z * (b * S) = b * (z * S) by ring, mul_le_mul_iff_of_pos_left hb]
  rw [← h3]
  constructor
  · rintro ⟨mags, b', σ, h4, h5, h6⟩
    rw [simulate_continuous r n hb] at h4
    cases h4
    obtain ⟨h7, h8⟩ := h6 false State.init .init
    obtain ⟨-, o1, o2⟩ := outcome_weighted hc r hpos hw hT (mc := mc) hb false (Reachable.init (c := c))
    unfold weightedCall at o1 o2
    have o1 := o1.symm.trans h7
    have o2 := o2.symm.trans h8
    injection o1 with o1; injection o1 with o1
    injection o2 with o2; injection o2 with o2
    rw [← o1, ← o2] at h5
    exact h5
  · intro h
    exact ⟨_, _, _, simulate_continuous r n hb, h, fun warn s hs => (outcome_weighted hc r hpos hw hT hb warn hs).2⟩

theorem clt_expo_weighted [IsProbabilityMeasure P] (hg : Spec.RandomDraws P g) {w : ℕ → ℝ} {M : ℝ} (hw : ∀ i, |w i| ≤ M)
    (hs : Tendsto (fun n => ∑ i ∈ Finset.range n, w i ^ 2) atTop atTop) :
    TendstoInDistribution (fun (n : ℕ) ω => (Real.sqrt (∑ i ∈ Finset.range n, w i ^ 2))⁻¹ * ∑ i ∈ Finset.range n, w i * ((g ω).expo i - 1)) atTop (id : ℝ → ℝ) (fun _ => P)
      (gaussianReal 0 1) := by
  have hP : IsProbabilityMeasure (expMeasure 1) := isProbabilityMeasure_expMeasure one_pos
  obtain ⟨i1, v1⟩ := exp_integral (f := fun e => e) (by fun_prop) (fun x hx => hx.le) zero_le_one exp_first
  obtain ⟨i2, v2⟩ := exp_integral (f := fun e => e ^ 2) (by fun_prop) (fun x hx => sq_nonneg x) zero_le_two exp_second
  have hm : ∀ i, AEMeasurable (fun ω => (g ω).expo i) P := fun i => (hg.expo_measurable i).aemeasurable
  refine clt_weighted (X := fun i ω => (g ω).expo i - 1) ?_ ?_ ?_ ?_ hw hs
  · have e : ∫ ω, ((g ω).expo 0 - 1) ∂P = ∫ e, (e - 1) ∂(expMeasure 1) := by
      rw [← hg.expo_law 0, integral_map (hm 0) (by fun_prop)]
    change ∫ ω, ((g ω).expo 0 - 1) ∂P = 0
    rw [e, integral_sub i1 (integrable_const 1), v1]
    simp
  · have e : ∫ ω, ((g ω).expo 0 - 1) ^ 2 ∂P = ∫ e, (e - 1) ^ 2 ∂(expMeasure 1) := by
      rw [← hg.expo_law 0, integral_map (hm 0) (by fun_prop)]
    change ∫ ω, ((g ω).expo 0 - 1) ^ 2 ∂P = 1
    rw [e]
    have e2 : ∀ e : ℝ, (e - 1) ^ 2 = e ^ 2 - 2 * e + 1 := fun e => by ring
    simp only [e2]
    have i3 : Integrable (fun e : ℝ => e ^ 2 - 2 * e) (expMeasure 1) := i2.sub (i1.const_mul 2)
    rw [integral_add i3 (integrable_const 1), integral_sub i2 (i1.const_mul 2), integral_const_mul, v1, v2]
    simp
  · exact hg.expo_indep.comp (fun _ e => e - 1) fun _ => by fun_prop
  · intro i
    have : IdentDistrib (fun ω => (g ω).expo i) (fun ω => (g ω).expo 0) P P := ⟨hm i, hm 0, by rw [hg.expo_law, hg.expo_law]⟩
    exact this.comp (u := fun e => e - 1) (by fun_prop)

/-- Weights that are fixed numbers are known. -/
theorem fixed_known {ℱ : Filtration ℕ m0} {w : ℕ → ℝ} {M : ℝ} (h0 : ∀ i, 0 ≤ w i) (h1 : ∀ i, w i ≤ M) : KnownWeights ℱ (fun i _ => w i) M :=
  ⟨fun _ => measurable_const, fun i _ => h0 i, fun i _ => h1 i⟩

/-- C117: for fixed weights whose sum of squares, divided by their sum, converges to `v`, the probability that the interval of `z` standard deviations contains the
b-value of the simulation converges to the probability that a standard normal variable is at most `z / √v` in absolute value. -/
theorem C117_coverage [IsProbabilityMeasure P] (hg : Spec.RandomDraws P g) {c : Cls} (hc : c = .classic ∨ c = .utsu) (b mc z : ℝ) (hb : 0 < b) (hz : 0 < z) {w : ℕ → ℝ}
    {M v : ℝ} (hw0 : ∀ i, 0 ≤ w i) (hw1 : ∀ i, w i ≤ M) (hT : Tendsto (fun n => ∑ i ∈ Finset.range n, w i) atTop atTop) (hv : 0 < v)
    (hQ : Tendsto (fun n => (∑ i ∈ Finset.range n, w i ^ 2) / ∑ i ∈ Finset.range n, w i) atTop (𝓝 v)) :
    Tendsto (fun n => P.real {ω | CoversWeighted c b mc z w n (g ω)}) atTop (𝓝 ((gaussianReal 0 1).real (Set.Icc (-(z / Real.sqrt v)) (z / Real.sqrt v)))) := by
  obtain ⟨ℱ, hk⟩ := known_exists hg
  have hW : KnownWeights ℱ (fun i (_ : Ω) => w i) M := fixed_known hw0 hw1
  have hsv : 0 < Real.sqrt v := Real.sqrt_pos.2 hv
  have hs : Tendsto (fun n => ∑ i ∈ Finset.range n, w i ^ 2) atTop atTop := by
    refine (hQ.pos_mul_atTop hv hT).congr' ?_
    filter_upwards [hT.eventually (eventually_gt_atTop 0)] with n hn
    exact div_mul_cancel₀ _ hn.ne'
  have m1 : ∀ n, Measurable fun ω => wMeanE (g ω) w n := fun n => by
    unfold wMeanE
    exact (Finset.measurable_sum _ fun i _ => (hg.expo_measurable i).const_mul _).div_const _
  have m2 : ∀ n, Measurable fun ω => wMeanE2 (g ω) w n := fun n => by
    unfold wMeanE2
    exact (Finset.measurable_sum _ fun i _ => ((hg.expo_measurable i).pow_const 2).const_mul _).div_const _
  set a : ℕ → ℝ := fun n => Real.sqrt ((∑ i ∈ Finset.range n, w i ^ 2) / ∑ i ∈ Finset.range n, w i) *
    (Real.sqrt (∑ i ∈ Finset.range n, w i - 1) / Real.sqrt (∑ i ∈ Finset.range n, w i)) with ha
  have ta : Tendsto a atTop (𝓝 (Real.sqrt v)) := by
    have := ((Real.continuous_sqrt.tendsto _).comp hQ).mul (sqrt_ratio_tendsto hT)
    rw [mul_one] at this
    exact this
  have key := slutsky_interval (U := fun n ω => wMeanE (g ω) w n * a n / Real.sqrt v) (V := fun n ω => Real.sqrt (wMeanE2 (g ω) w n - wMeanE (g ω) w n ^ 2))
    (clt_expo_weighted hg (M := M) (fun i => by rw [abs_of_nonneg (hw0 i)]; exact hw1 i) hs)
    (fun n => ((m1 n).mul_const _).div_const _)
    (fun n => Real.continuous_sqrt.measurable.comp ((m2 n).sub ((m1 n).pow_const 2)))
    (by filter_upwards [wMeanE_tendsto hg hk hW] with ω t1
        have := ((t1 hT).mul ta).div_const (Real.sqrt v)
        rwa [one_mul, div_self hsv.ne'] at this)
    (by filter_upwards [wMeanE_tendsto hg hk hW, wMeanE2_tendsto hg hk hW] with ω t1 t2
        have := (Real.continuous_sqrt.tendsto _).comp ((t2 hT).sub ((t1 hT).pow 2))
        norm_num at this
        exact this) (div_pos hz hsv)
  refine key.congr' ?_
  filter_upwards [hT.eventually (eventually_gt_atTop 1), hs.eventually (eventually_gt_atTop 0)] with n hn hq
  apply measureReal_congr
  filter_upwards [all_pos hg] with ω hpos
  refine propext (Iff.trans ?_ (coversWeighted_iff hc (g ω) hpos hw0 hn hq hb).symm)
  change _ * (wMeanE (g ω) w n * a n / Real.sqrt v) ≤ z / Real.sqrt v * _ ↔ _ * (wMeanE (g ω) w n * a n) ≤ z * _
  rw [← mul_div_assoc, div_mul_eq_mul_div]
  exact div_le_div_iff_of_pos_right hsv

theorem gaussian_interval_lt {y z : ℝ} (hy : 0 ≤ y) (h : y < z) : (gaussianReal 0 1).real (Set.Icc (-y) y) < (gaussianReal 0 1).real (Set.Icc (-z) z) := by
  have hd : Disjoint (Set.Icc (-y) y) (Set.Ioo y z) := by
    rw [Set.disjoint_left]
    intro x h1 h2
    exact absurd h1.2 (not_le.2 h2.1)
  have hsub : Set.Icc (-y) y ∪ Set.Ioo y z ⊆ Set.Icc (-z) z := by
    rintro x (h1 | h1)
    · exact ⟨by linarith [h1.1], by linarith [h1.2]⟩
    · exact ⟨by linarith [h1.1], h1.2.le⟩
  have hpos : 0 < (gaussianReal 0 1).real (Set.Ioo y z) := by
    rw [measureReal_def, ENNReal.toReal_pos_iff]
    refine ⟨pos_iff_ne_zero.2 fun h0 => ?_, measure_lt_top _ _⟩
    have := gaussianReal_absolutelyContinuous' 0 one_ne_zero h0
    rw [Real.volume_Ioo, ENNReal.ofReal_eq_zero] at this
    linarith
  calc _ < (gaussianReal 0 1).real (Set.Icc (-y) y) + (gaussianReal 0 1).real (Set.Ioo y z) := by linarith
    _ = (gaussianReal 0 1).real (Set.Icc (-y) y ∪ Set.Ioo y z) := (measureReal_union hd measurableSet_Ioo).symm
    _ ≤ _ := measureReal_mono hsub

/-- C117 (defect): giving all events the same weight `k > 1` does not change the estimates (C15), but the coverage of the reported intervals falls below the nominal one;
with `k < 1` it exceeds it. -/
theorem C117_defect_equal_weights [IsProbabilityMeasure P] (hg : Spec.RandomDraws P g) {c : Cls} (hc : c = .classic ∨ c = .utsu) (b mc z k : ℝ) (hb : 0 < b) (hz : 0 < z)
    (hk : 0 < k) : ∃ L, Tendsto (fun n => P.real {ω | CoversWeighted c b mc z (fun _ => k) n (g ω)}) atTop (𝓝 L) ∧
      (1 < k → L < (gaussianReal 0 1).real (Set.Icc (-z) z)) ∧ (k < 1 → (gaussianReal 0 1).real (Set.Icc (-z) z) < L) := by
  have e1 : ∀ n : ℕ, ∑ i ∈ Finset.range n, k = n * k := fun n => by simp
  have e2 : ∀ n : ℕ, ∑ i ∈ Finset.range n, k ^ 2 = n * k ^ 2 := fun n => by simp
  have hsk : 0 < Real.sqrt k := Real.sqrt_pos.2 hk
  refine ⟨_, C117_coverage hg hc b mc z hb hz (w := fun _ => k) (M := k) (v := k) (fun _ => hk.le) (fun _ => le_rfl) ?_ hk ?_, ?_, ?_⟩
  · simp only [e1]
    exact tendsto_natCast_atTop_atTop.atTop_mul_const hk
  · simp only [e1, e2]
    refine tendsto_const_nhds.congr' ?_
    filter_upwards [eventually_gt_atTop 0] with n hn
    have : (n : ℝ) ≠ 0 := by exact_mod_cast hn.ne'
    field_simp
  · intro h
    have h1 : 1 < Real.sqrt k := by rw [Real.lt_sqrt zero_le_one]; simpa using h
    exact gaussian_interval_lt (by positivity) (by rw [div_lt_iff₀ hsk]; nlinarith)
  · intro h
    have h1 : Real.sqrt k < 1 := by rw [Real.sqrt_lt' one_pos]; simpa using h
    exact gaussian_interval_lt hz.le (by rw [lt_div_iff₀ hsk]; nlinarith)

/-! ### Weights that depend on the magnitudes -/

/-- C117 (limit): weights that depend on the magnitude of their own event are not allowed. With weight 1 for magnitudes at least `m1` above `mc` and weight 0 for the
others, the estimates converge to a smaller number than the b-value of the simulation. -/
theorem C117_own_magnitude (hg : Spec.RandomDraws P g) (b mc m1 : ℝ) (hb : 0 < b) (h1 : 0 < m1) :
    WeightedConvergesTo P g (fun i ω => if mc + m1 ≤ mc + (g ω).expo i / (b * Real.log 10) then 1 else 0) .classic b mc 0 (b / (1 + b * Real.log 10 * m1)) := by
  have hβ : 0 < b * Real.log 10 := mul_pos hb log_ten_pos
  set β := b * Real.log 10 with hβd
  have ht : 0 < β * m1 := mul_pos hβ h1
  have s1 := strong_law_expo hg (fun e => max (e - β * m1) 0) (by fun_prop) (fun e => le_max_right _ _) (Real.exp (-(β * m1))) (Real.exp_pos _).le (exp_excess ht.le)
  have s2 := strong_law_expo hg ((Set.Ici (β * m1)).indicator fun _ => 1) (measurable_const.indicator measurableSet_Ici) (fun e => Set.indicator_nonneg (fun _ _ => zero_le_one) e)
    (Real.exp (-(β * m1))) (Real.exp_pos _).le (by
      rw [← exp_tail ht.le, ← lintegral_indicator_one measurableSet_Ici]
      refine lintegral_congr fun e => ?_
      by_cases h : e ∈ Set.Ici (β * m1)
      · simp [Set.indicator_of_mem h]
      · simp [Set.indicator_of_notMem h])
  filter_upwards [s1, s2, all_pos hg] with ω t1 t2 hpos hT
  set w : ℕ → ℝ := fun i => if mc + m1 ≤ mc + (g ω).expo i / β then 1 else 0 with hw
  have hcond : ∀ i, mc + m1 ≤ mc + (g ω).expo i / β ↔ β * m1 ≤ (g ω).expo i := fun i => by
    rw [add_le_add_iff_left, le_div_iff₀ hβ, mul_comm]
  have hwe : ∀ i, (Set.Ici (β * m1)).indicator (fun _ => (1 : ℝ)) ((g ω).expo i) = w i := by
    intro i
    simp only [hw]
    by_cases h : β * m1 ≤ (g ω).expo i
    · rw [if_pos ((hcond i).2 h), Set.indicator_of_mem (Set.mem_Ici.2 h)]
    · rw [if_neg (fun h' => h ((hcond i).1 h')), Set.indicator_of_notMem (fun h' => h (Set.mem_Ici.1 h'))]
  have hme : ∀ i, max ((g ω).expo i - β * m1) 0 = w i * ((g ω).expo i - β * m1) := by
    intro i
    simp only [hw]
    by_cases h : β * m1 ≤ (g ω).expo i
    · rw [if_pos ((hcond i).2 h), max_eq_left (by linarith), one_mul]
    · rw [if_neg (fun h' => h ((hcond i).1 h')), max_eq_right (by linarith), zero_mul]
  simp only [hwe] at t2
  simp only [hme] at t1
  have t3 := (t1.div t2 (Real.exp_pos _).ne').add_const (β * m1)
  rw [div_self (Real.exp_pos _).ne'] at t3
  have t4 : Tendsto (fun n => (∑ i ∈ Finset.range n, w i * (mc + (g ω).expo i / β - mc)) / ∑ i ∈ Finset.range n, w i) atTop (𝓝 ((1 + β * m1) / β)) := by
    refine (t3.div_const β).congr' ?_
    filter_upwards [hT.eventually (eventually_gt_atTop 0), eventually_gt_atTop 0] with n hn hn0
    have hn' : (n : ℝ) ≠ 0 := by exact_mod_cast hn0.ne'
    have hs : ∑ i ∈ Finset.range n, w i ≠ 0 := ne_of_gt hn
    simp only [Pi.div_apply]
    have e1 : ∑ i ∈ Finset.range n, w i * ((g ω).expo i - β * m1) = ∑ i ∈ Finset.range n, w i * (g ω).expo i - (∑ i ∈ Finset.range n, w i) * (β * m1) := by
      rw [Finset.sum_mul, ← Finset.sum_sub_distrib]
      exact Finset.sum_congr rfl fun i _ => by ring
    have e2 : ∑ i ∈ Finset.range n, w i * (mc + (g ω).expo i / β - mc) = (∑ i ∈ Finset.range n, w i * (g ω).expo i) / β := by
      rw [Finset.sum_div]
      exact Finset.sum_congr rfl fun i _ => by ring
    rw [e1, e2]
    field_simp
    ring
  obtain ⟨est, h2, h3⟩ := classic_weighted_tendsto (fun i => mc + (g ω).expo i / β) w mc 0 ((1 + β * m1) / β) (by positivity)
    (fun i => by have := div_pos (hpos i) hβ; linarith) (Or.inl rfl) (fun i => by simp only [hw]; split <;> norm_num) hT t4
  refine ⟨est, ?_, ?_⟩
  · filter_upwards [h2] with n hn
    exact ⟨_, simulate_continuous (g ω) n hb, hn⟩
  · unfold betaVal at h3
    rw [if_neg (lt_irrefl 0)] at h3
    have e : 1 / ((1 + β * m1) / β) / Real.log 10 = b / (1 + β * m1) := by
      have := log_ten_pos.ne'
      rw [hβd]
      field_simp
    rwa [e] at h3

/-! ### Cases -/

/-- A case: weights that depend on the magnitude of the event before. -/
example : ∃ (Ω : Type) (m0 : MeasurableSpace Ω) (P : Measure Ω) (g : Ω → Rng) (W : ℕ → Ω → ℝ), Spec.RandomDraws P g ∧ (∀ ω i, W (i + 1) ω = if (g ω).expo i ≤ 1 then 2 else 1 / 2) ∧
    (∀ ω, Tendsto (fun n => ∑ i ∈ Finset.range n, W i ω) atTop atTop) ∧ WeightedConvergesTo P g W .classic 1 2 0 1 := by
  obtain ⟨Ω, m0, P, hP, g, hg⟩ := randomDraws_exist
  obtain ⟨ℱ, hk⟩ := known_exists hg
  refine ⟨Ω, m0, P, g, fun i ω => match i with
    | 0 => 1
    | i + 1 => if (g ω).expo i ≤ 1 then 2 else 1 / 2, hg, fun ω i => rfl, ?_, C117_classic (M := 2) hg hk ⟨?_, ?_, ?_⟩ 1 2 one_pos⟩
  · intro ω
    refine tendsto_atTop_mono (f := fun n : ℕ => (n : ℝ) * (1 / 2)) (fun n => ?_) (tendsto_natCast_atTop_atTop.atTop_mul_const (by norm_num))
    have : ∑ i ∈ Finset.range n, (1 / 2 : ℝ) = n * (1 / 2) := by simp
    rw [← this]
    refine Finset.sum_le_sum fun i _ => ?_
    cases i with
    | zero => norm_num
    | succ i => simp only; split <;> norm_num
  · intro i
    simp only
    exact Measurable.ite (measurableSet_le (hk.draw i) measurable_const) measurable_const measurable_const
  · intro i ω
    cases i with
    | zero => norm_num
    | succ i => simp only; split <;> norm_num
  · intro i ω
    cases i with
    | zero => norm_num
    | succ i => simp only; split <;> norm_num

/-- A case: with weights 4, intervals of two standard deviations have the coverage of one standard deviation. -/
example : ∃ (Ω : Type) (_ : MeasurableSpace Ω) (P : Measure Ω) (g : Ω → Rng), Spec.RandomDraws P g ∧
    Tendsto (fun n => P.real {ω | CoversWeighted .classic 1 2 2 (fun _ => 4) n (g ω)}) atTop (𝓝 ((gaussianReal 0 1).real (Set.Icc (-1) 1))) := by
  obtain ⟨Ω, mΩ, P, hP, g, hg⟩ := randomDraws_exist
  refine ⟨Ω, mΩ, P, g, hg, ?_⟩
  have h := C117_coverage hg (c := .classic) (Or.inl rfl) 1 2 2 one_pos two_pos (w := fun _ => 4) (M := 4) (v := 4) (fun _ => by norm_num) (fun _ => le_rfl) (by
    simp only [Finset.sum_const, Finset.card_range, nsmul_eq_mul]
    exact tendsto_natCast_atTop_atTop.atTop_mul_const (by norm_num)) (by norm_num) (by
    simp only [Finset.sum_const, Finset.card_range, nsmul_eq_mul]
    refine tendsto_const_nhds.congr' ?_
    filter_upwards [eventually_gt_atTop 0] with n hn
    have : (n : ℝ) ≠ 0 := by exact_mod_cast hn.ne'
    field_simp)
  have e : Real.sqrt 4 = 2 := by rw [show (4 : ℝ) = 2 ^ 2 by norm_num]; exact Real.sqrt_sq (by norm_num)
  rw [e] at h
  norm_num at h
  exact h

end
end SeismoStats.Props
