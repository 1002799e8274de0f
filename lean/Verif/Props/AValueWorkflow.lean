/-
Property C107: a-values with an estimated b-value are consistent.
-/
import Verif.Proofs.WaitBound
import Mathlib.Analysis.Convex.SpecificFunctions.Basic

namespace SeismoStats.Props
open SeismoStats SeismoStats.Simulate MeasureTheory ProbabilityTheory Filter Topology
open SeismoStats.AValue (toB tAt raw)
open SeismoStats.BValue (Reachable)
open Classical
noncomputable section

variable {Ω : Type} [MeasurableSpace Ω] {P : Measure Ω} {g : Ω → Rng} {w : ℕ → Ω → ℝ} {τ : ℝ}

/-- For almost every outcome: from some size on, the a-value of `n` events (magnitudes simulated with b-value `b`, the given times) with `bn ω n` as b-value is a number `a`
(for every estimator object), and the ratio of the estimated number of events `10^a` to the true number `n` converges to `ratio`. -/
def CountConvergesWith (P : Measure Ω) (g : Ω → Rng) (w : ℕ → Ω → ℝ) (c : AValue.Cls) (b : ℝ) (bn : Ω → ℕ → ℝ) (mc δ : ℝ) (dmc : Option ℝ) (ratio : ℝ) : Prop :=
  ∀ᵐ ω ∂P, ∃ est : ℕ → ℝ,
    (∀ᶠ n in atTop, ∃ mags, simulateBinned n (fun _ => b) mc δ none .bValue (g ω) = .ok mags ∧
      ∀ warn s, (AValue.calculate c warn s
        { mags := mags.map some, mc := mc, δ := δ, times := (List.range n).map (Spec.eventTime w ω), b := some (bn ω n), dmc := dmc }).2 = .ok (.fin (est n))) ∧
    Tendsto (fun n : ℕ => (10 : ℝ) ^ est n / n) atTop (𝓝 ratio)

/-- The same for the rate: with reference magnitude `r` and the duration of the catalog in units of `u` as scaling factor, `10^a` converges to `rate`. -/
def RateConvergesWith (P : Measure Ω) (g : Ω → Rng) (w : ℕ → Ω → ℝ) (c : AValue.Cls) (b : ℝ) (bn : Ω → ℕ → ℝ) (mc δ : ℝ) (dmc : Option ℝ) (r u rate : ℝ) : Prop :=
  ∀ᵐ ω ∂P, ∃ est : ℕ → ℝ,
    (∀ᶠ n in atTop, ∃ mags, simulateBinned n (fun _ => b) mc δ none .bValue (g ω) = .ok mags ∧
      ∀ warn s, (AValue.calculate c warn s
        { mags := mags.map some, mc := mc, δ := δ, times := (List.range n).map (Spec.eventTime w ω), b := some (bn ω n), dmc := dmc, mref := some r,
          scaling := some ((Spec.eventTime w ω (n - 1) - Spec.eventTime w ω 0) / u) }).2 = .ok (.fin (est n))) ∧
    Tendsto (fun n : ℕ => (10 : ℝ) ^ est n) atTop (𝓝 rate)

/-! ### From the values to the limits -/

theorem limits_with [IsProbabilityMeasure P] (h : Spec.RandomTimes P g w τ) {c : AValue.Cls} {b mc δ d κ L : ℝ} {a : ℝ → ℝ} {X : (ℕ → ℝ) → ℕ → ℝ} {bn : Ω → ℕ → ℝ}
    (hS : TimedScheme b mc δ d a κ X) (hd : 0 ≤ d) (hb : b ≠ 0) (hbn : ∀ᵐ ω ∂P, Tendsto (bn ω) atTop (𝓝 b))
    (hv : ∀ᵐ ω ∂P, ∃ v : ℕ → ℝ, (∀ᶠ n in atTop, raw c (timedCall (X (g ω).expo) (Spec.eventTime w ω) mc δ d (bn ω n) n) = .fin (v n)) ∧
      Tendsto (fun n : ℕ => v n - Real.log n / Real.log 10) atTop (𝓝 L)) :
    CountConvergesWith P g w c b bn mc δ (some d) ((10 : ℝ) ^ L) ∧
      ∀ r u, 0 < u → RateConvergesWith P g w c b bn mc δ (some d) r u ((10 : ℝ) ^ L * (u / τ) * (10 : ℝ) ^ (-b * (r - mc))) := by
  have hτ := mean_positive h
  have hten : Continuous fun y : ℝ => (10 : ℝ) ^ y := Real.continuous_const_rpow (by norm_num)
  constructor
  · filter_upwards [hv, all_pos h.draws, hbn] with ω hv hpos hbn
    obtain ⟨v, h1, h2⟩ := hv
    refine ⟨v, ?_, ?_⟩
    · filter_upwards [h1, eventually_gt_atTop 0, hbn.eventually_ne hb] with n hn h0 hne
      refine ⟨_, hS.sim (g ω) n, fun warn s => ?_⟩
      have := result_timed (c := c) (t := Spec.eventTime w ω) (hS.low _ hpos) (hS.grid.imp id fun e => ⟨e.1, e.2 _⟩) hd hne h0 warn s
      rw [hn] at this
      exact this
    · have h3 := (hten.tendsto L).comp h2
      refine h3.congr' ?_
      filter_upwards [eventually_gt_atTop 0] with n hn
      exact ten_rpow_sub_log hn
  · intro r u hu
    filter_upwards [hv, all_pos h.draws, waits_positive h, waits_mean h, hbn] with ω hv hpos hw hmean hbn
    obtain ⟨v, h1, h2⟩ := hv
    have hdur : ∀ n, 1 < n → 0 < (Spec.eventTime w ω (n - 1) - Spec.eventTime w ω 0) / u := fun n hn =>
      div_pos (sub_pos.2 (eventTime_strictMono hw (by omega))) hu
    refine ⟨fun n => v n - bn ω n * (r - mc) - Real.log ((Spec.eventTime w ω (n - 1) - Spec.eventTime w ω 0) / u) / Real.log 10, ?_, ?_⟩
    · filter_upwards [h1, eventually_gt_atTop 1, hbn.eventually_ne hb] with n hn h0 hne
      refine ⟨_, hS.sim (g ω) n, fun warn s => ?_⟩
      exact result_reference (c := c) (t := Spec.eventTime w ω) (hS.low _ hpos) (hS.grid.imp id fun e => ⟨e.1, e.2 _⟩) hd hne (by omega) (hdur n h0) r hn warn s
    · have h3 := (hten.tendsto L).comp h2
      have h4 : Tendsto (fun n : ℕ => (Spec.eventTime w ω (n - 1) - Spec.eventTime w ω 0) / n) atTop (𝓝 τ) := by
        refine (pred_div hmean).congr fun n => ?_
        rw [duration_eq]
      have h6 : Tendsto (fun n => (10 : ℝ) ^ (-bn ω n * (r - mc))) atTop (𝓝 ((10 : ℝ) ^ (-b * (r - mc)))) := (hten.tendsto _).comp (hbn.neg.mul_const _)
      have h5 := (h3.mul ((tendsto_const_nhds (x := u)).div h4 hτ.ne')).mul h6
      refine h5.congr' ?_
      filter_upwards [eventually_gt_atTop 1] with n hn
      have hn' : (n : ℝ) ≠ 0 := by exact_mod_cast (by omega : n ≠ 0)
      simp only [Function.comp_apply, Pi.div_apply]
      rw [ten_rpow_sub_log (by omega), Real.rpow_sub (by norm_num), Real.rpow_sub (by norm_num), ten_pow_log10 (hdur n hn), neg_mul, Real.rpow_neg (by norm_num)]
      have hD := hdur n hn
      generalize (Spec.eventTime w ω (n - 1) - Spec.eventTime w ω 0) = D at *
      have hD' : D ≠ 0 := by rintro rfl; simp at hD
      have hp : (10 : ℝ) ^ (bn ω n * (r - mc)) ≠ 0 := (Real.rpow_pos_of_pos (by norm_num) _).ne'
      have hu' := hu.ne'
      field_simp

/-! ### Weights with another exponent -/

theorem damp_scale {b b' d mc x : ℝ} (hb : b ≠ 0) : damp b' d mc x = damp b d mc x ^ (b' / b) := by
  unfold damp
  rw [← Real.rpow_mul (by norm_num)]
  congr 1
  field_simp

/-- Powers with exponents near one. -/
theorem rpow_near {y s : ℝ} (hy : 0 < y) (hs : |s - 1| ≤ 1 / 4) : |y ^ s - y| ≤ 4 * |s - 1| * (y ^ (3 / 4 : ℝ) + y ^ (5 / 4 : ℝ)) := by
  have hc : ∀ t1 t2 α : ℝ, 0 ≤ α → α ≤ 1 → y ^ (α * t1 + (1 - α) * t2) ≤ α * y ^ t1 + (1 - α) * y ^ t2 := by
    intro t1 t2 α h0 h1
    have := (convexOn_rpow_left hy).2 (Set.mem_univ t1) (Set.mem_univ t2) h0 (sub_nonneg.2 h1) (by ring)
    simpa only [smul_eq_mul] using this
  have p1 : 0 < y ^ (3 / 4 : ℝ) := Real.rpow_pos_of_pos hy _
  have p2 : 0 < y ^ (5 / 4 : ℝ) := Real.rpow_pos_of_pos hy _
  have ps : 0 < y ^ s := Real.rpow_pos_of_pos hy _
  obtain ⟨hs1, hs2⟩ := abs_le.1 hs
  rcases le_total 1 s with h | h
  · rw [abs_of_nonneg (by linarith : 0 ≤ s - 1)]
    have c1 := hc (5 / 4) 1 (4 * (s - 1)) (by linarith) (by linarith)
    rw [show 4 * (s - 1) * (5 / 4) + (1 - 4 * (s - 1)) * 1 = s by ring, Real.rpow_one] at c1
    have hq : 0 < s - 3 / 4 := by linarith
    have c2 := hc (3 / 4) s ((s - 1) / (s - 3 / 4)) (div_nonneg (by linarith) hq.le) ((div_le_one hq).2 (by linarith))
    rw [show (s - 1) / (s - 3 / 4) * (3 / 4) + (1 - (s - 1) / (s - 3 / 4)) * s = s - (s - 1) / (s - 3 / 4) * (s - 3 / 4) by ring, div_mul_cancel₀ _ hq.ne', sub_sub_cancel, Real.rpow_one] at c2
    have c3 : (s - 3 / 4) * y ≤ (s - 1) * y ^ (3 / 4 : ℝ) + 1 / 4 * y ^ s := by
      have := mul_le_mul_of_nonneg_left c2 hq.le
      rw [mul_add, ← mul_assoc, ← mul_assoc, mul_div_cancel₀ _ hq.ne', mul_sub, mul_div_cancel₀ _ hq.ne'] at this
      linarith
    rw [abs_le]
    constructor <;> nlinarith [mul_nonneg (by linarith : 0 ≤ s - 1) p1.le, mul_nonneg (by linarith : 0 ≤ s - 1) p2.le, mul_nonneg (by linarith : 0 ≤ s - 1) hy.le]
  · rw [abs_of_nonpos (by linarith : s - 1 ≤ 0)]
    have c1 := hc (3 / 4) 1 (4 * (1 - s)) (by linarith) (by linarith)
    rw [show 4 * (1 - s) * (3 / 4) + (1 - 4 * (1 - s)) * 1 = s by ring, Real.rpow_one] at c1
    have hq : 0 < 5 / 4 - s := by linarith
    have c2 := hc (5 / 4) s ((1 - s) / (5 / 4 - s)) (div_nonneg (by linarith) hq.le) ((div_le_one hq).2 (by linarith))
    rw [show (1 - s) / (5 / 4 - s) * (5 / 4) + (1 - (1 - s) / (5 / 4 - s)) * s = s + (1 - s) / (5 / 4 - s) * (5 / 4 - s) by ring, div_mul_cancel₀ _ hq.ne', add_sub_cancel, Real.rpow_one] at c2
    have c3 : (5 / 4 - s) * y ≤ (1 - s) * y ^ (5 / 4 : ℝ) + 1 / 4 * y ^ s := by
      have := mul_le_mul_of_nonneg_left c2 hq.le
      rw [mul_add, ← mul_assoc, ← mul_assoc, mul_div_cancel₀ _ hq.ne', mul_sub, mul_div_cancel₀ _ hq.ne'] at this
      linarith
    rw [abs_le]
    constructor <;> nlinarith [mul_nonneg (by linarith : 0 ≤ 1 - s) p1.le, mul_nonneg (by linarith : 0 ≤ 1 - s) p2.le, mul_nonneg (by linarith : 0 ≤ 1 - s) hy.le]

theorem quarter_lintegral : ∫⁻ e, ENNReal.ofReal (Real.exp (e / 4)) ∂(expMeasure 1) = ENNReal.ofReal (4 / 3) := by
  unfold expMeasure gammaMeasure
  rw [lintegral_withDensity_eq_lintegral_mul _ (by unfold gammaPDF; fun_prop) (by fun_prop)]
  have e1 : ∀ x : ℝ, (gammaPDF 1 1 * fun e => ENNReal.ofReal (Real.exp (e / 4))) x = ENNReal.ofReal (4 / 3) * exponentialPDF (3 / 4) x := by
    intro x
    change exponentialPDF 1 x * ENNReal.ofReal (Real.exp (x / 4)) = _
    rw [exponentialPDF_eq, exponentialPDF_eq]
    split_ifs with hx
    · rw [← ENNReal.ofReal_mul (by positivity), ← ENNReal.ofReal_mul (by positivity), one_mul, ← Real.exp_add, ← mul_assoc]
      rw [show (4 / 3 : ℝ) * (3 / 4) = 1 by norm_num, one_mul]
      congr 1
      ring_nf
    · simp
  simp only [e1]
  rw [lintegral_const_mul' _ _ ENNReal.ofReal_ne_top, lintegral_exponentialPDF_eq_one (by norm_num), mul_one]

theorem quarter_fin {a : ℝ → ℝ} {K : ℝ} (hK : 0 ≤ K) (haK : ∀ e, 0 < e → a e ≤ e + K) :
    ∫⁻ e, ENNReal.ofReal (growP a e ^ (3 / 4 : ℝ)) * (ENNReal.ofReal (growP a e))⁻¹ ∂(expMeasure 1) ≠ ⊤ := by
  have hle : ∀ᵐ e ∂(expMeasure 1), ENNReal.ofReal (growP a e ^ (3 / 4 : ℝ)) * (ENNReal.ofReal (growP a e))⁻¹ ≤ ENNReal.ofReal (Real.exp (K / 4)) * ENNReal.ofReal (Real.exp (e / 4)) := by
    filter_upwards [exp_ae_pos] with e he
    have hp := growP_pos a e
    rw [← ENNReal.ofReal_inv_of_pos hp, ← ENNReal.ofReal_mul (Real.rpow_nonneg hp.le _), ← ENNReal.ofReal_mul (Real.exp_pos _).le, ← Real.exp_add]
    apply ENNReal.ofReal_le_ofReal
    unfold growP
    rw [← Real.exp_mul, ← Real.exp_neg, ← Real.exp_add]
    apply Real.exp_le_exp.2
    have : max (a e) 0 ≤ e + K := max_le (haK e he) (by linarith)
    linarith
  refine ((lintegral_mono_ae hle).trans_lt ?_).ne
  rw [lintegral_const_mul' _ _ ENNReal.ofReal_ne_top, quarter_lintegral]
  exact ENNReal.mul_lt_top ENNReal.ofReal_lt_top ENNReal.ofReal_lt_top

/-- The scaled waiting time with b-values that converge to that of the simulation. -/
theorem waited_with [IsProbabilityMeasure P] (h : Spec.RandomTimes P g w τ) {b mc δ d κ : ℝ} {a : ℝ → ℝ} {X : (ℕ → ℝ) → ℕ → ℝ} {bn : Ω → ℕ → ℝ}
    (hS : TimedScheme b mc δ d a κ X) (hb : b ≠ 0) (hκ : 0 < κ) (ha : Measurable a) (ha0 : ∀ e, 0 < e → 0 ≤ a e) {K : ℝ} (hK : 0 ≤ K) (haK : ∀ e, 0 < e → a e ≤ e + K)
    (hbn : ∀ᵐ ω ∂P, Tendsto (bn ω) atTop (𝓝 b)) :
    ∀ᵐ ω ∂P, Tendsto (fun n : ℕ => waitedMore (X (g ω).expo) (fun k => w k ω) (fun i => damp (bn ω n) d mc (X (g ω).expo i)) (d - δ / 2) n / n) atTop (𝓝 (κ * τ)) := by
  have hq : Measurable fun e => growP a e ^ (3 / 4 : ℝ) := (growP_measurable ha).pow_const _
  filter_upwards [more_values h hS ha ha0 hK haK, hbn, all_pos h.draws, waits_positive h,
    waits_bounded h ha hq (fun e => Real.rpow_nonneg (growP_pos a e).le _) (quarter_fin hK haK)] with ω hm hbn hpos hw hB
  obtain ⟨hiff, -, -, m3, -⟩ := hm
  obtain ⟨B, hB⟩ := hB
  set v := (g ω).expo with hv
  set C := κ ^ (3 / 4 : ℝ) + κ ^ (5 / 4 : ℝ) with hC
  have hC0 : 0 ≤ C := add_nonneg (Real.rpow_nonneg hκ.le _) (Real.rpow_nonneg hκ.le _)
  have hsn : Tendsto (fun n => |bn ω n / b - 1|) atTop (𝓝 0) := by
    have h1 := ((hbn.div_const b).sub_const 1).abs
    rwa [div_self hb, sub_self, abs_zero] at h1
  -- one event
  have hone : ∀ n i, |bn ω n / b - 1| ≤ 1 / 4 → |damp (bn ω n) d mc (X v i) - damp b d mc (X v i)| ≤ 4 * |bn ω n / b - 1| * (C * growP a (v i) ^ (3 / 4 : ℝ)) := by
    intro n i hs
    have hp := growP_pos a (v i)
    rw [damp_scale (b' := bn ω n) hb, hS.damped v hpos i]
    refine (rpow_near (mul_pos hκ hp) hs).trans (mul_le_mul_of_nonneg_left ?_ (by positivity))
    rw [Real.mul_rpow hκ.le hp.le, Real.mul_rpow hκ.le hp.le, hC, add_mul]
    exact add_le_add le_rfl (mul_le_mul_of_nonneg_left (Real.rpow_le_rpow_of_exponent_ge hp (growP_le_one a _) (by norm_num)) (Real.rpow_nonneg hκ.le _))
  -- all events
  have hall : ∀ n, |bn ω n / b - 1| ≤ 1 / 4 →
      |waitedMore (X v) (fun k => w k ω) (fun i => damp (bn ω n) d mc (X v i)) (d - δ / 2) n - waitedMore (X v) (fun k => w k ω) (fun i => damp b d mc (X v i)) (d - δ / 2) n| ≤
        4 * |bn ω n / b - 1| * C * (B * n) := by
    intro n hs
    have e1 : waitedMore (X v) (fun k => w k ω) (fun i => damp (bn ω n) d mc (X v i)) (d - δ / 2) n - waitedMore (X v) (fun k => w k ω) (fun i => damp b d mc (X v i)) (d - δ / 2) n =
        ∑ j ∈ Finset.range n, w j ω * ∑ i ∈ Finset.range j, alive a v i j * (damp (bn ω n) d mc (X v i) - damp b d mc (X v i)) := by
      unfold waitedMore
      rw [← Finset.sum_sub_distrib]
      refine Finset.sum_congr rfl fun j _ => ?_
      rw [← mul_sub, ← Finset.sum_sub_distrib]
      congr 1
      refine Finset.sum_congr rfl fun i _ => ?_
      unfold alive
      by_cases c2 : ∀ l, i < l → l < j → v l < a (v i)
      · rw [if_pos ((hiff i j).2 c2), if_pos c2]; ring
      · rw [if_neg (fun q => c2 ((hiff i j).1 q)), if_neg c2]; ring
    rw [e1]
    calc _ ≤ ∑ j ∈ Finset.range n, w j ω * ∑ i ∈ Finset.range j, alive a v i j * (4 * |bn ω n / b - 1| * (C * growP a (v i) ^ (3 / 4 : ℝ))) := by
          refine (Finset.abs_sum_le_sum_abs _ _).trans (Finset.sum_le_sum fun j _ => ?_)
          rw [abs_mul, abs_of_pos (hw j)]
          refine mul_le_mul_of_nonneg_left ((Finset.abs_sum_le_sum_abs _ _).trans (Finset.sum_le_sum fun i _ => ?_)) (hw j).le
          rw [abs_mul, abs_of_nonneg (alive_nonneg _ _ _ _)]
          exact mul_le_mul_of_nonneg_left (hone n i hs) (alive_nonneg _ _ _ _)
      _ = 4 * |bn ω n / b - 1| * C * ∑ j ∈ Finset.range n, w j ω * ∑ i ∈ Finset.range j, alive a v i j * growP a (v i) ^ (3 / 4 : ℝ) := by
          simp only [Finset.mul_sum]
          exact Finset.sum_congr rfl fun j _ => Finset.sum_congr rfl fun i _ => by ring
      _ ≤ _ := mul_le_mul_of_nonneg_left (hB n) (by positivity)
  have hdiff : Tendsto (fun n : ℕ => (waitedMore (X v) (fun k => w k ω) (fun i => damp (bn ω n) d mc (X v i)) (d - δ / 2) n -
      waitedMore (X v) (fun k => w k ω) (fun i => damp b d mc (X v i)) (d - δ / 2) n) / n) atTop (𝓝 0) := by
    rw [tendsto_zero_iff_abs_tendsto_zero]
    have hup : Tendsto (fun n => 4 * |bn ω n / b - 1| * C * B) atTop (𝓝 0) := by
      have := ((hsn.const_mul 4).mul_const C).mul_const B
      simpa using this
    refine squeeze_zero' (Eventually.of_forall fun n => abs_nonneg _) ?_ hup
    filter_upwards [hsn.eventually_le_const (show (0 : ℝ) < 1 / 4 by norm_num), eventually_gt_atTop 0] with n hs hn
    have hn' : (0 : ℝ) < n := by exact_mod_cast hn
    simp only [Function.comp_apply]
    rw [abs_div, abs_of_pos hn', div_le_iff₀ hn']
    refine (hall n hs).trans (le_of_eq ?_)
    ring
  have := hdiff.add m3
  rw [zero_add] at this
  refine this.congr fun n => ?_
  rw [← add_div, sub_add_cancel]

/-! ### The three classes -/

section Classes
variable [IsProbabilityMeasure P] (h : Spec.RandomTimes P g w τ) {b mc δ d κ : ℝ} {a : ℝ → ℝ} {X : (ℕ → ℝ) → ℕ → ℝ} {bn : Ω → ℕ → ℝ} (hS : TimedScheme b mc δ d a κ X)
  (hd : 0 ≤ d) (hb : b ≠ 0) (hκ : 0 < κ) (ha : Measurable a) (ha0 : ∀ e, 0 < e → 0 ≤ a e) {K : ℝ} (hK : 0 ≤ K) (haK : ∀ e, 0 < e → a e ≤ e + K)
  (hbn : ∀ᵐ ω ∂P, Tendsto (bn ω) atTop (𝓝 b))
include h hS hd hb hbn

theorem classic_with : CountConvergesWith P g w .classic b bn mc δ (some d) 1 ∧
    ∀ r u, 0 < u → RateConvergesWith P g w .classic b bn mc δ (some d) r u (u / τ * (10 : ℝ) ^ (-b * (r - mc))) := by
  have h1 := limits_with (c := .classic) (L := 0) h hS hd hb hbn (by
    filter_upwards [all_pos h.draws] with ω hpos
    refine ⟨fun n => Real.log n / Real.log 10, ?_, ?_⟩
    · filter_upwards [eventually_gt_atTop 0] with n hn
      exact classic_values _ _ (hS.low _ hpos) d _ hn
    · simp only [sub_self]
      exact tendsto_const_nhds)
  simpa only [Real.rpow_zero, one_mul] using h1

include ha ha0 in
theorem positive_with : CountConvergesWith P g w .positive b bn mc δ (some d) 1 ∧
    ∀ r u, 0 < u → RateConvergesWith P g w .positive b bn mc δ (some d) r u (u / τ * (10 : ℝ) ^ (-b * (r - mc))) := by
  have h1 := limits_with (c := .positive) (L := 0) h hS hd hb hbn (by
    filter_upwards [positive_values h hS ha ha0] with ω hv
    obtain ⟨v, h1, h2⟩ := hv
    exact ⟨v, h1.mono fun n hn => hn _, h2⟩)
  simpa only [Real.rpow_zero, one_mul] using h1

include hκ ha ha0 hK haK in
theorem more_with : CountConvergesWith P g w .morePositive b bn mc δ (some d) κ⁻¹ ∧
    ∀ r u, 0 < u → RateConvergesWith P g w .morePositive b bn mc δ (some d) r u (κ⁻¹ * (u / τ) * (10 : ℝ) ^ (-b * (r - mc))) := by
  have hτ := mean_positive h
  have h1 := limits_with (c := .morePositive) (L := Real.log κ⁻¹ / Real.log 10) h hS hd hb hbn (by
    filter_upwards [all_pos h.draws, waits_positive h, more_values h hS ha ha0 hK haK, waited_with h hS hb hκ ha ha0 hK haK hbn] with ω hpos hw hm m3
    obtain ⟨-, m1, m2, -, m4⟩ := hm
    have hlimit := rate_tendsto one_pos (mul_pos hκ hτ) hτ m2 m3 m4
    rw [show 1 / (κ * τ / τ) = κ⁻¹ by have := hτ.ne'; have := hκ.ne'; field_simp] at hlimit
    refine ⟨_, ?_, hlimit⟩
    filter_upwards [m1] with n hn
    exact morePositive_timed (w := fun k => w k ω) (hS.low _ hpos) hw hn)
  rwa [ten_pow_log10 (inv_pos.2 hκ)] at h1

end Classes

/-! ### C107 -/

/-- The number of events that the class counts too much in the binned case (C106). -/
def binFactor (c : AValue.Cls) (b δ : ℝ) : ℝ := if c = .morePositive then (10 : ℝ) ^ (b * δ / 10 ^ 12) else 1

/-- C107: with any b-values that converge to that of the simulation (for almost every outcome; they may depend on the outcome in any way), all three a-values converge to the
true number and rate of events. Magnitudes that are not binned, any `dmc`. -/
theorem C107_any_b [IsProbabilityMeasure P] (h : Spec.RandomTimes P g w τ) (c : AValue.Cls) (b mc d : ℝ) (hb : 0 < b) (hd : 0 ≤ d) (bn : Ω → ℕ → ℝ)
    (hbn : ∀ᵐ ω ∂P, Tendsto (bn ω) atTop (𝓝 b)) :
    CountConvergesWith P g w c b bn mc 0 (some d) 1 ∧ ∀ r u, 0 < u → RateConvergesWith P g w c b bn mc 0 (some d) r u (u / τ * (10 : ℝ) ^ (-b * (r - mc))) := by
  have hβ := mul_nonneg (mul_nonneg hb.le log_ten_pos.le) hd
  have hS := timed_continuous mc hb hd
  have ha : Measurable fun e : ℝ => e + b * Real.log 10 * d := by fun_prop
  cases c with
  | classic => exact classic_with h hS hd hb.ne' hbn
  | positive => exact positive_with h hS hd hb.ne' ha (fun e he => by linarith) hbn
  | morePositive =>
    have h1 := more_with h hS hd hb.ne' one_pos ha (fun e he => by linarith) (K := b * Real.log 10 * d) hβ (fun e _ => le_rfl) hbn
    simpa only [inv_one, one_mul] using h1

/-- C107: the same with binned magnitudes, `mc` on the grid and `dmc` a positive multiple of the bin width; the a-more-positive value has the factor of C106. -/
theorem C107_any_b_binned [IsProbabilityMeasure P] (h : Spec.RandomTimes P g w τ) (c : AValue.Cls) (b δ : ℝ) (z : ℤ) (k : ℕ) (hb : 0 < b) (hδ : 1 / 10 ^ 12 ≤ δ) (hk : 1 ≤ k)
    (bn : Ω → ℕ → ℝ) (hbn : ∀ᵐ ω ∂P, Tendsto (bn ω) atTop (𝓝 b)) :
    CountConvergesWith P g w c b bn (z * δ) δ (some (k * δ)) (binFactor c b δ) ∧
      ∀ r u, 0 < u → RateConvergesWith P g w c b bn (z * δ) δ (some (k * δ)) r u (binFactor c b δ * (u / τ) * (10 : ℝ) ^ (-b * (r - z * δ))) := by
  have hp : 0 < δ := lt_of_lt_of_le (by positivity) hδ
  have hx : 0 < b * Real.log 10 * δ := mul_pos (mul_pos hb log_ten_pos) hp
  have hS := timed_binned z k hb hδ hk
  have hd : 0 ≤ k * δ := by positivity
  have ha0 := fun e (he : 0 < e) => binned_nonneg hx hk he
  cases c with
  | classic => simpa only [binFactor, reduceCtorEq, if_false, one_mul] using classic_with h hS hd hb.ne' hbn
  | positive => simpa only [binFactor, reduceCtorEq, if_false, one_mul] using positive_with h hS hd hb.ne' (binned_measurable (δ := δ) k).1 ha0 hbn
  | morePositive =>
    have h1 := more_with h hS hd hb.ne' (Real.rpow_pos_of_pos (by norm_num) _) (binned_measurable (δ := δ) k).1 ha0
      (K := b * Real.log 10 * δ * k) (by positivity) (binned_le hx k) hbn
    have e : ((10 : ℝ) ^ (-(b * δ / 10 ^ 12)))⁻¹ = (10 : ℝ) ^ (b * δ / 10 ^ 12) := by rw [← Real.rpow_neg (by norm_num), neg_neg]
    rw [e] at h1
    simpa only [binFactor, if_true] using h1

/-- The workflow: simulate `n` magnitudes, estimate the b-value with the class `cb`, and the a-value for reference magnitude `r` with the class `c` and this b-value, the
duration of the catalog in units of `u` being the scaling factor. From some `n` on both are numbers (for every estimator object), and `10^a` converges to `rate`. -/
def WorkflowConverges (P : Measure Ω) (g : Ω → Rng) (w : ℕ → Ω → ℝ) (cb : BValue.Cls) (dmcB : Option ℝ) (c : AValue.Cls) (dmcA : Option ℝ) (b mc δ r u rate : ℝ) : Prop :=
  ∀ᵐ ω ∂P, ∃ bhat est : ℕ → ℝ,
    (∀ᶠ n in atTop, ∃ mags, simulateBinned n (fun _ => b) mc δ none .bValue (g ω) = .ok mags ∧
      (∀ warn s, Reachable cb s → (BValue.calculate cb warn s { mags := mags.map some, mc := mc, δ := δ, dmc := dmcB }).2 = .ok (.fin (bhat n))) ∧
      ∀ warn s, (AValue.calculate c warn s
        { mags := mags.map some, mc := mc, δ := δ, times := (List.range n).map (Spec.eventTime w ω), b := some (bhat n), dmc := dmcA, mref := some r,
          scaling := some ((Spec.eventTime w ω (n - 1) - Spec.eventTime w ω 0) / u) }).2 = .ok (.fin (est n))) ∧
    Tendsto (fun n : ℕ => (10 : ℝ) ^ est n) atTop (𝓝 rate)

theorem workflow_of {cb : BValue.Cls} {dmcB dmcA : Option ℝ} {c : AValue.Cls} {b mc δ r u rate : ℝ} (hc : ConvergesTo P g cb b mc δ dmcB b)
    (hr : ∀ bn : Ω → ℕ → ℝ, (∀ᵐ ω ∂P, Tendsto (bn ω) atTop (𝓝 b)) → RateConvergesWith P g w c b bn mc δ dmcA r u rate) :
    WorkflowConverges P g w cb dmcB c dmcA b mc δ r u rate := by
  unfold ConvergesTo at hc
  set Q : Ω → (ℕ → ℝ) → Prop := fun ω est => (∀ᶠ n in atTop, ∃ mags, simulateBinned n (fun _ => b) mc δ none .bValue (g ω) = .ok mags ∧
      ∀ warn s, Reachable cb s → (BValue.calculate cb warn s { mags := mags.map some, mc := mc, δ := δ, dmc := dmcB }).2 = .ok (.fin (est n))) ∧
    Tendsto est atTop (𝓝 b) with hQ
  let bn : Ω → ℕ → ℝ := fun ω => if hω : ∃ est, Q ω est then hω.choose else fun _ => b
  have hbn : ∀ᵐ ω ∂P, Q ω (bn ω) := by
    filter_upwards [hc] with ω hω
    have hω' : ∃ est, Q ω est := hω
    change Q ω (if hω : ∃ est, Q ω est then hω.choose else fun _ => b)
    rw [dif_pos hω']
    exact hω'.choose_spec
  filter_upwards [hbn, hr bn (hbn.mono fun ω hω => hω.2)] with ω h1 h2
  obtain ⟨est, h2, h3⟩ := h2
  refine ⟨bn ω, est, ?_, h3⟩
  filter_upwards [h1.1, h2] with n hn hn'
  obtain ⟨mags, e1, e2⟩ := hn
  obtain ⟨mags', e1', e2'⟩ := hn'
  rw [e1] at e1'
  obtain rfl : mags = mags' := by injection e1'
  exact ⟨mags, e1, e2, e2'⟩

/-- C107: the workflow on magnitudes that are not binned, with the b-value of the classic, the Utsu or the b-positive estimator: every a-value class gives the rate of events
at or above the reference magnitude. -/
theorem C107_workflow [IsProbabilityMeasure P] (h : Spec.RandomTimes P g w τ) (cb : BValue.Cls) (dmcB : Option ℝ)
    (hcb : (cb = .classic ∨ cb = .utsu) ∧ dmcB = none ∨ cb = .positive ∧ ∃ d, 0 ≤ d ∧ dmcB = some d) (c : AValue.Cls) (b mc d r u : ℝ) (hb : 0 < b) (hd : 0 ≤ d) (hu : 0 < u) :
    WorkflowConverges P g w cb dmcB c (some d) b mc 0 r u (u / τ * (10 : ℝ) ^ (-b * (r - mc))) := by
  refine workflow_of ?_ fun bn hbn => (C107_any_b h c b mc d hb hd bn hbn).2 r u hu
  rcases hcb with ⟨rfl | rfl, rfl⟩ | ⟨rfl, d', hd', rfl⟩
  · exact C96_classic h.draws b mc hb
  · exact C96_utsu h.draws b mc hb
  · exact C96_positive h.draws b mc d' hb hd'

/-- C107: the workflow on binned magnitudes with `mc` on the grid, with the b-value of the b-positive or the b-more-positive estimator and default cutoffs. -/
theorem C107_workflow_binned [IsProbabilityMeasure P] (h : Spec.RandomTimes P g w τ) (cb : BValue.Cls) (hcb : cb = .positive ∨ cb = .morePositive) (c : AValue.Cls) (b δ r u : ℝ)
    (z : ℤ) (hb : 0 < b) (hδ : 1 / 10 ^ 12 ≤ δ) (hu : 0 < u) :
    WorkflowConverges P g w cb none c none b (z * δ) δ r u (binFactor c b δ * (u / τ) * (10 : ℝ) ^ (-b * (r - z * δ))) := by
  refine workflow_of ?_ fun bn hbn => ?_
  · rcases hcb with rfl | rfl
    · exact C96_positive_default h.draws b δ z hb hδ
    · exact C103_default h.draws b δ z hb hδ
  · have := (C107_any_b_binned h c b δ z 1 hb hδ le_rfl bn hbn).2 r u hu
    rw [Nat.cast_one, one_mul] at this
    cases c <;> exact this

/-- A case: magnitudes with `b = 1`, bin width 0.1, `mc = 2.0`, at the times of a Poisson process of rate 1: with the b-more-positive estimate, a-positive gives the number of
events of magnitude 3 and more in 365 units of time, 36.5. -/
example : ∃ (Ω : Type) (_ : MeasurableSpace Ω) (P : Measure Ω) (g : Ω → Rng) (w : ℕ → Ω → ℝ), Spec.RandomTimes P g w 1 ∧
    WorkflowConverges P g w .morePositive none .positive none 1 ((20 : ℤ) * (1 / 10)) (1 / 10) 3 365 (36.5) ∧
    WorkflowConverges P g w .classic none .morePositive (some 0) 1 2 0 3 365 (36.5) := by
  obtain ⟨Ω, mΩ, P, hP, g, w, -, h⟩ := randomTimes_exist
  refine ⟨Ω, mΩ, P, g, w, h, ?_, ?_⟩
  · have := C107_workflow_binned h .morePositive (Or.inr rfl) .positive 1 (1 / 10) 3 365 20 one_pos (by norm_num) (by norm_num)
    have e : binFactor .positive 1 (1 / 10) * (365 / 1 : ℝ) * (10 : ℝ) ^ (-1 * (3 - (20 : ℤ) * (1 / 10)) : ℝ) = 36.5 := by
      rw [show (-1 * (3 - ((20 : ℤ) : ℝ) * (1 / 10)) : ℝ) = -1 by norm_num, Real.rpow_neg_one]
      simp only [binFactor, reduceCtorEq, if_false]
      norm_num
    rwa [e] at this
  · have := C107_workflow h .classic none (Or.inl ⟨Or.inl rfl, rfl⟩) .morePositive 1 2 0 3 365 one_pos le_rfl (by norm_num)
    have e : (365 / 1 : ℝ) * (10 : ℝ) ^ (-1 * (3 - 2) : ℝ) = 36.5 := by
      rw [show (-1 * (3 - 2) : ℝ) = -1 by norm_num, Real.rpow_neg_one]; norm_num
    rwa [e] at this

end
end SeismoStats.Props
