/-
Properties C105 and C106: the a-values are consistent for random magnitudes at random times.
-/
import Verif.Proofs.RenewalLaw
import Verif.Proofs.TimedSequence

namespace SeismoStats.Props
open SeismoStats SeismoStats.Simulate MeasureTheory ProbabilityTheory Filter Topology
open SeismoStats.AValue (toB tAt raw calculate_snd)
open SeismoStats.BValue (usedIdx timeOrder)
open Classical
noncomputable section

variable {Ω : Type} [MeasurableSpace Ω] {P : Measure Ω} {g : Ω → Rng} {w : ℕ → Ω → ℝ} {τ : ℝ}

/-- For almost every outcome: from some size on, the a-value of `n` events (magnitudes simulated with b-value `b` by `simulate_magnitudes_binned`, the given times) is a
number `a` (for every estimator object), and the ratio of the estimated number of events `10^a` to the true number `n` converges to `ratio`. -/
def CountConverges (P : Measure Ω) (g : Ω → Rng) (w : ℕ → Ω → ℝ) (c : AValue.Cls) (b mc δ : ℝ) (dmc : Option ℝ) (ratio : ℝ) : Prop :=
  ∀ᵐ ω ∂P, ∃ est : ℕ → ℝ,
    (∀ᶠ n in atTop, ∃ mags, simulateBinned n (fun _ => b) mc δ none .bValue (g ω) = .ok mags ∧
      ∀ warn s, (AValue.calculate c warn s { mags := mags.map some, mc := mc, δ := δ, times := (List.range n).map (Spec.eventTime w ω), b := some b, dmc := dmc }).2 = .ok (.fin (est n))) ∧
    Tendsto (fun n : ℕ => (10 : ℝ) ^ est n / n) atTop (𝓝 ratio)

/-- The same for the rate: with reference magnitude `r` and the duration of the catalog in units of `u` as scaling factor, `10^a` converges to `rate`. -/
def RateConverges (P : Measure Ω) (g : Ω → Rng) (w : ℕ → Ω → ℝ) (c : AValue.Cls) (b mc δ : ℝ) (dmc : Option ℝ) (r u rate : ℝ) : Prop :=
  ∀ᵐ ω ∂P, ∃ est : ℕ → ℝ,
    (∀ᶠ n in atTop, ∃ mags, simulateBinned n (fun _ => b) mc δ none .bValue (g ω) = .ok mags ∧
      ∀ warn s, (AValue.calculate c warn s
        { mags := mags.map some, mc := mc, δ := δ, times := (List.range n).map (Spec.eventTime w ω), b := some b, dmc := dmc, mref := some r,
          scaling := some ((Spec.eventTime w ω (n - 1) - Spec.eventTime w ω 0) / u) }).2 = .ok (.fin (est n))) ∧
    Tendsto (fun n : ℕ => (10 : ℝ) ^ est n) atTop (𝓝 rate)

/-! ### Waiting times -/

section Waiting
variable [IsProbabilityMeasure P] (h : Spec.RandomTimes P g w τ)
include h

omit [IsProbabilityMeasure P] in
theorem waits_of : Waits P w τ := ⟨h.wait_measurable, h.wait_indep, h.wait_law, h.wait_variance, h.wait_mean⟩

omit [IsProbabilityMeasure P] in
theorem waits_next : Waits P (fun i => w (i + 1)) τ := by
  refine ⟨fun i => h.wait_measurable _, h.wait_indep.precomp (g := fun i : ℕ => i + 1) (add_left_injective 1), fun i => (h.wait_law _).trans (h.wait_law _).symm,
    (waits_of h).memLp' 1, ?_⟩
  exact ((waits_of h).identDistrib 1).integral_eq.trans h.wait_mean

omit [IsProbabilityMeasure P] in
theorem waits_positive : ∀ᵐ ω ∂P, ∀ i, 0 < w i ω := by
  refine ae_all_iff.2 fun i => ?_
  have hset : MeasurableSet {x : ℝ | 0 < x} := measurableSet_lt measurable_const measurable_id
  have h0 : ∀ᵐ x ∂(P.map (w 0)), 0 < x := (ae_map_iff (h.wait_measurable 0).aemeasurable hset).2 h.wait_positive
  rw [← h.wait_law i] at h0
  exact (ae_map_iff (h.wait_measurable i).aemeasurable hset).1 h0

theorem mean_positive : 0 < τ := by
  rw [← h.wait_mean, integral_pos_iff_support_of_nonneg_ae (by filter_upwards [h.wait_positive] with ω hω using hω.le) (h.wait_variance.integrable one_le_two)]
  have : P (Function.support (w 0)) = 1 := by
    rw [prob_compl_eq_zero_iff₀ (measurableSet_support (h.wait_measurable 0)).nullMeasurableSet |>.symm]
    exact (ae_iff.1 (by filter_upwards [h.wait_positive] with ω hω using hω.ne' : ∀ᵐ ω ∂P, ω ∈ Function.support (w 0)))
  rw [this]
  exact one_pos

/-- The mean waiting time. -/
theorem waits_mean : ∀ᵐ ω ∂P, Tendsto (fun n : ℕ => (∑ j ∈ Finset.range n, w (j + 1) ω) / n) atTop (𝓝 τ) := by
  have h1 := weighted_law (A := fun _ _ => (1 : ℝ)) (q := 1) (C := 1) (waits_next h) (by filter_upwards [waits_positive h] with ω hω i using (hω _).le)
    (fun _ => measurable_const) (fun _ _ => zero_le_one) zero_le_one
    (fun j => ⟨memLp_const 1, by
      have := one_le_harm j
      simp only [one_pow, integral_const, probReal_univ, smul_eq_mul, mul_one, one_mul]
      nlinarith⟩)
    (indepFun_const_left _ _)
    (Eventually.of_forall fun ω => by
      refine tendsto_const_nhds.congr' ?_
      filter_upwards [eventually_gt_atTop 0] with n hn
      have hn' : (n : ℝ) ≠ 0 := by exact_mod_cast hn.ne'
      simp [hn'])
  simpa using h1

end Waiting

theorem pred_div {f : ℕ → ℝ} {l : ℝ} (h : Tendsto (fun n : ℕ => f n / n) atTop (𝓝 l)) : Tendsto (fun n : ℕ => f (n - 1) / n) atTop (𝓝 l) := by
  have h1 := h.comp (tendsto_sub_atTop_nat 1)
  have h2 : Tendsto (fun n : ℕ => ((n - 1 : ℕ) : ℝ) / n) atTop (𝓝 1) := by
    have h3 : Tendsto (fun n : ℕ => 1 - 1 / (n : ℝ)) atTop (𝓝 (1 - 0)) := tendsto_const_nhds.sub tendsto_one_div_atTop_nhds_zero_nat
    rw [sub_zero] at h3
    refine h3.congr' ?_
    filter_upwards [eventually_gt_atTop 0] with n hn
    have hn' : (n : ℝ) ≠ 0 := by exact_mod_cast hn.ne'
    rw [Nat.cast_sub hn, sub_div, div_self hn', Nat.cast_one]
  have h3 := h1.mul h2
  rw [mul_one] at h3
  refine h3.congr' ?_
  filter_upwards [eventually_gt_atTop 1] with n hn
  have hn' : ((n - 1 : ℕ) : ℝ) ≠ 0 := by exact_mod_cast (by omega : n - 1 ≠ 0)
  simp only [Function.comp_apply]
  rw [div_mul_div_cancel₀ hn']

omit [MeasurableSpace Ω] in
theorem duration_eq (ω : Ω) (m : ℕ) : Spec.eventTime w ω m - Spec.eventTime w ω 0 = ∑ j ∈ Finset.range m, w (j + 1) ω := by
  unfold Spec.eventTime
  rw [Finset.sum_range_succ' (fun k => w k ω) m]
  simp

omit [MeasurableSpace Ω] in
theorem eventTime_strictMono {ω : Ω} (h : ∀ i, 0 < w i ω) : StrictMono (Spec.eventTime w ω) :=
  strictMono_nat_of_lt_succ fun i => by unfold Spec.eventTime; rw [Finset.sum_range_succ _ (i + 1)]; linarith [h (i + 1)]

/-! ### From the value of a class to the two limits -/

/-- How simulated magnitudes depend on the draws. -/
structure TimedScheme (b mc δ d : ℝ) (a : ℝ → ℝ) (κ : ℝ) (X : (ℕ → ℝ) → ℕ → ℝ) : Prop where
  sim : ∀ (r : Rng) (n : ℕ), simulateBinned n (fun _ => b) mc δ none .bValue r = .ok (firstMags (X r.expo) n)
  low : ∀ v : ℕ → ℝ, (∀ i, 0 < v i) → ∀ i, mc - δ / 2 ≤ X v i
  grid : δ = 0 ∨ 1 / 10 ^ 12 ≤ δ ∧ ∀ v i, ∃ z : ℤ, X v i = z * δ
  grows : ∀ v : ℕ → ℝ, (∀ i, 0 < v i) → ∀ i j, d - δ / 2 ≤ X v j - X v i ↔ a (v i) ≤ v j
  damped : ∀ v : ℕ → ℝ, (∀ i, 0 < v i) → ∀ i, damp b d mc (X v i) = κ * growP a (v i)

theorem result_reference {c : AValue.Cls} {X t : ℕ → ℝ} {mc δ d b : ℝ} (hlow : ∀ i, mc - δ / 2 ≤ X i) (hδ : δ = 0 ∨ 1 / 10 ^ 12 ≤ δ ∧ ∀ i, ∃ z : ℤ, X i = z * δ)
    (hd : 0 ≤ d) (hb : b ≠ 0) {n : ℕ} (hn : 0 < n) {v f : ℝ} (hf : 0 < f) (r : ℝ) (hv : raw c (timedCall X t mc δ d b n) = .fin v) (warn : Bool) (s : AValue.State) :
    (AValue.calculate c warn s { timedCall X t mc δ d b n with mref := some r, scaling := some f }).2 = .ok (.fin (v - b * (r - mc) - Real.log f / Real.log 10)) := by
  have hacc : Accepted (callOf (firstMags X n) mc δ (some d)) := accepted_all _ mc δ _ (by
    rcases hδ with h | ⟨h1, h2⟩
    · exact Or.inl h
    · exact Or.inr ⟨h1, fun m hm => by obtain ⟨i, rfl⟩ := mem_firstMags hm; exact h2 i⟩)
  set x : AValue.Args := { timedCall X t mc δ d b n with mref := some r, scaling := some f } with hx
  have hcount : 0 < countAbove x.mags (x.mc - x.δ / 2) := by
    have e : usedIdx (toB x) = List.range n := usedIdx_timed hlow t d b n
    rw [← used_length_count, e]; simpa using hn
  rw [calculate_snd, result_nonempty (c := c) (x := x) ((checkBinning_ok _ _).1 ((accepted_iff _).1 hacc).1)
    (Or.inr (by simp [hx, timedCall, firstMags])) ⟨Or.inr hd, fun _ => ⟨b, rfl, hb⟩⟩ hcount]
  have hraw : raw c x = .fin v := hv
  rw [hraw]
  have : AValue.scaled x (.fin v) = .ok ((Fl.sub (.fin v) (.fin (b * (r - mc)))).sub (Fl.log10 (.fin f))) := rfl
  rw [this, log10_fin hf]
  congr 2

theorem ten_rpow_sub_log {y : ℝ} {n : ℕ} (hn : 0 < n) : (10 : ℝ) ^ (y - Real.log n / Real.log 10) = (10 : ℝ) ^ y / n := by
  rw [Real.rpow_sub (by norm_num), ten_pow_log10 (by exact_mod_cast hn)]

/-- If the values less `log10 n` converge, so do both ratios. -/
theorem limits_of_values [IsProbabilityMeasure P] (h : Spec.RandomTimes P g w τ) {c : AValue.Cls} {b mc δ d κ L : ℝ} {a : ℝ → ℝ} {X : (ℕ → ℝ) → ℕ → ℝ}
    (hS : TimedScheme b mc δ d a κ X) (hd : 0 ≤ d) (hb : b ≠ 0)
    (hv : ∀ᵐ ω ∂P, ∃ v : ℕ → ℝ, (∀ᶠ n in atTop, raw c (timedCall (X (g ω).expo) (Spec.eventTime w ω) mc δ d b n) = .fin (v n)) ∧
      Tendsto (fun n : ℕ => v n - Real.log n / Real.log 10) atTop (𝓝 L)) :
    CountConverges P g w c b mc δ (some d) ((10 : ℝ) ^ L) ∧ ∀ r u, 0 < u → RateConverges P g w c b mc δ (some d) r u ((10 : ℝ) ^ L * (u / τ) * (10 : ℝ) ^ (-b * (r - mc))) := by
  have hτ := mean_positive h
  have hten : Continuous fun y : ℝ => (10 : ℝ) ^ y := Real.continuous_const_rpow (by norm_num)
  constructor
  · filter_upwards [hv, all_pos h.draws] with ω hv hpos
    obtain ⟨v, h1, h2⟩ := hv
    refine ⟨v, ?_, ?_⟩
    · filter_upwards [h1, eventually_gt_atTop 0] with n hn h0
      refine ⟨_, hS.sim (g ω) n, fun warn s => ?_⟩
      have := result_timed (c := c) (t := Spec.eventTime w ω) (hS.low _ hpos) (hS.grid.imp id fun e => ⟨e.1, e.2 _⟩) hd hb h0 warn s
      rw [hn] at this
      exact this
    · have h3 := (hten.tendsto L).comp h2
      refine h3.congr' ?_
      filter_upwards [eventually_gt_atTop 0] with n hn
      exact ten_rpow_sub_log hn
  · intro r u hu
    filter_upwards [hv, all_pos h.draws, waits_positive h, waits_mean h] with ω hv hpos hw hmean
    obtain ⟨v, h1, h2⟩ := hv
    have hdur : ∀ n, 1 < n → 0 < (Spec.eventTime w ω (n - 1) - Spec.eventTime w ω 0) / u := fun n hn =>
      div_pos (sub_pos.2 (eventTime_strictMono hw (by omega))) hu
    refine ⟨fun n => v n - b * (r - mc) - Real.log ((Spec.eventTime w ω (n - 1) - Spec.eventTime w ω 0) / u) / Real.log 10, ?_, ?_⟩
    · filter_upwards [h1, eventually_gt_atTop 1] with n hn h0
      refine ⟨_, hS.sim (g ω) n, fun warn s => ?_⟩
      exact result_reference (c := c) (t := Spec.eventTime w ω) (hS.low _ hpos) (hS.grid.imp id fun e => ⟨e.1, e.2 _⟩) hd hb (by omega) (hdur n h0) r hn warn s
    · have h3 := (hten.tendsto L).comp h2
      have h4 : Tendsto (fun n : ℕ => (Spec.eventTime w ω (n - 1) - Spec.eventTime w ω 0) / n) atTop (𝓝 τ) := by
        refine (pred_div hmean).congr fun n => ?_
        rw [duration_eq]
      have h5 := (h3.mul ((tendsto_const_nhds (x := u)).div h4 hτ.ne')).mul_const ((10 : ℝ) ^ (-b * (r - mc)))
      refine h5.congr' ?_
      filter_upwards [eventually_gt_atTop 1] with n hn
      have hn' : (n : ℝ) ≠ 0 := by exact_mod_cast (by omega : n ≠ 0)
      simp only [Function.comp_apply, Pi.div_apply]
      rw [ten_rpow_sub_log (by omega), Real.rpow_sub (by norm_num), Real.rpow_sub (by norm_num), ten_pow_log10 (hdur n hn), neg_mul, Real.rpow_neg (by norm_num)]
      have hD := hdur n hn
      generalize (Spec.eventTime w ω (n - 1) - Spec.eventTime w ω 0) = D at *
      have hD' : D ≠ 0 := by rintro rfl; simp at hD
      have hp : (10 : ℝ) ^ (b * (r - mc)) ≠ 0 := (Real.rpow_pos_of_pos (by norm_num) _).ne'
      have hu' := hu.ne'
      field_simp

/-! ### The two schemes -/

theorem timed_continuous {b d : ℝ} (mc : ℝ) (hb : 0 < b) (hd : 0 ≤ d) :
    TimedScheme b mc 0 d (fun e => e + b * Real.log 10 * d) 1 fun v i => mc + v i / (b * Real.log 10) := by
  have hβ : 0 < b * Real.log 10 := mul_pos hb log_ten_pos
  refine ⟨fun r n => simulate_continuous r n hb, ?_, Or.inl rfl, ?_, ?_⟩
  · intro v hv i
    have := div_pos (hv i) hβ
    linarith
  · intro v hv i j
    rw [show mc + v j / (b * Real.log 10) - (mc + v i / (b * Real.log 10)) = (v j - v i) / (b * Real.log 10) by ring, zero_div, sub_zero, le_div_iff₀ hβ]
    constructor <;> intro h <;> linarith
  · intro v hv i
    unfold damp growP
    rw [one_mul, max_eq_left (by have := mul_nonneg hβ.le hd; have := hv i; linarith), Real.rpow_def_of_pos (by norm_num)]
    congr 1
    have := hb.ne'; have := log_ten_pos.ne'
    field_simp
    ring

theorem timed_binned {b δ : ℝ} (z : ℤ) (k : ℕ) (hb : 0 < b) (hδ : 1 / 10 ^ 12 ≤ δ) (hk : 1 ≤ k) :
    TimedScheme b (z * δ) δ (k * δ) (fun e => b * Real.log 10 * δ * (((⌊e / (b * Real.log 10 * δ) + 1 / 10 ^ 12⌋ + k : ℤ) : ℝ) - 1 / 10 ^ 12))
      ((10 : ℝ) ^ (-(b * δ / 10 ^ 12))) fun v i => ((z + ⌊v i / (b * Real.log 10 * δ) + 1 / 10 ^ 12⌋ : ℤ) : ℝ) * δ := by
  have hp : 0 < δ := lt_of_lt_of_le (by positivity) hδ
  have hx : 0 < b * Real.log 10 * δ := mul_pos (mul_pos hb log_ten_pos) hp
  have hS := scheme_binned (b := b) (δ := δ) z k hb hδ
  refine ⟨hS.sim, hS.low, hS.grid, ?_, ?_⟩
  · intro v hv i j
    have hw : ∀ l : ℕ, 0 < (fun l : ℕ => if l = 0 then v i else v j) l := by
      intro l
      simp only
      split_ifs
      exacts [hv i, hv j]
    have g1 := hS.grows _ hw 0
    simp only [zero_add, if_true, one_ne_zero, if_false] at g1
    exact g1
  · intro v hv i
    unfold damp growP
    rw [max_eq_left (binned_nonneg hx hk (hv i)), Real.rpow_def_of_pos (by norm_num), Real.rpow_def_of_pos (by norm_num), ← Real.exp_add]
    congr 1
    push_cast
    ring

/-! ### Classic -/

theorem classic_values (X : ℕ → ℝ) (t : ℕ → ℝ) {mc δ : ℝ} (hlow : ∀ i, mc - δ / 2 ≤ X i) (d b : ℝ) {n : ℕ} (hn : 0 < n) :
    raw .classic (timedCall X t mc δ d b n) = .fin (Real.log n / Real.log 10) := by
  unfold raw
  simp only
  rw [usedIdx_timed hlow, List.length_range, log10_fin (by exact_mod_cast hn)]

theorem classic_scheme [IsProbabilityMeasure P] (h : Spec.RandomTimes P g w τ) {b mc δ d κ : ℝ} {a : ℝ → ℝ} {X : (ℕ → ℝ) → ℕ → ℝ} (hS : TimedScheme b mc δ d a κ X) (hd : 0 ≤ d)
    (hb : b ≠ 0) : CountConverges P g w .classic b mc δ (some d) 1 ∧ ∀ r u, 0 < u → RateConverges P g w .classic b mc δ (some d) r u (u / τ * (10 : ℝ) ^ (-b * (r - mc))) := by
  have h1 := limits_of_values (c := .classic) (L := 0) h hS hd hb (by
    filter_upwards [all_pos h.draws] with ω hpos
    refine ⟨fun n => Real.log n / Real.log 10, ?_, ?_⟩
    · filter_upwards [eventually_gt_atTop 0] with n hn
      exact classic_values _ _ (hS.low _ hpos) d b hn
    · simp only [sub_self]
      exact tendsto_const_nhds)
  simpa only [Real.rpow_zero, one_mul] using h1

/-! ### a-positive -/

/-- The a-positive value of the first events does not depend on the b-value; less `log10 n` it converges to zero. -/
theorem positive_values [IsProbabilityMeasure P] (h : Spec.RandomTimes P g w τ) {b mc δ d κ : ℝ} {a : ℝ → ℝ} {X : (ℕ → ℝ) → ℕ → ℝ} (hS : TimedScheme b mc δ d a κ X)
    (ha : Measurable a) (ha0 : ∀ e, 0 < e → 0 ≤ a e) :
    ∀ᵐ ω ∂P, ∃ v : ℕ → ℝ, (∀ᶠ n in atTop, ∀ b', raw .positive (timedCall (X (g ω).expo) (Spec.eventTime w ω) mc δ d b' n) = .fin (v n)) ∧
      Tendsto (fun n : ℕ => v n - Real.log n / Real.log 10) atTop (𝓝 0) := by
  have hP : IsProbabilityMeasure (expMeasure 1) := isProbabilityMeasure_expMeasure one_pos
  have hτ := mean_positive h
  have hE : Measurable fun ω => (g ω).expo := measurable_pi_iff.2 h.draws.expo_measurable
  obtain ⟨p, hp, -, hlim⟩ := scheme_limits h.draws ha ha0 (F := fun _ => 1) measurable_const (fun _ => zero_le_one) (m := 1) (m2 := 1) one_pos zero_le_one (by simp) (by simp)
  set A : ℕ → Ω → ℝ := fun j ω => excessOf a (fun _ => 1) ((g ω).expo j, (g ω).expo (j + 1)) with hA
  have hAm : ∀ j, Measurable (A j) := fun j => (excessOf_measurable ha measurable_const).comp ((h.draws.expo_measurable j).prodMk (h.draws.expo_measurable (j + 1)))
  have hA01 : ∀ j ω, 0 ≤ A j ω ∧ A j ω ≤ 1 := fun j ω => by rw [hA]; unfold excessOf; simp only; split_ifs <;> norm_num
  have hsq : ∀ j, Integrable (fun ω => A j ω ^ 2) P := fun j => by
    refine Integrable.of_bound ((hAm j).pow_const 2).aestronglyMeasurable 1 (Eventually.of_forall fun ω => ?_)
    obtain ⟨h0, h1⟩ := hA01 j ω
    rw [Real.norm_eq_abs, abs_of_nonneg (sq_nonneg _)]
    nlinarith
  have hind : IndepFun (fun ω j => A j ω) (fun ω j => w (j + 1) ω) P := by
    have m1 : Measurable fun v : ℕ → ℝ => fun j => excessOf a (fun _ => 1) (v j, v (j + 1)) := measurable_pi_iff.2 fun j =>
      (excessOf_measurable ha measurable_const).comp ((measurable_pi_apply j).prodMk (measurable_pi_apply (j + 1)))
    have m2 : Measurable fun v : ℕ → ℝ => fun j => v (j + 1) := measurable_pi_iff.2 fun j => measurable_pi_apply (j + 1)
    exact h.independent.comp m1 m2
  have hwl := weighted_law (A := A) (q := p) (C := 1) (waits_next h) (by filter_upwards [waits_positive h] with ω hω i using (hω _).le) hAm (fun j ω => (hA01 j ω).1) zero_le_one
    (fun j => ⟨(memLp_two_iff_integrable_sq (hAm j).aestronglyMeasurable).2 (hsq j), by
      have h1 : ∫ ω, A j ω ^ 2 ∂P ≤ ∫ _, (1 : ℝ) ∂P := integral_mono (hsq j) (integrable_const 1) fun ω => by
        obtain ⟨h0, h1⟩ := hA01 j ω
        simp only
        nlinarith
      have := one_le_harm j
      simp only [integral_const, probReal_univ, smul_eq_mul, mul_one] at h1
      nlinarith⟩) hind
    (by filter_upwards [hlim] with ω hω using hω.1)
  filter_upwards [all_pos h.draws, waits_positive h, waits_mean h, hlim, hwl] with ω hpos hw hmean hl hwl
  have hl1 := hl.1
  have hcount : ∀ m, growCount (X (g ω).expo) (d - δ / 2) m = pairSum (excessOf a fun _ => 1) m (g ω).expo := by
    intro m
    unfold growCount pairSum excessOf
    simp only [hS.grows _ hpos]
  have hwait : ∀ m, (∑ i ∈ Finset.range m, if d - δ / 2 ≤ X (g ω).expo (i + 1) - X (g ω).expo i then Spec.eventTime w ω (i + 1) - Spec.eventTime w ω i else 0) =
      ∑ j ∈ Finset.range m, w (j + 1) ω * A j ω := by
    intro m
    apply Finset.sum_congr rfl
    intro i _
    rw [hA]
    unfold excessOf
    simp only [hS.grows _ hpos]
    split_ifs
    · unfold Spec.eventTime
      rw [Finset.sum_range_succ _ (i + 1)]; ring
    · rw [mul_zero]
  have hlimit := rate_tendsto (K := fun n => growCount (X (g ω).expo) (d - δ / 2) (n - 1))
    (W := fun n => ∑ i ∈ Finset.range (n - 1), if d - δ / 2 ≤ X (g ω).expo (i + 1) - X (g ω).expo i then Spec.eventTime w ω (i + 1) - Spec.eventTime w ω i else 0)
    (T := fun n => Spec.eventTime w ω (n - 1) - Spec.eventTime w ω 0) hp (mul_pos hτ hp) hτ
    ((pred_div hl1).congr fun n => by rw [hcount]) ((pred_div hwl).congr fun n => by rw [hwait]) ((pred_div hmean).congr fun n => by rw [duration_eq])
  rw [show p / (τ * p / τ) = 1 by have := hτ.ne'; have := hp.ne'; field_simp, Real.log_one, zero_div] at hlimit
  refine ⟨_, ?_, hlimit⟩
  filter_upwards [eventually_gt_atTop 0, (tendsto_sub_atTop_nat 1).eventually (hl.2.1.eventually_gt_atTop 0)] with n hn hK
  obtain ⟨m, rfl⟩ : ∃ m, n = m + 1 := ⟨n - 1, by omega⟩
  simp only [Nat.add_sub_cancel] at hK ⊢
  exact fun b' => positive_timed (hS.low _ hpos) (eventTime_strictMono hw) (by rw [hcount]; exact hK)

theorem positive_scheme [IsProbabilityMeasure P] (h : Spec.RandomTimes P g w τ) {b mc δ d κ : ℝ} {a : ℝ → ℝ} {X : (ℕ → ℝ) → ℕ → ℝ} (hS : TimedScheme b mc δ d a κ X) (hd : 0 ≤ d)
    (hb : b ≠ 0) (ha : Measurable a) (ha0 : ∀ e, 0 < e → 0 ≤ a e) :
    CountConverges P g w .positive b mc δ (some d) 1 ∧ ∀ r u, 0 < u → RateConverges P g w .positive b mc δ (some d) r u (u / τ * (10 : ℝ) ^ (-b * (r - mc))) := by
  have h1 := limits_of_values (c := .positive) (L := 0) h hS hd hb (by
    filter_upwards [positive_values h hS ha ha0] with ω hv
    obtain ⟨v, h1, h2⟩ := hv
    exact ⟨v, h1.mono fun n hn => hn b, h2⟩)
  simpa only [Real.rpow_zero, one_mul] using h1

/-! ### a-more-positive -/

/-- The quantities in the a-more-positive value of the first events: number of events with a later larger one, scaled waiting time, duration. -/
theorem more_values [IsProbabilityMeasure P] (h : Spec.RandomTimes P g w τ) {b mc δ d κ : ℝ} {a : ℝ → ℝ} {X : (ℕ → ℝ) → ℕ → ℝ} (hS : TimedScheme b mc δ d a κ X)
    (ha : Measurable a) (ha0 : ∀ e, 0 < e → 0 ≤ a e) {K : ℝ} (hK : 0 ≤ K) (haK : ∀ e, 0 < e → a e ≤ e + K) :
    ∀ᵐ ω ∂P, (∀ i j, stillWaiting (X (g ω).expo) (d - δ / 2) i j ↔ ∀ l, i < l → l < j → (g ω).expo l < a ((g ω).expo i)) ∧
      (∀ᶠ n in atTop, 0 < nextPairSum (X (g ω).expo) (d - δ / 2) (fun _ _ => 1) n) ∧
      Tendsto (fun n : ℕ => nextPairSum (X (g ω).expo) (d - δ / 2) (fun _ _ => 1) n / n) atTop (𝓝 1) ∧
      Tendsto (fun n : ℕ => waitedMore (X (g ω).expo) (fun k => w k ω) (fun i => damp b d mc (X (g ω).expo i)) (d - δ / 2) n / n) atTop (𝓝 (κ * τ)) ∧
      Tendsto (fun n : ℕ => ((∑ k ∈ Finset.range n, w k ω) - w 0 ω) / n) atTop (𝓝 τ) := by
  have hτ := mean_positive h
  have hE : Measurable fun ω => (g ω).expo := measurable_pi_iff.2 h.draws.expo_measurable
  have hind : IndepFun (fun ω j => aliveWeight a j (g ω).expo) (fun ω j => w j ω) P := by
    have m1 : Measurable fun v : ℕ → ℝ => fun j => aliveWeight a j v := measurable_pi_iff.2 fun j => aliveWeight_measurable ha j
    exact h.independent.comp m1 measurable_id
  have hwt := weight_law h.draws ha ha0 hK haK
  have hwl := weighted_law (A := fun j ω => aliveWeight a j (g ω).expo) (q := 1) (C := 4 * Real.exp K) (waits_of h) (by filter_upwards [waits_positive h] with ω hω i using (hω i).le)
    (fun j => (aliveWeight_measurable ha j).comp hE) (fun j ω => aliveWeight_nonneg a j _) (by positivity)
    (fun j => by
      obtain ⟨m1, m2⟩ := weight_memLp h.draws ha hK haK j
      refine ⟨m1, m2.trans ?_⟩
      have := pow_le_pow_left₀ (harm_nonneg j) (harm_mono (Nat.le_succ j)) 2
      exact mul_le_mul_of_nonneg_left this (by positivity)) hind
    (by filter_upwards [hwt] with ω hω using hω.2)
  rw [mul_one] at hwl
  filter_upwards [all_pos h.draws, waits_positive h, waits_mean h, hwt, hwl] with ω hpos hw hmean hwt hwl
  set v := (g ω).expo with hv
  have hwaitIff : ∀ i j, stillWaiting (X v) (d - δ / 2) i j ↔ ∀ l, i < l → l < j → v l < a (v i) := by
    intro i j
    unfold stillWaiting
    refine forall_congr' fun l => forall_congr' fun _ => forall_congr' fun _ => ?_
    rw [← not_le, ← not_le, hS.grows v hpos i l]
  have hcount : ∀ n, nextPairSum (X v) (d - δ / 2) (fun _ _ => 1) n = nextSum a (fun _ => 1) n v := by
    intro n
    unfold nextSum nextPairSum
    refine Finset.sum_congr rfl fun j _ => Finset.sum_congr rfl fun i hi => ?_
    have hij := Finset.mem_range.1 hi
    have hiff := hwaitIff i j
    have hN : NextIdx (X v) (d - δ / 2) i j ↔ a (v i) ≤ v j ∧ ∀ l, i < l → l < j → v l < a (v i) := by
      rw [← hiff, ← hS.grows v hpos i j]
      exact ⟨fun q => q.2, fun q => ⟨hij, q⟩⟩
    unfold alive excessOf
    simp only
    by_cases c1 : a (v i) ≤ v j
    · by_cases c2 : ∀ l, i < l → l < j → v l < a (v i)
      · rw [if_pos (hN.2 ⟨c1, c2⟩), if_pos c2, if_pos c1, one_mul]
      · rw [if_neg (fun q => c2 (hN.1 q).2), if_neg c2, zero_mul]
    · rw [if_neg (fun q => c1 (hN.1 q).1), if_neg c1, mul_zero]
  have hwaited : ∀ n, waitedMore (X v) (fun k => w k ω) (fun i => damp b d mc (X v i)) (d - δ / 2) n = κ * ∑ j ∈ Finset.range n, w j ω * aliveWeight a j v := by
    intro n
    unfold waitedMore aliveWeight
    rw [Finset.mul_sum]
    refine Finset.sum_congr rfl fun j _ => ?_
    rw [Finset.mul_sum, Finset.mul_sum, Finset.mul_sum]
    refine Finset.sum_congr rfl fun i _ => ?_
    simp only
    rw [hS.damped v hpos i]
    unfold alive
    by_cases c2 : ∀ l, i < l → l < j → v l < a (v i)
    · rw [if_pos ((hwaitIff i j).2 c2), if_pos c2]; ring
    · rw [if_neg (fun q => c2 ((hwaitIff i j).1 q)), if_neg c2]; ring
  have htotal : ∀ n, 0 < n → (∑ k ∈ Finset.range n, w k ω) - w 0 ω = ∑ j ∈ Finset.range (n - 1), w (j + 1) ω := by
    intro n hn
    obtain ⟨m, rfl⟩ : ∃ m, n = m + 1 := ⟨n - 1, by omega⟩
    rw [Finset.sum_range_succ' (fun k => w k ω) m, Nat.add_sub_cancel]
    ring
  refine ⟨hwaitIff, ?_, hwt.1.congr fun n => by rw [hcount], (hwl.const_mul κ).congr fun n => by rw [hwaited, mul_div_assoc], (pred_div hmean).congr' ?_⟩
  · filter_upwards [eventually_gt_atTop 0, hwt.1.eventually (lt_mem_nhds one_pos)] with n hn hq
    rw [hcount]
    by_contra hc
    exact absurd hq (not_lt.2 (div_nonpos_of_nonpos_of_nonneg (not_lt.1 hc) (Nat.cast_nonneg n)))
  · filter_upwards [eventually_gt_atTop 0] with n hn
    rw [htotal n hn]

theorem more_scheme [IsProbabilityMeasure P] (h : Spec.RandomTimes P g w τ) {b mc δ d κ : ℝ} {a : ℝ → ℝ} {X : (ℕ → ℝ) → ℕ → ℝ} (hS : TimedScheme b mc δ d a κ X) (hd : 0 ≤ d)
    (hb : b ≠ 0) (hκ : 0 < κ) (ha : Measurable a) (ha0 : ∀ e, 0 < e → 0 ≤ a e) {K : ℝ} (hK : 0 ≤ K) (haK : ∀ e, 0 < e → a e ≤ e + K) :
    CountConverges P g w .morePositive b mc δ (some d) κ⁻¹ ∧
      ∀ r u, 0 < u → RateConverges P g w .morePositive b mc δ (some d) r u (κ⁻¹ * (u / τ) * (10 : ℝ) ^ (-b * (r - mc))) := by
  have hτ := mean_positive h
  have h1 := limits_of_values (c := .morePositive) (L := Real.log κ⁻¹ / Real.log 10) h hS hd hb (by
    filter_upwards [all_pos h.draws, waits_positive h, more_values h hS ha ha0 hK haK] with ω hpos hw hm
    obtain ⟨-, m1, m2, m3, m4⟩ := hm
    have hlimit := rate_tendsto one_pos (mul_pos hκ hτ) hτ m2 m3 m4
    rw [show 1 / (κ * τ / τ) = κ⁻¹ by have := hτ.ne'; have := hκ.ne'; field_simp] at hlimit
    refine ⟨_, ?_, hlimit⟩
    filter_upwards [m1] with n hn
    exact morePositive_timed (w := fun k => w k ω) (hS.low _ hpos) hw hn)
  rwa [ten_pow_log10 (inv_pos.2 hκ)] at h1

/-! ### C105 -/

/-- C105: the classic a-value counts all events, and gives their rate: with the duration of the catalog in units of `u` as scaling factor, `10^a` converges to the expected
number of events at or above the reference magnitude `r` during `u`. Magnitudes that are not binned. -/
theorem C105_classic [IsProbabilityMeasure P] (h : Spec.RandomTimes P g w τ) (b mc d : ℝ) (hb : 0 < b) (hd : 0 ≤ d) :
    CountConverges P g w .classic b mc 0 (some d) 1 ∧ ∀ r u, 0 < u → RateConverges P g w .classic b mc 0 (some d) r u (u / τ * (10 : ℝ) ^ (-b * (r - mc))) :=
  classic_scheme h (timed_continuous mc hb hd) hd hb.ne'

/-- C105: the same with binned magnitudes and `mc` on the grid. -/
theorem C105_classic_binned [IsProbabilityMeasure P] (h : Spec.RandomTimes P g w τ) (b δ : ℝ) (z : ℤ) (k : ℕ) (hb : 0 < b) (hδ : 1 / 10 ^ 12 ≤ δ) (hk : 1 ≤ k) :
    CountConverges P g w .classic b (z * δ) δ (some (k * δ)) 1 ∧
      ∀ r u, 0 < u → RateConverges P g w .classic b (z * δ) δ (some (k * δ)) r u (u / τ * (10 : ℝ) ^ (-b * (r - z * δ))) :=
  classic_scheme h (timed_binned z k hb hδ hk) (by have := lt_of_lt_of_le (show (0 : ℝ) < 1 / 10 ^ 12 by positivity) hδ; positivity) hb.ne'

/-- C105: the a-positive value, which only uses the waiting times before events larger than their predecessor, converges to the same number. Magnitudes that are not binned,
any `dmc`. -/
theorem C105_positive [IsProbabilityMeasure P] (h : Spec.RandomTimes P g w τ) (b mc d : ℝ) (hb : 0 < b) (hd : 0 ≤ d) :
    CountConverges P g w .positive b mc 0 (some d) 1 ∧ ∀ r u, 0 < u → RateConverges P g w .positive b mc 0 (some d) r u (u / τ * (10 : ℝ) ^ (-b * (r - mc))) :=
  positive_scheme h (timed_continuous mc hb hd) hd hb.ne' (by fun_prop) fun e he => by
    have := mul_nonneg (mul_nonneg hb.le log_ten_pos.le) hd
    linarith

/-- C105: the same with binned magnitudes, `mc` on the grid and `dmc` a positive multiple of the bin width. -/
theorem C105_positive_binned [IsProbabilityMeasure P] (h : Spec.RandomTimes P g w τ) (b δ : ℝ) (z : ℤ) (k : ℕ) (hb : 0 < b) (hδ : 1 / 10 ^ 12 ≤ δ) (hk : 1 ≤ k) :
    CountConverges P g w .positive b (z * δ) δ (some (k * δ)) 1 ∧
      ∀ r u, 0 < u → RateConverges P g w .positive b (z * δ) δ (some (k * δ)) r u (u / τ * (10 : ℝ) ^ (-b * (r - z * δ))) := by
  have hp : 0 < δ := lt_of_lt_of_le (by positivity) hδ
  exact positive_scheme h (timed_binned z k hb hδ hk) (by positivity) hb.ne' (binned_measurable (δ := δ) k).1 fun e he => binned_nonneg (mul_pos (mul_pos hb log_ten_pos) hp) hk he

/-- C105: the same with the default cutoff, one bin. -/
theorem C105_positive_default [IsProbabilityMeasure P] (h : Spec.RandomTimes P g w τ) (b δ : ℝ) (z : ℤ) (hb : 0 < b) (hδ : 1 / 10 ^ 12 ≤ δ) :
    CountConverges P g w .positive b (z * δ) δ none 1 ∧ ∀ r u, 0 < u → RateConverges P g w .positive b (z * δ) δ none r u (u / τ * (10 : ℝ) ^ (-b * (r - z * δ))) := by
  have h := C105_positive_binned h b δ z 1 hb hδ le_rfl
  rw [Nat.cast_one, one_mul] at h
  exact h

/-! ### C106 -/

theorem binned_le {x : ℝ} (hx : 0 < x) (k : ℕ) (e : ℝ) (_ : 0 < e) : x * (((⌊e / x + 1 / 10 ^ 12⌋ + k : ℤ) : ℝ) - 1 / 10 ^ 12) ≤ e + x * k := by
  have h1 : ((⌊e / x + 1 / 10 ^ 12⌋ : ℤ) : ℝ) ≤ e / x + 1 / 10 ^ 12 := Int.floor_le _
  push_cast
  calc x * (((⌊e / x + 1 / 10 ^ 12⌋ : ℤ) : ℝ) + k - 1 / 10 ^ 12) ≤ x * (e / x + k) := mul_le_mul_of_nonneg_left (by linarith) hx.le
    _ = e + x * k := by rw [mul_add, mul_div_cancel₀ _ hx.ne']

/-- C106: the a-more-positive value, computed with the b-value of the simulation, converges to the true number and rate of events. Magnitudes that are not binned, any
`dmc`. -/
theorem C106_more_positive [IsProbabilityMeasure P] (h : Spec.RandomTimes P g w τ) (b mc d : ℝ) (hb : 0 < b) (hd : 0 ≤ d) :
    CountConverges P g w .morePositive b mc 0 (some d) 1 ∧ ∀ r u, 0 < u → RateConverges P g w .morePositive b mc 0 (some d) r u (u / τ * (10 : ℝ) ^ (-b * (r - mc))) := by
  have hβ := mul_nonneg (mul_nonneg hb.le log_ten_pos.le) hd
  have h1 := more_scheme h (timed_continuous mc hb hd) hd hb.ne' one_pos (by fun_prop) (fun e he => by linarith) (K := b * Real.log 10 * d) hβ fun e _ => le_rfl
  simpa only [inv_one, one_mul] using h1

/-- C106 (limit): with binned magnitudes, `mc` on the grid and `dmc` a positive multiple of the bin width, the limits are too large by the factor `10^(b delta_m / 10^12)`
(the rounding of `bin_to_precision` takes values just below a bin edge up). -/
theorem C106_binned [IsProbabilityMeasure P] (h : Spec.RandomTimes P g w τ) (b δ : ℝ) (z : ℤ) (k : ℕ) (hb : 0 < b) (hδ : 1 / 10 ^ 12 ≤ δ) (hk : 1 ≤ k) :
    CountConverges P g w .morePositive b (z * δ) δ (some (k * δ)) ((10 : ℝ) ^ (b * δ / 10 ^ 12)) ∧
      ∀ r u, 0 < u → RateConverges P g w .morePositive b (z * δ) δ (some (k * δ)) r u ((10 : ℝ) ^ (b * δ / 10 ^ 12) * (u / τ) * (10 : ℝ) ^ (-b * (r - z * δ))) := by
  have hp : 0 < δ := lt_of_lt_of_le (by positivity) hδ
  have hx : 0 < b * Real.log 10 * δ := mul_pos (mul_pos hb log_ten_pos) hp
  have hS := timed_binned z k hb hδ hk
  have hthK := binned_le hx k
  have h1 := more_scheme h hS (by positivity) hb.ne' (Real.rpow_pos_of_pos (by norm_num) _) (binned_measurable (δ := δ) k).1 (fun e he => binned_nonneg hx hk he)
    (K := b * Real.log 10 * δ * k) (by positivity) hthK
  have e : ((10 : ℝ) ^ (-(b * δ / 10 ^ 12)))⁻¹ = (10 : ℝ) ^ (b * δ / 10 ^ 12) := by rw [← Real.rpow_neg (by norm_num), neg_neg]
  rwa [e] at h1

/-- C106: the same with the default cutoff, one bin. -/
theorem C106_default [IsProbabilityMeasure P] (h : Spec.RandomTimes P g w τ) (b δ : ℝ) (z : ℤ) (hb : 0 < b) (hδ : 1 / 10 ^ 12 ≤ δ) :
    CountConverges P g w .morePositive b (z * δ) δ none ((10 : ℝ) ^ (b * δ / 10 ^ 12)) ∧
      ∀ r u, 0 < u → RateConverges P g w .morePositive b (z * δ) δ none r u ((10 : ℝ) ^ (b * δ / 10 ^ 12) * (u / τ) * (10 : ℝ) ^ (-b * (r - z * δ))) := by
  have h := C106_binned h b δ z 1 hb hδ le_rfl
  rw [Nat.cast_one, one_mul] at h
  exact h

/-! ### The hypotheses are met -/

theorem iIndepFun_fst {Ω' : Type} [MeasurableSpace Ω'] {Q : Measure Ω'} [IsProbabilityMeasure P] [IsProbabilityMeasure Q] {E : ℕ → Ω → ℝ} (hm : ∀ i, Measurable (E i))
    (h : iIndepFun E P) : iIndepFun (fun i (ω : Ω × Ω') => E i ω.1) (P.prod Q) := by
  have hmap : ∀ {β : Type} [MeasurableSpace β] {f : Ω → β}, Measurable f → (P.prod Q).map (fun ω => f ω.1) = P.map f := by
    intro β _ f hf
    rw [← Function.comp_def, ← Measure.map_map hf measurable_fst, Measure.map_fst_prod, measure_univ, one_smul]
  have hm' : ∀ i, Measurable fun ω : Ω × Ω' => E i ω.1 := fun i => (hm i).comp measurable_fst
  rw [iIndepFun_iff_map_fun_eq_infinitePi_map hm']
  rw [iIndepFun_iff_map_fun_eq_infinitePi_map hm] at h
  rw [hmap (f := fun ω i => E i ω) (measurable_pi_iff.2 hm), h]
  congr 1
  funext i
  exact (hmap (hm i)).symm

/-- Random magnitudes at the times of a Poisson process of rate 1. -/
theorem randomTimes_exist : ∃ (Ω : Type) (_ : MeasurableSpace Ω) (P : Measure Ω) (_ : IsProbabilityMeasure P) (g : Ω → Rng) (w : ℕ → Ω → ℝ),
    (∀ i, P.map (w i) = expMeasure 1) ∧ Spec.RandomTimes P g w 1 := by
  obtain ⟨Ω, mΩ, P, hP, g, hg⟩ := randomDraws_exist
  have hE : IsProbabilityMeasure (expMeasure 1) := isProbabilityMeasure_expMeasure one_pos
  let Q : Measure (ℕ → ℝ) := Measure.infinitePi fun _ => expMeasure 1
  have hfst : ∀ {β : Type} [MeasurableSpace β] {f : Ω → β}, Measurable f → (P.prod Q).map (fun ω => f ω.1) = P.map f := by
    intro β _ f hf
    rw [← Function.comp_def, ← Measure.map_map hf measurable_fst, Measure.map_fst_prod, measure_univ, one_smul]
  have hsnd : ∀ {β : Type} [MeasurableSpace β] {f : (ℕ → ℝ) → β}, Measurable f → (P.prod Q).map (fun ω => f ω.2) = Q.map f := by
    intro β _ f hf
    rw [← Function.comp_def, ← Measure.map_map hf measurable_snd, Measure.map_snd_prod, measure_univ, one_smul]
  have hlaw : ∀ i, (P.prod Q).map (fun ω : Ω × (ℕ → ℝ) => ω.2 i) = expMeasure 1 := fun i =>
    (hsnd (f := fun v : ℕ → ℝ => v i) (measurable_pi_apply i)).trans (Measure.infinitePi_map_eval (fun _ => expMeasure 1) i)
  have hm : ∀ i, Measurable fun ω : Ω × (ℕ → ℝ) => ω.2 i := fun i => (measurable_pi_apply i).comp measurable_snd
  obtain ⟨i1, i2⟩ := exp_integral (f := fun x => x ^ 2) (by fun_prop) (fun x _ => sq_nonneg x) zero_le_two exp_second
  obtain ⟨j1, j2⟩ := exp_integral (f := fun x => x) measurable_id (fun x hx => hx.le) zero_le_one exp_first
  refine ⟨Ω × (ℕ → ℝ), inferInstance, P.prod Q, inferInstance, fun ω => g ω.1, fun i ω => ω.2 i, hlaw, ⟨⟨?_, ?_, ?_, ?_, ?_, ?_⟩, hm, ?_, ?_, ?_, ?_, ?_, ?_⟩⟩
  · exact fun i => (hg.uniform_measurable i).comp measurable_fst
  · exact iIndepFun_fst hg.uniform_measurable hg.uniform_indep
  · exact fun i => (hfst (hg.uniform_measurable i)).trans (hg.uniform_law i)
  · exact fun i => (hg.expo_measurable i).comp measurable_fst
  · exact iIndepFun_fst hg.expo_measurable hg.expo_indep
  · exact fun i => (hfst (hg.expo_measurable i)).trans (hg.expo_law i)
  · rw [iIndepFun_iff_map_fun_eq_infinitePi_map hm, hsnd (f := fun v : ℕ → ℝ => fun i => v i) measurable_id]
    simp only [hlaw]
    exact Measure.map_id
  · exact fun i => (hlaw i).trans (hlaw 0).symm
  · have h0 := exp_ae_pos
    rw [← hlaw 0] at h0
    exact ae_of_ae_map (hm 0).aemeasurable h0
  · rw [memLp_two_iff_integrable_sq (hm 0).aestronglyMeasurable]
    rw [← hlaw 0] at i1
    exact i1.comp_measurable (hm 0)
  · rw [← hlaw 0] at j2
    exact (integral_map (f := fun y : ℝ => y) (hm 0).aemeasurable measurable_id.aestronglyMeasurable).symm.trans j2
  · exact indepFun_prod (measurable_pi_iff.2 hg.expo_measurable) measurable_id

/-- A case: magnitudes with `b = 1`, bin width 0.1, `mc = 2.0`, at the times of a Poisson process of rate 1: both estimators give the number of events of magnitude 3 and
more in 365 units of time, 36.5. -/
example : ∃ (Ω : Type) (_ : MeasurableSpace Ω) (P : Measure Ω) (g : Ω → Rng) (w : ℕ → Ω → ℝ), Spec.RandomTimes P g w 1 ∧
    RateConverges P g w .positive 1 ((20 : ℤ) * (1 / 10)) (1 / 10) none 3 365 (36.5) ∧
    RateConverges P g w .morePositive 1 2 0 (some 0) 3 365 (36.5) := by
  obtain ⟨Ω, mΩ, P, hP, g, w, -, h⟩ := randomTimes_exist
  refine ⟨Ω, mΩ, P, g, w, h, ?_, ?_⟩
  · have := (C105_positive_default h 1 (1 / 10) 20 one_pos (by norm_num)).2 3 365 (by norm_num)
    have e : (365 / 1 : ℝ) * (10 : ℝ) ^ (-1 * (3 - (20 : ℤ) * (1 / 10)) : ℝ) = 36.5 := by
      rw [show (-1 * (3 - ((20 : ℤ) : ℝ) * (1 / 10)) : ℝ) = -1 by norm_num, Real.rpow_neg_one]; norm_num
    rwa [e] at this
  · have := (C106_more_positive h 1 2 0 one_pos le_rfl).2 3 365 (by norm_num)
    have e : (365 / 1 : ℝ) * (10 : ℝ) ^ (-1 * (3 - 2) : ℝ) = 36.5 := by
      rw [show (-1 * (3 - 2) : ℝ) = -1 by norm_num, Real.rpow_neg_one]; norm_num
    rwa [e] at this

end
end SeismoStats.Props
