/-
Property C97: the standard deviation reported with a b-value is the right one on simulated magnitudes.
-/
import Verif.Proofs.Normal

namespace SeismoStats.Props
open SeismoStats SeismoStats.Simulate BValue MeasureTheory ProbabilityTheory Filter Topology
open Classical
noncomputable section

/-- `std` read after `calculate`. -/
theorem std_all {c : Cls} (hc : c = .classic ∨ c = .utsu) (warn : Bool) {s : State} (hs : Reachable c s) (mags : List ℝ) (mc δ : ℝ) (dmc : Option ℝ) (hlen : 2 ≤ mags.length)
    (hall : ∀ m ∈ mags, mc - δ / 2 ≤ m) (hδ : δ = 0 ∨ 1 / 10 ^ 12 ≤ δ ∧ ∀ m ∈ mags, ∃ z : ℤ, m = z * δ) {b : ℝ}
    (hb : (calculate c warn s (callOf mags mc δ dmc)).2 = .ok (.fin b)) :
    (calculate c warn s (callOf mags mc δ dmc)).1.std =
      .ok (.fin (Real.log 10 * b ^ 2 * Real.sqrt (Spec.variance (mags.map fun m => (m, 1))) / Real.sqrt (mags.length - 1))) := by
  have hv := (accepted_iff _).1 (accepted_all mags mc δ dmc hδ)
  have e1 := calculate_classic_valid hc warn s _ hv (reachable_times hc hs).1
  have hra := ok_result hc hs hb
  rw [hra] at e1
  rw [e1]
  simp only [State.std, store, usedState]
  rw [nums_used, used_all mags mc δ dmc hall, List.map_map]
  have e2 : mags.map (Prod.fst ∘ fun m => (m, (1 : ℝ))) = mags := by
    conv_rhs => rw [← List.map_id mags]
    rfl
  rw [e2]
  have e3 : (callOf mags mc δ dmc).weights.map (fun _ => (mags.map fun m => (m, (1 : ℝ))).map Prod.snd) = none := rfl
  rw [e3]
  have h2 : (2 : ℝ) ≤ mags.length := by exact_mod_cast hlen
  rw [C20_formula mags b none (fun _ h => by cases h) (by rw [wm_none, total_all]; linarith), wm_none, total_all]

/-- Variance of the first `n` members. -/
theorem variance_firstMags (X : ℕ → ℝ) (n : ℕ) (hn : 0 < n) :
    Spec.variance ((firstMags X n).map fun m => (m, 1)) = (∑ i ∈ Finset.range n, X i ^ 2) / n - ((∑ i ∈ Finset.range n, X i) / n) ^ 2 := by
  have hn' : (n : ℝ) ≠ 0 := by exact_mod_cast hn.ne'
  unfold Spec.variance
  rw [total_all, wmean_all, firstMags_length, firstMags_sum, List.map_map]
  set μ := (∑ i ∈ Finset.range n, X i) / n with hμ
  have e : ((firstMags X n).map ((fun p : ℝ × ℝ => p.2 * (p.1 - μ) ^ 2) ∘ fun m => (m, 1))).sum = ∑ i ∈ Finset.range n, (X i - μ) ^ 2 := by
    rw [← firstMags_sum (fun i => (X i - μ) ^ 2) n]
    unfold firstMags
    rw [List.map_map]
    congr 1
    apply List.map_congr_left
    intro i _
    simp
  rw [e]
  have e2 : ∀ i, (X i - μ) ^ 2 = X i ^ 2 - 2 * μ * X i + μ ^ 2 := fun i => by ring
  simp only [e2]
  rw [Finset.sum_add_distrib, Finset.sum_sub_distrib, ← Finset.mul_sum, Finset.sum_const, Finset.card_range, nsmul_eq_mul]
  have e3 : ∑ i ∈ Finset.range n, X i = μ * n := by rw [hμ]; field_simp
  rw [e3]
  field_simp
  ring

variable {Ω : Type} [MeasurableSpace Ω] {P : Measure Ω} {g : Ω → Rng}

/-- The outcome for `n ≥ 2` simulated magnitudes. -/
theorem outcome_continuous {c : Cls} (hc : c = .classic ∨ c = .utsu) (r : Rng) (hpos : ∀ i, 0 < r.expo i) {n : ℕ} (hn : 2 ≤ n) {b mc : ℝ} (hb : 0 < b) (warn : Bool) {s : State}
    (hs : Reachable c s) :
    let out := calculate c warn s (callOf (firstMags (fun i => mc + r.expo i / (b * Real.log 10)) n) mc 0 none)
    out.2 = .ok (.fin (b / meanE r n)) ∧
      out.1.std = .ok (.fin (b * Real.sqrt (meanE2 r n - meanE r n ^ 2) / (meanE r n ^ 2 * Real.sqrt (n - 1)))) := by
  have hβ : 0 < b * Real.log 10 := mul_pos hb log_ten_pos
  set β := b * Real.log 10 with hβd
  set X : ℕ → ℝ := fun i => mc + r.expo i / β with hX
  have hn0 : (0 : ℝ) < n := by exact_mod_cast (by omega : 0 < n)
  have hM : 0 < meanE r n := by
    unfold meanE
    exact div_pos (Finset.sum_pos (fun i _ => hpos i) ⟨0, Finset.mem_range.2 (by omega)⟩) hn0
  have hall : ∀ m ∈ firstMags X n, mc - 0 / 2 ≤ m := by
    intro m hm
    obtain ⟨i, rfl⟩ := mem_firstMags hm
    have := div_pos (hpos i) hβ
    simp only [hX]; linarith
  have hne : firstMags X n ≠ [] := by rw [ne_eq, ← List.length_eq_zero_iff, firstMags_length]; omega
  have hsum : ∑ i ∈ Finset.range n, X i = n * (mc + meanE r n / β) := by
    rw [hX, Finset.sum_add_distrib, Finset.sum_const, Finset.card_range, nsmul_eq_mul, ← Finset.sum_div]
    unfold meanE
    field_simp
  have hmean : (firstMags X n).sum / (firstMags X n).length - mc = meanE r n / β := by
    rw [firstMags_sum, firstMags_length, hsum]
    field_simp
    ring
  have hpos' : 0 < meanE r n / β := div_pos hM hβ
  have hres : (calculate c warn s (callOf (firstMags X n) mc 0 none)).2 = .ok (.fin (b / meanE r n)) := by
    rw [calculate_all hc warn hs _ mc 0 none hne hall (Or.inl rfl), hmean]
    have hl := log_ten_pos.ne'
    rcases hc with rfl | rfl
    · simp only
      rw [betaOf_pos hpos']
      unfold betaVal betaToB Fl.mapFin
      rw [if_neg (lt_irrefl 0)]
      simp only
      congr 2
      rw [hβd]; field_simp
    · simp only
      rw [zero_div, add_zero]
      unfold Fl.div betaToB
      rw [if_neg hpos'.ne']
      unfold Fl.mapFin
      simp only
      congr 2
      rw [hβd]; field_simp
  refine ⟨hres, ?_⟩
  rw [std_all hc warn hs _ mc 0 none (by rw [firstMags_length]; exact hn) hall (Or.inl rfl) hres, variance_firstMags _ _ (by omega), firstMags_length, hsum]
  have hvar : (∑ i ∈ Finset.range n, X i ^ 2) / (n : ℝ) - (n * (mc + meanE r n / β) / n) ^ 2 = (1 / β) ^ 2 * (meanE2 r n - meanE r n ^ 2) := by
    have e : ∀ i, X i ^ 2 = mc ^ 2 + 2 * mc / β * r.expo i + 1 / β ^ 2 * r.expo i ^ 2 := fun i => by
      simp only [hX]; field_simp; ring
    simp only [e]
    rw [Finset.sum_add_distrib, Finset.sum_add_distrib, Finset.sum_const, Finset.card_range, nsmul_eq_mul, ← Finset.mul_sum, ← Finset.mul_sum]
    unfold meanE meanE2
    field_simp
    ring
  rw [hvar, Real.sqrt_mul (sq_nonneg _), Real.sqrt_sq (by positivity)]
  congr 2
  have hl := log_ten_pos.ne'
  rw [hβd]
  have : 0 < Real.sqrt ((n : ℝ) - 1) := Real.sqrt_pos.2 (by have : (2 : ℝ) ≤ n := by exact_mod_cast hn
                                                            linarith)
  field_simp

/-- With `n` magnitudes simulated with b-value `b`, the interval of `z` reported standard deviations around the estimate contains `b` (for every estimator object). -/
def Covers (c : Cls) (b mc z : ℝ) (n : ℕ) (r : Rng) : Prop :=
  ∃ mags b' σ, simulateBinned n (fun _ => b) mc 0 none .bValue r = .ok mags ∧ |b' - b| ≤ z * σ ∧
    ∀ warn s, Reachable c s → (calculate c warn s { mags := mags.map some, mc := mc, δ := 0 }).2 = .ok (.fin b') ∧
      (calculate c warn s { mags := mags.map some, mc := mc, δ := 0 }).1.std = .ok (.fin σ)

theorem covers_iff {c : Cls} (hc : c = .classic ∨ c = .utsu) (r : Rng) (hpos : ∀ i, 0 < r.expo i) {n : ℕ} (hn : 2 ≤ n) {b mc z : ℝ} (hb : 0 < b) :
    Covers c b mc z n r ↔
      |(Real.sqrt n)⁻¹ * ∑ i ∈ Finset.range n, (r.expo i - 1)| * (meanE r n * Real.sqrt (1 - 1 / n)) ≤ z * Real.sqrt (meanE2 r n - meanE r n ^ 2) := by
  have hn2 : (2 : ℝ) ≤ n := by exact_mod_cast hn
  have hn0 : (0 : ℝ) < n := by linarith
  have hM : 0 < meanE r n := by
    unfold meanE
    exact div_pos (Finset.sum_pos (fun i _ => hpos i) ⟨0, Finset.mem_range.2 (by omega)⟩) hn0
  have hs1 : 0 < Real.sqrt ((n : ℝ) - 1) := Real.sqrt_pos.2 (by linarith)
  have hsn : 0 < Real.sqrt (n : ℝ) := Real.sqrt_pos.2 hn0
  have hsq : Real.sqrt (n : ℝ) * Real.sqrt n = n := Real.mul_self_sqrt hn0.le
  have h1 : Real.sqrt (1 - 1 / (n : ℝ)) = Real.sqrt (n - 1) / Real.sqrt n := by
    rw [← Real.sqrt_div (by linarith)]
    congr 1
    field_simp
  have h2 : (Real.sqrt n)⁻¹ * ∑ i ∈ Finset.range n, (r.expo i - 1) = Real.sqrt n * (meanE r n - 1) := by
    rw [Finset.sum_sub_distrib, Finset.sum_const, Finset.card_range, nsmul_eq_mul, mul_one]
    have e : (Real.sqrt (n : ℝ))⁻¹ = Real.sqrt n / n := by
      rw [eq_div_iff hn0.ne', inv_mul_eq_div, div_eq_iff hsn.ne']; linarith
    unfold meanE
    rw [e]
    field_simp
  set S := Real.sqrt (meanE2 r n - meanE r n ^ 2) with hS
  have h3 : (|b / meanE r n - b| ≤ z * (b * S / (meanE r n ^ 2 * Real.sqrt (n - 1)))) ↔
      |(Real.sqrt n)⁻¹ * ∑ i ∈ Finset.range n, (r.expo i - 1)| * (meanE r n * Real.sqrt (1 - 1 / n)) ≤ z * S := by
    rw [h2, h1, abs_mul, abs_of_pos hsn]
    have e1 : b / meanE r n - b = -(b / meanE r n * (meanE r n - 1)) := by field_simp; ring
    rw [e1, abs_neg, abs_mul, abs_of_pos (div_pos hb hM), ← mul_div_assoc, le_div_iff₀ (by positivity)]
    have e2 : b / meanE r n * |meanE r n - 1| * (meanE r n ^ 2 * Real.sqrt (n - 1)) = b * (|meanE r n - 1| * meanE r n * Real.sqrt (n - 1)) := by field_simp
    have e3 : Real.sqrt n * |meanE r n - 1| * (meanE r n * (Real.sqrt (n - 1) / Real.sqrt n)) = |meanE r n - 1| * meanE r n * Real.sqrt (n - 1) := by field_simp
    rw [e2, e3, show z * (b * S) = b * (z * S) by ring, mul_le_mul_iff_of_pos_left hb]
  rw [← h3]
  constructor
  · rintro ⟨mags, b', σ, h4, h5, h6⟩
    rw [simulate_continuous r n hb] at h4
    cases h4
    obtain ⟨h7, h8⟩ := h6 false State.init .init
    obtain ⟨o1, o2⟩ := outcome_continuous hc r hpos hn (mc := mc) hb false (Reachable.init (c := c))
    unfold callOf at o1 o2
    rw [o1] at h7
    rw [o2] at h8
    injection h7 with h7; injection h7 with h7
    injection h8 with h8; injection h8 with h8
    rw [← h7, ← h8] at h5
    exact h5
  · intro h
    exact ⟨_, _, _, simulate_continuous r n hb, h, fun warn s hs => outcome_continuous hc r hpos hn hb warn hs⟩

theorem sqrt_factor_tendsto : Tendsto (fun n : ℕ => Real.sqrt (1 - 1 / (n : ℝ))) atTop (𝓝 1) := by
  have h := (tendsto_const_div_atTop_nhds_zero_nat (1 : ℝ)).const_sub 1
  have h2 := (Real.continuous_sqrt.tendsto _).comp h
  rw [sub_zero, Real.sqrt_one] at h2
  exact h2

/-- C97: the reported standard deviation, times the root of the number of events, converges to the b-value of the simulation. -/
theorem C97_std (hg : Spec.RandomDraws P g) {c : Cls} (hc : c = .classic ∨ c = .utsu) (b mc : ℝ) (hb : 0 < b) :
    ∀ᵐ ω ∂P, ∃ σ : ℕ → ℝ, (∀ n ≥ 2, ∃ mags, simulateBinned n (fun _ => b) mc 0 none .bValue (g ω) = .ok mags ∧
      ∀ warn s, Reachable c s → (calculate c warn s { mags := mags.map some, mc := mc, δ := 0 }).1.std = .ok (.fin (σ n))) ∧
      Tendsto (fun n : ℕ => Real.sqrt n * σ n) atTop (𝓝 b) := by
  filter_upwards [all_pos hg, meanE_tendsto hg, meanE2_tendsto hg] with ω hpos t1 t2
  refine ⟨fun n => b * Real.sqrt (meanE2 (g ω) n - meanE (g ω) n ^ 2) / (meanE (g ω) n ^ 2 * Real.sqrt (n - 1)), ?_, ?_⟩
  · intro n hn
    exact ⟨_, simulate_continuous (g ω) n hb, fun warn s hs => (outcome_continuous hc (g ω) hpos hn hb warn hs).2⟩
  · have h0 : Tendsto (fun n : ℕ => Real.sqrt (1 - 1 / (n : ℝ))) atTop (𝓝 1) := sqrt_factor_tendsto
    have h1 : Tendsto (fun n => Real.sqrt (meanE2 (g ω) n - meanE (g ω) n ^ 2)) atTop (𝓝 1) := by
      have := (Real.continuous_sqrt.tendsto _).comp (t2.sub (t1.pow 2))
      norm_num at this
      exact this
    have h2 := ((h1.const_mul b).div (t1.pow 2) (by norm_num)).div h0 one_ne_zero
    norm_num at h2
    refine h2.congr' ?_
    filter_upwards [eventually_ge_atTop 2] with n hn
    have hn2 : (2 : ℝ) ≤ n := by exact_mod_cast hn
    have hsn : 0 < Real.sqrt (n : ℝ) := Real.sqrt_pos.2 (by linarith)
    have hs1 : 0 < Real.sqrt ((n : ℝ) - 1) := Real.sqrt_pos.2 (by linarith)
    have h1 : Real.sqrt (1 - (n : ℝ)⁻¹) = Real.sqrt (n - 1) / Real.sqrt n := by
      rw [← Real.sqrt_div (by linarith)]
      congr 1
      field_simp
    simp only [Pi.div_apply]
    rw [h1]
    field_simp

/-- C97: the probability that the interval of `z` standard deviations contains the b-value of the simulation converges to the probability that a standard normal variable
is at most `z` in absolute value. -/
theorem C97_coverage [IsProbabilityMeasure P] (hg : Spec.RandomDraws P g) {c : Cls} (hc : c = .classic ∨ c = .utsu) (b mc z : ℝ) (hb : 0 < b) (hz : 0 < z) :
    Tendsto (fun n => P.real {ω | Covers c b mc z n (g ω)}) atTop (𝓝 ((gaussianReal 0 1).real (Set.Icc (-z) z))) := by
  have hU : ∀ n : ℕ, Measurable fun ω => meanE (g ω) n * Real.sqrt (1 - 1 / n) := fun n => (meanE_measurable hg n).mul_const _
  have hV : ∀ n : ℕ, Measurable fun ω => Real.sqrt (meanE2 (g ω) n - meanE (g ω) n ^ 2) := fun n =>
    Real.continuous_sqrt.measurable.comp ((meanE2_measurable hg n).sub ((meanE_measurable hg n).pow_const 2))
  have h0 : Tendsto (fun n : ℕ => Real.sqrt (1 - 1 / (n : ℝ))) atTop (𝓝 1) := sqrt_factor_tendsto
  have key := slutsky_interval (clt_expo hg) hU hV
    (by filter_upwards [meanE_tendsto hg] with ω t1
        simpa using t1.mul h0)
    (by filter_upwards [meanE_tendsto hg, meanE2_tendsto hg] with ω t1 t2
        have := (Real.continuous_sqrt.tendsto _).comp (t2.sub (t1.pow 2))
        norm_num at this
        exact this) hz
  refine key.congr' ?_
  filter_upwards [eventually_ge_atTop 2] with n hn
  apply measureReal_congr
  filter_upwards [all_pos hg] with ω hpos
  exact propext (covers_iff hc (g ω) hpos hn hb).symm

/-- A case: two standard deviations around the classic estimate. -/
example : ∃ (Ω : Type) (_ : MeasurableSpace Ω) (P : Measure Ω) (g : Ω → Rng), Spec.RandomDraws P g ∧
    Tendsto (fun n => P.real {ω | Covers .classic 1 2 2 n (g ω)}) atTop (𝓝 ((gaussianReal 0 1).real (Set.Icc (-2) 2))) := by
  obtain ⟨Ω, mΩ, P, hP, g, hg⟩ := randomDraws_exist
  exact ⟨Ω, mΩ, P, g, hg, C97_coverage hg (Or.inl rfl) 1 2 2 one_pos two_pos⟩

end
end SeismoStats.Props
