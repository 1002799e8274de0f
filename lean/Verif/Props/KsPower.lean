/-
Property C113: the Kolmogorov-Smirnov test of `ks_test_gr` and `estimate_mc_ks` detects magnitudes that do not have the law that is tested.
-/
import Verif.Props.KsLevel
import Verif.Proofs.Hoeffding

namespace SeismoStats.Props
open SeismoStats SeismoStats.Simulate EstimateMc MeasureTheory ProbabilityTheory Filter Topology
open scoped BigOperators
open Classical
noncomputable section

variable {Ω : Type} [MeasurableSpace Ω] {P : Measure Ω} {g : Ω → Rng}

/-! ### distances of samples that are close to a law -/

/-- The fraction of the sample at or below `t`. -/
def fracBelow (s : List ℝ) (t : ℝ) : ℝ := (s.countP fun v => decide (v ≤ t) : ℕ) / (s.length : ℝ)

theorem weightOf_count (s : List ℝ) (t : ℝ) : Spec.weightOf s (effWeights s none) (· ≤ t) = (s.countP fun v => decide (v ≤ t) : ℕ) := by
  unfold Spec.weightOf effWeights
  rw [show List.zip s (s.map fun _ => (1 : ℝ)) = s.map fun v => (v, 1) from by rw [List.map_prod_left_eq_zip], List.map_map]
  induction s with
  | nil => simp
  | cons v s ih =>
    rw [List.map_cons, List.sum_cons, ih, List.countP_cons]
    by_cases h : v ≤ t
    · simp [h]; ring
    · simp [h]

theorem fracBelow_le_one (s : List ℝ) (t : ℝ) : fracBelow s t ≤ 1 := by
  unfold fracBelow
  exact div_le_one_of_le₀ (by exact_mod_cast List.countP_le_length) (by positivity)

theorem fracBelow_nonneg (s : List ℝ) (t : ℝ) : 0 ≤ fracBelow s t := by
  unfold fracBelow
  positivity

theorem fracBelow_mono (s : List ℝ) {t T : ℝ} (h : t ≤ T) : fracBelow s t ≤ fracBelow s T := by
  unfold fracBelow
  apply div_le_div_of_nonneg_right _ (by positivity)
  have : (s.countP fun v => decide (v ≤ t)) ≤ s.countP fun v => decide (v ≤ T) := by
    apply List.countP_mono_left
    intro v _ hv
    rw [decide_eq_true_iff] at hv ⊢
    exact hv.trans h
  exact_mod_cast this

/-- Counting only up to the last bin changes a fraction by at most the fraction that is left out. -/
theorem ratio_close (s : List ℝ) {t T θ : ℝ} (htT : t ≤ T) (hθ : θ < 1) (hT : 1 - θ ≤ fracBelow s T) :
    |Spec.weightOf s (effWeights s none) (· ≤ t) / Spec.weightOf s (effWeights s none) (· ≤ T) - fracBelow s t| ≤ θ := by
  have hpos : 0 < fracBelow s T := by linarith
  have hlen : (s.length : ℝ) ≠ 0 := by
    intro h
    unfold fracBelow at hpos
    rw [h] at hpos
    simp at hpos
  have e : Spec.weightOf s (effWeights s none) (· ≤ t) / Spec.weightOf s (effWeights s none) (· ≤ T) = fracBelow s t / fracBelow s T := by
    rw [weightOf_count, weightOf_count]
    unfold fracBelow
    rw [div_div_div_cancel_right₀ hlen]
  rw [e]
  have h1 := fracBelow_mono s htT
  have h2 := fracBelow_nonneg s t
  have h3 := fracBelow_le_one s T
  have e2 : fracBelow s t / fracBelow s T - fracBelow s t = fracBelow s t / fracBelow s T * (1 - fracBelow s T) := by
    field_simp
  rw [e2, abs_of_nonneg (mul_nonneg (div_nonneg h2 hpos.le) (by linarith))]
  have h4 : fracBelow s t / fracBelow s T ≤ 1 := div_le_one_of_le₀ h1 hpos.le
  calc _ ≤ 1 * (1 - fracBelow s T) := mul_le_mul_of_nonneg_right h4 (by linarith)
    _ ≤ θ := by linarith

theorem low_of_frac {s : List ℝ} {t : ℝ} (h : 0 < fracBelow s t) : ∃ v ∈ s, v ≤ t := by
  by_contra hc
  push Not at hc
  have : s.countP (fun v => decide (v ≤ t)) = 0 := by
    rw [List.countP_eq_zero]
    intro v hv
    simpa using hc v hv
  unfold fracBelow at h
  rw [this] at h
  simp at h

/-- If the sample is close to `F`, the simulated samples are close to `G`, and `F` is farther from the law that is tested than `G`, then the p-value is 0. -/
theorem rejected_of_close (warn : Bool) {mags : List ℝ} {sims : List (List ℝ)} {a : ℤ} {δ b : ℝ} (hδ : 1 / 10 ^ 12 ≤ δ) (hb : 0 < b) (hs : sims ≠ [])
    (hbin : ∀ s ∈ mags :: sims, OnBins (a * δ) δ s) {G : ℕ → ℝ} {η D0 Fk : ℝ} {k K : ℕ} (hη : 0 < η) (hη2 : η < 1 / 2) (hkK : k ≤ K)
    (hK : (K : ℝ) * δ ≤ Real.log (mags.length * sims.length * 1000) / Real.log 10 / b)
    (hdK : 1 - 2 * η ≤ fracBelow mags (a * δ + K * δ)) (hdk : |fracBelow mags (a * δ + k * δ) - Fk| ≤ η)
    (hG : Monotone G) (hG1 : ∀ j, G j ≤ 1) (hGK : 1 - η ≤ G K)
    (hsim : ∀ s ∈ sims, ∀ j ≤ K, |fracBelow s (a * δ + j * δ) - G j| ≤ η)
    (hD0 : ∀ j : ℕ, |G j - (1 - Real.exp (-(b * Real.log 10) * ((j + 1) * δ)))| ≤ D0)
    (hgap : D0 + 8 * η < |Fk - (1 - Real.exp (-(b * Real.log 10) * ((k + 1) * δ)))|) :
    ∃ d ds, ksTest warn mags (a * δ) δ (.fin b) none sims none = .ok (.fin 0, d, ds) := by
  have hp : 0 < δ := lt_of_lt_of_le (by positivity) hδ
  have hsK : ∀ s ∈ sims, 1 - 2 * η ≤ fracBelow s (a * δ + K * δ) := by
    intro s h
    have := (abs_le.1 (hsim s h K le_rfl)).1
    linarith
  have hlowall : ∀ s ∈ mags :: sims, ∃ v ∈ s, v ≤ a * δ + (K : ℝ) * δ := by
    intro s h
    apply low_of_frac
    rcases List.mem_cons.1 h with rfl | h
    · linarith
    · linarith [hsK s h]
  have hne : mags ≠ [] := by
    obtain ⟨v, hv, -⟩ := hlowall mags (by simp)
    exact List.ne_nil_of_mem hv
  by_cases hv : warn = false ∨ ∃ u ∈ mags, ∃ v ∈ mags, u ≠ v
  · obtain ⟨p, D, ds, N, hrun, hN, hD, hds⟩ := C35_simulated hδ hb hne hs hv hbin (fun s h => by
      obtain ⟨v, hv, hle⟩ := hlowall s h
      exact ⟨v, hv, by linarith⟩)
    have hKN : K < N := (hN K).2 (by linarith)
    have hlast : ∀ s ∈ mags :: sims, 1 - 2 * η ≤ fracBelow s (a * δ + (N - 1 : ℕ) * δ) := by
      intro s h
      have hle : (K : ℝ) ≤ (N - 1 : ℕ) := by exact_mod_cast (by omega : K ≤ N - 1)
      have hm := fracBelow_mono s (show a * δ + (K : ℝ) * δ ≤ a * δ + (N - 1 : ℕ) * δ by nlinarith)
      rcases List.mem_cons.1 h with rfl | h
      · linarith
      · linarith [hsK s h]
    have hrat : ∀ s ∈ mags :: sims, ∀ j < N, |Spec.weightOf s (effWeights s none) (· ≤ a * δ + (j : ℝ) * δ) /
        Spec.weightOf s (effWeights s none) (· ≤ a * δ + (N - 1 : ℕ) * δ) - fracBelow s (a * δ + j * δ)| ≤ 2 * η := by
      intro s h j hj
      have hle : (j : ℝ) ≤ (N - 1 : ℕ) := by exact_mod_cast (by omega : j ≤ N - 1)
      exact ratio_close s (by nlinarith) (by linarith) (hlast s h)
    have hbig : D0 + 5 * η < D := by
      have h1 : |Spec.weightOf mags (effWeights mags none) (· ≤ a * δ + (k : ℝ) * δ) / Spec.weightOf mags (effWeights mags none) (· ≤ a * δ + (N - 1 : ℕ) * δ) -
          (1 - Real.exp (-(b * Real.log 10) * ((k + 1) * δ)))| ≤ D := hD.2 ⟨k, by omega, rfl⟩
      have h2 := hrat mags (by simp) k (by omega)
      set R := Spec.weightOf mags (effWeights mags none) (· ≤ a * δ + (k : ℝ) * δ) / Spec.weightOf mags (effWeights mags none) (· ≤ a * δ + (N - 1 : ℕ) * δ)
      have h3 : Fk - (1 - Real.exp (-(b * Real.log 10) * ((k + 1) * δ))) =
          -(fracBelow mags (a * δ + k * δ) - Fk) + (-(R - fracBelow mags (a * δ + k * δ)) + (R - (1 - Real.exp (-(b * Real.log 10) * ((k + 1) * δ))))) := by ring
      rw [h3] at hgap
      have h4 := abs_add_le (-(fracBelow mags (a * δ + k * δ) - Fk)) (-(R - fracBelow mags (a * δ + k * δ)) + (R - (1 - Real.exp (-(b * Real.log 10) * ((k + 1) * δ)))))
      have h5 := abs_add_le (-(R - fracBelow mags (a * δ + k * δ))) (R - (1 - Real.exp (-(b * Real.log 10) * ((k + 1) * δ))))
      rw [abs_neg] at h4 h5
      linarith
    have hsmall : ∀ s ∈ sims, ∀ D', IsKsDistance s (effWeights s none) (a * δ) δ (b * Real.log 10) N D' → D' ≤ D0 + 4 * η := by
      intro s h D' hD'
      obtain ⟨j, hj, rfl⟩ := hD'.1
      have h2 := hrat s (by simp [h]) j hj
      set R := Spec.weightOf s (effWeights s none) (· ≤ a * δ + (j : ℝ) * δ) / Spec.weightOf s (effWeights s none) (· ≤ a * δ + (N - 1 : ℕ) * δ)
      have h1 : |fracBelow s (a * δ + j * δ) - G j| ≤ 2 * η := by
        by_cases hjK : j ≤ K
        · linarith [hsim s h j hjK]
        · have hKj : K ≤ j := by omega
          have hle : (K : ℝ) ≤ j := by exact_mod_cast hKj
          have e1 := fracBelow_mono s (show a * δ + (K : ℝ) * δ ≤ a * δ + j * δ by nlinarith)
          have e2 := fracBelow_le_one s (a * δ + j * δ)
          have e3 := hG hKj
          have e4 := hG1 j
          have e5 := hsK s h
          rw [abs_le]
          constructor <;> linarith
      have e : R - (1 - Real.exp (-(b * Real.log 10) * ((j + 1) * δ))) =
          (R - fracBelow s (a * δ + j * δ)) + ((fracBelow s (a * δ + j * δ) - G j) + (G j - (1 - Real.exp (-(b * Real.log 10) * ((j + 1) * δ))))) := by ring
      rw [e]
      have h4 := abs_add_le (R - fracBelow s (a * δ + j * δ)) ((fracBelow s (a * δ + j * δ) - G j) + (G j - (1 - Real.exp (-(b * Real.log 10) * ((j + 1) * δ)))))
      have h5 := abs_add_le (fracBelow s (a * δ + j * δ) - G j) (G j - (1 - Real.exp (-(b * Real.log 10) * ((j + 1) * δ))))
      linarith [hD0 j]
    have hnone : ds.countP (fun x => Fl.ge x (.fin D)) = 0 := by
      rw [List.countP_eq_zero]
      intro d hd
      obtain ⟨s, hsm, D', rfl, hD'⟩ : ∃ s ∈ sims, ∃ D', d = .fin D' ∧ IsKsDistance s (effWeights s none) (a * δ) δ (b * Real.log 10) N D' := by
        obtain ⟨i, hi, rfl⟩ := List.mem_iff_getElem.1 hd
        have hi' : i < sims.length := by rw [hds.length_eq]; exact hi
        exact ⟨sims[i], List.getElem_mem _, (List.forall₂_iff_get.1 hds).2 i hi' hi⟩
      have := hsmall s hsm D' hD'
      simp only [Fl.ge, decide_eq_true_eq, not_le]
      linarith
    obtain ⟨q, rfl, -, -, hq⟩ := C35_p_value hrun
    refine ⟨.fin D, ds, ?_⟩
    rcases hq with ⟨hq, -⟩ | ⟨-, -, hq, -⟩
    · rw [hrun, hq, hnone]; simp
    · rw [hrun, hq]
  · push Not at hv
    obtain ⟨hw, hall⟩ := hv
    refine ⟨.fin 1, [], ?_⟩
    unfold ksTest ksGuard
    rw [if_pos (by simpa using hw), if_neg hne]
    obtain ⟨v, hvm⟩ := List.exists_mem_of_ne_nil _ hne
    have : uniqueSorted mags = [v] := by
      rw [← uniqueSorted_of_sorted (List.pairwise_singleton (· < ·) v)]
      apply sorted_ext (uniqueSorted_sorted _) (uniqueSorted_sorted _)
      intro u
      rw [mem_uniqueSorted, mem_uniqueSorted, List.mem_singleton]
      constructor
      · intro hu; exact hall u hu v hvm
      · rintro rfl; exact hvm
    rw [this]
    simp

/-! ### simulated samples -/

/-- Probability that a magnitude simulated with b-value `b` above `a δ` is at most `(a + j) δ`. -/
def simCdf (b δ : ℝ) (j : ℕ) : ℝ := 1 - Real.exp (-(b * Real.log 10 * δ) * (j + 1 - 1 / 10 ^ 12))

/-- The simulated magnitudes. -/
def simMags (b : ℝ) (a : ℤ) (δ : ℝ) (m : ℕ) (r : Rng) : List ℝ := firstMags (fun i => ((a + ⌊r.expo i / (b * Real.log 10 * δ) + 1 / 10 ^ 12⌋ : ℤ) : ℝ) * δ) m

theorem simMags_length (b : ℝ) (a : ℤ) (δ : ℝ) (m : ℕ) (r : Rng) : (simMags b a δ m r).length = m := by simp [simMags, firstMags]

theorem simMags_onBins {b δ : ℝ} (hb : 0 < b) (hδ : 0 < δ) (a : ℤ) (m : ℕ) {r : Rng} (hr : ∀ i, 0 < r.expo i) : OnBins (a * δ) δ (simMags b a δ m r) := by
  intro v hv
  obtain ⟨i, -, rfl⟩ := List.mem_map.1 hv
  have hx : 0 < b * Real.log 10 * δ := mul_pos (mul_pos hb log_ten_pos) hδ
  have h0 : 0 ≤ ⌊r.expo i / (b * Real.log 10 * δ) + 1 / 10 ^ 12⌋ := Int.floor_nonneg.2 (by have := div_pos (hr i) hx; positivity)
  refine ⟨⌊r.expo i / (b * Real.log 10 * δ) + 1 / 10 ^ 12⌋.toNat, ?_⟩
  have : ((⌊r.expo i / (b * Real.log 10 * δ) + 1 / 10 ^ 12⌋.toNat : ℕ) : ℝ) = ((⌊r.expo i / (b * Real.log 10 * δ) + 1 / 10 ^ 12⌋ : ℤ) : ℝ) := by
    exact_mod_cast Int.toNat_of_nonneg h0
  rw [this]; push_cast; ring

theorem fracBelow_firstMags (X : ℕ → ℝ) (m : ℕ) (t : ℝ) (A : Set ℝ) (E : ℕ → ℝ) (h : ∀ i, X i ≤ t ↔ E i ∈ A) :
    fracBelow (firstMags X m) t = (∑ i ∈ Finset.range m, A.indicator (fun _ => (1 : ℝ)) (E i)) / m := by
  unfold fracBelow
  have e1 : (firstMags X m).length = m := by simp [firstMags]
  rw [e1]
  congr 1
  induction m with
  | zero => simp [firstMags]
  | succ m ih =>
    rw [Finset.sum_range_succ, ← ih (by simp [firstMags])]
    have e2 : firstMags X (m + 1) = firstMags X m ++ [X m] := by
      unfold firstMags
      rw [List.range_succ, List.map_append]
      rfl
    rw [e2, List.countP_append, List.countP_singleton]
    by_cases hm : X m ≤ t
    · rw [Set.indicator_of_mem ((h m).1 hm)]
      simp [hm]
    · rw [Set.indicator_of_notMem (fun h' => hm ((h m).2 h'))]
      simp [hm]

theorem simMags_below {b δ : ℝ} (hb : 0 < b) (hδ : 0 < δ) (a : ℤ) (r : Rng) (i : ℕ) (j : ℕ) :
    ((a + ⌊r.expo i / (b * Real.log 10 * δ) + 1 / 10 ^ 12⌋ : ℤ) : ℝ) * δ ≤ a * δ + j * δ ↔ r.expo i ∈ Set.Iio (b * Real.log 10 * δ * (j + 1 - 1 / 10 ^ 12)) := by
  have hx : 0 < b * Real.log 10 * δ := mul_pos (mul_pos hb log_ten_pos) hδ
  have e : (a : ℝ) * δ + j * δ = ((a + (j : ℤ) : ℤ) : ℝ) * δ := by push_cast; ring
  rw [e, mul_le_mul_iff_left₀ hδ, Int.cast_le, add_le_add_iff_left, ← Int.lt_add_one_iff, Int.floor_lt, Set.mem_Iio, ← lt_sub_iff_add_lt, div_lt_iff₀ hx]
  push_cast
  rw [mul_comm]

/-- The fractions of simulated magnitudes are close to their probabilities. -/
theorem sim_deviation [IsProbabilityMeasure P] (hg : Spec.RandomDraws P g) {b δ : ℝ} (hb : 0 < b) (hδ : 0 < δ) (a : ℤ) (j : ℕ) {η : ℝ} (hη : 0 < η) {m : ℕ} (hm : 0 < m) :
    P.real {ω | η ≤ |fracBelow (simMags b a δ m (g ω)) (a * δ + j * δ) - simCdf b δ j|} ≤ 2 * Real.exp (-2 * m * η ^ 2) := by
  have hx : 0 < b * Real.log 10 * δ := mul_pos (mul_pos hb log_ten_pos) hδ
  have hc : 0 ≤ b * Real.log 10 * δ * (j + 1 - 1 / 10 ^ 12) := by
    have : (0 : ℝ) ≤ j := by positivity
    have h2 : (0 : ℝ) ≤ j + 1 - 1 / 10 ^ 12 := by norm_num; linarith
    positivity
  have hq : ∀ i, P.real ((fun ω => (g ω).expo i) ⁻¹' Set.Iio (b * Real.log 10 * δ * (j + 1 - 1 / 10 ^ 12))) = simCdf b δ j := by
    intro i
    have h1 : P.real ((fun ω => (g ω).expo i) ⁻¹' (Set.Ici (b * Real.log 10 * δ * (j + 1 - 1 / 10 ^ 12)))) = Real.exp (-(b * Real.log 10 * δ * (j + 1 - 1 / 10 ^ 12))) := by
      unfold Measure.real
      rw [← Measure.map_apply (hg.expo_measurable i) measurableSet_Ici, hg.expo_law, exp_tail hc, ENNReal.toReal_ofReal (Real.exp_pos _).le]
    have h2 := probReal_compl_eq_one_sub (μ := P) ((hg.expo_measurable i) (measurableSet_Ici (a := b * Real.log 10 * δ * (j + 1 - 1 / 10 ^ 12))))
    rw [h1, ← Set.preimage_compl, Set.compl_Ici] at h2
    rw [h2]
    unfold simCdf
    congr 2
    ring
  have := Hoeffding.frac_deviation (P := P) (E := fun i ω => (g ω).expo i) hg.expo_measurable hg.expo_indep measurableSet_Iio hq hη hm
  refine le_trans (le_of_eq ?_) this
  congr 1
  ext ω
  rw [Set.mem_ofPred_eq, Set.mem_ofPred_eq]
  unfold simMags
  rw [fracBelow_firstMags _ m _ _ (fun i => (g ω).expo i) fun i => simMags_below hb hδ a (g ω) i j]

theorem simCdf_mono {b δ : ℝ} (hb : 0 < b) (hδ : 0 < δ) : Monotone (simCdf b δ) := by
  have hx : 0 < b * Real.log 10 * δ := mul_pos (mul_pos hb log_ten_pos) hδ
  intro i j hij
  unfold simCdf
  have h1 : (i : ℝ) ≤ j := by exact_mod_cast hij
  have := Real.exp_le_exp.2 (show -(b * Real.log 10 * δ) * ((j : ℝ) + 1 - 1 / 10 ^ 12) ≤ -(b * Real.log 10 * δ) * (i + 1 - 1 / 10 ^ 12) by nlinarith)
  linarith

theorem simCdf_le_one (b δ : ℝ) (j : ℕ) : simCdf b δ j ≤ 1 := by
  unfold simCdf
  linarith [Real.exp_pos (-(b * Real.log 10 * δ) * ((j : ℝ) + 1 - 1 / 10 ^ 12))]

theorem simCdf_tendsto {b δ : ℝ} (hb : 0 < b) (hδ : 0 < δ) : Tendsto (simCdf b δ) atTop (𝓝 1) := by
  have hx : 0 < b * Real.log 10 * δ := mul_pos (mul_pos hb log_ten_pos) hδ
  have h1 : Tendsto (fun j : ℕ => -(b * Real.log 10 * δ) * ((j : ℝ) + 1 - 1 / 10 ^ 12)) atTop atBot := by
    apply Tendsto.const_mul_atTop_of_neg (by linarith)
    have : (fun j : ℕ => (j : ℝ) + 1 - 1 / 10 ^ 12) = fun j : ℕ => (j : ℝ) + (1 - 1 / 10 ^ 12) := by funext j; ring
    rw [this]
    exact tendsto_atTop_add_const_right _ _ tendsto_natCast_atTop_atTop
  have h2 := (Real.tendsto_exp_atBot.comp h1).const_sub 1
  rw [sub_zero] at h2
  exact h2

/-- Distance between the law of the simulated magnitudes and the law that is tested. -/
theorem simCdf_distance {b δ : ℝ} (hb : 0 < b) (hδ : 0 < δ) (j : ℕ) : |simCdf b δ j - (1 - Real.exp (-(b * Real.log 10) * ((j + 1) * δ)))| ≤
    Real.exp (-(b * Real.log 10 * δ)) * (Real.exp (b * Real.log 10 * δ / 10 ^ 12) - 1) := by
  have hx : 0 < b * Real.log 10 * δ := mul_pos (mul_pos hb log_ten_pos) hδ
  set x := b * Real.log 10 * δ with hxd
  unfold simCdf
  rw [← hxd]
  have e1 : Real.exp (-x * ((j : ℝ) + 1 - 1 / 10 ^ 12)) = Real.exp (-x * (j + 1)) * Real.exp (x / 10 ^ 12) := by
    rw [← Real.exp_add]; congr 1; ring
  have e2 : Real.exp (-(b * Real.log 10) * (((j : ℝ) + 1) * δ)) = Real.exp (-x * (j + 1)) := by congr 1; rw [hxd]; ring
  have h1 : 1 ≤ Real.exp (x / 10 ^ 12) := Real.one_le_exp (by positivity)
  have hj : (0 : ℝ) ≤ j := by positivity
  have h2 : Real.exp (-x * ((j : ℝ) + 1)) ≤ Real.exp (-x) := Real.exp_le_exp.2 (by nlinarith)
  rw [e1, e2]
  have e3 : 1 - Real.exp (-x * ((j : ℝ) + 1)) * Real.exp (x / 10 ^ 12) - (1 - Real.exp (-x * (j + 1))) = -(Real.exp (-x * (j + 1)) * (Real.exp (x / 10 ^ 12) - 1)) := by ring
  rw [e3, abs_neg, abs_of_nonneg (mul_nonneg (Real.exp_pos _).le (by linarith))]
  exact mul_le_mul_of_nonneg_right h2 (by linarith)

/-! ### the test -/

/-- `ks_test_gr` with the samples that it draws: one sample of the same size for each of the generators. -/
def ksWith (warn : Bool) (b mc δ : ℝ) (mags : List ℝ) (rs : List Rng) : Py (Fl ℝ × Fl ℝ × List (Fl ℝ)) := do
  let sims ← rs.mapM fun r => simulateBinned mags.length (fun _ => b) mc δ none .bValue r
  ksTest warn mags mc δ (.fin b) none sims none

theorem ksWith_eq (warn : Bool) {b δ : ℝ} (hb : 0 < b) (hδ : 1 / 10 ^ 12 ≤ δ) (a : ℤ) (mags : List ℝ) (rs : List Rng) :
    ksWith warn b (a * δ) δ mags rs = ksTest warn mags (a * δ) δ (.fin b) none (rs.map fun r => simMags b a δ mags.length r) none := by
  unfold ksWith
  have h : rs.mapM (fun r => simulateBinned mags.length (fun _ => b) (a * δ) δ none .bValue r) = .ok (rs.map fun r => simMags b a δ mags.length r) := by
    rw [mapM_ok_iff, List.forall₂_map_right_iff, List.forall₂_same]
    intro r _
    exact simulate_grid r _ a hb hδ
  rw [h]
  rfl

/-- What has to be close for the test to reject. -/
theorem rejected_event (warn : Bool) {b δ : ℝ} (a : ℤ) (hb : 0 < b) (hδ : 1 / 10 ^ 12 ≤ δ) {n : ℕ} (hn : 0 < n) {F : ℕ → ℝ} (hF : Tendsto F atTop (𝓝 1)) {k : ℕ}
    (hgap : Real.exp (-(b * Real.log 10 * δ)) * (Real.exp (b * Real.log 10 * δ / 10 ^ 12) - 1) < |F k - (1 - Real.exp (-(b * Real.log 10 * δ) * (k + 1)))|) :
    ∃ η > 0, ∃ K M : ℕ, ∀ (mags : List ℝ) (rs : List Rng), M ≤ mags.length → rs.length = n → OnBins (a * δ) δ mags → (∀ r ∈ rs, ∀ i, 0 < r.expo i) →
      |fracBelow mags (a * δ + K * δ) - F K| < η → |fracBelow mags (a * δ + k * δ) - F k| < η →
      (∀ r ∈ rs, ∀ j ≤ K, |fracBelow (simMags b a δ mags.length r) (a * δ + j * δ) - simCdf b δ j| < η) →
      ∃ d ds, ksWith warn b (a * δ) δ mags rs = .ok (.fin 0, d, ds) := by
  have hp : 0 < δ := lt_of_lt_of_le (by positivity) hδ
  set D0 := Real.exp (-(b * Real.log 10 * δ)) * (Real.exp (b * Real.log 10 * δ / 10 ^ 12) - 1) with hD0
  set gap := |F k - (1 - Real.exp (-(b * Real.log 10 * δ) * (k + 1)))| with hgd
  set η := min (1 / 4) ((gap - D0) / 9) with hη
  have hη0 : 0 < η := lt_min (by norm_num) (by linarith)
  have hη1 : η ≤ 1 / 4 := min_le_left _ _
  have hη2 : η ≤ (gap - D0) / 9 := min_le_right _ _
  have hev1 : ∀ᶠ j in atTop, 1 - η < F j := hF.eventually (lt_mem_nhds (by linarith))
  have hev2 : ∀ᶠ j in atTop, 1 - η < simCdf b δ j := (simCdf_tendsto hb hp).eventually (lt_mem_nhds (by linarith))
  obtain ⟨K, ⟨hK1, hK2⟩, hkK⟩ := ((hev1.and hev2).and (eventually_ge_atTop k)).exists
  have hlim : Tendsto (fun m : ℕ => Real.log ((m : ℝ) * n * 1000) / Real.log 10 / b) atTop atTop := by
    have hnR : (0 : ℝ) < n := by exact_mod_cast hn
    refine Tendsto.atTop_div_const hb (Tendsto.atTop_div_const log_ten_pos (Real.tendsto_log_atTop.comp ?_))
    exact Tendsto.atTop_mul_const (by norm_num) (Tendsto.atTop_mul_const hnR tendsto_natCast_atTop_atTop)
  obtain ⟨M, hM⟩ := eventually_atTop.1 (hlim.eventually_ge_atTop ((K : ℝ) * δ))
  refine ⟨η, hη0, K, M, ?_⟩
  intro mags rs hlen hrs hbin hpos h1 h2 h3
  rw [ksWith_eq warn hb hδ a mags rs]
  refine rejected_of_close warn (G := simCdf b δ) (η := η) (D0 := D0) (Fk := F k) (k := k) (K := K) hδ hb ?_ ?_ hη0 (by linarith) hkK ?_ ?_ h2.le (simCdf_mono hb hp) (simCdf_le_one b δ) hK2.le ?_ (simCdf_distance hb hp) ?_
  · rw [← List.length_pos_iff, List.length_map, hrs]; exact hn
  · intro s hs
    rcases List.mem_cons.1 hs with rfl | hs
    · exact hbin
    · obtain ⟨r, hr, rfl⟩ := List.mem_map.1 hs
      exact simMags_onBins hb hp a _ (hpos r hr)
  · rw [List.length_map, hrs]
    exact hM _ hlen
  · have := (abs_lt.1 h1).1
    linarith
  · intro s hs j hj
    obtain ⟨r, hr, rfl⟩ := List.mem_map.1 hs
    exact (h3 r hr j hj).le
  · have e : -(b * Real.log 10) * (((k : ℝ) + 1) * δ) = -(b * Real.log 10 * δ) * (k + 1) := by ring
    rw [e, ← hgd]
    linarith

theorem all_pos_family {h : ℕ → ℕ → Ω → Rng} (hh : ∀ m i, Spec.RandomDraws P (h m i)) : ∀ᵐ ω ∂P, ∀ m i l, 0 < (h m i ω).expo l :=
  ae_all_iff.2 fun m => ae_all_iff.2 fun i => all_pos (hh m i)

/-- C113, almost surely: samples of growing size whose fractions converge to a distribution function `F` that differs from the law that is tested (by more than the shift of
the simulated samples) are rejected with p-value 0 from some size on, whatever the number of simulated samples. -/
theorem C113_detects [IsProbabilityMeasure P] (warn : Bool) {b δ : ℝ} (a : ℤ) (hb : 0 < b) (hδ : 1 / 10 ^ 12 ≤ δ) {n : ℕ} (hn : 0 < n) {mags : ℕ → Ω → List ℝ}
    (hlen : ∀ m ω, (mags m ω).length = m) (hbins : ∀ᵐ ω ∂P, ∀ m, OnBins (a * δ) δ (mags m ω)) {F : ℕ → ℝ}
    (hF : ∀ᵐ ω ∂P, ∀ j : ℕ, Tendsto (fun m => fracBelow (mags m ω) (a * δ + j * δ)) atTop (𝓝 (F j))) (hF1 : Tendsto F atTop (𝓝 1)) {k : ℕ}
    (hgap : Real.exp (-(b * Real.log 10 * δ)) * (Real.exp (b * Real.log 10 * δ / 10 ^ 12) - 1) < |F k - (1 - Real.exp (-(b * Real.log 10 * δ) * (k + 1)))|)
    {h : ℕ → ℕ → Ω → Rng} (hh : ∀ m i, Spec.RandomDraws P (h m i)) :
    ∀ᵐ ω ∂P, ∀ᶠ m in atTop, ∃ d ds, ksWith warn b (a * δ) δ (mags m ω) ((List.range n).map fun i => h m i ω) = .ok (.fin 0, d, ds) := by
  have hp : 0 < δ := lt_of_lt_of_le (by positivity) hδ
  obtain ⟨η, hη, K, M, hrej⟩ := rejected_event warn a hb hδ hn hF1 hgap
  have hsims : ∀ᵐ ω ∂P, ∀ i j : ℕ, ∀ᶠ m in atTop, |fracBelow (simMags b a δ m (h m i ω)) (a * δ + j * δ) - simCdf b δ j| < η := by
    refine ae_all_iff.2 fun i => ae_all_iff.2 fun j => ?_
    have hsum : ∑' m : ℕ, P {ω | η ≤ |fracBelow (simMags b a δ (m + 1) (h (m + 1) i ω)) (a * δ + j * δ) - simCdf b δ j|} ≠ ⊤ := by
      have hr : Summable fun m : ℕ => 2 * Real.exp (-2 * ((m + 1 : ℕ) : ℝ) * η ^ 2) := by
        have h1 : Summable fun m : ℕ => Real.exp ((m : ℝ) * (-2 * η ^ 2)) := Real.summable_exp_nat_mul_iff.2 (by nlinarith [sq_nonneg η, pow_pos hη 2])
        have h2 := ((summable_nat_add_iff 1).2 h1).mul_left 2
        refine h2.congr fun m => ?_
        congr 2; ring
      refine ne_top_of_le_ne_top hr.tsum_ofReal_ne_top (ENNReal.tsum_le_tsum fun m => ?_)
      rw [← ENNReal.ofReal_toReal (measure_ne_top P _)]
      exact ENNReal.ofReal_le_ofReal (sim_deviation (hh (m + 1) i) hb hp a j hη (Nat.succ_pos m))
    filter_upwards [ae_eventually_notMem hsum] with ω hω
    obtain ⟨M0, hM0⟩ := eventually_atTop.1 hω
    filter_upwards [eventually_ge_atTop (M0 + 1)] with m hm
    obtain ⟨m', rfl⟩ : ∃ m', m = m' + 1 := ⟨m - 1, by omega⟩
    exact not_le.1 (hM0 m' (by omega))
  filter_upwards [hbins, hF, hsims, all_pos_family hh] with ω h1 h2 h3 h4
  have e1 : ∀ j : ℕ, ∀ᶠ m in atTop, |fracBelow (mags m ω) (a * δ + j * δ) - F j| < η := by
    intro j
    have := Metric.tendsto_nhds.1 (h2 j) η hη
    simpa [Real.dist_eq] using this
  have e2 : ∀ᶠ m in atTop, ∀ i < n, ∀ j ≤ K, |fracBelow (simMags b a δ m (h m i ω)) (a * δ + j * δ) - simCdf b δ j| < η := by
    have := (Finset.eventually_all (Finset.range n ×ˢ Finset.range (K + 1)) (p := fun q (m : ℕ) => |fracBelow (simMags b a δ m (h m q.1 ω)) (a * δ + (q.2 : ℕ) * δ) - simCdf b δ q.2| < η) (l := atTop)).2 fun q _ => h3 q.1 q.2
    filter_upwards [this] with m hm i hi j hj
    exact hm (i, j) (by simp [hi]; omega)
  filter_upwards [e1 K, e1 k, e2, eventually_ge_atTop M] with m f1 f2 f3 f4
  refine hrej _ _ (by rw [hlen]; exact f4) (by simp) (h1 m) ?_ f1 f2 ?_
  · intro r hr l
    obtain ⟨i, -, rfl⟩ := List.mem_map.1 hr
    exact h4 m i l
  · intro r hr j hj
    obtain ⟨i, hi, rfl⟩ := List.mem_map.1 hr
    rw [hlen]
    exact f3 i (List.mem_range.1 hi) j hj

/-- C113, in probability: if the fractions converge in probability, then the probability of a p-value that is not 0 tends to 0. -/
theorem C113_detects_prob [IsProbabilityMeasure P] (warn : Bool) {b δ : ℝ} (a : ℤ) (hb : 0 < b) (hδ : 1 / 10 ^ 12 ≤ δ) {n : ℕ} (hn : 0 < n) {mags : ℕ → Ω → List ℝ}
    (hlen : ∀ m ω, (mags m ω).length = m) (hbins : ∀ᵐ ω ∂P, ∀ m, OnBins (a * δ) δ (mags m ω)) {F : ℕ → ℝ}
    (hF : ∀ j : ℕ, TendstoInMeasure P (fun m ω => fracBelow (mags m ω) (a * δ + j * δ)) atTop fun _ => F j) (hF1 : Tendsto F atTop (𝓝 1)) {k : ℕ}
    (hgap : Real.exp (-(b * Real.log 10 * δ)) * (Real.exp (b * Real.log 10 * δ / 10 ^ 12) - 1) < |F k - (1 - Real.exp (-(b * Real.log 10 * δ) * (k + 1)))|)
    {h : ℕ → ℕ → Ω → Rng} (hh : ∀ m i, Spec.RandomDraws P (h m i)) :
    Tendsto (fun m => P.real {ω | ¬ ∃ d ds, ksWith warn b (a * δ) δ (mags m ω) ((List.range n).map fun i => h m i ω) = .ok (.fin 0, d, ds)}) atTop (𝓝 0) := by
  have hp : 0 < δ := lt_of_lt_of_le (by positivity) hδ
  obtain ⟨η, hη, K, M, hrej⟩ := rejected_event warn a hb hδ hn hF1 hgap
  set Bd : ℕ → ℕ → Set Ω := fun j m => {ω | η ≤ |fracBelow (mags m ω) (a * δ + j * δ) - F j|} with hBd
  set Bs : ℕ → ℕ → ℕ → Set Ω := fun i j m => {ω | η ≤ |fracBelow (simMags b a δ m (h m i ω)) (a * δ + j * δ) - simCdf b δ j|} with hBs
  have hdata : ∀ j, Tendsto (fun m => P.real (Bd j m)) atTop (𝓝 0) := by
    intro j
    have := tendstoInMeasure_iff_measureReal_dist.1 (hF j) η hη
    refine this.congr fun m => ?_
    congr 1
  have hsim : ∀ i j, Tendsto (fun m => P.real (Bs i j m)) atTop (𝓝 0) := by
    intro i j
    refine squeeze_zero' (Eventually.of_forall fun _ => measureReal_nonneg) ?_ (g := fun m : ℕ => 2 * Real.exp (-2 * (m : ℝ) * η ^ 2)) ?_
    · filter_upwards [eventually_gt_atTop 0] with m hm
      exact sim_deviation (hh m i) hb hp a j hη hm
    · have h1 : Tendsto (fun m : ℕ => -2 * (m : ℝ) * η ^ 2) atTop atBot := by
        have : (fun m : ℕ => -2 * (m : ℝ) * η ^ 2) = fun m : ℕ => (-2 * η ^ 2) * (m : ℝ) := by funext m; ring
        rw [this]
        exact Tendsto.const_mul_atTop_of_neg (by nlinarith [pow_pos hη 2]) tendsto_natCast_atTop_atTop
      have := (Real.tendsto_exp_atBot.comp h1).const_mul 2
      rw [mul_zero] at this
      exact this
  have hbound : ∀ᶠ m in atTop, P.real {ω | ¬ ∃ d ds, ksWith warn b (a * δ) δ (mags m ω) ((List.range n).map fun i => h m i ω) = .ok (.fin 0, d, ds)} ≤
      P.real (Bd K m) + P.real (Bd k m) + ∑ i ∈ Finset.range n, ∑ j ∈ Finset.range (K + 1), P.real (Bs i j m) := by
    filter_upwards [eventually_ge_atTop M] with m hm
    have hsub : ∀ᵐ ω ∂P, (¬ ∃ d ds, ksWith warn b (a * δ) δ (mags m ω) ((List.range n).map fun i => h m i ω) = .ok (.fin 0, d, ds)) →
        ω ∈ (Bd K m ∪ Bd k m) ∪ ⋃ i ∈ Finset.range n, ⋃ j ∈ Finset.range (K + 1), Bs i j m := by
      filter_upwards [hbins, all_pos_family hh] with ω h1 h4 hno
      by_contra hc
      apply hno
      simp only [Set.mem_union, Set.mem_iUnion, not_or, not_exists] at hc
      obtain ⟨⟨c1, c2⟩, c3⟩ := hc
      refine hrej _ _ (by rw [hlen]; exact hm) (by simp) (h1 m) ?_ (not_le.1 c1) (not_le.1 c2) ?_
      · intro r hr l
        obtain ⟨i, -, rfl⟩ := List.mem_map.1 hr
        exact h4 m i l
      · intro r hr j hj
        obtain ⟨i, hi, rfl⟩ := List.mem_map.1 hr
        rw [hlen]
        exact not_le.1 (c3 i (Finset.mem_range.2 (List.mem_range.1 hi)) j (Finset.mem_range.2 (by omega)))
    have h1 : P.real {ω | ¬ ∃ d ds, ksWith warn b (a * δ) δ (mags m ω) ((List.range n).map fun i => h m i ω) = .ok (.fin 0, d, ds)} ≤
        P.real ((Bd K m ∪ Bd k m) ∪ ⋃ i ∈ Finset.range n, ⋃ j ∈ Finset.range (K + 1), Bs i j m) := by
      unfold Measure.real
      exact ENNReal.toReal_mono (measure_ne_top P _) (measure_mono_ae hsub)
    refine h1.trans ((measureReal_union_le _ _).trans (add_le_add (measureReal_union_le _ _) ?_))
    refine (measureReal_biUnion_finset_le _ _).trans (Finset.sum_le_sum fun i _ => ?_)
    exact measureReal_biUnion_finset_le _ _
  refine squeeze_zero' (Eventually.of_forall fun _ => measureReal_nonneg) hbound ?_
  have h3 := tendsto_finsetSum (Finset.range n) fun i _ => tendsto_finsetSum (Finset.range (K + 1)) fun j _ => hsim i j
  simpa using ((hdata K).add (hdata k)).add h3

/-! ### simulated data -/

theorem later_draws (hg : Spec.RandomDraws P g) (k : ℕ) : Spec.RandomDraws P fun ω => later (g ω) k where
  uniform_measurable i := hg.uniform_measurable (k + i)
  uniform_indep := hg.uniform_indep.precomp (g := fun i => k + i) fun _ _ h => Nat.add_left_cancel h
  uniform_law i := hg.uniform_law (k + i)
  expo_measurable i := hg.expo_measurable (k + i)
  expo_indep := hg.expo_indep.precomp (g := fun i => k + i) fun _ _ h => Nat.add_left_cancel h
  expo_law i := hg.expo_law (k + i)

/-- `ks_test_gr` with b-value `b0` and completeness `mc0` on `m` magnitudes simulated with b-value `b` above `mc`; the `n` samples drawn by the function follow. -/
def ksOther (warn : Bool) (b mc b0 mc0 δ : ℝ) (m n : ℕ) (r : Rng) : Py (Fl ℝ × Fl ℝ × List (Fl ℝ)) := do
  let mags ← simulateBinned m (fun _ => b) mc δ none .bValue r
  ksWith warn b0 mc0 δ mags ((List.range n).map fun i => later r ((i + 1) * m))

/-- Distribution of the simulated magnitudes on the bins from `a δ` on, if they are simulated above `(a + l) δ`. -/
def shiftCdf (b δ : ℝ) (l j : ℕ) : ℝ := if j < l then 0 else simCdf b δ (j - l)

theorem shiftCdf_tendsto {b δ : ℝ} (hb : 0 < b) (hδ : 0 < δ) (l : ℕ) : Tendsto (shiftCdf b δ l) atTop (𝓝 1) := by
  have h1 : Tendsto (fun j : ℕ => simCdf b δ (j - l)) atTop (𝓝 1) := (simCdf_tendsto hb hδ).comp (tendsto_sub_atTop_nat l)
  refine h1.congr' ?_
  filter_upwards [eventually_ge_atTop l] with j hj
  unfold shiftCdf
  rw [if_neg (by omega)]

theorem shift_frac [IsProbabilityMeasure P] (hg : Spec.RandomDraws P g) {b δ : ℝ} (hb : 0 < b) (hδ : 0 < δ) (a : ℤ) (l : ℕ) :
    ∀ᵐ ω ∂P, ∀ j : ℕ, Tendsto (fun m => fracBelow (simMags b (a + l) δ m (g ω)) (a * δ + j * δ)) atTop (𝓝 (shiftCdf b δ l j)) := by
  refine ae_all_iff.2 fun j => ?_
  have hx : 0 < b * Real.log 10 * δ := mul_pos (mul_pos hb log_ten_pos) hδ
  by_cases hj : j < l
  · filter_upwards [all_pos hg] with ω hpos
    unfold shiftCdf
    rw [if_pos hj]
    refine tendsto_const_nhds.congr fun m => ?_
    symm
    have : (simMags b (a + l) δ m (g ω)).countP (fun v => decide (v ≤ a * δ + j * δ)) = 0 := by
      rw [List.countP_eq_zero]
      intro v hv
      obtain ⟨i, rfl⟩ := simMags_onBins hb hδ (a + l) m hpos v hv
      rw [decide_eq_true_iff, not_le]
      push_cast
      have h1 : (j : ℝ) < l := by exact_mod_cast hj
      have h2 : (0 : ℝ) ≤ i * δ := by positivity
      nlinarith
    unfold fracBelow
    rw [this]
    simp
  · obtain ⟨i, rfl⟩ : ∃ i, j = l + i := ⟨j - l, by omega⟩
    have hc : 0 ≤ b * Real.log 10 * δ * (i + 1 - 1 / 10 ^ 12) := by
      have : (0 : ℝ) ≤ i := by positivity
      have h2 : (0 : ℝ) ≤ i + 1 - 1 / 10 ^ 12 := by norm_num; linarith
      positivity
    have hP1 : IsProbabilityMeasure (expMeasure 1) := isProbabilityMeasure_expMeasure one_pos
    set A : Set ℝ := Set.Iio (b * Real.log 10 * δ * (i + 1 - 1 / 10 ^ 12)) with hA
    have hint : ∫⁻ e, ENNReal.ofReal (A.indicator (fun _ => (1 : ℝ)) e) ∂(expMeasure 1) = ENNReal.ofReal (simCdf b δ i) := by
      have e : (fun e => ENNReal.ofReal (A.indicator (fun _ => (1 : ℝ)) e)) = A.indicator fun _ => 1 := by
        funext e
        by_cases h : e ∈ A
        · rw [Set.indicator_of_mem h, Set.indicator_of_mem h]; simp
        · rw [Set.indicator_of_notMem h, Set.indicator_of_notMem h]; simp
      rw [e, lintegral_indicator measurableSet_Iio, setLIntegral_const, one_mul, ← Set.compl_Ici, prob_compl_eq_one_sub measurableSet_Ici, exp_tail hc]
      unfold simCdf
      rw [ENNReal.ofReal_sub _ (Real.exp_pos _).le, ENNReal.ofReal_one]
      congr 3
      ring
    have h0 : 0 ≤ simCdf b δ i := by
      unfold simCdf
      rw [sub_nonneg, Real.exp_le_one_iff]
      linarith
    have hlaw := strong_law_expo hg (A.indicator fun _ => (1 : ℝ)) (measurable_const.indicator measurableSet_Iio) (fun e => Set.indicator_nonneg (fun _ _ => zero_le_one) e) _ h0 hint
    filter_upwards [hlaw] with ω hω
    unfold shiftCdf
    rw [if_neg (by omega), Nat.add_sub_cancel_left]
    refine hω.congr fun m => ?_
    symm
    have e : (a : ℝ) * δ + ((l + i : ℕ) : ℝ) * δ = ((a + l : ℤ) : ℝ) * δ + i * δ := by push_cast; ring
    rw [e]
    unfold simMags
    exact fracBelow_firstMags _ m _ _ (fun i => (g ω).expo i) fun i' => simMags_below hb hδ (a + l) (g ω) i' i

/-- Data simulated above `(a + l) δ`, tested at `a δ`. -/
theorem shift_detects [IsProbabilityMeasure P] (hg : Spec.RandomDraws P g) (warn : Bool) {b b0 δ : ℝ} (a : ℤ) (l : ℕ) (hb : 0 < b) (hb0 : 0 < b0) (hδ : 1 / 10 ^ 12 ≤ δ) {n : ℕ}
    (hn : 0 < n) {k : ℕ}
    (hgap : Real.exp (-(b0 * Real.log 10 * δ)) * (Real.exp (b0 * Real.log 10 * δ / 10 ^ 12) - 1) < |shiftCdf b δ l k - (1 - Real.exp (-(b0 * Real.log 10 * δ) * (k + 1)))|) :
    ∀ᵐ ω ∂P, ∀ᶠ m in atTop, ∃ d ds, ksOther warn b ((a + l : ℤ) * δ) b0 (a * δ) δ m n (g ω) = .ok (.fin 0, d, ds) := by
  have hp : 0 < δ := lt_of_lt_of_le (by positivity) hδ
  have hbins : ∀ᵐ ω ∂P, ∀ m, OnBins (a * δ) δ (simMags b (a + l) δ m (g ω)) := by
    filter_upwards [all_pos hg] with ω hpos m v hv
    obtain ⟨i, rfl⟩ := simMags_onBins hb hp (a + l) m hpos v hv
    exact ⟨l + i, by push_cast; ring⟩
  have := C113_detects warn a hb0 hδ hn (mags := fun m ω => simMags b (a + l) δ m (g ω)) (fun m ω => simMags_length _ _ _ _ _) hbins (shift_frac hg hb hp a l) (shiftCdf_tendsto hb hp l) hgap
    (h := fun m i ω => later (g ω) ((i + 1) * m)) fun m i => later_draws hg _
  filter_upwards [this] with ω hω
  filter_upwards [hω] with m hm
  obtain ⟨d, ds, hr⟩ := hm
  refine ⟨d, ds, ?_⟩
  unfold ksOther
  rw [simulate_grid (g ω) m (a + l) hb hδ]
  exact hr

/-- C113: magnitudes simulated with another b-value than the one that is tested are rejected with p-value 0 from some sample size on. -/
theorem C113_wrong_b [IsProbabilityMeasure P] (hg : Spec.RandomDraws P g) (warn : Bool) {b b0 δ : ℝ} (a : ℤ) (hb : 0 < b) (hb0 : 0 < b0) (hδ : 1 / 10 ^ 12 ≤ δ) {n : ℕ}
    (hn : 0 < n) (hne : b < b0 ∨ b0 * (1 + 2 / 10 ^ 12) ≤ b * (1 - 1 / 10 ^ 12) ∧ b0 * Real.log 10 * δ ≤ 10 ^ 11) :
    ∀ᵐ ω ∂P, ∀ᶠ m in atTop, ∃ d ds, ksOther warn b (a * δ) b0 (a * δ) δ m n (g ω) = .ok (.fin 0, d, ds) := by
  have hp : 0 < δ := lt_of_lt_of_le (by positivity) hδ
  have hL := log_ten_pos
  have key := shift_detects hg warn (b := b) (b0 := b0) (δ := δ) a 0 hb hb0 hδ hn (k := 0) ?_
  · simpa using key
  · set u := b0 * Real.log 10 * δ with hu
    have hu0 : 0 < u := mul_pos (mul_pos hb0 hL) hp
    have e0 : shiftCdf b δ 0 0 = 1 - Real.exp (-(b * Real.log 10 * δ) * (1 - 1 / 10 ^ 12)) := by
      unfold shiftCdf simCdf
      simp
    rw [e0]
    have e1 : Real.exp (-u) * (Real.exp (u / 10 ^ 12) - 1) = Real.exp (-u * (1 - 1 / 10 ^ 12)) - Real.exp (-u) := by
      rw [mul_sub, mul_one, ← Real.exp_add]; congr 2; ring
    have e2 : 1 - Real.exp (-(b * Real.log 10 * δ) * (1 - 1 / 10 ^ 12)) - (1 - Real.exp (-u * ((0 : ℕ) + 1))) = Real.exp (-u) - Real.exp (-(b * Real.log 10 * δ) * (1 - 1 / 10 ^ 12)) := by
      simp
    rw [e2, e1]
    rcases hne with hlt | ⟨hgt, hsmall⟩
    · have h1 : b * Real.log 10 * δ < u := by
        rw [hu]
        exact mul_lt_mul_of_pos_right (mul_lt_mul_of_pos_right hlt hL) hp
      have h2 : Real.exp (-u * (1 - 1 / 10 ^ 12)) < Real.exp (-(b * Real.log 10 * δ) * (1 - 1 / 10 ^ 12)) := Real.exp_lt_exp.2 (by norm_num; linarith)
      have := neg_abs_le (Real.exp (-u) - Real.exp (-(b * Real.log 10 * δ) * (1 - 1 / 10 ^ 12)))
      linarith
    · refine lt_of_lt_of_le ?_ (le_abs_self _)
      have h1 : u * (1 + 2 / 10 ^ 12) ≤ b * Real.log 10 * δ * (1 - 1 / 10 ^ 12) := by
        have := mul_le_mul_of_nonneg_right hgt (mul_pos hL hp).le
        rw [hu]
        linarith
      have h2 : Real.exp (-(b * Real.log 10 * δ) * (1 - 1 / 10 ^ 12)) ≤ Real.exp (-u) * Real.exp (-(2 * (u / 10 ^ 12))) := by
        rw [← Real.exp_add]
        apply Real.exp_le_exp.2
        linarith
      have h3 : Real.exp (-u * (1 - 1 / 10 ^ 12)) = Real.exp (-u) * Real.exp (u / 10 ^ 12) := by
        rw [← Real.exp_add]; congr 1; ring
      rw [h3]
      set y := Real.exp (u / 10 ^ 12) with hy
      have hy1 : 1 < y := Real.one_lt_exp_iff.2 (by positivity)
      have hy2 : y < 3 / 2 := by
        have h4 : u / 10 ^ 12 ≤ 1 / 10 := by
          rw [div_le_iff₀ (by norm_num)]
          linarith
        have h5 : 1 - u / 10 ^ 12 ≤ Real.exp (-(u / 10 ^ 12)) := by
          have := Real.add_one_le_exp (-(u / 10 ^ 12))
          linarith
        rw [Real.exp_neg, ← hy] at h5
        by_contra hc
        rw [not_lt] at hc
        have h6 : y⁻¹ ≤ (3 / 2)⁻¹ := inv_anti₀ (by norm_num) hc
        norm_num at h6
        linarith
      have hy3 : Real.exp (-(2 * (u / 10 ^ 12))) = 1 / y ^ 2 := by
        rw [Real.exp_neg, two_mul, Real.exp_add, ← hy, one_div, sq]
      rw [hy3] at h2
      have hv : 1 / y ^ 2 < 2 - y := by
        rw [div_lt_iff₀ (by positivity)]
        nlinarith [mul_pos (sub_pos.2 hy1) (sub_pos.2 hy2)]
      have hE := Real.exp_pos (-u)
      nlinarith

/-- C113: magnitudes simulated above a larger magnitude than the mc that is tested are rejected with p-value 0 from some sample size on, whatever the b-values. -/
theorem C113_low_mc [IsProbabilityMeasure P] (hg : Spec.RandomDraws P g) (warn : Bool) {b b0 δ : ℝ} (a : ℤ) {l : ℕ} (hl : 0 < l) (hb : 0 < b) (hb0 : 0 < b0)
    (hδ : 1 / 10 ^ 12 ≤ δ) {n : ℕ} (hn : 0 < n) :
    ∀ᵐ ω ∂P, ∀ᶠ m in atTop, ∃ d ds, ksOther warn b ((a + l : ℤ) * δ) b0 (a * δ) δ m n (g ω) = .ok (.fin 0, d, ds) := by
  have hp : 0 < δ := lt_of_lt_of_le (by positivity) hδ
  refine shift_detects hg warn a l hb hb0 hδ hn (k := 0) ?_
  set u := b0 * Real.log 10 * δ with hu
  have hu0 : 0 < u := mul_pos (mul_pos hb0 log_ten_pos) hp
  have e0 : shiftCdf b δ l 0 = 0 := by
    unfold shiftCdf
    rw [if_pos hl]
  have e1 : Real.exp (-u) * (Real.exp (u / 10 ^ 12) - 1) = Real.exp (-u * (1 - 1 / 10 ^ 12)) - Real.exp (-u) := by
    rw [mul_sub, mul_one, ← Real.exp_add]; congr 2; ring
  have h2 : Real.exp (-u * (1 - 1 / 10 ^ 12)) < 1 := by
    rw [Real.exp_lt_one_iff]
    norm_num
    exact hu0
  rw [e0, e1, zero_sub, abs_neg]
  refine lt_of_lt_of_le ?_ (le_abs_self _)
  simp only [Nat.cast_zero, zero_add, mul_one]
  linarith

/-! ### estimate_mc_ks -/

theorem fracBelow_measurable {X : ℕ → Ω → ℝ} (hX : ∀ i, Measurable (X i)) (m : ℕ) (t : ℝ) : Measurable fun ω => fracBelow (firstMags (fun i => X i ω) m) t := by
  have e : (fun ω => fracBelow (firstMags (fun i => X i ω) m) t) = fun ω => (∑ i ∈ Finset.range m, (Set.Iic t).indicator (fun _ => (1 : ℝ)) (X i ω)) / m := by
    funext ω
    exact fracBelow_firstMags (fun i => X i ω) m t (Set.Iic t) (fun i => X i ω) fun i => Iff.rfl
  rw [e]
  exact (Finset.measurable_sum _ fun i _ => (measurable_const.indicator measurableSet_Iic).comp (hX i)).div_const _

theorem simMags_measurable (hg : Spec.RandomDraws P g) (b : ℝ) (a : ℤ) (δ : ℝ) (i : ℕ) :
    Measurable fun ω => ((a + ⌊(g ω).expo i / (b * Real.log 10 * δ) + 1 / 10 ^ 12⌋ : ℤ) : ℝ) * δ := by
  have h1 : Measurable fun ω => ⌊(g ω).expo i / (b * Real.log 10 * δ) + 1 / 10 ^ 12⌋ := Int.measurable_floor.comp (((hg.expo_measurable i).div_const _).add_const _)
  exact ((measurable_from_top (f := fun z : ℤ => ((a + z : ℤ) : ℝ))).comp h1).mul_const δ

/-- Data simulated above `a δ`, tested at `z δ` below, with samples from any generators. -/
theorem low_mc_prob [IsProbabilityMeasure P] (hg : Spec.RandomDraws P g) (warn : Bool) {b δ : ℝ} {a z : ℤ} (hz : z < a) (hb : 0 < b) (hδ : 1 / 10 ^ 12 ≤ δ) {n : ℕ} (hn : 0 < n)
    {h : ℕ → ℕ → Ω → Rng} (hh : ∀ m i, Spec.RandomDraws P (h m i)) :
    Tendsto (fun m => P.real {ω | ¬ ∃ d ds, ksWith warn b (z * δ) δ (simMags b a δ m (g ω)) ((List.range n).map fun i => h m i ω) = .ok (.fin 0, d, ds)}) atTop (𝓝 0) := by
  have hp : 0 < δ := lt_of_lt_of_le (by positivity) hδ
  obtain ⟨l, hl, rfl⟩ : ∃ l : ℕ, 0 < l ∧ a = z + l := ⟨(a - z).toNat, by omega, by omega⟩
  have hbins : ∀ᵐ ω ∂P, ∀ m, OnBins (z * δ) δ (simMags b (z + l) δ m (g ω)) := by
    filter_upwards [all_pos hg] with ω hpos m v hv
    obtain ⟨i, rfl⟩ := simMags_onBins hb hp (z + l) m hpos v hv
    exact ⟨l + i, by push_cast; ring⟩
  refine C113_detects_prob warn z hb hδ hn (mags := fun m ω => simMags b (z + l) δ m (g ω)) (fun m ω => simMags_length _ _ _ _ _) hbins (F := shiftCdf b δ l) ?_ (shiftCdf_tendsto hb hp l) (k := 0) ?_ hh
  · intro j
    refine tendstoInMeasure_of_tendsto_ae (fun m => (fracBelow_measurable (simMags_measurable hg b (z + l) δ) m _).aestronglyMeasurable) ?_
    filter_upwards [shift_frac hg hb hp z l] with ω hω
    exact hω j
  · set u := b * Real.log 10 * δ with hu
    have hu0 : 0 < u := mul_pos (mul_pos hb log_ten_pos) hp
    have e0 : shiftCdf b δ l 0 = 0 := by
      unfold shiftCdf
      rw [if_pos hl]
    have e1 : Real.exp (-u) * (Real.exp (u / 10 ^ 12) - 1) = Real.exp (-u * (1 - 1 / 10 ^ 12)) - Real.exp (-u) := by
      rw [mul_sub, mul_one, ← Real.exp_add]; congr 2; ring
    have h2 : Real.exp (-u * (1 - 1 / 10 ^ 12)) < 1 := by
      rw [Real.exp_lt_one_iff]
      norm_num
      exact hu0
    rw [e0, e1, zero_sub, abs_neg]
    refine lt_of_lt_of_le ?_ (le_abs_self _)
    simp only [Nat.cast_zero, zero_add, mul_one]
    linarith

/-- Candidate number `i` is below `c`. -/
def IsLow (U : List ℝ) (c : ℝ) (i : ℕ) : Prop := ∃ v, U[i]? = some v ∧ v < c

/-- C113: `estimate_mc_ks` with the true b-value, stopping at the first mc that passes, finds the mc above which the magnitudes were simulated, except for a probability that
is in the limit at most about `p_value_pass`: smaller candidates are rejected. `other` are the samples drawn for the other candidates. -/
theorem C113_mc [IsProbabilityMeasure P] (hg : Spec.RandomDraws P g) {b δ : ℝ} (a : ℤ) (hb : 0 < b) (hδ : 1 / 10 ^ 12 ≤ δ) {n : ℕ} (hn : 0 < n) {pPass : ℝ} (hpass : 0 < pPass)
    {mcs : List ℝ} (hmc : (a : ℝ) * δ ∈ mcs) (hgrid : ∀ v ∈ mcs, ∃ z : ℤ, v = z * δ) {h : ℕ → ℕ → ℕ → Ω → Rng} (hh : ∀ m i l, Spec.RandomDraws P (h m i l))
    {other : ℕ → Ω → ℕ → List (List ℝ)} (ho : ∀ m ω i, other m ω i ≠ [])
    (hother : ∀ m ω i v, (uniqueSorted mcs)[i]? = some v → v < a * δ → (List.range n).mapM (fun l => simulateBinned m (fun _ => b) v δ none .bValue (h m i l ω)) = .ok (other m ω i))
    {η : ℝ} (hη : 0 < η) :
    ∀ᶠ m in atTop, P.real {ω | ¬ ∃ r, mcKsOnSimulated b (a * δ) δ pPass mcs m n (other m ω) (g ω) = .ok r ∧ r.best = some (a * δ)} ≤ (⌈pPass * n⌉₊ : ℝ) / (n + 1) + η := by
  have hp : 0 < δ := lt_of_lt_of_le (by positivity) hδ
  have hnR : (0 : ℝ) < n := by exact_mod_cast hn
  set U := uniqueSorted mcs with hU
  set low := (Finset.range U.length).filter fun i => IsLow U (a * δ) i with hlow
  set B : ℕ → ℕ → Set Ω := fun i m => {ω | ¬ ∃ d ds, ksWith false b (U.getD i 0) δ (simMags b a δ m (g ω)) ((List.range n).map fun l => h m i l ω) = .ok (.fin 0, d, ds)} with hB
  have hBlim : ∀ i ∈ low, Tendsto (fun m => P.real (B i m)) atTop (𝓝 0) := by
    intro i hi
    obtain ⟨-, v, hv, hlt⟩ := Finset.mem_filter.1 hi
    have hvm : v ∈ mcs := (mem_uniqueSorted mcs v).1 (List.mem_of_getElem? hv)
    obtain ⟨z, rfl⟩ := hgrid v hvm
    have hz : z < a := by
      have := lt_of_mul_lt_mul_right hlt hp.le
      exact_mod_cast this
    have := low_mc_prob hg false hz hb hδ hn (h := fun m l => h m i l) fun m l => hh m i l
    have e : U.getD i 0 = z * δ := by rw [List.getD_eq_getElem?_getD, hv]; rfl
    rw [hB]
    simp only [e]
    exact this
  have hsumlim : Tendsto (fun m => ∑ i ∈ low, P.real (B i m)) atTop (𝓝 0) := by
    simpa using tendsto_finsetSum low hBlim
  have hlev : Tendsto (fun m : ℕ => (1 : ℝ) / (1000 * m * n)) atTop (𝓝 0) := by
    have h1 : Tendsto (fun m : ℕ => (1000 : ℝ) * m * n) atTop atTop := Tendsto.atTop_mul_const hnR (Tendsto.const_mul_atTop (by norm_num) tendsto_natCast_atTop_atTop)
    exact h1.const_div_atTop 1
  filter_upwards [hsumlim.eventually (gt_mem_nhds (show (0 : ℝ) < η / 2 by linarith)), hlev.eventually (gt_mem_nhds (show (0 : ℝ) < η / 2 by linarith)), eventually_gt_atTop 0] with m h1 h2 hm
  have hC := C101_mc hg a hb hδ hm hn pPass mcs hmc hgrid (other m) (ho m)
  have hsub : ∀ᵐ ω ∂P, (¬ ∃ r, mcKsOnSimulated b (a * δ) δ pPass mcs m n (other m ω) (g ω) = .ok r ∧ r.best = some (a * δ)) →
      ω ∈ {ω | ¬ ∃ r v, mcKsOnSimulated b (a * δ) δ pPass mcs m n (other m ω) (g ω) = .ok r ∧ r.best = some v ∧ v ∈ mcs ∧ v ≤ a * δ} ∪ ⋃ i ∈ low, B i m := by
    filter_upwards [all_pos hg] with ω hpos hno
    by_contra hc
    simp only [Set.mem_union, Set.mem_iUnion, not_or, not_exists] at hc
    obtain ⟨c1, c2⟩ := hc
    obtain ⟨r, v, hr, hbest, hvm, hle⟩ : ∃ r v, mcKsOnSimulated b (a * δ) δ pPass mcs m n (other m ω) (g ω) = .ok r ∧ r.best = some v ∧ v ∈ mcs ∧ v ≤ a * δ := by
      by_contra hx
      exact c1 fun r v hrv => hx ⟨r, v, hrv⟩
    rcases hle.lt_or_eq with hlt | rfl
    · obtain ⟨sims, hrun⟩ : ∃ sims, mcKsOnSimulated b (a * δ) δ pPass mcs m n (other m ω) (g ω) =
          mcKs false true { mags := simMags b a δ m (g ω), δ := δ, mcs := some mcs, pPass := pPass, bValue := some (.fin b), sims := fun i => if i = U.idxOf ((a : ℝ) * δ) then sims else other m ω i } := by
        unfold mcKsOnSimulated
        rw [simulate_grid (g ω) m a hb hδ]
        refine ⟨(List.range n).map fun i => simMags b a δ m (later (g ω) ((i + 1) * m)), ?_⟩
        have e : (List.range n).mapM (fun i => simulateBinned m (fun _ => b) (a * δ) δ none .bValue (later (g ω) ((i + 1) * m))) = .ok ((List.range n).map fun i => simMags b a δ m (later (g ω) ((i + 1) * m))) := by
          rw [mapM_ok_iff, List.forall₂_map_right_iff, List.forall₂_same]
          intro i _
          exact simulate_grid _ m a hb hδ
        rw [e]
        rfl
      rw [hrun] at hr
      obtain ⟨⟨i, t, -, hi, ht, ⟨q, hq, hge⟩, -⟩, -⟩ := C36_smallest (mcs := U) (fun h => by cases h) hr rfl hbest
      have hidx : i ≠ U.idxOf ((a : ℝ) * δ) := by
        rintro rfl
        have hmem : (a : ℝ) * δ ∈ U := (mem_uniqueSorted _ _).2 hmc
        rw [List.getElem?_eq_getElem (List.idxOf_lt_length_of_mem hmem), List.getElem_idxOf] at hi
        injection hi with hi
        exact hlt.ne hi.symm
      have hil : i ∈ low := by
        rw [hlow, Finset.mem_filter, Finset.mem_range]
        exact ⟨(List.getElem?_eq_some_iff.1 hi).1, v, hi, hlt⟩
      obtain ⟨d, ds, hz⟩ := not_not.1 (c2 i hil)
      have hgv : U.getD i 0 = v := by rw [List.getD_eq_getElem?_getD, hi]; rfl
      rw [hgv] at hz
      obtain ⟨hmc', hb', -, gv, ds', htest, hgiv, -⟩ := ht
      rcases htest with htest | ⟨-, h0, -⟩
      · have hgn : gv = none := hgiv rfl
        have hbt : t.b = .fin b := hb' _ rfl
        have hall : (simMags b a δ m (g ω)).filter (fun m => decide (v - δ / 2 ≤ m)) = simMags b a δ m (g ω) := by
          rw [List.filter_eq_self]
          intro u hu
          obtain ⟨k, rfl⟩ := simMags_onBins hb hp a m hpos u hu
          rw [decide_eq_true_iff]
          have : (0 : ℝ) ≤ k * δ := by positivity
          linarith
        rw [hgn, hbt] at htest
        dsimp only at htest
        rw [if_neg hidx, hall] at htest
        unfold ksWith at hz
        rw [List.mapM_map, simMags_length] at hz
        have e := hother m ω i v hi hlt
        rw [show (List.range n).mapM ((fun r => simulateBinned m (fun _ => b) v δ none .bValue r) ∘ fun l => h m i l ω) = .ok (other m ω i) from e] at hz
        have hz' : ksTest false (simMags b a δ m (g ω)) v δ (.fin b) none (other m ω i) none = .ok (.fin 0, d, ds) := hz
        rw [hz'] at htest
        injection htest with htest
        rw [hq] at htest
        injection htest with e1 e2
        injection e1 with e1
        linarith
      · rw [hq] at h0
        injection h0 with h0
        linarith
    · exact hno ⟨r, hr, hbest⟩
  have hle : P.real {ω | ¬ ∃ r, mcKsOnSimulated b (a * δ) δ pPass mcs m n (other m ω) (g ω) = .ok r ∧ r.best = some (a * δ)} ≤
      P.real ({ω | ¬ ∃ r v, mcKsOnSimulated b (a * δ) δ pPass mcs m n (other m ω) (g ω) = .ok r ∧ r.best = some v ∧ v ∈ mcs ∧ v ≤ a * δ} ∪ ⋃ i ∈ low, B i m) := by
    unfold Measure.real
    exact ENNReal.toReal_mono (measure_ne_top P _) (measure_mono_ae hsub)
  have hu := measureReal_biUnion_finset_le (μ := P) low fun i => B i m
  have := measureReal_union_le (μ := P) {ω | ¬ ∃ r v, mcKsOnSimulated b (a * δ) δ pPass mcs m n (other m ω) (g ω) = .ok r ∧ r.best = some v ∧ v ∈ mcs ∧ v ≤ a * δ} (⋃ i ∈ low, B i m)
  linarith

/-! ### cases -/

/-- A case: magnitudes with b-value 1 in bins of 0.1, tested with b-value 1.1 (or 0.9) and with the default of 10000 samples. -/
example [IsProbabilityMeasure P] (hg : Spec.RandomDraws P g) : ∀ᵐ ω ∂P, ∀ᶠ m in atTop,
    (∃ d ds, ksOther true 1 ((20 : ℤ) * (1 / 10)) (11 / 10) ((20 : ℤ) * (1 / 10)) (1 / 10) m 10000 (g ω) = .ok (.fin 0, d, ds)) ∧
    ∃ d ds, ksOther true 1 ((20 : ℤ) * (1 / 10)) (9 / 10) ((20 : ℤ) * (1 / 10)) (1 / 10) m 10000 (g ω) = .ok (.fin 0, d, ds) := by
  have h1 := C113_wrong_b hg true (b := 1) (b0 := 11 / 10) (δ := 1 / 10) 20 (by norm_num) (by norm_num) (by norm_num) (n := 10000) (by norm_num) (Or.inl (by norm_num))
  have hlog : Real.log 10 ≤ 10 := by
    have := Real.log_le_sub_one_of_pos (show (0 : ℝ) < 10 by norm_num)
    linarith
  have h2 := C113_wrong_b hg true (b := 1) (b0 := 9 / 10) (δ := 1 / 10) 20 (by norm_num) (by norm_num) (by norm_num) (n := 10000) (by norm_num) (Or.inr ⟨by norm_num, by norm_num; linarith⟩)
  filter_upwards [h1, h2] with ω e1 e2
  exact e1.and e2

/-- The hypotheses of `C113_mc` are met: candidates 1.9, 2.0, 2.1 with the true mc 2.0, 99 samples per candidate. -/
example [IsProbabilityMeasure P] (hg : Spec.RandomDraws P g) : ∀ᶠ m in atTop,
    P.real {ω | ¬ ∃ r, mcKsOnSimulated 1 ((20 : ℤ) * (1 / 10)) (1 / 10) (1 / 10) [(19 : ℤ) * (1 / 10), (20 : ℤ) * (1 / 10), (21 : ℤ) * (1 / 10)] m 99
      (fun _ => (List.range 99).map fun l => simMags 1 19 (1 / 10) m (later (g ω) ((100 + l) * m))) (g ω) = .ok r ∧ r.best = some (((20 : ℤ) : ℝ) * (1 / 10))} ≤ 11 / 100 := by
  have hU : uniqueSorted [((19 : ℤ) : ℝ) * (1 / 10), ((20 : ℤ) : ℝ) * (1 / 10), ((21 : ℤ) : ℝ) * (1 / 10)] = [((19 : ℤ) : ℝ) * (1 / 10), ((20 : ℤ) : ℝ) * (1 / 10), ((21 : ℤ) : ℝ) * (1 / 10)] := by
    apply uniqueSorted_of_sorted
    norm_num
  have := C113_mc hg (b := 1) (δ := 1 / 10) 20 one_pos (by norm_num) (n := 99) (by norm_num) (pPass := 1 / 10) (by norm_num)
    (mcs := [(19 : ℤ) * (1 / 10), (20 : ℤ) * (1 / 10), (21 : ℤ) * (1 / 10)]) (by simp) (by
      intro v hv
      simp only [List.mem_cons, List.not_mem_nil, or_false] at hv
      rcases hv with rfl | rfl | rfl
      · exact ⟨19, rfl⟩
      · exact ⟨20, rfl⟩
      · exact ⟨21, rfl⟩)
    (h := fun m _ l ω => later (g ω) ((100 + l) * m)) (fun m _ l => later_draws hg _)
    (other := fun m ω _ => (List.range 99).map fun l => simMags 1 19 (1 / 10) m (later (g ω) ((100 + l) * m))) (fun m ω i => by simp) (by
      intro m ω i v hi hlt
      rw [hU] at hi
      have hv : v = ((19 : ℤ) : ℝ) * (1 / 10) := by
        have := List.mem_of_getElem? hi
        simp only [List.mem_cons, List.not_mem_nil, or_false] at this
        rcases this with rfl | rfl | rfl
        · rfl
        · exact absurd hlt (lt_irrefl _)
        · norm_num at hlt
      rw [hv, mapM_ok_iff, List.forall₂_map_right_iff, List.forall₂_same]
      intro l _
      exact simulate_grid _ m 19 one_pos (by norm_num)) (η := 1 / 100) (by norm_num)
  filter_upwards [this] with m hm
  refine hm.trans ?_
  have : ⌈(1 / 10 : ℝ) * (99 : ℕ)⌉₊ = 10 := by
    rw [Nat.ceil_eq_iff (by norm_num)]
    norm_num
  rw [this]
  norm_num

end
end SeismoStats.Props
