/-
Property C95: the probability law of simulated magnitudes.
-/
import Verif.Spec.Law
import Verif.Props.Simulate
import Verif.Spec.BValue
import Mathlib.MeasureTheory.Constructions.BorelSpace.Order
import Mathlib.MeasureTheory.Function.Floor
import Mathlib.Probability.Independence.InfinitePi

namespace SeismoStats.Props
open SeismoStats SeismoStats.Simulate MeasureTheory ProbabilityTheory
open Classical

variable {Ω : Type} [MeasurableSpace Ω] {P : Measure Ω} {g : Ω → Rng}

/-- The law of a uniform draw. -/
theorem uniform_cdf (hg : Spec.RandomDraws P g) (i : ℕ) (v : ℝ) (h0 : 0 ≤ v) (h1 : v ≤ 1) : P.real {ω | (g ω).uniform i ≤ v} = v := by
  have h : P {ω | (g ω).uniform i ≤ v} = P.map (fun ω => (g ω).uniform i) (Set.Iic v) := by
    rw [Measure.map_apply (hg.uniform_measurable i) measurableSet_Iic]; rfl
  rw [Measure.real, h, hg.uniform_law, Measure.restrict_apply measurableSet_Iic]
  rcases lt_or_eq_of_le h1 with h1 | rfl
  · have : Set.Iic v ∩ Set.Ico 0 1 = Set.Icc 0 v := by
      ext x; simp only [Set.mem_inter_iff, Set.mem_Iic, Set.mem_Ico, Set.mem_Icc]
      constructor
      · rintro ⟨a, b, c⟩; exact ⟨b, a⟩
      · rintro ⟨a, b⟩; exact ⟨b, a, by linarith⟩
    rw [this, Real.volume_Icc, sub_zero, ENNReal.toReal_ofReal h0]
  · have : Set.Iic (1 : ℝ) ∩ Set.Ico 0 1 = Set.Ico 0 1 := by
      ext x; simp only [Set.mem_inter_iff, Set.mem_Iic, Set.mem_Ico]
      constructor
      · rintro ⟨a, b⟩; exact b
      · rintro h; exact ⟨h.2.le, h⟩
    rw [this, Real.volume_Ico, sub_zero, ENNReal.toReal_ofReal h0]

theorem uniform_proper (hg : Spec.RandomDraws P g) (i : ℕ) : ∀ᵐ ω ∂P, 0 ≤ (g ω).uniform i ∧ (g ω).uniform i < 1 := by
  have h : ∀ᵐ x ∂(P.map fun ω => (g ω).uniform i), 0 ≤ x ∧ x < 1 := by
    rw [hg.uniform_law]
    exact ae_restrict_mem measurableSet_Ico
  exact ae_of_ae_map (hg.uniform_measurable i).aemeasurable h

theorem expo_cdf (hg : Spec.RandomDraws P g) (i : ℕ) (v : ℝ) (h0 : 0 ≤ v) : P.real {ω | (g ω).expo i ≤ v} = 1 - Real.exp (-v) := by
  have h : P {ω | (g ω).expo i ≤ v} = P.map (fun ω => (g ω).expo i) (Set.Iic v) := by
    rw [Measure.map_apply (hg.expo_measurable i) measurableSet_Iic]; rfl
  have := isProbabilityMeasure_expMeasure one_pos
  have hc := cdf_expMeasure_eq one_pos v
  rw [cdf_eq_real, if_pos h0] at hc
  rw [Measure.real, h, hg.expo_law]
  simpa [Measure.real] using hc

theorem expo_law_real (hg : Spec.RandomDraws P g) (i : ℕ) {s : Set ℝ} (hs : MeasurableSet s) : P.real {ω | (g ω).expo i ∈ s} = (expMeasure 1).real s := by
  rw [← hg.expo_law i, Measure.real, Measure.real, Measure.map_apply (hg.expo_measurable i) hs]; rfl

theorem expo_pos (hg : Spec.RandomDraws P g) (i : ℕ) : ∀ᵐ ω ∂P, 0 < (g ω).expo i := by
  have hP : IsProbabilityMeasure (expMeasure 1) := isProbabilityMeasure_expMeasure one_pos
  have h : ∀ᵐ x ∂(P.map fun ω => (g ω).expo i), 0 < x := by
    rw [hg.expo_law, ae_iff]
    have hc := cdf_expMeasure_eq one_pos 0
    rw [cdf_eq_real, if_pos le_rfl] at hc
    have : {a : ℝ | ¬ 0 < a} = Set.Iic 0 := by ext x; simp
    rw [this]
    simpa [Measure.real, ENNReal.toReal_eq_zero_iff] using hc
  exact ae_of_ae_map (hg.expo_measurable i).aemeasurable h


/-- A law with a density has no atoms: strict and weak inequality have the same probability. -/
theorem lt_eq_le_of_null {X : Ω → ℝ} {v : ℝ} (h : P {ω | X ω = v} = 0) : P.real {ω | X ω < v} = P.real {ω | X ω ≤ v} := by
  apply measureReal_congr
  have h' : ∀ᵐ ω ∂P, X ω ≠ v := by rw [ae_iff]; simpa using h
  filter_upwards [h'] with ω hω
  apply propext
  change X ω < v ↔ X ω ≤ v
  exact ⟨le_of_lt, fun h => lt_of_le_of_ne h hω⟩

theorem uniform_null (hg : Spec.RandomDraws P g) (i : ℕ) (v : ℝ) : P {ω | (g ω).uniform i = v} = 0 := by
  have h : P {ω | (g ω).uniform i = v} = P.map (fun ω => (g ω).uniform i) {v} := by
    rw [Measure.map_apply (hg.uniform_measurable i) (measurableSet_singleton v)]; rfl
  rw [h, hg.uniform_law]
  exact measure_singleton v

theorem expo_null (hg : Spec.RandomDraws P g) (i : ℕ) (v : ℝ) : P {ω | (g ω).expo i = v} = 0 := by
  have h : P {ω | (g ω).expo i = v} = P.map (fun ω => (g ω).expo i) {v} := by
    rw [Measure.map_apply (hg.expo_measurable i) (measurableSet_singleton v)]; rfl
  rw [h, hg.expo_law]
  unfold expMeasure gammaMeasure
  exact withDensity_absolutelyContinuous _ _ (measure_singleton v)

/-- The distribution function of the truncated law, as a function on the line. -/
theorem truncForm_strictMono {β mc M : ℝ} (hβ : β ≠ 0) (hM : mc < M) :
    StrictMono fun x : ℝ => (1 - Real.exp (-β * (x - mc))) / (1 - Real.exp (-β * (M - mc))) := by
  intro x y hxy
  rcases lt_or_gt_of_ne hβ with hb | hb
  · have h1 : 1 - Real.exp (-β * (M - mc)) < 0 := by
      have : (1 : ℝ) < Real.exp (-β * (M - mc)) := Real.one_lt_exp_iff.2 (by nlinarith)
      linarith
    have h2 : Real.exp (-β * (x - mc)) < Real.exp (-β * (y - mc)) := Real.exp_lt_exp.2 (by nlinarith)
    exact div_lt_div_of_neg_of_lt h1 (by linarith)
  · have h1 : 0 < 1 - Real.exp (-β * (M - mc)) := by
      have : Real.exp (-β * (M - mc)) < 1 := Real.exp_lt_one_iff.2 (by nlinarith)
      linarith
    have h2 : Real.exp (-β * (y - mc)) < Real.exp (-β * (x - mc)) := Real.exp_lt_exp.2 (by nlinarith)
    exact div_lt_div_of_pos_right (by linarith) h1

theorem truncForm_zero {β mc M : ℝ} : (1 - Real.exp (-β * (mc - mc))) / (1 - Real.exp (-β * (M - mc))) = 0 := by simp

theorem truncForm_one {β mc M : ℝ} (hβ : β ≠ 0) (hM : mc < M) : (1 - Real.exp (-β * (M - mc))) / (1 - Real.exp (-β * (M - mc))) = 1 := by
  apply div_self
  intro h
  have h2 := truncForm_strictMono hβ hM hM
  simp only [h, div_zero, lt_irrefl] at h2

/-- One truncated magnitude: weak and strict distribution function. -/
theorem truncated_law (hg : Spec.RandomDraws P g) [IsProbabilityMeasure P] (i : ℕ) {β mc M : ℝ} (hβ : β ≠ 0) (hM : mc < M) (x : ℝ) :
    P.real {ω | truncated β mc M ((g ω).uniform i) ≤ x} = Spec.truncCdf β mc M x ∧
    P.real {ω | truncated β mc M ((g ω).uniform i) < x} = Spec.truncCdf β mc M x := by
  have hp := uniform_proper hg i
  have hr : ∀ᵐ ω ∂P, mc ≤ truncated β mc M ((g ω).uniform i) ∧ truncated β mc M ((g ω).uniform i) < M ∧
      (1 - Real.exp (-β * (truncated β mc M ((g ω).uniform i) - mc))) / (1 - Real.exp (-β * (M - mc))) = (g ω).uniform i := by
    filter_upwards [hp] with ω hω
    exact truncated_range β mc M _ hβ hM hω.1 hω.2
  have hnull : P {ω | truncated β mc M ((g ω).uniform i) = x} = 0 := by
    refine measure_mono_null_ae ?_ (uniform_null hg i ((1 - Real.exp (-β * (x - mc))) / (1 - Real.exp (-β * (M - mc)))))
    filter_upwards [hr] with ω hω he
    change (g ω).uniform i = _
    rw [← hω.2.2]
    have he' : truncated β mc M ((g ω).uniform i) = x := he
    rw [he']
  rw [lt_eq_le_of_null hnull, and_self]
  unfold Spec.truncCdf
  by_cases h1 : x < mc
  · rw [if_pos h1]
    have : P {ω | truncated β mc M ((g ω).uniform i) ≤ x} = 0 := by
      rw [measure_eq_zero_iff_ae_notMem]
      filter_upwards [hr] with ω hω hc
      have hc' : truncated β mc M ((g ω).uniform i) ≤ x := hc
      linarith [hω.1]
    rw [Measure.real, this]; rfl
  · rw [if_neg h1]
    by_cases h2 : M ≤ x
    · rw [if_pos h2]
      have : P {ω | truncated β mc M ((g ω).uniform i) ≤ x} = 1 := by
        rw [← measure_univ (μ := P)]
        apply measure_congr
        filter_upwards [hr] with ω hω
        apply propext
        change truncated β mc M ((g ω).uniform i) ≤ x ↔ True
        simp only [iff_true]
        linarith [hω.2.1]
      rw [Measure.real, this]; rfl
    · rw [if_neg h2]
      have hm := truncForm_strictMono hβ hM
      have e0 := hm.monotone (not_lt.1 h1)
      have e1 := hm.monotone (not_le.1 h2).le
      simp only [truncForm_zero, truncForm_one hβ hM] at e0 e1
      rw [← uniform_cdf hg i _ e0 e1]
      apply measureReal_congr
      filter_upwards [hr] with ω hω
      apply propext
      change truncated β mc M ((g ω).uniform i) ≤ x ↔ (g ω).uniform i ≤ _
      conv_rhs => rw [← hω.2.2]
      exact (hm.le_iff_le).symm

/-- One magnitude without maximum: weak and strict distribution function. -/
theorem untruncated_law (hg : Spec.RandomDraws P g) (i : ℕ) {β mc : ℝ} (hβ : 0 < β) (x : ℝ) :
    P.real {ω | untruncated β mc ((g ω).expo i) ≤ x} = Spec.expCdf β mc x ∧
    P.real {ω | untruncated β mc ((g ω).expo i) < x} = Spec.expCdf β mc x := by
  have hb := hβ.ne'
  have hiff : ∀ e : ℝ, untruncated β mc e = mc + e / β := by intro e; unfold untruncated; ring
  have hnull : P {ω | untruncated β mc ((g ω).expo i) = x} = 0 := by
    refine measure_mono_null ?_ (expo_null hg i (β * (x - mc)))
    intro ω hω
    have h : untruncated β mc ((g ω).expo i) = x := hω
    change (g ω).expo i = _
    rw [hiff] at h
    rw [← h]; field_simp; ring
  rw [lt_eq_le_of_null hnull, and_self]
  have hset : {ω | untruncated β mc ((g ω).expo i) ≤ x} = {ω | (g ω).expo i ≤ β * (x - mc)} := by
    ext ω
    change untruncated β mc ((g ω).expo i) ≤ x ↔ (g ω).expo i ≤ β * (x - mc)
    rw [hiff]
    constructor
    · intro h
      have : (g ω).expo i / β ≤ x - mc := by linarith
      rw [div_le_iff₀ hβ] at this; linarith
    · intro h
      have : (g ω).expo i / β ≤ x - mc := by rw [div_le_iff₀ hβ]; linarith
      linarith
  rw [hset]
  unfold Spec.expCdf
  by_cases h1 : x < mc
  · rw [if_pos h1]
    have : P {ω | (g ω).expo i ≤ β * (x - mc)} = 0 := by
      rw [measure_eq_zero_iff_ae_notMem]
      filter_upwards [expo_pos hg i] with ω hω hc
      have hc' : (g ω).expo i ≤ β * (x - mc) := hc
      nlinarith
    rw [Measure.real, this]; rfl
  · rw [if_neg h1, expo_cdf hg i _ (mul_nonneg hβ.le (by linarith)), neg_mul]

theorem truncated_measurable (β mc M : ℝ) : Measurable (truncated β mc M) := by
  unfold truncated
  fun_prop

theorem untruncated_measurable (β mc : ℝ) : Measurable (untruncated β mc) := by
  unfold untruncated
  fun_prop

theorem binTo_measurable (δ : ℝ) : Measurable (binTo δ : ℝ → ℝ) := by
  have h1 : Measurable fun x : ℝ => ⌊x⌋ := Int.measurable_floor
  have h2 : Measurable fun z : ℤ => (z : ℝ) := measurable_from_top
  have h3 : Measurable fun x : ℝ => x / δ + 1 / 2 + eps ℝ := by fun_prop
  exact (h2.comp (h1.comp h3)).mul_const δ

/-- C95: simulated magnitudes with a maximum are independent and follow the exponential law truncated at the maximum. -/
theorem C95_truncated [IsProbabilityMeasure P] (hg : Spec.RandomDraws P g) (β : ℕ → ℝ) (mc M : ℝ) (hβ : ∀ i, β i ≠ 0) (hM : mc < M) (hM0 : M ≠ 0) :
    ∃ X : ℕ → Ω → ℝ, (∀ n ω, simulate n β mc (some M) (g ω) = .ok ((List.range n).map fun i => X i ω)) ∧ (∀ i, Measurable (X i)) ∧ iIndepFun X P ∧
      ∀ i x, P.real {ω | X i ω ≤ x} = Spec.truncCdf (β i) mc M x := by
  refine ⟨fun i ω => truncated (β i) mc M ((g ω).uniform i), ?_, ?_, ?_, ?_⟩
  · exact fun n ω => simulate_truncated n β mc M (g ω) (fun i _ => hβ i) hM0
  · exact fun i => (truncated_measurable _ _ _).comp (hg.uniform_measurable i)
  · exact hg.uniform_indep.comp (fun i => truncated (β i) mc M) fun i => truncated_measurable _ _ _
  · exact fun i x => (truncated_law hg i (hβ i) hM x).1

/-- C95: simulated magnitudes without maximum are independent and follow the exponential law. -/
theorem C95_untruncated (hg : Spec.RandomDraws P g) (β : ℕ → ℝ) (mc : ℝ) (hβ : ∀ i, 0 < β i) :
    ∃ X : ℕ → Ω → ℝ, (∀ n ω, simulate n β mc none (g ω) = .ok ((List.range n).map fun i => X i ω)) ∧ (∀ i, Measurable (X i)) ∧ iIndepFun X P ∧
      ∀ i x, P.real {ω | X i ω ≤ x} = Spec.expCdf (β i) mc x := by
  refine ⟨fun i ω => untruncated (β i) mc ((g ω).expo i), ?_, ?_, ?_, ?_⟩
  · exact fun n ω => simulate_untruncated n β mc none (Or.inl rfl) (g ω) fun i _ => hβ i
  · exact fun i => (untruncated_measurable _ _).comp (hg.expo_measurable i)
  · exact hg.expo_indep.comp (fun i => untruncated (β i) mc) fun i => untruncated_measurable _ _
  · exact fun i x => (untruncated_law hg i (hβ i) x).1

/-- A binned magnitude is at most `z * δ` iff the magnitude is below the upper edge of that bin, less `δ * 1e-12`. -/
theorem binTo_le_iff {δ : ℝ} (hδ : 0 < δ) (x : ℝ) (z : ℤ) : binTo δ x ≤ z * δ ↔ x < z * δ + δ / 2 - δ / 10 ^ 12 := by
  unfold binTo roundToInt eps
  rw [mul_le_mul_iff_of_pos_right hδ, Int.cast_le, ← Int.lt_add_one_iff, Int.floor_lt]
  have : x / δ + 1 / 2 + 1 / 10 ^ 12 < ((z + 1 : ℤ) : ℝ) ↔ x / δ < z + 1 / 2 - 1 / 10 ^ 12 := by
    push_cast
    constructor <;> intro h <;> linarith
  rw [this, div_lt_iff₀ hδ]
  have e : ((z : ℝ) + 1 / 2 - 1 / 10 ^ 12) * δ = z * δ + δ / 2 - δ / 10 ^ 12 := by ring
  rw [e]

/-- C95: binned magnitudes without maximum are independent multiples of the bin width; the probability of at most `z * delta_m` is that of the exponential law above
`mc - delta_m / 2` below the upper edge of the bin (less `1e-12` of a bin). -/
theorem C95_binned (hg : Spec.RandomDraws P g) (b : ℕ → ℝ) (mc δ : ℝ) (hδ : 1 / 10 ^ 12 ≤ δ) (hb : ∀ i, 0 < b i) :
    ∃ X : ℕ → Ω → ℝ, (∀ n ω, simulateBinned n b mc δ none .bValue (g ω) = .ok ((List.range n).map fun i => X i ω)) ∧ (∀ i, Measurable (X i)) ∧ iIndepFun X P ∧
      (∀ i ω, ∃ z : ℤ, X i ω = z * δ) ∧
      ∀ i (z : ℤ), P.real {ω | X i ω ≤ z * δ} = Spec.expCdf (b i * Real.log 10) (mc - δ / 2) (z * δ + δ / 2 - δ / 10 ^ 12) := by
  have hp : 0 < δ := lt_of_lt_of_le (by positivity) hδ
  have hβ : ∀ i, 0 < b i * Real.log 10 := fun i => mul_pos (hb i) log_ten_pos
  refine ⟨fun i ω => binTo δ (untruncated (b i * Real.log 10) (mc - δ / 2) ((g ω).expo i)), ?_, ?_, ?_, fun i ω => ⟨_, rfl⟩, ?_⟩
  · intro n ω
    rw [simulateBinned_ok n b mc δ none (g ω) _ hδ (simulate_untruncated n _ _ none (Or.inl rfl) (g ω) fun i _ => hβ i), List.map_map]; rfl
  · exact fun i => (binTo_measurable δ).comp ((untruncated_measurable _ _).comp (hg.expo_measurable i))
  · exact hg.expo_indep.comp (fun i e => binTo δ (untruncated (b i * Real.log 10) (mc - δ / 2) e)) fun i => (binTo_measurable δ).comp (untruncated_measurable _ _)
  · intro i z
    simp only [binTo_le_iff hp]
    exact (untruncated_law hg i (hβ i) _).2

/-- C95: the same with a maximum. -/
theorem C95_binned_truncated [IsProbabilityMeasure P] (hg : Spec.RandomDraws P g) (b : ℕ → ℝ) (mc δ M : ℝ) (hδ : 1 / 10 ^ 12 ≤ δ) (hb : ∀ i, 0 < b i)
    (hM : mc - δ / 2 < M) (hM0 : M ≠ 0) :
    ∃ X : ℕ → Ω → ℝ, (∀ n ω, simulateBinned n b mc δ (some M) .bValue (g ω) = .ok ((List.range n).map fun i => X i ω)) ∧ (∀ i, Measurable (X i)) ∧ iIndepFun X P ∧
      (∀ i ω, ∃ z : ℤ, X i ω = z * δ) ∧
      ∀ i (z : ℤ), P.real {ω | X i ω ≤ z * δ} = Spec.truncCdf (b i * Real.log 10) (mc - δ / 2) M (z * δ + δ / 2 - δ / 10 ^ 12) := by
  have hp : 0 < δ := lt_of_lt_of_le (by positivity) hδ
  have hβ : ∀ i, b i * Real.log 10 ≠ 0 := fun i => (mul_pos (hb i) log_ten_pos).ne'
  refine ⟨fun i ω => binTo δ (truncated (b i * Real.log 10) (mc - δ / 2) M ((g ω).uniform i)), ?_, ?_, ?_, fun i ω => ⟨_, rfl⟩, ?_⟩
  · intro n ω
    rw [simulateBinned_ok n b mc δ (some M) (g ω) _ hδ (simulate_truncated n _ _ M (g ω) (fun i _ => hβ i) hM0), List.map_map]; rfl
  · exact fun i => (binTo_measurable δ).comp ((truncated_measurable _ _ _).comp (hg.uniform_measurable i))
  · exact hg.uniform_indep.comp (fun i u => binTo δ (truncated (b i * Real.log 10) (mc - δ / 2) M u)) fun i =>
      (binTo_measurable δ).comp (truncated_measurable _ _ _)
  · intro i z
    simp only [binTo_le_iff hp]
    exact (truncated_law hg i (hβ i) hM _).2

/-- C95: with `mc` on the grid, each bin has the probability of the Gutenberg-Richter law in that bin up to `beta * delta_m * 1e-12`. -/
theorem C95_bin_mass [IsProbabilityMeasure P] (hg : Spec.RandomDraws P g) (b : ℕ → ℝ) (a : ℤ) (δ : ℝ) (hδ : 1 / 10 ^ 12 ≤ δ) (hb : ∀ i, 0 < b i) :
    ∃ X : ℕ → Ω → ℝ, (∀ n ω, simulateBinned n b (a * δ) δ none .bValue (g ω) = .ok ((List.range n).map fun i => X i ω)) ∧ iIndepFun X P ∧
      ∀ i (k : ℕ), |P.real {ω | X i ω = (a + k) * δ} - Spec.binMass (b i * Real.log 10) (a * δ) δ ((a + k) * δ)| ≤ b i * Real.log 10 * δ / 10 ^ 12 := by
  obtain ⟨X, hX, hm, hi, hgrid, hc⟩ := C95_binned hg b (a * δ) δ hδ hb
  refine ⟨X, hX, hi, ?_⟩
  intro i k
  have hp : 0 < δ := lt_of_lt_of_le (by positivity) hδ
  set β := b i * Real.log 10 with hβd
  have hβ : 0 < β := mul_pos (hb i) log_ten_pos
  -- the probability of one bin
  have hbin : P.real {ω | X i ω = (a + k) * δ} = P.real {ω | X i ω ≤ ((a + k : ℤ) : ℝ) * δ} - P.real {ω | X i ω ≤ ((a + k - 1 : ℤ) : ℝ) * δ} := by
    rw [← measureReal_sdiff]
    · congr 1
      ext ω
      change X i ω = (a + k) * δ ↔ X i ω ≤ ((a + k : ℤ) : ℝ) * δ ∧ ¬ X i ω ≤ ((a + k - 1 : ℤ) : ℝ) * δ
      obtain ⟨z, hz⟩ := hgrid i ω
      rw [hz]
      have e : ((a : ℝ) + k) * δ = ((a + k : ℤ) : ℝ) * δ := by push_cast; ring
      rw [e, mul_le_mul_iff_of_pos_right hp, mul_le_mul_iff_of_pos_right hp, mul_left_inj' hp.ne', Int.cast_le, Int.cast_le, Int.cast_inj]
      omega
    · intro ω h
      change X i ω ≤ ((a + k : ℤ) : ℝ) * δ
      have h' : X i ω ≤ ((a + k - 1 : ℤ) : ℝ) * δ := h
      refine h'.trans ?_
      rw [mul_le_mul_iff_of_pos_right hp, Int.cast_le]; omega
    · exact measurableSet_le (hm i) measurable_const
  rw [hbin, hc, hc]
  have hx : 0 < β * δ := mul_pos hβ hp
  set x := β * δ with hxd
  have e1 : Spec.expCdf β (a * δ - δ / 2) (((a + k : ℤ) : ℝ) * δ + δ / 2 - δ / 10 ^ 12) = 1 - Real.exp (-x * k) * (Real.exp (-x) * Real.exp (x / 10 ^ 12)) := by
    unfold Spec.expCdf
    rw [if_neg (by push_cast; nlinarith [mul_nonneg (Nat.cast_nonneg (α := ℝ) k) hp.le]), ← Real.exp_add, ← Real.exp_add]
    congr 2; push_cast; rw [hxd]; ring
  have e2 : Spec.binMass β (a * δ) δ ((a + k) * δ) = Real.exp (-x * k) * (1 - Real.exp (-x)) := by
    unfold Spec.binMass
    have e3 : Real.exp (-x * k) * (1 - Real.exp (-x)) = Real.exp (-x * k) - Real.exp (-x * k + -x) := by rw [Real.exp_add]; ring
    rw [e3]
    congr 2 <;> (rw [hxd]; ring)
  have hE : Real.exp (x / 10 ^ 12) - 1 ≤ x / 10 ^ 12 * Real.exp (x / 10 ^ 12) := by
    have h := Real.add_one_le_exp (-(x / 10 ^ 12))
    have h2 := mul_le_mul_of_nonneg_right h (Real.exp_pos (x / 10 ^ 12)).le
    rw [← Real.exp_add, neg_add_cancel, Real.exp_zero] at h2
    linarith
  have hE1 : 1 ≤ Real.exp (x / 10 ^ 12) := Real.one_le_exp (by positivity)
  have hq : Real.exp (-x) * (Real.exp (x / 10 ^ 12) - 1) ≤ x / 10 ^ 12 := by
    have h1 : Real.exp (-x) * Real.exp (x / 10 ^ 12) ≤ 1 := by
      rw [← Real.exp_add]
      apply Real.exp_le_one_iff.2
      have : x / 10 ^ 12 ≤ x := div_le_self hx.le (by norm_num)
      linarith
    calc Real.exp (-x) * (Real.exp (x / 10 ^ 12) - 1) ≤ Real.exp (-x) * (x / 10 ^ 12 * Real.exp (x / 10 ^ 12)) := mul_le_mul_of_nonneg_left hE (Real.exp_pos _).le
      _ = x / 10 ^ 12 * (Real.exp (-x) * Real.exp (x / 10 ^ 12)) := by ring
      _ ≤ x / 10 ^ 12 * 1 := mul_le_mul_of_nonneg_left h1 (by positivity)
      _ = x / 10 ^ 12 := mul_one _
  have hq0 : 0 ≤ Real.exp (-x) * (Real.exp (x / 10 ^ 12) - 1) := mul_nonneg (Real.exp_pos _).le (by linarith)
  have hx1 : Real.exp (-x) ≤ 1 := Real.exp_le_one_iff.2 (by linarith)
  rw [e1, e2]
  rcases Nat.eq_zero_or_pos k with rfl | hk
  · have e3 : Spec.expCdf β (a * δ - δ / 2) (((a + (0 : ℕ) - 1 : ℤ) : ℝ) * δ + δ / 2 - δ / 10 ^ 12) = 0 := by
      unfold Spec.expCdf
      rw [if_pos]
      push_cast
      have : 0 < δ / 10 ^ 12 := by positivity
      linarith
    rw [e3]
    simp only [Nat.cast_zero, mul_zero, Real.exp_zero, one_mul, sub_zero]
    rw [abs_le]
    constructor <;> linarith
  · have e3 : Spec.expCdf β (a * δ - δ / 2) (((a + k - 1 : ℤ) : ℝ) * δ + δ / 2 - δ / 10 ^ 12) = 1 - Real.exp (-x * k) * Real.exp (x / 10 ^ 12) := by
      unfold Spec.expCdf
      have hk' : (1 : ℝ) ≤ k := by exact_mod_cast hk
      have h12 : δ / 10 ^ 12 ≤ δ := div_le_self hp.le (by norm_num)
      rw [if_neg (by push_cast; nlinarith [mul_le_mul_of_nonneg_right hk' hp.le]), ← Real.exp_add]
      congr 2; push_cast; rw [hxd]; ring
    rw [e3]
    have hk1 : Real.exp (-x * k) ≤ Real.exp (-x) := by
      apply Real.exp_le_exp.2
      have hk' : (1 : ℝ) ≤ k := by exact_mod_cast hk
      nlinarith
    have e4 : 1 - Real.exp (-x * k) * (Real.exp (-x) * Real.exp (x / 10 ^ 12)) - (1 - Real.exp (-x * k) * Real.exp (x / 10 ^ 12)) - Real.exp (-x * k) * (1 - Real.exp (-x)) =
        Real.exp (-x * k) * (Real.exp (x / 10 ^ 12) - 1) * (1 - Real.exp (-x)) := by ring
    rw [e4, abs_of_nonneg (mul_nonneg (mul_nonneg (Real.exp_pos _).le (by linarith)) (by linarith))]
    calc Real.exp (-x * k) * (Real.exp (x / 10 ^ 12) - 1) * (1 - Real.exp (-x)) ≤ Real.exp (-x) * (Real.exp (x / 10 ^ 12) - 1) * 1 := by
          apply mul_le_mul _ (by linarith [Real.exp_pos (-x)]) (by linarith) (by linarith)
          exact mul_le_mul_of_nonneg_right hk1 (by linarith)
      _ ≤ x / 10 ^ 12 := by linarith

/-- There is a random generator. -/
theorem randomDraws_exist : ∃ (Ω : Type) (_ : MeasurableSpace Ω) (P : Measure Ω) (_ : IsProbabilityMeasure P) (g : Ω → Rng), Spec.RandomDraws P g := by
  have h1 : IsProbabilityMeasure (expMeasure 1) := isProbabilityMeasure_expMeasure one_pos
  have h2 : IsProbabilityMeasure ((volume : Measure ℝ).restrict (Set.Ico 0 1)) := ⟨by simp⟩
  let μ : ℕ → Measure (ℝ × ℝ) := fun _ => ((volume : Measure ℝ).restrict (Set.Ico 0 1)).prod (expMeasure 1)
  refine ⟨ℕ → ℝ × ℝ, inferInstance, Measure.infinitePi μ, inferInstance, fun ω => ⟨fun i => (ω i).1, fun i => (ω i).2⟩, ⟨?_, ?_, ?_, ?_, ?_, ?_⟩⟩
  · intro i; exact measurable_fst.comp (measurable_pi_apply i)
  · exact iIndepFun_infinitePi (P := μ) (X := fun _ => Prod.fst) fun _ => measurable_fst
  · intro i
    have e : (fun ω : ℕ → ℝ × ℝ => (ω i).1) = Prod.fst ∘ fun ω => ω i := rfl
    have : Measure.map (fun ω : ℕ → ℝ × ℝ => (ω i).1) (Measure.infinitePi μ) = Measure.map Prod.fst (μ i) := by
      rw [e, ← Measure.map_map measurable_fst (measurable_pi_apply i)]
      congr 1
      exact Measure.infinitePi_map_eval μ i
    refine this.trans ?_
    simp [μ, Measure.map_fst_prod]
  · intro i; exact measurable_snd.comp (measurable_pi_apply i)
  · exact iIndepFun_infinitePi (P := μ) (X := fun _ => Prod.snd) fun _ => measurable_snd
  · intro i
    have e : (fun ω : ℕ → ℝ × ℝ => (ω i).2) = Prod.snd ∘ fun ω => ω i := rfl
    have : Measure.map (fun ω : ℕ → ℝ × ℝ => (ω i).2) (Measure.infinitePi μ) = Measure.map Prod.snd (μ i) := by
      rw [e, ← Measure.map_map measurable_snd (measurable_pi_apply i)]
      congr 1
      exact Measure.infinitePi_map_eval μ i
    refine this.trans ?_
    simp [μ, Measure.map_snd_prod]

/-- C95: the parameter `beta` means the b-value `beta / ln 10`. -/
theorem C95_beta (n : ℕ) (β : ℕ → ℝ) (mc δ : ℝ) (o : Option ℝ) (r : Rng) :
    simulateBinned n β mc δ o .beta r = simulateBinned n (fun i => β i / Real.log 10) mc δ o .bValue r := by
  unfold simulateBinned toBeta
  have h : (fun i => β i / Real.log 10 * Real.log 10) = β := by
    funext i
    exact div_mul_cancel₀ _ log_ten_pos.ne'
  simp only [bind, Except.bind, h]

/-- A case: half of the magnitudes simulated above 1 with `b = 1` are below `1 + log10 2`. -/
example : ∃ (Ω : Type) (_ : MeasurableSpace Ω) (P : Measure Ω) (g : Ω → Rng) (X : ℕ → Ω → ℝ), Spec.RandomDraws P g ∧
    (∀ n ω, simulate n (fun _ => Real.log 10) 1 none (g ω) = .ok ((List.range n).map fun i => X i ω)) ∧
    P.real {ω | X 7 ω ≤ 1 + Real.log 2 / Real.log 10} = 1 / 2 := by
  obtain ⟨Ω, mΩ, P, hP, g, hg⟩ := randomDraws_exist
  obtain ⟨X, h1, -, -, h4⟩ := C95_untruncated hg (fun _ => Real.log 10) 1 fun _ => log_ten_pos
  refine ⟨Ω, mΩ, P, g, X, hg, h1, ?_⟩
  have h2 : 0 < Real.log 2 := Real.log_pos (by norm_num)
  rw [h4]
  unfold Spec.expCdf
  rw [if_neg (by have := div_pos h2 log_ten_pos; linarith)]
  have e : -Real.log 10 * (1 + Real.log 2 / Real.log 10 - 1) = -Real.log 2 := by
    have := log_ten_pos.ne'
    field_simp
    ring
  rw [e, Real.exp_neg, Real.exp_log (by norm_num)]
  norm_num

/-- The hypotheses of the theorems on the truncated and the binned law can be met. -/
example : ∃ (Ω : Type) (_ : MeasurableSpace Ω) (P : Measure Ω) (_ : IsProbabilityMeasure P) (g : Ω → Rng), Spec.RandomDraws P g ∧ (1 : ℝ) - (1 / 10) / 2 < 4 ∧
    (1 : ℝ) / 10 ^ 12 ≤ 1 / 10 := by
  obtain ⟨Ω, mΩ, P, hP, g, hg⟩ := randomDraws_exist
  exact ⟨Ω, mΩ, P, hP, g, hg, by norm_num, by norm_num⟩

end SeismoStats.Props
