/-
Property C111, continued: an example of missing events, the ones hidden by a larger event before, and what the classic estimate makes of it.
-/
import Verif.Props.DetectedLaw
import Mathlib.Analysis.SpecialFunctions.Gamma.Basic

namespace SeismoStats.Props
open SeismoStats SeismoStats.Simulate BValue MeasureTheory ProbabilityTheory Filter Topology
open Classical
noncomputable section

variable {Ω : Type} [m0 : MeasurableSpace Ω] {P : Measure Ω} {g : Ω → Rng}

/-- The information given by the draws alone. -/
theorem known_exists (hg : Spec.RandomDraws P g) : ∃ ℱ : Filtration ℕ m0, KnownSoFar P g ℱ := by
  have hsm : ∀ i, StronglyMeasurable fun ω => (g ω).expo i := fun i => (hg.expo_measurable i).stronglyMeasurable
  refine ⟨Filtration.natural (fun i ω => (g ω).expo i) hsm, ?_, ?_⟩
  · intro i
    exact (Filtration.stronglyAdapted_natural hsm i).measurable
  · intro i
    exact iIndepFun.indep_comap_natural_of_lt hsm hg.expo_indep (Nat.lt_succ_self i)

/-- Event `i` is not smaller than the event before it. -/
def NotHidden (b mc δ : ℝ) (g : Ω → Rng) (i : ℕ) (ω : Ω) : Prop :=
  ∀ n mags, simulateBinned n (fun _ => b) mc δ none .bValue (g ω) = .ok mags → ∀ (j : ℕ) (m m' : ℝ), i = j + 1 → mags[j]? = some m → mags[i]? = some m' → m ≤ m'

omit m0 in
theorem notHidden_iff {b mc δ : ℝ} {X : ℕ → ℝ} {ω : Ω} (hsim : ∀ n, simulateBinned n (fun _ => b) mc δ none .bValue (g ω) = .ok (firstMags X n)) (i : ℕ) :
    NotHidden b mc δ g i ω ↔ ∀ j, i = j + 1 → X j ≤ X i := by
  constructor
  · intro h j hj
    exact h (i + 1) _ (hsim _) j (X j) (X i) hj (firstMags_get.2 ⟨by omega, rfl⟩) (firstMags_get.2 ⟨by omega, rfl⟩)
  · intro h n mags e j m m' hj h1 h2
    rw [hsim] at e
    injection e with e
    rw [← e] at h1 h2
    obtain ⟨-, rfl⟩ := firstMags_get.1 h1
    obtain ⟨-, rfl⟩ := firstMags_get.1 h2
    exact h j hj

/-- If all events between two are hidden, they are smaller than the first. -/
theorem hidden_smaller {X : ℕ → ℝ} {j i : ℕ} (hji : j ≤ i) (h : ∀ l, j < l → l ≤ i → ¬ ∀ k, l = k + 1 → X k ≤ X l) : X i ≤ X j := by
  induction i with
  | zero => rw [Nat.le_zero.1 hji]
  | succ i ih =>
    rcases Nat.le_succ_iff.1 hji with h1 | rfl
    · have h2 := h (i + 1) (by omega) le_rfl
      push Not at h2
      obtain ⟨k, hk, hlt⟩ := h2
      obtain rfl : k = i := by omega
      exact hlt.le.trans (ih h1 fun l a1 a2 => h l a1 (by omega))
    · exact le_rfl

theorem records_notHidden {X : ℕ → ℝ} {thr d : ℝ} (hd : 0 ≤ d) (hlow : ∀ i, thr ≤ X i) (n : ℕ) : RecordsLarger (firstMags X n) thr d fun i => ∀ k, i = k + 1 → X k ≤ X i := by
  intro j i m m' hji h1 h2 _ _ hl hle k hk
  obtain ⟨hj, rfl⟩ := firstMags_get.1 h1
  obtain ⟨hi, rfl⟩ := firstMags_get.1 h2
  refine (hidden_smaller (X := X) (j := j) (i := k) (by omega) ?_).trans (by linarith)
  intro l a1 a2 hs
  exact absurd (hl l (X l) a1 (by omega) (firstMags_get.2 ⟨by omega, rfl⟩) hs) (not_lt.2 (hlow l))

/-- C111: the events that are not smaller than the one before are a way of missing events as in C111. -/
theorem C111_hidden_detection {b mc d : ℝ} (hg : Spec.RandomDraws P g) {ℱ : Filtration ℕ m0} (hk : KnownSoFar P g ℱ) (hb : 0 < b) (hd : 0 ≤ d) :
    Detection P g ℱ b mc 0 mc d (NotHidden b mc 0 g) := by
  have hβ : 0 < b * Real.log 10 := mul_pos hb log_ten_pos
  have hsim : ∀ ω n, simulateBinned n (fun _ => b) mc 0 none .bValue (g ω) = .ok (firstMags (fun i => mc + (g ω).expo i / (b * Real.log 10)) n) := fun ω n => simulate_continuous (g ω) n hb
  have hle : ∀ x y : ℝ, mc + x / (b * Real.log 10) ≤ mc + y / (b * Real.log 10) ↔ x ≤ y := fun x y => by
    rw [add_le_add_iff_left, div_le_div_iff_of_pos_right hβ]
  refine ⟨?_, ?_, ?_⟩
  · intro i
    simp only [notHidden_iff (hsim _), hle]
    rcases i with - | i
    · have : {ω | ∀ j, 0 = j + 1 → (g ω).expo j ≤ (g ω).expo 0} = Set.univ := by ext ω; simp
      rw [this]
      exact @MeasurableSet.univ _ (ℱ 0)
    · have : {ω | ∀ j, i + 1 = j + 1 → (g ω).expo j ≤ (g ω).expo (i + 1)} = {ω | (g ω).expo i ≤ (g ω).expo (i + 1)} := by
        ext ω
        change (∀ j, i + 1 = j + 1 → (g ω).expo j ≤ (g ω).expo (i + 1)) ↔ (g ω).expo i ≤ (g ω).expo (i + 1)
        constructor
        · intro h; exact h i rfl
        · intro h j hj
          obtain rfl : i = j := by omega
          exact h
      rw [this]
      exact measurableSet_le ((hk.draw i).mono (ℱ.mono (Nat.le_succ i)) le_rfl) (hk.draw (i + 1))
  · filter_upwards [all_pos hg] with ω hpos
    refine ⟨1, _, hsim ω 1, 0, _, firstMags_get.2 ⟨one_pos, rfl⟩, ?_, ?_⟩
    · have := div_pos (hpos 0) hβ; linarith
    · rw [notHidden_iff (hsim ω)]; intro j hj; omega
  · filter_upwards [all_pos hg] with ω hpos n mags e
    rw [hsim] at e
    injection e with e
    rw [← e]
    have := records_notHidden (X := fun i => mc + (g ω).expo i / (b * Real.log 10)) (thr := mc - 0 / 2) hd (fun i => by have := div_pos (hpos i) hβ; linarith) n
    simp only [notHidden_iff (hsim ω)]
    exact this

/-- C111: if all events smaller than the one before are missing, the b-positive estimates converge to the b-value of the simulation. -/
theorem C111_hidden [IsProbabilityMeasure P] {b mc d : ℝ} (hg : Spec.RandomDraws P g) (hb : 0 < b) (hd : 0 ≤ d) :
    ConvergesRecorded P g .positive b mc 0 mc (some d) (NotHidden b mc 0 g) b := by
  obtain ⟨ℱ, hk⟩ := known_exists hg
  exact C111_positive hg hk hb hd (C111_hidden_detection hg hk hb hd)

/-! ### The classic estimate -/

theorem half_mean : ∫⁻ e, ENNReal.ofReal (Real.exp (-e)) ∂(expMeasure 1) = ENNReal.ofReal (1 / 2) := by
  have hm : Measurable fun e : ℝ => ENNReal.ofReal (Real.exp (-e)) := by fun_prop
  have hpm : Measurable (gammaPDF 1 1) := (measurable_gammaPDFReal 1 1).ennreal_ofReal
  unfold expMeasure gammaMeasure
  rw [lintegral_withDensity_eq_lintegral_mul _ hpm hm]
  have e1 : ∀ x : ℝ, (gammaPDF 1 1 * fun e => ENNReal.ofReal (Real.exp (-e))) x = ENNReal.ofReal (1 / 2) * exponentialPDF 2 x := by
    intro x
    change exponentialPDF 1 x * ENNReal.ofReal (Real.exp (-x)) = _
    rw [exponentialPDF_eq, exponentialPDF_eq]
    by_cases h : 0 ≤ x
    · rw [if_pos h, if_pos h, ← ENNReal.ofReal_mul (by positivity), ← ENNReal.ofReal_mul (by positivity)]
      congr 1
      rw [one_mul, one_mul, ← Real.exp_add, ← mul_assoc]
      norm_num
      ring
    · rw [if_neg h, if_neg h]; simp
  rw [lintegral_congr e1, lintegral_const_mul' _ _ ENNReal.ofReal_ne_top, lintegral_exponentialPDF_eq_one (by norm_num), mul_one]

theorem quarter_mean : ∫⁻ e, ENNReal.ofReal (e * Real.exp (-e)) ∂(expMeasure 1) = ENNReal.ofReal (1 / 4) := by
  have hm : Measurable fun e : ℝ => ENNReal.ofReal (e * Real.exp (-e)) := by fun_prop
  have hpm : Measurable (gammaPDF 1 1) := (measurable_gammaPDFReal 1 1).ennreal_ofReal
  unfold expMeasure gammaMeasure
  rw [lintegral_withDensity_eq_lintegral_mul _ hpm hm]
  have e1 : ∀ x : ℝ, (gammaPDF 1 1 * fun e => ENNReal.ofReal (e * Real.exp (-e))) x = ENNReal.ofReal (1 / 4) * gammaPDF 2 2 x := by
    intro x
    change exponentialPDF 1 x * ENNReal.ofReal (x * Real.exp (-x)) = _
    rw [exponentialPDF_eq, gammaPDF_eq]
    by_cases h : 0 ≤ x
    · rw [if_pos h, if_pos h, ← ENNReal.ofReal_mul (by positivity), ← ENNReal.ofReal_mul (by positivity)]
      congr 1
      rw [show (2 : ℝ) - 1 = 1 by norm_num, Real.rpow_one, show Real.Gamma 2 = 1 by simp, show -(2 * x) = -x + -x by ring, Real.exp_add, one_mul, one_mul]
      norm_num
      ring
    · rw [if_neg h, if_neg h]; simp
  rw [lintegral_congr e1, lintegral_const_mul' _ _ ENNReal.ofReal_ne_top, lintegral_gammaPDF_eq_one (by norm_num) (by norm_num), mul_one]

/-- Number and mean excess of the events that are seen. -/
theorem mean_seen (X : ℕ → ℝ) (n : ℕ) (mc : ℝ) (p : ℕ → Prop) (hn : 0 < ∑ i ∈ Finset.range n, if p i then (1 : ℝ) else 0) :
    (((List.range n).filter fun i => decide (p i)).map X) ≠ [] ∧
    (((List.range n).filter fun i => decide (p i)).map X).sum / (((List.range n).filter fun i => decide (p i)).map X).length - mc =
      (∑ i ∈ Finset.range n, if p i then X i - mc else 0) / ∑ i ∈ Finset.range n, if p i then (1 : ℝ) else 0 := by
  have hlen : ((((List.range n).filter fun i => decide (p i)).map X).length : ℝ) = ∑ i ∈ Finset.range n, if p i then (1 : ℝ) else 0 := by
    rw [← sum_filter_range n p fun _ => 1]
    simp
  constructor
  · intro h
    rw [h] at hlen
    rw [← hlen] at hn
    simp at hn
  · rw [hlen, sum_filter_range n p X]
    have e : (∑ i ∈ Finset.range n, if p i then X i - mc else 0) =
        (∑ i ∈ Finset.range n, if p i then X i else 0) - mc * ∑ i ∈ Finset.range n, if p i then (1 : ℝ) else 0 := by
      rw [Finset.mul_sum, ← Finset.sum_sub_distrib]
      apply Finset.sum_congr rfl
      intro i _
      split <;> ring
    rw [e, sub_div, mul_div_assoc, div_self hn.ne', mul_one]

theorem classicSeen_tendsto (X : ℕ → ℝ) (mc κ p : ℝ) (hκ : 0 < κ) (hp : 0 < p) (hlow : ∀ i, mc ≤ X i) (sn : ℕ → Prop)
    (hu : Tendsto (fun n : ℕ => (∑ i ∈ Finset.range n, if sn i then (1 : ℝ) else 0) / n) atTop (𝓝 p))
    (hv : Tendsto (fun n : ℕ => (∑ i ∈ Finset.range n, if sn i then X i - mc else 0) / n) atTop (𝓝 (κ * p))) :
    ∃ est : ℕ → ℝ, (∀ᶠ n in atTop, ∀ warn s, Reachable .classic s → (calculate .classic warn s (callOf (recorded (firstMags X n) sn) mc 0 none)).2 = .ok (.fin (est n))) ∧
      Tendsto est atTop (𝓝 (1 / κ / Real.log 10)) := by
  have hr := quotient_tendsto hp hu hv
  refine ⟨fun n => 1 / ((∑ i ∈ Finset.range n, if sn i then X i - mc else 0) / ∑ i ∈ Finset.range n, if sn i then (1 : ℝ) else 0) / Real.log 10, ?_,
    (tendsto_const_nhds.div hr hκ.ne').div_const _⟩
  filter_upwards [eventually_gt_atTop 0, hu.eventually (lt_mem_nhds hp), hr.eventually (lt_mem_nhds hκ)] with n hn h1 h2 warn s hs
  have hn' : (0 : ℝ) < n := by exact_mod_cast hn
  obtain ⟨m1, m2⟩ := mean_seen X n mc sn ((div_pos_iff_of_pos_right hn').1 h1)
  have hrec : (recorded (firstMags X n) sn).filter (fun m => decide (mc - 0 / 2 ≤ m)) = ((List.range n).filter fun i => decide (sn i)).map X := by
    rw [recorded_filter']
    congr 1
    apply List.filter_congr
    intro i _
    have := hlow i
    simp [seenAbove, this]
  rw [result_eq (Or.inl rfl) warn hs (accepted_all _ mc 0 none (Or.inl rfl)), result_of_total]
  · rw [used_filter, hrec, wmean_all]
    change Except.ok (betaToB (betaOf (_ - mc) 0)) = _
    rw [m2, betaOf_pos h2]
    unfold betaVal
    rw [if_neg (lt_irrefl _)]
    rfl
  · rw [used_filter, hrec, total_all]
    exact_mod_cast List.length_pos_iff.2 m1

/-- C111: with the same missing events, the classic estimates converge to two thirds of the b-value. -/
theorem C111_hidden_classic [IsProbabilityMeasure P] {b mc : ℝ} (hg : Spec.RandomDraws P g) (hb : 0 < b) :
    ConvergesRecorded P g .classic b mc 0 mc none (NotHidden b mc 0 g) (2 / 3 * b) := by
  have hβ : 0 < b * Real.log 10 := mul_pos hb log_ten_pos
  have hP : IsProbabilityMeasure (expMeasure 1) := isProbabilityMeasure_expMeasure one_pos
  have hset : MeasurableSet {e : ℝ × ℝ | e.1 ≤ e.2} := measurableSet_le measurable_fst measurable_snd
  have hf1 : Measurable fun e : ℝ × ℝ => if e.1 ≤ e.2 then (1 : ℝ) else 0 := Measurable.ite hset measurable_const measurable_const
  have hf2 : Measurable fun e : ℝ × ℝ => max (e.2 - e.1) 0 := by fun_prop
  have hf3 : Measurable fun e : ℝ × ℝ => if e.1 ≤ e.2 then max e.1 0 else 0 := Measurable.ite hset (by fun_prop) measurable_const
  have i1 : ∫⁻ e, ENNReal.ofReal (if e.1 ≤ e.2 then (1 : ℝ) else 0) ∂((expMeasure 1).prod (expMeasure 1)) = ENNReal.ofReal (1 / 2) := by
    rw [lintegral_prod _ hf1.ennreal_ofReal.aemeasurable, ← half_mean]
    refine lintegral_congr_ae ?_
    filter_upwards [exp_ae_pos] with e he using tail_lintegral he.le
  have i2 : ∫⁻ e, ENNReal.ofReal (max (e.2 - e.1) 0) ∂((expMeasure 1).prod (expMeasure 1)) = ENNReal.ofReal (1 / 2) := by
    rw [lintegral_prod _ hf2.ennreal_ofReal.aemeasurable, ← half_mean]
    refine lintegral_congr_ae ?_
    filter_upwards [exp_ae_pos] with e he using exp_excess he.le
  have i3 : ∫⁻ e, ENNReal.ofReal (if e.1 ≤ e.2 then max e.1 0 else 0) ∂((expMeasure 1).prod (expMeasure 1)) = ENNReal.ofReal (1 / 4) := by
    rw [lintegral_prod _ hf3.ennreal_ofReal.aemeasurable, ← quarter_mean]
    refine lintegral_congr_ae ?_
    filter_upwards [exp_ae_pos] with e he
    have : ∀ y : ℝ, ENNReal.ofReal (if e ≤ y then max e 0 else 0) = ENNReal.ofReal e * ENNReal.ofReal (if e ≤ y then 1 else 0) := by
      intro y
      rw [← ENNReal.ofReal_mul he.le, max_eq_left he.le]
      split_ifs <;> simp
    rw [lintegral_congr this, lintegral_const_mul _ (Measurable.ite measurableSet_Ici measurable_const measurable_const).ennreal_ofReal, tail_lintegral he.le, ENNReal.ofReal_mul he.le]
  have s1 := strong_law_pairs hg _ hf1 (fun e => by split_ifs <;> norm_num) _ (by norm_num) i1
  have s2 := strong_law_pairs hg _ hf2 (fun e => le_max_right _ _) _ (by norm_num) i2
  have s3 := strong_law_pairs hg _ hf3 (fun e => by split_ifs; exacts [le_max_right _ _, le_rfl]) _ (by norm_num) i3
  have hsim : ∀ ω n, simulateBinned n (fun _ => b) mc 0 none .bValue (g ω) = .ok (firstMags (fun i => mc + (g ω).expo i / (b * Real.log 10)) n) := fun ω n => simulate_continuous (g ω) n hb
  have hle : ∀ x y : ℝ, mc + x / (b * Real.log 10) ≤ mc + y / (b * Real.log 10) ↔ x ≤ y := fun x y => by
    rw [add_le_add_iff_left, div_le_div_iff_of_pos_right hβ]
  -- a sum that starts at the second event
  have shift : ∀ (u : ℕ → ℝ) (l : ℝ), Tendsto (fun n : ℕ => (∑ i ∈ Finset.range n, u (i + 1)) / (n : ℝ)) atTop (𝓝 l) → Tendsto (fun n : ℕ => (∑ i ∈ Finset.range n, u i) / (n : ℝ)) atTop (𝓝 l) := by
    intro u l h
    rw [← tendsto_add_atTop_iff_nat 1]
    have h1 : Tendsto (fun n : ℕ => (n : ℝ) / ((n : ℝ) + 1)) atTop (𝓝 1) := tendsto_natCast_div_add_atTop 1
    have h2 : Tendsto (fun n : ℕ => u 0 / ((n : ℝ) + 1)) atTop (𝓝 0) := by
      have := (tendsto_one_div_add_atTop_nhds_zero_nat (𝕜 := ℝ)).const_mul (u 0)
      rw [mul_zero] at this
      exact this.congr fun n => mul_one_div _ _
    have h3 := (h.mul h1).add h2
    rw [mul_one, add_zero] at h3
    refine h3.congr' ?_
    filter_upwards [eventually_gt_atTop 0] with n hn
    have hn' : (n : ℝ) ≠ 0 := by exact_mod_cast hn.ne'
    rw [Finset.sum_range_succ']
    push_cast
    field_simp
  filter_upwards [s1, s2, s3, all_pos hg] with ω s1 s2 s3 hpos
  have hiff : ∀ i, NotHidden b mc 0 g (i + 1) ω ↔ (g ω).expo i ≤ (g ω).expo (i + 1) := by
    intro i
    rw [notHidden_iff (hsim ω)]
    constructor
    · intro h; exact (hle _ _).1 (h i rfl)
    · intro h j hj
      obtain rfl : i = j := by omega
      exact (hle _ _).2 h
  obtain ⟨est, k1, k2⟩ := classicSeen_tendsto (fun i => mc + (g ω).expo i / (b * Real.log 10)) mc (3 / 2 / (b * Real.log 10)) (1 / 2) (by positivity) (by norm_num)
    (fun i => by have := div_pos (hpos i) hβ; linarith) (fun i => NotHidden b mc 0 g i ω)
    (shift (fun i => if NotHidden b mc 0 g i ω then 1 else 0) _ (s1.congr fun n => by
      congr 1
      exact Finset.sum_congr rfl fun i _ => if_congr (hiff i).symm rfl rfl))
    (shift (fun i => if NotHidden b mc 0 g i ω then mc + (g ω).expo i / (b * Real.log 10) - mc else 0) _ (by
      have h := (s2.add s3).div_const (b * Real.log 10)
      rw [show ((1 : ℝ) / 2 + 1 / 4) / (b * Real.log 10) = 3 / 2 / (b * Real.log 10) * (1 / 2) by ring] at h
      refine h.congr fun n => ?_
      rw [← add_div, ← Finset.sum_add_distrib, div_right_comm, Finset.sum_div]
      congr 1
      refine Finset.sum_congr rfl fun i _ => ?_
      by_cases hc : (g ω).expo i ≤ (g ω).expo (i + 1)
      · rw [if_pos hc, if_pos ((hiff i).2 hc), max_eq_left (by linarith), max_eq_left (hpos i).le]
        ring
      · rw [if_neg hc, if_neg (fun h => hc ((hiff i).1 h)), max_eq_right (by linarith)]
        simp))
  refine ⟨est, ?_, ?_⟩
  · filter_upwards [k1] with n hn
    exact ⟨_, hsim ω n, hn⟩
  · rwa [show 1 / (3 / 2 / (b * Real.log 10)) / Real.log 10 = 2 / 3 * b by
      have := log_ten_pos.ne'; have := hb.ne'
      field_simp] at k2

/-- A case: with `b = 1` above magnitude 2 and without the events that are smaller than the one before them, b-positive converges to 1 and the classic estimate to 2/3. -/
example : ∃ (Ω : Type) (_ : MeasurableSpace Ω) (P : Measure Ω) (g : Ω → Rng), Spec.RandomDraws P g ∧ ConvergesRecorded P g .positive 1 2 0 2 (some (1 / 10)) (NotHidden 1 2 0 g) 1 ∧
    ConvergesRecorded P g .classic 1 2 0 2 none (NotHidden 1 2 0 g) (2 / 3) := by
  obtain ⟨Ω, mΩ, P, hP, g, hg⟩ := randomDraws_exist
  refine ⟨Ω, mΩ, P, g, hg, C111_hidden hg one_pos (by norm_num), ?_⟩
  have h := C111_hidden_classic (mc := 2) hg one_pos
  rwa [mul_one] at h

/-- A case with bins: bins of 0.1 above 2.0, only the events from 2.5 on are recorded, and the estimate uses mc = 2.0 and the default cutoff of one bin. -/
example : ∃ (Ω : Type) (_ : MeasurableSpace Ω) (P : Measure Ω) (g : Ω → Rng) (seen : ℕ → Ω → Prop), Spec.RandomDraws P g ∧
    (∀ ω n mags, simulateBinned n (fun _ => 1) ((20 : ℤ) * (1 / 10)) (1 / 10) none .bValue (g ω) = .ok mags → ∀ i m, mags[i]? = some m → (seen i ω ↔ 5 / 2 ≤ m)) ∧
    ConvergesRecorded P g .positive 1 ((20 : ℤ) * (1 / 10)) (1 / 10) 2 none seen 1 := by
  obtain ⟨Ω, mΩ, P, hP, g, hg⟩ := randomDraws_exist
  obtain ⟨ℱ, hk⟩ := known_exists hg
  have hsim : ∀ ω n, simulateBinned n (fun _ => 1) ((20 : ℤ) * (1 / 10)) (1 / 10) none .bValue (g ω) = .ok (firstMags (fun i =>
      ((20 + ⌊(g ω).expo i / (1 * Real.log 10 * (1 / 10)) + 1 / 10 ^ 12⌋ : ℤ) : ℝ) * (1 / 10)) n) := fun ω n => simulate_grid (g ω) n 20 one_pos (by norm_num)
  set Q : ℝ → ℝ := fun e => ((20 + ⌊e / (1 * Real.log 10 * (1 / 10)) + 1 / 10 ^ 12⌋ : ℤ) : ℝ) * (1 / 10) with hQ
  have hQm : Measurable Q := by
    have h1 : Measurable fun z : ℤ => (z : ℝ) := measurable_from_top
    have h2 : Measurable fun e : ℝ => ⌊e / (1 * Real.log 10 * (1 / 10)) + 1 / 10 ^ 12⌋ := Int.measurable_floor.comp (by fun_prop)
    exact (h1.comp (h2.const_add 20)).mul_const _
  refine ⟨Ω, mΩ, P, g, fun i ω => 5 / 2 ≤ Q ((g ω).expo i), hg, ?_, C111_positive_default hg hk 20 one_pos (by norm_num) ⟨?_, ?_, ?_⟩⟩
  · intro ω n mags e i m hm
    rw [hsim] at e
    injection e with e
    rw [← e] at hm
    obtain ⟨-, rfl⟩ := firstMags_get.1 hm
    exact Iff.rfl
  · exact fun i => measurableSet_le measurable_const (hQm.comp (hk.draw i))
  · have hx : (0 : ℝ) < 1 * Real.log 10 * (1 / 10) := by have := log_ten_pos; positivity
    -- some draw is large
    have hlarge : ∀ᵐ ω ∂P, ∃ i, 5 * (1 * Real.log 10 * (1 / 10)) ≤ (g ω).expo i := by
      have h := strong_law_expo hg (fun e => if 5 * (1 * Real.log 10 * (1 / 10)) ≤ e then 1 else 0) (Measurable.ite measurableSet_Ici measurable_const measurable_const)
        (fun e => by split <;> norm_num) _ (Real.exp_pos _).le (tail_lintegral (by positivity))
      filter_upwards [h] with ω h
      by_contra hc
      push Not at hc
      have h2 : ∀ n : ℕ, (∑ i ∈ Finset.range n, if 5 * (1 * Real.log 10 * (1 / 10)) ≤ (g ω).expo i then (1 : ℝ) else 0) / (n : ℝ) = 0 := by
        intro n
        rw [Finset.sum_eq_zero fun i _ => if_neg (not_le.2 (hc i)), zero_div]
      exact (Real.exp_pos _).ne (tendsto_nhds_unique (tendsto_const_nhds.congr fun n => (h2 n).symm) h)
    filter_upwards [hlarge] with ω ⟨i, hi⟩
    have hfl : (5 : ℤ) ≤ ⌊(g ω).expo i / (1 * Real.log 10 * (1 / 10)) + 1 / 10 ^ 12⌋ := by
      rw [Int.le_floor]
      have := (le_div_iff₀ hx).2 hi
      push_cast
      linarith [show (0 : ℝ) < 1 / 10 ^ 12 by positivity]
    have hQi : 5 / 2 ≤ Q ((g ω).expo i) := by
      have h2 : (5 : ℝ) ≤ (⌊(g ω).expo i / (1 * Real.log 10 * (1 / 10)) + 1 / 10 ^ 12⌋ : ℤ) := by exact_mod_cast hfl
      change 5 / 2 ≤ ((20 + ⌊(g ω).expo i / (1 * Real.log 10 * (1 / 10)) + 1 / 10 ^ 12⌋ : ℤ) : ℝ) * (1 / 10)
      push_cast at h2 ⊢
      linarith
    refine ⟨i + 1, _, hsim ω (i + 1), i, Q ((g ω).expo i), firstMags_get.2 ⟨by omega, rfl⟩, ?_, hQi⟩
    linarith
  · refine Eventually.of_forall fun ω n mags e => ?_
    rw [hsim] at e
    injection e with e
    rw [← e]
    intro j i m m' _ h1 h2 hs _ _ hle
    obtain ⟨-, rfl⟩ := firstMags_get.1 h1
    obtain ⟨-, rfl⟩ := firstMags_get.1 h2
    change 5 / 2 ≤ Q ((g ω).expo j) at hs
    change Q ((g ω).expo j) + _ ≤ Q ((g ω).expo i) at hle
    change 5 / 2 ≤ Q ((g ω).expo i)
    linarith

end
end SeismoStats.Props
