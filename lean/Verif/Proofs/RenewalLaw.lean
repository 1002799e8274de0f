/-
Strong laws for sums of independent waiting times with random weights: the weights are functions of the magnitudes, the waiting times are independent of them.
-/
import Verif.Proofs.NextLaw

namespace SeismoStats.Props
open SeismoStats SeismoStats.Simulate MeasureTheory ProbabilityTheory Filter Topology
open Classical
noncomputable section

variable {Ω : Type} [MeasurableSpace Ω] {P : Measure Ω} {g : Ω → Rng}

theorem one_le_harm (n : ℕ) : 1 ≤ harm (n + 1) := by
  have h := harm_mono (show 1 ≤ n + 1 by omega)
  have e : harm 1 = 1 := by simp [harm]
  linarith

/-- Sums whose second moment grows little more than linearly vanish in the mean along fourth powers. -/
theorem ae_fourth {D : ℕ → Ω → ℝ} (hm : ∀ n, Measurable (D n)) {C : ℝ} (hC : 0 ≤ C) (h : ∀ n, MemLp (D n) 2 P ∧ ∫ ω, D n ω ^ 2 ∂P ≤ C * n * harm n ^ 2) :
    ∀ᵐ ω ∂P, Tendsto (fun m : ℕ => D ((m + 1) ^ 4) ω / (((m + 1) ^ 4 : ℕ) : ℝ)) atTop (𝓝 0) := by
  have hcast : ∀ m : ℕ, (((m + 1) ^ 4 : ℕ) : ℝ) = ((m : ℝ) + 1) ^ 4 := fun m => by push_cast; rfl
  have z1 : ∀ᵐ ω ∂P, Tendsto (fun m : ℕ => (D ((m + 1) ^ 4) ω / (((m + 1) ^ 4 : ℕ) : ℝ)) ^ 2) atTop (𝓝 0) := by
    refine ae_zero_of_summable (c := fun m => 16 * C / ((m : ℝ) + 1) ^ 2) (fun m ω => sq_nonneg _) (fun m => ((hm _).div_const _).pow_const 2) (fun m => by positivity)
      (summable_inv_sq _) fun m => ?_
    obtain ⟨k1, k2⟩ := h ((m + 1) ^ 4)
    have hi : Integrable (fun ω => (D ((m + 1) ^ 4) ω / (((m + 1) ^ 4 : ℕ) : ℝ)) ^ 2) P := by
      simp only [div_pow]; exact k1.integrable_sq.div_const _
    rw [← ofReal_integral_eq_lintegral_ofReal hi (Eventually.of_forall fun ω => sq_nonneg _)]
    apply ENNReal.ofReal_le_ofReal
    simp only [div_pow]
    rw [integral_div, hcast] at *
    have hm0 : (0 : ℝ) < (m : ℝ) + 1 := by positivity
    have hh := harm_pow m
    have hh2 : harm ((m + 1) ^ 4) ^ 2 ≤ (4 * ((m : ℝ) + 1)) ^ 2 := pow_le_pow_left₀ (harm_nonneg _) hh 2
    rw [div_le_div_iff₀ (by positivity) (by positivity)]
    calc _ ≤ (C * ((m : ℝ) + 1) ^ 4 * harm ((m + 1) ^ 4) ^ 2) * ((m : ℝ) + 1) ^ 2 := mul_le_mul_of_nonneg_right k2 (by positivity)
      _ ≤ (C * ((m : ℝ) + 1) ^ 4 * (4 * ((m : ℝ) + 1)) ^ 2) * ((m : ℝ) + 1) ^ 2 := by gcongr
      _ = _ := by ring
  filter_upwards [z1] with ω z1
  have h := (Real.continuous_sqrt.tendsto 0).comp z1
  rw [Real.sqrt_zero] at h
  rw [tendsto_zero_iff_abs_tendsto_zero]
  refine h.congr fun m => ?_
  simp only [Function.comp_apply]
  rw [Real.sqrt_sq_eq_abs]

/-- Waiting times: independent, all with the same law, finite variance and mean `τ`. -/
structure Waits (P : Measure Ω) (w : ℕ → Ω → ℝ) (τ : ℝ) : Prop where
  meas : ∀ i, Measurable (w i)
  indep : iIndepFun w P
  ident : ∀ i, P.map (w i) = P.map (w 0)
  memLp : MemLp (w 0) 2 P
  mean : ∫ ω, w 0 ω ∂P = τ

namespace Waits
variable {w : ℕ → Ω → ℝ} {τ : ℝ} [IsProbabilityMeasure P]

omit [IsProbabilityMeasure P] in
theorem identDistrib (h : Waits P w τ) (i : ℕ) : IdentDistrib (w i) (w 0) P P := ⟨(h.meas i).aemeasurable, (h.meas 0).aemeasurable, h.ident i⟩

omit [IsProbabilityMeasure P] in
theorem memLp' (h : Waits P w τ) (i : ℕ) : MemLp (w i) 2 P := (h.identDistrib i).memLp_iff.2 h.memLp

theorem centred (h : Waits P w τ) (i : ℕ) : MemLp (fun ω => w i ω - τ) 2 P ∧ ∫ ω, (w i ω - τ) ∂P = 0 ∧ ∫ ω, (w i ω - τ) ^ 2 ∂P = ∫ ω, (w 0 ω - τ) ^ 2 ∂P := by
  have hi : MemLp (w i) 2 P := h.memLp' i
  refine ⟨hi.sub (memLp_const τ), ?_, ?_⟩
  · rw [integral_sub (hi.integrable one_le_two) (integrable_const τ), (h.identDistrib i).integral_eq, h.mean]
    simp
  · have hm : Measurable fun x : ℝ => (x - τ) ^ 2 := by fun_prop
    exact ((h.identDistrib i).comp hm).integral_eq

end Waits

/-- Strong law with random weights independent of the waiting times. -/
theorem weighted_law [IsProbabilityMeasure P] {w A : ℕ → Ω → ℝ} {τ q C : ℝ} (hw : Waits P w τ) (hw0 : ∀ᵐ ω ∂P, ∀ i, 0 ≤ w i ω) (hAm : ∀ j, Measurable (A j)) (hA0 : ∀ j ω, 0 ≤ A j ω)
    (hC : 0 ≤ C) (hA : ∀ j, MemLp (A j) 2 P ∧ ∫ ω, A j ω ^ 2 ∂P ≤ C * harm (j + 1) ^ 2) (hind : IndepFun (fun ω j => A j ω) (fun ω j => w j ω) P)
    (hq : ∀ᵐ ω ∂P, Tendsto (fun n : ℕ => (∑ j ∈ Finset.range n, A j ω) / n) atTop (𝓝 q)) :
    ∀ᵐ ω ∂P, Tendsto (fun n : ℕ => (∑ j ∈ Finset.range n, w j ω * A j ω) / n) atTop (𝓝 (τ * q)) := by
  set V := ∫ ω, (w 0 ω - τ) ^ 2 ∂P with hV
  have hV0 : 0 ≤ V := integral_nonneg fun ω => sq_nonneg _
  -- one term
  have hone : ∀ j, MemLp (fun ω => (w j ω - τ) * A j ω) 2 P ∧ ∫ ω, ((w j ω - τ) * A j ω) ^ 2 ∂P ≤ V * C * harm (j + 1) ^ 2 := by
    intro j
    obtain ⟨c1, -, c3⟩ := hw.centred j
    have hm : Measurable fun ω => (w j ω - τ) * A j ω := ((hw.meas j).sub_const τ).mul (hAm j)
    have hi : IndepFun (fun ω => (w j ω - τ) ^ 2) (fun ω => A j ω ^ 2) P :=
      hind.symm.comp (φ := fun v : ℕ → ℝ => (v j - τ) ^ 2) (ψ := fun v : ℕ → ℝ => v j ^ 2) (by fun_prop) (by fun_prop)
    have hint := hi.integrable_mul c1.integrable_sq (hA j).1.integrable_sq
    have e : ∀ ω, ((w j ω - τ) * A j ω) ^ 2 = (w j ω - τ) ^ 2 * A j ω ^ 2 := fun ω => mul_pow _ _ _
    constructor
    · rw [memLp_two_iff_integrable_sq hm.aestronglyMeasurable]
      simp only [e]
      exact hint
    · simp only [e]
      rw [hi.integral_fun_mul_eq_mul_integral c1.integrable_sq.aestronglyMeasurable (hA j).1.integrable_sq.aestronglyMeasurable, c3, ← hV, mul_assoc]
      exact mul_le_mul_of_nonneg_left (hA j).2 hV0
  have hcross : ∀ i j, i ≠ j → ∫ ω, ((w i ω - τ) * A i ω) * ((w j ω - τ) * A j ω) ∂P = 0 := by
    intro i j hij
    obtain ⟨c1, c2, -⟩ := hw.centred i
    obtain ⟨d1, d2, -⟩ := hw.centred j
    have hi : IndepFun (fun ω => (w i ω - τ) * (w j ω - τ)) (fun ω => A i ω * A j ω) P :=
      hind.symm.comp (φ := fun v : ℕ → ℝ => (v i - τ) * (v j - τ)) (ψ := fun v : ℕ → ℝ => v i * v j)
        (by fun_prop) (by fun_prop)
    have hii : IndepFun (fun ω => w i ω - τ) (fun ω => w j ω - τ) P :=
      (hw.indep.indepFun hij).comp (φ := fun x : ℝ => x - τ) (ψ := fun x : ℝ => x - τ) (measurable_id.sub_const τ) (measurable_id.sub_const τ)
    have e : ∀ ω, ((w i ω - τ) * A i ω) * ((w j ω - τ) * A j ω) = ((w i ω - τ) * (w j ω - τ)) * (A i ω * A j ω) := fun ω => by ring
    simp only [e]
    rw [hi.integral_fun_mul_eq_mul_integral (c1.aestronglyMeasurable.mul d1.aestronglyMeasurable) ((hAm i).mul (hAm j)).aestronglyMeasurable,
      hii.integral_fun_mul_eq_mul_integral c1.aestronglyMeasurable d1.aestronglyMeasurable, c2, zero_mul, zero_mul]
  set D : ℕ → Ω → ℝ := fun n ω => ∑ j ∈ Finset.range n, (w j ω - τ) * A j ω with hD
  have hDm : ∀ n, Measurable (D n) := fun n => Finset.measurable_sum _ fun j _ => ((hw.meas j).sub_const τ).mul (hAm j)
  have hL : ∀ n, MemLp (D n) 2 P ∧ ∫ ω, D n ω ^ 2 ∂P ≤ V * C * n * harm n ^ 2 := by
    intro n
    induction n with
    | zero => simp [hD]
    | succ n ih =>
      obtain ⟨h1, h2⟩ := ih
      obtain ⟨h3, h4⟩ := hone n
      have e : ∀ ω, D (n + 1) ω = D n ω + (w n ω - τ) * A n ω := fun ω => by rw [hD]; exact Finset.sum_range_succ _ _
      have e' : D (n + 1) = fun ω => D n ω + (w n ω - τ) * A n ω := funext e
      refine ⟨by rw [e']; exact h1.add h3, ?_⟩
      have horth : ∫ ω, D n ω * ((w n ω - τ) * A n ω) ∂P = 0 := by
        have e2 : ∀ ω, D n ω * ((w n ω - τ) * A n ω) = ∑ j ∈ Finset.range n, ((w j ω - τ) * A j ω) * ((w n ω - τ) * A n ω) := fun ω => by rw [hD]; exact Finset.sum_mul _ _ _
        simp only [e2]
        have hint : ∀ j ∈ Finset.range n, Integrable (fun ω => ((w j ω - τ) * A j ω) * ((w n ω - τ) * A n ω)) P := fun j _ => (hone j).1.integrable_mul h3
        rw [integral_finsetSum _ hint]
        exact Finset.sum_eq_zero fun j hj => hcross j n (Finset.mem_range.1 hj).ne
      have hexp : ∀ ω, D (n + 1) ω ^ 2 = D n ω ^ 2 + (2 * (D n ω * ((w n ω - τ) * A n ω)) + ((w n ω - τ) * A n ω) ^ 2) := by
        intro ω; rw [e]; ring
      have hi2 : Integrable (fun ω => 2 * (D n ω * ((w n ω - τ) * A n ω))) P := (h1.integrable_mul h3).const_mul 2
      have hi3 : Integrable (fun ω => 2 * (D n ω * ((w n ω - τ) * A n ω)) + ((w n ω - τ) * A n ω) ^ 2) P := hi2.add h3.integrable_sq
      simp only [hexp]
      rw [integral_add h1.integrable_sq hi3, integral_add hi2 h3.integrable_sq, integral_const_mul, horth, mul_zero, zero_add]
      have hsq : harm n ^ 2 ≤ harm (n + 1) ^ 2 := pow_le_pow_left₀ (harm_nonneg n) (harm_mono (Nat.le_succ n)) 2
      push_cast
      calc _ ≤ V * C * n * harm n ^ 2 + V * C * harm (n + 1) ^ 2 := add_le_add h2 h4
        _ ≤ V * C * n * harm (n + 1) ^ 2 + V * C * harm (n + 1) ^ 2 := by gcongr
        _ = _ := by ring
  filter_upwards [ae_fourth hDm (by positivity) hL, hw0, hq] with ω z h0 hqω
  have hsub : Tendsto (fun m : ℕ => (∑ j ∈ Finset.range ((m + 1) ^ 4), A j ω) / (((m + 1) ^ 4 : ℕ) : ℝ)) atTop (𝓝 q) :=
    hqω.comp ((tendsto_pow_atTop (by norm_num)).comp (tendsto_add_atTop_nat 1))
  refine fourth_powers (u := fun n => ∑ j ∈ Finset.range n, w j ω * A j ω) ?_ ?_
  · apply monotone_nat_of_le_succ
    intro n
    rw [Finset.sum_range_succ]
    have := mul_nonneg (h0 n) (hA0 n ω)
    linarith
  · have h := (hsub.const_mul τ).add z
    rw [add_zero] at h
    refine h.congr fun m => ?_
    rw [← mul_div_assoc, ← add_div, Finset.mul_sum, hD]
    simp only
    rw [← Finset.sum_add_distrib]
    congr 1
    exact Finset.sum_congr rfl fun j _ => by ring

/-! ### Weights of the next larger draw -/

/-- Conditional expectation of the number of draws whose threshold is first reached by draw `j`. -/
def aliveWeight (a : ℝ → ℝ) (j : ℕ) (v : ℕ → ℝ) : ℝ := ∑ i ∈ Finset.range j, alive a v i j * growP a (v i)

theorem aliveWeight_nonneg (a : ℝ → ℝ) (j : ℕ) (v : ℕ → ℝ) : 0 ≤ aliveWeight a j v := Finset.sum_nonneg fun _ _ => mul_nonneg (alive_nonneg _ _ _ _) (growP_pos _ _).le

theorem aliveWeight_measurable {a : ℝ → ℝ} (ha : Measurable a) (j : ℕ) : Measurable (aliveWeight a j) :=
  Finset.measurable_sum _ fun i _ => (alive_measurable ha i j).mul ((growP_measurable ha).comp (measurable_pi_apply i))

/-- Second moment of a sum of terms that decay. -/
theorem sum_memLp {n : ℕ} {Y : ℕ → Ω → ℝ} {C : ℝ} (hY : ∀ i ∈ Finset.range n, MemLp (Y i) 2 P ∧ ∫ ω, Y i ω ^ 2 ∂P ≤ C / ((n : ℝ) - i) ^ 2) :
    MemLp (fun ω => ∑ i ∈ Finset.range n, Y i ω) 2 P ∧ ∫ ω, (∑ i ∈ Finset.range n, Y i ω) ^ 2 ∂P ≤ C * harm n ^ 2 := by
  refine ⟨memLp_finsetSum _ fun i hi => (hY i hi).1, ?_⟩
  have hw : ∀ i ∈ Finset.range n, (0 : ℝ) < n - i := by
    intro i hi
    have : (i : ℝ) < n := by exact_mod_cast Finset.mem_range.1 hi
    linarith
  have hpt : ∀ ω, (∑ i ∈ Finset.range n, Y i ω) ^ 2 ≤ harm n * ∑ i ∈ Finset.range n, ((n : ℝ) - i) * Y i ω ^ 2 := by
    intro ω
    rw [harm_reflect]
    apply Finset.sum_sq_le_sum_mul_sum_of_sq_le_mul
    · intro i hi; have := hw i hi; positivity
    · intro i hi; have := hw i hi; positivity
    · intro i hi
      have := (hw i hi).ne'
      exact le_of_eq (by field_simp)
  have hi1 : ∀ i ∈ Finset.range n, Integrable (fun ω => ((n : ℝ) - i) * Y i ω ^ 2) P := fun i hi => (hY i hi).1.integrable_sq.const_mul _
  have hi2 : Integrable (fun ω => harm n * ∑ i ∈ Finset.range n, ((n : ℝ) - i) * Y i ω ^ 2) P := (integrable_finsetSum _ hi1).const_mul _
  refine (integral_mono_of_nonneg (Eventually.of_forall fun ω => sq_nonneg _) hi2 (Eventually.of_forall hpt)).trans ?_
  rw [integral_const_mul, integral_finsetSum _ hi1]
  have hsum : ∑ i ∈ Finset.range n, ∫ ω, ((n : ℝ) - i) * Y i ω ^ 2 ∂P ≤ ∑ i ∈ Finset.range n, C * (1 / ((n : ℝ) - i)) := by
    apply Finset.sum_le_sum
    intro i hi
    rw [integral_const_mul]
    refine (mul_le_mul_of_nonneg_left (hY i hi).2 (hw i hi).le).trans (le_of_eq ?_)
    have := (hw i hi).ne'
    field_simp
  rw [← Finset.mul_sum, ← harm_reflect] at hsum
  calc harm n * _ ≤ harm n * (C * harm n) := mul_le_mul_of_nonneg_left hsum (harm_nonneg n)
    _ = _ := by ring

section Weights
variable [IsProbabilityMeasure P] (hg : Spec.RandomDraws P g) {a : ℝ → ℝ} (ha : Measurable a) (ha0 : ∀ e, 0 < e → 0 ≤ a e) {K : ℝ} (hK : 0 ≤ K) (haK : ∀ e, 0 < e → a e ≤ e + K)
include hg ha hK haK

theorem weight_term {i n : ℕ} (hin : i < n) : MemLp (fun ω => alive a (g ω).expo i n * growP a ((g ω).expo i)) 2 P ∧
    ∫ ω, (alive a (g ω).expo i n * growP a ((g ω).expo i)) ^ 2 ∂P ≤ 4 * Real.exp K / ((n : ℝ) - i) ^ 2 := by
  obtain ⟨k, rfl⟩ : ∃ k, n = i + 1 + k := ⟨n - i - 1, by omega⟩
  have hE : Measurable fun ω => (g ω).expo := measurable_pi_iff.2 hg.expo_measurable
  have hm : Measurable fun ω => alive a (g ω).expo i (i + 1 + k) * growP a ((g ω).expo i) := ((alive_measurable ha i _).comp hE).mul ((growP_measurable ha).comp (hg.expo_measurable i))
  have h1 := alive_lintegral hg ha i k (fun e => ENNReal.ofReal (growP a e)) (growP_measurable ha).ennreal_ofReal
  have h2 : ∫⁻ ω, ENNReal.ofReal ((alive a (g ω).expo i (i + 1 + k) * growP a ((g ω).expo i)) ^ 2) ∂P ≤ ENNReal.ofReal (4 * Real.exp K / (((i + 1 + k : ℕ) : ℝ) - i) ^ 2) := by
    have hle : ∀ ω, ENNReal.ofReal ((alive a (g ω).expo i (i + 1 + k) * growP a ((g ω).expo i)) ^ 2) ≤
        ENNReal.ofReal (growP a ((g ω).expo i)) * ENNReal.ofReal (alive a (g ω).expo i (i + 1 + k)) := by
      intro ω
      rw [← ENNReal.ofReal_mul (growP_pos _ _).le]
      apply ENNReal.ofReal_le_ofReal
      rw [mul_pow, alive_sq, mul_comm]
      apply mul_le_mul_of_nonneg_right _ (alive_nonneg _ _ _ _)
      have p0 := (growP_pos a ((g ω).expo i)).le
      have p1 := growP_le_one a ((g ω).expo i)
      nlinarith
    refine (lintegral_mono hle).trans ?_
    rw [h1]
    have e3 : ∀ e, ENNReal.ofReal (growP a e) * ENNReal.ofReal ((1 - growP a e) ^ k) = ENNReal.ofReal (growP a e * (1 - growP a e) ^ k) :=
      fun e => (ENNReal.ofReal_mul (growP_pos a e).le).symm
    simp only [e3]
    refine (hit_lintegral ha hK haK k).trans (le_of_eq ?_)
    congr 2
    push_cast
    ring
  have hint : Integrable (fun ω => (alive a (g ω).expo i (i + 1 + k) * growP a ((g ω).expo i)) ^ 2) P := by
    refine ⟨(hm.pow_const 2).aestronglyMeasurable, ?_⟩
    rw [hasFiniteIntegral_iff_ofReal (Eventually.of_forall fun ω => sq_nonneg _)]
    exact lt_of_le_of_lt h2 ENNReal.ofReal_lt_top
  refine ⟨(memLp_two_iff_integrable_sq hm.aestronglyMeasurable).2 hint, ?_⟩
  rw [integral_eq_lintegral_of_nonneg_ae (Eventually.of_forall fun ω => sq_nonneg _) (hm.pow_const 2).aestronglyMeasurable]
  apply ENNReal.toReal_le_of_le_ofReal _ h2
  positivity

theorem weight_memLp (n : ℕ) : MemLp (fun ω => aliveWeight a n (g ω).expo) 2 P ∧ ∫ ω, aliveWeight a n (g ω).expo ^ 2 ∂P ≤ 4 * Real.exp K * harm n ^ 2 :=
  sum_memLp fun _ hi => weight_term hg ha hK haK (Finset.mem_range.1 hi)

include ha0 in
/-- The number of draws that have found a later one, less its compensator. -/
theorem compensated_memLp (n : ℕ) :
    MemLp (fun ω => nextSum a (fun _ => 1) n (g ω).expo - ∑ j ∈ Finset.range n, aliveWeight a j (g ω).expo) 2 P ∧
      ∫ ω, (nextSum a (fun _ => 1) n (g ω).expo - ∑ j ∈ Finset.range n, aliveWeight a j (g ω).expo) ^ 2 ∂P ≤ 16 * Real.exp K * n * harm n ^ 2 := by
  have hP : IsProbabilityMeasure (expMeasure 1) := isProbabilityMeasure_expMeasure one_pos
  have hE : Measurable fun ω => (g ω).expo := measurable_pi_iff.2 hg.expo_measurable
  set M : ℕ → (ℕ → ℝ) → ℝ := fun n v => nextSum a (fun _ => 1) n v - ∑ j ∈ Finset.range n, aliveWeight a j v with hM
  change MemLp (fun ω => M n (g ω).expo) 2 P ∧ ∫ ω, M n (g ω).expo ^ 2 ∂P ≤ _
  have hMm : ∀ n, Measurable (M n) := fun n => (nextSum_measurable ha measurable_const n).sub (Finset.measurable_sum _ fun j _ => aliveWeight_measurable ha j)
  have hMc : ∀ n {v w : ℕ → ℝ}, (∀ l < n, v l = w l) → M n v = M n w := by
    intro n v w h
    rw [hM]
    simp only
    rw [nextSum_congr a _ n h]
    congr 1
    refine Finset.sum_congr rfl fun j hj => Finset.sum_congr rfl fun i hi => ?_
    have h1 := Finset.mem_range.1 hj
    have h2 := Finset.mem_range.1 hi
    rw [alive_congr a h2 fun l hl => h l (by omega), h i (by omega)]
  set T : ℕ → (ℕ → ℝ) → ℝ := fun n v => step a (fun _ => 1) n v - aliveWeight a n v with hT
  have hsucc : ∀ n v, M (n + 1) v = M n v + T n v := by
    intro n v
    rw [hM, hT]
    simp only
    rw [nextSum_succ, Finset.sum_range_succ]
    ring
  have h1L : ∫⁻ u, ENNReal.ofReal ((fun _ : ℝ => (1 : ℝ)) u ^ 2) ∂(expMeasure 1) = ENNReal.ofReal 1 := by simp
  have hTL : ∀ n, MemLp (fun ω => T n (g ω).expo) 2 P ∧ ∫ ω, T n (g ω).expo ^ 2 ∂P ≤ 16 * Real.exp K * harm n ^ 2 := by
    intro n
    obtain ⟨s1, s2⟩ := step_memLp hg ha ha0 hK haK (F := fun _ => 1) measurable_const zero_le_one h1L n
    obtain ⟨t1, t2⟩ := weight_memLp hg ha hK haK n
    refine ⟨s1.sub t1, ?_⟩
    have hpt : ∀ ω, T n (g ω).expo ^ 2 ≤ 2 * step a (fun _ => 1) n (g ω).expo ^ 2 + 2 * aliveWeight a n (g ω).expo ^ 2 := by
      intro ω
      rw [hT]
      nlinarith [sq_nonneg (step a (fun _ => 1) n (g ω).expo + aliveWeight a n (g ω).expo)]
    have i1 : Integrable (fun ω => 2 * step a (fun _ => 1) n (g ω).expo ^ 2) P := s1.integrable_sq.const_mul 2
    have i2 : Integrable (fun ω => 2 * aliveWeight a n (g ω).expo ^ 2) P := t1.integrable_sq.const_mul 2
    have i3 : Integrable (fun ω => 2 * step a (fun _ => 1) n (g ω).expo ^ 2 + 2 * aliveWeight a n (g ω).expo ^ 2) P := i1.add i2
    refine (integral_mono_of_nonneg (Eventually.of_forall fun ω => sq_nonneg _) i3 (Eventually.of_forall hpt)).trans ?_
    rw [integral_add i1 i2, integral_const_mul, integral_const_mul]
    linarith
  induction n with
  | zero => simp [hM, nextSum]
  | succ n ih =>
    obtain ⟨h1, h2⟩ := ih
    obtain ⟨h3, h4⟩ := hTL n
    refine ⟨by simp only [hsucc]; exact h1.add h3, ?_⟩
    have horth : ∫ ω, M n (g ω).expo * T n (g ω).expo ∂P = 0 := by
      have eT : ∀ v : ℕ → ℝ, T n v = ∑ i ∈ Finset.range n, alive a v i n * (excessOf a (fun _ => 1) (v i, v n) - growP a (v i)) := by
        intro v
        rw [hT]
        simp only [step, aliveWeight]
        rw [← Finset.sum_sub_distrib]
        exact Finset.sum_congr rfl fun i _ => by ring
      simp only [eT, Finset.mul_sum]
      have hmem : ∀ i ∈ Finset.range n, MemLp (fun ω => alive a (g ω).expo i n * (excessOf a (fun _ => 1) ((g ω).expo i, (g ω).expo n) - growP a ((g ω).expo i))) 2 P := by
        intro i hi
        have m1 := (term_memLp hg ha ha0 hK haK (F := fun _ => 1) measurable_const zero_le_one h1L (Finset.mem_range.1 hi)).1
        have m2 := (weight_term hg ha hK haK (Finset.mem_range.1 hi)).1
        simp only [mul_sub]
        exact m1.sub m2
      have hint : ∀ i ∈ Finset.range n, Integrable (fun ω => M n (g ω).expo * (alive a (g ω).expo i n * (excessOf a (fun _ => 1) ((g ω).expo i, (g ω).expo n) - growP a ((g ω).expo i)))) P :=
        fun i hi => h1.integrable_mul (hmem i hi)
      rw [integral_finsetSum _ hint]
      apply Finset.sum_eq_zero
      intro i hi
      have hin := Finset.mem_range.1 hi
      have hGm : Measurable fun q : (ℕ → ℝ) × ℝ => M n q.1 * (alive a q.1 i n * (excessOf a (fun _ => 1) (q.1 i, q.2) - growP a (q.1 i))) :=
        ((hMm n).comp measurable_fst).mul (((alive_measurable ha i n).comp measurable_fst).mul
          (((excessOf_measurable ha measurable_const).comp (((measurable_pi_apply i).comp measurable_fst).prodMk measurable_snd)).sub
            ((growP_measurable ha).comp ((measurable_pi_apply i).comp measurable_fst))))
      refine fubini_zero hg.expo_measurable hg.expo_indep hg.expo_law n hGm ?_ (hint i hi) ?_
      · intro v w y h
        simp only
        rw [hMc n h, alive_congr a hin h, h i hin]
      · filter_upwards [expo_pos hg i] with ω hω
        have hex : ∫ y, excessOf a (fun _ => 1) ((g ω).expo i, y) ∂(expMeasure 1) = growP a ((g ω).expo i) := by
          have hm : Measurable fun y : ℝ => excessOf a (fun _ => 1) ((g ω).expo i, y) := (excessOf_measurable ha measurable_const).comp (measurable_const.prodMk measurable_id)
          have hnn : ∀ y : ℝ, 0 ≤ excessOf a (fun _ => 1) ((g ω).expo i, y) := fun y => by unfold excessOf; split_ifs <;> norm_num
          rw [integral_eq_lintegral_of_nonneg_ae (Eventually.of_forall hnn) hm.aestronglyMeasurable,
            excess_lintegral (F := fun _ => 1) measurable_const (L := 1) (by simp) (ha0 _ hω), ENNReal.toReal_ofReal (by rw [one_mul]; exact (growP_pos _ _).le), one_mul]
        have hmi : Integrable (fun y => excessOf a (fun _ => 1) ((g ω).expo i, y)) (expMeasure 1) := by
          have hm : Measurable fun y : ℝ => excessOf a (fun _ => 1) ((g ω).expo i, y) := (excessOf_measurable ha measurable_const).comp (measurable_const.prodMk measurable_id)
          refine Integrable.of_bound hm.aestronglyMeasurable 1 (Eventually.of_forall fun y => ?_)
          unfold excessOf
          split_ifs <;> simp
        rw [integral_const_mul, integral_const_mul, integral_sub hmi (integrable_const _), hex]
        simp
    have hexp : ∀ ω, M (n + 1) (g ω).expo ^ 2 = M n (g ω).expo ^ 2 + (2 * (M n (g ω).expo * T n (g ω).expo) + T n (g ω).expo ^ 2) := by
      intro ω; rw [hsucc]; ring
    have hi2 : Integrable (fun ω => 2 * (M n (g ω).expo * T n (g ω).expo)) P := (h1.integrable_mul h3).const_mul 2
    have hi3 : Integrable (fun ω => 2 * (M n (g ω).expo * T n (g ω).expo) + T n (g ω).expo ^ 2) P := hi2.add h3.integrable_sq
    simp only [hexp]
    rw [integral_add h1.integrable_sq hi3, integral_add hi2 h3.integrable_sq, integral_const_mul, horth, mul_zero, zero_add]
    have hsq : harm n ^ 2 ≤ harm (n + 1) ^ 2 := pow_le_pow_left₀ (harm_nonneg n) (harm_mono (Nat.le_succ n)) 2
    push_cast
    calc _ ≤ 16 * Real.exp K * n * harm n ^ 2 + 16 * Real.exp K * harm n ^ 2 := add_le_add h2 h4
      _ = 16 * Real.exp K * (n + 1) * harm n ^ 2 := by ring
      _ ≤ _ := mul_le_mul_of_nonneg_left hsq (by positivity)

include ha0 in
/-- The weights have mean one. -/
theorem weight_law : ∀ᵐ ω ∂P, Tendsto (fun n : ℕ => nextSum a (fun _ => 1) n (g ω).expo / n) atTop (𝓝 1) ∧
    Tendsto (fun n : ℕ => (∑ j ∈ Finset.range n, aliveWeight a j (g ω).expo) / n) atTop (𝓝 1) := by
  have hP : IsProbabilityMeasure (expMeasure 1) := isProbabilityMeasure_expMeasure one_pos
  have hE : Measurable fun ω => (g ω).expo := measurable_pi_iff.2 hg.expo_measurable
  have h1 := strong_law_next hg ha ha0 hK haK (F := fun _ => 1) measurable_const (fun _ => zero_le_one) (κ := 1) (L := 1) zero_le_one (by simp) (by simp)
  have hm : ∀ n, Measurable fun ω => nextSum a (fun _ => 1) n (g ω).expo - ∑ j ∈ Finset.range n, aliveWeight a j (g ω).expo := fun n =>
    ((nextSum_measurable ha measurable_const n).comp hE).sub (Finset.measurable_sum _ fun j _ => (aliveWeight_measurable ha j).comp hE)
  have h2 := ae_fourth hm (C := 16 * Real.exp K) (by positivity) (compensated_memLp hg ha ha0 hK haK)
  filter_upwards [h1, h2] with ω h1 h2
  refine ⟨h1.1, fourth_powers (u := fun n => ∑ j ∈ Finset.range n, aliveWeight a j (g ω).expo) ?_ ?_⟩
  · apply monotone_nat_of_le_succ
    intro n
    rw [Finset.sum_range_succ]
    have := aliveWeight_nonneg a n (g ω).expo
    linarith
  · have h3 := h1.1.comp ((tendsto_pow_atTop (α := ℕ) (n := 4) (by norm_num)).comp (tendsto_add_atTop_nat 1))
    have h4 := h3.sub h2
    rw [sub_zero] at h4
    refine h4.congr fun m => ?_
    simp only [Function.comp_apply]
    rw [← sub_div, sub_sub_cancel]

end Weights

end
end SeismoStats.Props
