/-
A central limit theorem for functions of two consecutive independent draws whose conditional characteristic function is `1 + q (ψ - 1)`: the proof divides by the
product of the conditional characteristic functions.
-/
import Mathlib.Probability.CentralLimitTheorem
import Mathlib.Analysis.SpecialFunctions.Complex.LogBounds
import Mathlib.MeasureTheory.Integral.Prod
import Mathlib.Probability.Independence.Integration

namespace SeismoStats.Props
open MeasureTheory ProbabilityTheory Filter Topology
open Classical
noncomputable section

/-- Product of the conditional characteristic functions. -/
def condProd (q : ℝ → ℝ) (ψ : ℂ) (n : ℕ) (v : ℕ → ℝ) : ℂ := ∏ j ∈ Finset.range n, (1 + (q (v j) : ℂ) * (ψ - 1))

/-- Sum over pairs. -/
def pairSum (X : ℝ × ℝ → ℝ) (n : ℕ) (v : ℕ → ℝ) : ℝ := ∑ j ∈ Finset.range n, X (v j, v (j + 1))

def normalized (X : ℝ × ℝ → ℝ) (q : ℝ → ℝ) (s : ℝ) (ψ : ℂ) (n : ℕ) (v : ℕ → ℝ) : ℂ :=
  Complex.exp (s * pairSum X n v * Complex.I) * (condProd q ψ n v)⁻¹

theorem factor_ge {a : ℝ} (h0 : 0 ≤ a) (h1 : a ≤ 1) (ψ : ℂ) : 1 - ‖ψ - 1‖ ≤ ‖1 + (a : ℂ) * (ψ - 1)‖ := by
  have h2 : ‖(1 : ℂ)‖ ≤ ‖1 + (a : ℂ) * (ψ - 1)‖ + ‖(a : ℂ) * (ψ - 1)‖ := by
    have := norm_sub_le (1 + (a : ℂ) * (ψ - 1)) ((a : ℂ) * (ψ - 1))
    rwa [add_sub_cancel_right] at this
  rw [norm_one, norm_mul, Complex.norm_real, Real.norm_of_nonneg h0] at h2
  have h3 : a * ‖ψ - 1‖ ≤ ‖ψ - 1‖ := mul_le_of_le_one_left (norm_nonneg _) h1
  linarith

theorem condProd_ge {q : ℝ → ℝ} (h0 : ∀ e, 0 ≤ q e) (h1 : ∀ e, q e ≤ 1) {ψ : ℂ} (hψ : ‖ψ - 1‖ ≤ 1) (n : ℕ) (v : ℕ → ℝ) : (1 - ‖ψ - 1‖) ^ n ≤ ‖condProd q ψ n v‖ := by
  unfold condProd
  rw [norm_prod, ← Finset.card_range n, ← Finset.prod_const, Finset.card_range]
  apply Finset.prod_le_prod
  · intro i _; linarith
  · intro i _; exact factor_ge (h0 _) (h1 _) ψ

theorem norm_exp_I (r : ℝ) : ‖Complex.exp (r * Complex.I)‖ = 1 := Complex.norm_exp_ofReal_mul_I r

theorem pairSum_measurable {X : ℝ × ℝ → ℝ} (hX : Measurable X) (n : ℕ) : Measurable (pairSum X n) := by
  unfold pairSum
  exact Finset.measurable_sum _ fun j _ => hX.comp ((measurable_pi_apply j).prodMk (measurable_pi_apply (j + 1)))

theorem condProd_measurable {q : ℝ → ℝ} (hq : Measurable q) (ψ : ℂ) (n : ℕ) : Measurable (condProd q ψ n) := by
  unfold condProd
  exact Finset.measurable_prod _ fun j _ => ((Complex.measurable_ofReal.comp (hq.comp (measurable_pi_apply j))).mul_const _).const_add _

theorem normalized_measurable {X : ℝ × ℝ → ℝ} (hX : Measurable X) {q : ℝ → ℝ} (hq : Measurable q) (s : ℝ) (ψ : ℂ) (n : ℕ) : Measurable (normalized X q s ψ n) := by
  unfold normalized
  refine Measurable.mul ?_ (condProd_measurable hq ψ n).inv
  exact Complex.measurable_exp.comp (((Complex.measurable_ofReal.comp (pairSum_measurable hX n)).const_mul _).mul_const _)

theorem normalized_bound {X : ℝ × ℝ → ℝ} {q : ℝ → ℝ} (h0 : ∀ e, 0 ≤ q e) (h1 : ∀ e, q e ≤ 1) (s : ℝ) {ψ : ℂ} (hψ : ‖ψ - 1‖ < 1) (n : ℕ) (v : ℕ → ℝ) :
    ‖normalized X q s ψ n v‖ ≤ ((1 - ‖ψ - 1‖) ^ n)⁻¹ := by
  unfold normalized
  rw [norm_mul, ← Complex.ofReal_mul, norm_exp_I, one_mul, norm_inv]
  exact inv_anti₀ (pow_pos (by linarith) n) (condProd_ge h0 h1 hψ.le n v)

theorem normalized_congr (X : ℝ × ℝ → ℝ) (q : ℝ → ℝ) (s : ℝ) (ψ : ℂ) (n : ℕ) {v w : ℕ → ℝ} (h : ∀ j ≤ n, v j = w j) : normalized X q s ψ n v = normalized X q s ψ n w := by
  unfold normalized pairSum condProd
  congr 1
  · congr 4
    apply Finset.sum_congr rfl
    intro j hj
    have := Finset.mem_range.1 hj
    rw [h j (by omega), h (j + 1) (by omega)]
  · congr 1
    apply Finset.prod_congr rfl
    intro j hj
    have := Finset.mem_range.1 hj
    rw [h j (by omega)]

/-- Continue a finite sequence by zeros. -/
def extend {S : Finset ℕ} (v : S → ℝ) : ℕ → ℝ := fun j => if h : j ∈ S then v ⟨j, h⟩ else 0

theorem extend_measurable {S : Finset ℕ} : Measurable (extend : (S → ℝ) → ℕ → ℝ) := by
  rw [measurable_pi_iff]
  intro j
  unfold extend
  by_cases h : j ∈ S
  · simp only [dif_pos h]; exact measurable_pi_apply _
  · simp only [dif_neg h]; exact measurable_const

variable {Ω : Type} [MeasurableSpace Ω] {P : Measure Ω} [IsProbabilityMeasure P] {E : ℕ → Ω → ℝ} {μ : Measure ℝ} [IsProbabilityMeasure μ]

/-- The normalized characteristic function has mean one. -/
theorem normalized_mean (hm : ∀ i, Measurable (E i)) (hi : iIndepFun E P) (hl : ∀ i, P.map (E i) = μ) {X : ℝ × ℝ → ℝ} (hX : Measurable X) {q : ℝ → ℝ} (hq : Measurable q)
    (h0 : ∀ e, 0 ≤ q e) (h1 : ∀ e, q e ≤ 1) (s : ℝ) {ψ : ℂ} (hψ : ‖ψ - 1‖ < 1)
    (hc : ∀ᵐ e ∂μ, ∫ y, Complex.exp (s * X (e, y) * Complex.I) ∂μ = 1 + (q e : ℂ) * (ψ - 1)) (n : ℕ) :
    ∫ ω, normalized X q s ψ n (fun j => E j ω) ∂P = 1 := by
  induction n with
  | zero => simp [normalized, pairSum, condProd]
  | succ n ih =>
    rw [← ih]
    set S := Finset.range (n + 1) with hS
    have hdis : Disjoint S {n + 1} := by rw [Finset.disjoint_singleton_right, hS]; simp
    have hind := hi.indepFun_finset S {n + 1} hdis hm
    have hind2 : IndepFun (fun ω (i : S) => E i ω) (E (n + 1)) P :=
      hind.comp (φ := id) (ψ := fun w : (({n + 1} : Finset ℕ) → ℝ) => w ⟨n + 1, by simp⟩) measurable_id (measurable_pi_apply _)
    have htm : Measurable fun ω (i : S) => E i ω := measurable_pi_iff.2 fun i => hm i
    have hlaw := hind2.map_prod_eq_prod_map_map htm.aemeasurable (hm (n + 1)).aemeasurable
    rw [hl (n + 1)] at hlaw
    set ρ := P.map fun ω (i : S) => E i ω with hρ
    have hρP : IsProbabilityMeasure ρ := Measure.isProbabilityMeasure_map htm.aemeasurable
    -- the functions on the tuple
    set A : (S → ℝ) → ℂ := fun v => normalized X q s ψ n (extend v) with hA
    set B : (S → ℝ) → ℂ := fun v => (1 + (q (extend v n) : ℂ) * (ψ - 1))⁻¹ with hB
    set F : (S → ℝ) × ℝ → ℂ := fun p => A p.1 * B p.1 * Complex.exp (s * X (extend p.1 n, p.2) * Complex.I) with hF
    have hext : ∀ ω, ∀ j ≤ n, extend (fun i : S => E i ω) j = E j ω := by
      intro ω j hj
      unfold extend
      rw [dif_pos (by rw [hS]; simp; omega)]
    have hAm : Measurable A := (normalized_measurable hX hq s ψ n).comp extend_measurable
    have hen : Measurable fun v : S → ℝ => extend v n := (measurable_pi_apply n).comp extend_measurable
    have hBm : Measurable B := (((Complex.measurable_ofReal.comp (hq.comp hen)).mul_const _).const_add _).inv
    have hFm : Measurable F := by
      refine ((hAm.comp measurable_fst).mul (hBm.comp measurable_fst)).mul ?_
      have h2 : Measurable fun p : (S → ℝ) × ℝ => X (extend p.1 n, p.2) := hX.comp ((hen.comp measurable_fst).prodMk measurable_snd)
      exact Complex.measurable_exp.comp (((Complex.measurable_ofReal.comp h2).const_mul _).mul_const _)
    have hBb : ∀ v, ‖B v‖ ≤ (1 - ‖ψ - 1‖)⁻¹ := by
      intro v
      rw [hB]
      simp only
      rw [norm_inv]
      exact inv_anti₀ (by linarith) (factor_ge (h0 _) (h1 _) ψ)
    have hAb : ∀ v, ‖A v‖ ≤ ((1 - ‖ψ - 1‖) ^ n)⁻¹ := fun v => normalized_bound h0 h1 s hψ n _
    have hFb : ∀ p, ‖F p‖ ≤ ((1 - ‖ψ - 1‖) ^ n)⁻¹ * (1 - ‖ψ - 1‖)⁻¹ := by
      intro p
      rw [hF]
      simp only
      rw [norm_mul, norm_mul, ← Complex.ofReal_mul, norm_exp_I, mul_one]
      exact mul_le_mul (hAb _) (hBb _) (norm_nonneg _) (le_trans (norm_nonneg _) (hAb p.1))
    have hFi : Integrable F (ρ.prod μ) := Integrable.of_bound hFm.aestronglyMeasurable _ (Eventually.of_forall hFb)
    have e1 : ∀ ω, normalized X q s ψ (n + 1) (fun j => E j ω) = F ((fun i : S => E i ω), E (n + 1) ω) := by
      intro ω
      rw [hF, hA, hB]
      simp only
      rw [normalized_congr X q s ψ n (hext ω), hext ω n le_rfl]
      unfold normalized pairSum condProd
      rw [Finset.sum_range_succ, Finset.prod_range_succ, mul_inv, Complex.ofReal_add, mul_add, add_mul, Complex.exp_add]
      ring
    have e2 : ∫ ω, normalized X q s ψ (n + 1) (fun j => E j ω) ∂P = ∫ p, F p ∂(ρ.prod μ) := by
      rw [← hlaw, integral_map (htm.prodMk (hm (n + 1))).aemeasurable hFm.aestronglyMeasurable]
      exact integral_congr_ae (Eventually.of_forall e1)
    have e3 : ∫ ω, normalized X q s ψ n (fun j => E j ω) ∂P = ∫ v, A v ∂ρ := by
      rw [hρ, integral_map htm.aemeasurable hAm.aestronglyMeasurable]
      apply integral_congr_ae
      exact Eventually.of_forall fun ω => (normalized_congr X q s ψ n (hext ω)).symm
    rw [e2, e3, integral_prod F hFi]
    apply integral_congr_ae
    have hgood : ∀ᵐ v ∂ρ, ∫ y, Complex.exp (s * X (extend v n, y) * Complex.I) ∂μ = 1 + (q (extend v n) : ℂ) * (ψ - 1) := by
      have hn : ρ.map (fun v : S → ℝ => extend v n) = μ := by
        rw [hρ, Measure.map_map hen htm, ← hl n]
        congr 1
        funext ω
        exact hext ω n le_rfl
      have hc' : ∀ᵐ e ∂(ρ.map fun v : S → ℝ => extend v n), ∫ y, Complex.exp (s * X (e, y) * Complex.I) ∂μ = 1 + (q e : ℂ) * (ψ - 1) := by
        rw [hn]; exact hc
      exact ae_of_ae_map hen.aemeasurable hc'
    filter_upwards [hgood] with v hv
    rw [hF]
    simp only
    rw [integral_const_mul, hv, mul_assoc]
    have hne : (1 + (q (extend v n) : ℂ) * (ψ - 1)) ≠ 0 := by
      intro hz
      have := factor_ge (h0 (extend v n)) (h1 (extend v n)) ψ
      rw [hz, norm_zero] at this
      linarith
    rw [hB]
    simp only
    rw [inv_mul_cancel₀ hne, mul_one]

/-- Limit of the product of the conditional characteristic functions. -/
theorem condProd_tendsto {q : ℝ → ℝ} (h0 : ∀ e, 0 ≤ q e) (h1 : ∀ e, q e ≤ 1) {ψ : ℕ → ℂ} {z : ℂ} (hψ : Tendsto (fun n : ℕ => (n : ℂ) * (ψ n - 1)) atTop (𝓝 z)) {v : ℕ → ℝ} {p : ℝ}
    (hv : Tendsto (fun n : ℕ => (∑ j ∈ Finset.range n, q (v j)) / (n : ℝ)) atTop (𝓝 p)) :
    Tendsto (fun n => condProd q (ψ n) n v) atTop (𝓝 (Complex.exp (z * p))) := by
  have hsmall : Tendsto (fun n : ℕ => ‖ψ n - 1‖) atTop (𝓝 0) := by
    have hinv : Tendsto (fun n : ℕ => ((n : ℝ))⁻¹) atTop (𝓝 0) := tendsto_inv_atTop_nhds_zero_nat
    have h := hinv.mul hψ.norm
    rw [zero_mul] at h
    refine h.congr' ?_
    filter_upwards [eventually_gt_atTop 0] with n hn
    have hn' : (n : ℝ) ≠ 0 := by exact_mod_cast hn.ne'
    rw [norm_mul, Complex.norm_natCast, ← mul_assoc, inv_mul_cancel₀ hn', one_mul]
  -- the exponent
  set L : ℕ → ℂ := fun n => ∑ j ∈ Finset.range n, Complex.log (1 + (q (v j) : ℂ) * (ψ n - 1)) with hL
  have hS : Tendsto (fun n : ℕ => ∑ j ∈ Finset.range n, (q (v j) : ℂ) * (ψ n - 1)) atTop (𝓝 (z * p)) := by
    have h := hψ.mul ((Complex.continuous_ofReal.tendsto p).comp hv)
    refine h.congr' ?_
    filter_upwards [eventually_gt_atTop 0] with n hn
    have hn' : (n : ℂ) ≠ 0 := by exact_mod_cast hn.ne'
    simp only [Function.comp_apply]
    rw [← Finset.sum_mul]
    push_cast
    field_simp
  have hdiff : Tendsto (fun n : ℕ => L n - ∑ j ∈ Finset.range n, (q (v j) : ℂ) * (ψ n - 1)) atTop (𝓝 0) := by
    have hb : Tendsto (fun n : ℕ => ‖(n : ℂ) * (ψ n - 1)‖ * ‖ψ n - 1‖) atTop (𝓝 0) := by
      have := hψ.norm.mul hsmall
      rwa [mul_zero] at this
    refine squeeze_zero_norm' ?_ hb
    filter_upwards [hsmall.eventually (gt_mem_nhds (show (0 : ℝ) < 1 / 2 by norm_num))] with n hn
    rw [hL]
    simp only
    rw [← Finset.sum_sub_distrib]
    have hterm : ∀ j, ‖Complex.log (1 + (q (v j) : ℂ) * (ψ n - 1)) - (q (v j) : ℂ) * (ψ n - 1)‖ ≤ ‖ψ n - 1‖ ^ 2 := by
      intro j
      set w := (q (v j) : ℂ) * (ψ n - 1) with hw
      have hwn : ‖w‖ ≤ ‖ψ n - 1‖ := by
        rw [hw, norm_mul, Complex.norm_real, Real.norm_of_nonneg (h0 _)]
        exact mul_le_of_le_one_left (norm_nonneg _) (h1 _)
      have h2 := Complex.norm_log_one_add_sub_self_le (z := w) (by linarith)
      have h3 : (1 - ‖w‖)⁻¹ ≤ 2 := by
        rw [inv_le_comm₀ (by linarith) (by norm_num)]; linarith
      calc _ ≤ ‖w‖ ^ 2 * (1 - ‖w‖)⁻¹ / 2 := h2
        _ ≤ ‖w‖ ^ 2 * 2 / 2 := by gcongr
        _ = ‖w‖ ^ 2 := by ring
        _ ≤ ‖ψ n - 1‖ ^ 2 := by gcongr
    calc ‖∑ j ∈ Finset.range n, (Complex.log (1 + (q (v j) : ℂ) * (ψ n - 1)) - (q (v j) : ℂ) * (ψ n - 1))‖
        ≤ ∑ j ∈ Finset.range n, ‖ψ n - 1‖ ^ 2 := norm_sum_le_of_le _ fun j _ => hterm j
      _ = ‖(n : ℂ) * (ψ n - 1)‖ * ‖ψ n - 1‖ := by
        rw [Finset.sum_const, Finset.card_range, nsmul_eq_mul, norm_mul, Complex.norm_natCast]; ring
  have hLt : Tendsto L atTop (𝓝 (z * p)) := by
    have := hdiff.add hS
    simpa using this
  refine ((Complex.continuous_exp.tendsto _).comp hLt).congr' ?_
  filter_upwards [hsmall.eventually (gt_mem_nhds (show (0 : ℝ) < 1 / 2 by norm_num))] with n hn
  simp only [Function.comp_apply]
  rw [hL]
  simp only
  rw [Complex.exp_sum]
  unfold condProd
  apply Finset.prod_congr rfl
  intro j _
  rw [Complex.exp_log]
  intro hz
  have := factor_ge (h0 (v j)) (h1 (v j)) (ψ n)
  rw [hz, norm_zero] at this
  linarith

/-- Limit of the characteristic function. -/
theorem charFun_pairs_tendsto (hm : ∀ i, Measurable (E i)) (hi : iIndepFun E P) (hl : ∀ i, P.map (E i) = μ) {X : ℝ × ℝ → ℝ} (hX : Measurable X) {q : ℝ → ℝ} (hq : Measurable q)
    (h0 : ∀ e, 0 ≤ q e) (h1 : ∀ e, q e ≤ 1) {ψ : ℝ → ℂ}
    (hc : ∀ s : ℝ, ∀ᵐ e ∂μ, ∫ y, Complex.exp (s * X (e, y) * Complex.I) ∂μ = 1 + (q e : ℂ) * (ψ s - 1)) {s : ℕ → ℝ} {z : ℂ}
    (hψ : Tendsto (fun n : ℕ => (n : ℂ) * (ψ (s n) - 1)) atTop (𝓝 z)) {p : ℝ}
    (hp : ∀ᵐ ω ∂P, Tendsto (fun n : ℕ => (∑ j ∈ Finset.range n, q (E j ω)) / (n : ℝ)) atTop (𝓝 p)) :
    Tendsto (fun n => ∫ ω, Complex.exp (s n * pairSum X n (fun j => E j ω) * Complex.I) ∂P) atTop (𝓝 (Complex.exp (z * p))) := by
  set c := Complex.exp (z * p) with hcd
  have hc0 : c ≠ 0 := Complex.exp_ne_zero _
  -- bound
  set C := ‖z‖ + 1 with hC
  have hC0 : 0 < C := by positivity
  have hev : ∀ᶠ n : ℕ in atTop, ‖ψ (s n) - 1‖ ≤ C / n := by
    filter_upwards [hψ.norm.eventually (gt_mem_nhds (show ‖z‖ < C by linarith)), eventually_gt_atTop 0] with n hn hn0
    have hn' : (0 : ℝ) < n := by exact_mod_cast hn0
    rw [norm_mul, Complex.norm_natCast] at hn
    rw [le_div_iff₀ hn']; linarith
  have hpow : Tendsto (fun n : ℕ => (1 + -C / n) ^ n) atTop (𝓝 (Real.exp (-C))) := Real.tendsto_one_add_div_pow_exp (-C)
  set K := Real.exp (-C) / 2 with hK
  have hK0 : 0 < K := by positivity
  have hlow : ∀ᶠ n : ℕ in atTop, ‖ψ (s n) - 1‖ < 1 ∧ K ≤ (1 - ‖ψ (s n) - 1‖) ^ n := by
    have hCn : ∀ᶠ n : ℕ in atTop, C / n < 1 := by
      have := tendsto_const_div_atTop_nhds_zero_nat C
      exact this.eventually (gt_mem_nhds one_pos)
    filter_upwards [hev, hpow.eventually (lt_mem_nhds (show K < Real.exp (-C) by rw [hK]; linarith [Real.exp_pos (-C)])), hCn] with n h1 h2 h3
    refine ⟨lt_of_le_of_lt h1 h3, h2.le.trans ?_⟩
    apply pow_le_pow_left₀
    · rw [neg_div]; linarith
    · rw [neg_div]; linarith
  -- difference
  have hsplit : ∀ᶠ n : ℕ in atTop, (∫ ω, Complex.exp (s n * pairSum X n (fun j => E j ω) * Complex.I) ∂P) - c =
      ∫ ω, Complex.exp (s n * pairSum X n (fun j => E j ω) * Complex.I) * (1 - c * (condProd q (ψ (s n)) n (fun j => E j ω))⁻¹) ∂P := by
    filter_upwards [hlow] with n hn
    have hseq : Measurable fun ω => fun j => E j ω := measurable_pi_iff.2 hm
    have hmean := normalized_mean hm hi hl hX hq h0 h1 (s n) hn.1 (hc (s n)) n
    have i1 : Integrable (fun ω => Complex.exp (s n * pairSum X n (fun j => E j ω) * Complex.I)) P := by
      refine Integrable.of_bound (C := 1) ?_ (Eventually.of_forall fun ω => ?_)
      · exact (Complex.measurable_exp.comp (((Complex.measurable_ofReal.comp ((pairSum_measurable hX n).comp hseq)).const_mul _).mul_const _)).aestronglyMeasurable
      · rw [← Complex.ofReal_mul, norm_exp_I]
    have i2 : Integrable (fun ω => c * normalized X q (s n) (ψ (s n)) n (fun j => E j ω)) P := by
      refine (Integrable.of_bound (C := ((1 - ‖ψ (s n) - 1‖) ^ n)⁻¹) ?_ (Eventually.of_forall fun ω => normalized_bound h0 h1 _ hn.1 n _)).const_mul c
      exact ((normalized_measurable hX hq _ _ n).comp hseq).aestronglyMeasurable
    have e : ∀ ω, Complex.exp (s n * pairSum X n (fun j => E j ω) * Complex.I) * (1 - c * (condProd q (ψ (s n)) n (fun j => E j ω))⁻¹) =
        Complex.exp (s n * pairSum X n (fun j => E j ω) * Complex.I) - c * normalized X q (s n) (ψ (s n)) n (fun j => E j ω) := by
      intro ω; unfold normalized; ring
    simp only [e]
    rw [integral_sub i1 i2, integral_const_mul, hmean, mul_one]
  have hdct : Tendsto (fun n : ℕ => ∫ ω, Complex.exp (s n * pairSum X n (fun j => E j ω) * Complex.I) * (1 - c * (condProd q (ψ (s n)) n (fun j => E j ω))⁻¹) ∂P) atTop (𝓝 0) := by
    have hseq : Measurable fun ω => fun j => E j ω := measurable_pi_iff.2 hm
    have h := tendsto_integral_filter_of_dominated_convergence (μ := P) (l := atTop)
      (F := fun (n : ℕ) ω => Complex.exp (s n * pairSum X n (fun j => E j ω) * Complex.I) * (1 - c * (condProd q (ψ (s n)) n (fun j => E j ω))⁻¹))
      (f := fun _ => 0) (fun _ => 1 + ‖c‖ * K⁻¹) ?_ ?_ (integrable_const _) ?_
    · simpa using h
    · refine Eventually.of_forall fun n => ?_
      refine (Measurable.mul ?_ ?_).aestronglyMeasurable
      · exact Complex.measurable_exp.comp (((Complex.measurable_ofReal.comp ((pairSum_measurable hX n).comp hseq)).const_mul _).mul_const _)
      · exact (((condProd_measurable hq _ n).comp hseq).inv.const_mul _).const_sub _
    · filter_upwards [hlow] with n hn
      refine Eventually.of_forall fun ω => ?_
      rw [norm_mul, ← Complex.ofReal_mul, norm_exp_I, one_mul]
      refine (norm_sub_le _ _).trans ?_
      rw [norm_one, norm_mul, norm_inv]
      have hge := hn.2.trans (condProd_ge h0 h1 hn.1.le n fun j => E j ω)
      gcongr
    · filter_upwards [hp] with ω hω
      have hcp := condProd_tendsto h0 h1 hψ hω
      have h2 : Tendsto (fun n => 1 - c * (condProd q (ψ (s n)) n (fun j => E j ω))⁻¹) atTop (𝓝 0) := by
        have := ((hcp.inv₀ hc0).const_mul c).const_sub 1
        rwa [mul_inv_cancel₀ hc0, sub_self] at this
      rw [tendsto_zero_iff_norm_tendsto_zero] at h2 ⊢
      refine h2.congr fun n => ?_
      rw [norm_mul, ← Complex.ofReal_mul, norm_exp_I, one_mul]
  have hfin := hdct.congr' (hsplit.mono fun n hn => hn.symm)
  have := hfin.add_const c
  simpa using this

/-- Second order expansion of a characteristic function with mean zero and variance one. -/
theorem charFun_second {ν : Measure ℝ} [IsProbabilityMeasure ν] (h0 : ∫ x, x ∂ν = 0) (h1 : ∫ x, x ^ 2 ∂ν = 1) (t : ℝ) :
    Tendsto (fun n : ℕ => (n : ℂ) * (charFun ν ((Real.sqrt n)⁻¹ * t) - 1)) atTop (𝓝 (-(t : ℂ) ^ 2 / 2)) := by
  have htend : Tendsto (fun n : ℕ => (Real.sqrt n)⁻¹ * t) atTop (𝓝 0) := by
    rw [← zero_mul t]
    exact .mul_const t (tendsto_inv_atTop_zero.comp (Real.tendsto_sqrt_atTop.comp tendsto_natCast_atTop_atTop))
  have hT := (taylor_charFun_two (P := ν) (X := fun x : ℝ => x) aemeasurable_id h0 h1).comp_tendsto htend
  rw [Measure.map_id'] at hT
  have hO : (fun n : ℕ => (n : ℂ)) =O[atTop] fun n : ℕ => (n : ℝ) :=
    Asymptotics.IsBigO.of_bound 1 (Eventually.of_forall fun n => by simp)
  have h2 := hO.mul_isLittleO hT
  have h3 : (fun n : ℕ => (n : ℂ) * (charFun ν ((Real.sqrt n)⁻¹ * t) - (1 - ((((Real.sqrt n)⁻¹ * t : ℝ)) : ℂ) ^ 2 / 2))) =o[atTop] fun _ : ℕ => (1 : ℝ) := by
    have h5 : (fun n : ℕ => (n : ℝ) * ((fun t : ℝ => t ^ 2) ∘ fun n : ℕ => (Real.sqrt n)⁻¹ * t) n) =O[atTop] fun _ : ℕ => (1 : ℝ) := by
      refine Asymptotics.IsBigO.of_bound (t ^ 2) ?_
      filter_upwards [eventually_gt_atTop 0] with n hn
      have hn' : (0 : ℝ) < n := by exact_mod_cast hn
      have : (n : ℝ) * ((Real.sqrt n)⁻¹ * t) ^ 2 = t ^ 2 := by
        rw [mul_pow, inv_pow, Real.sq_sqrt hn'.le]; field_simp
      simp only [Function.comp_apply]
      rw [this, norm_one, mul_one, Real.norm_of_nonneg (sq_nonneg t)]
    exact h2.trans_isBigO h5
  rw [Asymptotics.isLittleO_one_iff] at h3
  have h4 := h3.add_const (-(t : ℂ) ^ 2 / 2)
  rw [zero_add] at h4
  refine h4.congr' ?_
  filter_upwards [eventually_gt_atTop 0] with n hn
  have hn' : (0 : ℝ) < n := by exact_mod_cast hn
  have e : (n : ℂ) * ((((Real.sqrt n)⁻¹ * t : ℝ)) : ℂ) ^ 2 = (t : ℂ) ^ 2 := by
    have : (n : ℝ) * ((Real.sqrt n)⁻¹ * t) ^ 2 = t ^ 2 := by
      rw [mul_pow, inv_pow, Real.sq_sqrt hn'.le]; field_simp
    exact_mod_cast this
  linear_combination (1 / 2 : ℂ) * e

end
end SeismoStats.Props
