/-
Support for property C120: the central limit theorem for sums of products of neighbouring windows.
-/
import Verif.Proofs.WindowSum
import Mathlib.Algebra.Order.Floor.Semifield

namespace SeismoStats.Blocks
open MeasureTheory ProbabilityTheory Filter Topology SeismoStats.Exchange SeismoStats.Props
open scoped BigOperators NNReal
open Classical
noncomputable section

variable {Ω : Type} [MeasurableSpace Ω] {P : Measure Ω} [IsProbabilityMeasure P] {E : ℕ → Ω → ℝ} {μ : Measure ℝ}

/-- A sum cut into blocks of length `L + g`, each in its first `L` and its last `g` terms, and a rest. -/
theorem sum_blocks (h : ℕ → ℝ) (L g M : ℕ) :
    ∑ t ∈ Finset.range M, h t = (∑ j ∈ Finset.range (M / (L + g)), ((∑ r ∈ Finset.range L, h (j * (L + g) + r)) + ∑ r ∈ Finset.range g, h (j * (L + g) + L + r))) +
      ∑ r ∈ Finset.range (M % (L + g)), h (M / (L + g) * (L + g) + r) := by
  have key : ∀ q, ∑ t ∈ Finset.range (q * (L + g)), h t = ∑ j ∈ Finset.range q, ((∑ r ∈ Finset.range L, h (j * (L + g) + r)) + ∑ r ∈ Finset.range g, h (j * (L + g) + L + r)) := by
    intro q
    induction q with
    | zero => simp
    | succ q ih =>
      rw [Finset.sum_range_succ, ← ih, Nat.succ_mul, Finset.sum_range_add, Finset.sum_range_add]
      simp only [Nat.add_assoc]
  conv_lhs => rw [← Nat.div_add_mod' M (L + g), Finset.sum_range_add]
  rw [key]

theorem exp_diff (a b : ℝ) : ‖Complex.exp (a * Complex.I) - Complex.exp (b * Complex.I)‖ ≤ |a - b| := by
  have h : Complex.exp (a * Complex.I) - Complex.exp (b * Complex.I) = Complex.exp (b * Complex.I) * (Complex.exp (Complex.I * (a - b : ℝ)) - 1) := by
    rw [mul_sub, ← Complex.exp_add, mul_one]
    congr 2
    push_cast
    ring
  rw [h, norm_mul, Complex.norm_exp_ofReal_mul_I, one_mul]
  exact Real.norm_exp_I_mul_ofReal_sub_one_le

/-- The characteristic functions of nearby random variables. -/
theorem charFun_diff {X Y : Ω → ℝ} (hX : Measurable X) (hY : Measurable Y) (h2 : MemLp (fun ω => X ω - Y ω) 2 P) {s : ℝ} (hs : 0 < s) (hb : ∫ ω, (X ω - Y ω) ^ 2 ∂P ≤ s ^ 2) (t : ℝ) :
    ‖charFun (P.map X) t - charFun (P.map Y) t‖ ≤ |t| * s := by
  have e : ∀ {Z : Ω → ℝ}, Measurable Z → charFun (P.map Z) t = ∫ ω, Complex.exp ((t * Z ω : ℝ) * Complex.I) ∂P := by
    intro Z hZ
    rw [charFun_apply_real, integral_map hZ.aemeasurable (by fun_prop)]
    simp
  have hi : ∀ {Z : Ω → ℝ}, Measurable Z → Integrable (fun ω => Complex.exp ((t * Z ω : ℝ) * Complex.I)) P := by
    intro Z hZ
    refine Integrable.of_bound (C := 1) ?_ (Eventually.of_forall fun ω => ?_)
    · exact (Complex.measurable_exp.comp ((Complex.measurable_ofReal.comp (hZ.const_mul t)).mul_const _)).aestronglyMeasurable
    · rw [Complex.norm_exp_ofReal_mul_I]
  rw [e hX, e hY, ← integral_sub (hi hX) (hi hY)]
  have hint : Integrable (fun ω => |t| * (((X ω - Y ω) ^ 2 / s + s) / 2)) P := ((((h2.integrable_sq).div_const s).add (integrable_const s)).div_const 2).const_mul _
  refine (norm_integral_le_of_norm_le hint (Eventually.of_forall fun ω => ?_)).trans ?_
  · refine (exp_diff _ _).trans ?_
    rw [← mul_sub, abs_mul]
    refine mul_le_mul_of_nonneg_left ?_ (abs_nonneg t)
    rw [le_div_iff₀ two_pos, div_add' _ _ _ hs.ne', le_div_iff₀ hs]
    have := sq_nonneg (|X ω - Y ω| - s)
    rw [sub_sq, sq_abs] at this
    nlinarith
  · rw [integral_const_mul, integral_div, integral_add ((h2.integrable_sq).div_const s) (integrable_const s), integral_div]
    refine mul_le_mul_of_nonneg_left ?_ (abs_nonneg t)
    rw [integral_const, probReal_univ, one_smul, div_le_iff₀ two_pos, div_add' _ _ _ hs.ne', div_le_iff₀ hs]
    nlinarith

variable (hm : ∀ i, Measurable (E i)) (hi : iIndepFun E P) (hl : ∀ i, P.map (E i) = μ) {n : ℕ} {f : (Fin n → ℝ) → ℝ} (hf : Measurable f)
  (h0 : ∫ ω, win f (fun i => E i ω) 0 ∂P = 0) (h2 : MemLp (fun ω => win f (fun i => E i ω) 0) 2 P)

/-- The sum over the big blocks, divided by the root of the number of terms. -/
def bigSum (f : (Fin n → ℝ) → ℝ) (E : ℕ → Ω → ℝ) (L M : ℕ) (ω : Ω) : ℝ :=
  (∑ j ∈ Finset.range (M / (L + 2 * n)), ∑ r ∈ Finset.range L, prodW f (fun i => E i ω) (j * (L + 2 * n) + r)) / Real.sqrt M

/-- The sum over all windows, divided by the root of the number of terms. -/
def allSum (f : (Fin n → ℝ) → ℝ) (E : ℕ → Ω → ℝ) (M : ℕ) (ω : Ω) : ℝ := (∑ t ∈ Finset.range M, prodW f (fun i => E i ω) t) / Real.sqrt M

include hm hi hl hf h0 h2

theorem big_char (hn : 0 < n) (L : ℕ) : ∃ a : ℝ, 0 ≤ a ∧ a ≤ n * (∫ ω, win f (fun i => E i ω) 0 ^ 2 ∂P) ^ 2 ∧
    ∀ t : ℝ, Tendsto (fun M => charFun (P.map (bigSum f E L M)) t) atTop (𝓝 (Complex.exp (-(a * t ^ 2 / 2 : ℝ)))) := by
  set v := ∫ ω, win f (fun i => E i ω) 0 ^ 2 ∂P with hv
  set ℓ := L + 2 * n with hℓ
  have hℓ0 : 0 < ℓ := by omega
  have hℓR : (0 : ℝ) < ℓ := by exact_mod_cast hℓ0
  set F : (Fin ℓ → ℝ) → ℝ := fun z => ∑ r ∈ Finset.range L, prodW f (padZero z) r with hF
  have hFm : Measurable F := Finset.measurable_sum _ fun r _ => (prodW_measurable hf r).comp (measurable_pi_iff.2 fun i => padZero_measurable i)
  set U : ℕ → Ω → ℝ := fun j ω => F fun r => E (0 + j * ℓ + r) ω with hU
  have hUe : ∀ j ω, U j ω = ∑ r ∈ Finset.range L, prodW f (fun i => E i ω) (j * ℓ + r) := by
    intro j ω
    simp only [hU, hF]
    refine Finset.sum_congr rfl fun r hr => ?_
    rw [Finset.mem_range] at hr
    have : prodW f (padZero fun r : Fin ℓ => E (0 + j * ℓ + r) ω) r = prodW f (fun i => E (j * ℓ + i) ω) r := by
      refine prodW_congr f fun i h1 h3 => ?_
      unfold padZero
      rw [dif_pos (by omega), Nat.zero_add]
    rw [this]
    unfold prodW win
    simp only [Nat.add_assoc]
  have hind : iIndepFun U P := blocks_fun hm hi hFm 0
  have hid : ∀ j, IdentDistrib (U j) (U 0) P P := fun j => blocks_ident hm hi hl hFm (0 + j * ℓ) (0 + 0 * ℓ)
  have hU0 : ∀ ω, U 0 ω = ∑ r ∈ Finset.range L, prodW f (fun i => E i ω) r := by intro ω; rw [hUe]; simp
  have hU2 : MemLp (U 0) 2 P := by
    have := memLp_finsetSum (Finset.range L) (f := fun r ω => prodW f (fun i => E i ω) r) fun r _ => prodW_memLp hm hi hl hf h2 r
    exact this.ae_eq (Eventually.of_forall fun ω => (hU0 ω).symm)
  have hUm : P[U 0] = 0 := by
    rw [integral_congr_ae (Eventually.of_forall hU0), integral_finsetSum _ fun r _ => (prodW_memLp hm hi hl hf h2 r).integrable one_le_two]
    exact Finset.sum_eq_zero fun r _ => prodW_mean hm hi hl hf h0 r
  have hvar : Var[U 0; P] = ∫ ω, U 0 ω ^ 2 ∂P := by
    rw [variance_of_integral_eq_zero hU2.aemeasurable hUm]
  have hvle : Var[U 0; P] ≤ n * v ^ 2 * L := by
    rw [hvar]
    have := sum_bound hm hi hl hf h0 h2 hn (fun _ => 1) L
    simp only [one_mul, one_pow, Finset.sum_const, Finset.card_range, nsmul_eq_mul, mul_one] at this
    rw [integral_congr_ae (Eventually.of_forall fun ω => by rw [hU0 ω])]
    exact this
  refine ⟨Var[U 0; P] / ℓ, div_nonneg (variance_nonneg _ _) hℓR.le, ?_, ?_⟩
  · rw [div_le_iff₀ hℓR]
    refine hvle.trans (mul_le_mul_of_nonneg_left ?_ (by positivity))
    exact_mod_cast (by omega : L ≤ ℓ)
  intro t
  have hclt := tendstoInDistribution_inv_sqrt_mul_sum_sub (P := P) (X := U) (Y := (id : ℝ → ℝ)) (P' := gaussianReal 0 Var[U 0; P].toNNReal) HasLaw.id hU2 hind hid
  have hq : Tendsto (fun M : ℕ => M / ℓ) atTop atTop := Nat.tendsto_div_const_atTop hℓ0.ne'
  have hclt' : TendstoInDistribution (fun (M : ℕ) ω => (Real.sqrt (M / ℓ : ℕ))⁻¹ * (∑ k ∈ Finset.range (M / ℓ), U k ω - (M / ℓ : ℕ) * P[U 0])) atTop (id : ℝ → ℝ) (fun _ => P)
      (gaussianReal 0 Var[U 0; P].toNNReal) := ⟨fun M => hclt.forall_aemeasurable (M / ℓ), hclt.aemeasurable_limit, hclt.tendsto.comp hq⟩
  have hc : Tendsto (fun M : ℕ => Real.sqrt (M / ℓ : ℕ) / Real.sqrt M) atTop (𝓝 (Real.sqrt (1 / ℓ))) := by
    have h1 : Tendsto (fun M : ℕ => ((M / ℓ : ℕ) : ℝ) / M) atTop (𝓝 (1 / ℓ)) := by
      have := (tendsto_nat_floor_mul_div_atTop (R := ℝ) (a := 1 / (ℓ : ℝ)) (by positivity)).comp tendsto_natCast_atTop_atTop
      refine this.congr fun M => ?_
      simp only [Function.comp]
      rw [one_div_mul_eq_div, Nat.floor_div_eq_div]
    refine ((Real.continuous_sqrt.tendsto _).comp h1).congr fun M => ?_
    simp only [Function.comp]
    rw [Real.sqrt_div (Nat.cast_nonneg _)]
  have hprod := hclt'.continuous_comp_prodMk_of_tendstoInMeasure_const (g := fun x : ℝ × ℝ => x.1 * x.2) (by fun_prop)
    (Y := fun (M : ℕ) (_ : Ω) => Real.sqrt (M / ℓ : ℕ) / Real.sqrt M) (c := Real.sqrt (1 / ℓ))
    (tendstoInMeasure_of_tendsto_ae (fun M => aestronglyMeasurable_const) (Eventually.of_forall fun _ => hc)) (fun M => aemeasurable_const)
  have h := (ProbabilityMeasure.tendsto_iff_tendsto_charFun.1 hprod.tendsto) t
  simp only [ProbabilityMeasure.coe_mk] at h
  have hlim : charFun ((gaussianReal 0 Var[U 0; P].toNNReal).map fun ω => id ω * Real.sqrt (1 / ℓ)) t = Complex.exp (-(Var[U 0; P] / ℓ * t ^ 2 / 2 : ℝ)) := by
    simp only [id]
    rw [gaussianReal_map_mul_const, charFun_gaussianReal]
    congr 1
    simp only [mul_zero, Complex.ofReal_zero, zero_mul, zero_sub, NNReal.coe_mul, NNReal.coe_mk, Real.coe_toNNReal _ (variance_nonneg _ _)]
    rw [Real.sq_sqrt (by positivity)]
    push_cast
    ring
  rw [hlim] at h
  refine h.congr fun M => ?_
  congr 2
  funext ω
  rw [hUm, mul_zero, sub_zero]
  unfold bigSum
  rw [Finset.sum_congr rfl fun j _ => hUe j ω]
  rcases Nat.eq_zero_or_pos (M / ℓ) with hz | hz
  · rw [hz]; simp
  · have : Real.sqrt (M / ℓ : ℕ) ≠ 0 := by rw [Real.sqrt_ne_zero']; exact_mod_cast hz
    rw [inv_mul_eq_div, div_mul_div_comm, mul_comm (Real.sqrt (M / ℓ : ℕ)), mul_div_mul_right _ _ this]

omit h0 h2 hi hl in
theorem allSum_measurable (M : ℕ) : Measurable (allSum f E M) := (Finset.measurable_sum _ fun t _ => prodW_meas hm hf t).div_const _

omit h0 h2 hi hl in
theorem bigSum_measurable (L M : ℕ) : Measurable (bigSum f E L M) :=
  (Finset.measurable_sum _ fun j _ => Finset.measurable_sum _ fun r _ => prodW_meas hm hf _).div_const _

theorem rest_bound (hn : 0 < n) (L : ℕ) {M : ℕ} (hM : 0 < M) : MemLp (fun ω => allSum f E M ω - bigSum f E L M ω) 2 P ∧
    ∫ ω, (allSum f E M ω - bigSum f E L M ω) ^ 2 ∂P ≤ n * (∫ ω, win f (fun i => E i ω) 0 ^ 2 ∂P) ^ 2 * (2 * n / (L + 2 * n : ℕ) + (L + 2 * n : ℕ) / M) := by
  set v := ∫ ω, win f (fun i => E i ω) 0 ^ 2 ∂P with hv
  have hMR : (0 : ℝ) < M := by exact_mod_cast hM
  have hℓ0 : 0 < L + 2 * n := by omega
  have hℓR : (0 : ℝ) < (L + 2 * n : ℕ) := by exact_mod_cast hℓ0
  set c : ℕ → ℝ := fun t => if t % (L + 2 * n) < L ∧ t / (L + 2 * n) < M / (L + 2 * n) then 0 else 1 with hc
  have hin : ∀ j < M / (L + 2 * n), ∀ r < L, c (j * (L + 2 * n) + r) = 0 := by
    intro j hj r hr
    simp only [hc]
    rw [if_pos]
    constructor
    · rw [Nat.add_comm, Nat.add_mul_mod_self_right, Nat.mod_eq_of_lt (by omega)]; exact hr
    · rw [Nat.add_comm, Nat.add_mul_div_right _ _ hℓ0, Nat.div_eq_of_lt (by omega), Nat.zero_add]; exact hj
  have hgap : ∀ j, ∀ r < 2 * n, c (j * (L + 2 * n) + L + r) = 1 := by
    intro j r hr
    simp only [hc]
    rw [if_neg]
    rintro ⟨h, -⟩
    rw [Nat.add_assoc, Nat.add_comm, Nat.add_mul_mod_self_right, Nat.mod_eq_of_lt (by omega)] at h
    omega
  have hout : ∀ r, c (M / (L + 2 * n) * (L + 2 * n) + r) = 1 := by
    intro r
    simp only [hc]
    rw [if_neg]
    rintro ⟨-, h⟩
    rw [Nat.add_comm, Nat.add_mul_div_right _ _ hℓ0] at h
    exact absurd h (Nat.not_lt.2 (Nat.le_add_left _ _))
  have hdiff : ∀ ω, allSum f E M ω - bigSum f E L M ω = (∑ t ∈ Finset.range M, c t * prodW f (fun i => E i ω) t) / Real.sqrt M := by
    intro ω
    unfold allSum bigSum
    rw [← sub_div, sum_blocks (fun t => prodW f (fun i => E i ω) t) L (2 * n) M, sum_blocks (fun t => c t * prodW f (fun i => E i ω) t) L (2 * n) M]
    congr 1
    rw [Finset.sum_congr rfl fun r _ => show c (M / (L + 2 * n) * (L + 2 * n) + r) * _ = _ by rw [hout, one_mul]]
    rw [add_sub_right_comm]
    congr 1
    rw [← Finset.sum_sub_distrib]
    refine Finset.sum_congr rfl fun j hj => ?_
    rw [Finset.mem_range] at hj
    have z : ∑ r ∈ Finset.range L, c (j * (L + 2 * n) + r) * prodW f (fun i => E i ω) (j * (L + 2 * n) + r) = 0 :=
      Finset.sum_eq_zero fun r hr => by rw [hin j hj r (Finset.mem_range.1 hr), zero_mul]
    rw [z, zero_add, add_sub_cancel_left]
    exact Finset.sum_congr rfl fun r hr => by rw [hgap j r (Finset.mem_range.1 hr), one_mul]
  have hcount : ∑ t ∈ Finset.range M, c t ^ 2 ≤ M * (2 * n / (L + 2 * n : ℕ)) + (L + 2 * n : ℕ) := by
    rw [sum_blocks (fun t => c t ^ 2) L (2 * n) M]
    rw [Finset.sum_congr rfl fun r _ => show c (M / (L + 2 * n) * (L + 2 * n) + r) ^ 2 = 1 by rw [hout, one_pow]]
    rw [Finset.sum_congr (g := fun _ => ((2 * n : ℕ) : ℝ)) rfl fun j hj => by
      rw [Finset.mem_range] at hj
      rw [Finset.sum_eq_zero (s := Finset.range L) fun r hr => by rw [hin j hj r (Finset.mem_range.1 hr), zero_pow two_ne_zero], zero_add,
        Finset.sum_congr rfl fun r hr => show c (j * (L + 2 * n) + L + r) ^ 2 = 1 by rw [hgap j r (Finset.mem_range.1 hr), one_pow]]
      simp]
    simp only [Finset.sum_const, Finset.card_range, nsmul_eq_mul, mul_one]
    have h1 : ((M / (L + 2 * n) : ℕ) : ℝ) ≤ M / (L + 2 * n : ℕ) := Nat.cast_div_le
    have h3 : ((M % (L + 2 * n) : ℕ) : ℝ) ≤ (L + 2 * n : ℕ) := by exact_mod_cast (Nat.mod_lt M hℓ0).le
    refine add_le_add ?_ h3
    calc ((M / (L + 2 * n) : ℕ) : ℝ) * (2 * n : ℕ) ≤ M / (L + 2 * n : ℕ) * (2 * n : ℕ) := mul_le_mul_of_nonneg_right h1 (Nat.cast_nonneg _)
      _ = M * (2 * n / (L + 2 * n : ℕ)) := by push_cast; ring
  constructor
  · have h := (memLp_finsetSum (Finset.range M) (f := fun t ω => c t * prodW f (fun i => E i ω) t) fun t _ => (prodW_memLp hm hi hl hf h2 t).const_mul (c t)).const_mul ((Real.sqrt M)⁻¹)
    refine h.ae_eq (Eventually.of_forall fun ω => ?_)
    simp only
    rw [hdiff, inv_mul_eq_div]
  · simp_rw [hdiff, div_pow]
    rw [integral_div, Real.sq_sqrt hMR.le, div_le_iff₀ hMR]
    refine (sum_bound hm hi hl hf h0 h2 hn c M).trans ?_
    rw [mul_assoc (n * v ^ 2 : ℝ)]
    refine mul_le_mul_of_nonneg_left (hcount.trans (le_of_eq ?_)) (by positivity)
    field_simp

/-- The normalised sum of the products of neighbouring windows is asymptotically normal, its variance at most `n` times the squared variance of a window. -/
theorem clt_windows (hn : 0 < n) : ∃ τ : ℝ≥0, (τ : ℝ) ≤ n * (∫ ω, win f (fun i => E i ω) 0 ^ 2 ∂P) ^ 2 ∧
    TendstoInDistribution (allSum f E) atTop (id : ℝ → ℝ) (fun _ => P) (gaussianReal 0 τ) := by
  set v := ∫ ω, win f (fun i => E i ω) 0 ^ 2 ∂P with hv
  choose a ha0 ha1 ha using big_char hm hi hl hf h0 h2 hn
  obtain ⟨τ, ⟨hτ0, hτ1⟩, φ, hφ, hlim⟩ := (isCompact_Icc (a := (0 : ℝ)) (b := n * v ^ 2)).tendsto_subseq (x := a) fun L => ⟨ha0 L, ha1 L⟩
  refine ⟨τ.toNNReal, by rw [Real.coe_toNNReal _ hτ0]; exact hτ1, ⟨fun M => (allSum_measurable hm hf M).aemeasurable, aemeasurable_id, ?_⟩⟩
  refine ProbabilityMeasure.tendsto_iff_tendsto_charFun.2 fun t => ?_
  simp only [ProbabilityMeasure.coe_mk, Measure.map_id]
  rw [charFun_gaussianReal]
  have hl' : Complex.exp (t * (0 : ℝ) * Complex.I - ((τ.toNNReal : ℝ≥0) : ℝ) * t ^ 2 / 2) = Complex.exp (-(τ * t ^ 2 / 2 : ℝ)) := by
    congr 1
    rw [Real.coe_toNNReal _ hτ0]
    push_cast
    ring
  rw [hl']
  have hcont : Tendsto (fun k => Complex.exp (-(a (φ k) * t ^ 2 / 2 : ℝ))) atTop (𝓝 (Complex.exp (-(τ * t ^ 2 / 2 : ℝ)))) := by
    have : Continuous fun x : ℝ => Complex.exp (-(x * t ^ 2 / 2 : ℝ)) := by fun_prop
    exact (this.tendsto τ).comp hlim
  rw [Metric.tendsto_atTop]
  intro ε hε
  set s : ℝ := ε / (3 * (|t| + 1)) with hs
  have ht1 : 0 < |t| + 1 := by positivity
  have hs0 : 0 < s := by positivity
  have hts : |t| * s < ε / 3 + 0 := by
    rw [hs, add_zero]
    have : |t| * (ε / (3 * (|t| + 1))) = ε / 3 * (|t| / (|t| + 1)) := by field_simp
    rw [this]
    have h3 : |t| / (|t| + 1) < 1 := by rw [div_lt_one ht1]; linarith
    nlinarith [div_pos hε (by norm_num : (0 : ℝ) < 3)]
  have hgap : Tendsto (fun k => (n : ℝ) * v ^ 2 * (2 * n / (φ k + 2 * n : ℕ))) atTop (𝓝 0) := by
    have h1 : Tendsto (fun k => ((φ k + 2 * n : ℕ) : ℝ)) atTop atTop := tendsto_natCast_atTop_atTop.comp (tendsto_atTop_mono (fun k => Nat.le_add_right _ _) hφ.tendsto_atTop)
    have := (h1.const_div_atTop (2 * (n : ℝ))).const_mul ((n : ℝ) * v ^ 2)
    rwa [mul_zero] at this
  have e1 := (Metric.tendsto_atTop.1 hcont) (ε / 3) (by positivity)
  have e2 := (hgap.eventually_lt_const (show (0 : ℝ) < s ^ 2 / 2 by positivity))
  obtain ⟨k1, hk1⟩ := e1
  obtain ⟨k2, hk2⟩ := eventually_atTop.1 e2
  set k := max k1 k2 with hk
  have f1 := hk1 k (le_max_left _ _)
  have f2 := hk2 k (le_max_right _ _)
  set L := φ k with hL
  have e3 := Metric.tendsto_atTop.1 (ha L t) (ε / 3) (by positivity)
  have e4 : Tendsto (fun M : ℕ => (n : ℝ) * v ^ 2 * ((L + 2 * n : ℕ) / (M : ℝ))) atTop (𝓝 0) := by
    have := (tendsto_natCast_atTop_atTop (R := ℝ)).const_div_atTop ((L + 2 * n : ℕ) : ℝ)
    have := this.const_mul ((n : ℝ) * v ^ 2)
    rwa [mul_zero] at this
  obtain ⟨M1, hM1⟩ := e3
  obtain ⟨M2, hM2⟩ := eventually_atTop.1 (e4.eventually_lt_const (show (0 : ℝ) < s ^ 2 / 2 by positivity))
  refine ⟨max (max M1 M2) 1, fun M hM => ?_⟩
  have g1 := hM1 M ((le_max_left _ _).trans ((le_max_left _ _).trans hM))
  have g2 := hM2 M ((le_max_right _ _).trans ((le_max_left _ _).trans hM))
  have hM0 : 0 < M := (le_max_right _ _).trans hM
  obtain ⟨r1, r2⟩ := rest_bound hm hi hl hf h0 h2 hn L hM0
  have g3 := charFun_diff (allSum_measurable hm hf M) (bigSum_measurable hm hf L M) r1 hs0 (r2.trans (by rw [← hv, mul_add]; linarith)) t
  rw [← dist_eq_norm] at g3
  calc _ ≤ _ := dist_triangle4 _ (charFun (P.map (bigSum f E L M)) t) (Complex.exp (-(a L * t ^ 2 / 2 : ℝ))) _
    _ < ε := by linarith

end
end SeismoStats.Blocks
