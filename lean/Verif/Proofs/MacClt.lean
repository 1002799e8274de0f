/-
Support for property C120: the mean autocorrelation over all offsets is asymptotically normal.
-/
import Verif.Proofs.MacMoments
import Mathlib.Probability.StrongLaw

namespace SeismoStats.Blocks
open SeismoStats SeismoStats.Simulate SeismoStats.Props MeasureTheory ProbabilityTheory Filter Topology
open scoped BigOperators NNReal
open Classical
noncomputable section

variable {Ω : Type} [MeasurableSpace Ω] {P : Measure Ω} [IsProbabilityMeasure P] {E : ℕ → Ω → ℝ} {μ : Measure ℝ}

/-! ### one series -/

theorem split_alg {x K : ℝ} (hx : 0 < x) (hK : x * x = K) (A T B r w : ℝ) :
    A / x * (x * w - x * r) + T / x * (-((K + 1) / K * (T / K) * (x * w))) + B * (T / K * (1 / x) * (x * w)) = (A - (K + 1) * (T / K) ^ 2 + T / K * B) * w - A * r := by
  subst hK
  field_simp
  ring

/-- The sum of the products of neighbours. -/
def prodSum (y : ℕ → ℝ) (K : ℕ) : ℝ := ∑ i ∈ Finset.range (K - 1), y i * y (i + 1)

theorem num_eq (y : ℕ → ℝ) {K : ℕ} (hK : 0 < K) (m : ℝ) (hm : m = (∑ j ∈ Finset.range K, y j) / K) :
    ∑ i ∈ Finset.range (K - 1), (y i - m) * (y (i + 1) - m) = prodSum y K - (K + 1) * m ^ 2 + m * (y 0 + y (K - 1)) := by
  obtain ⟨k, rfl⟩ : ∃ k, K = k + 1 := ⟨K - 1, by omega⟩
  have hS : ∑ j ∈ Finset.range (k + 1), y j = (k + 1) * m := by
    rw [hm]; push_cast; field_simp
  have h1 : ∑ i ∈ Finset.range k, y i = (k + 1) * m - y k := by rw [← hS, Finset.sum_range_succ]; ring
  have h2 : ∑ i ∈ Finset.range k, y (i + 1) = (k + 1) * m - y 0 := by rw [← hS, Finset.sum_range_succ']; ring
  unfold prodSum
  rw [Nat.add_sub_cancel]
  have : ∀ i ∈ Finset.range k, (y i - m) * (y (i + 1) - m) = y i * y (i + 1) - m * (y i + y (i + 1)) + m ^ 2 := fun i _ => by ring
  rw [Finset.sum_congr rfl this, Finset.sum_add_distrib, Finset.sum_sub_distrib, ← Finset.mul_sum, Finset.sum_add_distrib, h1, h2, Finset.sum_const, Finset.card_range, nsmul_eq_mul]
  push_cast
  ring

theorem den_eq (y : ℕ → ℝ) {K : ℕ} (hK : 0 < K) (m : ℝ) (hm : m = (∑ j ∈ Finset.range K, y j) / K) :
    (∑ i ∈ Finset.range K, (y i - m) ^ 2) / K = (∑ i ∈ Finset.range K, y i ^ 2) / K - m ^ 2 := by
  have hKR : (K : ℝ) ≠ 0 := by exact_mod_cast hK.ne'
  have hS : ∑ j ∈ Finset.range K, y j = K * m := by rw [hm]; field_simp
  have : ∀ i ∈ Finset.range K, (y i - m) ^ 2 = y i ^ 2 - 2 * m * y i + m ^ 2 := fun i _ => by ring
  rw [Finset.sum_congr rfl this, Finset.sum_add_distrib, Finset.sum_sub_distrib, ← Finset.mul_sum, hS, Finset.sum_const, Finset.card_range, nsmul_eq_mul]
  field_simp
  ring

theorem seriesI_shift (y : ℕ → ℝ) (c : ℝ) (K : ℕ) : seriesI (fun k => y k + c) K = seriesI y K := by
  rcases Nat.eq_zero_or_pos K with rfl | hK
  · simp [seriesI]
  have hKR : (K : ℝ) ≠ 0 := by exact_mod_cast hK.ne'
  have h : (∑ j ∈ Finset.range K, (y j + c)) / K = (∑ j ∈ Finset.range K, y j) / K + c := by
    rw [Finset.sum_add_distrib, Finset.sum_const, Finset.card_range, nsmul_eq_mul, add_div, mul_div_cancel_left₀ _ hKR]
  unfold seriesI
  rw [h]
  congr 1
  · exact Finset.sum_congr rfl fun i _ => by ring
  · exact Finset.sum_congr rfl fun i _ => by ring

/-- The sum over all windows, offset by offset. -/
theorem sum_offsets_windows (h : ℕ → ℝ) {N n : ℕ} (hn : 0 < n) (hN : 2 * n ≤ N) :
    ∑ off ∈ Finset.range n, ∑ i ∈ Finset.range ((N - off) / n - 1), h (off + i * n) = ∑ t ∈ Finset.range (N + 1 - 2 * n), h t := by
  have key : ∀ off < n, ∀ i, i < (N - off) / n - 1 ↔ off + i * n < N + 1 - 2 * n := by
    intro off ho i
    have : i < (N - off) / n - 1 ↔ i + 2 ≤ (N - off) / n := by omega
    rw [this, Nat.le_div_iff_mul_le hn, Nat.add_mul]
    omega
  rw [Finset.sum_sigma']
  refine Finset.sum_nbij' (fun p => p.1 + p.2 * n) (fun t => ⟨t % n, t / n⟩) ?_ ?_ ?_ ?_ ?_
  · rintro ⟨off, i⟩ hp
    simp only [Finset.mem_sigma, Finset.mem_range] at hp ⊢
    exact (key off hp.1 i).1 hp.2
  · intro t ht
    simp only [Finset.mem_sigma, Finset.mem_range] at ht ⊢
    refine ⟨Nat.mod_lt _ hn, (key _ (Nat.mod_lt _ hn) _).2 ?_⟩
    rw [Nat.mul_comm, Nat.mod_add_div]
    exact ht
  · rintro ⟨off, i⟩ hp
    simp only [Finset.mem_sigma, Finset.mem_range] at hp
    have h1 : (off + i * n) % n = off := by rw [Nat.add_mul_mod_self_right, Nat.mod_eq_of_lt hp.1]
    have h2 : (off + i * n) / n = i := by rw [Nat.add_mul_div_right _ _ hn, Nat.div_eq_of_lt hp.1, Nat.zero_add]
    simp only [h1, h2]
  · intro t _
    simp only
    rw [Nat.mul_comm, Nat.mod_add_div]
  · rintro ⟨off, i⟩ _
    rfl

variable (hm : ∀ i, Measurable (E i)) (hi : iIndepFun E P) (hl : ∀ i, P.map (E i) = μ) {n : ℕ} {f : (Fin n → ℝ) → ℝ} (hf : Measurable f)
  (h0 : ∫ ω, win f (fun i => E i ω) 0 ∂P = 0) (h2 : MemLp (fun ω => win f (fun i => E i ω) 0) 2 P)

/-- The series of the windows of an offset. -/
def offY (f : (Fin n → ℝ) → ℝ) (E : ℕ → Ω → ℝ) (off : ℕ) (ω : Ω) (k : ℕ) : ℝ := win f (fun i => E i ω) (off + k * n)

include hm hi hl hf h0 h2

theorem offY_mean (hn : 0 < n) (off : ℕ) : ∀ᵐ ω ∂P, Tendsto (fun K : ℕ => (∑ j ∈ Finset.range K, offY f E off ω j) / K) atTop (𝓝 0) := by
  have h := strong_law_ae_real (fun k ω => offY f E off ω k) (μ := P) ((win_memLp hm hi hl hf h2 _).integrable one_le_two)
    (fun i j hij => (blocks_fun hm hi hf off).indepFun hij) fun k => blocks_ident hm hi hl hf (off + k * n) (off + 0 * n)
  have e : P[fun ω => offY f E off ω 0] = 0 := win_mean hm hi hl hf h0 h2 _
  rw [e] at h
  exact h

theorem offY_square (hn : 0 < n) (off : ℕ) : ∀ᵐ ω ∂P, Tendsto (fun K : ℕ => (∑ j ∈ Finset.range K, offY f E off ω j ^ 2) / K) atTop
    (𝓝 (∫ ω, win f (fun i => E i ω) 0 ^ 2 ∂P)) := by
  have h := strong_law_ae_real (fun k ω => offY f E off ω k ^ 2) (μ := P) ((win_memLp hm hi hl hf h2 _).integrable_sq)
    (fun i j hij => ((blocks_fun hm hi hf off).indepFun hij).comp (measurable_id.pow_const 2) (measurable_id.pow_const 2))
    fun k => (blocks_ident hm hi hl hf (off + k * n) (off + 0 * n)).comp (measurable_id.pow_const 2)
  have e : P[fun ω => offY f E off ω 0 ^ 2] = _ := win_sq hm hi hl hf h2 (off + 0 * n)
  rw [e] at h
  exact h

theorem win_orth {s t : ℕ} (h : s + n ≤ t) : ∫ ω, win f (fun i => E i ω) s * win f (fun i => E i ω) t ∂P = 0 := by
  rw [(win_indep hm hi hf h).integral_fun_mul_eq_mul_integral (win_meas hm hf s).aestronglyMeasurable (win_meas hm hf t).aestronglyMeasurable,
    win_mean hm hi hl hf h0 h2, zero_mul]

theorem prodSum_bound (off : ℕ) {K : ℕ} (hK : 0 < K) : MemLp (fun ω => prodSum (offY f E off ω) K / Real.sqrt K) 2 P ∧
    ∫ ω, (prodSum (offY f E off ω) K / Real.sqrt K) ^ 2 ∂P ≤ (∫ ω, win f (fun i => E i ω) 0 ^ 2 ∂P) ^ 2 := by
  have hKR : (0 : ℝ) < K := by exact_mod_cast hK
  have e : ∀ ω, prodSum (offY f E off ω) K = ∑ i ∈ Finset.range (K - 1), prodW f (fun i => E i ω) (off + i * n) := by
    intro ω
    unfold prodSum
    refine Finset.sum_congr rfl fun i _ => ?_
    unfold offY prodW
    rw [Nat.succ_mul, ← Nat.add_assoc]
  have hM : ∀ i, MemLp (fun ω => prodW f (fun i => E i ω) (off + i * n)) 2 P := fun i => prodW_memLp hm hi hl hf h2 _
  constructor
  · have h := (memLp_finsetSum (Finset.range (K - 1)) fun i _ => hM i).const_mul ((Real.sqrt K)⁻¹)
    refine h.ae_eq (Eventually.of_forall fun ω => ?_)
    simp only
    rw [e, inv_mul_eq_div]
  · simp_rw [e, div_pow]
    rw [integral_div, Real.sq_sqrt hKR.le, div_le_iff₀ hKR, orth_sum _ fun i _ => hM i]
    · rw [Finset.sum_congr rfl fun i _ => prodW_sq hm hi hl hf h2 _, Finset.sum_const, Finset.card_range, nsmul_eq_mul, mul_comm]
      refine mul_le_mul_of_nonneg_left ?_ (sq_nonneg _)
      exact_mod_cast Nat.sub_le K 1
    · intro i _ j _ hij
      have key : ∀ i j : ℕ, i < j → off + i * n + n ≤ off + j * n := by
        intro i j h
        have := Nat.mul_le_mul_right n (show i + 1 ≤ j from h)
        rw [Nat.add_mul, Nat.one_mul] at this
        omega
      rcases lt_or_gt_of_ne hij with h | h
      · exact prodW_orth hm hi hl hf h0 (key i j h)
      · have := prodW_orth hm hi hl hf h0 (key j i h)
        simp_rw [mul_comm (prodW f _ (off + i * n))]
        exact this

theorem offSum_bound (off : ℕ) {K : ℕ} (hK : 0 < K) : MemLp (fun ω => (∑ j ∈ Finset.range K, offY f E off ω j) / Real.sqrt K) 2 P ∧
    ∫ ω, ((∑ j ∈ Finset.range K, offY f E off ω j) / Real.sqrt K) ^ 2 ∂P ≤ ∫ ω, win f (fun i => E i ω) 0 ^ 2 ∂P := by
  have hKR : (0 : ℝ) < K := by exact_mod_cast hK
  have hM : ∀ i, MemLp (fun ω => offY f E off ω i) 2 P := fun i => win_memLp hm hi hl hf h2 _
  constructor
  · have h := (memLp_finsetSum (Finset.range K) fun i _ => hM i).const_mul ((Real.sqrt K)⁻¹)
    refine h.ae_eq (Eventually.of_forall fun ω => ?_)
    simp only
    rw [inv_mul_eq_div]
  · simp_rw [div_pow]
    rw [integral_div, Real.sq_sqrt hKR.le, div_le_iff₀ hKR, orth_sum _ fun i _ => hM i]
    · unfold offY
      rw [Finset.sum_congr rfl fun i _ => win_sq hm hi hl hf h2 _, Finset.sum_const, Finset.card_range, nsmul_eq_mul, mul_comm]
    · intro i _ j _ hij
      have key : ∀ i j : ℕ, i < j → off + i * n + n ≤ off + j * n := by
        intro i j h
        have := Nat.mul_le_mul_right n (show i + 1 ≤ j from h)
        rw [Nat.add_mul, Nat.one_mul] at this
        omega
      unfold offY
      rcases lt_or_gt_of_ne hij with h | h
      · exact win_orth hm hi hl hf h0 h2 (key i j h)
      · have := win_orth hm hi hl hf h0 h2 (key j i h)
        simp_rw [mul_comm (win f _ (off + i * n))]
        exact this

theorem ends_bound (off K : ℕ) : MemLp (fun ω => offY f E off ω 0 + offY f E off ω (K - 1)) 2 P ∧
    ∫ ω, (offY f E off ω 0 + offY f E off ω (K - 1)) ^ 2 ∂P ≤ 4 * ∫ ω, win f (fun i => E i ω) 0 ^ 2 ∂P := by
  have hM : ∀ i, MemLp (fun ω => offY f E off ω i) 2 P := fun i => win_memLp hm hi hl hf h2 _
  refine ⟨(hM 0).add (hM _), ?_⟩
  have hint := ((hM 0).integrable_sq.const_mul 2).add ((hM (K - 1)).integrable_sq.const_mul 2)
  refine (integral_mono_of_nonneg (Eventually.of_forall fun ω => sq_nonneg _) hint (Eventually.of_forall fun ω => ?_)).trans ?_
  · simp only [Pi.add_apply]
    nlinarith [sq_nonneg (offY f E off ω 0 - offY f E off ω (K - 1))]
  · simp only [Pi.add_apply]
    rw [integral_add ((hM 0).integrable_sq.const_mul 2) ((hM (K - 1)).integrable_sq.const_mul 2), integral_const_mul, integral_const_mul]
    unfold offY
    rw [win_sq hm hi hl hf h2 (off + 0 * n), win_sq hm hi hl hf h2 (off + (K - 1) * n)]
    linarith

/-- One offset: its autocorrelation, rescaled, is asymptotically the rescaled sum of the products of neighbours. -/
theorem offset_limit (hn : 0 < n) (off : ℕ) {κ : ℕ → ℕ} (hκ : Tendsto κ atTop atTop) {s ρ : ℕ → ℝ} {p : ℝ}
    (hv : 0 < ∫ ω, win f (fun i => E i ω) 0 ^ 2 ∂P) (hp : Tendsto (fun N => 1 / (s N * Real.sqrt (κ N))) atTop (𝓝 p))
    (hρ : Tendsto (fun N => Real.sqrt (κ N) * ρ N) atTop (𝓝 (p / ∫ ω, win f (fun i => E i ω) 0 ^ 2 ∂P))) :
    TendstoInMeasure P (fun N ω => seriesI (offY f E off ω) (κ N) / s N - prodSum (offY f E off ω) (κ N) * ρ N) atTop 0 := by
  set v := ∫ ω, win f (fun i => E i ω) 0 ^ 2 ∂P with hvd
  have hym : ∀ k, Measurable fun ω => offY f E off ω k := fun k => win_meas hm hf _
  have hSm : ∀ K, Measurable fun ω => ∑ j ∈ Finset.range K, offY f E off ω j := fun K => Finset.measurable_sum _ fun j _ => hym j
  have hDm : ∀ K : ℕ, Measurable fun ω => ∑ i ∈ Finset.range K, (offY f E off ω i - (∑ j ∈ Finset.range K, offY f E off ω j) / K) ^ 2 :=
    fun K => Finset.measurable_sum _ fun i _ => ((hym i).sub ((hSm K).div_const _)).pow_const 2
  set D : ℕ → Ω → ℝ := fun K ω => ∑ i ∈ Finset.range K, (offY f E off ω i - (∑ j ∈ Finset.range K, offY f E off ω j) / K) ^ 2 with hD
  set S : ℕ → Ω → ℝ := fun K ω => ∑ j ∈ Finset.range K, offY f E off ω j with hS
  set q : ℕ → Ω → ℝ := fun N ω => (κ N : ℝ) / D (κ N) ω * (1 / (s N * Real.sqrt (κ N))) with hq
  have hqm : ∀ N, Measurable (q N) := fun N => (measurable_const.div (hDm _)).mul_const _
  have hmean : ∀ᵐ ω ∂P, Tendsto (fun N => S (κ N) ω / κ N) atTop (𝓝 0) := by
    filter_upwards [offY_mean hm hi hl hf h0 h2 hn off] with ω h using h.comp hκ
  have hql : ∀ᵐ ω ∂P, Tendsto (fun N => q N ω) atTop (𝓝 (p / v)) := by
    filter_upwards [offY_mean hm hi hl hf h0 h2 hn off, offY_square hm hi hl hf h0 h2 hn off] with ω h1 h3
    have h4 := h3.sub (h1.pow 2)
    rw [zero_pow two_ne_zero, sub_zero] at h4
    have h5 : Tendsto (fun K : ℕ => D K ω / K) atTop (𝓝 v) := by
      refine h4.congr' ?_
      filter_upwards [eventually_gt_atTop 0] with K hK
      exact (den_eq _ hK _ rfl).symm
    have h6 := ((h5.comp hκ).inv₀ hv.ne').mul hp
    rw [inv_mul_eq_div] at h6
    refine h6.congr fun N => ?_
    simp only [Function.comp, hq, inv_div]
  have hroot : Tendsto (fun N => 1 / Real.sqrt (κ N)) atTop (𝓝 0) :=
    (Real.tendsto_sqrt_atTop.comp (tendsto_natCast_atTop_atTop.comp hκ)).const_div_atTop 1
  have hfrac : Tendsto (fun N => ((κ N : ℝ) + 1) / κ N) atTop (𝓝 1) := by
    have h := (tendsto_natCast_atTop_atTop (R := ℝ)).const_div_atTop 1
    have h' := (h.comp hκ).const_add 1
    rw [add_zero] at h'
    refine h'.congr' ?_
    filter_upwards [hκ.eventually_gt_atTop 0] with N hN
    have : (κ N : ℝ) ≠ 0 := by exact_mod_cast hN.ne'
    simp only [Function.comp]
    field_simp
  have hpos : ∀ᶠ N in atTop, 0 < κ N := hκ.eventually_gt_atTop 0
  have n1 : TendstoInMeasure P (fun N ω => prodSum (offY f E off ω) (κ N) / Real.sqrt (κ N) * (q N ω - Real.sqrt (κ N) * ρ N)) atTop 0 := by
    refine mul_small (C := v ^ 2) (hpos.mono fun N hN => prodSum_bound hm hi hl hf h0 h2 off hN) (fun N => ((hqm N).sub_const _).aestronglyMeasurable) ?_
    filter_upwards [hql] with ω h
    have := h.sub hρ
    rwa [sub_self] at this
  have n2 : TendstoInMeasure P (fun N ω => S (κ N) ω / Real.sqrt (κ N) * (-(((κ N : ℝ) + 1) / κ N * (S (κ N) ω / κ N) * q N ω))) atTop 0 := by
    refine mul_small (C := v) (hpos.mono fun N hN => offSum_bound hm hi hl hf h0 h2 off hN)
      (fun N => (((((hSm _).div_const _).const_mul _).mul (hqm N)).neg).aestronglyMeasurable) ?_
    filter_upwards [hql, hmean] with ω h h'
    have := ((hfrac.mul h').mul h).neg
    simpa using this
  have n3 : TendstoInMeasure P (fun N ω => (offY f E off ω 0 + offY f E off ω (κ N - 1)) * (S (κ N) ω / κ N * (1 / Real.sqrt (κ N)) * q N ω)) atTop 0 := by
    refine mul_small (C := 4 * v) (Eventually.of_forall fun N => ends_bound hm hi hl hf h0 h2 off (κ N))
      (fun N => ((((hSm _).div_const _).mul_const _).mul (hqm N)).aestronglyMeasurable) ?_
    filter_upwards [hql, hmean] with ω h h'
    have := (h'.mul hroot).mul h
    simpa using this
  refine (null_add (null_add n1 n2) n3).congr' ?_ (by rfl)
  filter_upwards [hpos] with N hN
  refine Eventually.of_forall fun ω => ?_
  have hK : (0 : ℝ) < κ N := by exact_mod_cast hN
  have hr : 0 < Real.sqrt (κ N) := Real.sqrt_pos.2 hK
  have hr2 : Real.sqrt (κ N) * Real.sqrt (κ N) = κ N := Real.mul_self_sqrt hK.le
  simp only
  unfold seriesI
  rw [num_eq _ hN _ rfl]
  change _ = (prodSum (offY f E off ω) (κ N) - ((κ N : ℝ) + 1) * (S (κ N) ω / κ N) ^ 2 + S (κ N) ω / κ N * (offY f E off ω 0 + offY f E off ω (κ N - 1))) / D (κ N) ω / s N - _
  have hqe : q N ω = Real.sqrt (κ N) * (1 / (D (κ N) ω * s N)) := by
    simp only [hq]
    rw [one_div, one_div, mul_inv, mul_inv, div_eq_mul_inv]
    nth_rewrite 1 [← hr2]
    field_simp
  have hsp := fun X : ℝ => (show X / D (κ N) ω / s N = X * (1 / (D (κ N) ω * s N)) by rw [div_div, mul_one_div])
  rw [hqe, hsp]
  exact split_alg hr hr2 _ _ _ _ _

end
end SeismoStats.Blocks
