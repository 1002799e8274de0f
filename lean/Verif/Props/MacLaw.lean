/-
Property C100: the expected mean autocorrelation of `b_significant_1D` on simulated magnitudes.
-/
import Verif.Proofs.MacValue
import Verif.Proofs.Exchange

namespace SeismoStats.Props
open SeismoStats SeismoStats.Simulate BValue MeasureTheory ProbabilityTheory Filter Topology
open SeismoStats.BSignificant (Kw bSignificant)
open SeismoStats.Permute SeismoStats.Exchange
open scoped BigOperators
open Classical
noncomputable section

variable {Ω : Type} [MeasurableSpace Ω] {P : Measure Ω} {g : Ω → Rng}

instance : NullSingletonClass (expMeasure 1) := by
  unfold expMeasure gammaMeasure
  infer_instance

theorem seriesI_congr {y z : ℕ → ℝ} {K : ℕ} (h : ∀ i < K, y i = z i) : seriesI y K = seriesI z K := by
  have hs : ∑ j ∈ Finset.range K, y j = ∑ j ∈ Finset.range K, z j := Finset.sum_congr rfl fun j hj => h j (Finset.mem_range.1 hj)
  unfold seriesI
  rw [hs]
  congr 1
  · refine Finset.sum_congr rfl fun i hi => ?_
    rw [Finset.mem_range] at hi
    rw [h i (by omega), h (i + 1) (by omega)]
  · refine Finset.sum_congr rfl fun i hi => ?_
    rw [h i (Finset.mem_range.1 hi)]

theorem padZero_measurable {K : ℕ} (i : ℕ) : Measurable fun y : Fin K → ℝ => padZero y i := by
  unfold padZero
  by_cases h : i < K
  · simp only [h, dif_pos]; exact measurable_pi_apply _
  · simp only [h, dif_neg, not_false_iff]; exact measurable_const

theorem seriesI_measurable (K : ℕ) : Measurable fun y : Fin K → ℝ => seriesI (padZero y) K := by
  unfold seriesI
  have hs : Measurable fun y : Fin K → ℝ => (∑ j ∈ Finset.range K, padZero y j) / (K : ℝ) := (Finset.measurable_sum _ fun i _ => padZero_measurable i).div_const _
  exact (Finset.measurable_sum _ fun i _ => ((padZero_measurable i).sub hs).mul ((padZero_measurable (i + 1)).sub hs)).div
    (Finset.measurable_sum _ fun i _ => ((padZero_measurable i).sub hs).pow_const 2)

/-- The simulated magnitude number `i`. -/
def simMag (g : Ω → Rng) (b mc : ℝ) (ω : Ω) (i : ℕ) : ℝ := mc + (g ω).expo i / (b * Real.log 10)

/-- The series of window estimates of one offset. -/
def offsetSeries (g : Ω → Rng) (b mc : ℝ) (n off K : ℕ) (ω : Ω) (k : Fin K) : ℝ := windowB (simMag g b mc ω) mc n off k

omit [MeasurableSpace Ω] in
theorem windowB_eq {b mc : ℝ} (hb : 0 < b) (ω : Ω) {n : ℕ} (hn : 0 < n) (off k : ℕ) :
    windowB (simMag g b mc ω) mc n off k = b * n / ∑ r ∈ Finset.range n, (g ω).expo (off + k * n + r) := by
  have hl := log_ten_pos
  have hn' : (n : ℝ) ≠ 0 := by exact_mod_cast hn.ne'
  unfold windowB simMag
  rw [Finset.sum_add_distrib, Finset.sum_const, Finset.card_range, nsmul_eq_mul, ← Finset.sum_div]
  generalize ∑ r ∈ Finset.range n, (g ω).expo (off + k * n + r) = S
  have : (n * mc + S / (b * Real.log 10)) / n - mc = S / (b * Real.log 10 * n) := by field_simp; ring
  rw [this, one_div, inv_div]
  field_simp

theorem offset_measurable (hg : Spec.RandomDraws P g) (b mc : ℝ) (n off K : ℕ) : Measurable (offsetSeries g b mc n off K) := by
  rw [measurable_pi_iff]
  intro k
  unfold offsetSeries windowB simMag
  have : Measurable fun ω => ∑ r ∈ Finset.range n, (mc + (g ω).expo (off + k * n + r) / (b * Real.log 10)) :=
    Finset.measurable_sum _ fun r _ => measurable_const.add ((hg.expo_measurable _).div_const _)
  exact (measurable_const.div ((this.div_const _).sub_const _)).div_const _

/-- The windows of an offset are exchangeable. -/
theorem offset_exchangeable [IsProbabilityMeasure P] (hg : Spec.RandomDraws P g) (b mc : ℝ) {n : ℕ} (off K : ℕ) (σ : Equiv.Perm (Fin K)) :
    P.map (fun ω => offsetSeries g b mc n off K ω ∘ σ) = P.map (offsetSeries g b mc n off K) := by
  set H : (Fin K × Fin n → ℝ) → Fin K → ℝ := fun z k => 1 / ((∑ r : Fin n, (mc + z (k, r) / (b * Real.log 10))) / n - mc) / Real.log 10 with hH
  have hHm : Measurable H := by
    rw [measurable_pi_iff]
    intro k
    have : Measurable fun z : Fin K × Fin n → ℝ => ∑ r : Fin n, (mc + z (k, r) / (b * Real.log 10)) :=
      Finset.measurable_sum _ fun r _ => measurable_const.add ((measurable_pi_apply _).div_const _)
    exact (measurable_const.div ((this.div_const _).sub_const _)).div_const _
  have rep : ∀ τ : Equiv.Perm (Fin K), (fun ω => offsetSeries g b mc n off K ω ∘ τ) = H ∘ fun ω p => (g ω).expo (off + (τ p.1 : Fin K) * n + (p.2 : Fin n)) := by
    intro τ
    funext ω k
    simp only [Function.comp, hH, offsetSeries, windowB, simMag]
    rw [Finset.sum_range]
  have inj : ∀ τ : Equiv.Perm (Fin K), Function.Injective fun p : Fin K × Fin n => off + (τ p.1 : Fin K) * n + (p.2 : Fin n) := by
    rintro τ ⟨k, r⟩ ⟨k', r'⟩ h
    simp only at h
    have hr := r.2
    have hr' := r'.2
    have h' : (τ k : ℕ) * n + r = (τ k' : ℕ) * n + r' := by omega
    have hn : 0 < n := by omega
    have h1 : ((τ k : ℕ) * n + r) / n = τ k := by rw [Nat.add_comm, Nat.add_mul_div_right _ _ hn, Nat.div_eq_of_lt hr, Nat.zero_add]
    have h2 : ((τ k' : ℕ) * n + r') / n = τ k' := by rw [Nat.add_comm, Nat.add_mul_div_right _ _ hn, Nat.div_eq_of_lt hr', Nat.zero_add]
    have e1 : (τ k : ℕ) = τ k' := by rw [← h1, ← h2, h']
    have e2 : k = k' := τ.injective (Fin.ext e1)
    subst e2
    have e3 : r = r' := Fin.ext (by omega)
    rw [e3]
  have hmv : ∀ τ : Equiv.Perm (Fin K), Measurable fun ω (p : Fin K × Fin n) => (g ω).expo (off + (τ p.1 : Fin K) * n + (p.2 : Fin n)) :=
    fun τ => measurable_pi_iff.2 fun p => hg.expo_measurable _
  have law : ∀ τ : Equiv.Perm (Fin K), P.map (fun ω => offsetSeries g b mc n off K ω ∘ τ) = (Measure.pi fun _ : Fin K × Fin n => expMeasure 1).map H := by
    intro τ
    rw [rep τ, ← Measure.map_map hHm (hmv τ)]
    congr 1
    exact law_pick (fun i => hg.expo_measurable i) hg.expo_indep hg.expo_law (inj τ)
  rw [law σ, ← law 1]
  rfl

/-- The windows of an offset are almost surely not all equal. -/
theorem offset_ne [IsProbabilityMeasure P] (hg : Spec.RandomDraws P g) {b : ℝ} (hb : 0 < b) (mc : ℝ) {n : ℕ} (hn : 0 < n) (off : ℕ) :
    ∀ᵐ ω ∂P, windowB (simMag g b mc ω) mc n off 0 ≠ windowB (simMag g b mc ω) mc n off 1 := by
  have hP : IsProbabilityMeasure (expMeasure 1) := isProbabilityMeasure_expMeasure one_pos
  filter_upwards [windows_ne (fun i => hg.expo_measurable i) hg.expo_indep hg.expo_law off hn, all_pos hg] with ω h hpos heq
  apply h
  rw [windowB_eq hb ω hn, windowB_eq hb ω hn] at heq
  simp only [zero_mul, add_zero, one_mul] at heq
  have hb' : b * n ≠ 0 := mul_ne_zero hb.ne' (by exact_mod_cast hn.ne')
  have p1 : 0 < ∑ r ∈ Finset.range n, (g ω).expo (off + r) := Finset.sum_pos (fun r _ => hpos _) ⟨0, by simpa using hn⟩
  have p2 : 0 < ∑ r ∈ Finset.range n, (g ω).expo (off + n + r) := Finset.sum_pos (fun r _ => hpos _) ⟨0, by simpa using hn⟩
  rw [div_eq_div_iff p1.ne' p2.ne'] at heq
  exact (mul_left_cancel₀ hb' heq).symm

theorem avg_bound {K : ℕ} {f : Equiv.Perm (Fin K) → ℝ} (h0 : ∀ σ, 0 ≤ f σ) {B : ℝ} (h : avgPerm f ≤ B) (σ : Equiv.Perm (Fin K)) : f σ ≤ B * (Fintype.card (Equiv.Perm (Fin K)) : ℝ) := by
  have hc : (0 : ℝ) < (Fintype.card (Equiv.Perm (Fin K)) : ℝ) := by exact_mod_cast Fintype.card_pos
  unfold avgPerm at h
  rw [div_le_iff₀ hc] at h
  exact (Finset.single_le_sum (fun σ _ => h0 σ) (Finset.mem_univ σ)).trans h

/-- One offset: the autocorrelation has expectation `-1/K` and its variance is at most `(K-2)/(K(K-1))`. -/
theorem offset_moments [IsProbabilityMeasure P] (hg : Spec.RandomDraws P g) {b : ℝ} (hb : 0 < b) (mc : ℝ) {n K : ℕ} (hn : 0 < n) (off : ℕ) (hK : 3 ≤ K) :
    Measurable (fun ω => seriesI (windowB (simMag g b mc ω) mc n off) K) ∧
    (∃ C, ∀ᵐ ω ∂P, |seriesI (windowB (simMag g b mc ω) mc n off) K| ≤ C) ∧
    ∫ ω, seriesI (windowB (simMag g b mc ω) mc n off) K ∂P = -1 / K ∧
    ∫ ω, (seriesI (windowB (simMag g b mc ω) mc n off) K - -1 / K) ^ 2 ∂P ≤ ((K : ℝ) - 2) / (K * (K - 1)) := by
  set Y := offsetSeries g b mc n off K with hYd
  have hY : Measurable Y := offset_measurable hg b mc n off K
  have heq : ∀ ω, seriesI (windowB (simMag g b mc ω) mc n off) K = seriesI (padZero (Y ω)) K := by
    intro ω
    refine seriesI_congr fun i hi => ?_
    unfold padZero
    rw [dif_pos hi]
    rfl
  simp only [heq]
  have hK3 : (3 : ℝ) ≤ K := by exact_mod_cast hK
  have hB : 0 ≤ ((K : ℝ) - 2) / (K * (K - 1)) := div_nonneg (by linarith) (mul_nonneg (by linarith) (by linarith))
  have hperm : ∀ᵐ ω ∂P, avgPerm (fun σ : Equiv.Perm (Fin K) => seriesI (padZero (Y ω ∘ σ)) K) = -1 / K ∧
      avgPerm (fun σ : Equiv.Perm (Fin K) => (seriesI (padZero (Y ω ∘ σ)) K - -1 / K) ^ 2) ≤ ((K : ℝ) - 2) / (K * (K - 1)) := by
    filter_upwards [offset_ne hg hb mc hn off] with ω h
    exact series_permutations (Y ω) hK ⟨⟨0, by omega⟩, ⟨1, by omega⟩, h⟩
  set D : ℝ := ((K : ℝ) - 2) / (K * (K - 1)) * (Fintype.card (Equiv.Perm (Fin K)) : ℝ) with hD
  have hD0 : 0 ≤ D := mul_nonneg hB (Nat.cast_nonneg _)
  have b2 : ∀ᵐ ω ∂P, ∀ σ : Equiv.Perm (Fin K), (seriesI (padZero (Y ω ∘ σ)) K - -1 / K) ^ 2 ≤ D := by
    filter_upwards [hperm] with ω h σ
    exact avg_bound (f := fun σ : Equiv.Perm (Fin K) => (seriesI (padZero (Y ω ∘ σ)) K - -1 / K) ^ 2) (fun σ => sq_nonneg _) h.2 σ
  have b1 : ∀ᵐ ω ∂P, ∀ σ : Equiv.Perm (Fin K), |seriesI (padZero (Y ω ∘ σ)) K| ≤ Real.sqrt D + 1 := by
    filter_upwards [b2] with ω h σ
    have h1 := Real.abs_le_sqrt (h σ)
    have h2 : |(-1 : ℝ) / K| ≤ 1 := by
      rw [abs_div, abs_neg, abs_one, abs_of_pos (by linarith : (0 : ℝ) < K), div_le_one (by linarith)]; linarith
    have h3 := abs_add_le (seriesI (padZero (Y ω ∘ σ)) K - -1 / K) (-1 / K)
    rw [sub_add_cancel] at h3
    linarith
  have hinv := offset_exchangeable hg b mc (n := n) off K
  have hf := seriesI_measurable K
  refine ⟨hf.comp hY, ⟨Real.sqrt D + 1, ?_⟩, ?_, ?_⟩
  · filter_upwards [b1] with ω h
    exact h 1
  · have h := integral_avg hY hinv hf (Real.sqrt D + 1) b1
    rw [h]
    have : ∫ ω, avgPerm (fun σ : Equiv.Perm (Fin K) => seriesI (padZero (Y ω ∘ σ)) K) ∂P = ∫ ω, (-1 / K : ℝ) ∂P := by
      apply integral_congr_ae
      filter_upwards [hperm] with ω h
      exact h.1
    rw [this]
    simp
  · have h := integral_avg hY hinv ((hf.sub_const (-1 / K)).pow_const 2) D (by
      filter_upwards [b2] with ω h σ
      rw [abs_of_nonneg (sq_nonneg _)]
      exact h σ)
    rw [h]
    have hi : Integrable (fun _ : Ω => ((K : ℝ) - 2) / (K * (K - 1))) P := integrable_const _
    have : ∫ ω, avgPerm (fun σ : Equiv.Perm (Fin K) => (seriesI (padZero (Y ω ∘ σ)) K - -1 / K) ^ 2) ∂P ≤ ∫ ω, ((K : ℝ) - 2) / (K * (K - 1)) ∂P := by
      refine integral_mono_of_nonneg (Eventually.of_forall fun ω => ?_) hi ?_
      · unfold avgPerm
        exact div_nonneg (Finset.sum_nonneg fun σ _ => sq_nonneg _) (Nat.cast_nonneg _)
      · filter_upwards [hperm] with ω h
        exact h.2
    refine this.trans ?_
    simp

/-! ### the mean over the offsets -/

/-- The numbers of windows: `N / n` for the first `N % n + 1` offsets, one less for the others. -/
theorem sum_offsets (f : ℕ → ℝ) {N n : ℕ} (hn : 0 < n) (hN : n ≤ N) :
    ∑ off ∈ Finset.range n, f ((N - off) / n) = ((N % n + 1 : ℕ) : ℝ) * f (N / n) + ((n - 1 - N % n : ℕ) : ℝ) * f (N / n - 1) := by
  have hr : N % n < n := Nat.mod_lt _ hn
  have hk : 1 ≤ N / n := (Nat.one_le_div_iff hn).2 hN
  have hdm := Nat.div_add_mod' N n
  have hval : ∀ off ∈ Finset.range n, f ((N - off) / n) = if off < N % n + 1 then f (N / n) else f (N / n - 1) := by
    intro off ho
    rw [Finset.mem_range] at ho
    obtain ⟨k, hk'⟩ : ∃ k, N / n = k + 1 := ⟨N / n - 1, by omega⟩
    rw [hk'] at hdm ⊢
    rw [Nat.add_mul] at hdm
    split_ifs with h
    · congr 1
      apply Nat.div_eq_of_lt_le
      · rw [Nat.add_mul]; omega
      · rw [Nat.succ_mul, Nat.add_mul]; omega
    · congr 1
      apply Nat.div_eq_of_lt_le
      · simp only [Nat.add_sub_cancel]; omega
      · simp only [Nat.add_sub_cancel]; rw [Nat.succ_mul]; omega
  rw [Finset.sum_congr rfl hval, Finset.sum_ite, Finset.sum_const, Finset.sum_const, nsmul_eq_mul, nsmul_eq_mul]
  have c1 : ((Finset.range n).filter fun off => off < N % n + 1) = Finset.range (N % n + 1) := by
    ext x; simp only [Finset.mem_filter, Finset.mem_range]; omega
  have c2 : ((Finset.range n).filter fun off => ¬ off < N % n + 1).card = n - 1 - N % n := by
    have : ((Finset.range n).filter fun off => ¬ off < N % n + 1) = Finset.Ico (N % n + 1) n := by
      ext x; simp only [Finset.mem_filter, Finset.mem_range, Finset.mem_Ico]; omega
    rw [this, Nat.card_Ico]; omega
  rw [c1, c2, Finset.card_range]

/-- The expectation of the mean autocorrelation: minus the mean over the offsets of one over the number of windows. -/
def expectedMac (N n : ℕ) : ℝ := -(∑ off ∈ Finset.range n, 1 / (((N - off) / n : ℕ) : ℝ)) / n

theorem mean_gap {k w : ℝ} (hk : 2 ≤ k) (h0 : 0 < w) : -1 / (k - 1 + w) - -(w * (1 / k) + (1 - w) * (1 / (k - 1))) = w * (1 - w) / (k * (k - 1) * (k - 1 + w)) := by
  have h1 : k ≠ 0 := by linarith
  have h2 : k - 1 ≠ 0 := by intro h; linarith
  have h3 : k - 1 + w ≠ 0 := by intro h; linarith
  field_simp
  ring

theorem expected_eq {N n : ℕ} (hn : 0 < n) (hN : 2 * n ≤ N) :
    ∃ w : ℝ, w = ((N % n + 1 : ℕ) : ℝ) / n ∧ 0 < w ∧ w ≤ 1 ∧ expectedMac N n = -(w * (1 / ((N / n : ℕ) : ℝ)) + (1 - w) * (1 / (((N / n : ℕ) : ℝ) - 1))) ∧
      ((N + 1 - n : ℕ) : ℝ) / n = ((N / n : ℕ) : ℝ) - 1 + w := by
  have hr : N % n < n := Nat.mod_lt _ hn
  have hn0 : (0 : ℝ) < n := by exact_mod_cast hn
  have hk : 2 ≤ N / n := by rw [Nat.le_div_iff_mul_le hn]; exact hN
  refine ⟨_, rfl, by positivity, ?_, ?_, ?_⟩
  · rw [div_le_one hn0]; exact_mod_cast (by omega : N % n + 1 ≤ n)
  · unfold expectedMac
    rw [sum_offsets (fun m => 1 / (m : ℝ)) hn (by omega), Nat.cast_sub (by omega : N % n ≤ n - 1), Nat.cast_sub (by omega : 1 ≤ n), Nat.cast_sub (by omega : 1 ≤ N / n)]
    push_cast
    generalize 1 / ((N / n : ℕ) : ℝ) = u
    generalize 1 / (((N / n : ℕ) : ℝ) - 1) = v
    field_simp
    ring
  · have hdm := Nat.div_add_mod' N n
    have hdm' : (N : ℝ) = ((N / n : ℕ) : ℝ) * n + ((N % n : ℕ) : ℝ) := by exact_mod_cast hdm.symm
    rw [Nat.cast_sub (by omega : n ≤ N + 1)]
    push_cast
    rw [hdm']
    field_simp
    ring

/-- C100: on magnitudes simulated with one b-value (not binned, any reference times), `b_significant_1D` with the classic or the Utsu estimator almost surely returns numbers;
the returned mean autocorrelation has expectation `expectedMac` and a standard deviation of at most one over the square root of the mean number of neighbour pairs. The
returned `mu_mac` is never below that expectation, differs from it by less than `1 / (4 k (k - 1)²)` with `k = N / n_m`, and is equal to it exactly if `n_m` divides `N + 1`. -/
theorem C100_expected [IsProbabilityMeasure P] (hg : Spec.RandomDraws P g) {c : Cls} (hc : c = .classic ∨ c = .utsu) (Φ : ℝ → ℝ) (warn conservative : Bool) {kw : Kw} (hkw : Accepts (.b c) kw) (hkww : kw.weights = none)
    {b : ℝ} (hb : 0 < b) (mc : ℝ) (times : List ℝ) {N nm minNum : ℕ} (ht : times.length = N) (hn : 2 ≤ nm) (hmin : minNum ≤ nm) (hN : 4 * nm ≤ N) :
    ∃ (mac : Ω → ℝ) (mu std : ℝ), MemLp mac 2 P ∧
      (∀ᵐ ω ∂P, ∃ mags p, simulateBinned N (fun _ => b) mc 0 none .bValue (g ω) = .ok mags ∧
        bSignificant Φ warn (sigArgs c mags times mc nm minNum conservative kw) = .ok ⟨p, .fin (mac ω), .fin mu, .fin std⟩) ∧
      ∫ ω, mac ω ∂P = expectedMac N nm ∧
      ∫ ω, (mac ω - expectedMac N nm) ^ 2 ∂P ≤ 1 / (((N + 1 - nm : ℕ) : ℝ) / nm - 1) ∧
      expectedMac N nm ≤ mu ∧
      mu - expectedMac N nm ≤ 1 / (4 * ((N / nm : ℕ) : ℝ) * (((N / nm : ℕ) : ℝ) - 1) ^ 2) ∧
      (mu = expectedMac N nm ↔ nm ∣ N + 1) := by
  have hn0 : 0 < nm := by omega
  have hnR : (0 : ℝ) < nm := by exact_mod_cast hn0
  have hK3 : ∀ off ∈ Finset.range nm, 3 ≤ (N - off) / nm := by
    intro off ho
    rw [Finset.mem_range] at ho
    rw [Nat.le_div_iff_mul_le hn0]; omega
  have hm := fun off (ho : off ∈ Finset.range nm) => offset_moments hg hb mc hn0 off (hK3 off ho)
  have hint : ∀ off ∈ Finset.range nm, Integrable (fun ω => seriesI (windowB (simMag g b mc ω) mc nm off) ((N - off) / nm)) P := by
    intro off ho
    obtain ⟨h1, ⟨C, h2⟩, -⟩ := hm off ho
    exact Integrable.of_bound h1.aestronglyMeasurable C h2
  have hL2 : ∀ off ∈ Finset.range nm, MemLp (fun ω => seriesI (windowB (simMag g b mc ω) mc nm off) ((N - off) / nm)) 2 P := by
    intro off ho
    obtain ⟨h1, ⟨C, h2⟩, -⟩ := hm off ho
    exact MemLp.of_bound h1.aestronglyMeasurable C h2
  have hint2 : ∀ off ∈ Finset.range nm, Integrable (fun ω => (seriesI (windowB (simMag g b mc ω) mc nm off) ((N - off) / nm) - -1 / (((N - off) / nm : ℕ) : ℝ)) ^ 2) P := by
    intro off ho
    obtain ⟨h1, ⟨C, h2⟩, -⟩ := hm off ho
    refine Integrable.of_bound ((h1.sub_const _).pow_const 2).aestronglyMeasurable ((C + |-1 / (((N - off) / nm : ℕ) : ℝ)|) ^ 2) ?_
    filter_upwards [h2] with ω h
    rw [Real.norm_eq_abs, abs_pow]
    refine pow_le_pow_left₀ (abs_nonneg _) ((abs_sub _ _).trans ?_) 2
    linarith
  set mac : Ω → ℝ := fun ω => (∑ off ∈ Finset.range nm, seriesI (windowB (simMag g b mc ω) mc nm off) ((N - off) / nm)) / nm with hmac
  obtain ⟨w, hw, hw0, hw1, hE, hmean⟩ := expected_eq hn0 (show 2 * nm ≤ N by omega)
  have hk4 : (4 : ℝ) ≤ ((N / nm : ℕ) : ℝ) := by exact_mod_cast (Nat.le_div_iff_mul_le hn0).2 hN
  refine ⟨mac, -1 / (((N + 1 - nm : ℕ) : ℝ) / nm), ((((N + 1 - nm : ℕ) / nm : ℝ) - 1 - 2) / ((((N + 1 - nm : ℕ) / nm : ℝ) - 1) * Real.sqrt (((N + 1 - nm : ℕ) / nm : ℝ) - 1)) * if conservative then 1 else 81 / 100), ?_, ?_, ?_, ?_, ?_, ?_, ?_⟩
  · have h := (memLp_finsetSum (Finset.range nm) hL2).const_mul ((nm : ℝ)⁻¹)
    refine h.ae_eq (Eventually.of_forall fun ω => ?_)
    simp only [hmac]
    rw [div_eq_inv_mul]
  · have hne : ∀ᵐ ω ∂P, ∀ off, windowB (simMag g b mc ω) mc nm off 0 ≠ windowB (simMag g b mc ω) mc nm off 1 := ae_all_iff.2 fun off => offset_ne hg hb mc hn0 off
    filter_upwards [hne, all_pos hg] with ω h hpos
    have hβ : 0 < b * Real.log 10 := mul_pos hb log_ten_pos
    obtain ⟨p, hp⟩ := significant_value hc Φ warn conservative ((fits_iff _ _).2 hkw) hkww (simMag g b mc ω) times mc (minNum := minNum)
      (fun i => by have := div_pos (hpos i) hβ; unfold simMag; linarith) hn hmin hN ht
      (fun off ho => ⟨0, by have := hK3 off (Finset.mem_range.2 ho); omega, 1, by have := hK3 off (Finset.mem_range.2 ho); omega, h off⟩)
    exact ⟨_, p, simulate_continuous (g ω) N hb, hp⟩
  · rw [hmac, integral_div, integral_finsetSum _ hint, Finset.sum_congr rfl fun off ho => (hm off ho).2.2.1]
    unfold expectedMac
    rw [← Finset.sum_neg_distrib]
    congr 1
    refine Finset.sum_congr rfl fun off _ => ?_
    rw [neg_div]
  · have hpt : ∀ ω, (mac ω - expectedMac N nm) ^ 2 ≤
        (∑ off ∈ Finset.range nm, (seriesI (windowB (simMag g b mc ω) mc nm off) ((N - off) / nm) - -1 / (((N - off) / nm : ℕ) : ℝ)) ^ 2) / nm := by
      intro ω
      have e : mac ω - expectedMac N nm = (∑ off ∈ Finset.range nm, (seriesI (windowB (simMag g b mc ω) mc nm off) ((N - off) / nm) - -1 / (((N - off) / nm : ℕ) : ℝ))) / nm := by
        rw [hmac]
        unfold expectedMac
        rw [Finset.sum_sub_distrib, sub_div, ← Finset.sum_neg_distrib]
        congr 2
        refine Finset.sum_congr rfl fun off _ => ?_
        rw [neg_div]
      rw [e, div_pow, div_le_div_iff₀ (by positivity) hnR]
      have := sq_sum_le_card_mul_sum_sq (s := Finset.range nm) (f := fun off => seriesI (windowB (simMag g b mc ω) mc nm off) ((N - off) / nm) - -1 / (((N - off) / nm : ℕ) : ℝ))
      rw [Finset.card_range] at this
      nlinarith
    have h1 : ∫ ω, (mac ω - expectedMac N nm) ^ 2 ∂P ≤
        ∫ ω, (∑ off ∈ Finset.range nm, (seriesI (windowB (simMag g b mc ω) mc nm off) ((N - off) / nm) - -1 / (((N - off) / nm : ℕ) : ℝ)) ^ 2) / (nm : ℝ) ∂P :=
      integral_mono_of_nonneg (Eventually.of_forall fun ω => sq_nonneg _) ((integrable_finsetSum _ hint2).div_const _) (Eventually.of_forall hpt)
    refine h1.trans ?_
    rw [integral_div, integral_finsetSum _ hint2, div_le_iff₀ hnR, hmean]
    have hb' : ∀ off ∈ Finset.range nm, ∫ ω, (seriesI (windowB (simMag g b mc ω) mc nm off) ((N - off) / nm) - -1 / (((N - off) / nm : ℕ) : ℝ)) ^ 2 ∂P ≤ 1 / (((N / nm : ℕ) : ℝ) - 1 + w - 1) := by
      intro off ho
      refine (hm off ho).2.2.2.trans ?_
      have hle : (N - off) / nm ≤ N / nm := Nat.div_le_div_right (by omega)
      have hge : N / nm ≤ (N - off) / nm + 1 := by
        rw [Finset.mem_range] at ho
        have h2 : N / nm ≤ (N - off + nm) / nm := Nat.div_le_div_right (by omega)
        rwa [Nat.add_div_right _ hn0] at h2
      have h3 : (3 : ℝ) ≤ (((N - off) / nm : ℕ) : ℝ) := by exact_mod_cast hK3 off ho
      have hle' : ((N / nm : ℕ) : ℝ) ≤ (((N - off) / nm : ℕ) : ℝ) + 1 := by exact_mod_cast hge
      have hq : (0 : ℝ) < (((N - off) / nm : ℕ) : ℝ) * ((((N - off) / nm : ℕ) : ℝ) - 1) := mul_pos (by linarith) (by linarith)
      rw [div_le_div_iff₀ hq (by linarith)]
      nlinarith
    calc _ ≤ ∑ off ∈ Finset.range nm, 1 / (((N / nm : ℕ) : ℝ) - 1 + w - 1) := Finset.sum_le_sum hb'
      _ = _ := by rw [Finset.sum_const, Finset.card_range, nsmul_eq_mul]; ring
  · rw [hmean]
    have := mean_gap (k := ((N / nm : ℕ) : ℝ)) (by linarith) hw0
    rw [← hE] at this
    have h2 : 0 ≤ w * (1 - w) / (((N / nm : ℕ) : ℝ) * (((N / nm : ℕ) : ℝ) - 1) * (((N / nm : ℕ) : ℝ) - 1 + w)) :=
      div_nonneg (mul_nonneg hw0.le (by linarith)) (mul_nonneg (mul_nonneg (by linarith) (by linarith)) (by linarith))
    linarith
  · rw [hmean]
    have := mean_gap (k := ((N / nm : ℕ) : ℝ)) (by linarith) hw0
    rw [← hE] at this
    rw [this]
    generalize ((N / nm : ℕ) : ℝ) = k at *
    have p1 : 0 < k * (k - 1) * (k - 1 + w) := mul_pos (mul_pos (by linarith) (by linarith)) (by linarith)
    have p2 : 0 < k * (k - 1) * (k - 1) := mul_pos (mul_pos (by linarith) (by linarith)) (by linarith)
    have p3 : 0 < 4 * k * (k - 1) ^ 2 := by nlinarith
    rw [div_le_div_iff₀ p1 p3]
    have q : w * (1 - w) ≤ 1 / 4 := by nlinarith [sq_nonneg (w - 1 / 2)]
    have q0 : 0 ≤ w * (1 - w) := mul_nonneg hw0.le (by linarith)
    have hkk : 0 ≤ k * (k - 1) := mul_nonneg (by linarith) (by linarith)
    have e1 : w * (1 - w) * (4 * k * (k - 1) ^ 2) ≤ 1 / 4 * (4 * k * (k - 1) ^ 2) := mul_le_mul_of_nonneg_right q p3.le
    have e2 : 0 ≤ k * (k - 1) * w := mul_nonneg hkk hw0.le
    nlinarith
  · rw [hmean]
    have := mean_gap (k := ((N / nm : ℕ) : ℝ)) (by linarith) hw0
    rw [← hE] at this
    have p1 : 0 < ((N / nm : ℕ) : ℝ) * (((N / nm : ℕ) : ℝ) - 1) * (((N / nm : ℕ) : ℝ) - 1 + w) := mul_pos (mul_pos (by linarith) (by linarith)) (by linarith)
    have hr : N % nm < nm := Nat.mod_lt _ hn0
    have hdvd : nm ∣ N + 1 ↔ w = 1 := by
      rw [hw, div_eq_one_iff_eq hnR.ne']
      constructor
      · intro h
        have h2 : (N % nm + 1) % nm = 0 := by rw [Nat.mod_add_mod]; exact Nat.mod_eq_zero_of_dvd h
        have : N % nm + 1 = nm := by
          by_contra hcon
          rw [Nat.mod_eq_of_lt (by omega)] at h2
          omega
        exact_mod_cast this
      · intro h
        have h' : N % nm + 1 = nm := by exact_mod_cast h
        apply Nat.dvd_of_mod_eq_zero
        rw [← Nat.mod_add_mod, h', Nat.mod_self]
    rw [hdvd]
    constructor
    · intro h
      rw [h, sub_self] at this
      have h0 := (div_eq_zero_iff.1 this.symm).resolve_right p1.ne'
      rcases mul_eq_zero.1 h0 with h0 | h0 <;> linarith
    · intro h
      have hz : w * (1 - w) / (((N / nm : ℕ) : ℝ) * (((N / nm : ℕ) : ℝ) - 1) * (((N / nm : ℕ) : ℝ) - 1 + w)) = 0 := by rw [h]; simp
      linarith

/-- C100: with the number of magnitudes per window fixed, the returned mean autocorrelation tends to zero in probability as the simulated catalogue grows. -/
theorem C100_vanishes [IsProbabilityMeasure P] (hg : Spec.RandomDraws P g) {c : Cls} (hc : c = .classic ∨ c = .utsu) (Φ : ℝ → ℝ) (warn conservative : Bool) {kw : Kw} (hkw : Accepts (.b c) kw) (hkww : kw.weights = none)
    {b : ℝ} (hb : 0 < b) (mc : ℝ) (times : ℕ → List ℝ) {nm minNum : ℕ} (ht : ∀ N, (times N).length = N) (hn : 2 ≤ nm) (hmin : minNum ≤ nm) {ε : ℝ} (hε : 0 < ε) :
    Tendsto (fun N => P {ω | ¬ ∃ mags p x mu std, simulateBinned N (fun _ => b) mc 0 none .bValue (g ω) = .ok mags ∧
      bSignificant Φ warn (sigArgs c mags (times N) mc nm minNum conservative kw) = .ok ⟨p, .fin x, .fin mu, .fin std⟩ ∧ |x| < ε}) atTop (𝓝 0) := by
  have hn0 : 0 < nm := by omega
  have hnR : (0 : ℝ) < nm := by exact_mod_cast hn0
  -- the number of windows grows
  have hk : Tendsto (fun N : ℕ => ((N / nm : ℕ) : ℝ)) atTop atTop :=
    tendsto_natCast_atTop_atTop.comp (Nat.tendsto_div_const_atTop hn0.ne')
  have hbound : Tendsto (fun N : ℕ => ENNReal.ofReal (1 / (((N / nm : ℕ) : ℝ) - 2) / (ε / 2) ^ 2)) atTop (𝓝 0) := by
    have h1 : Tendsto (fun N : ℕ => 1 / (((N / nm : ℕ) : ℝ) - 2) / (ε / 2) ^ 2) atTop (𝓝 (0 / (ε / 2) ^ 2)) := by
      refine Tendsto.div_const ?_ _
      simp only [one_div]
      exact tendsto_inv_atTop_zero.comp (tendsto_atTop_add_const_right _ (-2) hk)
    rw [zero_div] at h1
    have := ENNReal.tendsto_ofReal h1
    rwa [ENNReal.ofReal_zero] at this
  refine tendsto_of_tendsto_of_tendsto_of_le_of_le' tendsto_const_nhds hbound (Eventually.of_forall fun _ => zero_le) ?_
  filter_upwards [eventually_ge_atTop (4 * nm), hk.eventually_ge_atTop (1 + 2 / ε)] with N hN hNε
  obtain ⟨mac, mu, std, hi, hae, hE, hV, -⟩ := C100_expected hg hc Φ warn conservative hkw hkww hb mc (times N) (ht N) hn hmin hN
  obtain ⟨w, -, hw0, hw1, hEw, hmean⟩ := expected_eq hn0 (show 2 * nm ≤ N by omega)
  have hk4 : (4 : ℝ) ≤ ((N / nm : ℕ) : ℝ) := by exact_mod_cast (Nat.le_div_iff_mul_le hn0).2 hN
  have hEabs : |expectedMac N nm| ≤ ε / 2 := by
    rw [hEw, abs_neg]
    have a1 : 1 / ((N / nm : ℕ) : ℝ) ≤ 1 / (((N / nm : ℕ) : ℝ) - 1) := one_div_le_one_div_of_le (by linarith) (by linarith)
    have a2 : 1 / (((N / nm : ℕ) : ℝ) - 1) ≤ ε / 2 := by
      rw [div_le_iff₀ (by linarith)]
      have : ε / 2 * (2 / ε) = 1 := by field_simp
      nlinarith
    have a0 : 0 < 1 / ((N / nm : ℕ) : ℝ) := by apply one_div_pos.2; linarith
    rw [abs_of_nonneg (add_nonneg (mul_nonneg hw0.le a0.le) (mul_nonneg (by linarith) (by linarith)))]
    nlinarith
  have hsub : P {ω | ¬ ∃ mags p x mu std, simulateBinned N (fun _ => b) mc 0 none .bValue (g ω) = .ok mags ∧
      bSignificant Φ warn (sigArgs c mags (times N) mc nm minNum conservative kw) = .ok ⟨p, .fin x, .fin mu, .fin std⟩ ∧ |x| < ε} ≤
      P {ω | (ε / 2) ^ 2 ≤ (mac ω - expectedMac N nm) ^ 2} := by
    apply measure_mono_ae
    filter_upwards [hae] with ω h hbad
    obtain ⟨mags, p, h1, h2⟩ := h
    change (ε / 2) ^ 2 ≤ (mac ω - expectedMac N nm) ^ 2
    by_contra hlt
    apply hbad
    refine ⟨mags, p, mac ω, mu, std, h1, h2, ?_⟩
    have h3 : |mac ω - expectedMac N nm| < ε / 2 := abs_lt_of_sq_lt_sq (not_le.1 hlt) (by linarith)
    have h4 := abs_add_le (mac ω - expectedMac N nm) (expectedMac N nm)
    rw [sub_add_cancel] at h4
    linarith
  refine hsub.trans ?_
  have hint : Integrable (fun ω => (mac ω - expectedMac N nm) ^ 2) P := (hi.sub (memLp_const _)).integrable_sq
  · have hM := mul_meas_ge_le_integral_of_nonneg (μ := P) (f := fun ω => (mac ω - expectedMac N nm) ^ 2) (Eventually.of_forall fun ω => sq_nonneg _) hint ((ε / 2) ^ 2)
    have hV' : ∫ ω, (mac ω - expectedMac N nm) ^ 2 ∂P ≤ 1 / (((N / nm : ℕ) : ℝ) - 2) := by
      refine hV.trans ?_
      rw [hmean]
      exact one_div_le_one_div_of_le (by linarith) (by linarith)
    rw [← ENNReal.ofReal_toReal (measure_ne_top P _)]
    apply ENNReal.ofReal_le_ofReal
    rw [le_div_iff₀ (by positivity), mul_comm]
    exact hM.trans hV'

/-- A case: 200 magnitudes in windows of 20. -/
example [IsProbabilityMeasure P] (hg : Spec.RandomDraws P g) : ∃ mac : Ω → ℝ, MemLp mac 2 P ∧ ∫ ω, mac ω ∂P = expectedMac 200 20 := by
  obtain ⟨mac, mu, std, h1, -, h2, -⟩ := C100_expected (c := .classic) hg (Or.inl rfl) id true true (kw := {}) ⟨rfl, rfl, rfl⟩ rfl one_pos 2 (List.replicate 200 0) (N := 200) (nm := 20) (minNum := 10)
    (List.length_replicate) (by norm_num) (by norm_num) (by norm_num)
  exact ⟨mac, h1, h2⟩

end
end SeismoStats.Props
