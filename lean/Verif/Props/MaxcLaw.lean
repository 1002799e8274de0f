/-
Property C98: the maximum-curvature method on simulated magnitudes.
-/
import Verif.Props.Consistency
import Verif.Props.McMaxc
import Mathlib.Analysis.Complex.ExponentialBounds

namespace SeismoStats.Props
open SeismoStats SeismoStats.Simulate SeismoStats.EstimateMc MeasureTheory ProbabilityTheory Filter Topology
open Classical
noncomputable section

/-- How many of the first `n` are equal to `j`. -/
def hits (N : ℕ → ℤ) (n : ℕ) (j : ℤ) : ℕ := (List.range n).countP fun i => decide (N i = j)

/-- How many of the first `n` are at least `j`. -/
def atLeast (N : ℕ → ℤ) (n : ℕ) (j : ℤ) : ℕ := (List.range n).countP fun i => decide (j ≤ N i)

theorem countP_sum (n : ℕ) (p : ℕ → Prop) [DecidablePred p] : (((List.range n).countP fun i => decide (p i) : ℕ) : ℝ) = ∑ i ∈ Finset.range n, if p i then 1 else 0 := by
  induction n with
  | zero => simp
  | succ n ih =>
    rw [List.range_succ, List.countP_append, Nat.cast_add, ih, Finset.sum_range_succ]
    congr 1
    by_cases h : p n <;> simp [h]

theorem hits_add (N : ℕ → ℤ) (n : ℕ) (j : ℤ) : hits N n j + atLeast N n (j + 1) = atLeast N n j := by
  unfold hits atLeast
  induction n with
  | zero => simp
  | succ n ih =>
    simp only [List.range_succ, List.countP_append, List.countP_cons, List.countP_nil, zero_add, decide_eq_true_eq]
    rw [← ih]
    rcases lt_trichotomy (N n) j with h | h | h
    · rw [if_neg (by omega), if_neg (by omega), if_neg (by omega)]; omega
    · rw [if_pos h, if_neg (by omega), if_pos (by omega)]; omega
    · rw [if_neg (by omega), if_pos (by omega), if_pos (by omega)]; omega

theorem atLeast_anti (N : ℕ → ℤ) (n : ℕ) {j k : ℤ} (h : j ≤ k) : atLeast N n k ≤ atLeast N n j := by
  unfold atLeast
  apply List.countP_mono_left
  intro i _ hi
  simp only [decide_eq_true_eq] at hi ⊢
  omega

/-- If the tail frequencies converge and one level has the largest limit frequency, it becomes the only most frequent one. -/
theorem mode_eventually (N : ℕ → ℤ) (h0 : ∀ i, 0 ≤ N i) (τ : ℕ → ℝ) (ht : ∀ k : ℕ, Tendsto (fun n : ℕ => (atLeast N n k : ℝ) / n) atTop (𝓝 (τ k)))
    (hτ : Tendsto τ atTop (𝓝 0)) (m : ℕ) (hmax : ∀ k, k ≠ m → τ k - τ (k + 1) < τ m - τ (m + 1)) (hpos : 0 < τ m - τ (m + 1)) :
    ∀ᶠ n in atTop, ∀ j : ℤ, j ≠ m → hits N n j < hits N n m := by
  have hf : ∀ k : ℕ, Tendsto (fun n : ℕ => (hits N n k : ℝ) / n) atTop (𝓝 (τ k - τ (k + 1))) := by
    intro k
    refine ((ht k).sub (ht (k + 1))).congr fun n => ?_
    have h := hits_add N n k
    have h' : (hits N n k : ℝ) + atLeast N n ((k : ℤ) + 1) = atLeast N n k := by exact_mod_cast h
    rw [← sub_div, ← h']
    congr 1
    push_cast
    ring
  obtain ⟨K, hK⟩ := (hτ.eventually (gt_mem_nhds hpos)).exists
  have h1 : ∀ᶠ n : ℕ in atTop, (atLeast N n K : ℝ) / n < (hits N n m : ℝ) / n := (ht K).eventually_lt (hf m) hK
  have h2 : ∀ᶠ n : ℕ in atTop, ∀ k ∈ Finset.range K, k ≠ m → (hits N n k : ℝ) / n < (hits N n m : ℝ) / n := by
    rw [Filter.eventually_all_finset]
    intro k _
    by_cases hk : k = m
    · exact Eventually.of_forall fun n h => absurd hk h
    · filter_upwards [(hf k).eventually_lt (hf m) (hmax k hk)] with n hn _
      exact hn
  filter_upwards [h1, h2, eventually_gt_atTop 0] with n h1 h2 hn j hj
  have hn' : (0 : ℝ) < n := by exact_mod_cast hn
  rw [div_lt_div_iff_of_pos_right hn', Nat.cast_lt] at h1
  rcases lt_or_ge j 0 with hneg | hnn
  · have : hits N n j = 0 := by
      unfold hits
      rw [List.countP_eq_zero]
      intro i _
      simp only [decide_eq_true_eq]
      have := h0 i
      omega
    omega
  · obtain ⟨k, rfl⟩ : ∃ k : ℕ, j = k := ⟨j.toNat, by omega⟩
    by_cases hk : k < K
    · have := h2 k (Finset.mem_range.2 hk) (by intro h; apply hj; rw [h])
      rwa [div_lt_div_iff_of_pos_right hn', Nat.cast_lt] at this
    · have e1 := hits_add N n k
      have e2 := atLeast_anti N n (show (K : ℤ) ≤ k by omega)
      omega

variable {Ω : Type} [MeasurableSpace Ω] {P : Measure Ω} {g : Ω → Rng}

/-- Tail frequencies of the number of the bin. -/
theorem tails_tendsto (hg : Spec.RandomDraws P g) {x s : ℝ} (hx : 0 < x) (hs0 : 0 ≤ s) (hs : s ≤ 1) :
    ∀ᵐ ω ∂P, ∀ k : ℕ, Tendsto (fun n : ℕ => (atLeast (fun i => ⌊(g ω).expo i / x + s⌋) n k : ℝ) / n) atTop (𝓝 (if k = 0 then 1 else Real.exp (-x * (k - s)))) := by
  rw [ae_all_iff]
  intro k
  by_cases hk : k = 0
  · subst hk
    filter_upwards [all_pos hg] with ω hpos
    rw [if_pos rfl]
    refine tendsto_const_nhds.congr' ?_
    filter_upwards [eventually_gt_atTop 0] with n hn
    have hn' : (n : ℝ) ≠ 0 := by exact_mod_cast hn.ne'
    have e : atLeast (fun i => ⌊(g ω).expo i / x + s⌋) n ((0 : ℕ) : ℤ) = n := by
      unfold atLeast
      rw [List.countP_eq_length.2, List.length_range]
      intro i _
      simp only [decide_eq_true_eq]
      exact Int.floor_nonneg.2 (by have := div_pos (hpos i) hx; linarith)
    rw [e, div_self hn']
  · rw [if_neg hk]
    have hm : Measurable fun e : ℝ => if (k : ℤ) ≤ ⌊e / x + s⌋ then (1 : ℝ) else 0 :=
      Measurable.ite (measurableSet_le measurable_const (Int.measurable_floor.comp (by fun_prop))) measurable_const measurable_const
    have h := strong_law_expo hg _ hm (fun e => by split_ifs <;> norm_num) (Real.exp (-x * (((k : ℤ) : ℝ) - s))) (Real.exp_pos _).le
      (floor_tail hx hs (by omega))
    filter_upwards [h] with ω h
    rw [Int.cast_natCast] at h
    refine h.congr fun n => ?_
    congr 1
    exact (countP_sum n fun i => (k : ℤ) ≤ ⌊(g ω).expo i / x + s⌋).symm

/-- The most frequent bin, if the limits say which. -/
theorem mode_law (hg : Spec.RandomDraws P g) {x s : ℝ} (hx : 0 < x) (hs0 : 0 ≤ s) (hs : s < 1) :
    (1 < Real.exp (-x * (1 - s)) * (2 - Real.exp (-x)) → ∀ᵐ ω ∂P, ∀ᶠ n in atTop, ∀ j : ℤ, j ≠ 1 →
      hits (fun i => ⌊(g ω).expo i / x + s⌋) n j < hits (fun i => ⌊(g ω).expo i / x + s⌋) n 1) ∧
    (Real.exp (-x * (1 - s)) * (2 - Real.exp (-x)) < 1 → ∀ᵐ ω ∂P, ∀ᶠ n in atTop, ∀ j : ℤ, j ≠ 0 →
      hits (fun i => ⌊(g ω).expo i / x + s⌋) n j < hits (fun i => ⌊(g ω).expo i / x + s⌋) n 0) := by
  set τ : ℕ → ℝ := fun k => if k = 0 then 1 else Real.exp (-x * (k - s)) with hτd
  have hq0 := Real.exp_pos (-x)
  have hq1 : Real.exp (-x) < 1 := Real.exp_lt_one_iff.2 (by linarith)
  set q := Real.exp (-x) with hq
  set c := Real.exp (-x * (1 - s)) with hc
  have hc0 : 0 < c := Real.exp_pos _
  have hsucc : ∀ k : ℕ, τ (k + 1) = c * q ^ k := by
    intro k
    rw [hτd]
    simp only [Nat.add_eq_zero_iff, one_ne_zero, and_false, if_false]
    rw [hc, hq, ← Real.exp_nat_mul, ← Real.exp_add]
    congr 1; push_cast; ring
  have hτ0 : τ 0 = 1 := by simp [hτd]
  have htend : Tendsto τ atTop (𝓝 0) := by
    rw [← tendsto_add_atTop_iff_nat 1]
    have := (tendsto_pow_atTop_nhds_zero_of_lt_one hq0.le hq1).const_mul c
    rw [mul_zero] at this
    exact this.congr fun k => (hsucc k).symm
  have hp0 : τ 0 - τ (0 + 1) = 1 - c := by rw [hτ0, hsucc, pow_zero, mul_one]
  have hps : ∀ k : ℕ, τ (k + 1) - τ (k + 1 + 1) = c * (1 - q) * q ^ k := by intro k; rw [hsucc, hsucc]; ring
  have hcq : 0 < c * (1 - q) := mul_pos hc0 (by linarith)
  constructor
  · intro h
    filter_upwards [tails_tendsto hg hx hs0 hs.le, all_pos hg] with ω ht hpos
    have hmode := mode_eventually (fun i => ⌊(g ω).expo i / x + s⌋) (fun i => Int.floor_nonneg.2 (by have := div_pos (hpos i) hx; linarith)) τ ht htend 1 (by
      intro k hk
      rw [hps 0, pow_zero, mul_one]
      cases k with
      | zero => rw [hp0]; linarith
      | succ k =>
        rw [hps]
        have hk' : k ≠ 0 := by omega
        have : q ^ k < 1 := pow_lt_one₀ hq0.le hq1 hk'
        nlinarith) (by rw [hps 0, pow_zero, mul_one]; exact hcq)
    filter_upwards [hmode] with n hn
    exact_mod_cast hn
  · intro h
    filter_upwards [tails_tendsto hg hx hs0 hs.le, all_pos hg] with ω ht hpos
    have h1 : c * (1 - q) < 1 - c := by linarith
    have hmode := mode_eventually (fun i => ⌊(g ω).expo i / x + s⌋) (fun i => Int.floor_nonneg.2 (by have := div_pos (hpos i) hx; linarith)) τ ht htend 0 (by
      intro k hk
      rw [hp0]
      cases k with
      | zero => exact absurd rfl hk
      | succ k =>
        rw [hps]
        have : q ^ k ≤ 1 := pow_le_one₀ hq0.le hq1.le
        nlinarith) (by rw [hp0]; linarith)
    filter_upwards [hmode] with n hn
    exact_mod_cast hn

/-- The method returns the most frequent bin. -/
theorem maxc_of_mode (X : ℕ → ℝ) (N : ℕ → ℤ) {δ : ℝ} (a m : ℤ) (corr : ℝ) (hδ : 1 / 10 ^ 12 ≤ δ) (hX : ∀ i, binTo δ (X i) = ((a + N i : ℤ) : ℝ) * δ) {n : ℕ} (hn : 0 < n)
    (hm : ∀ j : ℤ, j ≠ m → hits N n j < hits N n m) : mcMaxc ((firstMags X n).map some) δ corr = .ok (((a + m : ℤ) : ℝ) * δ + corr, corr) := by
  have hp : 0 < δ := lt_of_lt_of_le (by positivity) hδ
  have hcount : ∀ j : ℤ, countAt ((firstMags X n).map some) δ (((a + j : ℤ) : ℝ) * δ) = hits N n j := by
    intro j
    rw [countAt_eq hp]
    have e : ((firstMags X n).map some).filterMap id = firstMags X n := by simp [List.filterMap_map]
    rw [e]
    unfold firstMags hits
    rw [List.map_map, List.countP_map]
    apply List.countP_congr
    intro i _
    simp only [Function.comp_apply, decide_eq_true_eq, hX, mul_left_inj' hp.ne', Int.cast_inj]
    omega
  obtain ⟨c, h1, h2⟩ := C37_maxc (mags := (firstMags X n).map some) corr hδ ⟨X 0, List.mem_map.2 ⟨X 0, List.mem_map.2 ⟨0, List.mem_range.2 hn, rfl⟩, rfl⟩⟩
  have h3 : IsFullest ((firstMags X n).map some) δ (((a + m : ℤ) : ℝ) * δ) := by
    refine ⟨⟨_, rfl⟩, fun k => ?_⟩
    have e : (k : ℝ) * δ = ((a + (k - a) : ℤ) : ℝ) * δ := by congr 2; ring
    rw [e, hcount, hcount]
    by_cases hk : k - a = m
    · rw [hk]; exact ⟨le_rfl, fun h => absurd h (lt_irrefl _)⟩
    · exact ⟨(hm _ hk).le, fun _ => hm _ hk⟩
  rw [h1, h2.unique h3]

/-- For almost every sequence of draws, from some size on: the maximum-curvature estimate (bin width `δ`, correction `corr`) for `n` magnitudes simulated with b-value `b`
and bin width `δ'` is `mc`. -/
def MaxcBecomes (P : Measure Ω) (g : Ω → Rng) (b mc0 δ' δ corr mc : ℝ) : Prop :=
  ∀ᵐ ω ∂P, ∀ᶠ n in atTop, ∃ mags, simulateBinned n (fun _ => b) mc0 δ' none .bValue (g ω) = .ok mags ∧ mcMaxc (mags.map some) δ corr = .ok (mc, corr)

/-- C98: for magnitudes simulated in bins the method finds the completeness magnitude of the simulation, plus the correction. -/
theorem C98_binned (hg : Spec.RandomDraws P g) (b δ corr : ℝ) (a : ℤ) (hb : 0 < b) (hδ : 1 / 10 ^ 12 ≤ δ) (hx : 1 / 10 ^ 11 ≤ b * Real.log 10 * δ) :
    MaxcBecomes P g b (a * δ) δ δ corr (a * δ + corr) := by
  have hp : 0 < δ := lt_of_lt_of_le (by positivity) hδ
  set x := b * Real.log 10 * δ with hxd
  have hx0 : 0 < x := lt_of_lt_of_le (by positivity) hx
  have hcond : Real.exp (-x * (1 - 1 / 10 ^ 12)) * (2 - Real.exp (-x)) < 1 := by
    have hq0 := Real.exp_pos (-x)
    have hq1 : Real.exp (-x) < 1 := Real.exp_lt_one_iff.2 (by linarith)
    rcases le_total x 1 with h | h
    · -- e^{-x} (2 - e^{-x}) = 1 - u^2
      have hu : x / 2 ≤ 1 - Real.exp (-x) := by
        have h1 := Real.add_one_le_exp x
        have h2 : Real.exp (-x) ≤ 1 / (1 + x) := by
          rw [Real.exp_neg, ← one_div]
          exact one_div_le_one_div_of_le (by linarith) (by linarith)
        have h3 : 1 / (1 + x) ≤ 1 - x / 2 := by
          rw [div_le_iff₀ (by linarith)]; nlinarith
        linarith
      have hu2 : x ^ 2 / 4 ≤ (1 - Real.exp (-x)) ^ 2 := by nlinarith
      have e : Real.exp (-x * (1 - 1 / 10 ^ 12)) = Real.exp (-x) * Real.exp (x / 10 ^ 12) := by rw [← Real.exp_add]; congr 1; ring
      have hE : Real.exp (-(x / 10 ^ 12)) ≥ 1 - x / 10 ^ 12 := by
        have := Real.add_one_le_exp (-(x / 10 ^ 12)); linarith
      have hinv : Real.exp (x / 10 ^ 12) * Real.exp (-(x / 10 ^ 12)) = 1 := by rw [← Real.exp_add]; simp
      have hlt : Real.exp (-x) * (2 - Real.exp (-x)) < Real.exp (-(x / 10 ^ 12)) := by
        have : Real.exp (-x) * (2 - Real.exp (-x)) = 1 - (1 - Real.exp (-x)) ^ 2 := by ring
        rw [this]
        nlinarith
      calc Real.exp (-x * (1 - 1 / 10 ^ 12)) * (2 - Real.exp (-x)) = Real.exp (x / 10 ^ 12) * (Real.exp (-x) * (2 - Real.exp (-x))) := by rw [e]; ring
        _ < Real.exp (x / 10 ^ 12) * Real.exp (-(x / 10 ^ 12)) := mul_lt_mul_of_pos_left hlt (Real.exp_pos _)
        _ = 1 := hinv
    · have h2 : 2 < Real.exp (x * (1 - 1 / 10 ^ 12)) := by
        have := Real.quadratic_le_exp_of_nonneg (x := x * (1 - 1 / 10 ^ 12)) (by nlinarith)
        nlinarith
      have h3 : Real.exp (-x * (1 - 1 / 10 ^ 12)) * Real.exp (x * (1 - 1 / 10 ^ 12)) = 1 := by rw [← Real.exp_add]; simp
      have h4 := Real.exp_pos (-x * (1 - 1 / 10 ^ 12))
      nlinarith
  filter_upwards [(mode_law hg hx0 (s := 1 / 10 ^ 12) (by positivity) (by norm_num)).2 hcond] with ω hω
  filter_upwards [hω, eventually_gt_atTop 0] with n hn hpos
  refine ⟨_, simulate_grid (g ω) n a hb hδ, ?_⟩
  have := maxc_of_mode (fun i => ((a + ⌊(g ω).expo i / x + 1 / 10 ^ 12⌋ : ℤ) : ℝ) * δ) (fun i => ⌊(g ω).expo i / x + 1 / 10 ^ 12⌋) a 0 corr hδ
    (fun i => binTo_int_mul hp.ne' _) hpos hn
  rwa [add_zero] at this

theorem binTo_continuous {b δ : ℝ} (hb : 0 < b) (hδ : 0 < δ) (a : ℤ) (e : ℝ) :
    binTo δ (a * δ + e / (b * Real.log 10)) = ((a + ⌊e / (b * Real.log 10 * δ) + (1 / 2 + 1 / 10 ^ 12)⌋ : ℤ) : ℝ) * δ := by
  have hβ : 0 < b * Real.log 10 := mul_pos hb log_ten_pos
  unfold binTo roundToInt eps
  congr 2
  have e1 : (a * δ + e / (b * Real.log 10)) / δ + 1 / 2 + 1 / 10 ^ 12 = (a : ℝ) + (e / (b * Real.log 10 * δ) + (1 / 2 + 1 / 10 ^ 12)) := by
    have := hβ.ne'; have := hδ.ne'
    field_simp
    ring
  rw [e1, Int.floor_intCast_add]

/-- C98 (limit): for magnitudes that are not binned, starting at a grid point, the estimate is one bin too large if `b * ln 10 * delta_m` is at most 0.9. -/
theorem C98_continuous_biased (hg : Spec.RandomDraws P g) (b δ corr : ℝ) (a : ℤ) (hb : 0 < b) (hδ : 1 / 10 ^ 12 ≤ δ) (hx : b * Real.log 10 * δ ≤ 9 / 10) :
    MaxcBecomes P g b (a * δ) 0 δ corr (a * δ + δ + corr) := by
  have hp : 0 < δ := lt_of_lt_of_le (by positivity) hδ
  have hx0 : 0 < b * Real.log 10 * δ := mul_pos (mul_pos hb log_ten_pos) hp
  set x := b * Real.log 10 * δ with hxd
  have hcond : 1 < Real.exp (-x * (1 - (1 / 2 + 1 / 10 ^ 12))) * (2 - Real.exp (-x)) := by
    have hq1 : Real.exp (-x) < 1 := Real.exp_lt_one_iff.2 (by linarith)
    set w := Real.exp (x / 2) with hw
    have hw1 : 1 < w := Real.one_lt_exp_iff.2 (by linarith)
    have hw2 : w ≤ 1.6 := by
      have h1 : w ≤ Real.exp (9 / 20) := Real.exp_le_exp.2 (by linarith)
      have h2 := Real.exp_bound' (x := 9 / 20) (by norm_num) (by norm_num) (n := 5) (by norm_num)
      norm_num [Finset.sum_range_succ, Nat.factorial] at h2
      linarith
    have hwq : w * w * Real.exp (-x) = 1 := by rw [hw, ← Real.exp_add, ← Real.exp_add]; simp
    have hwh : w * Real.exp (-x / 2) = 1 := by rw [hw, ← Real.exp_add]; simp; ring
    have hge : Real.exp (-x / 2) ≤ Real.exp (-x * (1 - (1 / 2 + 1 / 10 ^ 12))) := Real.exp_le_exp.2 (by nlinarith)
    have hmain : 1 < Real.exp (-x / 2) * (2 - Real.exp (-x)) := by
      have h3 : w ^ 3 < 2 * w ^ 2 - 1 := by nlinarith [mul_pos (sub_pos.2 hw1) (show (0 : ℝ) < 1 + w - w ^ 2 by nlinarith)]
      have h4 : w ^ 3 * (Real.exp (-x / 2) * (2 - Real.exp (-x))) = 2 * w ^ 2 - 1 := by
        have : w ^ 3 * (Real.exp (-x / 2) * (2 - Real.exp (-x))) = (w * Real.exp (-x / 2)) * (2 * w ^ 2 - w * w * Real.exp (-x)) := by ring
        rw [this, hwh, hwq]; ring
      have h5 : 0 < w ^ 3 := by positivity
      by_contra hcon
      have := mul_le_mul_of_nonneg_left (not_lt.1 hcon) h5.le
      rw [h4] at this
      linarith
    calc (1 : ℝ) < Real.exp (-x / 2) * (2 - Real.exp (-x)) := hmain
      _ ≤ _ := mul_le_mul_of_nonneg_right hge (by linarith)
  filter_upwards [(mode_law hg hx0 (s := 1 / 2 + 1 / 10 ^ 12) (by positivity) (by norm_num)).1 hcond] with ω hω
  filter_upwards [hω, eventually_gt_atTop 0] with n hn hpos
  refine ⟨_, simulate_continuous (g ω) n hb, ?_⟩
  have := maxc_of_mode (fun i => a * δ + (g ω).expo i / (b * Real.log 10)) (fun i => ⌊(g ω).expo i / x + (1 / 2 + 1 / 10 ^ 12)⌋) a 1 corr hδ
    (fun i => binTo_continuous hb hp a _) hpos hn
  rw [this]
  congr 3
  push_cast; ring

/-- C98: for magnitudes that are not binned, starting at a grid point, the estimate is right if `b * ln 10 * delta_m` is at least 1.5. -/
theorem C98_continuous (hg : Spec.RandomDraws P g) (b δ corr : ℝ) (a : ℤ) (hb : 0 < b) (hδ : 1 / 10 ^ 12 ≤ δ) (hx : 3 / 2 ≤ b * Real.log 10 * δ) :
    MaxcBecomes P g b (a * δ) 0 δ corr (a * δ + corr) := by
  have hp : 0 < δ := lt_of_lt_of_le (by positivity) hδ
  have hx0 : 0 < b * Real.log 10 * δ := mul_pos (mul_pos hb log_ten_pos) hp
  set x := b * Real.log 10 * δ with hxd
  have hcond : Real.exp (-x * (1 - (1 / 2 + 1 / 10 ^ 12))) * (2 - Real.exp (-x)) < 1 := by
    have h2 : 2 < Real.exp (x * (1 - (1 / 2 + 1 / 10 ^ 12))) := by
      have h0 : (0.74 : ℝ) ≤ x * (1 - (1 / 2 + 1 / 10 ^ 12)) := by nlinarith
      have := Real.quadratic_le_exp_of_nonneg (x := x * (1 - (1 / 2 + 1 / 10 ^ 12))) (by nlinarith)
      nlinarith
    have h3 : Real.exp (-x * (1 - (1 / 2 + 1 / 10 ^ 12))) * Real.exp (x * (1 - (1 / 2 + 1 / 10 ^ 12))) = 1 := by rw [← Real.exp_add]; simp
    have h4 := Real.exp_pos (-x * (1 - (1 / 2 + 1 / 10 ^ 12)))
    have h5 := Real.exp_pos (-x)
    nlinarith
  filter_upwards [(mode_law hg hx0 (s := 1 / 2 + 1 / 10 ^ 12) (by positivity) (by norm_num)).2 hcond] with ω hω
  filter_upwards [hω, eventually_gt_atTop 0] with n hn hpos
  refine ⟨_, simulate_continuous (g ω) n hb, ?_⟩
  have := maxc_of_mode (fun i => a * δ + (g ω).expo i / (b * Real.log 10)) (fun i => ⌊(g ω).expo i / x + (1 / 2 + 1 / 10 ^ 12)⌋) a 0 corr hδ
    (fun i => binTo_continuous hb hp a _) hpos hn
  rwa [add_zero] at this

/-- A case: `b = 1`, bin width 0.1. Binned magnitudes give `mc = 2.0`, magnitudes that are not binned give 2.1. -/
example : ∃ (Ω : Type) (_ : MeasurableSpace Ω) (P : Measure Ω) (g : Ω → Rng), Spec.RandomDraws P g ∧
    MaxcBecomes P g 1 ((20 : ℤ) * (1 / 10)) (1 / 10) (1 / 10) (2 / 10) ((20 : ℤ) * (1 / 10) + 2 / 10) ∧
    MaxcBecomes P g 1 ((20 : ℤ) * (1 / 10)) 0 (1 / 10) (2 / 10) ((20 : ℤ) * (1 / 10) + 1 / 10 + 2 / 10) := by
  obtain ⟨Ω, mΩ, P, hP, g, hg⟩ := randomDraws_exist
  have h1 : (1 : ℝ) ≤ Real.log 10 := by
    rw [Real.le_log_iff_exp_le (by norm_num)]
    linarith [Real.exp_one_lt_d9]
  have h2 : Real.log 10 ≤ 9 := by
    have := Real.log_le_sub_one_of_pos (show (0 : ℝ) < 10 by norm_num)
    linarith
  exact ⟨Ω, mΩ, P, g, hg, C98_binned hg 1 (1 / 10) (2 / 10) 20 one_pos (by norm_num) (by linarith),
    C98_continuous_biased hg 1 (1 / 10) (2 / 10) 20 one_pos (by norm_num) (by linarith)⟩

end
end SeismoStats.Props
