/-
Support for property C120: the windows of `b_significant_1D` on simulated magnitudes have a finite, positive variance.
-/
import Verif.Proofs.Small

namespace SeismoStats.Blocks
open SeismoStats SeismoStats.Simulate SeismoStats.Props MeasureTheory ProbabilityTheory Filter Topology
open scoped BigOperators NNReal
open Classical
noncomputable section

variable {Ω : Type} [MeasurableSpace Ω] {P : Measure Ω} [IsProbabilityMeasure P] {g : Ω → Rng}

/-- The estimate of a window from its exponential draws. -/
def winB (b : ℝ) {n : ℕ} (z : Fin n → ℝ) : ℝ := b * n / ∑ r, z r

theorem winB_measurable (b : ℝ) (n : ℕ) : Measurable (winB b : (Fin n → ℝ) → ℝ) :=
  measurable_const.div (Finset.measurable_sum _ fun r _ => measurable_pi_apply r)

theorem invSum_memLp (hg : Spec.RandomDraws P g) {n : ℕ} (hn : 3 ≤ n) (b : ℝ) : MemLp (fun ω => win (winB b : (Fin n → ℝ) → ℝ) (fun i => (g ω).expo i) 0) 2 P := by
  have hm := win_meas (E := fun i ω => (g ω).expo i) hg.expo_measurable (winB_measurable b n) 0
  rw [memLp_two_iff_integrable_sq hm.aestronglyMeasurable]
  have h1 : ∀ i, Integrable (fun ω => (g ω).expo i ^ (-(2 / 3) : ℝ)) P := by
    intro i
    have := exp_inv_integrable
    rw [← hg.expo_law i] at this
    exact (integrable_map_measure (measurable_id.pow_const _).aestronglyMeasurable (hg.expo_measurable i).aemeasurable).1 this
  have i1 : IndepFun (fun ω => (g ω).expo 0 ^ (-(2 / 3) : ℝ)) (fun ω => (g ω).expo 1 ^ (-(2 / 3) : ℝ)) P :=
    (hg.expo_indep.indepFun zero_ne_one).comp (φ := fun x => x ^ (-(2 / 3) : ℝ)) (ψ := fun x => x ^ (-(2 / 3) : ℝ)) (measurable_id.pow_const _) (measurable_id.pow_const _)
  have p1 := i1.integrable_mul (h1 0) (h1 1)
  have i2 : IndepFun (fun ω => (g ω).expo 0 ^ (-(2 / 3) : ℝ) * (g ω).expo 1 ^ (-(2 / 3) : ℝ)) (fun ω => (g ω).expo 2 ^ (-(2 / 3) : ℝ)) P :=
    split_indep (E := fun i ω => (g ω).expo i) hg.expo_measurable hg.expo_indep (a := 0) (c := 2) (d := 3) (F := fun x => x 0 ^ (-(2 / 3) : ℝ) * x 1 ^ (-(2 / 3) : ℝ)) (G := fun x => x 2 ^ (-(2 / 3) : ℝ))
      (((measurable_pi_apply 0).pow_const _).mul ((measurable_pi_apply 1).pow_const _)) ((measurable_pi_apply 2).pow_const _)
      (fun x y h => by rw [h 0 (by omega) (by omega), h 1 (by omega) (by omega)]) (fun x y h => by rw [h 2 (by omega) (by omega)])
  have p2 := i2.integrable_mul p1 (h1 2)
  refine (p2.const_mul ((b * n) ^ 2)).mono' (hm.pow_const 2).aestronglyMeasurable ?_
  filter_upwards [all_pos hg] with ω hpos
  simp only [Pi.mul_apply]
  unfold win winB
  simp only [Nat.zero_add]
  rw [Real.norm_eq_abs, abs_of_nonneg (sq_nonneg _), div_pow, div_eq_mul_inv]
  refine mul_le_mul_of_nonneg_left ?_ (sq_nonneg _)
  set S := ∑ r : Fin n, (g ω).expo r with hS
  have hle : ∀ i < n, (g ω).expo i ≤ S := fun i hi => Finset.single_le_sum (f := fun r : Fin n => (g ω).expo r) (fun r _ => (hpos r).le) (Finset.mem_univ (⟨i, hi⟩ : Fin n))
  have hS0 : 0 < S := lt_of_lt_of_le (hpos 0) (hle 0 (by omega))
  have hr : ∀ i < n, S ^ (-(2 / 3) : ℝ) ≤ (g ω).expo i ^ (-(2 / 3) : ℝ) := fun i hi => Real.rpow_le_rpow_of_nonpos (hpos i) (hle i hi) (by norm_num)
  have e : (S ^ 2)⁻¹ = S ^ (-(2 / 3) : ℝ) * S ^ (-(2 / 3) : ℝ) * S ^ (-(2 / 3) : ℝ) := by
    rw [← Real.rpow_add hS0, ← Real.rpow_add hS0, ← Real.rpow_natCast, ← Real.rpow_neg hS0.le]
    norm_num
  rw [e]
  have q : 0 ≤ S ^ (-(2 / 3) : ℝ) := Real.rpow_nonneg hS0.le _
  exact mul_le_mul (mul_le_mul (hr 0 (by omega)) (hr 1 (by omega)) q (Real.rpow_nonneg (hpos 0).le _)) (hr 2 (by omega)) q
    (mul_nonneg (Real.rpow_nonneg (hpos 0).le _) (Real.rpow_nonneg (hpos 1).le _))

/-- The expectation of the estimate of one window. -/
def winMean (P : Measure Ω) (g : Ω → Rng) (b : ℝ) (n : ℕ) : ℝ := ∫ ω, win (winB b : (Fin n → ℝ) → ℝ) (fun i => (g ω).expo i) 0 ∂P

/-- The centred estimate of one window. -/
def winC (P : Measure Ω) (g : Ω → Rng) (b : ℝ) {n : ℕ} (z : Fin n → ℝ) : ℝ := winB b z - winMean P g b n

/-- The variance of the estimate of one window. -/
def winVar (P : Measure Ω) (g : Ω → Rng) (b : ℝ) (n : ℕ) : ℝ := ∫ ω, win (winC P g b : (Fin n → ℝ) → ℝ) (fun i => (g ω).expo i) 0 ^ 2 ∂P

omit [IsProbabilityMeasure P] in
theorem winC_measurable (b : ℝ) (n : ℕ) : Measurable (winC P g b : (Fin n → ℝ) → ℝ) := (winB_measurable b n).sub_const _

theorem winC_mean (hg : Spec.RandomDraws P g) {n : ℕ} (hn : 3 ≤ n) (b : ℝ) : ∫ ω, win (winC P g b : (Fin n → ℝ) → ℝ) (fun i => (g ω).expo i) 0 ∂P = 0 := by
  have h : ∀ ω, win (winC P g b : (Fin n → ℝ) → ℝ) (fun i => (g ω).expo i) 0 = win (winB b : (Fin n → ℝ) → ℝ) (fun i => (g ω).expo i) 0 - winMean P g b n := fun ω => rfl
  simp_rw [h]
  rw [integral_sub ((invSum_memLp hg hn b).integrable one_le_two) (integrable_const _)]
  simp [winMean]

theorem winC_memLp (hg : Spec.RandomDraws P g) {n : ℕ} (hn : 3 ≤ n) (b : ℝ) : MemLp (fun ω => win (winC P g b : (Fin n → ℝ) → ℝ) (fun i => (g ω).expo i) 0) 2 P :=
  (invSum_memLp hg hn b).sub (memLp_const _)

omit [IsProbabilityMeasure P] in
/-- The centred windows of an offset differ from the estimates by a constant. -/
theorem windowB_win {b mc : ℝ} (hb : 0 < b) (ω : Ω) {n : ℕ} (hn : 0 < n) (off k : ℕ) :
    windowB (simMag g b mc ω) mc n off k = win (winC P g b : (Fin n → ℝ) → ℝ) (fun i => (g ω).expo i) (off + k * n) + winMean P g b n := by
  rw [windowB_eq hb ω hn]
  unfold win winC winB
  rw [sub_add_cancel, Finset.sum_range]

theorem winVar_pos (hg : Spec.RandomDraws P g) {n : ℕ} (hn : 3 ≤ n) {b : ℝ} (hb : 0 < b) : 0 < winVar P g b n := by
  refine lt_of_le_of_ne (integral_nonneg fun ω => sq_nonneg _) (Ne.symm ?_)
  intro h
  have key : ∀ t, (fun ω => win (winC P g b : (Fin n → ℝ) → ℝ) (fun i => (g ω).expo i) t) =ᵐ[P] 0 := by
    intro t
    have ml := win_memLp (E := fun i ω => (g ω).expo i) hg.expo_measurable hg.expo_indep hg.expo_law (winC_measurable (P := P) (g := g) b n) (winC_memLp hg hn b) t
    have e := win_sq (E := fun i ω => (g ω).expo i) hg.expo_measurable hg.expo_indep hg.expo_law (winC_measurable (P := P) (g := g) b n) (winC_memLp hg hn b) t
    have z := (integral_eq_zero_iff_of_nonneg (fun ω => sq_nonneg _) ml.integrable_sq).1 (e.trans h)
    filter_upwards [z] with ω hz
    exact pow_eq_zero_iff two_ne_zero |>.1 hz
  have hf : ∀ᵐ ω ∂P, False := by
    filter_upwards [key (0 + 0 * n), key (0 + 1 * n), offset_ne hg hb 0 (n := n) (by omega) 0] with ω h1 h3 hne
    apply hne
    rw [windowB_win (P := P) hb ω (by omega), windowB_win (P := P) hb ω (by omega)]
    simp only [Pi.zero_apply] at h1 h3
    rw [h1, h3]
  exact hf.exists.elim fun _ h => h

end
end SeismoStats.Blocks
