/-
The maximal ergodic inequality, and what it gives for means of a stationary sequence (for C107).
-/
import Mathlib.MeasureTheory.Integral.Bochner.Basic
import Mathlib.MeasureTheory.Integral.Bochner.Set
import Mathlib.Dynamics.Ergodic.MeasurePreserving
import Mathlib.MeasureTheory.Function.L1Space.Integrable

namespace SeismoStats.Maximal
open MeasureTheory Filter Topology
noncomputable section

variable {α : Type} [MeasurableSpace α] {μ : Measure α} {T : α → α} {f : α → ℝ}

/-- Sums along the orbit. -/
def orbitSum (T : α → α) (f : α → ℝ) (n : ℕ) (x : α) : ℝ := ∑ i ∈ Finset.range n, f (T^[i] x)

/-- Largest of the first sums, and zero. -/
def top (T : α → α) (f : α → ℝ) : ℕ → α → ℝ
  | 0, _ => 0
  | n + 1, x => max 0 (f x + top T f n (T x))

omit [MeasurableSpace α] in
theorem top_nonneg (T : α → α) (f : α → ℝ) (n : ℕ) (x : α) : 0 ≤ top T f n x := by
  cases n with
  | zero => exact le_rfl
  | succ n => exact le_max_left _ _

omit [MeasurableSpace α] in
theorem top_mono (T : α → α) (f : α → ℝ) (n : ℕ) (x : α) : top T f n x ≤ top T f (n + 1) x := by
  induction n generalizing x with
  | zero => exact top_nonneg _ _ _ _
  | succ n ih =>
    change max 0 _ ≤ max 0 _
    exact max_le_max le_rfl (add_le_add le_rfl (ih (T x)))

omit [MeasurableSpace α] in
theorem sum_le_top (T : α → α) (f : α → ℝ) (n : ℕ) (x : α) : orbitSum T f n x ≤ top T f n x := by
  induction n generalizing x with
  | zero => simp [orbitSum, top]
  | succ n ih =>
    refine le_trans ?_ (le_max_right _ _)
    unfold orbitSum
    rw [Finset.sum_range_succ', add_comm]
    exact add_le_add (by simp) (ih (T x))

theorem top_measurable (hT : Measurable T) (hf : Measurable f) (n : ℕ) : Measurable (top T f n) := by
  induction n with
  | zero => exact measurable_const
  | succ n ih => exact measurable_const.max (hf.add (ih.comp hT))

theorem top_integrable (hT : MeasurePreserving T μ μ) (hf : Integrable f μ) (n : ℕ) : Integrable (top T f n) μ := by
  induction n with
  | zero => exact integrable_zero _ _ _
  | succ n ih =>
    have h1 : Integrable (fun x => f x + top T f n (T x)) μ := hf.add (hT.integrable_comp_of_integrable ih)
    exact (integrable_zero _ _ _).sup h1

/-- The maximal ergodic inequality. -/
theorem maximal (hT : MeasurePreserving T μ μ) (hm : Measurable f) (hf : Integrable f μ) (n : ℕ) : 0 ≤ ∫ x in {x | 0 < top T f n x}, f x ∂μ := by
  have hset : MeasurableSet {x | 0 < top T f n x} := measurableSet_lt measurable_const (top_measurable hT.measurable hm n)
  have hi := top_integrable hT hf n
  have hi' : Integrable (fun x => top T f n (T x)) μ := hT.integrable_comp_of_integrable hi
  have hle : ∀ x ∈ {x | 0 < top T f n x}, top T f n x - top T f n (T x) ≤ f x := by
    intro x hx
    have h1 : top T f (n + 1) x = f x + top T f n (T x) := by
      have h2 : 0 < top T f (n + 1) x := lt_of_lt_of_le hx (top_mono T f n x)
      have h3 : top T f (n + 1) x = max 0 (f x + top T f n (T x)) := rfl
      rw [h3] at h2 ⊢
      exact max_eq_right (by rcases lt_max_iff.1 h2 with h | h; exacts [absurd h (lt_irrefl _), h.le])
    have := top_mono T f n x
    linarith
  have h1 : ∫ x in {x | 0 < top T f n x}, (top T f n x - top T f n (T x)) ∂μ ≤ ∫ x in {x | 0 < top T f n x}, f x ∂μ :=
    setIntegral_mono_on (hi.sub hi').integrableOn hf.integrableOn hset hle
  refine le_trans ?_ h1
  rw [integral_sub hi.integrableOn hi'.integrableOn]
  have h2 : ∫ x in {x | 0 < top T f n x}, top T f n x ∂μ = ∫ x, top T f n x ∂μ := by
    apply setIntegral_eq_integral_of_forall_compl_eq_zero
    intro x hx
    exact le_antisymm (not_lt.1 hx) (top_nonneg _ _ _ _)
  have h3 : ∫ x in {x | 0 < top T f n x}, top T f n (T x) ∂μ ≤ ∫ x, top T f n (T x) ∂μ :=
    setIntegral_le_integral hi' (Eventually.of_forall fun x => top_nonneg _ _ _ _)
  have h4 : ∫ x, top T f n (T x) ∂μ = ∫ x, top T f n x ∂μ := by
    rw [← hT.map_eq] 
    conv_rhs => rw [integral_map hT.measurable.aemeasurable (top_measurable hT.measurable hm n).aestronglyMeasurable]
    rw [hT.map_eq]
  linarith

/-- Means along the orbit are bounded at almost every point. -/
theorem bounded [IsProbabilityMeasure μ] (hT : MeasurePreserving T μ μ) (hm : Measurable f) (hf : Integrable f μ) (h0 : ∀ x, 0 ≤ f x) :
    ∀ᵐ x ∂μ, ∃ B : ℝ, ∀ n : ℕ, orbitSum T f n x ≤ B * n := by
  -- the points where some mean exceeds `k`
  have hE : ∀ k : ℕ, 0 < k → μ {x | ∃ n, 0 < top T (fun y => f y - k) n x} ≤ ENNReal.ofReal ((∫ x, f x ∂μ) / k) := by
    intro k hk
    have hk' : (0 : ℝ) < k := by exact_mod_cast hk
    have hmk : Measurable fun y => f y - k := hm.sub_const _
    have hone : ∀ n, μ {x | 0 < top T (fun y => f y - k) n x} ≤ ENNReal.ofReal ((∫ x, f x ∂μ) / k) := by
      intro n
      have h1 := maximal hT hmk (hf.sub (integrable_const _)) n
      set A := {x | 0 < top T (fun y => f y - k) n x}
      rw [integral_sub hf.integrableOn (integrable_const _), setIntegral_const, smul_eq_mul] at h1
      have h2 : ∫ x in A, f x ∂μ ≤ ∫ x, f x ∂μ := setIntegral_le_integral hf (Eventually.of_forall h0)
      have h3 : μ.real A ≤ (∫ x, f x ∂μ) / k := by rw [le_div_iff₀ hk']; linarith
      rw [← ofReal_measureReal]
      exact ENNReal.ofReal_le_ofReal h3
    have hU : {x | ∃ n, 0 < top T (fun y => f y - k) n x} = ⋃ n, {x | 0 < top T (fun y => f y - k) n x} := by
      ext x; simp
    have hmono : Monotone fun n => {x | 0 < top T (fun y => f y - k) n x} := monotone_nat_of_le_succ fun n x hx => lt_of_lt_of_le hx (top_mono _ _ _ _)
    rw [hU, hmono.measure_iUnion]
    exact iSup_le hone
  have hnull : μ {x | ∀ k : ℕ, 0 < k → ∃ n, 0 < top T (fun y => f y - k) n x} = 0 := by
    have hlim : Tendsto (fun k : ℕ => ENNReal.ofReal ((∫ x, f x ∂μ) / k)) atTop (𝓝 0) := by
      rw [← ENNReal.ofReal_zero]
      exact (ENNReal.continuous_ofReal.tendsto _).comp (tendsto_const_div_atTop_nhds_zero_nat _)
    refine le_antisymm (ge_of_tendsto hlim ?_) bot_le
    filter_upwards [eventually_gt_atTop 0] with k hk
    have h1 : {x | ∀ k : ℕ, 0 < k → ∃ n, 0 < top T (fun y => f y - k) n x} ⊆ {x | ∃ n, 0 < top T (fun y => f y - k) n x} := fun x hx => hx k hk
    exact (measure_mono h1).trans (hE k hk)
  have : ∀ᵐ x ∂μ, ¬ ∀ k : ℕ, 0 < k → ∃ n, 0 < top T (fun y => f y - k) n x := by
    rw [ae_iff]; simpa using hnull
  filter_upwards [this] with x hx
  push Not at hx
  obtain ⟨k, -, hk⟩ := hx
  refine ⟨k, fun n => ?_⟩
  have h1 := (sum_le_top T (fun y => f y - k) n x).trans (hk n)
  unfold orbitSum at h1 ⊢
  rw [Finset.sum_sub_distrib] at h1
  simp at h1
  linarith

end
end SeismoStats.Maximal
