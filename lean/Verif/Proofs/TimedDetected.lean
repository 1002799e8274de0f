/-
Waiting times for the next larger draw, restricted to first members that are selected by what is known at their time.
-/
import Verif.Proofs.NextRecorded
import Verif.Proofs.RenewalLaw

namespace SeismoStats.Props
open SeismoStats SeismoStats.Simulate MeasureTheory ProbabilityTheory Filter Topology
open Classical
noncomputable section

/-- Sum over the selected draws before `n` that have not found a larger one, of the probability that the next draw is the one. -/
def selWeight (a : ℝ → ℝ) (n : ℕ) (r v : ℕ → ℝ) : ℝ := ∑ i ∈ Finset.range n, r i * (alive a v i n * growP a (v i))

theorem selWeight_nonneg {a : ℝ → ℝ} {r : ℕ → ℝ} (hr : ∀ i, r i = 0 ∨ r i = 1) (n : ℕ) (v : ℕ → ℝ) : 0 ≤ selWeight a n r v :=
  Finset.sum_nonneg fun i _ => mul_nonneg (by rcases hr i with h | h <;> rw [h] <;> norm_num) (mul_nonneg (alive_nonneg _ _ _ _) (growP_pos _ _).le)

theorem selWeight_le {a : ℝ → ℝ} {r : ℕ → ℝ} (hr : ∀ i, r i = 0 ∨ r i = 1) (n : ℕ) (v : ℕ → ℝ) : selWeight a n r v ≤ aliveWeight a n v := by
  unfold selWeight aliveWeight
  refine Finset.sum_le_sum fun i _ => ?_
  have h0 : 0 ≤ alive a v i n * growP a (v i) := mul_nonneg (alive_nonneg _ _ _ _) (growP_pos _ _).le
  rcases hr i with h | h <;> rw [h] <;> simp [h0]

theorem selWeight_congr (a : ℝ → ℝ) (n : ℕ) {r r' v v' : ℕ → ℝ} (hr : ∀ i < n, r i = r' i) (hv : ∀ i < n, v i = v' i) : selWeight a n r v = selWeight a n r' v' := by
  unfold selWeight
  refine Finset.sum_congr rfl fun i hi => ?_
  have hi' := Finset.mem_range.1 hi
  rw [hr i hi', alive_congr a hi' hv, hv i hi']

theorem selWeight_measurable {a : ℝ → ℝ} (ha : Measurable a) (n : ℕ) : Measurable fun q : (ℕ → ℝ) × (ℕ → ℝ) => selWeight a n q.1 q.2 := by
  unfold selWeight
  exact Finset.measurable_sum _ fun i _ => ((measurable_pi_apply i).comp measurable_fst).mul (((alive_measurable ha i n).comp measurable_snd).mul
    ((growP_measurable ha).comp ((measurable_pi_apply i).comp measurable_snd)))

/-- Sum of a one-step mean that vanishes. -/
theorem mean_of_shift {f : ℕ → ℝ} (h0 : f 0 = 0) (h : Tendsto (fun n : ℕ => (∑ k ∈ Finset.range n, f (k + 1)) / n) atTop (𝓝 0)) :
    Tendsto (fun n : ℕ => (∑ k ∈ Finset.range n, f k) / n) atTop (𝓝 0) := by
  rw [← tendsto_add_atTop_iff_nat 1]
  have h4 : Tendsto (fun n : ℕ => (n : ℝ) / ((n : ℝ) + 1)) atTop (𝓝 1) := tendsto_natCast_div_add_atTop 1
  have h5 := h.mul h4
  rw [zero_mul] at h5
  refine h5.congr' ?_
  filter_upwards [eventually_gt_atTop 0] with n hn
  have : (0 : ℝ) < n := by exact_mod_cast hn
  rw [Finset.sum_range_succ', h0, add_zero]
  push_cast
  field_simp

section Selected

variable {Ω : Type} [m0 : MeasurableSpace Ω] {P : Measure Ω} {g : Ω → Rng} {ℱ : Filtration ℕ m0}
variable [IsProbabilityMeasure P] (hg : Spec.RandomDraws P g) (hdraw : ∀ i, Measurable[ℱ i] fun ω => (g ω).expo i)
  (hnext : ∀ i, Indep (MeasurableSpace.comap (fun ω => (g ω).expo (i + 1)) inferInstance) (ℱ i) P) {r : ℕ → Ω → ℝ} (hrm : ∀ i, Measurable[ℱ i] (r i)) (hr : ∀ i ω, r i ω = 0 ∨ r i ω = 1)
  {a : ℝ → ℝ} (ha : Measurable a) (ha0 : ∀ e, 0 < e → 0 ≤ a e) {K : ℝ} (hK : 0 ≤ K) (haK : ∀ e, 0 < e → a e ≤ e + K)

omit [IsProbabilityMeasure P] in
include hdraw hrm ha in
theorem selWeight_adapted (n : ℕ) : Measurable[ℱ n] fun ω => selWeight a (n + 1) (fun i => r i ω) (g ω).expo := by
  have e : (fun ω => selWeight a (n + 1) (fun i => r i ω) (g ω).expo) = fun ω => selWeight a (n + 1) (cutSeq (n + 1) fun i => r i ω) (cutSeq (n + 1) (g ω).expo) := by
    funext ω
    exact selWeight_congr a (n + 1) (fun i hi => by simp [cutSeq, hi]) (fun i hi => by simp [cutSeq, hi])
  rw [e]
  have h1 := cutSeq_measurable (m := ℱ n) (u := r) (n + 1) fun i hi => (hrm i).mono (ℱ.mono (by omega)) le_rfl
  have h2 := cutSeq_measurable (m := ℱ n) (u := fun i ω => (g ω).expo i) (n + 1) fun i hi => (hdraw i).mono (ℱ.mono (by omega)) le_rfl
  exact (selWeight_measurable ha (n + 1)).comp (h1.prodMk h2)

include hg hdraw hrm hr ha hK haK in
theorem selWeight_memLp (n : ℕ) : MemLp (fun ω => selWeight a (n + 1) (fun i => r i ω) (g ω).expo) 2 P ∧
    ∫ ω, selWeight a (n + 1) (fun i => r i ω) (g ω).expo ^ 2 ∂P ≤ 4 * Real.exp K * harm (n + 1) ^ 2 := by
  obtain ⟨s1, s2⟩ := weight_memLp hg ha hK haK (n + 1)
  have hm : Measurable fun ω => selWeight a (n + 1) (fun i => r i ω) (g ω).expo := (selWeight_adapted hdraw hrm ha n).mono (ℱ.le n) le_rfl
  refine ⟨s1.mono hm.aestronglyMeasurable (Eventually.of_forall fun ω => ?_), le_trans (integral_mono_of_nonneg (Eventually.of_forall fun ω => sq_nonneg _) s1.integrable_sq
    (Eventually.of_forall fun ω => ?_)) s2⟩
  · rw [Real.norm_eq_abs, Real.norm_eq_abs, abs_of_nonneg (selWeight_nonneg (fun i => hr i ω) _ _), abs_of_nonneg (aliveWeight_nonneg _ _ _)]
    exact selWeight_le (fun i => hr i ω) _ _
  · exact pow_le_pow_left₀ (selWeight_nonneg (fun i => hr i ω) _ _) (selWeight_le (fun i => hr i ω) _ _) 2

include hg hdraw hnext hrm hr ha ha0 hK haK in
/-- Mean number of selected draws that find their next larger one at draw `n + 1`, given what is known at draw `n`. -/
theorem selCount_condExp (n : ℕ) : P[fun ω => selStep a (fun _ => 1) (n + 1) (fun i => r i ω) (g ω).expo | ℱ n] =ᵐ[P]
    fun ω => selWeight a (n + 1) (fun i => r i ω) (g ω).expo := by
  have hP : IsProbabilityMeasure (expMeasure 1) := isProbabilityMeasure_expMeasure one_pos
  have hF : Measurable fun _ : ℝ => (1 : ℝ) := measurable_const
  set F : ℝ → ℝ := fun _ => 1 with hFd
  have hL : ∫⁻ u, ENNReal.ofReal (F u ^ 2) ∂(expMeasure 1) = ENNReal.ofReal 1 := by simp [hFd]
  set S : Ω → (ℕ → ℝ) × (ℕ → ℝ) := fun ω => (cutSeq (n + 1) fun i => r i ω, cutSeq (n + 1) (g ω).expo) with hS
  have hSm : Measurable[ℱ n] S := by
    have h1 := cutSeq_measurable (m := ℱ n) (u := r) (n + 1) fun i hi => (hrm i).mono (ℱ.mono (by omega)) le_rfl
    have h2 := cutSeq_measurable (m := ℱ n) (u := fun i ω => (g ω).expo i) (n + 1) fun i hi => (hdraw i).mono (ℱ.mono (by omega)) le_rfl
    exact h1.prodMk h2
  set f : ((ℕ → ℝ) × (ℕ → ℝ)) × ℝ → ℝ := fun q => selStep a F (n + 1) q.1.1 (withNext (n + 1) (q.1.2, q.2)) with hf
  have hfm : Measurable f := (selStep_measurable ha hF (n + 1)).comp ((measurable_fst.comp measurable_fst).prodMk
    ((withNext_measurable (n + 1)).comp ((measurable_snd.comp measurable_fst).prodMk measurable_snd)))
  have e : (fun ω => selStep a F (n + 1) (fun i => r i ω) (g ω).expo) = fun ω => f (S ω, (g ω).expo (n + 1)) := by
    funext ω
    refine selStep_congr a F (n + 1) (fun i hi => by simp [hS, cutSeq, hi]) fun i hi => ?_
    unfold withNext
    by_cases h : i = n + 1
    · rw [if_pos h, h]
    · rw [if_neg h]; simp [hS, cutSeq, show i < n + 1 by omega]
  obtain ⟨m1, -⟩ := selStep_memLp hg hdraw hrm hr ha ha0 hK haK hF zero_le_one hL (n + 1)
  have hint := m1.integrable (by norm_num : (1 : ENNReal) ≤ 2)
  rw [e] at hint ⊢
  refine (condExp_known (ℱ.le n) hSm (hg.expo_measurable (n + 1)) (hnext n) (hg.expo_law (n + 1)) hfm hint).trans ?_
  have hpos : ∀ᵐ ω ∂P, ∀ i, 0 < (g ω).expo i := ae_all_iff.2 fun i => expo_pos hg i
  filter_upwards [hpos] with ω hω
  have hval : ∀ y, f (S ω, y) = ∑ i ∈ Finset.range (n + 1), (r i ω * alive a (g ω).expo i (n + 1)) * excessOf a F ((g ω).expo i, y) := by
    intro y
    rw [hf]
    simp only
    unfold selStep
    refine Finset.sum_congr rfl fun i hi => ?_
    have hi' := Finset.mem_range.1 hi
    have hw : ∀ l < n + 1, withNext (n + 1) ((S ω).2, y) l = (g ω).expo l := by
      intro l hl
      unfold withNext
      rw [if_neg (by omega)]
      simp [hS, cutSeq, hl]
    rw [alive_congr a hi' hw, hw i hi', show withNext (n + 1) ((S ω).2, y) (n + 1) = y by simp [withNext], show (S ω).1 i = r i ω by simp [hS, cutSeq, hi'], mul_assoc]
  simp only [hval]
  rw [integral_finsetSum]
  · refine Finset.sum_congr rfl fun i _ => ?_
    have hm : Measurable fun y => excessOf a F ((g ω).expo i, y) := (excessOf_measurable ha hF).comp (measurable_const.prodMk measurable_id)
    have h0 : ∀ y, 0 ≤ excessOf a F ((g ω).expo i, y) := fun y => by unfold excessOf; split_ifs <;> simp [hFd]
    rw [integral_const_mul, integral_eq_lintegral_of_nonneg_ae (Eventually.of_forall h0) hm.aestronglyMeasurable,
      excess_lintegral (F := F) hF (L := 1) (by simp [hFd]) (ha0 _ (hω i)), one_mul, ENNReal.toReal_ofReal (growP_pos _ _).le, mul_assoc]
  · intro i _
    refine Integrable.const_mul ?_ _
    exact excess_integrable ha hF hL (ha0 _ (hω i))

include hg hdraw hnext hrm hr ha ha0 hK haK in
/-- The number of selected draws with a next larger one, less its compensator, is small relative to the number of draws. -/
theorem selCount_gap : ∀ᵐ ω ∂P, Tendsto (fun n : ℕ => (selSum a (fun _ => 1) n (fun i => r i ω) (g ω).expo - ∑ k ∈ Finset.range n, selWeight a k (fun i => r i ω) (g ω).expo) / n)
    atTop (𝓝 0) := by
  have hF : Measurable fun _ : ℝ => (1 : ℝ) := measurable_const
  have hP : IsProbabilityMeasure (expMeasure 1) := isProbabilityMeasure_expMeasure one_pos
  have hL : ∫⁻ u, ENNReal.ofReal ((fun _ : ℝ => (1 : ℝ)) u ^ 2) ∂(expMeasure 1) = ENNReal.ofReal 1 := by simp
  have mS := fun n => selStep_memLp hg hdraw hrm hr ha ha0 hK haK hF zero_le_one hL (n + 1)
  have mW := fun n => selWeight_memLp hg hdraw hrm hr ha hK haK n
  set S : ℕ → Ω → ℝ := fun n ω => selStep a (fun _ => 1) (n + 1) (fun i => r i ω) (g ω).expo with hS
  set W : ℕ → Ω → ℝ := fun n ω => selWeight a (n + 1) (fun i => r i ω) (g ω).expo with hW
  have h := martingale_mean (P := P) (ℱ := ℱ) (d := fun n ω => S n ω - W n ω) (c := fun n => 16 * Real.exp K * harm (n + 1) ^ 2)
    (fun n => (selStep_adapted hdraw hrm ha hF (n + 1)).sub ((selWeight_adapted hdraw hrm ha n).mono (ℱ.mono (by omega)) le_rfl))
    (fun n => (mS n).1.sub (mW n).1) (fun n => ?_) (fun n => ?_) (harm_summable _)
  · filter_upwards [h] with ω hω
    have h2 := mean_of_shift (f := fun k => selStep a (fun _ => 1) k (fun i => r i ω) (g ω).expo - selWeight a k (fun i => r i ω) (g ω).expo) (by simp [selStep, selWeight]) hω
    refine h2.congr fun n => ?_
    rw [Finset.sum_sub_distrib]
    rfl
  · have i1 := (mS n).1.integrable (by norm_num : (1 : ENNReal) ≤ 2)
    have i2 := (mW n).1.integrable (by norm_num : (1 : ENNReal) ≤ 2)
    have c1 := selCount_condExp hg hdraw hnext hrm hr ha ha0 hK haK n
    have c2 : P[W n | ℱ n] = W n := condExp_of_stronglyMeasurable (ℱ.le n) (selWeight_adapted hdraw hrm ha n).stronglyMeasurable i2
    filter_upwards [condExp_sub i1 i2 (ℱ n), c1] with ω e1 e2
    change (P[S n - W n | ℱ n]) ω = 0
    rw [e1, Pi.sub_apply, c2]
    have e2' : (P[S n | ℱ n]) ω = W n ω := e2
    rw [e2', sub_self]
  · have i1 := (mS n).1.integrable_sq
    have i2 := (mW n).1.integrable_sq
    calc ∫ ω, (S n ω - W n ω) ^ 2 ∂P ≤ ∫ ω, (2 * S n ω ^ 2 + 2 * W n ω ^ 2) ∂P := by
          refine integral_mono_of_nonneg (Eventually.of_forall fun ω => sq_nonneg _) ((i1.const_mul 2).add (i2.const_mul 2)) (Eventually.of_forall fun ω => ?_)
          simp only
          nlinarith [sq_nonneg (S n ω + W n ω)]
      _ = 2 * ∫ ω, S n ω ^ 2 ∂P + 2 * ∫ ω, W n ω ^ 2 ∂P := by rw [integral_add (i1.const_mul 2) (i2.const_mul 2), integral_const_mul, integral_const_mul]
      _ ≤ 2 * (4 * Real.exp K * 1 * harm (n + 1) ^ 2) + 2 * (4 * Real.exp K * harm (n + 1) ^ 2) := by
          have := (mS n).2; have := (mW n).2
          linarith
      _ = 16 * Real.exp K * harm (n + 1) ^ 2 := by ring

variable {w : ℕ → Ω → ℝ} {τ : ℝ} (hw : Waits P w τ) (hwm : ∀ i, Measurable[ℱ i] (w i)) (hwn : ∀ i, Indep (MeasurableSpace.comap (w (i + 1)) inferInstance) (ℱ i) P)

include hg hdraw hrm hr ha hK haK hw hwm hwn in
/-- The waiting times of the selected draws are close to their mean. -/
theorem selWait_gap : ∀ᵐ ω ∂P, Tendsto (fun n : ℕ => (∑ k ∈ Finset.range n, (w k ω - τ) * selWeight a k (fun i => r i ω) (g ω).expo) / n) atTop (𝓝 0) := by
  have mW := fun n => selWeight_memLp hg hdraw hrm hr ha hK haK n
  have aW := fun n => selWeight_adapted (a := a) hdraw hrm ha n
  set W : ℕ → Ω → ℝ := fun n ω => selWeight a (n + 1) (fun i => r i ω) (g ω).expo with hW
  set V := ∫ ω, (w 0 ω - τ) ^ 2 ∂P with hV
  have hV0 : 0 ≤ V := integral_nonneg fun ω => sq_nonneg _
  have hind : ∀ n, IndepFun (W n) (w (n + 1)) P := fun n => (indep_of_indep_of_le_right (hwn n) (aW n).comap_le).symm
  have hcen := fun n => hw.centred (n + 1)
  have hind2 : ∀ n, IndepFun (fun ω => (w (n + 1) ω - τ) ^ 2) (fun ω => W n ω ^ 2) P := fun n =>
    ((hind n).symm.comp (φ := fun x : ℝ => (x - τ) ^ 2) (ψ := fun x : ℝ => x ^ 2) (by fun_prop) (by fun_prop))
  have hWm : ∀ n, Measurable (W n) := fun n => (aW n).mono (ℱ.le n) le_rfl
  have hsq : ∀ n ω, ((w (n + 1) ω - τ) * W n ω) ^ 2 = (w (n + 1) ω - τ) ^ 2 * W n ω ^ 2 := fun n ω => by ring
  have hm : ∀ n, MemLp (fun ω => (w (n + 1) ω - τ) * W n ω) 2 P := by
    intro n
    have hmm : Measurable fun ω => (w (n + 1) ω - τ) * W n ω := ((hw.meas (n + 1)).sub_const τ).mul (hWm n)
    rw [memLp_two_iff_integrable_sq hmm.aestronglyMeasurable]
    simp only [hsq]
    exact (hind2 n).integrable_mul (hcen n).1.integrable_sq (mW n).1.integrable_sq
  have h := martingale_mean (P := P) (ℱ := ℱ) (d := fun n ω => (w (n + 1) ω - τ) * W n ω) (c := fun n => V * (4 * Real.exp K) * harm (n + 1) ^ 2)
    (fun n => ((hwm (n + 1)).sub_const τ).mul ((aW n).mono (ℱ.mono (by omega)) le_rfl)) hm (fun n => ?_) (fun n => ?_) (harm_summable _)
  · filter_upwards [h] with ω hω
    exact mean_of_shift (f := fun k => (w k ω - τ) * selWeight a k (fun i => r i ω) (g ω).expo) (by simp [selWeight]) hω
  · have hμ : IsProbabilityMeasure (P.map (w (n + 1))) := Measure.isProbabilityMeasure_map (hw.meas _).aemeasurable
    have hc := condExp_known (μ := P.map (w (n + 1))) (ℱ.le n) (aW n) (hw.meas (n + 1)) (hwn n) rfl (f := fun q : ℝ × ℝ => (q.2 - τ) * q.1) (by fun_prop)
      ((hm n).integrable (by norm_num : (1 : ENNReal) ≤ 2))
    refine hc.trans (Eventually.of_forall fun ω => ?_)
    simp only [Pi.zero_apply]
    rw [integral_mul_const, integral_map (hw.meas _).aemeasurable (by fun_prop)]
    rw [(hcen n).2.1, zero_mul]
  · simp only [hsq]
    rw [(hind2 n).integral_fun_mul_eq_mul_integral (((hw.meas (n + 1)).sub_const τ).pow_const 2).aestronglyMeasurable ((hWm n).pow_const 2).aestronglyMeasurable, (hcen n).2.2]
    calc V * ∫ ω, W n ω ^ 2 ∂P ≤ V * (4 * Real.exp K * harm (n + 1) ^ 2) := mul_le_mul_of_nonneg_left (mW n).2 hV0
      _ = _ := by ring

end Selected

/-- Waiting times and counts: the waited time per found draw converges. -/
theorem selWait_ratio {a : ℝ → ℝ} {τ ρ : ℝ} {r v w : ℕ → ℝ} (hr : ∀ i, r i = 0 ∨ r i = 1) (hρ : 0 < ρ) (hdense : ∀ᶠ n : ℕ in atTop, ρ * n ≤ ∑ i ∈ Finset.range n, r i)
    (hw : Tendsto (fun n : ℕ => nextSum a (fun _ => 1) n v / n) atTop (𝓝 1))
    (h1 : Tendsto (fun n : ℕ => (selSum a (fun _ => 1) n r v - ∑ k ∈ Finset.range n, selWeight a k r v) / n) atTop (𝓝 0))
    (h2 : Tendsto (fun n : ℕ => (∑ k ∈ Finset.range n, (w k - τ) * selWeight a k r v) / n) atTop (𝓝 0)) :
    (∀ᶠ n in atTop, 0 < selSum a (fun _ => 1) n r v) ∧
      Tendsto (fun n => (∑ k ∈ Finset.range n, w k * selWeight a k r v) / selSum a (fun _ => 1) n r v) atTop (𝓝 τ) := by
  have hhalf : ∀ᶠ n : ℕ in atTop, 0 < n ∧ ρ / 2 * n ≤ selSum a (fun _ => 1) n r v := by
    filter_upwards [hdense, hw.eventually (lt_mem_nhds (show 1 - ρ / 2 < 1 by linarith)), eventually_gt_atTop 0] with n h1 h2 h3
    have hn : (0 : ℝ) < n := by exact_mod_cast h3
    refine ⟨h3, ?_⟩
    have h4 := selSum_one a n r v
    have h5 := nextSum_one a n v
    have h6 : ∑ i ∈ Finset.range n, r i * alive a v i n ≤ waiting a n v := by
      unfold waiting
      refine Finset.sum_le_sum fun i _ => ?_
      have := alive_nonneg a v i n
      rcases hr i with h | h <;> rw [h] <;> linarith
    rw [lt_div_iff₀ hn] at h2
    nlinarith
  set C : ℕ → ℝ := fun n => selSum a (fun _ => 1) n r v with hC
  refine ⟨?_, ?_⟩
  · filter_upwards [hhalf] with n ⟨h1, h2⟩
    have hn : (0 : ℝ) < n := by exact_mod_cast h1
    have : 0 < ρ / 2 * n := by positivity
    linarith
  · set D : ℕ → ℝ := fun n => (∑ k ∈ Finset.range n, w k * selWeight a k r v) - τ * C n with hD
    have h0 : Tendsto (fun n : ℕ => D n / n) atTop (𝓝 0) := by
      have h3 := h2.sub (h1.const_mul τ)
      rw [mul_zero, sub_zero] at h3
      refine h3.congr fun n => ?_
      have e : ∑ k ∈ Finset.range n, (w k - τ) * selWeight a k r v = (∑ k ∈ Finset.range n, w k * selWeight a k r v) - τ * ∑ k ∈ Finset.range n, selWeight a k r v := by
        rw [Finset.mul_sum, ← Finset.sum_sub_distrib]
        exact Finset.sum_congr rfl fun k _ => by ring
      rw [e, hD]
      ring
    have hz : Tendsto (fun n => D n / C n) atTop (𝓝 0) := by
      have h1 : Tendsto (fun n : ℕ => 2 / ρ * |D n / n|) atTop (𝓝 0) := by
        have := h0.abs.const_mul (2 / ρ)
        simpa using this
      refine squeeze_zero_norm' ?_ h1
      filter_upwards [hhalf] with n ⟨h2, h3⟩
      have hn : (0 : ℝ) < n := by exact_mod_cast h2
      have hp : 0 < ρ / 2 * n := by positivity
      rw [Real.norm_eq_abs, abs_div, abs_div, abs_of_pos hn, abs_of_pos (lt_of_lt_of_le hp h3)]
      calc _ ≤ |D n| / (ρ / 2 * n) := div_le_div_of_nonneg_left (abs_nonneg _) hp h3
        _ = _ := by field_simp
    have h4 := hz.const_add τ
    rw [add_zero] at h4
    refine h4.congr' ?_
    filter_upwards [hhalf] with n ⟨h2, h3⟩
    have hn : (0 : ℝ) < n := by exact_mod_cast h2
    have hp : 0 < ρ / 2 * n := by positivity
    have hc : C n ≠ 0 := (lt_of_lt_of_le hp h3).ne'
    rw [hD]
    simp only
    rw [sub_div, mul_div_cancel_right₀ _ hc]
    ring

end
end SeismoStats.Props
