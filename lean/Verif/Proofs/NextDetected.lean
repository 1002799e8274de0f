/-
The strong law for next larger draws, restricted to first members that are selected by what is known at their time.
-/
import Verif.Proofs.Adapted
import Verif.Proofs.NextLaw

namespace SeismoStats.Props
open SeismoStats SeismoStats.Simulate MeasureTheory ProbabilityTheory Filter Topology
open Classical
noncomputable section

section Generic

variable {Ω : Type} [m0 : MeasurableSpace Ω] {P : Measure Ω} [IsProbabilityMeasure P] {ℱ : Filtration ℕ m0} {d : ℕ → Ω → ℝ}

/-- Weighted sum of martingale differences. -/
def diffSum (d : ℕ → Ω → ℝ) (n : ℕ) (ω : Ω) : ℝ := ∑ k ∈ Finset.range n, d k ω / ((k : ℝ) + 1)

variable (hd : ∀ n, Measurable[ℱ (n + 1)] (d n)) (hL : ∀ n, MemLp (d n) 2 P) (h0 : ∀ n, P[d n | ℱ n] =ᵐ[P] 0)

omit [IsProbabilityMeasure P] in
include hd in
theorem diffSum_adapted (n : ℕ) : Measurable[ℱ n] (diffSum d n) := by
  unfold diffSum
  refine Finset.measurable_sum _ fun k hk => ?_
  exact ((hd k).mono (ℱ.mono (Finset.mem_range.1 hk)) le_rfl).div_const _

omit [IsProbabilityMeasure P] in
include hL in
theorem diffSum_memLp (n : ℕ) : MemLp (diffSum d n) 2 P := by
  have : diffSum d n = ∑ k ∈ Finset.range n, fun ω => d k ω / ((k : ℝ) + 1) := by
    funext ω; simp [diffSum]
  rw [this]
  refine memLp_finsetSum' _ fun k _ => ?_
  simp only [div_eq_mul_inv]
  exact (hL k).mul_const _

include hd hL h0 in
theorem diffSum_second (n : ℕ) : ∫ ω, diffSum d n ω ^ 2 ∂P = ∑ k ∈ Finset.range n, (∫ ω, d k ω ^ 2 ∂P) / ((k : ℝ) + 1) ^ 2 := by
  induction n with
  | zero => simp [diffSum]
  | succ n ih =>
    have es : diffSum d (n + 1) = fun ω => diffSum d n ω + d n ω / ((n : ℝ) + 1) := by
      funext ω; exact Finset.sum_range_succ _ _
    have i1 := diffSum_memLp hL n
    have hcross : Integrable (fun ω => diffSum d n ω * d n ω) P := i1.integrable_mul (hL n)
    have hzero : ∫ ω, diffSum d n ω * d n ω ∂P = 0 := by
      have h := condExp_mul_of_stronglyMeasurable_left (m := ℱ n) (μ := P) (diffSum_adapted hd n).stronglyMeasurable hcross ((hL n).integrable (by norm_num))
      rw [← integral_condExp (ℱ.le n)]
      rw [integral_congr_ae (g := fun _ => (0 : ℝ))]
      · simp
      · refine h.trans ?_
        filter_upwards [h0 n] with ω hω
        simp [hω]
    have e : ∀ ω, (diffSum d n ω + d n ω / ((n : ℝ) + 1)) ^ 2 = diffSum d n ω ^ 2 + (2 / ((n : ℝ) + 1) * (diffSum d n ω * d n ω) + d n ω ^ 2 / ((n : ℝ) + 1) ^ 2) := by
      intro ω
      have : (n : ℝ) + 1 ≠ 0 := by positivity
      field_simp
      ring
    have j1 : Integrable (fun ω => 2 / ((n : ℝ) + 1) * (diffSum d n ω * d n ω)) P := hcross.const_mul _
    have j2 : Integrable (fun ω => d n ω ^ 2 / ((n : ℝ) + 1) ^ 2) P := (hL n).integrable_sq.div_const _
    have j3 : Integrable (fun ω => 2 / ((n : ℝ) + 1) * (diffSum d n ω * d n ω) + d n ω ^ 2 / ((n : ℝ) + 1) ^ 2) P := j1.add j2
    rw [es]
    simp only [e]
    rw [integral_add i1.integrable_sq j3, integral_add j1 j2, integral_const_mul, hzero, integral_div, ih, Finset.sum_range_succ]
    ring

include hd hL h0 in
/-- Means of martingale differences converge to zero if their second moments do not grow too fast. -/
theorem martingale_mean {c : ℕ → ℝ} (hc : ∀ n, ∫ ω, d n ω ^ 2 ∂P ≤ c n) (hs : Summable fun n : ℕ => c n / ((n : ℝ) + 1) ^ 2) :
    ∀ᵐ ω ∂P, Tendsto (fun n : ℕ => (∑ k ∈ Finset.range n, d k ω) / n) atTop (𝓝 0) := by
  have hc0 : ∀ n, 0 ≤ c n := fun n => le_trans (integral_nonneg fun ω => sq_nonneg _) (hc n)
  have hM : Martingale (diffSum d) ℱ P := by
    refine martingale_of_condExp_sub_eq_zero_nat (fun n => (diffSum_adapted hd n).stronglyMeasurable)
      (fun n => (diffSum_memLp hL n).integrable (by norm_num)) fun n => ?_
    have e : diffSum d (n + 1) - diffSum d n = (1 / ((n : ℝ) + 1)) • d n := by
      funext ω
      simp only [Pi.sub_apply, Pi.smul_apply, smul_eq_mul]
      rw [sub_eq_iff_eq_add', one_div_mul_eq_div]
      exact Finset.sum_range_succ _ _
    rw [e]
    refine (condExp_smul _ _ _).trans ?_
    filter_upwards [h0 n] with ω hω
    simp [hω]
  set B := ∑' n : ℕ, c n / ((n : ℝ) + 1) ^ 2 with hB
  have hbound : ∀ n, ∫ ω, diffSum d n ω ^ 2 ∂P ≤ B := by
    intro n
    rw [diffSum_second hd hL h0]
    refine (Finset.sum_le_sum fun k _ => div_le_div_of_nonneg_right (hc k) (by positivity)).trans ?_
    exact hs.sum_le_tsum _ fun k _ => div_nonneg (hc0 k) (by positivity)
  have hconv := hM.submartingale.exists_ae_tendsto_of_bdd (R := Real.toNNReal (1 + B)) fun n => by
    have i1 := diffSum_memLp (P := P) hL n
    rw [eLpNorm_one_eq_lintegral_enorm]
    calc ∫⁻ ω, ‖diffSum d n ω‖ₑ ∂P ≤ ∫⁻ ω, ENNReal.ofReal (1 + diffSum d n ω ^ 2) ∂P := by
          refine lintegral_mono fun ω => ?_
          rw [Real.enorm_eq_ofReal_abs]
          refine ENNReal.ofReal_le_ofReal ?_
          rw [← sq_abs]
          nlinarith [sq_nonneg (|diffSum d n ω| - 1), abs_nonneg (diffSum d n ω)]
      _ = ENNReal.ofReal (∫ ω, (1 + diffSum d n ω ^ 2) ∂P) :=
          (ofReal_integral_eq_lintegral_ofReal ((integrable_const 1).add i1.integrable_sq) (Eventually.of_forall fun ω => add_nonneg zero_le_one (sq_nonneg _))).symm
      _ ≤ ENNReal.ofReal (1 + B) := by
          refine ENNReal.ofReal_le_ofReal ?_
          rw [integral_add (integrable_const 1) i1.integrable_sq]
          simp only [integral_const, probReal_univ, smul_eq_mul, mul_one]
          linarith [hbound n]
      _ = _ := rfl
  filter_upwards [hconv] with ω ⟨l, hl⟩
  have hmono : Monotone fun n : ℕ => (n : ℝ) + 1 := fun i j hij => by
    have : (i : ℝ) ≤ j := by exact_mod_cast hij
    simpa using this
  have h := kronecker_lemma hmono (tendsto_atTop_add_const_right _ 1 tendsto_natCast_atTop_atTop) hl
  have e : ∀ n : ℕ, ∑ k ∈ Finset.range n, ((k : ℝ) + 1) * (d k ω / ((k : ℝ) + 1)) = ∑ k ∈ Finset.range n, d k ω := by
    intro n
    refine Finset.sum_congr rfl fun k _ => ?_
    have : (k : ℝ) + 1 ≠ 0 := by positivity
    field_simp
  simp only [e] at h
  have h4 : Tendsto (fun n : ℕ => 1 + 1 / (n : ℝ)) atTop (𝓝 (1 + 0)) := tendsto_const_nhds.add (tendsto_const_div_atTop_nhds_zero_nat 1)
  have h5 := h.mul h4
  rw [zero_mul] at h5
  refine h5.congr' ?_
  filter_upwards [eventually_gt_atTop 0] with n hn
  have : (0 : ℝ) < n := by exact_mod_cast hn
  field_simp

end Generic

/-- The reciprocals grow slowly. -/
theorem harm_summable (C : ℝ) : Summable fun n : ℕ => C * harm (n + 1) ^ 2 / ((n : ℝ) + 1) ^ 2 := by
  have hb : ∀ n : ℕ, harm (n + 1) ≤ 5 * ((n : ℝ) + 1) ^ (1 / 4 : ℝ) := by
    intro n
    have h := harmonic_le_one_add_log (n + 1)
    have e : ((harmonic (n + 1) : ℚ) : ℝ) = harm (n + 1) := by
      unfold harmonic harm
      push_cast
      refine Finset.sum_congr rfl fun i _ => ?_
      rw [one_div]
    rw [e] at h
    have h1 := Real.log_le_rpow_div (x := ((n + 1 : ℕ) : ℝ)) (by positivity) (ε := 1 / 4) (by norm_num)
    have h2 : (1 : ℝ) ≤ ((n : ℝ) + 1) ^ (1 / 4 : ℝ) := Real.one_le_rpow (by have : (0 : ℝ) ≤ n := Nat.cast_nonneg n; linarith) (by norm_num)
    push_cast at h h1
    linarith
  have hs : Summable fun n : ℕ => (25 * |C|) * ((n : ℝ) + 1) ^ (-(3 / 2) : ℝ) := by
    have := (summable_nat_add_iff (f := fun n : ℕ => (n : ℝ) ^ (-(3 / 2) : ℝ)) 1).2 (Real.summable_nat_rpow.2 (by norm_num))
    refine (this.mul_left (25 * |C|)).congr fun n => ?_
    push_cast
    rfl
  refine Summable.of_norm_bounded hs fun n => ?_
  have hp : (0 : ℝ) < (n : ℝ) + 1 := by positivity
  have h1 : harm (n + 1) ^ 2 ≤ 25 * ((n : ℝ) + 1) ^ (1 / 2 : ℝ) := by
    refine (pow_le_pow_left₀ (harm_nonneg _) (hb n) 2).trans (le_of_eq ?_)
    rw [mul_pow, ← Real.rpow_natCast (((n : ℝ) + 1) ^ (1 / 4 : ℝ)) 2, ← Real.rpow_mul hp.le]
    norm_num
  rw [Real.norm_eq_abs, abs_div, abs_mul, abs_of_nonneg (sq_nonneg (harm (n + 1))), abs_of_nonneg (sq_nonneg ((n : ℝ) + 1)), div_le_iff₀ (by positivity)]
  have h2 : ((n : ℝ) + 1) ^ (-(3 / 2) : ℝ) * ((n : ℝ) + 1) ^ 2 = ((n : ℝ) + 1) ^ (1 / 2 : ℝ) := by
    rw [← Real.rpow_natCast ((n : ℝ) + 1) 2, ← Real.rpow_add hp]
    norm_num
  calc |C| * harm (n + 1) ^ 2 ≤ |C| * (25 * ((n : ℝ) + 1) ^ (1 / 2 : ℝ)) := mul_le_mul_of_nonneg_left h1 (abs_nonneg _)
    _ = _ := by rw [mul_assoc (25 * |C|), h2]; ring


section Selected

variable {Ω : Type} [m0 : MeasurableSpace Ω] {P : Measure Ω} {g : Ω → Rng} {ℱ : Filtration ℕ m0}

/-- Sum over the selected draws for which draw `n` is the first to reach the threshold. -/
def selStep (a F : ℝ → ℝ) (n : ℕ) (r v : ℕ → ℝ) : ℝ := ∑ i ∈ Finset.range n, r i * (alive a v i n * excessOf a F (v i, v n))

/-- Sum over all pairs whose first member is selected, among the first `n` draws. -/
def selSum (a F : ℝ → ℝ) (n : ℕ) (r v : ℕ → ℝ) : ℝ := ∑ j ∈ Finset.range n, selStep a F j r v

theorem excess_abs (a F : ℝ → ℝ) (q : ℝ × ℝ) : |excessOf a F q| = excessOf a (fun u => |F u|) q := by
  unfold excessOf; split_ifs <;> simp

theorem selStep_abs {a F : ℝ → ℝ} {r : ℕ → ℝ} (hr : ∀ i, r i = 0 ∨ r i = 1) (n : ℕ) (v : ℕ → ℝ) : |selStep a F n r v| ≤ step a (fun u => |F u|) n v := by
  unfold selStep step
  refine (Finset.abs_sum_le_sum_abs _ _).trans (Finset.sum_le_sum fun i _ => ?_)
  rw [abs_mul, abs_mul, abs_of_nonneg (alive_nonneg a v i n), excess_abs]
  have h0 : 0 ≤ alive a v i n * excessOf a (fun u => |F u|) (v i, v n) := by
    refine mul_nonneg (alive_nonneg _ _ _ _) ?_
    rw [← excess_abs]; exact abs_nonneg _
  rcases hr i with h | h <;> rw [h] <;> simp [h0]

theorem selStep_congr (a F : ℝ → ℝ) (n : ℕ) {r r' v v' : ℕ → ℝ} (hr : ∀ i < n, r i = r' i) (hv : ∀ i < n + 1, v i = v' i) : selStep a F n r v = selStep a F n r' v' := by
  unfold selStep
  refine Finset.sum_congr rfl fun i hi => ?_
  have hi' := Finset.mem_range.1 hi
  rw [hr i hi', alive_congr a hi' fun l hl => hv l (by omega), hv i (by omega), hv n (by omega)]

theorem selStep_measurable {a F : ℝ → ℝ} (ha : Measurable a) (hF : Measurable F) (n : ℕ) : Measurable fun q : (ℕ → ℝ) × (ℕ → ℝ) => selStep a F n q.1 q.2 := by
  unfold selStep
  refine Finset.measurable_sum _ fun i _ => ((measurable_pi_apply i).comp measurable_fst).mul (((alive_measurable ha i n).comp measurable_snd).mul
    ((excessOf_measurable ha hF).comp (((measurable_pi_apply i).comp measurable_snd).prodMk ((measurable_pi_apply n).comp measurable_snd))))

/-- The first values of a sequence. -/
def cutSeq (n : ℕ) (v : ℕ → ℝ) (i : ℕ) : ℝ := if i < n then v i else 0

theorem cutSeq_measurable {Ω : Type} [m : MeasurableSpace Ω] {u : ℕ → Ω → ℝ} (n : ℕ) (h : ∀ i < n, Measurable (u i)) : Measurable fun ω => cutSeq n fun i => u i ω := by
  refine measurable_pi_iff.2 fun i => ?_
  unfold cutSeq
  by_cases hi : i < n
  · simp only [if_pos hi]; exact h i hi
  · simp only [if_neg hi]; exact measurable_const

theorem excess_integrable {a F : ℝ → ℝ} (ha : Measurable a) (hF : Measurable F) {L : ℝ} (hL : ∫⁻ u, ENNReal.ofReal (F u ^ 2) ∂(expMeasure 1) = ENNReal.ofReal L) {e : ℝ} (he : 0 ≤ a e) :
    Integrable (fun y => excessOf a F (e, y)) (expMeasure 1) := by
  have hP : IsProbabilityMeasure (expMeasure 1) := isProbabilityMeasure_expMeasure one_pos
  have hm : Measurable fun y => excessOf a F (e, y) := (excessOf_measurable ha hF).comp (measurable_const.prodMk measurable_id)
  have h2 : Integrable (fun y => excessOf a F (e, y) ^ 2) (expMeasure 1) := by
    refine ⟨(hm.pow_const 2).aestronglyMeasurable, ?_⟩
    rw [hasFiniteIntegral_iff_ofReal (Eventually.of_forall fun u => sq_nonneg _)]
    simp only [excess_sq]
    rw [excess_lintegral (hF.pow_const 2) hL he]
    exact ENNReal.ofReal_lt_top
  exact ((memLp_two_iff_integrable_sq hm.aestronglyMeasurable).2 h2).integrable (by norm_num)

/-- A sequence with one value replaced. -/
def withNext (n : ℕ) (q : (ℕ → ℝ) × ℝ) (i : ℕ) : ℝ := if i = n then q.2 else q.1 i

theorem withNext_measurable (n : ℕ) : Measurable (withNext n) := by
  refine measurable_pi_iff.2 fun i => ?_
  unfold withNext
  by_cases h : i = n
  · simp only [if_pos h]; exact measurable_snd
  · simp only [if_neg h]; exact (measurable_pi_apply i).comp measurable_fst

variable [IsProbabilityMeasure P] (hg : Spec.RandomDraws P g) (hdraw : ∀ i, Measurable[ℱ i] fun ω => (g ω).expo i)
  (hnext : ∀ i, Indep (MeasurableSpace.comap (fun ω => (g ω).expo (i + 1)) inferInstance) (ℱ i) P) {r : ℕ → Ω → ℝ} (hrm : ∀ i, Measurable[ℱ i] (r i)) (hr : ∀ i ω, r i ω = 0 ∨ r i ω = 1)
  {a F : ℝ → ℝ} (ha : Measurable a) (ha0 : ∀ e, 0 < e → 0 ≤ a e) {K : ℝ} (hK : 0 ≤ K) (haK : ∀ e, 0 < e → a e ≤ e + K)
  (hF : Measurable F) {L : ℝ} (hL0 : 0 ≤ L) (hL : ∫⁻ u, ENNReal.ofReal (F u ^ 2) ∂(expMeasure 1) = ENNReal.ofReal L) (h0 : ∫ u, F u ∂(expMeasure 1) = 0)

omit [IsProbabilityMeasure P] in
include hdraw hrm in
theorem selStep_adapted (ha : Measurable a) (hF : Measurable F) (n : ℕ) : Measurable[ℱ n] fun ω => selStep a F n (fun i => r i ω) (g ω).expo := by
  have e : (fun ω => selStep a F n (fun i => r i ω) (g ω).expo) = fun ω => selStep a F n (cutSeq n fun i => r i ω) (cutSeq (n + 1) (g ω).expo) := by
    funext ω
    exact selStep_congr a F n (fun i hi => by simp [cutSeq, hi]) (fun i hi => by simp [cutSeq, hi])
  rw [e]
  have h1 := cutSeq_measurable (m := ℱ n) (u := r) n fun i hi => (hrm i).mono (ℱ.mono hi.le) le_rfl
  have h2 := cutSeq_measurable (m := ℱ n) (u := fun i ω => (g ω).expo i) (n + 1) fun i hi => (hdraw i).mono (ℱ.mono (by omega)) le_rfl
  exact (selStep_measurable ha hF n).comp (h1.prodMk h2)

include hg hdraw hrm hr ha ha0 hK haK hF hL0 hL in
theorem selStep_memLp (n : ℕ) : MemLp (fun ω => selStep a F n (fun i => r i ω) (g ω).expo) 2 P ∧
    ∫ ω, selStep a F n (fun i => r i ω) (g ω).expo ^ 2 ∂P ≤ 4 * Real.exp K * L * harm n ^ 2 := by
  have hL' : ∫⁻ u, ENNReal.ofReal (|F u| ^ 2) ∂(expMeasure 1) = ENNReal.ofReal L := by simp only [sq_abs]; exact hL
  obtain ⟨s1, s2⟩ := step_memLp hg ha ha0 hK haK hF.abs hL0 hL' n
  have hm : Measurable fun ω => selStep a F n (fun i => r i ω) (g ω).expo := (selStep_adapted hdraw hrm ha hF n).mono (ℱ.le n) le_rfl
  have hb : ∀ ω, |selStep a F n (fun i => r i ω) (g ω).expo| ≤ step a (fun u => |F u|) n (g ω).expo := fun ω => selStep_abs (fun i => hr i ω) n _
  have h1 : MemLp (fun ω => selStep a F n (fun i => r i ω) (g ω).expo) 2 P := by
    refine s1.mono hm.aestronglyMeasurable (Eventually.of_forall fun ω => ?_)
    rw [Real.norm_eq_abs, Real.norm_eq_abs]
    exact (hb ω).trans (le_abs_self _)
  refine ⟨h1, le_trans (integral_mono_of_nonneg (Eventually.of_forall fun ω => sq_nonneg _) s1.integrable_sq (Eventually.of_forall fun ω => ?_)) s2⟩
  simp only
  rw [← sq_abs]
  exact pow_le_pow_left₀ (abs_nonneg _) (hb ω) 2

include hg hdraw hnext hrm hr ha ha0 hK haK hF hL0 hL h0 in
theorem selStep_condExp (n : ℕ) : P[fun ω => selStep a F (n + 1) (fun i => r i ω) (g ω).expo | ℱ n] =ᵐ[P] 0 := by
  have hP : IsProbabilityMeasure (expMeasure 1) := isProbabilityMeasure_expMeasure one_pos
  set S : Ω → (ℕ → ℝ) × (ℕ → ℝ) := fun ω => (cutSeq (n + 1) fun i => r i ω, cutSeq (n + 1) (g ω).expo) with hS
  have hSm : Measurable[ℱ n] S := by
    have h1 := cutSeq_measurable (m := ℱ n) (u := r) (n + 1) fun i hi => (hrm i).mono (ℱ.mono (by omega)) le_rfl
    have h2 := cutSeq_measurable (m := ℱ n) (u := fun i ω => (g ω).expo i) (n + 1) fun i hi => (hdraw i).mono (ℱ.mono (by omega)) le_rfl
    exact h1.prodMk h2
  set f : ((ℕ → ℝ) × (ℕ → ℝ)) × ℝ → ℝ := fun q => selStep a F (n + 1) q.1.1 (withNext (n + 1) (q.1.2, q.2)) with hf
  have hfm : Measurable f := (selStep_measurable ha hF (n + 1)).comp ((measurable_fst.comp measurable_fst).prodMk
    ((withNext_measurable (n + 1)).comp ((measurable_snd.comp measurable_fst).prodMk measurable_snd)))
  have e : (fun ω => selStep a F (n + 1) (fun i => r i ω) (g ω).expo) = fun ω => f (S ω, (g ω).expo (n + 1)) := by
    funext ω
    refine selStep_congr a F (n + 1) (fun i hi => by simp [hS, cutSeq, hi]) fun i hi => ?_
    unfold withNext
    by_cases h : i = n + 1
    · rw [if_pos h, h]
    · rw [if_neg h]; simp [hS, cutSeq, show i < n + 1 by omega]
  obtain ⟨m1, -⟩ := selStep_memLp hg hdraw hrm hr ha ha0 hK haK hF hL0 hL (n + 1)
  have hint := m1.integrable (by norm_num : (1 : ENNReal) ≤ 2)
  rw [e] at hint ⊢
  refine (condExp_known (ℱ.le n) hSm (hg.expo_measurable (n + 1)) (hnext n) (hg.expo_law (n + 1)) hfm hint).trans ?_
  have hpos : ∀ᵐ ω ∂P, ∀ i, 0 < (g ω).expo i := ae_all_iff.2 fun i => expo_pos hg i
  filter_upwards [hpos] with ω hω
  have hval : ∀ y, f (S ω, y) = ∑ i ∈ Finset.range (n + 1), (r i ω * alive a (g ω).expo i (n + 1)) * excessOf a F ((g ω).expo i, y) := by
    intro y
    rw [hf]
    simp only
    unfold selStep
    refine Finset.sum_congr rfl fun i hi => ?_
    have hi' := Finset.mem_range.1 hi
    have hw : ∀ l < n + 1, withNext (n + 1) ((S ω).2, y) l = (g ω).expo l := by
      intro l hl
      unfold withNext
      rw [if_neg (by omega)]
      simp [hS, cutSeq, hl]
    rw [alive_congr a hi' hw, hw i hi', show withNext (n + 1) ((S ω).2, y) (n + 1) = y by simp [withNext], show (S ω).1 i = r i ω by simp [hS, cutSeq, hi'], mul_assoc]
  simp only [hval]
  rw [integral_finsetSum]
  · refine Finset.sum_eq_zero fun i _ => ?_
    rw [integral_const_mul, excess_mean_zero hF h0 (ha0 _ (hω i)), mul_zero]
  · intro i _
    refine Integrable.const_mul ?_ _
    exact excess_integrable ha hF hL (ha0 _ (hω i))

include hg hdraw hnext hrm hr ha ha0 hK haK hF hL0 hL h0 in
/-- The excesses of the selected pairs have mean zero in the limit, relative to the number of draws. -/
theorem selSum_mean : ∀ᵐ ω ∂P, Tendsto (fun n : ℕ => selSum a F n (fun i => r i ω) (g ω).expo / n) atTop (𝓝 0) := by
  have h := martingale_mean (P := P) (ℱ := ℱ) (d := fun n ω => selStep a F (n + 1) (fun i => r i ω) (g ω).expo) (c := fun n => 4 * Real.exp K * L * harm (n + 1) ^ 2)
    (fun n => selStep_adapted hdraw hrm ha hF (n + 1)) (fun n => (selStep_memLp hg hdraw hrm hr ha ha0 hK haK hF hL0 hL (n + 1)).1)
    (selStep_condExp hg hdraw hnext hrm hr ha ha0 hK haK hF hL0 hL h0) (fun n => (selStep_memLp hg hdraw hrm hr ha ha0 hK haK hF hL0 hL (n + 1)).2) (harm_summable _)
  filter_upwards [h] with ω hω
  have e : ∀ n : ℕ, selSum a F (n + 1) (fun i => r i ω) (g ω).expo = ∑ k ∈ Finset.range n, selStep a F (k + 1) (fun i => r i ω) (g ω).expo := by
    intro n
    unfold selSum
    rw [Finset.sum_range_succ']
    simp [selStep]
  rw [← tendsto_add_atTop_iff_nat 1]
  have h4 : Tendsto (fun n : ℕ => (n : ℝ) / ((n : ℝ) + 1)) atTop (𝓝 1) := tendsto_natCast_div_add_atTop 1
  have h5 := hω.mul h4
  rw [zero_mul] at h5
  refine h5.congr' ?_
  filter_upwards [eventually_gt_atTop 0] with n hn
  have : (0 : ℝ) < n := by exact_mod_cast hn
  rw [e]
  push_cast
  field_simp

end Selected

end
end SeismoStats.Props
