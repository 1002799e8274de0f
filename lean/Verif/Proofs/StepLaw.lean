/-
Support for property C121: laws of large numbers for the windows of an offset, and windows of magnitudes whose b-value changes once.
-/
import Verif.Proofs.StepSeries
import Verif.Proofs.WinMoments

namespace SeismoStats.Blocks
open SeismoStats SeismoStats.Simulate SeismoStats.Props MeasureTheory ProbabilityTheory Filter Topology
open scoped BigOperators NNReal
open Classical
noncomputable section

variable {Ω : Type} [MeasurableSpace Ω] {P : Measure Ω} [IsProbabilityMeasure P]

section general

variable {E : ℕ → Ω → ℝ} {μ : Measure ℝ} (hm : ∀ i, Measurable (E i)) (hi : iIndepFun E P) (hl : ∀ i, P.map (E i) = μ) {ℓ : ℕ} {f : (Fin ℓ → ℝ) → ℝ} (hf : Measurable f)
include hm hi hl hf

/-- The strong law for consecutive windows. -/
theorem avg_win (hint : Integrable (fun ω => win f (fun i => E i ω) 0) P) (a : ℕ) :
    ∀ᵐ ω ∂P, Tendsto (fun K : ℕ => (∑ j ∈ Finset.range K, win f (fun i => E i ω) (a + j * ℓ)) / K) atTop (𝓝 (∫ ω, win f (fun i => E i ω) 0 ∂P)) := by
  have hid := fun j => blocks_ident hm hi hl hf (a + j * ℓ) 0
  have h := strong_law_ae_real (fun j ω => win f (fun i => E i ω) (a + j * ℓ)) (μ := P) ((hid 0).integrable_iff.2 hint)
    (fun i j hij => (blocks_fun hm hi hf a).indepFun hij) fun j => blocks_ident hm hi hl hf (a + j * ℓ) (a + 0 * ℓ)
  have e : P[fun ω => win f (fun i => E i ω) (a + 0 * ℓ)] = ∫ ω, win f (fun i => E i ω) 0 ∂P := (hid 0).integral_eq
  rw [e] at h
  exact h

/-- The strong law for the products of neighbouring windows. -/
theorem avg_prod (hint : Integrable (fun ω => win f (fun i => E i ω) 0) P) (a : ℕ) :
    ∀ᵐ ω ∂P, Tendsto (fun K : ℕ => (∑ j ∈ Finset.range K, win f (fun i => E i ω) (a + j * ℓ) * win f (fun i => E i ω) (a + (j + 1) * ℓ)) / K) atTop
      (𝓝 ((∫ ω, win f (fun i => E i ω) 0 ∂P) ^ 2)) := by
  set F : (Fin (ℓ + ℓ) → ℝ) → ℝ := fun z => f (fun r => z (Fin.castAdd ℓ r)) * f (fun r => z (Fin.natAdd ℓ r)) with hFd
  have hF : Measurable F := (hf.comp (measurable_pi_iff.2 fun _ => measurable_pi_apply _)).mul (hf.comp (measurable_pi_iff.2 fun _ => measurable_pi_apply _))
  have hw : ∀ ω t, win F (fun i => E i ω) t = win f (fun i => E i ω) t * win f (fun i => E i ω) (t + ℓ) := by
    intro ω t
    simp only [win, hFd, Fin.val_castAdd, Fin.val_natAdd, Nat.add_assoc]
  have hind := win_indep hm hi hf (show 0 + ℓ ≤ 0 + ℓ from le_rfl)
  have hid := blocks_ident hm hi hl hf (0 + ℓ) 0
  have hi2 : Integrable (fun ω => win f (fun i => E i ω) (0 + ℓ)) P := hid.integrable_iff.2 hint
  have hFi : Integrable (fun ω => win F (fun i => E i ω) 0) P := by
    simp_rw [hw]
    exact hind.integrable_mul hint hi2
  have hFm : ∫ ω, win F (fun i => E i ω) 0 ∂P = (∫ ω, win f (fun i => E i ω) 0 ∂P) ^ 2 := by
    simp_rw [hw]
    have e : ∫ ω, win f (fun i => E i ω) (0 + ℓ) ∂P = ∫ ω, win f (fun i => E i ω) 0 ∂P := hid.integral_eq
    rw [hind.integral_fun_mul_eq_mul_integral (win_meas hm hf 0).aestronglyMeasurable (win_meas hm hf _).aestronglyMeasurable, e, sq]
  filter_upwards [avg_win hm hi hl hF hFi a, avg_win hm hi hl hF hFi (a + ℓ)] with ω h0 h1
  rw [hFm] at h0 h1
  refine avg_even_odd ?_ ?_
  · refine h0.congr fun K => ?_
    congr 1
    refine Finset.sum_congr rfl fun j _ => ?_
    rw [hw, show a + j * (ℓ + ℓ) = a + 2 * j * ℓ by ring, show a + 2 * j * ℓ + ℓ = a + (2 * j + 1) * ℓ by ring]
  · refine h1.congr fun K => ?_
    congr 1
    refine Finset.sum_congr rfl fun j _ => ?_
    rw [hw, show a + ℓ + j * (ℓ + ℓ) = a + (2 * j + 1) * ℓ by ring, show a + (2 * j + 1) * ℓ + ℓ = a + (2 * j + 1 + 1) * ℓ by ring]

end general

variable {g : Ω → Rng}

/-- The b-value of event `i`: `b1` before the event number `c`, `b2` from it on. -/
def stepB (c : ℕ) (b1 b2 : ℝ) (i : ℕ) : ℝ := if i < c then b1 else b2

/-- The magnitudes of a catalogue whose b-value changes at the event number `c`. -/
def stepMag (g : Ω → Rng) (c : ℕ) (b1 b2 mc : ℝ) (ω : Ω) (i : ℕ) : ℝ := mc + (g ω).expo i / (stepB c b1 b2 i * Real.log 10)

theorem stepB_pos {c : ℕ} {b1 b2 : ℝ} (h1 : 0 < b1) (h2 : 0 < b2) (i : ℕ) : 0 < stepB c b1 b2 i := by unfold stepB; split_ifs <;> assumption

omit [MeasurableSpace Ω] in
theorem simulate_step (r : Rng) (n : ℕ) {c : ℕ} {b1 b2 mc : ℝ} (h1 : 0 < b1) (h2 : 0 < b2) :
    simulateBinned n (stepB c b1 b2) mc 0 none .bValue r = .ok (firstMags (fun i => mc + r.expo i / (stepB c b1 b2 i * Real.log 10)) n) := by
  unfold simulateBinned toBeta
  simp only [Bind.bind, Except.bind, zero_div, sub_zero]
  rw [simulate_untruncated n _ mc none (Or.inl rfl) r fun i _ => mul_pos (stepB_pos h1 h2 i) log_ten_pos]
  simp only [binIf, lt_irrefl, if_false]
  unfold firstMags untruncated
  congr 2
  funext i
  ring

/-- The unit window. -/
def unitW (g : Ω → Rng) (n off : ℕ) (ω : Ω) (k : ℕ) : ℝ := win (winB 1 : (Fin n → ℝ) → ℝ) (fun i => (g ω).expo i) (off + k * n)

omit [MeasurableSpace Ω] in
theorem windowB_congr {X Y : ℕ → ℝ} {mc : ℝ} {n off k : ℕ} (h : ∀ r < n, X (off + k * n + r) = Y (off + k * n + r)) : windowB X mc n off k = windowB Y mc n off k := by
  unfold windowB
  rw [Finset.sum_congr rfl fun r hr => h r (Finset.mem_range.1 hr)]

omit [MeasurableSpace Ω] in
theorem windowB_unit {b mc : ℝ} (hb : 0 < b) (ω : Ω) {n : ℕ} (hn : 0 < n) (off k : ℕ) : windowB (simMag g b mc ω) mc n off k = b * unitW g n off ω k := by
  rw [windowB_eq hb ω hn]
  unfold unitW win winB
  rw [Finset.sum_range, one_mul, mul_div_assoc]

omit [MeasurableSpace Ω] in
theorem step_before {c : ℕ} {b1 b2 mc : ℝ} (h1 : 0 < b1) (ω : Ω) {n : ℕ} (hn : 0 < n) {off k : ℕ} (hk : k < (c - off) / n) :
    windowB (stepMag g c b1 b2 mc ω) mc n off k = b1 * unitW g n off ω k := by
  rw [← windowB_unit h1 ω hn]
  refine windowB_congr fun r hr => ?_
  have h2 : (k + 1) * n ≤ c - off := (Nat.le_div_iff_mul_le hn).1 hk
  rw [Nat.add_mul] at h2
  unfold stepMag simMag stepB
  rw [if_pos (by omega)]

omit [MeasurableSpace Ω] in
theorem step_after {c : ℕ} {b1 b2 mc : ℝ} (h1 : 0 < b2) (ω : Ω) {n : ℕ} (hn : 0 < n) {off k : ℕ} (hk : (c - off) / n < k) :
    windowB (stepMag g c b1 b2 mc ω) mc n off k = b2 * unitW g n off ω k := by
  rw [← windowB_unit h1 ω hn]
  refine windowB_congr fun r hr => ?_
  have h2 := (Nat.div_lt_iff_lt_mul hn).1 hk
  unfold stepMag simMag stepB
  rw [if_neg (by omega)]

omit [MeasurableSpace Ω] in
theorem step_bound {c : ℕ} {b1 b2 mc : ℝ} (h1 : 0 < b1) (h2 : 0 < b2) {ω : Ω} (hpos : ∀ i, 0 < (g ω).expo i) {n : ℕ} (hn : 0 < n) (off k : ℕ) :
    |windowB (stepMag g c b1 b2 mc ω) mc n off k| ≤ max b1 b2 * unitW g n off ω k := by
  have hmax : 0 < max b1 b2 := lt_of_lt_of_le h1 (le_max_left _ _)
  have hl := log_ten_pos
  have hnR : (0 : ℝ) < n := by exact_mod_cast hn
  rw [← windowB_unit (mc := mc) hmax ω hn]
  unfold windowB
  have key : ∀ X : ℕ → ℝ, (∑ r ∈ Finset.range n, X (off + k * n + r)) / n - mc = (∑ r ∈ Finset.range n, (X (off + k * n + r) - mc)) / n := by
    intro X
    rw [Finset.sum_sub_distrib, Finset.sum_const, Finset.card_range, nsmul_eq_mul, sub_div, mul_div_cancel_left₀ _ hnR.ne']
  rw [key, key]
  have hne : (Finset.range n).Nonempty := ⟨0, Finset.mem_range.2 hn⟩
  have p1 : 0 < ∑ r ∈ Finset.range n, (simMag g (max b1 b2) mc ω (off + k * n + r) - mc) := Finset.sum_pos (fun r _ => by
    have := hpos (off + k * n + r)
    unfold simMag
    rw [add_sub_cancel_left]; positivity) hne
  have p2 : ∑ r ∈ Finset.range n, (simMag g (max b1 b2) mc ω (off + k * n + r) - mc) ≤ ∑ r ∈ Finset.range n, (stepMag g c b1 b2 mc ω (off + k * n + r) - mc) := by
    refine Finset.sum_le_sum fun r _ => ?_
    have h3 := hpos (off + k * n + r)
    have h4 := stepB_pos (c := c) h1 h2 (off + k * n + r)
    unfold simMag stepMag
    rw [add_sub_cancel_left, add_sub_cancel_left]
    refine div_le_div_of_nonneg_left h3.le (mul_pos h4 hl) (mul_le_mul_of_nonneg_right ?_ hl.le)
    unfold stepB
    split_ifs
    · exact le_max_left _ _
    · exact le_max_right _ _
  have p3 := lt_of_lt_of_le p1 p2
  rw [abs_of_nonneg (by positivity)]
  gcongr

end
end SeismoStats.Blocks
