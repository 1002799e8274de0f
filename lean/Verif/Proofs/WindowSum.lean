/-
Support for property C120: sums of products of neighbouring windows.
-/
import Verif.Proofs.Blocks

namespace SeismoStats.Blocks
open MeasureTheory ProbabilityTheory Filter Topology SeismoStats.Exchange SeismoStats.Props
open scoped BigOperators
open Classical
noncomputable section

variable {Ω : Type} [MeasurableSpace Ω] {P : Measure Ω} [IsProbabilityMeasure P] {E : ℕ → Ω → ℝ} {μ : Measure ℝ}

/-- A function of the window of `n` draws from `t` on. -/
def win {n : ℕ} (f : (Fin n → ℝ) → ℝ) (x : ℕ → ℝ) (t : ℕ) : ℝ := f fun r => x (t + r)

/-- The product of two neighbouring windows. -/
def prodW {n : ℕ} (f : (Fin n → ℝ) → ℝ) (x : ℕ → ℝ) (t : ℕ) : ℝ := win f x t * win f x (t + n)

theorem win_measurable {n : ℕ} {f : (Fin n → ℝ) → ℝ} (hf : Measurable f) (t : ℕ) : Measurable fun x => win f x t :=
  hf.comp (measurable_pi_iff.2 fun _ => measurable_pi_apply _)

theorem prodW_measurable {n : ℕ} {f : (Fin n → ℝ) → ℝ} (hf : Measurable f) (t : ℕ) : Measurable fun x => prodW f x t :=
  (win_measurable hf t).mul (win_measurable hf (t + n))

theorem win_congr {n : ℕ} (f : (Fin n → ℝ) → ℝ) {x y : ℕ → ℝ} {t : ℕ} (h : ∀ i, t ≤ i → i < t + n → x i = y i) : win f x t = win f y t := by
  unfold win
  congr 1
  funext r
  exact h _ (by omega) (by have := r.2; omega)

theorem prodW_congr {n : ℕ} (f : (Fin n → ℝ) → ℝ) {x y : ℕ → ℝ} {t : ℕ} (h : ∀ i, t ≤ i → i < t + 2 * n → x i = y i) : prodW f x t = prodW f y t := by
  unfold prodW
  rw [win_congr f fun i h1 h2 => h i h1 (by omega), win_congr f (t := t + n) fun i h1 h2 => h i (by omega) (by omega)]

/-- The sum of pairwise orthogonal random variables. -/
theorem orth_sum {ι : Type} (T : Finset ι) {Z : ι → Ω → ℝ} (h2 : ∀ i ∈ T, MemLp (Z i) 2 P) (ho : ∀ i ∈ T, ∀ j ∈ T, i ≠ j → ∫ ω, Z i ω * Z j ω ∂P = 0) :
    ∫ ω, (∑ i ∈ T, Z i ω) ^ 2 ∂P = ∑ i ∈ T, ∫ ω, Z i ω ^ 2 ∂P := by
  have hint : ∀ i ∈ T, ∀ j ∈ T, Integrable (fun ω => Z i ω * Z j ω) P := fun i hi j hj => (h2 i hi).integrable_mul (h2 j hj)
  have : ∀ ω, (∑ i ∈ T, Z i ω) ^ 2 = ∑ i ∈ T, ∑ j ∈ T, Z i ω * Z j ω := by intro ω; rw [sq, Finset.sum_mul_sum]
  simp_rw [this]
  rw [integral_finsetSum _ fun i hi => integrable_finsetSum _ fun j hj => hint i hi j hj]
  refine Finset.sum_congr rfl fun i hi => ?_
  rw [integral_finsetSum _ fun j hj => hint i hi j hj, Finset.sum_eq_single i]
  · simp_rw [sq]
  · intro j hj hne
    exact ho i hi j hj (Ne.symm hne)
  · exact fun h => absurd hi h

variable (hm : ∀ i, Measurable (E i)) (hi : iIndepFun E P) (hl : ∀ i, P.map (E i) = μ) {n : ℕ} {f : (Fin n → ℝ) → ℝ} (hf : Measurable f)
  (h0 : ∫ ω, win f (fun i => E i ω) 0 ∂P = 0) (h2 : MemLp (fun ω => win f (fun i => E i ω) 0) 2 P)
include hm hi hl hf

theorem win_ident (t : ℕ) : IdentDistrib (fun ω => win f (fun i => E i ω) t) (fun ω => win f (fun i => E i ω) 0) P P :=
  blocks_ident hm hi hl hf t 0

omit hi hl [IsProbabilityMeasure P] in
theorem win_meas (t : ℕ) : Measurable fun ω => win f (fun i => E i ω) t := (win_measurable hf t).comp (measurable_pi_iff.2 hm)

omit hi hl [IsProbabilityMeasure P] in
theorem prodW_meas (t : ℕ) : Measurable fun ω => prodW f (fun i => E i ω) t := (prodW_measurable hf t).comp (measurable_pi_iff.2 hm)

include h2

theorem win_memLp (t : ℕ) : MemLp (fun ω => win f (fun i => E i ω) t) 2 P := (win_ident hm hi hl hf t).memLp_iff.2 h2

theorem win_sq (t : ℕ) : ∫ ω, win f (fun i => E i ω) t ^ 2 ∂P = ∫ ω, win f (fun i => E i ω) 0 ^ 2 ∂P :=
  ((win_ident hm hi hl hf t).comp (measurable_id.pow_const 2)).integral_eq

omit hl h2 in
theorem win_indep {s t : ℕ} (h : s + n ≤ t) : IndepFun (fun ω => win f (fun i => E i ω) s) (fun ω => win f (fun i => E i ω) t) P :=
  split_indep hm hi (a := s) (c := t) (d := t + n) (win_measurable hf s) (win_measurable hf t) (fun x y h' => win_congr f fun i h1 h3 => h' i h1 (by omega))
    (fun x y h' => win_congr f fun i h1 h3 => h' i h1 h3)

theorem prodW_memLp (t : ℕ) : MemLp (fun ω => prodW f (fun i => E i ω) t) 2 P := by
  rw [memLp_two_iff_integrable_sq (prodW_meas hm hf t).aestronglyMeasurable]
  have h := ((win_indep hm hi hf (le_refl (t + n))).comp (measurable_id.pow_const 2) (measurable_id.pow_const 2)).integrable_mul
    (win_memLp hm hi hl hf h2 t).integrable_sq (win_memLp hm hi hl hf h2 (t + n)).integrable_sq
  refine h.congr (Eventually.of_forall fun ω => ?_)
  simp only [prodW, Pi.mul_apply, Function.comp, id, mul_pow]

theorem prodW_sq (t : ℕ) : ∫ ω, prodW f (fun i => E i ω) t ^ 2 ∂P = (∫ ω, win f (fun i => E i ω) 0 ^ 2 ∂P) ^ 2 := by
  have h := ((win_indep hm hi hf (le_refl (t + n))).comp (measurable_id.pow_const 2) (measurable_id.pow_const 2)).integral_fun_mul_eq_mul_integral
    ((win_memLp hm hi hl hf h2 t).integrable_sq).aestronglyMeasurable ((win_memLp hm hi hl hf h2 (t + n)).integrable_sq).aestronglyMeasurable
  simp only [Function.comp, id] at h
  simp only [prodW, mul_pow]
  rw [h, win_sq hm hi hl hf h2 t, win_sq hm hi hl hf h2 (t + n)]
  ring

include h0

theorem win_mean (t : ℕ) : ∫ ω, win f (fun i => E i ω) t ∂P = 0 := (win_ident hm hi hl hf t).integral_eq.trans h0

omit h2 in
theorem prodW_mean (t : ℕ) : ∫ ω, prodW f (fun i => E i ω) t ∂P = 0 := by
  have h := (win_indep hm hi hf (le_refl (t + n))).integral_fun_mul_eq_mul_integral (win_meas hm hf t).aestronglyMeasurable (win_meas hm hf (t + n)).aestronglyMeasurable
  unfold prodW
  rw [h, (win_ident hm hi hl hf t).integral_eq, h0, zero_mul]

omit h2 in
theorem prodW_orth {s t : ℕ} (h : s + n ≤ t) : ∫ ω, prodW f (fun i => E i ω) s * prodW f (fun i => E i ω) t ∂P = 0 := by
  have hind : IndepFun (fun ω => prodW f (fun i => E i ω) s * win f (fun i => E i ω) t) (fun ω => win f (fun i => E i ω) (t + n)) P :=
    split_indep hm hi (a := s) (c := t + n) (d := t + n + n) ((prodW_measurable hf s).mul (win_measurable hf t)) (win_measurable hf (t + n))
      (fun x y h' => by
        change prodW f x s * win f x t = prodW f y s * win f y t
        rw [prodW_congr f fun i h1 h3 => h' i h1 (by omega), win_congr f fun i h1 h3 => h' i (by omega) h3])
      (fun x y h' => win_congr f fun i h1 h3 => h' i h1 h3)
  have e := hind.integral_fun_mul_eq_mul_integral ((prodW_meas hm hf s).mul (win_meas hm hf t)).aestronglyMeasurable (win_meas hm hf (t + n)).aestronglyMeasurable
  have : ∀ ω, prodW f (fun i => E i ω) s * prodW f (fun i => E i ω) t = prodW f (fun i => E i ω) s * win f (fun i => E i ω) t * win f (fun i => E i ω) (t + n) := by
    intro ω
    rw [show prodW f (fun i => E i ω) t = win f (fun i => E i ω) t * win f (fun i => E i ω) (t + n) from rfl, mul_assoc]
  simp_rw [this]
  rw [e, (win_ident hm hi hl hf (t + n)).integral_eq, h0, mul_zero]

/-- Sums of products of windows: the second moment is at most linear. -/
theorem sum_bound (hn : 0 < n) (c : ℕ → ℝ) (M : ℕ) :
    ∫ ω, (∑ t ∈ Finset.range M, c t * prodW f (fun i => E i ω) t) ^ 2 ∂P ≤ n * (∫ ω, win f (fun i => E i ω) 0 ^ 2 ∂P) ^ 2 * ∑ t ∈ Finset.range M, c t ^ 2 := by
  set v := ∫ ω, win f (fun i => E i ω) 0 ^ 2 ∂P with hv
  set Z : ℕ → Ω → ℝ := fun t ω => c t * prodW f (fun i => E i ω) t with hZ
  have hZ2 : ∀ t, MemLp (Z t) 2 P := fun t => (prodW_memLp hm hi hl hf h2 t).const_mul (c t)
  have hmap : ∀ t ∈ Finset.range M, t % n ∈ Finset.range n := fun t _ => Finset.mem_range.2 (Nat.mod_lt _ hn)
  have hsq : ∀ t, ∫ ω, Z t ω ^ 2 ∂P = c t ^ 2 * v ^ 2 := by
    intro t
    simp only [hZ, mul_pow]
    rw [integral_const_mul, prodW_sq hm hi hl hf h2 t]
  have hcl : ∀ o, ∫ ω, (∑ t ∈ Finset.range M with t % n = o, Z t ω) ^ 2 ∂P = ∑ t ∈ Finset.range M with t % n = o, c t ^ 2 * v ^ 2 := by
    intro o
    rw [orth_sum _ (fun t _ => hZ2 t)]
    · exact Finset.sum_congr rfl fun t _ => hsq t
    · intro s hs t ht hne
      simp only [Finset.mem_filter] at hs ht
      have key : ∀ s t : ℕ, s % n = t % n → s < t → ∫ ω, Z s ω * Z t ω ∂P = 0 := by
        intro s t he hlt
        have hst : s + n ≤ t := by
          have h1 := Nat.div_add_mod s n
          have h3 := Nat.div_add_mod t n
          rw [he] at h1
          have h4 : s / n < t / n := by
            by_contra hc
            have := Nat.mul_le_mul_left n (Nat.le_of_not_lt hc)
            omega
          have := Nat.mul_le_mul_left n (show s / n + 1 ≤ t / n from h4)
          rw [Nat.mul_add, Nat.mul_one] at this
          omega
        have : ∀ ω, Z s ω * Z t ω = c s * c t * (prodW f (fun i => E i ω) s * prodW f (fun i => E i ω) t) := by intro ω; simp only [hZ]; ring
        simp_rw [this]
        rw [integral_const_mul, prodW_orth hm hi hl hf h0 hst, mul_zero]
      rcases lt_or_gt_of_ne hne with h | h
      · exact key s t (hs.2.trans ht.2.symm) h
      · have := key t s (ht.2.trans hs.2.symm) h
        simp_rw [mul_comm (Z s _)]
        exact this
  have hpt : ∀ ω, (∑ t ∈ Finset.range M, Z t ω) ^ 2 ≤ n * ∑ o ∈ Finset.range n, (∑ t ∈ Finset.range M with t % n = o, Z t ω) ^ 2 := by
    intro ω
    rw [← Finset.sum_fiberwise_of_maps_to hmap]
    have := sq_sum_le_card_mul_sum_sq (s := Finset.range n) (f := fun o => ∑ t ∈ Finset.range M with t % n = o, Z t ω)
    rwa [Finset.card_range] at this
  have hint : ∀ o, Integrable (fun ω => (∑ t ∈ Finset.range M with t % n = o, Z t ω) ^ 2) P := fun o => (memLp_finsetSum _ fun t _ => hZ2 t).integrable_sq
  calc ∫ ω, (∑ t ∈ Finset.range M, Z t ω) ^ 2 ∂P ≤ ∫ ω, n * ∑ o ∈ Finset.range n, (∑ t ∈ Finset.range M with t % n = o, Z t ω) ^ 2 ∂P :=
        integral_mono_of_nonneg (Eventually.of_forall fun ω => sq_nonneg _) ((integrable_finsetSum _ fun o _ => hint o).const_mul _) (Eventually.of_forall hpt)
    _ = n * ∑ o ∈ Finset.range n, ∑ t ∈ Finset.range M with t % n = o, c t ^ 2 * v ^ 2 := by
        rw [integral_const_mul, integral_finsetSum _ fun o _ => hint o, Finset.sum_congr rfl fun o _ => hcl o]
    _ = n * v ^ 2 * ∑ t ∈ Finset.range M, c t ^ 2 := by
        rw [Finset.sum_fiberwise_of_maps_to hmap, ← Finset.sum_mul]; ring

end
end SeismoStats.Blocks
