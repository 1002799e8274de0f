/-
Support for property C121: the autocorrelation of a series whose scale changes once.
-/
import Verif.Proofs.MacLimit

namespace SeismoStats.Blocks
open SeismoStats SeismoStats.Simulate SeismoStats.Props MeasureTheory ProbabilityTheory Filter Topology
open scoped BigOperators NNReal
open Classical
noncomputable section

/-- The averages converge along the even and the odd places, so they converge. -/
theorem avg_even_odd {x : ℕ → ℝ} {e : ℝ} (h0 : Tendsto (fun K : ℕ => (∑ j ∈ Finset.range K, x (2 * j)) / K) atTop (𝓝 e))
    (h1 : Tendsto (fun K : ℕ => (∑ j ∈ Finset.range K, x (2 * j + 1)) / K) atTop (𝓝 e)) :
    Tendsto (fun K : ℕ => (∑ j ∈ Finset.range K, x j) / K) atTop (𝓝 e) := by
  have split : ∀ K, ∑ j ∈ Finset.range K, x j = ∑ j ∈ Finset.range ((K + 1) / 2), x (2 * j) + ∑ j ∈ Finset.range (K / 2), x (2 * j + 1) := by
    intro K
    induction K with
    | zero => simp
    | succ K ih =>
      rw [Finset.sum_range_succ, ih]
      rcases Nat.even_or_odd' K with ⟨k, rfl | rfl⟩
      · rw [show (2 * k + 1 + 1) / 2 = k + 1 by omega, show (2 * k + 1) / 2 = k by omega, show 2 * k / 2 = k by omega, Finset.sum_range_succ (fun j => x (2 * j))]
        ring
      · rw [show (2 * k + 1 + 1 + 1) / 2 = k + 1 by omega, show (2 * k + 1 + 1) / 2 = k + 1 by omega, show (2 * k + 1) / 2 = k by omega,
          Finset.sum_range_succ (fun j => x (2 * j + 1)), Finset.sum_range_succ (fun j => x (2 * j))]
        ring
  have a0 : Tendsto (fun K : ℕ => (K + 1) / 2) atTop atTop := (Nat.tendsto_div_const_atTop two_ne_zero).comp (tendsto_add_atTop_nat 1)
  have a1 : Tendsto (fun K : ℕ => K / 2) atTop atTop := Nat.tendsto_div_const_atTop two_ne_zero
  have r1 : Tendsto (fun K : ℕ => ((K / 2 : ℕ) : ℝ) / K) atTop (𝓝 (1 / 2)) := by
    have := count_ratio (n := 2) two_pos 0
    simpa using this
  have r0 : Tendsto (fun K : ℕ => (((K + 1) / 2 : ℕ) : ℝ) / K) atTop (𝓝 (1 / 2)) := by
    have h := r1.const_sub 1
    norm_num at h
    have h' : Tendsto (fun K : ℕ => 1 - ((K / 2 : ℕ) : ℝ) / K) atTop (𝓝 (1 / 2)) := by simpa using h
    refine h'.congr' ?_
    filter_upwards [eventually_gt_atTop 0] with K hK
    have hKR : (K : ℝ) ≠ 0 := by exact_mod_cast hK.ne'
    have : ((K / 2 : ℕ) : ℝ) + (((K + 1) / 2 : ℕ) : ℝ) = K := by exact_mod_cast (by omega : K / 2 + (K + 1) / 2 = K)
    rw [eq_div_iff hKR, sub_mul, div_mul_cancel₀ _ hKR]
    linarith
  have h := ((h0.comp a0).mul r0).add ((h1.comp a1).mul r1)
  rw [show e * (1 / 2) + e * (1 / 2) = e by ring] at h
  refine h.congr' ?_
  filter_upwards [eventually_gt_atTop 1] with K hK
  simp only [Function.comp]
  rw [split, add_div, div_mul_div_cancel₀, div_mul_div_cancel₀]
  · exact_mod_cast (by omega : K / 2 ≠ 0)
  · exact_mod_cast (by omega : (K + 1) / 2 ≠ 0)

variable {x : ℕ → ℝ} {e lam : ℝ} {K a : ℕ → ℕ}

/-- The average over a part of the places. -/
theorem avg_part (hx : Tendsto (fun K : ℕ => (∑ j ∈ Finset.range K, x j) / K) atTop (𝓝 e)) {ℓ : ℝ} (ha : Tendsto a atTop atTop)
    (hr : Tendsto (fun N => (a N : ℝ) / K N) atTop (𝓝 ℓ)) : Tendsto (fun N => (∑ j ∈ Finset.range (a N), x j) / K N) atTop (𝓝 (e * ℓ)) := by
  refine ((hx.comp ha).mul hr).congr' ?_
  filter_upwards [ha.eventually_gt_atTop 0] with N hN
  have : (a N : ℝ) ≠ 0 := by exact_mod_cast hN.ne'
  simp only [Function.comp]
  rw [div_mul_div_cancel₀ this]

theorem ratio_shift (hK : Tendsto K atTop atTop) (hr : Tendsto (fun N => (a N : ℝ) / K N) atTop (𝓝 lam)) (d : ℕ) :
    Tendsto (fun N => ((a N + d : ℕ) : ℝ) / K N) atTop (𝓝 lam) := by
  have h := hr.add ((tendsto_natCast_atTop_atTop.comp hK).const_div_atTop (d : ℝ))
  rw [add_zero] at h
  refine h.congr fun N => ?_
  simp only [Function.comp]
  push_cast
  rw [add_div]

/-- The average of a sequence that is `c₁ x` up to a place and `c₂ x` from two places later on. -/
theorem step_avg (hx : Tendsto (fun K : ℕ => (∑ j ∈ Finset.range K, x j) / K) atTop (𝓝 e)) (hK : Tendsto K atTop atTop) (ha : Tendsto a atTop atTop)
    (hr : Tendsto (fun N => (a N : ℝ) / K N) atTop (𝓝 lam)) (hle : ∀ᶠ N in atTop, a N ≤ K N) (h0 : ∀ k, 0 ≤ x k) {y : ℕ → ℕ → ℝ} {c1 c2 C : ℝ} (hC : ∀ N k, |y N k| ≤ C * x k)
    (hy1 : ∀ N k, k < a N → y N k = c1 * x k) (hy2 : ∀ N k, a N + 2 ≤ k → y N k = c2 * x k) :
    Tendsto (fun N => (∑ k ∈ Finset.range (K N), y N k) / K N) atTop (𝓝 ((lam * c1 + (1 - lam) * c2) * e)) := by
  have one : Tendsto (fun N => (K N : ℝ) / K N) atTop (𝓝 1) := by
    refine tendsto_const_nhds.congr' ?_
    filter_upwards [hK.eventually_gt_atTop 0] with N hN
    have : (K N : ℝ) ≠ 0 := by exact_mod_cast hN.ne'
    rw [div_self this]
  have s1 := avg_part hx hK one
  have s2 := avg_part hx ha hr
  have s3 := avg_part hx (tendsto_atTop_mono (fun N => Nat.le_add_right (a N) 2) ha) (ratio_shift hK hr 2)
  have main := (s1.const_mul c2).add (s2.const_mul (c1 - c2))
  have err := ((s3.sub s2).const_mul (C + |c2|))
  rw [sub_self, mul_zero] at err
  have hsum : Tendsto (fun N => (∑ k ∈ Finset.range (K N), y N k) / K N - (c2 * ((∑ j ∈ Finset.range (K N), x j) / K N) + (c1 - c2) * ((∑ j ∈ Finset.range (a N), x j) / K N))) atTop (𝓝 0) := by
    refine squeeze_zero_norm' ?_ err
    filter_upwards [hle] with N hN
    have e1 : ∑ j ∈ Finset.range (a N), x j = ∑ k ∈ Finset.range (K N), if k < a N then x k else 0 := by
      rw [← Finset.sum_filter]
      refine Finset.sum_congr ?_ fun _ _ => rfl
      ext k; simp; omega
    have e2 : ∑ j ∈ Finset.range (a N + 2), x j - ∑ j ∈ Finset.range (a N), x j = x (a N) + x (a N + 1) := by
      rw [Finset.sum_range_succ, Finset.sum_range_succ]; ring
    rw [← mul_div_assoc, ← mul_div_assoc, ← add_div, ← sub_div, ← sub_div, ← mul_div_assoc, Real.norm_eq_abs, abs_div, Nat.abs_cast]
    refine div_le_div_of_nonneg_right ?_ (Nat.cast_nonneg _)
    rw [e2, e1, Finset.mul_sum, Finset.mul_sum, ← Finset.sum_add_distrib, ← Finset.sum_sub_distrib]
    have hb : ∀ k ∈ Finset.range (K N), abs (y N k - (c2 * x k + (c1 - c2) * if k < a N then x k else 0)) ≤ if k = a N ∨ k = a N + 1 then (C + |c2|) * x k else 0 := by
      intro k _
      by_cases h1 : k < a N
      · rw [if_pos h1, hy1 N k h1, if_neg (by omega), show c1 * x k - (c2 * x k + (c1 - c2) * x k) = 0 by ring, abs_zero]
      · rw [if_neg h1, mul_zero, add_zero]
        by_cases h2 : k = a N ∨ k = a N + 1
        · rw [if_pos h2, add_mul]
          refine (abs_sub _ _).trans (add_le_add (hC N k) ?_)
          rw [abs_mul, abs_of_nonneg (h0 k)]
        · rw [if_neg h2, hy2 N k (by omega), sub_self, abs_zero]
    refine (Finset.abs_sum_le_sum_abs _ _).trans ((Finset.sum_le_sum hb).trans ?_)
    rw [← Finset.sum_filter]
    have hCx : ∀ k, 0 ≤ (C + |c2|) * x k := fun k => by
      rw [add_mul]
      exact add_nonneg ((abs_nonneg _).trans (hC N k)) (mul_nonneg (abs_nonneg _) (h0 k))
    refine (Finset.sum_le_sum_of_subset_of_nonneg (t := {a N, a N + 1}) ?_ fun k _ _ => hCx k).trans ?_
    · intro k hk
      rw [Finset.mem_filter] at hk
      simpa using hk.2
    · rw [Finset.sum_pair (by omega), ← mul_add]
  have h := hsum.add main
  rw [zero_add] at h
  have ee : c2 * (e * 1) + (c1 - c2) * (e * lam) = (lam * c1 + (1 - lam) * c2) * e := by ring
  rw [ee] at h
  exact h.congr fun N => by ring

/-- The limit of the autocorrelation of the windows when their mean changes: the variance between the parts over the total variance. -/
def stepLimit (lam b1 b2 m v : ℝ) : ℝ := lam * (1 - lam) * (b1 - b2) ^ 2 * m ^ 2 / (lam * (1 - lam) * (b1 - b2) ^ 2 * m ^ 2 + (lam * b1 ^ 2 + (1 - lam) * b2 ^ 2) * v)

theorem stepLimit_pos {lam b1 b2 m v : ℝ} (h0 : 0 < lam) (h1 : lam < 1) (hb : b1 ≠ b2) (hm : m ≠ 0) (hv : 0 ≤ v) : 0 < stepLimit lam b1 b2 m v := by
  have h1' : 0 < 1 - lam := by linarith
  have hA : 0 < lam * (1 - lam) * (b1 - b2) ^ 2 * m ^ 2 := by
    have := sub_ne_zero.2 hb
    positivity
  have hB : 0 ≤ (lam * b1 ^ 2 + (1 - lam) * b2 ^ 2) * v := by positivity
  unfold stepLimit
  positivity

theorem seriesI_step {w : ℕ → ℝ} {m v : ℝ} (hw : ∀ k, 0 ≤ w k) (s1 : Tendsto (fun K : ℕ => (∑ j ∈ Finset.range K, w j) / K) atTop (𝓝 m))
    (s2 : Tendsto (fun K : ℕ => (∑ j ∈ Finset.range K, w j ^ 2) / K) atTop (𝓝 (v + m ^ 2)))
    (s3 : Tendsto (fun K : ℕ => (∑ j ∈ Finset.range K, w j * w (j + 1)) / K) atTop (𝓝 (m ^ 2))) (hm : m ≠ 0) (hv : 0 < v)
    (h0 : 0 < lam) (h1 : lam < 1) {b1 b2 : ℝ} (hb1 : 0 < b1) (hb2 : 0 < b2) (hK : Tendsto K atTop atTop) (ha : Tendsto a atTop atTop)
    (hr : Tendsto (fun N => (a N : ℝ) / K N) atTop (𝓝 lam)) (hle : ∀ᶠ N in atTop, a N ≤ K N) {y : ℕ → ℕ → ℝ} (hC : ∀ N k, |y N k| ≤ max b1 b2 * w k)
    (hy1 : ∀ N k, k < a N → y N k = b1 * w k) (hy2 : ∀ N k, a N < k → y N k = b2 * w k) :
    Tendsto (fun N => seriesI (y N) (K N)) atTop (𝓝 (stepLimit lam b1 b2 m v)) := by
  set C := max b1 b2 with hCd
  have hC0 : 0 ≤ C := hb1.le.trans (le_max_left _ _)
  have t1 := step_avg s1 hK ha hr hle hw hC hy1 fun N k h => hy2 N k (by omega)
  have t2 := step_avg s2 hK ha hr hle (fun k => sq_nonneg _) (y := fun N k => y N k ^ 2) (c1 := b1 ^ 2) (c2 := b2 ^ 2) (C := C ^ 2)
    (fun N k => by rw [abs_pow, ← mul_pow]; exact pow_le_pow_left₀ (abs_nonneg _) (hC N k) 2)
    (fun N k h => by rw [hy1 N k h, mul_pow]) (fun N k h => by rw [hy2 N k (by omega), mul_pow])
  have a1 : Tendsto (fun N => a N - 1) atTop atTop := (tendsto_sub_nat 1).comp ha
  have K1 : Tendsto (fun N => K N - 1) atTop atTop := (tendsto_sub_nat 1).comp hK
  have q : Tendsto (fun N => ((K N - 1 : ℕ) : ℝ) / K N) atTop (𝓝 1) := (shift_ratio 1).comp hK
  have r1 : Tendsto (fun N => ((a N - 1 : ℕ) : ℝ) / (K N - 1 : ℕ)) atTop (𝓝 lam) := by
    have h := ((((shift_ratio 1).comp ha).mul hr).div q one_ne_zero)
    rw [one_mul, div_one] at h
    refine h.congr' ?_
    filter_upwards [ha.eventually_gt_atTop 0, hK.eventually_gt_atTop 0] with N h3 h4
    have h5 : (a N : ℝ) ≠ 0 := by exact_mod_cast h3.ne'
    have h6 : (K N : ℝ) ≠ 0 := by exact_mod_cast h4.ne'
    simp only [Function.comp]
    rw [Pi.div_apply, div_mul_div_cancel₀ h5, div_div_div_cancel_right₀ h6]
  have t3' := step_avg s3 K1 a1 r1 (hle.mono fun N h => Nat.sub_le_sub_right h 1) (fun k => mul_nonneg (hw _) (hw _)) (y := fun N k => y N k * y N (k + 1)) (c1 := b1 ^ 2) (c2 := b2 ^ 2) (C := C ^ 2)
    (fun N k => by
      rw [abs_mul, sq, mul_mul_mul_comm]
      exact mul_le_mul (hC N k) (hC N (k + 1)) (abs_nonneg _) (mul_nonneg hC0 (hw k)))
    (fun N k h => by rw [hy1 N k (by omega), hy1 N (k + 1) (by omega)]; ring) (fun N k h => by rw [hy2 N k (by omega), hy2 N (k + 1) (by omega)]; ring)
  have t3 : Tendsto (fun N => prodSum (y N) (K N) / K N) atTop (𝓝 ((lam * b1 ^ 2 + (1 - lam) * b2 ^ 2) * m ^ 2)) := by
    have h := t3'.mul q
    rw [mul_one] at h
    refine h.congr' ?_
    filter_upwards [K1.eventually_gt_atTop 0] with N h4
    have h6 : ((K N - 1 : ℕ) : ℝ) ≠ 0 := by exact_mod_cast h4.ne'
    rw [div_mul_div_cancel₀ h6]
    rfl
  have one : Tendsto (fun N => (K N : ℝ) / K N) atTop (𝓝 1) := by
    refine tendsto_const_nhds.congr' ?_
    filter_upwards [hK.eventually_gt_atTop 0] with N hN
    have : (K N : ℝ) ≠ 0 := by exact_mod_cast hN.ne'
    rw [div_self this]
  have inv : Tendsto (fun N => 1 / (K N : ℝ)) atTop (𝓝 0) := (tendsto_natCast_atTop_atTop.comp hK).const_div_atTop 1
  have last : Tendsto (fun N => y N (K N - 1) / K N) atTop (𝓝 0) := by
    have h := ((avg_part s1 hK one).sub (avg_part s1 K1 q)).const_mul C
    rw [sub_self, mul_zero] at h
    refine squeeze_zero_norm' ?_ h
    filter_upwards [hK.eventually_gt_atTop 0] with N hN
    obtain ⟨k, hk⟩ : ∃ k, K N = k + 1 := ⟨K N - 1, by omega⟩
    rw [hk, Nat.add_sub_cancel, ← sub_div, Finset.sum_range_succ, add_sub_cancel_left, Real.norm_eq_abs, abs_div, Nat.abs_cast, ← mul_div_assoc]
    exact div_le_div_of_nonneg_right (hC N k) (Nat.cast_nonneg _)
  have first : Tendsto (fun N => y N 0 / K N) atTop (𝓝 0) := by
    have h := inv.const_mul (C * w 0)
    rw [mul_zero] at h
    refine squeeze_zero_norm' (Eventually.of_forall fun N => ?_) h
    rw [Real.norm_eq_abs, abs_div, Nat.abs_cast, mul_one_div]
    exact div_le_div_of_nonneg_right (hC N 0) (Nat.cast_nonneg _)
  have q1 : Tendsto (fun N => ((K N : ℝ) + 1) / K N) atTop (𝓝 1) := by
    have h := one.add inv
    rw [add_zero] at h
    exact h.congr fun N => by rw [add_div]
  have num := (t3.sub (q1.mul (t1.pow 2))).add (t1.mul (first.add last))
  rw [add_zero, mul_zero, add_zero, one_mul] at num
  have den := t2.sub (t1.pow 2)
  have e1 : (lam * b1 ^ 2 + (1 - lam) * b2 ^ 2) * m ^ 2 - ((lam * b1 + (1 - lam) * b2) * m) ^ 2 = lam * (1 - lam) * (b1 - b2) ^ 2 * m ^ 2 := by ring
  have e2 : (lam * b1 ^ 2 + (1 - lam) * b2 ^ 2) * (v + m ^ 2) - ((lam * b1 + (1 - lam) * b2) * m) ^ 2 = lam * (1 - lam) * (b1 - b2) ^ 2 * m ^ 2 + (lam * b1 ^ 2 + (1 - lam) * b2 ^ 2) * v := by ring
  have h1' : 0 < 1 - lam := by linarith
  have hB : 0 < lam * (1 - lam) * (b1 - b2) ^ 2 * m ^ 2 + (lam * b1 ^ 2 + (1 - lam) * b2 ^ 2) * v := by positivity
  rw [e1] at num
  rw [e2] at den
  refine (num.div den hB.ne').congr' ?_
  filter_upwards [hK.eventually_gt_atTop 0] with N hN
  have h6 : (K N : ℝ) ≠ 0 := by exact_mod_cast hN.ne'
  unfold seriesI
  rw [num_eq (y N) hN _ rfl, Pi.div_apply, ← den_eq (y N) hN _ rfl, ← div_div_div_cancel_right₀ h6 (prodSum (y N) (K N) - _ + _)]
  congr 1
  field_simp

end
end SeismoStats.Blocks
