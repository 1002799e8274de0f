/-
Means of weights tilted by an exponential factor: strict monotonicity, limits, and convergence of solutions.
-/
import Mathlib.Analysis.SpecificLimits.Normed
import Mathlib.Analysis.SpecialFunctions.Exp
import Mathlib.Analysis.Normed.Group.Tannery
import Mathlib.Topology.Order.IntermediateValue

namespace SeismoStats.Props
open Filter Topology
open Classical
noncomputable section

/-- Moment of the weights `v` at the points `x`, tilted by `exp(-β x)`. -/
def tilt (v x : ℕ → ℝ) (k : ℕ) (β : ℝ) : ℝ := ∑' j, v j * x j ^ k * Real.exp (-β * x j)

/-- The sums of the tilted moments exist. -/
def Tiltable (v x : ℕ → ℝ) (β : ℝ) : Prop := ∀ k, Summable fun j => v j * x j ^ k * Real.exp (-β * x j)

theorem tilt_pos {v x : ℕ → ℝ} {β : ℝ} (hv : ∀ j, 0 ≤ v j) (h : Tiltable v x β) {i : ℕ} (hi : 0 < v i) : 0 < tilt v x 0 β := by
  refine (h 0).tsum_pos (fun j => ?_) i ?_
  · have := hv j; positivity
  · positivity

/-- The difference of the tilted mean and a number, times the tilted mass. -/
theorem tilt_centred {v x : ℕ → ℝ} {β : ℝ} (h : Tiltable v x β) (μ : ℝ) :
    HasSum (fun j => v j * (x j - μ) * Real.exp (-β * x j)) (tilt v x 1 β - μ * tilt v x 0 β) := by
  have := (h 1).hasSum.sub ((h 0).hasSum.mul_left μ)
  refine this.congr_fun (fun j => ?_)
  ring

/-- The tilted mean is strictly decreasing. -/
theorem tilt_anti {v x : ℕ → ℝ} (hv : ∀ j, 0 ≤ v j) {β β' : ℝ} (hβ : β < β') (h : Tiltable v x β) (h' : Tiltable v x β')
    {i i' : ℕ} (hi : 0 < v i) (hi' : 0 < v i') (hx : x i ≠ x i') : tilt v x 1 β' / tilt v x 0 β' < tilt v x 1 β / tilt v x 0 β := by
  have p := tilt_pos hv h hi
  have p' := tilt_pos hv h' hi
  set μ := tilt v x 1 β' / tilt v x 0 β' with hμ
  rw [lt_div_iff₀ p, ← sub_pos]
  have c1 := tilt_centred h μ
  have c2 := (tilt_centred h' μ).mul_left (Real.exp ((β' - β) * μ))
  have e2 : tilt v x 1 β' - μ * tilt v x 0 β' = 0 := by rw [hμ]; field_simp; ring
  rw [e2, mul_zero] at c2
  have c := c1.sub c2
  rw [sub_zero] at c
  rw [← c.tsum_eq]
  have hterm : ∀ j, v j * (x j - μ) * Real.exp (-β * x j) - Real.exp ((β' - β) * μ) * (v j * (x j - μ) * Real.exp (-β' * x j)) =
      v j * Real.exp (-β' * x j) * ((x j - μ) * (Real.exp ((β' - β) * x j) - Real.exp ((β' - β) * μ))) := by
    intro j
    have : Real.exp (-β * x j) = Real.exp (-β' * x j) * Real.exp ((β' - β) * x j) := by rw [← Real.exp_add]; congr 1; ring
    rw [this]; ring
  have hd : 0 < β' - β := sub_pos.2 hβ
  have hsgn : ∀ y, 0 ≤ (y - μ) * (Real.exp ((β' - β) * y) - Real.exp ((β' - β) * μ)) := by
    intro y
    rcases le_total y μ with hy | hy
    · exact mul_nonneg_of_nonpos_of_nonpos (sub_nonpos.2 hy) (sub_nonpos.2 (Real.exp_le_exp.2 (mul_le_mul_of_nonneg_left hy hd.le)))
    · exact mul_nonneg (sub_nonneg.2 hy) (sub_nonneg.2 (Real.exp_le_exp.2 (mul_le_mul_of_nonneg_left hy hd.le)))
  have hstr : ∀ y, y ≠ μ → 0 < (y - μ) * (Real.exp ((β' - β) * y) - Real.exp ((β' - β) * μ)) := by
    intro y hy
    refine lt_of_le_of_ne (hsgn y) (Ne.symm (mul_ne_zero (sub_ne_zero.2 hy) (sub_ne_zero.2 fun e => hy ?_)))
    exact mul_left_cancel₀ hd.ne' (Real.exp_injective e)
  have key : ∃ l, 0 < v l ∧ x l ≠ μ := by
    by_cases h1 : x i = μ
    · exact ⟨i', hi', fun h2 => hx (h1.trans h2.symm)⟩
    · exact ⟨i, hi, h1⟩
  obtain ⟨l, hl, hlx⟩ := key
  refine c.summable.tsum_pos (fun j => ?_) l ?_
  · simp only [hterm]
    exact mul_nonneg (mul_nonneg (hv j) (Real.exp_pos _).le) (hsgn _)
  · simp only [hterm]
    exact mul_pos (mul_pos hl (Real.exp_pos _)) (hstr _ hlx)

/-- Equally spaced points. -/
def spaced (x0 δ : ℝ) (j : ℕ) : ℝ := x0 + j * δ

theorem spaced_summable (x0 : ℝ) {δ γ : ℝ} (hδ : 0 < δ) (hγ : 0 < γ) (k : ℕ) : Summable fun j => |spaced x0 δ j| ^ k * Real.exp (-γ * spaced x0 δ j) := by
  have hr : ‖Real.exp (-(γ * δ))‖ < 1 := by
    rw [Real.norm_eq_abs, abs_of_pos (Real.exp_pos _), Real.exp_lt_one_iff]
    have := mul_pos hγ hδ
    linarith
  have h1 := summable_pow_mul_geometric_of_norm_lt_one k hr
  have h2 := ((summable_nat_add_iff 1).2 h1).mul_left ((|x0| + δ) ^ k * Real.exp (-γ * x0 + γ * δ))
  refine Summable.of_nonneg_of_le (fun j => by positivity) (fun j => ?_) h2
  have e1 : |spaced x0 δ j| ≤ (|x0| + δ) * ((j + 1 : ℕ) : ℝ) := by
    unfold spaced
    refine (abs_add_le _ _).trans ?_
    rw [abs_of_nonneg (by positivity : 0 ≤ (j : ℝ) * δ)]
    push_cast
    nlinarith [abs_nonneg x0, (Nat.cast_nonneg j : (0 : ℝ) ≤ j)]
  have e2 : Real.exp (-γ * spaced x0 δ j) = Real.exp (-γ * x0 + γ * δ) * Real.exp (-(γ * δ)) ^ (j + 1) := by
    rw [← Real.exp_nat_mul, ← Real.exp_add]
    congr 1
    unfold spaced
    push_cast
    ring
  rw [e2]
  calc |spaced x0 δ j| ^ k * (Real.exp (-γ * x0 + γ * δ) * Real.exp (-(γ * δ)) ^ (j + 1))
      ≤ ((|x0| + δ) * ((j + 1 : ℕ) : ℝ)) ^ k * (Real.exp (-γ * x0 + γ * δ) * Real.exp (-(γ * δ)) ^ (j + 1)) := by gcongr
    _ = _ := by rw [mul_pow]; ring

theorem spaced_tiltable {x0 δ β W : ℝ} (hδ : 0 < δ) (hβ : 0 < β) {v : ℕ → ℝ} (hv : ∀ j, |v j| ≤ W) : Tiltable v (spaced x0 δ) β := by
  intro k
  refine Summable.of_norm_bounded ((spaced_summable x0 hδ hβ k).mul_left W) fun j => ?_
  rw [Real.norm_eq_abs, abs_mul, abs_mul, abs_pow, abs_of_pos (Real.exp_pos _), mul_assoc]
  exact mul_le_mul_of_nonneg_right (hv j) (by positivity)

/-- Finitely many weights. -/
theorem finite_tiltable {v : ℕ → ℝ} (A : Finset ℕ) (hA : ∀ j, j ∉ A → v j = 0) (x : ℕ → ℝ) (β : ℝ) : Tiltable v x β := by
  intro k
  refine summable_of_ne_finset_zero (s := A) fun j hj => ?_
  rw [hA j hj]; ring

theorem tilt_tendsto {x0 δ β W : ℝ} (hδ : 0 < δ) (hβ : 0 < β) {v : ℕ → ℝ} {u : ℕ → ℕ → ℝ} (hu : ∀ n j, |u n j| ≤ W) (hlim : ∀ j, Tendsto (fun n => u n j) atTop (𝓝 (v j)))
    {γ : ℕ → ℝ} (hγ : Tendsto γ atTop (𝓝 β)) (k : ℕ) : Tendsto (fun n => tilt (u n) (spaced x0 δ) k (γ n)) atTop (𝓝 (tilt v (spaced x0 δ) k β)) := by
  have hb := ((spaced_summable x0 hδ (half_pos hβ) k).add (spaced_summable x0 hδ (by linarith : 0 < 2 * β) k)).mul_left W
  refine tendsto_tsum_of_dominated_convergence hb (fun j => ?_) ?_
  · refine ((hlim j).mul_const _).mul ?_
    exact (Real.continuous_exp.tendsto _).comp ((hγ.neg).mul_const _)
  · filter_upwards [hγ.eventually (lt_mem_nhds (by linarith : β / 2 < β)), hγ.eventually (gt_mem_nhds (by linarith : β < 2 * β))] with n h1 h2 j
    rw [Real.norm_eq_abs, abs_mul, abs_mul, abs_pow, abs_of_pos (Real.exp_pos _), mul_assoc]
    refine mul_le_mul (hu n j) ?_ (by positivity) ((abs_nonneg _).trans (hu n j))
    rw [← mul_add]
    refine mul_le_mul_of_nonneg_left ?_ (by positivity)
    rcases le_total 0 (spaced x0 δ j) with hx | hx
    · have : Real.exp (-γ n * spaced x0 δ j) ≤ Real.exp (-(β / 2) * spaced x0 δ j) := Real.exp_le_exp.2 (by nlinarith)
      linarith [Real.exp_pos (-(2 * β) * spaced x0 δ j)]
    · have : Real.exp (-γ n * spaced x0 δ j) ≤ Real.exp (-(2 * β) * spaced x0 δ j) := Real.exp_le_exp.2 (by nlinarith)
      linarith [Real.exp_pos (-(β / 2) * spaced x0 δ j)]

/-- The tilted mean. -/
def tiltMean (v x : ℕ → ℝ) (β : ℝ) : ℝ := tilt v x 1 β / tilt v x 0 β

/-- Points with tilted means close to the limit of the tilted means at `β` converge to `β`. -/
theorem tilt_solution {x0 δ β W : ℝ} (hδ : 0 < δ) (hβ : 0 < β) {v : ℕ → ℝ} (hv : ∀ j, 0 ≤ v j) {A : ℕ → Finset ℕ} (hW : ∀ j, v j ≤ W)
    (hA : ∀ j, 0 < v j → ∀ᶠ n in atTop, j ∈ A n) {i i' : ℕ} (hi : 0 < v i) (hi' : 0 < v i') (hne : i ≠ i')
    {γ : ℕ → ℝ} (hγ : Tendsto (fun n => tiltMean (fun j => if j ∈ A n then v j else 0) (spaced x0 δ) (γ n)) atTop (𝓝 (tiltMean v (spaced x0 δ) β))) :
    Tendsto γ atTop (𝓝 β) := by
  set u : ℕ → ℕ → ℝ := fun n j => if j ∈ A n then v j else 0 with hu
  set x := spaced x0 δ with hx
  have hu0 : ∀ n j, 0 ≤ u n j := fun n j => by simp only [hu]; split_ifs; exacts [hv j, le_rfl]
  have huW : ∀ n j, |u n j| ≤ W := fun n j => by
    rw [abs_of_nonneg (hu0 n j)]
    simp only [hu]; split_ifs
    exacts [hW j, (hv j).trans (hW j)]
  have hvW : ∀ j, |v j| ≤ W := fun j => by rw [abs_of_nonneg (hv j)]; exact hW j
  have hulim : ∀ j, Tendsto (fun n => u n j) atTop (𝓝 (v j)) := by
    intro j
    rcases (hv j).lt_or_eq with h | h
    · refine tendsto_const_nhds.congr' ?_
      filter_upwards [hA j h] with n hn
      simp only [hu, if_pos hn]
    · refine tendsto_const_nhds.congr fun n => ?_
      simp only [hu]; split_ifs
      exacts [rfl, h.symm]
  have hxne : x i ≠ x i' := by
    simp only [hx, spaced]
    intro h
    have : (i : ℝ) * δ = i' * δ := by linarith
    exact hne (by exact_mod_cast mul_right_cancel₀ hδ.ne' this)
  have hmean : ∀ β', 0 < β' → Tendsto (fun n => tiltMean (u n) x β') atTop (𝓝 (tiltMean v x β')) := by
    intro β' hβ'
    exact (tilt_tendsto hδ hβ' huW hulim tendsto_const_nhds 1).div (tilt_tendsto hδ hβ' huW hulim tendsto_const_nhds 0)
      (tilt_pos hv (spaced_tiltable hδ hβ' hvW) hi).ne'
  have hfin : ∀ n β', Tiltable (u n) x β' := fun n β' => finite_tiltable (A n) (fun j hj => by simp only [hu, if_neg hj]) x β'
  have hanti : ∀ᶠ n in atTop, StrictAnti (tiltMean (u n) x) := by
    filter_upwards [hA i hi, hA i' hi'] with n h1 h2 s t hst
    exact tilt_anti (hu0 n) hst (hfin n s) (hfin n t) (i := i) (i' := i') (by simp only [hu, if_pos h1]; exact hi) (by simp only [hu, if_pos h2]; exact hi') hxne
  have hlow : ∀ β', 0 < β' → β' < β → ∀ᶠ n in atTop, β' < γ n := by
    intro β' h0 h1
    have hlt : tiltMean v x β < tiltMean v x β' := tilt_anti hv h1 (spaced_tiltable hδ h0 hvW) (spaced_tiltable hδ hβ hvW) hi hi' hxne
    obtain ⟨c, hc1, hc2⟩ := exists_between hlt
    filter_upwards [hanti, hγ.eventually (gt_mem_nhds hc1), (hmean β' h0).eventually (lt_mem_nhds hc2)] with n h2 h3 h4
    by_contra hc
    have := h2.antitone (not_lt.1 hc)
    exact absurd (lt_of_lt_of_le h4 this) (not_lt.2 h3.le)
  have hhigh : ∀ β', β < β' → ∀ᶠ n in atTop, γ n < β' := by
    intro β' h1
    have h0 : 0 < β' := hβ.trans h1
    have hlt : tiltMean v x β' < tiltMean v x β := tilt_anti hv h1 (spaced_tiltable hδ hβ hvW) (spaced_tiltable hδ h0 hvW) hi hi' hxne
    obtain ⟨c, hc1, hc2⟩ := exists_between hlt
    filter_upwards [hanti, hγ.eventually (lt_mem_nhds hc2), (hmean β' h0).eventually (gt_mem_nhds hc1)] with n h2 h3 h4
    by_contra hc
    have := h2.antitone (not_lt.1 hc)
    exact absurd (lt_of_lt_of_le h3 this) (not_lt.2 h4.le)
  rw [tendsto_order]
  refine ⟨fun c hc => ?_, hhigh⟩
  have h1 : max c (β / 2) < β := max_lt hc (by linarith)
  filter_upwards [hlow _ (lt_of_lt_of_le (half_pos hβ) (le_max_right c (β / 2))) h1] with n hn
  exact lt_of_le_of_lt (le_max_left _ _) hn

/-- For a large exponent the tilted mean is below a number above one of the points. -/
theorem tilt_below {v x : ℕ → ℝ} (hv : ∀ j, 0 ≤ v j) {β0 : ℝ} (h : ∀ β', β0 ≤ β' → Tiltable v x β') {R : ℝ} {a : ℕ} (ha : 0 < v a) (hx : x a < R) :
    ∃ β', β0 < β' ∧ tilt v x 1 β' < R * tilt v x 0 β' := by
  set q : ℕ → ℝ := fun j => v j * |x j - R| * Real.exp (-β0 * x j) with hq
  have hqs : Summable q := by
    refine (tilt_centred (h β0 le_rfl) R).summable.abs.congr fun j => ?_
    rw [hq, abs_mul, abs_mul, abs_of_nonneg (hv j), abs_of_pos (Real.exp_pos _)]
  set c := R - x a with hc
  have hc0 : 0 < c := sub_pos.2 hx
  have hqa : 0 < q a := by
    have : 0 < |x a - R| := abs_pos.2 (sub_ne_zero.2 hx.ne)
    simp only [hq]
    positivity
  have hM : 0 ≤ ∑' j, q j := tsum_nonneg fun j => by simp only [hq]; have := hv j; positivity
  set t := (∑' j, q j) / (q a * c) + 1 with ht
  have ht0 : 0 < t := by positivity
  refine ⟨β0 + t, by linarith, ?_⟩
  rw [← sub_neg]
  have c1 := (tilt_centred (h (β0 + t) (by linarith)) R).mul_left (Real.exp (t * R))
  have c2 : HasSum (fun j => q j + if j = a then -(q a * Real.exp (t * c)) else 0) ((∑' j, q j) + -(q a * Real.exp (t * c))) :=
    hqs.hasSum.add (hasSum_ite_eq a _)
  have hle := hasSum_le (fun j => ?_) c1 c2
  · have h1 : (∑' j, q j) + -(q a * Real.exp (t * c)) < 0 := by
      have h2 : t * c + 1 ≤ Real.exp (t * c) := Real.add_one_le_exp _
      have h3 : (∑' j, q j) < q a * (t * c + 1) := by
        have : q a * (t * c + 1) = (∑' j, q j) + q a * (c + 1) := by
          rw [ht]; field_simp; ring
        rw [this]
        have : 0 < q a * (c + 1) := by positivity
        linarith
      have := mul_le_mul_of_nonneg_left h2 hqa.le
      linarith
    have h2 := lt_of_le_of_lt hle h1
    exact (pos_iff_neg_of_mul_neg h2).1 (Real.exp_pos _)
  · have e : Real.exp (t * R) * (v j * (x j - R) * Real.exp (-(β0 + t) * x j)) = v j * (x j - R) * Real.exp (-β0 * x j) * Real.exp (-t * (x j - R)) := by
      have : Real.exp (-(β0 + t) * x j) * Real.exp (t * R) = Real.exp (-β0 * x j) * Real.exp (-t * (x j - R)) := by
        rw [← Real.exp_add, ← Real.exp_add]; congr 1; ring
      linear_combination (v j * (x j - R)) * this
    rw [e]
    have hvj := hv j
    have hE := Real.exp_pos (-β0 * x j)
    by_cases hja : j = a
    · subst hja
      rw [if_pos rfl]
      have e2 : q j = -(v j * (x j - R) * Real.exp (-β0 * x j)) := by
        simp only [hq]
        rw [abs_of_neg (sub_neg.2 hx)]; ring
      have e3 : Real.exp (-t * (x j - R)) = Real.exp (t * c) := by rw [hc]; congr 1; ring
      rw [e3]
      have : v j * (x j - R) * Real.exp (-β0 * x j) = -q j := by rw [e2]; ring
      rw [this]
      linarith
    · rw [if_neg hja, add_zero]
      simp only [hq]
      rcases le_total R (x j) with h1 | h1
      · rw [abs_of_nonneg (sub_nonneg.2 h1)]
        have h2 : Real.exp (-t * (x j - R)) ≤ 1 := by
          rw [Real.exp_le_one_iff]
          have := mul_nonneg ht0.le (sub_nonneg.2 h1)
          linarith
        have h3 : 0 ≤ v j * (x j - R) * Real.exp (-β0 * x j) := mul_nonneg (mul_nonneg hvj (sub_nonneg.2 h1)) hE.le
        exact mul_le_of_le_one_right h3 h2
      · have h3 : v j * (x j - R) * Real.exp (-β0 * x j) * Real.exp (-t * (x j - R)) ≤ 0 :=
          mul_nonpos_of_nonpos_of_nonneg (mul_nonpos_of_nonpos_of_nonneg (mul_nonpos_of_nonneg_of_nonpos hvj (sub_nonpos.2 h1)) hE.le) (Real.exp_pos _).le
        exact h3.trans (by positivity)

theorem tilt_finite {v : ℕ → ℝ} (A : Finset ℕ) (hA : ∀ j, j ∉ A → v j = 0) (x : ℕ → ℝ) (k : ℕ) (β : ℝ) : tilt v x k β = ∑ j ∈ A, v j * x j ^ k * Real.exp (-β * x j) :=
  tsum_eq_sum fun j hj => by rw [hA j hj]; ring

theorem tilt_finite_continuous {v : ℕ → ℝ} (A : Finset ℕ) (hA : ∀ j, j ∉ A → v j = 0) (x : ℕ → ℝ) (k : ℕ) : Continuous (tilt v x k) := by
  have : tilt v x k = fun β => ∑ j ∈ A, v j * x j ^ k * Real.exp (-β * x j) := funext fun β => tilt_finite A hA x k β
  rw [this]
  fun_prop

/-- Finitely many weights: every number strictly between two of the points is a tilted mean. -/
theorem tilt_exists {v : ℕ → ℝ} (A : Finset ℕ) (hA : ∀ j, j ∉ A → v j = 0) (hv : ∀ j, 0 ≤ v j) (x : ℕ → ℝ) {R : ℝ} {a b : ℕ} (ha : 0 < v a) (hb : 0 < v b)
    (hax : x a < R) (hbx : R < x b) : ∃ β, tiltMean v x β = R := by
  obtain ⟨β1, -, h1⟩ := tilt_below (β0 := 0) hv (fun β' _ => finite_tiltable A hA x β') ha hax
  obtain ⟨β2, -, h2⟩ := tilt_below (β0 := 0) (x := fun j => -x j) hv (fun β' _ => finite_tiltable A hA _ β') hb (neg_lt_neg hbx)
  have e1 : tilt v (fun j => -x j) 1 β2 = -tilt v x 1 (-β2) := by
    rw [tilt_finite A hA, tilt_finite A hA, ← Finset.sum_neg_distrib]
    refine Finset.sum_congr rfl fun j _ => ?_
    rw [pow_one, pow_one, show -β2 * -x j = - -β2 * x j by ring]; ring
  have e0 : tilt v (fun j => -x j) 0 β2 = tilt v x 0 (-β2) := by
    rw [tilt_finite A hA, tilt_finite A hA]
    refine Finset.sum_congr rfl fun j _ => ?_
    rw [pow_zero, pow_zero, show -β2 * -x j = - -β2 * x j by ring]
  rw [e1, e0] at h2
  have hc : Continuous fun β => tilt v x 1 β - R * tilt v x 0 β := (tilt_finite_continuous A hA x 1).sub (continuous_const.mul (tilt_finite_continuous A hA x 0))
  obtain ⟨β, hβ⟩ := mem_range_of_exists_le_of_exists_ge hc ⟨β1, (sub_neg.2 h1).le⟩ ⟨-β2, by linarith⟩
  refine ⟨β, ?_⟩
  have hp := tilt_pos hv (finite_tiltable A hA x β) ha
  unfold tiltMean
  rw [div_eq_iff hp.ne']
  linarith

/-- Infinitely many equally spaced points: a number above a point and below the tilted mean at `β` is the tilted mean at a larger exponent. -/
theorem tilt_exists_above {x0 δ β W : ℝ} (hδ : 0 < δ) (hβ : 0 < β) {v : ℕ → ℝ} (hv : ∀ j, 0 ≤ v j) (hW : ∀ j, v j ≤ W) {R : ℝ} {a : ℕ} (ha : 0 < v a)
    (hax : spaced x0 δ a < R) (hR : R < tiltMean v (spaced x0 δ) β) : ∃ β', β < β' ∧ tiltMean v (spaced x0 δ) β' = R := by
  have hvW : ∀ j, |v j| ≤ W := fun j => by rw [abs_of_nonneg (hv j)]; exact hW j
  have hT : ∀ β', β ≤ β' → Tiltable v (spaced x0 δ) β' := fun β' h => spaced_tiltable hδ (lt_of_lt_of_le hβ h) hvW
  obtain ⟨β1, hβ1, h1⟩ := tilt_below hv hT ha hax
  have hcont : ∀ k, ContinuousOn (tilt v (spaced x0 δ) k) (Set.Icc β β1) := by
    intro k y hy
    refine ContinuousAt.continuousWithinAt ?_
    refine tendsto_of_seq_tendsto fun γ hγ => ?_
    exact tilt_tendsto hδ (lt_of_lt_of_le hβ hy.1) (fun _ j => hvW j) (fun j => tendsto_const_nhds) hγ k
  have hp : ∀ β', β ≤ β' → 0 < tilt v (spaced x0 δ) 0 β' := fun β' h => tilt_pos hv (hT β' h) ha
  have hm : ContinuousOn (tiltMean v (spaced x0 δ)) (Set.Icc β β1) := (hcont 1).div (hcont 0) fun y hy => (hp y hy.1).ne'
  have h2 : tiltMean v (spaced x0 δ) β1 ≤ R := by
    unfold tiltMean
    rw [div_le_iff₀ (hp β1 hβ1.le)]; exact h1.le
  obtain ⟨y, hy, e⟩ := intermediate_value_Icc' hβ1.le hm ⟨h2, hR.le⟩
  refine ⟨y, lt_of_le_of_ne hy.1 ?_, e⟩
  rintro rfl
  exact absurd e hR.ne'

end
end SeismoStats.Props
