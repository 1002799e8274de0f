/-
Relative closeness of non-negative numbers: `a` is within the factor `exp θ` of `b`. The bounds of products, quotients and sums add up.
-/
import Verif.Proofs.Double
import Verif.Model.DoubleBValue
import Mathlib.Analysis.SpecialFunctions.Log.Deriv
import Mathlib.Analysis.Complex.ExponentialBounds
import Mathlib.Analysis.Convex.SpecificFunctions.Basic

namespace SeismoStats
namespace Double
noncomputable section

/-- `a` is within the factor `exp θ` of `b`. -/
def Near (θ a b : ℝ) : Prop := b * Real.exp (-θ) ≤ a ∧ a ≤ b * Real.exp θ

/-- The relative error of one rounding. -/
def unit : ℝ := 12 / 10 ^ 17

theorem unit_pos : 0 < unit := by unfold unit; norm_num

theorem Near.refl {θ a : ℝ} (hθ : 0 ≤ θ) (ha : 0 ≤ a) : Near θ a a := by
  have h1 : Real.exp (-θ) ≤ 1 := Real.exp_le_one_iff.2 (by linarith)
  have h2 : 1 ≤ Real.exp θ := Real.one_le_exp hθ
  constructor <;> nlinarith

theorem Near.nonneg {θ a b : ℝ} (h : Near θ a b) (hb : 0 ≤ b) : 0 ≤ a := le_trans (mul_nonneg hb (Real.exp_pos _).le) h.1

theorem Near.pos {θ a b : ℝ} (h : Near θ a b) (hb : 0 < b) : 0 < a := lt_of_lt_of_le (mul_pos hb (Real.exp_pos _)) h.1

theorem Near.mono {θ θ' a b : ℝ} (h : Near θ a b) (hb : 0 ≤ b) (hθ : θ ≤ θ') : Near θ' a b := by
  constructor
  · exact le_trans (mul_le_mul_of_nonneg_left (Real.exp_le_exp.2 (by linarith)) hb) h.1
  · exact le_trans h.2 (mul_le_mul_of_nonneg_left (Real.exp_le_exp.2 hθ) hb)

theorem Near.trans {θ θ' a b c : ℝ} (h : Near θ a b) (h' : Near θ' b c) : Near (θ + θ') a c := by
  constructor
  · refine le_trans ?_ h.1
    rw [neg_add, Real.exp_add, mul_comm (Real.exp (-θ)), ← mul_assoc]
    exact mul_le_mul_of_nonneg_right h'.1 (Real.exp_pos _).le
  · refine le_trans h.2 ?_
    rw [Real.exp_add, mul_comm (Real.exp θ), ← mul_assoc]
    exact mul_le_mul_of_nonneg_right h'.2 (Real.exp_pos _).le

theorem Near.add {θ a b a' b' : ℝ} (h : Near θ a b) (h' : Near θ a' b') : Near θ (a + a') (b + b') := by
  constructor
  · rw [add_mul]; exact add_le_add h.1 h'.1
  · rw [add_mul]; exact add_le_add h.2 h'.2

theorem Near.mul {θ θ' a b a' b' : ℝ} (h : Near θ a b) (h' : Near θ' a' b') (hb : 0 ≤ b) (hb' : 0 ≤ b') : Near (θ + θ') (a * a') (b * b') := by
  have ha := h.nonneg hb
  have ha' := h'.nonneg hb'
  constructor
  · rw [neg_add, Real.exp_add, mul_mul_mul_comm]
    exact mul_le_mul h.1 h'.1 (mul_nonneg hb' (Real.exp_pos _).le) ha
  · rw [Real.exp_add, mul_mul_mul_comm]
    exact mul_le_mul h.2 h'.2 ha' (mul_nonneg hb (Real.exp_pos _).le)

theorem Near.inv {θ a b : ℝ} (h : Near θ a b) (hb : 0 < b) : Near θ a⁻¹ b⁻¹ := by
  have ha := h.pos hb
  constructor
  · rw [Real.exp_neg, ← mul_inv]
    exact inv_anti₀ ha h.2
  · rw [← inv_inv (Real.exp θ), ← Real.exp_neg, ← mul_inv]
    exact inv_anti₀ (mul_pos hb (Real.exp_pos _)) h.1

theorem Near.div {θ θ' a b a' b' : ℝ} (h : Near θ a b) (h' : Near θ' a' b') (hb : 0 ≤ b) (hb' : 0 < b') : Near (θ + θ') (a / a') (b / b') := by
  rw [div_eq_mul_inv, div_eq_mul_inv]
  exact h.mul (h'.inv hb') hb (inv_nonneg.2 hb'.le)

theorem near_of_rel {r θ a b : ℝ} (hb : 0 ≤ b) (h : |a - b| ≤ r * b) (hr : r ≤ θ) (hr2 : r * (1 + θ) ≤ θ) : Near θ a b := by
  have h1 := abs_le.1 h
  rcases hb.eq_or_lt with rfl | hb'
  · simp at h1
    have : a = 0 := le_antisymm h1.2 h1.1
    subst this
    exact ⟨by simp, by simp⟩
  have hr0 : 0 ≤ r := by
    by_contra hn
    have : r * b < 0 := mul_neg_of_neg_of_pos (not_le.1 hn) hb'
    linarith [abs_nonneg (a - b)]
  have hθ : 0 ≤ θ := le_trans hr0 hr
  constructor
  · have e : Real.exp (-θ) ≤ 1 - r := by
      rw [Real.exp_neg]
      have h2 := Real.add_one_le_exp θ
      have h3 : (Real.exp θ)⁻¹ ≤ (1 + θ)⁻¹ := inv_anti₀ (by linarith) (by linarith)
      refine le_trans h3 ?_
      rw [inv_le_iff_one_le_mul₀ (by linarith)]
      nlinarith
    nlinarith [mul_le_mul_of_nonneg_left e hb]
  · have e : 1 + r ≤ Real.exp θ := by
      have h2 := Real.add_one_le_exp θ
      linarith
    nlinarith [mul_le_mul_of_nonneg_left e hb]

/-- One rounding. -/
theorem near_rnd {x : ℝ} (hx : 0 ≤ x) : Near unit (rnd x) x := by
  have h := rnd_err x
  rw [abs_of_nonneg hx] at h
  refine near_of_rel (r := 1 / 2 ^ 53) hx (by rw [one_div_mul_eq_div]; exact h) ?_ ?_ <;> unfold unit <;> norm_num

theorem Near.rnd {θ a b : ℝ} (h : Near θ a b) (hb : 0 ≤ b) : Near (θ + unit) (rnd a) b := by
  rw [add_comm]
  exact (near_rnd (h.nonneg hb)).trans h

/-- The relative error. -/
theorem Near.abs {θ a b : ℝ} (h : Near θ a b) (hb : 0 ≤ b) (h0 : 0 ≤ θ) (h1 : θ ≤ 1) : |a - b| ≤ 2 * θ * b := by
  have e1 := abs_le.1 (Real.abs_exp_sub_one_le (x := θ) (by rw [abs_of_nonneg h0]; exact h1))
  have e2 := abs_le.1 (Real.abs_exp_sub_one_le (x := -θ) (by rw [abs_neg, abs_of_nonneg h0]; exact h1))
  rw [abs_of_nonneg h0] at e1
  rw [abs_neg, abs_of_nonneg h0] at e2
  rw [abs_le]
  constructor
  · nlinarith [h.1, mul_le_mul_of_nonneg_left (show 1 - 2 * θ ≤ Real.exp (-θ) by linarith) hb]
  · nlinarith [h.2, mul_le_mul_of_nonneg_left (show Real.exp θ ≤ 1 + 2 * θ by linarith) hb]

theorem near_list {θ : ℝ} {x y : List ℝ} (h : List.Forall₂ (Near θ) x y) : Near θ x.sum y.sum := by
  induction h with
  | nil => exact ⟨by simp, by simp⟩
  | cons h _ ih => simpa using h.add ih

theorem near_perm {θ : ℝ} {x y x' : List ℝ} (h : List.Forall₂ (Near θ) x y) (hp : x'.Perm x) : Near θ x'.sum y.sum := by
  rw [hp.sum_eq]
  exact near_list h

/-- A sum of non-negative numbers, in any order of additions. -/
theorem near_tree (t : SumTree) (h : ∀ v ∈ t.leaves, 0 ≤ v) : Near (t.depth * unit) t.value t.leaves.sum := by
  induction t with
  | leaf x =>
    have := h x (by simp [SumTree.leaves])
    simpa [SumTree.leaves, SumTree.value, SumTree.depth] using Near.refl (le_refl 0) this
  | node l r ihl ihr =>
    have hl : ∀ v ∈ l.leaves, 0 ≤ v := fun v hv => h v (by simp [SumTree.leaves, hv])
    have hr : ∀ v ∈ r.leaves, 0 ≤ v := fun v hv => h v (by simp [SumTree.leaves, hv])
    have sl := List.sum_nonneg hl
    have sr := List.sum_nonneg hr
    have e1 := (ihl hl).mono sl (θ' := (max l.depth r.depth : ℕ) * unit) (mul_le_mul_of_nonneg_right (by exact_mod_cast le_max_left _ _) unit_pos.le)
    have e2 := (ihr hr).mono sr (θ' := (max l.depth r.depth : ℕ) * unit) (mul_le_mul_of_nonneg_right (by exact_mod_cast le_max_right _ _) unit_pos.le)
    have := (e1.add e2).rnd (add_nonneg sl sr)
    unfold SumTree.value SumTree.leaves SumTree.depth Double.add
    rw [List.sum_append]
    push_cast
    rw [add_mul, one_mul]
    simpa using this

/-- The logarithm of `1 + q`. -/
theorem near_log {θ q' q : ℝ} (h : Near θ q' q) (hθ : 0 ≤ θ) (hq : 0 < q) : Near θ (Real.log (1 + q')) (Real.log (1 + q)) := by
  have hq' := h.pos hq
  have key : ∀ t x : ℝ, 1 ≤ t → 0 < x → Real.log (1 + t * x) ≤ t * Real.log (1 + x) := by
    intro t x ht hx
    have := one_add_mul_self_le_rpow_one_add (s := x) (by linarith) ht
    rw [← Real.log_rpow (by linarith)]
    exact Real.log_le_log (by positivity) this
  have ht : 1 ≤ Real.exp θ := Real.one_le_exp hθ
  constructor
  · have e : q ≤ Real.exp θ * q' := by
      have := h.1
      rw [Real.exp_neg, ← div_eq_mul_inv, div_le_iff₀ (Real.exp_pos _)] at this
      linarith
    have := key _ q' ht hq'
    rw [Real.exp_neg, ← div_eq_mul_inv, div_le_iff₀ (Real.exp_pos _)]
    have h2 := Real.log_le_log (by linarith) (show 1 + q ≤ 1 + Real.exp θ * q' by linarith)
    linarith
  · have := key _ q ht hq
    have h2 := Real.log_le_log (by linarith) (show 1 + q' ≤ 1 + Real.exp θ * q by linarith [h.2])
    linarith

end
end Double
end SeismoStats
