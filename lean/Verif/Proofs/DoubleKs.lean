/-
Errors of the KS distance in double precision.
-/
import Verif.Model.DoubleKs
import Verif.Proofs.DoubleBValue
import Verif.Proofs.DoubleFmd

namespace SeismoStats
namespace Double
noncomputable section
open Classical

/-- `x + delta_m - mc` on the grid. -/
theorem near_shift {D R : ℝ} (hD : 0 < D) (hR1 : 1 ≤ R) (hR : R ≤ 10 ^ 12) {k a : ℤ} (hak : a ≤ k) (hk : |(k : ℝ)| ≤ R) (ha : |(a : ℝ)| ≤ R) :
    Near ((3 * R + 4) * unit) (sub (add (rnd (k * D)) (rnd D)) (rnd (a * D))) ((k + 1 - a) * D) := by
  have h1 : (1 : ℝ) ≤ k + 1 - a := by
    have : (a : ℝ) ≤ k := by exact_mod_cast hak
    linarith
  have hx : 0 ≤ ((k : ℝ) + 1 - a) * D := by nlinarith
  have hxD : D ≤ ((k : ℝ) + 1 - a) * D := by nlinarith
  have hkD : |(k : ℝ) * D| ≤ R * D := by
    rw [abs_mul, abs_of_pos hD]
    exact mul_le_mul_of_nonneg_right hk hD.le
  have haD : |(a : ℝ) * D| ≤ R * D := by
    rw [abs_mul, abs_of_pos hD]
    exact mul_le_mul_of_nonneg_right ha hD.le
  have e1 := (rnd_err (k * D)).trans (div_le_div_of_nonneg_right hkD (by positivity))
  have e2 := rnd_err D
  rw [abs_of_pos hD] at e2
  have e4 := (rnd_err (a * D)).trans (div_le_div_of_nonneg_right haD (by positivity))
  have hs : |rnd (k * D) + rnd D| ≤ (R + 1) * D * (1 + 1 / 2 ^ 53) := by
    have p1 := abs_le.1 e1
    have p2 := abs_le.1 e2
    have p3 := abs_le.1 hkD
    rw [abs_le]
    constructor <;> [linarith [p1.1, p2.1, p3.1]; linarith [p1.2, p2.2, p3.2]]
  have e3 := (rnd_err (rnd (k * D) + rnd D)).trans (div_le_div_of_nonneg_right hs (by positivity))
  have e : Near ((3 * R + 3) * unit) (add (rnd (k * D)) (rnd D) - rnd (a * D)) ((k + 1 - a) * D) := by
    refine near_of_rel (r := (3 * R + 3) / 2 ^ 53) hx ?_ ?_ ?_
    · have p1 := abs_le.1 e1
      have p2 := abs_le.1 e2
      have p3 := abs_le.1 e3
      have p4 := abs_le.1 e4
      have h2 : (3 * R + 3) / 2 ^ 53 * D ≤ (3 * R + 3) / 2 ^ 53 * ((k + 1 - a) * D) := mul_le_mul_of_nonneg_left hxD (by positivity)
      have h3 : R * D / 2 ^ 53 + D / 2 ^ 53 + (R + 1) * D * (1 + 1 / 2 ^ 53) / 2 ^ 53 + R * D / 2 ^ 53 ≤ (3 * R + 3) / 2 ^ 53 * D := by
        have : (R + 1) * (1 / 2 ^ 53) ≤ 1 := by
          rw [mul_one_div, div_le_one (by norm_num)]
          norm_num at *
          linarith
        have h5 : R * D / 2 ^ 53 + D / 2 ^ 53 + (R + 1) * D * (1 + 1 / 2 ^ 53) / 2 ^ 53 + R * D / 2 ^ 53 = (3 * R + 2 + (R + 1) * (1 / 2 ^ 53)) / 2 ^ 53 * D := by ring
        rw [h5]
        apply mul_le_mul_of_nonneg_right _ hD.le
        apply div_le_div_of_nonneg_right _ (by positivity)
        linarith
      unfold add
      rw [abs_le]
      constructor
      · linarith [p1.1, p2.1, p3.1, p4.2]
      · linarith [p1.2, p2.2, p3.2, p4.1]
    · unfold unit; rw [div_le_iff₀ (by norm_num)]; norm_num; linarith
    · unfold unit
      have h2 : (3 * R + 3) / 2 ^ 53 ≤ (3 * R + 3) * (111023 / 10 ^ 21) := by
        rw [div_eq_mul_inv]
        exact mul_le_mul_of_nonneg_left (by norm_num) (by linarith)
      have h3 : 1 + (3 * R + 3) * (12 / 10 ^ 17) ≤ 1003 / 1000 := by norm_num at *; linarith
      have h4 : (3 * R + 3) / 2 ^ 53 * (1 + (3 * R + 3) * (12 / 10 ^ 17)) ≤ (3 * R + 3) * (111023 / 10 ^ 21) * (1003 / 1000) :=
        mul_le_mul h2 h3 (by positivity) (by positivity)
      norm_num at *
      linarith
  have := e.rnd hx
  rw [show (3 * R + 4) * unit = (3 * R + 3) * unit + unit by ring]
  exact this

/-- `x exp (-x / 2) ≤ 1`. -/
theorem mul_exp_half (x : ℝ) : x * Real.exp (-(x / 2)) ≤ 1 := by
  have h := Real.add_one_le_exp (x / 2 - 1)
  have h2 : x / 2 * Real.exp 1 ≤ Real.exp (x / 2) := by
    have : x / 2 ≤ Real.exp (x / 2 - 1) := by linarith
    rw [Real.exp_sub, le_div_iff₀ (Real.exp_pos _)] at this
    exact this
  have h3 := Real.exp_one_gt_d9
  rcases le_or_gt x 0 with hx | hx
  · have := mul_nonneg (neg_nonneg.2 hx) (Real.exp_pos (-(x / 2))).le
    linarith
  · rw [Real.exp_neg, ← div_eq_mul_inv, div_le_one (Real.exp_pos _)]
    nlinarith

/-- The exponential of a number that is known up to a factor. -/
theorem exp_close {θ u' u : ℝ} (h : Near θ u' u) (hu : 0 ≤ u) (h0 : 0 ≤ θ) (h1 : θ ≤ 1 / 4) : |Real.exp (-u') - Real.exp (-u)| ≤ 2 * θ := by
  have hd := h.abs hu h0 (by linarith)
  have hlow : u / 2 ≤ u' := by
    have := (abs_le.1 hd).1
    nlinarith
  have key : ∀ x y : ℝ, 0 ≤ x → x ≤ y → Real.exp (-x) - Real.exp (-y) ≤ (y - x) * Real.exp (-x) := by
    intro x y _ hxy
    have : Real.exp (-y) = Real.exp (-x) * Real.exp (-(y - x)) := by rw [← Real.exp_add]; congr 1; ring
    rw [this]
    have h2 := Real.add_one_le_exp (-(y - x))
    have h3 := Real.exp_pos (-x)
    nlinarith
  have hm : |u' - u| * Real.exp (-(u / 2)) ≤ 2 * θ := by
    have h2 := mul_le_mul_of_nonneg_right hd (Real.exp_pos (-(u / 2))).le
    have h3 := mul_exp_half u
    have : 2 * θ * u * Real.exp (-(u / 2)) = 2 * θ * (u * Real.exp (-(u / 2))) := by ring
    rw [this] at h2
    nlinarith
  rcases le_total u' u with hle | hle
  · rw [abs_of_nonneg (by linarith [Real.exp_le_exp.2 (neg_le_neg hle)])]
    have h4 := key u' u (by linarith) hle
    rw [abs_of_nonpos (by linarith)] at hm
    have h5 : Real.exp (-u') ≤ Real.exp (-(u / 2)) := Real.exp_le_exp.2 (by linarith)
    have := mul_le_mul_of_nonneg_left h5 (sub_nonneg.2 hle)
    linarith
  · rw [abs_of_nonpos (by linarith [Real.exp_le_exp.2 (neg_le_neg hle)])]
    have h4 := key u u' hu hle
    rw [abs_of_nonneg (by linarith)] at hm
    have h5 : Real.exp (-u) ≤ Real.exp (-(u / 2)) := Real.exp_le_exp.2 (by linarith)
    have := mul_le_mul_of_nonneg_left h5 (sub_nonneg.2 hle)
    linarith

/-- The computed exponent. -/
theorem near_exponent {N : Np} {h : ℕ → ℕ} {η : ℝ} (hN : Accurate N h η) (hη : η ≤ 1 / 16) {D R b : ℝ} (hD : 0 < D) (hb : 0 < b) (hR1 : 1 ≤ R) (hR : R ≤ 10 ^ 12) {k a : ℤ}
    (hak : a ≤ k) (hk : |(k : ℝ)| ≤ R) (ha : |(a : ℝ)| ≤ R) :
    Near ((3 * R + 6) * unit + 2 * η) (mul (bToBeta N b) (sub (add (rnd (k * D)) (rnd D)) (rnd (a * D)))) (b * Real.log 10 * ((k + 1 - a) * D)) := by
  have hl : 0 < Real.log 10 := Real.log_pos (by norm_num)
  have h1 : (0 : ℝ) ≤ (k + 1 - a) * D := by
    have : (a : ℝ) ≤ k := by exact_mod_cast hak
    nlinarith
  have e1 : Near (2 * η + unit) (bToBeta N b) (b * Real.log 10) := by
    have := (Near.refl (le_refl 0) hb.le).mul (near_ln hN hη (by norm_num : (1 : ℝ) < 10)) hb.le hl.le
    rw [zero_add] at this
    exact this.rnd (mul_pos hb hl).le
  have := (e1.mul (near_shift hD hR1 hR hak hk ha) (mul_pos hb hl).le h1).rnd (mul_nonneg (mul_pos hb hl).le h1)
  have e : (3 * R + 6) * unit + 2 * η = 2 * η + unit + (3 * R + 4) * unit + unit := by ring
  rw [e]
  exact this

theorem rnd_abs_le {x c : ℝ} (h : |x| ≤ c) : |rnd x - x| ≤ c * unit := by
  have := rnd_err x
  have h2 : |x| / 2 ^ 53 ≤ c / 2 ^ 53 := div_le_div_of_nonneg_right h (by positivity)
  have h3 : c / 2 ^ 53 ≤ c * unit := by
    have := (abs_nonneg x).trans h
    unfold unit
    rw [div_eq_mul_inv]
    exact mul_le_mul_of_nonneg_left (by norm_num) this
  linarith

/-- The error of the distribution function. -/
theorem cdf_close {N : Np} {F : NpKs} {h : ℕ → ℕ} {η : ℝ} (hN : Accurate N h η) (hF : AccurateKs F η) (hη : η ≤ 1 / 16) {D R b : ℝ} (hD : 0 < D) (hb : 0 < b) (hR1 : 1 ≤ R)
    (hR : R ≤ 10 ^ 12) {k a : ℤ} (hak : a ≤ k) (hk : |(k : ℝ)| ≤ R) (ha : |(a : ℝ)| ≤ R) :
    |cdfAt F (rnd (a * D)) (rnd D) (bToBeta N b) (rnd (k * D)) - (1 - Real.exp (-(b * Real.log 10) * ((k + 1 - a) * D)))| ≤ (6 * R + 14) * unit + 5 * η := by
  have hl : 0 < Real.log 10 := Real.log_pos (by norm_num)
  have h1 : (0 : ℝ) ≤ (k + 1 - a) * D := by
    have : (a : ℝ) ≤ k := by exact_mod_cast hak
    nlinarith
  have hu0 : 0 ≤ b * Real.log 10 * ((k + 1 - a) * D) := mul_nonneg (mul_pos hb hl).le h1
  have hη0 : 0 ≤ η := (abs_nonneg _).trans (hF.exp 0 (le_refl 0))
  have hup := unit_pos.le
  have hsmall : (3 * R + 6) * unit ≤ 1 / 1000 := by
    unfold unit
    norm_num at *
    linarith
  have hn := near_exponent hN hη hD hb hR1 hR hak hk ha
  have hx := exp_close hn hu0 (by positivity) (by linarith)
  have hneg : mul (-bToBeta N b) (sub (add (rnd (k * D)) (rnd D)) (rnd (a * D))) = -mul (bToBeta N b) (sub (add (rnd (k * D)) (rnd D)) (rnd (a * D))) := by
    unfold mul
    rw [neg_mul, rnd_neg]
  unfold cdfAt
  rw [hneg, show -(b * Real.log 10) * ((k + 1 - a) * D) = -(b * Real.log 10 * ((k + 1 - a) * D)) by ring]
  set u' := mul (bToBeta N b) (sub (add (rnd (k * D)) (rnd D)) (rnd (a * D)))
  set u := b * Real.log 10 * ((k + 1 - a) * D)
  have hu'0 : 0 ≤ u' := hn.nonneg hu0
  have hE := hF.exp (-u') (by linarith)
  have hr : |1 - F.exp (-u')| ≤ 2 := by
    have p := abs_le.1 hE
    have q1 := Real.exp_pos (-u')
    have q2 : Real.exp (-u') ≤ 1 := Real.exp_le_one_iff.2 (by linarith)
    rw [abs_le]
    constructor <;> linarith [p.1, p.2]
  have hs := abs_le.1 (rnd_abs_le hr)
  have p := abs_le.1 hE
  have q := abs_le.1 hx
  unfold sub
  rw [abs_le]
  constructor
  · linarith [hs.1, p.2, q.2]
  · linarith [hs.2, p.1, q.1]

/-- The error of a difference between the fraction of a sample and the distribution function. -/
theorem ksTerm_close {N : Np} {F : NpKs} {h : ℕ → ℕ} {η : ℝ} (hN : Accurate N h η) (hF : AccurateKs F η) (hη : η ≤ 1 / 16) {D R b : ℝ} (hD : 0 < D) (hb : 0 < b) (hR1 : 1 ≤ R)
    (hR : R ≤ 10 ^ 12) {k a : ℤ} (hak : a ≤ k) (hk : |(k : ℝ)| ≤ R) (ha : |(a : ℝ)| ≤ R) {s t : ℕ} (hst : s ≤ t) :
    abs (abs (sub (div s t) (cdfAt F (rnd (a * D)) (rnd D) (bToBeta N b) (rnd (k * D)))) -
        abs ((s : ℝ) / t - (1 - Real.exp (-(b * Real.log 10) * ((k + 1 - a) * D))))) ≤
      (6 * R + 18) * unit + 5 * η := by
  have hl : 0 < Real.log 10 := Real.log_pos (by norm_num)
  have hη0 : 0 ≤ η := (abs_nonneg _).trans (hF.exp 0 (le_refl 0))
  have hc := cdf_close hN hF hη hD hb hR1 hR hak hk ha
  have h1 : (0 : ℝ) ≤ (k + 1 - a) * D := by
    have : (a : ℝ) ≤ k := by exact_mod_cast hak
    nlinarith
  have hu0 : 0 ≤ b * Real.log 10 * ((k + 1 - a) * D) := mul_nonneg (mul_pos hb hl).le h1
  have q1 := Real.exp_pos (-(b * Real.log 10) * ((k + 1 - a) * D))
  have q2 : Real.exp (-(b * Real.log 10) * ((k + 1 - a) * D)) ≤ 1 := Real.exp_le_one_iff.2 (by linarith)
  set y := cdfAt F (rnd (a * D)) (rnd D) (bToBeta N b) (rnd (k * D))
  set e := Real.exp (-(b * Real.log 10) * ((k + 1 - a) * D))
  have hf0 : (0 : ℝ) ≤ s / t := by positivity
  have hf1 : (s : ℝ) / t ≤ 1 := div_le_one_of_le₀ (by exact_mod_cast hst) (by positivity)
  have hd := abs_le.1 (rnd_abs_le (x := (s : ℝ) / t) (c := 1) (by rw [abs_of_nonneg hf0]; exact hf1))
  have hus : unit ≤ 1 / 10 ^ 15 := by unfold unit; norm_num
  have hup := unit_pos.le
  have hsmall : (6 * R + 14) * unit ≤ 1 / 1000 := by
    unfold unit
    norm_num at *
    linarith
  have p := abs_le.1 hc
  have hr : |div s t - y| ≤ 3 := by
    unfold div
    norm_num at hus
    rw [abs_le]
    constructor <;> linarith [hd.1, hd.2, p.1, p.2]
  have hs := abs_le.1 (rnd_abs_le hr)
  refine (abs_abs_sub_abs_le_abs_sub _ _).trans ?_
  unfold sub
  unfold div at hs ⊢
  rw [abs_le]
  constructor
  · linarith [hs.1, hd.1, p.2]
  · linarith [hs.2, hd.2, p.1]

/-- The computed largest magnitude considered. -/
theorem maxConsidered_close {F : NpKs} {η : ℝ} (hF : AccurateKs F η) (hη : η ≤ 1 / 10 ^ 10) {D b : ℝ} (hD : 0 < D) (hb : 0 < b) {n m : ℕ} (hn : 1 ≤ n * m) {a : ℝ}
    (ha : |a| ≤ 10 ^ 6) (hT : Real.log ((n * m : ℕ) * 1000) / Real.log 10 / b ≤ 10 ^ 6 * D) :
    |maxConsidered F b n m (rnd (a * D)) - (Real.log ((n * m : ℕ) * 1000) / Real.log 10 / b + a * D)| ≤ D / 1000 := by
  have hη0 : 0 ≤ η := (abs_nonneg _).trans (hF.exp 0 (le_refl 0))
  have hup := unit_pos.le
  have hus : unit ≤ 1 / 10 ^ 15 := by unfold unit; norm_num
  have hn1 : (1 : ℝ) ≤ (n * m : ℕ) := by exact_mod_cast hn
  set x : ℝ := ((n * m : ℕ) : ℝ) * 1000 with hx
  have hx1 : 1000 ≤ x := by rw [hx]; linarith
  have hl10 : 0 < Real.log 10 := Real.log_pos (by norm_num)
  have hlx : 1 ≤ Real.log x := by
    rw [Real.le_log_iff_exp_le (by linarith)]
    have := Real.exp_one_lt_d9
    linarith
  set x' := mul (rnd (n * m : ℕ)) 1000 with hx'
  have e1 : Near (2 * unit) x' x := by
    have := ((near_rnd (x := (n * m : ℕ)) (by linarith)).mul (Near.refl (a := 1000) (le_refl 0) (by norm_num)) (by linarith) (by norm_num)).rnd (by linarith)
    rw [show (2 : ℝ) * unit = unit + 0 + unit by ring]
    exact this
  have hx'1 : 1 ≤ x' := by
    have h1 := e1.1
    have h2 := Real.add_one_le_exp (-(2 * unit))
    have h3 := Real.exp_pos (-(2 * unit))
    norm_num at hus
    nlinarith
  have hx0 : 0 < x := by linarith
  have hlog : |Real.log x' - Real.log x| ≤ 2 * unit := by
    have h1 := Real.log_le_log (by positivity) e1.1
    have h2 := Real.log_le_log (by linarith) e1.2
    rw [Real.log_mul hx0.ne' (Real.exp_pos _).ne', Real.log_exp] at h1 h2
    rw [abs_le]
    constructor <;> linarith
  have e2 : Near (3 * unit) (Real.log x' / Real.log 10) (Real.log x / Real.log 10) := by
    have : Near (3 * unit) (Real.log x') (Real.log x) := by
      refine near_of_rel (r := 2 * unit) (by linarith) (hlog.trans (by nlinarith)) (by linarith) ?_
      norm_num at hus
      nlinarith
    have := this.div (Near.refl (le_refl 0) hl10.le) (by linarith) hl10
    rw [add_zero] at this
    exact this
  have hq0 : 0 ≤ Real.log x' / Real.log 10 := div_nonneg (Real.log_nonneg hx'1) hl10.le
  have e3 : Near (2 * η) (F.log10 x') (Real.log x' / Real.log 10) := by
    refine near_of_rel (r := η) hq0 (hF.log10 x' hx'1) (by linarith) ?_
    norm_num at hη
    nlinarith
  have e4 := e3.trans e2
  have hg0 : 0 ≤ Real.log x / Real.log 10 := div_nonneg (by linarith) hl10.le
  have e5 : Near (2 * η + 5 * unit) (mul (div 1 b) (F.log10 x')) (Real.log x / Real.log 10 / b) := by
    have hib : 0 ≤ 1 / b := by positivity
    have := ((near_rnd hib).mul e4 hib hg0).rnd (mul_nonneg hib hg0)
    rw [one_div_mul_eq_div] at this
    rw [show 2 * η + 5 * unit = unit + (2 * η + 3 * unit) + unit by ring]
    exact this
  set T := Real.log x / Real.log 10 / b with hTd
  have hT0 : 0 ≤ T := by positivity
  have e6 := e5.abs hT0 (by positivity) (by norm_num at hη hus ⊢; linarith)
  have e7 : |mul (div 1 b) (F.log10 x') - T| ≤ D / 2000 := by
    refine e6.trans ?_
    have : 2 * (2 * η + 5 * unit) ≤ 1 / 2000 / 10 ^ 6 := by norm_num at hη hus ⊢; linarith
    have := mul_le_mul this hT hT0 (by norm_num)
    linarith
  have haD : |a * D| ≤ 10 ^ 6 * D := by
    rw [abs_mul, abs_of_pos hD]
    exact mul_le_mul_of_nonneg_right ha hD.le
  have e8 := (rnd_err (a * D)).trans (div_le_div_of_nonneg_right haD (by positivity))
  unfold maxConsidered
  rw [← hx']
  unfold add
  have e9 : |mul (div 1 b) (F.log10 x') + rnd (a * D) - (T + a * D)| ≤ D / 2000 + D / 10 ^ 6 := by
    have p1 := abs_le.1 e7
    have p2 := abs_le.1 e8
    norm_num at p2 ⊢
    rw [abs_le]
    constructor <;> linarith [p1.1, p1.2, p2.1, p2.2]
  have := rnd_close e9 (c := 3 * 10 ^ 6 * D) (by
    have p := abs_le.1 haD
    have : |T + a * D| ≤ 2 * 10 ^ 6 * D := by
      rw [abs_le]
      constructor <;> linarith [p.1, p.2]
    norm_num at this ⊢
    linarith)
  norm_num at this ⊢
  linarith

end
end Double
end SeismoStats
