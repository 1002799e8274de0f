/-
Property C80: binning in double precision.
-/
import Verif.Proofs.DoubleBinning
import Verif.Spec.Double
import Verif.Proofs.Binning

namespace SeismoStats.Props
open SeismoStats SeismoStats.Spec.Double
open SeismoStats.Double (rnd rnd_err rnd_pos rnd_rnd)
open Classical
noncomputable section

/-- C80 (the arithmetic): `rnd x` is a double and none is nearer to `x`; it is monotone and leaves doubles as they are. -/
theorem C80_rounding (x : ℝ) : Nearest x (rnd x) ∧ (∀ y, x ≤ y → rnd x ≤ rnd y) ∧ (IsDouble x → rnd x = x) := by
  refine ⟨⟨?_, ?_⟩, fun y => Double.rnd_mono, ?_⟩
  · obtain ⟨n, hn, h⟩ := Double.rnd_form x
    exact ⟨n, _, hn, h⟩
  · rintro z ⟨n, g, hn, rfl⟩
    exact Double.rnd_nearest x n g hn
  · rintro ⟨n, g, hn, h⟩
    exact Double.rnd_exact n g hn h

theorem rnd_lt_err {x e : ℝ} (h : |x| ≤ e) : |rnd x - x| ≤ e * (12 / 10 ^ 17) := by
  have := rnd_err x
  have h0 := (abs_nonneg x).trans h
  have : |x| / 2 ^ 53 ≤ e * (12 / 10 ^ 17) := by
    rw [div_le_iff₀ (by norm_num)]
    norm_num
    linarith
  linarith

/-- Any number near a multiple of the bin size. -/
theorem binTo_near (x : ℝ) (K : ℤ) (j p : ℕ) (hj : 1 ≤ j) (hK : |(K : ℝ)| * j ≤ 10 ^ 14)
    (h : |x - K * ((j : ℝ) / 10 ^ p)| ≤ 2 / 5 * ((j : ℝ) / 10 ^ p)) :
    Double.binTo (rnd ((j : ℝ) / 10 ^ p)) p x = rnd (K * ((j : ℝ) / 10 ^ p)) := by
  set D : ℝ := (j : ℝ) / 10 ^ p with hDd
  have hj' : (1 : ℝ) ≤ j := by exact_mod_cast hj
  have hD : 0 < D := by positivity
  have hK' : |(K : ℝ)| ≤ 10 ^ 14 := by nlinarith [abs_nonneg (K : ℝ)]
  have hq : |x / D - K| ≤ 2 / 5 := by
    have e : x / D - K = (x - K * D) / D := by field_simp
    rw [e, abs_div, abs_of_pos hD, div_le_iff₀ hD]
    exact h
  have hq2 : |x / D| ≤ 10 ^ 14 + 1 := by
    have := abs_add_le (x / D - K) K
    rw [sub_add_cancel] at this
    linarith
  have h1 := Double.err_div (x := x) hD
  set q := Double.div x (rnd D)
  have h2 : |q - x / D| ≤ 24 / 1000 := by
    refine h1.trans ?_
    norm_num at *
    linarith
  have h3 : |q| ≤ 10 ^ 14 + 2 := by
    have := abs_add_le (q - x / D) (x / D)
    rw [sub_add_cancel] at this
    linarith
  have hr : Double.roundToInt q = K := by
    have a := abs_le.1 hq
    have b := abs_le.1 h2
    apply Double.roundToInt_eq
    · norm_num at *
      linarith [a.1, b.1]
    · norm_num at *
      linarith [a.2, b.2]
  unfold Double.binTo
  rw [show Double.roundToInt (Double.div x (rnd D)) = K from hr]
  exact Double.cleanup K j p hK hj

/-- C80: noise in the input is removed: whatever number is within 0.4 bins of a multiple of the bin size (as the sum or difference of binned numbers),
the result is the double nearest to that decimal multiple. -/
theorem C80_noise_removed (x : ℝ) (k : ℤ) (j p : ℕ) (hj : 1 ≤ j) (hk : |(k : ℝ)| * j ≤ 10 ^ 14)
    (h : |x - k * ((j : ℝ) / 10 ^ p)| ≤ 2 / 5 * ((j : ℝ) / 10 ^ p)) :
    Double.binTo (rnd ((j : ℝ) / 10 ^ p)) p x = rnd (k * ((j : ℝ) / 10 ^ p)) := binTo_near x k j p hj hk h

/-- The rounding decision for decimal numbers, at most 1000 bins away from zero. -/
theorem binTo_decimal (a : ℤ) (s j p : ℕ) (hj : 1 ≤ j) (hs : j * 10 ^ s ≤ 10 ^ 10) (hr : |a| ≤ 1000 * (j * 10 ^ s : ℕ)) (k : ℤ)
    (hk : HalfUp a (j * 10 ^ s : ℕ) k) :
    Double.binTo (rnd ((j : ℝ) / 10 ^ p)) p (rnd ((a : ℝ) / 10 ^ (p + s))) = rnd (k * ((j : ℝ) / 10 ^ p)) := by
  obtain ⟨hk1, hk2⟩ := hk
  set w : ℕ := j * 10 ^ s with hw
  have hw1 : 1 ≤ w := Nat.mul_pos hj (by positivity)
  set D : ℝ := (j : ℝ) / 10 ^ p with hDd
  have hj' : (1 : ℝ) ≤ j := by exact_mod_cast hj
  have hD : 0 < D := by positivity
  have hwr : (0 : ℝ) < w := by exact_mod_cast hw1
  have hw10 : (w : ℝ) ≤ 10 ^ 10 := by exact_mod_cast hs
  set X : ℝ := (a : ℝ) / 10 ^ (p + s) with hX
  have hXD : X / D = a / w := by
    rw [hX, hDd, hw, pow_add]
    push_cast
    field_simp
  have hxb : |X / D| ≤ 1000 := by
    rw [hXD, abs_div, abs_of_pos hwr, div_le_iff₀ hwr]
    exact_mod_cast hr
  -- error of the rounded input
  have e0 : |rnd X / D - X / D| ≤ 1000 * (12 / 10 ^ 17) := by
    have := rnd_err X
    rw [← sub_div, abs_div, abs_of_pos hD, div_le_iff₀ hD]
    have hc : |X| ≤ 1000 * D := by
      have h9 := hxb
      rw [abs_div X D, abs_of_pos hD, div_le_iff₀ hD] at h9
      exact h9
    have := rnd_lt_err hc
    linarith
  have hxb2 : |rnd X / D| ≤ 1001 := by
    have := abs_add_le (rnd X / D - X / D) (X / D)
    rw [sub_add_cancel] at this
    norm_num at *
    linarith
  have e1 := Double.err_div (x := rnd X) hD
  set q := Double.div (rnd X) (rnd D) with hqd
  have e2 : |q - X / D| ≤ 4 / 10 ^ 13 := by
    have t := abs_sub_le q (rnd X / D) (X / D)
    norm_num at *
    linarith
  have hq3 : |q| ≤ 1001 := by
    have := abs_add_le (q - X / D) (X / D)
    rw [sub_add_cancel] at this
    norm_num at *
    linarith
  -- the decision
  have d1 : (k : ℝ) ≤ X / D + 1 / 2 := by
    rw [hXD]
    have : ((2 * k - 1) * (w : ℤ) : ℝ) ≤ 2 * a := by exact_mod_cast hk1
    have h2 : (k : ℝ) - 1 / 2 ≤ a / w := by
      rw [le_div_iff₀ hwr]; push_cast at this; linarith
    linarith
  have d2 : X / D + 1 / 2 + 1 / (2 * 10 ^ 10) ≤ k + 1 := by
    rw [hXD]
    have h3 : 2 * a + 1 ≤ (2 * k + 1) * (w : ℤ) := by omega
    have : (2 * (a : ℝ) + 1) ≤ (2 * k + 1) * (w : ℤ) := by exact_mod_cast h3
    push_cast at this
    have h2 : (a : ℝ) / w ≤ k + 1 / 2 - 1 / (2 * 10 ^ 10) := by
      rw [div_le_iff₀ hwr]
      have : (1 : ℝ) / (2 * 10 ^ 10) * w ≤ 1 / 2 := by
        rw [div_mul_eq_mul_div, div_le_iff₀ (by norm_num)]; linarith
      nlinarith
    linarith
  have hr : Double.roundToInt q = k := by
    have b := abs_le.1 e2
    apply Double.roundToInt_eq
    · norm_num at *
      linarith [b.1]
    · norm_num at *
      linarith [b.2]
  have hk1000 : |(k : ℝ)| ≤ 1001 := by
    have := abs_le.1 hxb
    rw [abs_le]
    constructor <;> [linarith [this.1, d2]; linarith [this.2, d1]]
  have hjw : (j : ℝ) ≤ 10 ^ 10 := by
    have : j ≤ w := by rw [hw]; exact Nat.le_mul_of_pos_right _ (by positivity)
    have : (j : ℝ) ≤ w := by exact_mod_cast this
    linarith
  unfold Double.binTo
  rw [← hqd, hr]
  apply Double.cleanup k j p _ hj
  calc |(k : ℝ)| * j ≤ 1001 * 10 ^ 10 := mul_le_mul hk1000 hjw (by linarith) (by norm_num)
    _ ≤ 10 ^ 14 := by norm_num

/-- C80: decimal numbers `a / 10^(p + s)` (NaN: `none`), at most 1000 bins away from zero, binned to `j / 10^p`: each is rounded to the nearest multiple
of the bin size, the larger one for a number exactly between two, although neither numbers nor bin size are doubles; the result is the double nearest to that
decimal multiple. -/
theorem C80_binning (l : List (Option ℤ)) (s j p : ℕ) (hj : (10 : ℝ) ^ p ≤ j * 10 ^ 12) (hs : j * 10 ^ s ≤ 10 ^ 10)
    (hr : ∀ a, some a ∈ l → |a| ≤ 1000 * (j * 10 ^ s : ℕ)) (near : ℤ → ℤ) (hn : ∀ a, some a ∈ l → HalfUp a (j * 10 ^ s : ℕ) (near a)) :
    Double.binToPrecision (l.map (Option.map fun a : ℤ => rnd ((a : ℝ) / 10 ^ (p + s)))) (rnd ((j : ℝ) / 10 ^ p)) p =
      .ok (l.map (Option.map fun a : ℤ => rnd (near a * ((j : ℝ) / 10 ^ p)))) := by
  have hj1 : 1 ≤ j := by
    rcases Nat.eq_zero_or_pos j with h | h
    · subst h; simp at hj; linarith [pow_pos (by norm_num : (0 : ℝ) < 10) p]
    · exact h
  unfold Double.binToPrecision
  rw [if_neg]
  · rw [List.map_map]
    congr 1
    apply List.map_congr_left
    intro o ho
    cases o with
    | none => rfl
    | some a =>
      simp only [Function.comp_apply, Option.map_some]
      rw [binTo_decimal a s j p hj1 hs (hr a ho) (near a) (hn a ho)]
  · rw [not_lt]
    apply Double.rnd_mono
    rw [div_le_div_iff₀ (by positivity) (by positivity)]
    linarith

/-- Every decimal number has exactly one such multiple. -/
theorem C80_half_up_unique (a w : ℤ) (hw : 0 < w) : ∃! k, HalfUp a w k := by
  refine ⟨(2 * a + w) / (2 * w), ⟨?_, ?_⟩, ?_⟩
  · have := Int.mul_ediv_self_le (x := 2 * a + w) (k := 2 * w) (by omega)
    nlinarith
  · have := Int.lt_mul_ediv_self_add (x := 2 * a + w) (k := 2 * w) (by omega)
    nlinarith
  · rintro k ⟨h1, h2⟩
    symm
    rw [Int.ediv_eq_iff_of_pos (by omega)]
    constructor <;> nlinarith

/-- The model in exact arithmetic for the same number. -/
theorem exact_binTo (a : ℤ) (s j p : ℕ) (hj : 1 ≤ j) (hs : j * 10 ^ s ≤ 10 ^ 10) (k : ℤ) (hk : HalfUp a (j * 10 ^ s : ℕ) k) :
    SeismoStats.binTo ((j : ℝ) / 10 ^ p) ((a : ℝ) / 10 ^ (p + s)) = k * ((j : ℝ) / 10 ^ p) := by
  set w : ℕ := j * 10 ^ s with hw
  have hw1 : 1 ≤ w := Nat.mul_pos hj (by positivity)
  unfold SeismoStats.binTo SeismoStats.roundToInt SeismoStats.eps
  congr 2
  have hj' : (1 : ℝ) ≤ j := by exact_mod_cast hj
  have hwr : (0 : ℝ) < w := by exact_mod_cast hw1
  have hw10 : (w : ℝ) ≤ 10 ^ 10 := by exact_mod_cast hs
  have hXD : (a : ℝ) / 10 ^ (p + s) / ((j : ℝ) / 10 ^ p) = a / w := by
    rw [hw, pow_add]
    push_cast
    field_simp
  rw [hXD, Int.floor_eq_iff]
  obtain ⟨hk1, hk2⟩ := hk
  constructor
  · have : ((2 * k - 1) * (w : ℤ) : ℝ) ≤ 2 * a := by exact_mod_cast hk1
    have h2 : (k : ℝ) - 1 / 2 ≤ a / w := by
      rw [le_div_iff₀ hwr]; push_cast at this; linarith
    have : (0 : ℝ) < 1 / 10 ^ 12 := by norm_num
    linarith
  · have h3 : 2 * a + 1 ≤ (2 * k + 1) * (w : ℤ) := by omega
    have : (2 * (a : ℝ) + 1) ≤ (2 * k + 1) * (w : ℤ) := by exact_mod_cast h3
    push_cast at this
    have h2 : (a : ℝ) / w ≤ k + 1 / 2 - 1 / (2 * 10 ^ 10) := by
      rw [div_le_iff₀ hwr]
      have : (1 : ℝ) / (2 * 10 ^ 10) * w ≤ 1 / 2 := by
        rw [div_mul_eq_mul_div, div_le_iff₀ (by norm_num)]; linarith
      nlinarith
    norm_num at *
    linarith

/-- C80: the model in exact arithmetic (C05) gives the decimal number of which this is the double. -/
theorem C80_exact_model (a : ℤ) (s j p : ℕ) (hj : 1 ≤ j) (hs : j * 10 ^ s ≤ 10 ^ 10) (hr : |a| ≤ 1000 * (j * 10 ^ s : ℕ)) :
    Double.binTo (rnd ((j : ℝ) / 10 ^ p)) p (rnd ((a : ℝ) / 10 ^ (p + s))) = rnd (SeismoStats.binTo ((j : ℝ) / 10 ^ p) ((a : ℝ) / 10 ^ (p + s))) := by
  have hw1 : 1 ≤ j * 10 ^ s := Nat.mul_pos hj (by positivity)
  obtain ⟨k, hk, -⟩ := C80_half_up_unique a (j * 10 ^ s : ℕ) (by exact_mod_cast hw1)
  rw [binTo_decimal a s j p hj hs hr k hk, exact_binTo a s j p hj hs k hk]

theorem roundToInt_mono {x y : ℝ} (h : x ≤ y) : Double.roundToInt x ≤ Double.roundToInt y := by
  unfold Double.roundToInt Double.add
  apply Int.floor_mono
  apply Double.rnd_mono
  have := Double.rnd_mono (add_le_add_left h (1 / 2))
  linarith

/-- C80: binning never changes the order of two numbers, whatever their size. -/
theorem C80_monotone {δ x y : ℝ} (hδ : 0 < δ) (p : ℕ) (h : x ≤ y) : Double.binTo δ p x ≤ Double.binTo δ p y := by
  unfold Double.binTo Double.normalRound Double.div Double.mul
  have h1 : Double.roundToInt (rnd (x / δ)) ≤ Double.roundToInt (rnd (y / δ)) :=
    roundToInt_mono (Double.rnd_mono (div_le_div_of_nonneg_right h hδ.le))
  have h2 : rnd (Double.roundToInt (rnd (x / δ)) * δ) ≤ rnd (Double.roundToInt (rnd (y / δ)) * δ) :=
    Double.rnd_mono (mul_le_mul_of_nonneg_right (by exact_mod_cast h1) hδ.le)
  have hP : (0 : ℝ) ≤ 10 ^ p := by positivity
  have h3 := roundToInt_mono (Double.rnd_mono (mul_le_mul_of_nonneg_right h2 hP))
  apply Double.rnd_mono
  apply div_le_div_of_nonneg_right _ hP
  exact_mod_cast h3

/-- The result of binning is the double of a multiple of the bin size. -/
theorem binTo_form (x : ℝ) (j p : ℕ) (hj : 1 ≤ j) (hjb : (j : ℝ) ≤ 10 ^ 13) (hx : |x| * 10 ^ p ≤ 10 ^ 13) :
    ∃ K : ℤ, Double.binTo (rnd ((j : ℝ) / 10 ^ p)) p x = rnd (K * ((j : ℝ) / 10 ^ p)) ∧ |(K : ℝ)| * j ≤ 10 ^ 14 ∧
      |(K : ℝ)| ≤ |x / ((j : ℝ) / 10 ^ p)| + 3 := by
  set D : ℝ := (j : ℝ) / 10 ^ p with hDd
  have hj' : (1 : ℝ) ≤ j := by exact_mod_cast hj
  have hD : 0 < D := by positivity
  have hP : (0 : ℝ) < 10 ^ p := by positivity
  have hxD : |x / D| * j ≤ 10 ^ 13 := by
    rw [abs_div, abs_of_pos hD, hDd]
    have : |x| / ((j : ℝ) / 10 ^ p) * j = |x| * 10 ^ p := by field_simp
    rw [this]; exact hx
  have hxD' : |x / D| ≤ 10 ^ 13 := by nlinarith [abs_nonneg (x / D)]
  obtain ⟨K, hK⟩ : ∃ K, K = Double.roundToInt (Double.div x (rnd D)) := ⟨_, rfl⟩
  have e1 := Double.err_div (x := x) hD
  set q := Double.div x (rnd D)
  have hq : |q| ≤ |x / D| + 1 / 100 := by
    have := abs_add_le (q - x / D) (x / D)
    rw [sub_add_cancel] at this
    norm_num at *
    linarith
  have e2 := Double.err_add_eps q
  have hKq : |(K : ℝ)| ≤ |x / D| + 3 := by
    have f1 := Int.floor_le (Double.add (Double.add q (1 / 2)) Double.eps)
    have f2 := Int.lt_floor_add_one (Double.add (Double.add q (1 / 2)) Double.eps)
    have g := abs_le.1 e2
    have hqa := abs_le.1 (le_refl |q|)
    rw [hK]
    unfold Double.roundToInt
    rw [abs_le]
    norm_num at g hq hxD' e2 ⊢
    constructor <;> linarith [g.1, g.2, hqa.1, hqa.2]
  have hKj : |(K : ℝ)| * j ≤ 10 ^ 14 := by
    calc |(K : ℝ)| * j ≤ (|x / D| + 3) * j := mul_le_mul_of_nonneg_right hKq (by linarith)
      _ = |x / D| * j + 3 * j := by ring
      _ ≤ 10 ^ 14 := by linarith
  refine ⟨K, ?_, hKj, hKq⟩
  unfold Double.binTo
  rw [← hK]
  exact Double.cleanup K j p hKj hj

/-- C80: binning twice is binning once, to the last bit: for any number (decimal or not) of at most `10^13` units of the last decimal place. -/
theorem C80_idempotent (x : ℝ) (j p : ℕ) (hj : 1 ≤ j) (hjb : (j : ℝ) ≤ 10 ^ 13) (hx : |x| * 10 ^ p ≤ 10 ^ 13) :
    Double.binTo (rnd ((j : ℝ) / 10 ^ p)) p (Double.binTo (rnd ((j : ℝ) / 10 ^ p)) p x) = Double.binTo (rnd ((j : ℝ) / 10 ^ p)) p x := by
  obtain ⟨K, h1, hKj, -⟩ := binTo_form x j p hj hjb hx
  set D : ℝ := (j : ℝ) / 10 ^ p with hDd
  have hj' : (1 : ℝ) ≤ j := by exact_mod_cast hj
  have hD : 0 < D := by positivity
  rw [h1]
  refine binTo_near (rnd (K * D)) K j p hj hKj ?_
  rw [← hDd]
  have hKb : |(K : ℝ)| ≤ 10 ^ 14 := by nlinarith [abs_nonneg (K : ℝ)]
  have hKD : |(K : ℝ) * D| ≤ 10 ^ 14 * D := by
    rw [abs_mul, abs_of_pos hD]
    exact mul_le_mul_of_nonneg_right hKb hD.le
  have := rnd_lt_err hKD
  norm_num at *
  linarith

/-- 2.25 (which is a double), 1.15 (whose double is smaller) and -0.35 binned to 0.1 are the doubles 2.3, 1.2 and -0.3. -/
example : Double.binToPrecision [some (rnd (225 / 10 ^ 2)), none, some (rnd (115 / 10 ^ 2)), some (rnd (-35 / 10 ^ 2))] (rnd (1 / 10 ^ 1)) 1 =
    .ok [some (rnd (23 * (1 / 10 ^ 1))), none, some (rnd (12 * (1 / 10 ^ 1))), some (rnd (-3 * (1 / 10 ^ 1)))] := by
  have h := C80_binning [some 225, none, some 115, some (-35)] 1 1 1 (by norm_num) (by norm_num)
    (by intro a ha; simp at ha; rcases ha with rfl | rfl | rfl <;> norm_num)
    (fun a => (2 * a + 10) / 20) (by intro a ha; simp at ha; rcases ha with rfl | rfl | rfl <;> (unfold HalfUp; norm_num))
  simpa using h

end
end SeismoStats.Props
