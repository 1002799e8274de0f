/-
Lemmas for Props/DoubleTest: the difference of two decimals below 8 and its binned version.
-/
import Verif.Proofs.DoubleFmd
import Verif.Model.DoubleTest

namespace SeismoStats
namespace Double
noncomputable section
open Classical

/-- Doubles of at least `2 ^ e` are multiples of `2 ^ (e - 52)`. -/
theorem rnd_multiple {x : ℝ} (e : ℤ) (h : (2 : ℝ) ^ e ≤ |x|) : ∃ n : ℤ, rnd x = n * (2 : ℝ) ^ (e - 52) := by
  obtain ⟨n, -, hn⟩ := rnd_form x
  have hx : 0 < |x| := lt_of_lt_of_le (zpow_pos (by norm_num) _) h
  have hl : e ≤ Int.log 2 |x| := by
    have a := Int.lt_zpow_succ_log_self (b := 2) (by norm_num) |x|
    have : (2 : ℝ) ^ e < ((2 : ℕ) : ℝ) ^ (Int.log 2 |x| + 1) := lt_of_le_of_lt h a
    push_cast at this
    have := (zpow_lt_zpow_iff_right₀ (by norm_num : (1 : ℝ) < 2)).1 this
    omega
  refine ⟨n * 2 ^ (Int.log 2 |x| - e).toNat, ?_⟩
  rw [hn]
  push_cast
  rw [mul_assoc]
  congr 1
  rw [← zpow_natCast, ← zpow_add₀ (by norm_num)]
  congr 1
  omega

/-- Two multiples of `q` less than `2 q` apart are at most `q` apart. -/
theorem multiple_gap {q x y : ℝ} (hq : 0 < q) (hx : ∃ n : ℤ, x = n * q) (hy : ∃ n : ℤ, y = n * q) (h : |x - y| < 2 * q) : |x - y| ≤ q := by
  obtain ⟨n, rfl⟩ := hx
  obtain ⟨m, rfl⟩ := hy
  rw [← sub_mul, abs_mul, abs_of_pos hq] at h ⊢
  have h1 : |(n : ℝ) - m| < 2 := lt_of_mul_lt_mul_right h hq.le
  have h2 : |n - m| < 2 := by exact_mod_cast h1
  have h3 : |n - m| ≤ 1 := by omega
  have h4 : |(n : ℝ) - m| ≤ 1 := by exact_mod_cast h3
  nlinarith

/-- The quantity that is compared with the tolerance: `M`, `N` numbers of at most 8 with `Z = M - N ≥ 0` away from the powers of two or equal to one. -/
theorem test_err {M N : ℝ} (hM : |M| ≤ 8) (hN : |N| ≤ 8) (h0 : N ≤ M)
    (hsep : ∀ e ∈ [(2 : ℝ), 4, 8], M - N = e ∨ M - N ≤ e - 1 / 10 ^ 12 ∨ e + 1 / 10 ^ 12 ≤ M - N) :
    |rnd (M - N) - rnd (rnd M - rnd N)| ≤ 9999 / 10 ^ 19 + (M - N) / 10 ^ 16 * (999 / 1000) := by
  have p50 : (2 : ℝ) ^ (-50 : ℤ) = 1 / 1125899906842624 := by norm_num
  have p51 : (2 : ℝ) ^ (-51 : ℤ) = 1 / 2251799813685248 := by norm_num
  have p52 : (2 : ℝ) ^ (-52 : ℤ) = 1 / 4503599627370496 := by norm_num
  have p53 : (2 : ℝ) ^ (-53 : ℤ) = 1 / 9007199254740992 := by norm_num
  have p49 : (2 : ℝ) ^ (-49 : ℤ) = 1 / 562949953421312 := by norm_num
  have two3 : (2 : ℝ) ^ (3 : ℤ) = 8 := by norm_num
  have two2 : (2 : ℝ) ^ (2 : ℤ) = 4 := by norm_num
  have two1 : (2 : ℝ) ^ (1 : ℤ) = 2 := by norm_num
  have two4 : (2 : ℝ) ^ (4 : ℤ) = 16 := by norm_num
  have err3 : ∀ {x : ℝ}, |x| ≤ 8 → |rnd x - x| ≤ 1 / 2251799813685248 := fun {x} h => by
    have := rnd_err_le (x := x) 3 (by rw [two3]; exact h)
    rwa [show (3 : ℤ) - 54 = -51 by norm_num, p51] at this
  have err2 : ∀ {x : ℝ}, |x| ≤ 4 → |rnd x - x| ≤ 1 / 4503599627370496 := fun {x} h => by
    have := rnd_err_le (x := x) 2 (by rw [two2]; exact h)
    rwa [show (2 : ℤ) - 54 = -52 by norm_num, p52] at this
  have err1 : ∀ {x : ℝ}, |x| ≤ 2 → |rnd x - x| ≤ 1 / 9007199254740992 := fun {x} h => by
    have := rnd_err_le (x := x) 1 (by rw [two1]; exact h)
    rwa [show (1 : ℤ) - 54 = -53 by norm_num, p53] at this
  have err4 : ∀ {x : ℝ}, |x| ≤ 16 → |rnd x - x| ≤ 1 / 1125899906842624 := fun {x} h => by
    have := rnd_err_le (x := x) 4 (by rw [two4]; exact h)
    rwa [show (4 : ℤ) - 54 = -50 by norm_num, p50] at this
  have hu := err3 hM
  have hv := err3 hN
  have hM' := abs_le.1 hM
  have hN' := abs_le.1 hN
  set Z := M - N with hZ
  have hZ0 : 0 ≤ Z := by linarith
  set w := rnd M - rnd N with hw
  have hwZ : |w - Z| ≤ |rnd M - M| + |rnd N - N| := by
    have e : w - Z = (rnd M - M) - (rnd N - N) := by rw [hw, hZ]; ring
    rw [e]; exact abs_sub _ _
  have hwZ2 : |w - Z| ≤ 1 / 1125899906842624 := by linarith
  have hwa := abs_le.1 hwZ2
  -- b - z from the three errors
  have split : ∀ {eb ez : ℝ}, |rnd Z - Z| ≤ eb → |rnd w - w| ≤ ez → |rnd Z - rnd w| ≤ eb + ez + |w - Z| := by
    intro eb ez h1 h2
    have e : rnd Z - rnd w = (rnd Z - Z) - (rnd w - w) - (w - Z) := by ring
    rw [e]
    have a := abs_sub ((rnd Z - Z) - (rnd w - w)) (w - Z)
    have b := abs_sub (rnd Z - Z) (rnd w - w)
    linarith
  -- one of the two numbers is at most 4
  have one4 : (|M| ≤ 4 ∨ |N| ≤ 4) → |w - Z| ≤ 3 / 4503599627370496 := by
    rintro (h | h)
    · have := err2 h; linarith
    · have := err2 h; linarith
  rcases hsep 8 (by simp) with h8 | h8 | h8
  · -- Z = 8
    have hb : rnd Z = Z := by
      rw [h8]; exact rnd_exact 1 3 (by norm_num) (by norm_num)
    have hz := err4 (x := w) (by rw [abs_le]; constructor <;> linarith [hwa.1, hwa.2])
    have := split (eb := 0) (by rw [hb]; simp) hz
    norm_num at this hwZ2 ⊢
    linarith
  · -- Z < 8
    rcases hsep 4 (by simp) with h4 | h4 | h4
    · have hb : rnd Z = Z := by
        rw [h4]; exact rnd_exact 1 2 (by norm_num) (by norm_num)
      have hz := err3 (x := w) (by rw [abs_le]; constructor <;> linarith [hwa.1, hwa.2])
      have := split (eb := 0) (by rw [hb]; simp) hz
      norm_num at this hwZ2 ⊢
      linarith
    · -- Z < 4
      have hA : (|w - Z| ≤ 3 / 4503599627370496) ∨ rnd w = w := by
        by_cases h : |M| ≤ 4 ∨ |N| ≤ 4
        · exact Or.inl (one4 h)
        · right
          push Not at h
          obtain ⟨n, hn⟩ := rnd_multiple (x := M) 2 (by rw [two2]; exact h.1.le)
          obtain ⟨m, hm⟩ := rnd_multiple (x := N) 2 (by rw [two2]; exact h.2.le)
          have hp : (0 : ℝ) < 2 ^ ((2 : ℤ) - 52) := zpow_pos (by norm_num) _
          have he : w = ((n - m : ℤ) : ℝ) * 2 ^ ((2 : ℤ) - 52) := by rw [hw, hn, hm]; push_cast; ring
          refine rnd_exact (n - m) ((2 : ℤ) - 52) ?_ he
          have hwb : |w| ≤ 8 := by rw [abs_le]; constructor <;> linarith [hwa.1, hwa.2]
          rw [he, abs_mul, abs_of_pos hp, show (2 : ℤ) - 52 = -50 by norm_num, p50] at hwb
          have : |((n - m : ℤ) : ℝ)| ≤ 2 ^ 53 := by
            norm_num at hwb ⊢
            linarith
          exact_mod_cast this
      have hw4 : |w| ≤ 4 := by rw [abs_le]; constructor <;> linarith [hwa.1, hwa.2]
      have hZ4 : |Z| ≤ 4 := by rw [abs_of_nonneg hZ0]; linarith
      rcases le_or_gt 2 Z with h2 | h2
      · rcases hA with hA | hA
        · have := split (err2 hZ4) (err2 hw4)
          norm_num at this hA ⊢
          linarith
        · have := split (err2 hZ4) (ez := 0) (by rw [hA]; simp)
          norm_num at this hwZ2 ⊢
          linarith
      · have h2' : Z ≤ 2 - 1 / 10 ^ 12 := by
          rcases hsep 2 (by simp) with h | h | h
          · linarith
          · exact h
          · exfalso; norm_num at h; linarith
        have hw2 : |w| ≤ 2 := by rw [abs_le]; constructor <;> linarith [hwa.1, hwa.2]
        have hZ2 : |Z| ≤ 2 := by rw [abs_of_nonneg hZ0]; linarith
        rcases hA with hA | hA
        · have := split (err1 hZ2) (err1 hw2)
          norm_num at this hA ⊢
          linarith
        · have := split (err1 hZ2) (ez := 0) (by rw [hA]; simp)
          norm_num at this hwZ2 ⊢
          linarith
    · -- 4 < Z < 8
      have hcase : |M| ≤ 4 ∨ |N| ≤ 4 := by
        by_contra hc
        push Not at hc
        have hsep4 : (0 : ℝ) < 1 / 10 ^ 12 := by norm_num
        rcases lt_abs.1 hc.1 with a | a <;> rcases lt_abs.1 hc.2 with b | b <;> linarith [hM'.1, hM'.2, hN'.1, hN'.2]
      have hW := one4 hcase
      have hw8 : |w| ≤ 8 := by rw [abs_le]; constructor <;> linarith [hwa.1, hwa.2]
      have hZ8 : |Z| ≤ 8 := by rw [abs_of_nonneg hZ0]; linarith
      have h1 := split (err3 hZ8) (err3 hw8)
      have hbm := rnd_multiple (x := Z) 2 (by rw [two2, abs_of_nonneg hZ0]; linarith)
      have hzm := rnd_multiple (x := w) 2 (by rw [two2]; exact le_trans (by linarith [hwa.1]) (le_abs_self w))
      rw [show (2 : ℤ) - 52 = -50 by norm_num, p50] at hbm hzm
      have := multiple_gap (by norm_num) hbm hzm (by norm_num at h1 hW ⊢; linarith)
      norm_num at this ⊢
      linarith
  · -- 8 < Z ≤ 16
    have hZ16 : |Z| ≤ 16 := by rw [abs_of_nonneg hZ0]; linarith [hM'.2, hN'.1]
    have hw16 : |w| ≤ 16 := by
      have a : rnd M ≤ 8 := by
        have := rnd_mono hM'.2
        rwa [rnd_exact (x := 8) 1 3 (by norm_num) (by norm_num)] at this
      have b : -8 ≤ rnd N := by
        have := rnd_mono hN'.1
        rwa [rnd_exact (x := -8) (-1) 3 (by norm_num) (by norm_num)] at this
      rw [abs_le]; constructor <;> linarith [hwa.1]
    have h1 := split (err4 hZ16) (err4 hw16)
    have hbm := rnd_multiple (x := Z) 3 (by rw [two3, abs_of_nonneg hZ0]; linarith)
    have hzm := rnd_multiple (x := w) 3 (by rw [two3]; exact le_trans (by linarith [hwa.1]) (le_abs_self w))
    rw [show (3 : ℤ) - 52 = -49 by norm_num, p49] at hbm hzm
    have := multiple_gap (by norm_num) hbm hzm (by norm_num at h1 hwZ2 ⊢; linarith)
    norm_num at this ⊢
    linarith

end
end Double
end SeismoStats
