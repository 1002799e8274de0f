/-
Error bounds of the b-value estimators in double precision.
-/
import Verif.Proofs.Near
import Verif.Props.DoubleSelect

namespace SeismoStats
namespace Double
noncomputable section
open Classical

theorem near_zero {θ a : ℝ} : Near θ a 0 ↔ a = 0 := by
  unfold Near
  simp only [zero_mul]
  exact ⟨fun h => le_antisymm h.2 h.1, fun h => by rw [h]; exact ⟨le_refl _, le_refl _⟩⟩

theorem near_sum {N : Np} {h : ℕ → ℕ} {η : ℝ} (hN : Accurate N h η) {H : ℕ} {θ : ℝ} {x y : List ℝ} (hne : y ≠ []) (hH : h y.length ≤ H)
    (hy : ∀ v ∈ y, 0 ≤ v) (hxy : List.Forall₂ (Near θ) x y) : Near (θ + H * unit) (N.sum x) y.sum := by
  have hlen := hxy.length_eq
  have hx : x ≠ [] := by
    rintro rfl
    exact hne (List.length_eq_zero_iff.1 hlen.symm)
  have hx0 : ∀ v ∈ x, 0 ≤ v := by
    intro v hv
    obtain ⟨i, hi, rfl⟩ := List.mem_iff_getElem.1 hv
    have := (List.forall₂_iff_get.1 hxy).2 i hi (by omega)
    exact this.nonneg (hy _ (List.getElem_mem _))
  obtain ⟨t, h1, h2, h3⟩ := hN.sum x hx
  have e := near_tree t (fun v hv => hx0 v (h1.mem_iff.1 hv))
  rw [h1.sum_eq] at e
  rw [h3, add_comm]
  have hH' : (t.depth : ℝ) ≤ H := by
    have : t.depth ≤ H := h2.trans (by rw [hlen]; exact hH)
    exact_mod_cast this
  exact (e.mono (List.sum_nonneg hx0) (mul_le_mul_of_nonneg_right hH' unit_pos.le)).trans (near_list hxy)

theorem near_refl_list {y : List ℝ} (hy : ∀ v ∈ y, 0 ≤ v) : List.Forall₂ (Near 0) y y := by
  induction y with
  | nil => exact .nil
  | cons a r ih => exact .cons (Near.refl (le_refl 0) (hy a (by simp))) (ih fun v hv => hy v (by simp [hv]))

theorem near_zip {θ : ℝ} {x y w : List ℝ} (hxy : List.Forall₂ (Near θ) x y) (hy : ∀ v ∈ y, 0 ≤ v) (hw : ∀ v ∈ w, 0 ≤ v) :
    List.Forall₂ (Near (θ + unit)) (List.zipWith mul x w) (List.zipWith (· * ·) y w) := by
  induction hxy generalizing w with
  | nil => simp
  | cons h _ ih =>
    cases w with
    | nil => simp
    | cons b w =>
      rename_i a' b' l1 l2 hrest
      have hb := hw b (by simp)
      have ha := hy b' (by simp)
      refine .cons ?_ (ih (fun v hv => hy v (by simp [hv])) (fun v hv => hw v (by simp [hv])))
      have := (h.mul (Near.refl (le_refl 0) hb) ha hb).rnd (mul_nonneg ha hb)
      rwa [add_zero] at this

/-- The average: both fail, or both are close. -/
theorem near_average {N : Np} {h : ℕ → ℕ} {η : ℝ} (hN : Accurate N h η) {H : ℕ} {θ : ℝ} {x y : List ℝ} {w : Option (List ℝ)} (hne : y ≠ [])
    (hH : h y.length ≤ H) (hy : ∀ v ∈ y, 0 ≤ v) (hxy : List.Forall₂ (Near θ) x y) (hw : ∀ l, w = some l → l.length = y.length ∧ ∀ v ∈ l, 0 ≤ v) :
    (average N x w = .error .zeroDivision ∧ SeismoStats.average y w = .error .zeroDivision) ∨
      ∃ A' A, average N x w = .ok A' ∧ SeismoStats.average y w = .ok (.fin A) ∧ 0 ≤ A ∧ Near (θ + (2 * H + 2) * unit) A' A ∧
        (∀ m, (∀ v ∈ y, m ≤ v) → m ≤ A) ∧ ∀ M, (∀ v ∈ y, v ≤ M) → A ≤ M := by
  have hu := unit_pos.le
  have hH0 : (0 : ℝ) ≤ H := Nat.cast_nonneg _
  have hHu : 0 ≤ (H : ℝ) * unit := mul_nonneg hH0 hu
  cases w with
  | none =>
    right
    have hl : (0 : ℝ) < y.length := by exact_mod_cast List.length_pos_iff.2 hne
    refine ⟨_, y.sum / y.length, rfl, ?_, ?_, ?_, ?_, ?_⟩
    · simp [SeismoStats.average, hne]
    · exact div_nonneg (List.sum_nonneg hy) hl.le
    · have e1 := near_sum hN hne hH hy hxy
      have e2 := (e1.div (Near.refl (le_refl 0) hl.le) (List.sum_nonneg hy) hl).rnd (div_nonneg (List.sum_nonneg hy) hl.le)
      rw [← hxy.length_eq] at e2 ⊢
      refine Near.mono e2 ?_ ?_
      · rw [hxy.length_eq]; exact div_nonneg (List.sum_nonneg hy) hl.le
      · linarith
    · intro m hm
      rw [le_div_iff₀ hl]
      have := List.card_nsmul_le_sum y m hm
      rw [nsmul_eq_mul] at this
      linarith
    · intro m hm
      rw [div_le_iff₀ hl]
      have := List.sum_le_card_nsmul y m hm
      rw [nsmul_eq_mul] at this
      linarith
  | some l =>
    obtain ⟨hl, hl0⟩ := hw l rfl
    have hlne : l ≠ [] := by rintro rfl; exact hne (List.length_eq_zero_iff.1 hl.symm)
    have e1 := near_sum hN (H := H) hlne (by rw [hl]; exact hH) hl0 (near_refl_list hl0)
    by_cases hz : l.sum = 0
    · left
      rw [hz] at e1
      constructor
      · unfold average; dsimp only; rw [if_pos (near_zero.1 e1)]
      · unfold SeismoStats.average; dsimp only; rw [if_pos hz]
    · right
      have hp : 0 < l.sum := lt_of_le_of_ne (List.sum_nonneg hl0) (Ne.symm hz)
      have hzy : ∀ v ∈ List.zipWith (· * ·) y l, 0 ≤ v := by
        intro v hv
        rw [← List.map_uncurry_zip_eq_zipWith, List.mem_map] at hv
        obtain ⟨q, hq, rfl⟩ := hv
        have := List.of_mem_zip hq
        exact mul_nonneg (hy _ this.1) (hl0 _ this.2)
      have hzlen : (List.zipWith (· * ·) y l).length = y.length := by simp [hl]
      have hzne : List.zipWith (· * ·) y l ≠ [] := by
        intro h0; rw [h0] at hzlen; exact hne (List.length_eq_zero_iff.1 hzlen.symm)
      have e2 := near_sum hN (H := H) hzne (by rw [hzlen]; exact hH) hzy (near_zip hxy hy hl0)
      have hwsum : ∀ (y l : List ℝ) (m : ℝ), l.length = y.length → (∀ v ∈ l, 0 ≤ v) → (∀ v ∈ y, m ≤ v) → m * l.sum ≤ (List.zipWith (· * ·) y l).sum := by
        intro y
        induction y with
        | nil => intro l m h1 _ _; have h0 : l = [] := by simpa using h1
                 subst h0; simp
        | cons a r ih =>
          intro l m h1 h2 h3
          cases l with
          | nil => simp at h1
          | cons b l =>
            have := ih l m (by simpa using h1) (fun v hv => h2 v (by simp [hv])) (fun v hv => h3 v (by simp [hv]))
            have := mul_le_mul_of_nonneg_right (h3 a (by simp)) (h2 b (by simp))
            simp only [List.sum_cons, List.zipWith_cons_cons]
            linarith
      have hwsum' : ∀ (y l : List ℝ) (m : ℝ), l.length = y.length → (∀ v ∈ l, 0 ≤ v) → (∀ v ∈ y, v ≤ m) → (List.zipWith (· * ·) y l).sum ≤ m * l.sum := by
        intro y
        induction y with
        | nil => intro l m h1 _ _; have h0 : l = [] := by simpa using h1
                 subst h0; simp
        | cons a r ih =>
          intro l m h1 h2 h3
          cases l with
          | nil => simp at h1
          | cons b l =>
            have := ih l m (by simpa using h1) (fun v hv => h2 v (by simp [hv])) (fun v hv => h3 v (by simp [hv]))
            have := mul_le_mul_of_nonneg_right (h3 a (by simp)) (h2 b (by simp))
            simp only [List.sum_cons, List.zipWith_cons_cons]
            linarith
      refine ⟨div (N.sum (List.zipWith mul x l)) (N.sum l), (List.zipWith (· * ·) y l).sum / l.sum, ?_, ?_, div_nonneg (List.sum_nonneg hzy) hp.le, ?_, ?_, ?_⟩
      · unfold average; dsimp only; rw [if_neg (e1.pos hp).ne']
      · unfold SeismoStats.average; dsimp only; rw [if_neg hz]
      · have e3 := (e2.div e1 (List.sum_nonneg hzy) hp).rnd (div_nonneg (List.sum_nonneg hzy) hp.le)
        refine Near.mono e3 (div_nonneg (List.sum_nonneg hzy) hp.le) ?_
        linarith
      · intro m hm
        rw [le_div_iff₀ hp]
        exact hwsum y l m hl hl0 hm
      · intro m hm
        rw [div_le_iff₀ hp]
        exact hwsum' y l m hl hl0 hm

/-- The difference of a magnitude and `mc` on a common grid. -/
theorem near_excess {O D R : ℝ} (hD : 0 < D) (hR : R ≤ 10 ^ 13) {k c : ℤ} (hck : c ≤ k) (hk : |O + k * D| ≤ R * D) (hc : |O + c * D| ≤ R * D) :
    Near ((2 * R + 1) * unit) (sub (rnd (O + k * D)) (rnd (O + c * D))) ((k - c) * D) := by
  have hR0 : 0 ≤ R := by
    by_contra hn
    have := mul_neg_of_neg_of_pos (not_le.1 hn) hD
    linarith [abs_nonneg (O + k * D)]
  rcases hck.eq_or_lt with rfl | hlt
  · unfold sub
    rw [sub_self, sub_self, rnd_zero, zero_mul]
    exact near_zero.2 rfl
  have h1 : (1 : ℝ) ≤ k - c := by
    have : (c : ℝ) + 1 ≤ k := by exact_mod_cast hlt
    linarith
  have hx : 0 ≤ ((k : ℝ) - c) * D := by nlinarith
  have hxD : D ≤ ((k : ℝ) - c) * D := by nlinarith
  have a := (rnd_err (O + k * D)).trans (div_le_div_of_nonneg_right hk (by positivity))
  have b := (rnd_err (O + c * D)).trans (div_le_div_of_nonneg_right hc (by positivity))
  have e : Near (2 * R * unit) (rnd (O + k * D) - rnd (O + c * D)) ((k - c) * D) := by
    refine near_of_rel (r := 2 * R / 2 ^ 53) hx ?_ ?_ ?_
    · have e1 : rnd (O + k * D) - rnd (O + c * D) - (k - c) * D = (rnd (O + k * D) - (O + k * D)) - (rnd (O + c * D) - (O + c * D)) := by ring
      rw [e1]
      have := abs_sub (rnd (O + k * D) - (O + k * D)) (rnd (O + c * D) - (O + c * D))
      have h2 : 2 * R / 2 ^ 53 * D ≤ 2 * R / 2 ^ 53 * ((k - c) * D) := mul_le_mul_of_nonneg_left hxD (by positivity)
      have h3 : 2 * R / 2 ^ 53 * D = R * D / 2 ^ 53 + R * D / 2 ^ 53 := by ring
      linarith
    · unfold unit; rw [div_le_iff₀ (by norm_num)]; norm_num; linarith
    · unfold unit
      have h2 : 2 * R / 2 ^ 53 ≤ 2 * R * (111023 / 10 ^ 21) := by
        rw [div_eq_mul_inv]
        exact mul_le_mul_of_nonneg_left (by norm_num) (by linarith)
      have h3 : 1 + 2 * R * (12 / 10 ^ 17) ≤ 1003 / 1000 := by norm_num at *; linarith
      have h4 : 2 * R / 2 ^ 53 * (1 + 2 * R * (12 / 10 ^ 17)) ≤ 2 * R * (111023 / 10 ^ 21) * (1003 / 1000) :=
        mul_le_mul h2 h3 (by positivity) (by positivity)
      norm_num at *
      linarith
  have := e.rnd hx
  rw [add_mul, one_mul]
  exact this

/-- The rounded bin size. -/
theorem near_bin {D : ℝ} (hD : 0 < D) : Near unit (rnd D) D := near_rnd hD.le

/-- The computed logarithm. -/
theorem near_ln {N : Np} {h : ℕ → ℕ} {η : ℝ} (hN : Accurate N h η) (hη : η ≤ 1 / 16) {p : ℝ} (hp : 1 < p) : Near (2 * η) (N.ln p) (Real.log p) := by
  have hl : 0 < Real.log p := Real.log_pos hp
  have e := hN.ln p (by linarith)
  rw [abs_of_pos hl] at e
  have hη0 : 0 ≤ η := by
    by_contra hn
    have := mul_neg_of_neg_of_pos (not_le.1 hn) hl
    linarith [abs_nonneg (N.ln p - Real.log p)]
  exact near_of_rel hl.le e (by linarith) (by nlinarith)

/-- `log (1 + delta_m / average)` with all its roundings. -/
theorem near_log_p {N : Np} {h : ℕ → ℕ} {η : ℝ} (hN : Accurate N h η) (hη : η ≤ 1 / 16) {D A A' θ R : ℝ} (hD : 0 < D) (hA : 0 < A) (hR : R ≤ 10 ^ 13) (hR1 : 1 ≤ R)
    (hAR : A ≤ 2 * R * D) (hθ : 0 ≤ θ) (hθ1 : θ ≤ 1 / 20) (hAA : Near θ A' A) :
    1 < add 1 (div (rnd D) A') ∧ Near (θ + (5 / 2 * R + 4) * unit + 2 * η) (N.ln (add 1 (div (rnd D) A'))) (Real.log (1 + D / A)) := by
  have hu := unit_pos.le
  have hus : unit ≤ 1 / 10 ^ 15 := by unfold unit; norm_num
  have hq : 0 < D / A := div_pos hD hA
  have e1 : Near (θ + 2 * unit) (div (rnd D) A') (D / A) := by
    have := ((near_bin hD).div hAA hD.le hA).rnd hq.le
    refine Near.mono this hq.le (by linarith)
  set q' := div (rnd D) A' with hq'
  have hq'0 := e1.pos hq
  have e2 := near_log e1 (by linarith) hq
  -- lower bound of q'
  have hlow : 1 ≤ q' * (11 / 5 * R) := by
    have h1 : 1 / (2 * R) ≤ D / A := by
      rw [div_le_div_iff₀ (by linarith) hA]; linarith
    have h2 : (10 / 11 : ℝ) ≤ Real.exp (-(θ + 2 * unit)) := by
      have := Real.add_one_le_exp (-(θ + 2 * unit))
      norm_num at *
      linarith
    have h3 : 1 / (2 * R) * (10 / 11) ≤ q' := le_trans (mul_le_mul h1 h2 (by norm_num) hq.le) e1.1
    have h4 : 1 / (2 * R) * (10 / 11) * (11 / 5 * R) = 1 := by field_simp; norm_num
    rw [← h4]
    exact mul_le_mul_of_nonneg_right h3 (by linarith)
  have hlog : 1 ≤ Real.log (1 + q') * (1 + 11 / 5 * R) := by
    have h1 := Real.one_sub_inv_le_log_of_pos (show 0 < 1 + q' by linarith)
    have h2 : 1 ≤ (1 - (1 + q')⁻¹) * (1 + 11 / 5 * R) := by
      have : 1 - (1 + q')⁻¹ = q' / (1 + q') := by field_simp; ring
      rw [this, div_mul_eq_mul_div, le_div_iff₀ (by linarith)]
      nlinarith
    exact h2.trans (mul_le_mul_of_nonneg_right h1 (by linarith))
  have hlog0 : 0 < Real.log (1 + q') := Real.log_pos (by linarith)
  have e3 := near_rnd (x := 1 + q') (by linarith)
  have hp : 1 < add 1 q' := by
    have h1 := Real.add_one_le_exp (-unit)
    have h2 : 1 < (1 + q') * Real.exp (-unit) := by
      have h4 : 1 < (1 + q') * (1 - unit) := by
        have h5 : unit * (1 + 11 / 5 * R) < 1 := by
          unfold unit; norm_num at *; linarith
        have h6 : unit * (1 + 1 / q') < 1 := by
          have : 1 / q' ≤ 11 / 5 * R := by rw [div_le_iff₀ hq'0]; linarith
          nlinarith [unit_pos]
        have h7 : unit * (1 + q') < q' := by
          have : unit * (1 + q') = unit * (1 + 1 / q') * q' := by field_simp; ring
          rw [this]; nlinarith
        linarith
      nlinarith
    exact lt_of_lt_of_le h2 e3.1
  refine ⟨hp, ?_⟩
  have e4 : Near ((5 / 2 * R + 2) * unit) (Real.log (add 1 q')) (Real.log (1 + q')) := by
    have hpos : 0 < 1 + q' := by linarith
    have l1 : Real.log (1 + q') - unit ≤ Real.log (add 1 q') := by
      have := Real.log_le_log (mul_pos hpos (Real.exp_pos _)) e3.1
      rw [Real.log_mul hpos.ne' (Real.exp_pos _).ne', Real.log_exp] at this
      exact this
    have l2 : Real.log (add 1 q') ≤ Real.log (1 + q') + unit := by
      have := Real.log_le_log (by linarith : 0 < add 1 q') e3.2
      rw [Real.log_mul hpos.ne' (Real.exp_pos _).ne', Real.log_exp] at this
      exact this
    refine near_of_rel (r := unit * (1 + 11 / 5 * R)) hlog0.le ?_ ?_ ?_
    · rw [abs_le]
      have : unit ≤ unit * (1 + 11 / 5 * R) * Real.log (1 + q') := by nlinarith
      constructor <;> linarith
    · nlinarith
    · have h5 : (5 / 2 * R + 2) * unit ≤ 1 / 100 := by unfold unit; norm_num at *; linarith
      have h6 : unit * (1 + 11 / 5 * R) * (1 + (5 / 2 * R + 2) * unit) ≤ unit * (1 + 11 / 5 * R) * (101 / 100) := by
        apply mul_le_mul_of_nonneg_left (by linarith)
        have : 0 ≤ 1 + 11 / 5 * R := by linarith
        positivity
      nlinarith
  have e5 := near_ln hN hη hp
  have := (e5.trans e4).trans e2
  refine Near.mono this (Real.log_pos (by linarith)).le (by linarith)

end
end Double
end SeismoStats
