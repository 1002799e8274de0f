/-
Property C83: the candidates of estimate_mc_ks and estimate_mc_b_stability in double precision.
-/
import Verif.Props.DoubleFmd

namespace SeismoStats.Props
open SeismoStats SeismoStats.Spec.Double
open SeismoStats.Double (rnd rnd_err rnd_pos rnd_rnd)
open Classical
noncomputable section

theorem ceil_two {q : ℝ} (n : ℤ) (h : |q - n| ≤ 3 / 100) : ⌈q⌉ = n ∨ ⌈q⌉ = n + 1 := by
  have := abs_le.1 h
  rcases le_or_gt q n with h1 | h1
  · left; rw [Int.ceil_eq_iff]; constructor <;> linarith [this.1]
  · right; rw [Int.ceil_eq_iff]; push_cast; constructor <;> linarith [this.2]

/-- C83: the default candidates for magnitudes on the grid from bin `a` to bin `b`: the doubles of the grid values from the smallest magnitude up, without
gap, up to the one below the largest magnitude, or up to the largest magnitude (in exact arithmetic always the former, C36). -/
theorem C83_candidates (a b : ℤ) (j p : ℕ) (hj : 1 ≤ j) (hj7 : (j : ℝ) ≤ 10 ^ 7) (ha : |(a : ℝ)| ≤ 10 ^ 6) (hb : |(b : ℝ)| ≤ 10 ^ 6) (hab : a ≤ b) :
    ∃ n : ℕ, (n = (b - a).toNat ∨ n = (b - a).toNat + 1) ∧
      Double.defaultMcs (rnd (a * ((j : ℝ) / 10 ^ p))) (rnd (b * ((j : ℝ) / 10 ^ p))) (rnd ((j : ℝ) / 10 ^ p)) p =
        (List.range n).map fun i : ℕ => rnd (((a + i : ℤ) : ℝ) * ((j : ℝ) / 10 ^ p)) := by
  set D : ℝ := (j : ℝ) / 10 ^ p with hDd
  have hj' : (1 : ℝ) ≤ j := by exact_mod_cast hj
  have hD : 0 < D := by positivity
  have h1 := grid_near hD ha
  have h2 := grid_near hD hb
  have hq := Double.arange_quot (A := a) (B := b) (s := rnd (a * D)) (t := rnd (b * D)) hD (by norm_num at h1 ⊢; linarith) (by norm_num at h2 ⊢; linarith)
    (by have := abs_sub (b : ℝ) a; linarith)
  have hn : Double.arangeLen (rnd (a * D)) (rnd (b * D)) (rnd D) = (b - a).toNat ∨
      Double.arangeLen (rnd (a * D)) (rnd (b * D)) (rnd D) = (b - a).toNat + 1 := by
    unfold Double.arangeLen
    rcases ceil_two (b - a) (q := Double.div (Double.sub (rnd (b * D)) (rnd (a * D))) (rnd D)) (by push_cast; exact hq) with h | h
    · left; rw [h]
    · right; rw [h]; omega
  refine ⟨_, hn, ?_⟩
  unfold Double.defaultMcs
  rw [hDd]
  apply arange_binned a _ j p hj hj7 ha
  intro i hi
  rw [← hDd] at hi
  have x1 := abs_le.1 ha
  have x2 := abs_le.1 hb
  have hi2 : (i : ℤ) ≤ b - a := by omega
  have : (i : ℝ) ≤ b - a := by exact_mod_cast hi2
  linarith [x1.1, x2.2]

theorem window_len (a : ℤ) (r : ℕ) (D : ℝ) (hD : 0 < D) (ha : |(a : ℝ)| ≤ 10 ^ 6) (hr : (r : ℝ) ≤ 10 ^ 6) :
    (Double.arange (rnd (a * D)) (Double.add (rnd (a * D)) (rnd (r * D))) (rnd D)).length = r ∨
      (Double.arange (rnd (a * D)) (Double.add (rnd (a * D)) (rnd (r * D))) (rnd D)).length = r + 1 := by
  have hr' : |((r : ℤ) : ℝ)| ≤ 10 ^ 6 := by
    rw [Int.cast_natCast, abs_of_nonneg (Nat.cast_nonneg r)]; exact hr
  have h1 := grid_near hD ha
  have h2 := grid_near hD hr'
  rw [Int.cast_natCast] at h2
  have hsum : |((a : ℝ) + r) * D| ≤ 2 * 10 ^ 6 * D := by
    rw [abs_mul, abs_of_pos hD]
    apply mul_le_mul_of_nonneg_right _ hD.le
    have := abs_add_le (a : ℝ) r
    rw [abs_of_nonneg (Nat.cast_nonneg r : (0 : ℝ) ≤ r)] at this
    linarith
  have h3 : |Double.add (rnd (a * D)) (rnd (r * D)) - (a + r) * D| ≤ D / 200 + (2 * 10 ^ 6 + 1) * D * (12 / 10 ^ 17) := by
    unfold Double.add
    apply Double.rnd_close
    · have e : rnd (a * D) + rnd (r * D) - (a + r) * D = (rnd (a * D) - a * D) + (rnd (r * D) - r * D) := by ring
      rw [e]
      have := abs_add_le (rnd (a * D) - a * D) (rnd (r * D) - r * D)
      norm_num at this h1 h2 ⊢
      linarith
    · norm_num at hsum ⊢
      linarith
  have hq := Double.arange_quot (A := a) (B := a + r) (s := rnd (a * D)) (t := Double.add (rnd (a * D)) (rnd (r * D))) hD
    (by norm_num at h1 ⊢; linarith) (by norm_num at h3 ⊢; linarith) (by
      rw [add_sub_cancel_left, abs_of_nonneg (Nat.cast_nonneg r)]; linarith)
  rw [add_sub_cancel_left] at hq
  unfold Double.arange
  rw [List.length_map, List.length_range]
  unfold Double.arangeLen
  rcases ceil_two (r : ℤ) (q := Double.div (Double.sub (Double.add (rnd (a * D)) (rnd (r * D))) (rnd (a * D))) (rnd D)) (by push_cast; exact hq) with h | h
  · left; rw [h]; omega
  · right; rw [h]; omega

/-- C83: the window of the stability test for a range of `r` bins: the completeness magnitudes averaged for the candidate in bin `a` are close to those of
the bins `a`, `a + 1`, …, and both their number and the number `steps` by which the sum is divided are `r` or `r + 1`. -/
theorem C83_window (a : ℤ) (r : ℕ) (D : ℝ) (hD : 0 < D) (ha : |(a : ℝ)| ≤ 10 ^ 6) (hr : (r : ℝ) ≤ 10 ^ 6) :
    (Double.stabilitySteps (rnd (r * D)) (rnd D) = r ∨ Double.stabilitySteps (rnd (r * D)) (rnd D) = r + 1) ∧
      ∃ l : List ℝ, (l.length = r ∨ l.length = r + 1) ∧ (∀ i (h : i < l.length), |l[i] - (a + i) * D| ≤ D / 50) ∧
        ∀ hi, Double.stabilityMcs (rnd (a * D)) (rnd (r * D)) (rnd D) hi = l.filter fun m => decide (m ≤ hi) := by
  have hr' : |((r : ℤ) : ℝ)| ≤ 10 ^ 6 := by
    rw [Int.cast_natCast, abs_of_nonneg (Nat.cast_nonneg r)]; exact hr
  have h1 := grid_near hD ha
  have h2 := grid_near hD hr'
  rw [Int.cast_natCast] at h2
  constructor
  · have hq := Double.arange_quot (A := 0) (B := r) (s := 0) (t := rnd (r * D)) hD (by simp; positivity) (by norm_num at h2 ⊢; linarith)
      (by rw [sub_zero, abs_of_nonneg (Nat.cast_nonneg r)]; linarith)
    rw [sub_zero] at hq
    unfold Double.stabilitySteps Double.arangeLen
    rcases ceil_two (r : ℤ) (q := Double.div (Double.sub (rnd (r * D)) 0) (rnd D)) (by push_cast; exact hq) with h | h
    · left; rw [h]; omega
    · right; rw [h]; omega
  · have hlen := window_len a r D hD ha hr
    refine ⟨_, hlen, ?_, fun hi => rfl⟩
    intro i hi
    simp only [Double.arange, List.getElem_map, List.getElem_range]
    apply Double.arange_val hD h1 ha
    have : i ≤ r := by omega
    have : (i : ℝ) ≤ r := by exact_mod_cast this
    linarith

/-- C83: each of these completeness magnitudes selects exactly the events of its bin and above, as in exact arithmetic. -/
theorem C83_window_selection (a : ℤ) (r : ℕ) (D : ℝ) (hD : 0 < D) (ha : |(a : ℝ)| ≤ 10 ^ 6) (hr : (r : ℝ) ≤ 10 ^ 6) (k : ℤ) (hk : |(k : ℝ)| ≤ 10 ^ 6) (i : ℕ)
    (h : i < (Double.arange (rnd (a * D)) (Double.add (rnd (a * D)) (rnd (r * D))) (rnd D)).length) :
    Double.threshold ((Double.arange (rnd (a * D)) (Double.add (rnd (a * D)) (rnd (r * D))) (rnd D))[i]) (rnd D) ≤ rnd (k * D) ↔ a + i ≤ k := by
  have hir : i ≤ r + 1 := by
    have := window_len a r D hD ha hr
    omega
  have hv := Double.arange_val hD (grid_near hD ha) ha i (by
    have : (i : ℝ) ≤ r + 1 := by exact_mod_cast hir
    linarith)
  have e : (Double.arange (rnd (a * D)) (Double.add (rnd (a * D)) (rnd (r * D))) (rnd D))[i] =
      if i = 0 then rnd (a * D) else if i = 1 then Double.add (rnd (a * D)) (rnd D)
        else Double.add (rnd (a * D)) (Double.mul i (Double.sub (Double.add (rnd (a * D)) (rnd D)) (rnd (a * D)))) := by
    simp only [Double.arange, List.getElem_map, List.getElem_range]
  rw [e]
  have hir' : (i : ℝ) ≤ r + 1 := by exact_mod_cast hir
  apply C81_threshold_noise 0 D hD
  · rw [zero_add]
    have := grid_near hD hk
    norm_num at this ⊢
    linarith
  · rw [zero_add]
    push_cast
    linarith
  · rw [zero_add, abs_mul, abs_of_pos hD]
    apply mul_le_mul_of_nonneg_right _ hD.le
    push_cast
    have := abs_add_le (a : ℝ) i
    rw [abs_of_nonneg (Nat.cast_nonneg i : (0 : ℝ) ≤ i)] at this
    linarith

/-- C83: when the sum `mc + stability_range` happens to be exact, the number of averaged values is `steps`. -/
theorem C83_window_exact_sum (mc range δ : ℝ) (h : Double.sub (Double.add mc range) mc = rnd range) :
    (Double.arange mc (Double.add mc range) δ).length = Double.stabilitySteps range δ := by
  unfold Double.arange Double.stabilitySteps
  rw [List.length_map, List.length_range]
  unfold Double.arangeLen
  rw [h]
  unfold Double.sub
  rw [sub_zero]

/-- C83 (defect): bin size 0.1 and the default stability range 0.5: the sum of b-values is divided by 5, and 5 values are summed for the candidate 1.6, but
6 for the candidate 1.7 (`1.7 + 0.5` is rounded up). So with the same b-value `b` everywhere, the average found is `b` for 1.6 and `6 / 5 * b` for 1.7:
the candidate 1.7 fails the stability test in any catalogue with an uncertainty below `b / 5`. -/
theorem C83_defect_window (b hi : ℝ) (hhi : 3 ≤ hi) :
    Double.stabilitySteps (rnd (5 / 10)) (rnd (1 / 10)) = 5 ∧
      Double.stabilityAvg (fun _ => b) (rnd (16 / 10)) (rnd (5 / 10)) (rnd (1 / 10)) hi = b ∧
      Double.stabilityAvg (fun _ => b) (rnd (17 / 10)) (rnd (5 / 10)) (rnd (1 / 10)) hi = 6 / 5 * b := by
  have e1 : rnd (1 / 10) = 7205759403792794 * (2 : ℝ) ^ (-56 : ℤ) := by
    have := Double.rnd_eq_of (x := 1 / 10) 7205759403792794 (-56) (by norm_num) (by norm_num) (by norm_num [abs_lt])
    exact_mod_cast this
  have e5 : rnd (5 / 10) = 1 / 2 := by
    have := Double.rnd_exact (x := 5 / 10) 1 (-1) (by norm_num) (by norm_num)
    rw [this]; norm_num
  have e16 : rnd (16 / 10) = 7205759403792794 * (2 : ℝ) ^ (-52 : ℤ) := by
    have := Double.rnd_eq_of (x := 16 / 10) 7205759403792794 (-52) (by norm_num) (by norm_num) (by norm_num [abs_lt])
    exact_mod_cast this
  have e17 : rnd (17 / 10) = 7656119366529843 * (2 : ℝ) ^ (-52 : ℤ) := by
    have := Double.rnd_eq_of (x := 17 / 10) 7656119366529843 (-52) (by norm_num) (by norm_num) (by norm_num [abs_lt])
    exact_mod_cast this
  have q5 : Double.div (1 / 2) (rnd (1 / 10)) = 5 := by
    unfold Double.div
    rw [e1, Double.rnd_eq_of 5629499534213120 (-50) (by norm_num) (by norm_num) (by norm_num [abs_lt])]
    norm_num
  have hst : Double.stabilitySteps (rnd (5 / 10)) (rnd (1 / 10)) = 5 := by
    unfold Double.stabilitySteps Double.arangeLen
    rw [e5]
    have : Double.sub (1 / 2) 0 = 1 / 2 := by
      unfold Double.sub
      rw [sub_zero]
      have := Double.rnd_exact (x := 1 / 2) 1 (-1) (by norm_num) (by norm_num)
      rw [this]
    rw [this, q5]
    norm_num
    rfl
  -- candidate 1.6
  have s16 : Double.sub (Double.add (rnd (16 / 10)) (rnd (5 / 10))) (rnd (16 / 10)) = 1 / 2 := by
    have h1 : Double.add (rnd (16 / 10)) (rnd (5 / 10)) = 4728779608739021 * (2 : ℝ) ^ (-51 : ℤ) := by
      unfold Double.add
      rw [e16, e5]
      have := Double.rnd_eq_of (x := 7205759403792794 * (2 : ℝ) ^ (-52 : ℤ) + 1 / 2) 4728779608739021 (-51) (by norm_num) (by norm_num) (by norm_num [abs_lt])
      exact_mod_cast this
    unfold Double.sub
    rw [h1, e16, Double.rnd_eq_of 4503599627370496 (-53) (by norm_num) (by norm_num) (by norm_num [abs_lt])]
    norm_num
  have l16 : (Double.arange (rnd (16 / 10)) (Double.add (rnd (16 / 10)) (rnd (5 / 10))) (rnd (1 / 10))).length = 5 := by
    unfold Double.arange Double.arangeLen
    rw [List.length_map, List.length_range, s16, q5]
    norm_num
    rfl
  -- candidate 1.7
  have s17 : Double.sub (Double.add (rnd (17 / 10)) (rnd (5 / 10))) (rnd (17 / 10)) = 4503599627370498 * (2 : ℝ) ^ (-53 : ℤ) := by
    have h1 : Double.add (rnd (17 / 10)) (rnd (5 / 10)) = 4953959590107546 * (2 : ℝ) ^ (-51 : ℤ) := by
      unfold Double.add
      rw [e17, e5]
      have := Double.rnd_eq_tie (x := 7656119366529843 * (2 : ℝ) ^ (-52 : ℤ) + 1 / 2) 4953959590107546 (-51) (by decide) (by norm_num) (by norm_num)
        (Or.inr (by norm_num))
      exact_mod_cast this
    unfold Double.sub
    rw [h1, e17]
    have := Double.rnd_eq_of (x := 4953959590107546 * (2 : ℝ) ^ (-51 : ℤ) - 7656119366529843 * (2 : ℝ) ^ (-52 : ℤ)) 4503599627370498 (-53) (by norm_num)
      (by norm_num) (by norm_num [abs_lt])
    exact_mod_cast this
  have q17 : Double.div (4503599627370498 * (2 : ℝ) ^ (-53 : ℤ)) (rnd (1 / 10)) = 5629499534213122 * (2 : ℝ) ^ (-50 : ℤ) := by
    unfold Double.div
    rw [e1]
    have := Double.rnd_eq_of (x := 4503599627370498 * (2 : ℝ) ^ (-53 : ℤ) / (7205759403792794 * (2 : ℝ) ^ (-56 : ℤ))) 5629499534213122 (-50) (by norm_num)
      (by norm_num) (by norm_num [abs_lt])
    exact_mod_cast this
  have l17 : (Double.arange (rnd (17 / 10)) (Double.add (rnd (17 / 10)) (rnd (5 / 10))) (rnd (1 / 10))).length = 6 := by
    unfold Double.arange Double.arangeLen
    rw [List.length_map, List.length_range, s17, q17]
    have : ⌈(5629499534213122 : ℝ) * (2 : ℝ) ^ (-50 : ℤ)⌉ = 6 := by
      rw [Int.ceil_eq_iff]; constructor <;> norm_num
    rw [this]
    rfl
  -- none of the values is above the largest magnitude
  have hall : ∀ a : ℤ, 0 ≤ a → a ≤ 17 → ∀ m ∈ Double.arange (rnd (a * (1 / 10))) (Double.add (rnd (a * (1 / 10))) (rnd ((5 : ℕ) * (1 / 10)))) (rnd (1 / 10)),
      decide (m ≤ hi) = true := by
    intro a ha0 ha m hm
    have ha0' : (0 : ℝ) ≤ a := by exact_mod_cast ha0
    have ha' : (a : ℝ) ≤ 17 := by exact_mod_cast ha
    have haa : |(a : ℝ)| ≤ 10 ^ 6 := by rw [abs_of_nonneg ha0']; linarith
    obtain ⟨i, hil, rfl⟩ := List.getElem_of_mem hm
    have hw := window_len a 5 (1 / 10) (by norm_num) haa (by norm_num)
    have hi5 : i ≤ 5 := by omega
    have hi5' : (i : ℝ) ≤ 5 := by exact_mod_cast hi5
    have hv := Double.arange_val (D := 1 / 10) (by norm_num) (grid_near (by norm_num) haa) haa i (by linarith)
    have e : (Double.arange (rnd (a * (1 / 10))) (Double.add (rnd (a * (1 / 10))) (rnd ((5 : ℕ) * (1 / 10)))) (rnd (1 / 10)))[i] =
        if i = 0 then rnd (a * (1 / 10)) else if i = 1 then Double.add (rnd (a * (1 / 10))) (rnd (1 / 10))
          else Double.add (rnd (a * (1 / 10))) (Double.mul i (Double.sub (Double.add (rnd (a * (1 / 10))) (rnd (1 / 10))) (rnd (a * (1 / 10))))) := by
      simp only [Double.arange, List.getElem_map, List.getElem_range]
    rw [e, decide_eq_true_eq]
    have := (abs_le.1 hv).2
    linarith
  have c5 : (((5 : ℕ) : ℝ) * (1 / 10)) = 5 / 10 := by norm_num
  have c16 : (((16 : ℤ) : ℝ) * (1 / 10)) = 16 / 10 := by norm_num
  have c17 : (((17 : ℤ) : ℝ) * (1 / 10)) = 17 / 10 := by norm_num
  have f16 := hall 16 (by norm_num) (by norm_num)
  have f17 := hall 17 (by norm_num) (by norm_num)
  rw [c5, c16] at f16
  rw [c5, c17] at f17
  refine ⟨hst, ?_, ?_⟩
  · unfold Double.stabilityAvg Double.stabilityMcs
    rw [List.filter_eq_self.2 f16, hst, List.map_const', l16]
    simp
    ring
  · unfold Double.stabilityAvg Double.stabilityMcs
    rw [List.filter_eq_self.2 f17, hst, List.map_const', l17]
    simp
    ring

/-- C83 (defect): whether the largest magnitude is itself a default candidate depends on the digits: not for magnitudes from 0.1 to 0.3, but for those from
0.1 to 0.4 (bin size 0.1). -/
theorem C83_defect_last_candidate :
    (Double.defaultMcs (rnd (1 / 10)) (rnd (3 / 10)) (rnd (1 / 10)) 1).length = 2 ∧ (Double.defaultMcs (rnd (1 / 10)) (rnd (4 / 10)) (rnd (1 / 10)) 1).length = 4 := by
  have e1 : rnd (1 / 10) = 7205759403792794 * (2 : ℝ) ^ (-56 : ℤ) := by
    have := Double.rnd_eq_of (x := 1 / 10) 7205759403792794 (-56) (by norm_num) (by norm_num) (by norm_num [abs_lt])
    exact_mod_cast this
  have e3 : rnd (3 / 10) = 5404319552844595 * (2 : ℝ) ^ (-54 : ℤ) := by
    have := Double.rnd_eq_of (x := 3 / 10) 5404319552844595 (-54) (by norm_num) (by norm_num) (by norm_num [abs_lt])
    exact_mod_cast this
  have e4 : rnd (4 / 10) = 7205759403792794 * (2 : ℝ) ^ (-54 : ℤ) := by
    have := Double.rnd_eq_of (x := 4 / 10) 7205759403792794 (-54) (by norm_num) (by norm_num) (by norm_num [abs_lt])
    exact_mod_cast this
  constructor
  · unfold Double.defaultMcs Double.arange
    rw [List.length_map, List.length_map, List.length_range]
    unfold Double.arangeLen Double.sub Double.div
    rw [e1, e3]
    have h1 := Double.rnd_eq_of (x := 5404319552844595 * (2 : ℝ) ^ (-54 : ℤ) - 7205759403792794 * (2 : ℝ) ^ (-56 : ℤ)) 7205759403792793 (-55) (by norm_num)
      (by norm_num) (by norm_num [abs_lt])
    rw [h1]
    have h2 := Double.rnd_eq_of (x := (7205759403792793 : ℤ) * (2 : ℝ) ^ (-55 : ℤ) / (7205759403792794 * (2 : ℝ) ^ (-56 : ℤ))) 9007199254740991 (-52) (by norm_num)
      (by norm_num) (by norm_num [abs_lt])
    rw [h2]
    have : ⌈((9007199254740991 : ℤ) : ℝ) * (2 : ℝ) ^ (-52 : ℤ)⌉ = 2 := by
      rw [Int.ceil_eq_iff]; constructor <;> norm_num
    rw [this]
    rfl
  · unfold Double.defaultMcs Double.arange
    rw [List.length_map, List.length_map, List.length_range]
    unfold Double.arangeLen Double.sub Double.div
    rw [e1, e4]
    have h1 := Double.rnd_eq_tie (x := 7205759403792794 * (2 : ℝ) ^ (-54 : ℤ) - 7205759403792794 * (2 : ℝ) ^ (-56 : ℤ)) 5404319552844596 (-54) (by decide)
      (by norm_num) (by norm_num) (Or.inr (by norm_num))
    rw [h1]
    have h2 := Double.rnd_eq_of (x := (5404319552844596 : ℤ) * (2 : ℝ) ^ (-54 : ℤ) / (7205759403792794 * (2 : ℝ) ^ (-56 : ℤ))) 6755399441055745 (-51) (by norm_num)
      (by norm_num) (by norm_num [abs_lt])
    rw [h2]
    have : ⌈((6755399441055745 : ℤ) : ℝ) * (2 : ℝ) ^ (-51 : ℤ)⌉ = 4 := by
      rw [Int.ceil_eq_iff]; constructor <;> norm_num
    rw [this]
    rfl

end
end SeismoStats.Props
