/-
Properties C05-C08: rounding to a bin size, and the binning test.
-/
import Verif.Proofs.Binning
import Verif.Spec.Binning

set_option linter.unusedSectionVars false

namespace SeismoStats.Props
open SeismoStats
variable {K : Type} [Field K] [LinearOrder K] [IsStrictOrderedRing K] [FloorRing K]

/-! ## C05 -/

/-- In exact arithmetic the second rounding of `bin_to_precision` (to the decimal
places of `delta_x`) changes nothing, for every decimal bin size. -/
theorem C05_cleanup_rounding_is_identity (x : List (Option K)) (δ : Dec) (h : eps K ≤ δ.val K) :
    binToPrecision x δ = .ok (x.map (Option.map (binTo (δ.val K)))) :=
  binToPrecision_eq x δ h

/-- C05: `bin_to_precision` succeeds for `delta_x ≥ 1e-12`, keeps length and NaN
positions and rounds every number to the nearest multiple, with the tie point
moved by `1e-12` bins. -/
theorem C05_bin_to_precision (x : List (Option K)) (δ : Dec) (h : 1 / 10 ^ 12 ≤ δ.val K) :
    ∃ y, binToPrecision x δ = .ok y ∧ y.length = x.length ∧
      (∀ i : ℕ, x[i]? = some none → y[i]? = some none) ∧
      (∀ (i : ℕ) v, x[i]? = some (some v) → ∃ u, y[i]? = some (some u) ∧
        Spec.RoundsTo (1 / 10 ^ 12) (δ.val K) v u) := by
  have hδ : 0 < δ.val K := lt_of_lt_of_le (by positivity) h
  refine ⟨_, binToPrecision_eq x δ h, by simp, fun i hi => by simp [hi], fun i v hv => ?_⟩
  refine ⟨binTo (δ.val K) v, by simp [hv], ⟨_, rfl⟩, ?_, ?_⟩
  · have := binTo_le hδ v; unfold eps at this; linarith
  · have := lt_binTo hδ v; unfold eps at this; linarith

/-- C05: the distance to the input is at most `(1/2 + 1e-12)` bins. -/
theorem C05_error_bound {e δ x y : K} (he : 0 ≤ e) (hδ : 0 < δ) (h : Spec.RoundsTo e δ x y) :
    |y - x| ≤ (1 / 2 + e) * δ := by
  obtain ⟨_, h1, h2⟩ := h
  rw [abs_le]
  constructor <;> nlinarith [mul_nonneg he hδ.le]

/-- C05: the rounding rule determines the result. -/
theorem C05_rounding_unique {e δ x y y' : K} (hδ : 0 < δ) (h : Spec.RoundsTo e δ x y)
    (h' : Spec.RoundsTo e δ x y') : y = y' := by
  obtain ⟨⟨k, rfl⟩, h1, h2⟩ := h
  obtain ⟨⟨k', rfl⟩, h1', h2'⟩ := h'
  have l1 : (k : K) < k' + 1 := by
    by_contra hc; push Not at hc
    nlinarith [mul_le_mul_of_nonneg_right hc hδ.le]
  have l2 : (k' : K) < k + 1 := by
    by_contra hc; push Not at hc
    nlinarith [mul_le_mul_of_nonneg_right hc hδ.le]
  have a1 : k < k' + 1 := by exact_mod_cast l1
  have a2 : k' < k + 1 := by exact_mod_cast l2
  rw [show k = k' by omega]

/-- C05: a value half way between two multiples goes to the upper one. -/
theorem C05_half_up (δ : Dec) (h : 1 / 10 ^ 12 ≤ δ.val K) (k : ℤ) :
    binToPrecision [some (((k : K) + 1 / 2) * δ.val K)] δ =
      .ok [some (((k : K) + 1) * δ.val K)] := by
  have hδ : 0 < δ.val K := lt_of_lt_of_le (by positivity) h
  rw [binToPrecision_eq _ _ h]
  have he := eps_pos (K := K)
  have := binTo_eq_of_near hδ (((k : K) + 1 / 2) * δ.val K) (k + 1)
    (by push_cast; nlinarith [mul_pos he hδ])
    (by push_cast; nlinarith [mul_lt_mul_of_pos_right (eps_lt_half (K := K)) hδ])
  simp only [List.map_cons, List.map_nil, Option.map_some, this]
  push_cast; rfl

/-- C05: a bin size below `1e-12` (also zero and negative) raises ValueError. -/
theorem C05_small_bin_raises (x : List (Option K)) (δ : Dec) (h : δ.val K < 1 / 10 ^ 12) :
    binToPrecision x δ = .error .valueError := by
  unfold binToPrecision; rw [if_pos]; exact h

example : (1 : ℚ) / 10 ^ 12 ≤ (Dec.mk 1 (-1)).val ℚ := by norm_num [Dec.val]

/-- `bin_to_precision([1.25, nan], 0.1) = [1.3, nan]` in exact arithmetic. -/
example : binToPrecision [some (5 / 4 : ℚ), none] ⟨1, -1⟩ = .ok [some (13 / 10), none] := by
  have h : (1 : ℚ) / 10 ^ 12 ≤ (Dec.mk 1 (-1)).val ℚ := by norm_num [Dec.val]
  rw [binToPrecision_eq _ _ h]
  have : binTo ((Dec.mk 1 (-1)).val ℚ) (5 / 4) = ((13 : ℤ) : ℚ) * (Dec.mk 1 (-1)).val ℚ :=
    binTo_eq_of_near (by norm_num [Dec.val]) _ 13 (by norm_num [Dec.val, eps])
      (by norm_num [Dec.val, eps])
  simp only [List.map_cons, Option.map_some, this]
  norm_num [Dec.val]

/-! ## C06 -/

/-- C06: binning twice equals binning once. -/
theorem C06_idempotent (x : List (Option K)) (δ : Dec) (h : 1 / 10 ^ 12 ≤ δ.val K) :
    (binToPrecision x δ >>= fun y => binToPrecision y δ) = binToPrecision x δ := by
  have hδ : δ.val K ≠ 0 := (lt_of_lt_of_le (by positivity) h).ne'
  rw [binToPrecision_eq x δ h]
  simp only [bind, Except.bind]
  rw [binToPrecision_eq _ δ h]
  congr 1
  rw [List.map_map]
  apply List.map_congr_left
  rintro (_ | v) _
  · rfl
  · simp [binTo_idem hδ]

/-- C06: binning preserves order between any two entries. -/
theorem C06_monotone (x y : List (Option K)) (δ : Dec) (h : 1 / 10 ^ 12 ≤ δ.val K)
    (i j : ℕ) (u v : K)
    (hu : x[i]? = some (some u)) (hv : x[j]? = some (some v)) (huv : u ≤ v)
    (hy : binToPrecision x δ = .ok y) :
    ∃ u' v', y[i]? = some (some u') ∧ y[j]? = some (some v') ∧ u' ≤ v' := by
  have hδ : 0 < δ.val K := lt_of_lt_of_le (by positivity) h
  rw [binToPrecision_eq x δ h] at hy
  cases hy
  exact ⟨_, _, by simp [hu], by simp [hv], binTo_mono hδ huv⟩

/-- C06: adding `k` bins to the input adds `k` bins to the output. -/
theorem C06_translation (x : List (Option K)) (δ : Dec) (h : 1 / 10 ^ 12 ≤ δ.val K) (k : ℤ) :
    binToPrecision (x.map (Option.map (· + (k : K) * δ.val K))) δ =
      (binToPrecision x δ).map (List.map (Option.map (· + (k : K) * δ.val K))) := by
  have hδ : δ.val K ≠ 0 := (lt_of_lt_of_le (by positivity) h).ne'
  rw [binToPrecision_eq _ δ h, binToPrecision_eq _ δ h]
  simp only [Except.map, List.map_map]
  congr 1
  apply List.map_congr_left
  rintro (_ | v) _
  · rfl
  · simp [binTo_add_int_mul hδ]

/-! ## C07 -/

/-- C07: `normal_round(x, n)` rounds to the nearest multiple of `10^-n`. -/
theorem C07_normal_round (x : K) (n : ℤ) :
    Spec.RoundsTo (1 / 10 ^ 12) ((10 : K) ^ (-n)) x (normalRound x n) := by
  have hp : (0 : K) < 10 ^ n := by positivity
  have e1 := roundToInt_le (x * 10 ^ n)
  have e2 := lt_roundToInt (x * 10 ^ n)
  unfold eps at e1 e2
  unfold normalRound Spec.RoundsTo
  rw [zpow_neg]
  refine ⟨⟨roundToInt (x * 10 ^ n), by rw [div_eq_mul_inv]⟩, ?_, ?_⟩
  · rw [div_eq_mul_inv, ← sub_mul, ← div_eq_mul_inv, div_le_iff₀ hp]; linarith
  · rw [div_eq_mul_inv, ← add_mul, ← div_eq_mul_inv, lt_div_iff₀ hp]; linarith

/-- C07: numbers with at most `n` decimals are unchanged; in particular rounding is idempotent. -/
theorem C07_fixes_decimals (z n : ℤ) :
    normalRound ((z : K) * 10 ^ (-n)) n = (z : K) * 10 ^ (-n) := by
  apply normalRound_of_int (z := z)
  rw [mul_assoc, zpow_neg, inv_mul_cancel₀ (zpow_ne_zero _ (by norm_num)), mul_one]

theorem C07_idempotent (x : K) (n : ℤ) : normalRound (normalRound x n) n = normalRound x n := by
  obtain ⟨⟨k, hk⟩, -⟩ := C07_normal_round x n
  rw [hk]; exact C07_fixes_decimals k n

/-! ## C08 -/

/-- The numbers (non-NaN entries) of an array. -/
def numbers (x : List (Option K)) : List K := x.filterMap id

theorem shiftToMin_eq (x : List (Option K)) (m : K) (hm : IsLeast {v | v ∈ numbers x} m) :
    shiftToMin x = .ok ((numbers x).map fun v => v - m) := by
  unfold shiftToMin numbers at *
  simp only [(amin?_eq_some_iff _ m).2 hm]

theorem binningTest_eq (x : List (Option K)) (δ tol : K) (c : Bool) (m : K)
    (hm : IsLeast {v | v ∈ numbers x} m) (hδ : ¬ (δ = 0 ∧ c = true)) :
    binningTest x δ tol c = binningTestCore ((numbers x).map fun v => v - m) δ tol c := by
  have hx : x.length ≠ 0 := by
    intro h
    rw [List.length_eq_zero_iff.1 h] at hm
    simpa [numbers] using hm.1
  unfold binningTest
  rw [if_neg hx, shiftToMin_eq x m hm]
  simp only [bind, Except.bind]
  rw [if_neg (by simpa using hδ)]

/-- C08: verdict of `binning_test(x, delta, tolerance, check_larger_binning=False)`
for `delta ≥ 1e-12` and `tolerance ≤ delta`, when `m` is the smallest number in `x`. -/
theorem C08_verdict (x : List (Option K)) (δ tol m : K) (hδ : 1 / 10 ^ 12 ≤ δ) (ht : tol ≤ δ)
    (hm : IsLeast {v | v ∈ numbers x} m) :
    ∃ b, binningTest x δ tol false = .ok b ∧
      (b = true ↔ ∀ v ∈ numbers x, ∀ y, Spec.RoundsTo (1 / 10 ^ 12) δ (v - m) y →
        |y - (v - m)| ≤ tol + 1 / 10 ^ 16 * |v - m|) := by
  have hp : 0 < δ := lt_of_lt_of_le (by positivity) hδ
  rw [binningTest_eq x δ tol false m hm (by simp),
    binningTestCore_eq _ _ _ _ hδ (not_lt.2 ht)]
  refine ⟨_, rfl, ?_⟩
  simp only [Bool.not_false, Bool.true_or, Bool.and_true, List.all_map, List.all_eq_true,
    Function.comp_apply, decide_eq_true_eq]
  have hr : ∀ v, Spec.RoundsTo (1 / 10 ^ 12) δ v (binTo δ v) := fun v => ⟨⟨_, rfl⟩, by
    have := binTo_le hp v; unfold eps at this; linarith, by
    have := lt_binTo hp v; unfold eps at this; linarith⟩
  constructor
  · intro H v hv y hy
    rw [C05_rounding_unique hp hy (hr _)]; exact H v hv
  · intro H v hv
    exact H v hv _ (hr _)

/-- C08: every array lying on a grid of spacing `delta`, with an arbitrary offset
and arbitrary NaN entries, passes. -/
theorem C08_grid_accepted (ks : List (Option ℤ)) (offset δ tol : K) (hδ : 1 / 10 ^ 12 ≤ δ)
    (h0 : 0 ≤ tol) (hk : ∃ k, some k ∈ ks) :
    binningTest (ks.map (Option.map fun (k : ℤ) => offset + (k : K) * δ)) δ tol false = .ok true := by
  have hp : 0 < δ := lt_of_lt_of_le (by positivity) hδ
  set x := ks.map (Option.map fun (k : ℤ) => offset + (k : K) * δ) with hx
  have hnum : ∀ v ∈ numbers x, ∃ k : ℤ, v = offset + (k : K) * δ := by
    intro v hv
    simp only [numbers, hx, List.mem_filterMap, List.mem_map, id_eq] at hv
    obtain ⟨o, ⟨k, hk, rfl⟩, h⟩ := hv
    cases k with
    | none => simp at h
    | some k => exact ⟨k, by simpa [eq_comm] using h⟩
  have hne : numbers x ≠ [] := by
    obtain ⟨k, hk⟩ := hk
    apply List.ne_nil_of_mem (a := offset + (k : K) * δ)
    simp only [numbers, hx, List.mem_filterMap, List.mem_map, id_eq]
    exact ⟨_, ⟨some k, hk, rfl⟩, rfl⟩
  obtain ⟨m, hm⟩ := exists_amin hne
  rw [amin?_eq_some_iff] at hm
  rw [binningTest_eq x δ tol false m hm (by simp)]
  by_cases ht : δ < tol
  · simp [binningTestCore, ht]
  · rw [binningTestCore_eq _ _ _ _ hδ ht]
    simp only [Bool.not_false, Bool.true_or, Bool.and_true, Except.ok.injEq, List.all_map,
      List.all_eq_true, Function.comp_apply, decide_eq_true_eq]
    intro v hv
    obtain ⟨k, rfl⟩ := hnum v hv
    obtain ⟨j, rfl⟩ := hnum m hm.1
    have : offset + (k : K) * δ - (offset + (j : K) * δ) = ((k - j : ℤ) : K) * δ := by
      push_cast; ring
    rw [this, binTo_int_mul hp.ne', sub_self, abs_zero]
    positivity

/-- C08: the verdict depends only on the multiset of numbers in the array: neither on
the order, nor on NaN entries. -/
theorem C08_order_and_nan_independent (x y : List (Option K)) (δ tol : K) (c : Bool)
    (hδ : ¬ (δ = 0 ∧ c = true)) (h : (numbers x).Perm (numbers y)) (hne : numbers x ≠ []) :
    binningTest x δ tol c = binningTest y δ tol c := by
  obtain ⟨m, hm⟩ := exists_amin hne
  have hm' := hm
  rw [amin?_perm h] at hm'
  rw [amin?_eq_some_iff] at hm hm'
  rw [binningTest_eq x δ tol c m hm hδ, binningTest_eq y δ tol c m hm' hδ]
  exact binningTestCore_perm (h.map _) δ tol c

/-- C08: adding a constant to all entries does not change the outcome. -/
theorem C08_shift_invariant (x : List (Option K)) (s δ tol : K) (c : Bool) :
    binningTest (x.map (Option.map (· + s))) δ tol c = binningTest x δ tol c := by
  have hnum : (x.map (Option.map (· + s))).filterMap id = (x.filterMap id).map (· + s) := by
    induction x with
    | nil => rfl
    | cons o r ih => cases o <;> simpa using ih
  have hs : shiftToMin (x.map (Option.map (· + s))) = shiftToMin x := by
    unfold shiftToMin
    simp only [hnum, amin?_map_add]
    cases amin? (x.filterMap id) with
    | none => rfl
    | some m => simp [List.map_map, Function.comp_def]
  unfold binningTest
  rw [hs]; simp

/-- C08: an array that is empty or has only NaN entries raises ValueError. -/
theorem C08_no_numbers_raises (x : List (Option K)) (δ tol : K) (c : Bool) (h : numbers x = []) :
    binningTest x δ tol c = .error .valueError := by
  unfold binningTest
  split
  · rfl
  · have : shiftToMin x = .error .valueError := by
      unfold shiftToMin; unfold numbers at h; simp only [h, amin?]
    rw [this]; rfl

/-- C08: with `check_larger_binning=True` the test passes iff it passes without and the
next larger power of ten `10^(floor(log10 delta)+1)` is rejected. -/
theorem C08_check_larger (x : List (Option K)) (δ tol : K) (hδ : 1 / 10 ^ 12 ≤ δ) (ht : tol ≤ δ)
    (hne : numbers x ≠ []) :
    ∃ b b', binningTest x δ tol false = .ok b ∧
      binningTest x ((10 : K) ^ (Int.log 10 δ + 1)) tol false = .ok b' ∧
      binningTest x δ tol true = .ok (b && !b') := by
  have hp : 0 < δ := lt_of_lt_of_le (by positivity) hδ
  obtain ⟨m, hm⟩ := exists_amin hne
  rw [amin?_eq_some_iff] at hm
  have h10 : δ < (10 : K) ^ (Int.log 10 δ + 1) := by
    exact_mod_cast Int.lt_zpow_succ_log_self (b := 10) (by norm_num) δ
  rw [binningTest_eq x δ tol false m hm (by simp),
    binningTest_eq x _ tol false m hm (by simp),
    binningTest_eq x δ tol true m hm (by simp [hp.ne']),
    binningTestCore_eq _ _ _ _ hδ (not_lt.2 ht),
    binningTestCore_eq _ _ _ _ hδ (not_lt.2 ht),
    binningTestCore_eq _ _ _ _ (le_trans hδ h10.le) (not_lt.2 (le_trans ht h10.le))]
  exact ⟨_, _, rfl, rfl, by simp⟩

/-- `[0.3, nan, 0.5]` is binned to 0.1, `[0.3, 0.35]` is not (tolerance 1e-15). -/
example : binningTest [some (3 / 10 : ℚ), none, some (1 / 2)] (1 / 10) (1 / 10 ^ 15) false = .ok true := by
  have := C08_grid_accepted (K := ℚ) [some 3, none, some 5] 0 (1 / 10) (1 / 10 ^ 15) (by norm_num)
    (by norm_num) ⟨3, by simp⟩
  norm_num at this ⊢; exact this

/-- A finding about C08: the documented mode `delta_x = 0` ("test if the array is
binned to a power of ten larger than the tolerance") raises ValueError for every
array with a spread of more than `1e-14`, because the first power of ten tried
(`1e-14`) is below the limit `1e-12` of `bin_to_precision`. -/
theorem C08_delta_zero_always_raises (x : List (Option K)) (lo hi : K)
    (hlo : IsLeast {v | v ∈ numbers x} lo) (hhi : IsGreatest {v | v ∈ numbers x} hi)
    (hr : 1 / 10 ^ 14 < hi - lo) :
    binningTest x 0 (1 / 10 ^ 15) true = .error .valueError := by
  have hx : x.length ≠ 0 := by
    intro h
    rw [List.length_eq_zero_iff.1 h] at hlo
    simpa [numbers] using hlo.1
  unfold binningTest
  rw [if_neg hx, shiftToMin_eq x lo hlo]
  simp only [bind, Except.bind, decide_true, Bool.and_self, if_true]
  set y := (numbers x).map fun v => v - lo with hy
  have hmin : amin? y = some 0 := by
    rw [amin?_eq_some_iff]
    refine ⟨List.mem_map.2 ⟨lo, hlo.1, sub_self lo⟩, fun b hb => ?_⟩
    obtain ⟨v, hv, rfl⟩ := List.mem_map.1 hb
    have := hlo.2 hv; linarith
  have hmax : amax? y = some (hi - lo) := by
    rw [amax?_eq_some_iff]
    refine ⟨List.mem_map.2 ⟨hi, hhi.1, rfl⟩, fun b hb => ?_⟩
    obtain ⟨v, hv, rfl⟩ := List.mem_map.1 hb
    have := hhi.2 hv; linarith
  have htol : Int.log 10 (1 / 10 ^ 15 : K) = -15 := by
    have := Int.log_zpow (R := K) (b := 10) (by norm_num) (-15)
    rw [← this]; congr 1
    rw [zpow_neg]; norm_num
  have hclog : -14 < Int.clog 10 (hi - lo) := by
    by_contra hcon
    push Not at hcon
    have h1 := Int.self_le_zpow_clog (b := 10) (R := K) (by norm_num) (hi - lo)
    have h2 : ((10 : ℕ) : K) ^ Int.clog 10 (hi - lo) ≤ ((10 : ℕ) : K) ^ (-14 : ℤ) :=
      zpow_le_zpow_right₀ (by norm_num) hcon
    have h3 : ((10 : ℕ) : K) ^ (-14 : ℤ) = 1 / 10 ^ 14 := by
      rw [zpow_neg]; norm_num
    rw [h3] at h2
    exact absurd (h1.trans h2) (not_le.2 hr)
  unfold binningTestZero
  simp only [hmin, hmax, sub_zero, htol]
  have hpos : ¬ hi - lo ≤ 0 := by
    have : (0 : K) < 1 / 10 ^ 14 := by positivity
    push Not; linarith
  rw [if_neg hpos]
  obtain ⟨n, hn⟩ : ∃ n, (Int.clog 10 (hi - lo) - (-15 + 1)).toNat = n + 1 :=
    ⟨(Int.clog 10 (hi - lo) - (-15 + 1)).toNat - 1, by omega⟩
  rw [hn]
  unfold binningTestZero.loop
  have hid : (y.map some).filterMap id = y := by simp [List.filterMap_map]
  have hshift : shiftToMin (y.map some) = .ok (y.map fun v => v - 0) := by
    unfold shiftToMin; simp [hmin]
  rw [hshift]
  simp only [bind, Except.bind, binningTestCore, binArr]
  have a1 : ¬ ((10 : K) ^ ((-15 : ℤ) + 1) < 10 ^ ((-15 : ℤ) - 1)) := by
    rw [not_lt]; exact zpow_le_zpow_right₀ (by norm_num) (by norm_num)
  have a2 : (10 : K) ^ ((-15 : ℤ) + 1) < eps K := by
    unfold eps
    rw [show ((-15 : ℤ) + 1) = -14 by norm_num, zpow_neg]
    norm_num
  rw [if_neg a1, if_pos a2]

example : IsLeast {v | v ∈ numbers [some (1 : ℚ), some 2]} 1 ∧
    IsGreatest {v | v ∈ numbers [some (1 : ℚ), some 2]} 2 ∧ (1 : ℚ) / 10 ^ 14 < 2 - 1 := by
  refine ⟨⟨by simp [numbers], ?_⟩, ⟨by simp [numbers], ?_⟩, by norm_num⟩ <;>
  · intro b hb
    simp [numbers] at hb
    rcases hb with rfl | rfl <;> norm_num

end SeismoStats.Props
