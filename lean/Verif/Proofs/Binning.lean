import Verif.Model.Binning
import Verif.Tactics

set_option linter.unusedSectionVars false

namespace SeismoStats
variable {K : Type} [Field K] [LinearOrder K] [IsStrictOrderedRing K] [FloorRing K]

theorem eps_pos : (0 : K) < eps K := by unfold eps; positivity

theorem eps_lt_half : eps K < 1 / 2 := by unfold eps; norm_num

theorem roundToInt_add_int (x : K) (k : ℤ) : roundToInt (x + k) = roundToInt x + k := by
  unfold roundToInt
  rw [show x + k + 1 / 2 + eps K = x + 1 / 2 + eps K + k by ring, Int.floor_add_intCast]

theorem roundToInt_zero : roundToInt (0 : K) = 0 := by
  unfold roundToInt
  rw [Int.floor_eq_zero_iff]
  constructor <;> [skip; skip]
  · have := eps_pos (K := K); linarith
  · have := eps_lt_half (K := K); linarith

theorem roundToInt_intCast (k : ℤ) : roundToInt (k : K) = k := by
  have := roundToInt_add_int (0 : K) k
  simpa [roundToInt_zero] using this

theorem roundToInt_mono {x y : K} (h : x ≤ y) : roundToInt x ≤ roundToInt y := by
  unfold roundToInt; exact Int.floor_le_floor (by linarith)

theorem roundToInt_le (x : K) : (roundToInt x : K) ≤ x + 1 / 2 + eps K := Int.floor_le _

theorem lt_roundToInt (x : K) : x - 1 / 2 + eps K < (roundToInt x : K) := by
  have : x + 1 / 2 + eps K < (roundToInt x : K) + 1 := Int.lt_floor_add_one _
  linarith

theorem roundToInt_eq_iff (x : K) (k : ℤ) :
    roundToInt x = k ↔ (k : K) ≤ x + 1 / 2 + eps K ∧ x + 1 / 2 + eps K < k + 1 :=
  Int.floor_eq_iff

theorem binTo_int_mul {δ : K} (hδ : δ ≠ 0) (k : ℤ) : binTo δ ((k : K) * δ) = (k : K) * δ := by
  unfold binTo
  rw [mul_div_assoc, div_self hδ, mul_one, roundToInt_intCast]

theorem binTo_add_int_mul {δ : K} (hδ : δ ≠ 0) (x : K) (k : ℤ) :
    binTo δ (x + (k : K) * δ) = binTo δ x + (k : K) * δ := by
  unfold binTo
  rw [add_div, mul_div_assoc, div_self hδ, mul_one, roundToInt_add_int]
  push_cast; ring

theorem binTo_idem {δ : K} (hδ : δ ≠ 0) (x : K) : binTo δ (binTo δ x) = binTo δ x :=
  binTo_int_mul hδ _

theorem binTo_mono {δ : K} (hδ : 0 < δ) {x y : K} (h : x ≤ y) : binTo δ x ≤ binTo δ y := by
  unfold binTo
  have : roundToInt (x / δ) ≤ roundToInt (y / δ) :=
    roundToInt_mono (div_le_div_of_nonneg_right h hδ.le)
  exact mul_le_mul_of_nonneg_right (by exact_mod_cast this) hδ.le

theorem binTo_le {δ : K} (hδ : 0 < δ) (x : K) : binTo δ x ≤ x + (1 / 2 + eps K) * δ := by
  unfold binTo
  have h := mul_le_mul_of_nonneg_right (roundToInt_le (x / δ)) hδ.le
  have e : x / δ * δ = x := div_mul_cancel₀ x hδ.ne'
  nlinarith [h, e]

theorem lt_binTo {δ : K} (hδ : 0 < δ) (x : K) : x - (1 / 2 - eps K) * δ < binTo δ x := by
  unfold binTo
  have h := mul_lt_mul_of_pos_right (lt_roundToInt (x / δ)) hδ
  have e : x / δ * δ = x := div_mul_cancel₀ x hδ.ne'
  nlinarith [h, e]

theorem binTo_eq_of_near {δ : K} (hδ : 0 < δ) (x : K) (k : ℤ)
    (h1 : (k : K) * δ - (1 / 2 + eps K) * δ ≤ x) (h2 : x < (k : K) * δ + (1 / 2 - eps K) * δ) :
    binTo δ x = (k : K) * δ := by
  unfold binTo
  congr 2
  rw [roundToInt_eq_iff]
  constructor
  · have : (k : K) - (1 / 2 + eps K) ≤ x / δ := by
      rw [le_div_iff₀ hδ]; linarith
    linarith
  · have : x / δ < (k : K) + (1 / 2 - eps K) := by
      rw [div_lt_iff₀ hδ]; linarith
    linarith

theorem binTo_zero (δ : K) : binTo δ 0 = 0 := by
  simp [binTo, roundToInt_zero]

/-! ### clean-up rounding -/

theorem Dec.val_mul_places (d : Dec) :
    ∃ z : ℤ, d.val K * 10 ^ d.places = (z : K) := by
  unfold Dec.val Dec.places
  refine ⟨d.mant * 10 ^ (d.exp + |d.exp|).toNat, ?_⟩
  have h10 : (10 : K) ≠ 0 := by norm_num
  have hn : 0 ≤ d.exp + |d.exp| := by
    have := neg_abs_le d.exp; linarith
  rw [mul_assoc, ← zpow_add₀ h10]
  push_cast
  rw [← zpow_natCast, Int.toNat_of_nonneg hn]

theorem normalRound_of_int {x : K} {n : ℤ} {z : ℤ} (h : x * 10 ^ n = (z : K)) :
    normalRound x n = x := by
  unfold normalRound
  rw [h, roundToInt_intCast, ← h, mul_div_assoc, div_self, mul_one]
  exact zpow_ne_zero _ (by norm_num)

theorem cleanup_identity (δ : Dec) (k : ℤ) :
    normalRound ((k : K) * δ.val K) δ.places = (k : K) * δ.val K := by
  obtain ⟨z, hz⟩ := Dec.val_mul_places (K := K) δ
  apply normalRound_of_int (z := k * z)
  rw [mul_assoc, hz]; push_cast; rfl

theorem binToPrecision_eq (x : List (Option K)) (δ : Dec) (h : eps K ≤ δ.val K) :
    binToPrecision x δ = .ok (x.map (Option.map (binTo (δ.val K)))) := by
  unfold binToPrecision
  rw [if_neg (not_lt.2 h)]
  congr 2
  funext o
  congr 1
  funext v
  exact cleanup_identity δ _

/-! ### minima and maxima -/

theorem foldl_min_spec (l : List K) (a : K) :
    (l.foldl min a = a ∨ l.foldl min a ∈ l) ∧ l.foldl min a ≤ a ∧ ∀ b ∈ l, l.foldl min a ≤ b := by
  induction l generalizing a with
  | nil => simp
  | cons c r ih =>
    obtain ⟨h1, h2, h3⟩ := ih (min a c)
    simp only [List.foldl_cons]
    refine ⟨?_, le_trans h2 (min_le_left _ _), ?_⟩
    · rcases h1 with h1 | h1
      · rcases min_choice a c with h | h
        · left; rw [h1, h]
        · right; rw [h1, h]; simp
      · right; simp [h1]
    · intro b hb
      rcases List.mem_cons.1 hb with rfl | hb
      · exact le_trans h2 (min_le_right _ _)
      · exact h3 b hb

theorem foldl_max_spec (l : List K) (a : K) :
    (l.foldl max a = a ∨ l.foldl max a ∈ l) ∧ a ≤ l.foldl max a ∧ ∀ b ∈ l, b ≤ l.foldl max a := by
  induction l generalizing a with
  | nil => simp
  | cons c r ih =>
    obtain ⟨h1, h2, h3⟩ := ih (max a c)
    simp only [List.foldl_cons]
    refine ⟨?_, le_trans (le_max_left _ _) h2, ?_⟩
    · rcases h1 with h1 | h1
      · rcases max_choice a c with h | h
        · left; rw [h1, h]
        · right; rw [h1, h]; simp
      · right; simp [h1]
    · intro b hb
      rcases List.mem_cons.1 hb with rfl | hb
      · exact le_trans (le_max_right _ _) h2
      · exact h3 b hb

theorem amin?_eq_some_iff (l : List K) (m : K) :
    amin? l = some m ↔ IsLeast {v | v ∈ l} m := by
  have key : ∀ (a : K) r, IsLeast {v | v ∈ a :: r} (List.foldl min a r) := by
    intro a r
    obtain ⟨h1, h2, h3⟩ := foldl_min_spec r a
    refine ⟨?_, fun b hb => ?_⟩
    · rcases h1 with h1 | h1
      · simp [h1]
      · simp [h1]
    · rcases List.mem_cons.1 hb with rfl | hb
      · exact h2
      · exact h3 b hb
  cases l with
  | nil => simp [amin?, IsLeast]
  | cons a r =>
    simp only [amin?, Option.some.injEq]
    exact ⟨fun h => h ▸ key a r, fun h => (key a r).unique h⟩

theorem amax?_eq_some_iff (l : List K) (m : K) :
    amax? l = some m ↔ IsGreatest {v | v ∈ l} m := by
  have key : ∀ (a : K) r, IsGreatest {v | v ∈ a :: r} (List.foldl max a r) := by
    intro a r
    obtain ⟨h1, h2, h3⟩ := foldl_max_spec r a
    refine ⟨?_, fun b hb => ?_⟩
    · rcases h1 with h1 | h1
      · simp [h1]
      · simp [h1]
    · rcases List.mem_cons.1 hb with rfl | hb
      · exact h2
      · exact h3 b hb
  cases l with
  | nil => simp [amax?, IsGreatest]
  | cons a r =>
    simp only [amax?, Option.some.injEq]
    exact ⟨fun h => h ▸ key a r, fun h => (key a r).unique h⟩

theorem amin?_eq_none_iff (l : List K) : amin? l = none ↔ l = [] := by
  cases l <;> simp [amin?]

theorem amax?_eq_none_iff (l : List K) : amax? l = none ↔ l = [] := by
  cases l <;> simp [amax?]

theorem amin?_perm {l l' : List K} (h : l.Perm l') : amin? l = amin? l' := by
  ext m
  have : {v | v ∈ l} = {v | v ∈ l'} := by ext v; exact h.mem_iff
  rw [amin?_eq_some_iff, amin?_eq_some_iff, this]

theorem exists_amin {l : List K} (h : l ≠ []) : ∃ m, amin? l = some m := by
  cases l with
  | nil => exact absurd rfl h
  | cons a r => exact ⟨_, rfl⟩

theorem exists_amax {l : List K} (h : l ≠ []) : ∃ m, amax? l = some m := by
  cases l with
  | nil => exact absurd rfl h
  | cons a r => exact ⟨_, rfl⟩

theorem amin?_map_add (l : List K) (c : K) :
    amin? (l.map (· + c)) = (amin? l).map (· + c) := by
  ext m
  rw [amin?_eq_some_iff]
  constructor
  · rintro ⟨h1, h2⟩
    obtain ⟨v, hv, rfl⟩ := List.mem_map.1 h1
    have : amin? l = some v := (amin?_eq_some_iff l v).2 ⟨hv, fun b hb => by
      have := h2 (show b + c ∈ _ from List.mem_map_of_mem (f := (· + c)) hb)
      linarith⟩
    simp [this]
  · intro h
    obtain ⟨v, hv, rfl⟩ := Option.map_eq_some_iff.1 h
    obtain ⟨h1, h2⟩ := (amin?_eq_some_iff l v).1 hv
    refine ⟨List.mem_map_of_mem (f := (· + c)) h1, fun b hb => ?_⟩
    obtain ⟨u, hu, rfl⟩ := List.mem_map.1 hb
    have := h2 hu
    linarith

/-! ### binning_test -/

theorem allclose_map (l : List K) (f : K → K) (a r : K) :
    allclose (l.map f) l a r = l.all fun v => decide (|f v - v| ≤ a + r * |v|) := by
  unfold allclose
  induction l with
  | nil => rfl
  | cons x xs ih => simp only [List.map_cons, List.zip_cons_cons, List.all_cons, ih]

theorem List.all_perm {α : Type*} {l l' : List α} (h : l.Perm l') (p : α → Bool) :
    l.all p = l'.all p := by
  rw [Bool.eq_iff_iff, List.all_eq_true, List.all_eq_true]
  exact ⟨fun H x hx => H x (h.mem_iff.2 hx), fun H x hx => H x (h.mem_iff.1 hx)⟩

/-- The verdict of the explicit-bin-size branch, in closed form. -/
theorem binningTestCore_eq (x : List K) (δ tol : K) (c : Bool) (h1 : eps K ≤ δ) (h2 : ¬ δ < tol) :
    binningTestCore x δ tol c = .ok (
      (x.all fun v => decide (|binTo δ v - v| ≤ tol + 1 / 10 ^ 16 * |v|)) &&
      (!c || !(x.all fun v => decide
        (|binTo ((10 : K) ^ (Int.log 10 δ + 1)) v - v| ≤ tol + 1 / 10 ^ 16 * |v|)))) := by
  have hδ : 0 < δ := lt_of_lt_of_le eps_pos h1
  have h3 : eps K ≤ (10 : K) ^ (Int.log 10 δ + 1) :=
    h1.trans (by exact_mod_cast (Int.lt_zpow_succ_log_self (b := 10) (by norm_num) δ).le)
  unfold binningTestCore binArr
  rw [if_neg h2, if_neg (not_lt.2 h1), if_neg (not_lt.2 h3)]
  simp only [bind, Except.bind, pure, Except.pure, allclose_map]
  cases c <;> cases hA : (x.all fun v => decide (|binTo δ v - v| ≤ tol + 1 / 10 ^ 16 * |v|)) <;>
    simp

theorem binningTestCore_perm {x y : List K} (h : x.Perm y) (δ tol : K) (c : Bool) :
    binningTestCore x δ tol c = binningTestCore y δ tol c := by
  unfold binningTestCore binArr
  split
  · rfl
  · split
    · rfl
    · simp only [bind, Except.bind, pure, Except.pure, allclose_map, List.all_perm h]
      split
      · by_cases h3 : (10 : K) ^ (Int.log 10 δ + 1) < eps K
        · simp [h3]
        · simp [h3, allclose_map, List.all_perm h]
      · rfl

theorem amax?_perm {l l' : List K} (h : l.Perm l') : amax? l = amax? l' := by
  ext m
  have : {v | v ∈ l} = {v | v ∈ l'} := by ext v; exact h.mem_iff
  rw [amax?_eq_some_iff, amax?_eq_some_iff, this]

end SeismoStats
