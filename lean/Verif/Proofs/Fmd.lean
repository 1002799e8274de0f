import Verif.Proofs.Binning

set_option linter.unusedSectionVars false

namespace SeismoStats
variable {K : Type} [Field K] [LinearOrder K] [IsStrictOrderedRing K] [FloorRing K]

theorem weightWhere_cons {α : Type*} (q : α × K) (l : List (α × K)) (p : α → Bool) :
    weightWhere (q :: l) p = (if p q.1 then q.2 else 0) + weightWhere l p := by
  unfold weightWhere
  by_cases h : p q.1 <;> simp [h]

theorem weightWhere_congr {α : Type*} {l : List (α × K)} {p p' : α → Bool}
    (h : ∀ q ∈ l, p q.1 = p' q.1) : weightWhere l p = weightWhere l p' := by
  unfold weightWhere
  rw [List.filter_congr (fun q hq => h q hq)]

theorem sum_map_ite {α : Type*} [DecidableEq α] (c : List α) (hc : c.Nodup) (v : α) (x : K) :
    (c.map fun b => if v = b then x else 0).sum = if v ∈ c then x else 0 := by
  induction c with
  | nil => simp
  | cons b r ih =>
    obtain ⟨h1, h2⟩ := List.nodup_cons.1 hc
    rw [List.map_cons, List.sum_cons, ih h2]
    by_cases hv : v = b
    · subst hv; simp [h1]
    · simp [hv]

theorem sum_weightWhere {α : Type*} [DecidableEq α] (c : List α) (hc : c.Nodup)
    (l : List (α × K)) :
    (c.map fun b => weightWhere l fun v => decide (v = b)).sum =
      weightWhere l fun v => decide (v ∈ c) := by
  induction l with
  | nil => simp [weightWhere]
  | cons q l ih =>
    simp only [weightWhere_cons, List.sum_map_add, ih, decide_eq_true_eq]
    rw [sum_map_ite c hc]

theorem mem_drop_iff_of_sorted (c : List K) (hc : c.Pairwise (· < ·)) (i : ℕ) (hi : i < c.length)
    (v : K) (hv : v ∈ c) : v ∈ c.drop i ↔ c[i] ≤ v := by
  induction c generalizing i with
  | nil => simp at hi
  | cons a r ih =>
    cases i with
    | zero =>
      simp only [List.drop_zero, List.getElem_cons_zero]
      refine ⟨fun _ => ?_, fun _ => hv⟩
      rcases List.mem_cons.1 hv with rfl | h
      · exact le_rfl
      · exact (List.rel_of_pairwise_cons hc h).le
    | succ i =>
      simp only [List.drop_succ_cons, List.getElem_cons_succ]
      have hr := (List.pairwise_cons.1 hc).2
      have hi' : i < r.length := by simpa using hi
      rcases List.mem_cons.1 hv with rfl | h
      · have h1 : v < r[i] := List.rel_of_pairwise_cons hc (List.getElem_mem hi')
        refine ⟨fun hm => ?_, fun hle => absurd h1 (not_lt.2 hle)⟩
        have := List.rel_of_pairwise_cons hc (List.mem_of_mem_drop hm)
        exact absurd this (lt_irrefl _)
      · exact ih hr i hi' h

/-! ### reverse cumulative sums -/

theorem cumsumFrom_append {M : Type*} [AddMonoid M] (acc : M) (l l' : List M) :
    cumsumFrom acc (l ++ l') = cumsumFrom acc l ++ cumsumFrom (acc + l.sum) l' := by
  induction l generalizing acc with
  | nil => simp [cumsumFrom]
  | cons a r ih => simp [cumsumFrom, ih, add_assoc]

theorem length_cumsumFrom {M : Type*} [Add M] (acc : M) (l : List M) :
    (cumsumFrom acc l).length = l.length := by
  induction l generalizing acc with
  | nil => rfl
  | cons a r ih => simp [cumsumFrom, ih]

theorem revCumsum_cons (a : K) (l : List K) :
    revCumsum (a :: l) = (a + l.sum) :: revCumsum l := by
  unfold revCumsum
  rw [List.reverse_cons, cumsumFrom_append]
  simp [cumsumFrom, add_comm]

theorem length_revCumsum (l : List K) : (revCumsum l).length = l.length := by
  simp [revCumsum, length_cumsumFrom]

theorem revCumsum_getElem (l : List K) (i : ℕ) (hi : i < l.length) :
    (revCumsum l)[i]'(by rwa [length_revCumsum]) = (l.drop i).sum := by
  induction l generalizing i with
  | nil => simp at hi
  | cons a r ih =>
    simp only [revCumsum_cons]
    cases i with
    | zero => simp
    | succ i =>
      simp only [List.getElem_cons_succ, List.drop_succ_cons]
      exact ih i (by simpa using hi)

/-! ### get_fmd in closed form -/

/-- Consecutive multiples of `δ`: `aδ, (a+1)δ, …` (`n` of them). -/
def grid (a : ℤ) (n : ℕ) (δ : K) : List K := (List.range n).map fun (i : ℕ) => ((a + i : ℤ) : K) * δ

theorem grid_length (a : ℤ) (n : ℕ) (δ : K) : (grid a n δ).length = n := by simp [grid]

theorem grid_getElem (a : ℤ) (n : ℕ) (δ : K) (i : ℕ) (hi : i < n) :
    (grid a n δ)[i]'(by rwa [grid_length]) = ((a + i : ℤ) : K) * δ := by
  simp [grid]

theorem grid_sorted (a : ℤ) (n : ℕ) {δ : K} (hδ : 0 < δ) : (grid a n δ).Pairwise (· < ·) := by
  unfold grid
  rw [List.pairwise_map]
  refine List.pairwise_lt_range.imp ?_
  intro i j hij
  have : ((a + i : ℤ) : K) < ((a + j : ℤ) : K) := by exact_mod_cast (by omega)
  exact mul_lt_mul_of_pos_right this hδ

theorem mem_grid (a : ℤ) (n : ℕ) (δ : K) (k : ℤ) (h1 : a ≤ k) (h2 : k < a + n) :
    (k : K) * δ ∈ grid a n δ := by
  unfold grid
  rw [List.mem_map]
  refine ⟨(k - a).toNat, by rw [List.mem_range]; omega, ?_⟩
  congr 2; omega

theorem grid_dropLast (a : ℤ) (n : ℕ) (δ : K) : (grid a (n + 1) δ).dropLast = grid a n δ := by
  unfold grid
  rw [List.range_succ, List.map_append]
  simp

theorem arange_grid (a b : ℤ) (hab : a ≤ b) {δ : K} (hδ : 0 < δ) :
    arange ((a : K) * δ) ((b : K) * δ + 3 / 2 * δ) δ = grid a ((b - a + 1).toNat + 1) δ := by
  unfold arange grid
  have hq : ((b : K) * δ + 3 / 2 * δ - (a : K) * δ) / δ = ((b - a : ℤ) : K) + 3 / 2 := by
    push_cast; field_simp; ring
  have hc : ⌈(((b - a : ℤ) : K) + 3 / 2)⌉ = b - a + 2 := by
    rw [Int.ceil_eq_iff]
    constructor
    · push_cast; linarith
    · push_cast; linarith
  rw [hq, hc, show (b - a + 2).toNat = (b - a + 1).toNat + 1 by omega]
  apply List.map_congr_left
  intro i _
  push_cast; ring

theorem exists_int_of_mem_binned {δ : K} {mags : List K} {v : K}
    (h : v ∈ mags.map (binTo δ)) : ∃ k : ℤ, v = (k : K) * δ := by
  obtain ⟨x, _, rfl⟩ := List.mem_map.1 h
  exact ⟨_, rfl⟩

theorem map_binTo_grid (a : ℤ) (n : ℕ) {δ : K} (hδ : δ ≠ 0) :
    (grid a n δ).map (binTo δ) = grid a n δ := by
  unfold grid
  rw [List.map_map]
  apply List.map_congr_left
  intro i _
  exact binTo_int_mul hδ _

theorem histogram_grid (a : ℤ) (n : ℕ) {δ : K} (hδ : 0 < δ) (x w : List K)
    (hx : ∀ v ∈ x, ∃ k : ℤ, v = (k : K) * δ) :
    histogram x w ((grid a (n + 1) δ).map fun e => e - δ / 2) =
      (grid a n δ).map fun c => weightWhere (List.zip x w) fun v => decide (v = c) := by
  unfold histogram
  simp only [List.length_map, grid_length, Nat.add_sub_cancel]
  conv_rhs => rw [grid, List.map_map]
  apply List.map_congr_left
  intro i hi
  rw [List.mem_range] at hi
  simp only [Function.comp_apply]
  apply weightWhere_congr
  rintro ⟨v, u⟩ hq
  obtain ⟨k, hk⟩ := hx v (List.of_mem_zip hq).1
  simp only
  have e1 : ((grid a (n + 1) δ).map fun e => e - δ / 2).getD i 0 = ((a + i : ℤ) : K) * δ - δ / 2 := by
    rw [List.getD_eq_getElem _ _ (by simp [grid_length]; omega), List.getElem_map,
      grid_getElem _ _ _ _ (by omega)]
  have e2 : ((grid a (n + 1) δ).map fun e => e - δ / 2).getD (i + 1) 0 =
      ((a + (i + 1 : ℕ) : ℤ) : K) * δ - δ / 2 := by
    rw [List.getD_eq_getElem _ _ (by simp [grid_length]; omega), List.getElem_map,
      grid_getElem _ _ _ _ (by omega)]
  rw [e1, e2, hk]
  have hL : ((a + i : ℤ) : K) * δ - δ / 2 ≤ (k : K) * δ ↔ a + i ≤ k := by
    constructor
    · intro h
      by_contra hc
      have : ((k + 1 : ℤ) : K) ≤ ((a + i : ℤ) : K) := by exact_mod_cast (by omega)
      push_cast at this h
      nlinarith [mul_le_mul_of_nonneg_right this hδ.le]
    · intro h
      have : ((a + i : ℤ) : K) ≤ (k : K) := by exact_mod_cast h
      nlinarith [mul_le_mul_of_nonneg_right this hδ.le]
  have hR : (k : K) * δ < ((a + (i + 1 : ℕ) : ℤ) : K) * δ - δ / 2 ↔ k ≤ a + i := by
    constructor
    · intro h
      by_contra hc
      have : ((a + (i + 1 : ℕ) : ℤ) : K) ≤ ((k : ℤ) : K) := by exact_mod_cast (by omega)
      nlinarith [mul_le_mul_of_nonneg_right this hδ.le]
    · intro h
      have : (k : K) ≤ ((a + i : ℤ) : K) := by exact_mod_cast h
      push_cast at this ⊢
      nlinarith [mul_le_mul_of_nonneg_right this hδ.le]
  have hE : ¬ (k : K) * δ = ((a + (i + 1 : ℕ) : ℤ) : K) * δ - δ / 2 := by
    intro h
    have h2 : ((2 * (a + (i + 1 : ℕ)) - 2 * k : ℤ) : K) = ((1 : ℤ) : K) := by
      have : (2 * (((a + (i + 1 : ℕ) : ℤ) : K)) - 2 * (k : K) - 1) * δ = 0 := by linarith
      rcases mul_eq_zero.1 this with h0 | h0
      · push_cast at h0 ⊢; linarith
      · exact absurd h0 hδ.ne'
    have h3 := Int.cast_injective h2
    omega
  have hV : (k : K) * δ = ((a + i : ℤ) : K) * δ ↔ k = a + i := by
    rw [mul_left_inj' hδ.ne']
    exact Int.cast_inj
  simp only [hL, hR, hE, hV, decide_false, Bool.and_false, Bool.or_false]
  rw [Bool.eq_iff_iff]
  simp only [Bool.and_eq_true, decide_eq_true_eq]
  omega

/-- Closed form of `get_fmd`. -/
theorem getFmd_eq (mags : List K) (δ : K) (weights : Option (List K)) (pos : BinPos)
    (hδ : eps K ≤ δ) (hne : mags ≠ [])
    (hw : ∀ w, weights = some w → w.length = mags.length) :
    ∃ (a : ℤ) (n : ℕ), 1 ≤ n ∧ IsLeast {v | v ∈ mags.map (binTo δ)} ((a : K) * δ) ∧
      IsGreatest {v | v ∈ mags.map (binTo δ)} (((a + n - 1 : ℤ) : K) * δ) ∧
      getFmd mags δ weights pos =
        (let mb := mags.map (binTo δ)
         let w := weights.getD (mags.map fun _ => 1)
         let counts := (grid a n δ).map fun c =>
            weightWhere (List.zip mb w) fun v => decide (v = c)
         match pos with
         | .other => .error .assertionError
         | .left => .ok ((grid a n δ).map fun b => b - δ / 2, counts, mb)
         | .center => .ok (grid a n δ, counts, mb)) := by
  have hpos : 0 < δ := lt_of_lt_of_le eps_pos hδ
  have hmb : mags.map (binTo δ) ≠ [] := by simpa using hne
  obtain ⟨lo, hlo⟩ := exists_amin hmb
  obtain ⟨hi, hhi⟩ := exists_amax hmb
  have hlo' := (amin?_eq_some_iff _ _).1 hlo
  have hhi' := (amax?_eq_some_iff _ _).1 hhi
  obtain ⟨a, rfl⟩ := exists_int_of_mem_binned hlo'.1
  obtain ⟨b, rfl⟩ := exists_int_of_mem_binned hhi'.1
  have hab : a ≤ b := by
    have h := hlo'.2 hhi'.1
    have := le_of_mul_le_mul_right h hpos
    exact_mod_cast this
  refine ⟨a, (b - a + 1).toNat, by omega, hlo', ?_, ?_⟩
  · rw [show a + ((b - a + 1).toNat : ℤ) - 1 = b by omega]; exact hhi'
  · have hwl : (weights.getD (mags.map fun _ => 1)).length = (mags.map (binTo δ)).length := by
      cases weights with
      | none => simp
      | some w => simp [hw w rfl]
    unfold getFmd binArr
    rw [if_neg (not_le.2 hpos), if_neg (not_lt.2 hδ)]
    simp only [bind, Except.bind, pure, Except.pure, hlo, hhi, if_neg (not_lt.2 hδ),
      arange_grid a b hab hpos, map_binTo_grid a _ hpos.ne', grid_dropLast]
    rw [if_neg (by simpa using hwl),
      histogram_grid a _ hpos _ _ (fun v hv => exists_int_of_mem_binned hv)]
    cases pos <;> rfl

end SeismoStats
