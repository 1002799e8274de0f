/-
Lemmas about the numbering of rows.
-/
import Verif.Model.RateGrid
import Mathlib.Tactic.Linarith
import Mathlib.Data.List.GetD

namespace SeismoStats.RateGrid
open SeismoStats
open Classical

theorem scan_length {α : Type} (k : ℕ) (p : List (WithTop α)) (l : List (List (WithTop α))) : (scan k p l).length = l.length := by
  induction l generalizing k p with
  | nil => rfl
  | cons x r ih => simp [scan, ih]

theorem groupNumbers_length {α : Type} (l : List (List (WithTop α))) : (groupNumbers l).length = l.length := by
  cases l with
  | nil => rfl
  | cons x r => simp [groupNumbers, scan_length]

theorem scan_step {α : Type} (k : ℕ) (p : List (WithTop α)) (l : List (List (WithTop α))) (i : ℕ) (hi : i < l.length) :
    (k :: scan k p l).getD (i + 1) 0 = (k :: scan k p l).getD i 0 + if isNew ((p :: l).getD i []) ((p :: l).getD (i + 1) []) then 1 else 0 := by
  induction l generalizing k p i with
  | nil => simp at hi
  | cons x r ih =>
    cases i with
    | zero =>
      simp only [scan, List.getD_cons_succ, List.getD_cons_zero]
      by_cases h : isNew p x <;> simp [h]
    | succ i =>
      have := ih (if isNew p x then k + 1 else k) x i (by simpa using hi)
      simpa [scan] using this

/-- The numbers go up by one at every new row. -/
theorem groupNumbers_step {α : Type} (l : List (List (WithTop α))) (i : ℕ) (hi : i + 1 < l.length) :
    (groupNumbers l).getD (i + 1) 0 = (groupNumbers l).getD i 0 + if isNew (l.getD i []) (l.getD (i + 1) []) then 1 else 0 := by
  cases l with
  | nil => simp at hi
  | cons x r => exact scan_step 0 x r i (by simpa using hi)

theorem groupNumbers_zero {α : Type} (l : List (List (WithTop α))) : (groupNumbers l).getD 0 0 = 0 := by
  cases l <;> rfl

theorem groupNumbers_mono {α : Type} (l : List (List (WithTop α))) (i j : ℕ) (hij : i ≤ j) (hj : j < l.length) :
    (groupNumbers l).getD i 0 ≤ (groupNumbers l).getD j 0 := by
  induction j, hij using Nat.le_induction with
  | base => exact le_rfl
  | succ j hij ih =>
    rw [groupNumbers_step l j hj]
    have := ih (by omega)
    omega

/-- Equal numbers: the same position, or equal complete rows. -/
theorem groupNumbers_inj {α : Type} (l : List (List (WithTop α))) (i j : ℕ) (hij : i ≤ j) (hj : j < l.length)
    (h : (groupNumbers l).getD i 0 = (groupNumbers l).getD j 0) : i = j ∨ (l.getD i [] = l.getD j [] ∧ ⊤ ∉ l.getD j []) := by
  induction j, hij using Nat.le_induction with
  | base => exact Or.inl rfl
  | succ j hij ih =>
    right
    have hm := groupNumbers_mono l i j hij (by omega)
    rw [groupNumbers_step l j hj] at h
    by_cases hn : isNew (l.getD j []) (l.getD (j + 1) [])
    · rw [if_pos hn] at h
      omega
    · rw [if_neg hn] at h
      simp only [isNew, Bool.or_eq_true, decide_eq_true_eq, not_or, not_not] at hn
      rcases ih (by omega) (by simpa using h) with e | e
      · subst e
        exact ⟨hn.1.symm, hn.2⟩
      · exact ⟨e.1.trans hn.1.symm, hn.2⟩

theorem groupNumbers_missing {α : Type} (l : List (List (WithTop α))) (i j : ℕ) (hij : i < j) (hj : j < l.length) (h : ⊤ ∈ l.getD j []) :
    (groupNumbers l).getD i 0 < (groupNumbers l).getD j 0 := by
  obtain ⟨k, rfl⟩ : ∃ k, j = k + 1 := ⟨j - 1, by omega⟩
  rw [groupNumbers_step l k hj, if_pos (by simp only [isNew, h, decide_true, Bool.or_true])]
  have := groupNumbers_mono l i k (by omega) (by omega)
  omega

/-- In sorted rows, equal complete rows have equal numbers. -/
theorem groupNumbers_same (l : List (List (WithTop ℝ))) (hs : l.Pairwise (· ≤ ·)) (i j : ℕ) (hij : i ≤ j) (hj : j < l.length)
    (h : l.getD i [] = l.getD j []) (hc : ⊤ ∉ l.getD j []) : (groupNumbers l).getD i 0 = (groupNumbers l).getD j 0 := by
  have hle : ∀ a b, a ≤ b → b < l.length → l.getD a [] ≤ l.getD b [] := by
    intro a b hab hb
    rcases Nat.lt_or_eq_of_le hab with h | h
    · rw [List.getD_eq_getElem _ _ (by omega), List.getD_eq_getElem _ _ hb]
      exact List.pairwise_iff_getElem.1 hs a b (by omega) hb h
    · subst h; exact le_rfl
  induction j, hij using Nat.le_induction with
  | base => rfl
  | succ j hij ih =>
    have h1 : l.getD i [] = l.getD j [] := by
      refine le_antisymm (hle i j hij (by omega)) ?_
      rw [h]
      exact hle j (j + 1) (by omega) hj
    rw [ih (by omega) h1 (by rw [← h1, h]; exact hc), groupNumbers_step l j hj, if_neg]
    · rfl
    · simp only [isNew, Bool.or_eq_true, decide_eq_true_eq, not_or, not_not]
      exact ⟨by rw [← h, h1], hc⟩

/-- Every smaller number is taken. -/
theorem groupNumbers_onto {α : Type} (l : List (List (WithTop α))) (j : ℕ) (hj : j < l.length) (k : ℕ) (hk : k ≤ (groupNumbers l).getD j 0) :
    ∃ i ≤ j, (groupNumbers l).getD i 0 = k := by
  induction j with
  | zero =>
    rw [groupNumbers_zero] at hk
    exact ⟨0, le_rfl, by rw [groupNumbers_zero]; omega⟩
  | succ j ih =>
    by_cases h : k ≤ (groupNumbers l).getD j 0
    · obtain ⟨i, hi, he⟩ := ih (by omega) h
      exact ⟨i, by omega, he⟩
    · refine ⟨j + 1, le_rfl, ?_⟩
      rw [groupNumbers_step l j hj] at hk ⊢
      split at hk <;> split <;> omega

/-! ### The inverse -/

theorem sortRows_perm (l : List (List (WithTop ℝ))) : (sortRows l).Perm (List.range l.length) := List.perm_insertionSort _ _

theorem sortRows_length (l : List (List (WithTop ℝ))) : (sortRows l).length = l.length := by
  rw [(sortRows_perm l).length_eq, List.length_range]

theorem sortRows_nodup (l : List (List (WithTop ℝ))) : (sortRows l).Nodup := (sortRows_perm l).nodup_iff.2 List.nodup_range

theorem sortRows_sorted (l : List (List (WithTop ℝ))) : ((sortRows l).map fun j => l.getD j []).Pairwise (· ≤ ·) := by
  rw [List.pairwise_map]
  have : Std.Total (fun i j => l.getD i [] ≤ l.getD j []) := ⟨fun a b => le_total (l.getD a []) (l.getD b [])⟩
  have : IsTrans ℕ (fun i j => l.getD i [] ≤ l.getD j []) := ⟨fun a b c => le_trans⟩
  exact List.pairwise_insertionSort _ _

theorem uniqueInverse_length (l : List (List (WithTop ℝ))) : (uniqueInverse l).length = l.length := by
  simp [uniqueInverse]

/-- Position of a row in the sorted order. -/
noncomputable def pos (l : List (List (WithTop ℝ))) (i : ℕ) : ℕ := (sortRows l).idxOf i

theorem pos_lt (l : List (List (WithTop ℝ))) (i : ℕ) (hi : i < l.length) : pos l i < l.length := by
  unfold pos
  rw [← sortRows_length l]
  exact List.idxOf_lt_length_iff.2 ((sortRows_perm l).mem_iff.2 (List.mem_range.2 hi))

theorem pos_row (l : List (List (WithTop ℝ))) (i : ℕ) (hi : i < l.length) :
    ((sortRows l).map fun j => l.getD j []).getD (pos l i) [] = l.getD i [] := by
  have h := pos_lt l i hi
  rw [List.getD_eq_getElem _ _ (by simpa [sortRows_length] using h), List.getElem_map]
  congr 1
  exact List.getElem_idxOf _

theorem pos_inj (l : List (List (WithTop ℝ))) (i j : ℕ) (hi : i < l.length) (hj : j < l.length) (h : pos l i = pos l j) : i = j := by
  have h1 : (sortRows l)[pos l i]'(by rw [sortRows_length]; exact pos_lt l i hi) = i := List.getElem_idxOf _
  have h2 : (sortRows l)[pos l j]'(by rw [sortRows_length]; exact pos_lt l j hj) = j := List.getElem_idxOf _
  rw [← h1, ← h2]
  simp only [h]

theorem uniqueInverse_getD (l : List (List (WithTop ℝ))) (i : ℕ) (hi : i < l.length) :
    (uniqueInverse l).getD i 0 = (groupNumbers ((sortRows l).map fun j => l.getD j [])).getD (pos l i) 0 := by
  rw [List.getD_eq_getElem _ _ (by rw [uniqueInverse_length]; exact hi)]
  simp only [uniqueInverse, List.getElem_map, List.getElem_range]
  rfl

theorem pos_le (l : List (List (WithTop ℝ))) (i j : ℕ) (hi : i < l.length) (hj : j < l.length) (h : l.getD i [] < l.getD j []) :
    pos l i < pos l j := by
  by_contra hc
  have hs := List.pairwise_iff_getElem.1 (sortRows_sorted l) 
  rcases Nat.lt_or_eq_of_le (not_lt.1 hc) with h1 | h1
  · have := hs (pos l j) (pos l i) (by simpa [sortRows_length] using pos_lt l j hj) (by simpa [sortRows_length] using pos_lt l i hi) h1
    rw [← List.getD_eq_getElem _ [], ← List.getD_eq_getElem _ [], pos_row l j hj, pos_row l i hi] at this
    exact absurd h (not_lt.2 this)
  · rw [pos_inj l j i hj hi h1] at h
    exact lt_irrefl _ h

/-- Numbers of two rows are equal exactly for the same row or equal rows without NaN. -/
theorem uniqueInverse_eq (l : List (List (WithTop ℝ))) (i j : ℕ) (hi : i < l.length) (hj : j < l.length) :
    (uniqueInverse l).getD i 0 = (uniqueInverse l).getD j 0 ↔ i = j ∨ (l.getD i [] = l.getD j [] ∧ ⊤ ∉ l.getD j []) := by
  rw [uniqueInverse_getD l i hi, uniqueInverse_getD l j hj]
  have hl : ((sortRows l).map fun j => l.getD j []).length = l.length := by simp [sortRows_length]
  constructor
  · intro h
    rcases le_total (pos l i) (pos l j) with hc | hc
    · rcases groupNumbers_inj _ _ _ hc (by rw [hl]; exact pos_lt l j hj) h with e | e
      · exact Or.inl (pos_inj l i j hi hj e)
      · rw [pos_row l i hi, pos_row l j hj] at e
        exact Or.inr e
    · rcases groupNumbers_inj _ _ _ hc (by rw [hl]; exact pos_lt l i hi) h.symm with e | e
      · exact Or.inl (pos_inj l j i hj hi e).symm
      · rw [pos_row l i hi, pos_row l j hj] at e
        exact Or.inr ⟨e.1.symm, by rw [e.1]; exact e.2⟩
  · rintro (rfl | ⟨h, hc⟩)
    · rfl
    · rcases le_total (pos l i) (pos l j) with hp | hp
      · exact groupNumbers_same _ (sortRows_sorted l) _ _ hp (by rw [hl]; exact pos_lt l j hj)
          (by rw [pos_row l i hi, pos_row l j hj]; exact h) (by rw [pos_row l j hj]; exact hc)
      · exact (groupNumbers_same _ (sortRows_sorted l) _ _ hp (by rw [hl]; exact pos_lt l i hi)
          (by rw [pos_row l i hi, pos_row l j hj]; exact h.symm) (by rw [pos_row l i hi, h]; exact hc)).symm

/-- The numbers follow the order of the rows. -/
theorem uniqueInverse_lt (l : List (List (WithTop ℝ))) (i j : ℕ) (hi : i < l.length) (hj : j < l.length) (h : l.getD i [] < l.getD j []) :
    (uniqueInverse l).getD i 0 < (uniqueInverse l).getD j 0 := by
  have hl : ((sortRows l).map fun j => l.getD j []).length = l.length := by simp [sortRows_length]
  refine lt_of_le_of_ne ?_ ?_
  · rw [uniqueInverse_getD l i hi, uniqueInverse_getD l j hj]
    exact groupNumbers_mono _ _ _ (pos_le l i j hi hj h).le (by rw [hl]; exact pos_lt l j hj)
  · intro e
    rcases (uniqueInverse_eq l i j hi hj).1 e with rfl | e
    · exact lt_irrefl _ h
    · rw [e.1] at h; exact lt_irrefl _ h

/-- All numbers below are taken. -/
theorem uniqueInverse_onto (l : List (List (WithTop ℝ))) (j : ℕ) (hj : j < l.length) (k : ℕ) (hk : k ≤ (uniqueInverse l).getD j 0) :
    ∃ i < l.length, (uniqueInverse l).getD i 0 = k := by
  have hl : ((sortRows l).map fun j => l.getD j []).length = l.length := by simp [sortRows_length]
  rw [uniqueInverse_getD l j hj] at hk
  obtain ⟨p, hp, he⟩ := groupNumbers_onto _ _ (by rw [hl]; exact pos_lt l j hj) k hk
  have hp' : p < (sortRows l).length := by
    rw [sortRows_length]; exact lt_of_le_of_lt hp (pos_lt l j hj)
  have hm : (sortRows l)[p] < l.length := List.mem_range.1 ((sortRows_perm l).mem_iff.1 (List.getElem_mem hp'))
  refine ⟨(sortRows l)[p], hm, ?_⟩
  rw [uniqueInverse_getD l _ hm]
  have : pos l (sortRows l)[p] = p := (sortRows_nodup l).idxOf_getElem p hp'
  rw [this, he]

end SeismoStats.RateGrid
