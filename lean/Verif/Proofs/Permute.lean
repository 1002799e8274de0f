/-
Averages over all permutations of products of deviations.
-/
import Mathlib.GroupTheory.Perm.Basic
import Mathlib.Data.Fintype.Perm
import Mathlib.Algebra.BigOperators.Ring.Finset
import Mathlib.Algebra.BigOperators.Field
import Mathlib.Algebra.BigOperators.Group.Finset.Sigma
import Mathlib.Algebra.Order.Ring.Abs
import Mathlib.Data.Real.Basic
import Mathlib.Tactic.Linarith
import Mathlib.Tactic.FieldSimp
import Mathlib.Tactic.Ring

namespace SeismoStats.Permute
open scoped BigOperators
open Equiv
noncomputable section

variable {ι : Type} [Fintype ι] [DecidableEq ι]

/-- The average over all permutations. -/
def avgPerm (f : Perm ι → ℝ) : ℝ := (∑ σ, f σ) / (Fintype.card (Perm ι) : ℝ)

theorem avgPerm_sum {κ : Type} (s : Finset κ) (f : κ → Perm ι → ℝ) : avgPerm (fun σ => ∑ k ∈ s, f k σ) = ∑ k ∈ s, avgPerm (f k) := by
  unfold avgPerm
  rw [Finset.sum_comm, Finset.sum_div]

theorem avgPerm_mul (c : ℝ) (f : Perm ι → ℝ) : avgPerm (fun σ => c * f σ) = c * avgPerm f := by
  unfold avgPerm
  rw [← Finset.mul_sum, mul_div_assoc]

theorem card_pos : (0 : ℝ) < (Fintype.card (Perm ι) : ℝ) := by
  exact_mod_cast Fintype.card_pos

theorem avgPerm_const (c : ℝ) : avgPerm (fun _ : Perm ι => c) = c := by
  unfold avgPerm
  rw [Finset.sum_const, Finset.card_univ, nsmul_eq_mul]
  field_simp [card_pos (ι := ι).ne']

theorem avgPerm_right (f : Perm ι → ℝ) (τ : Perm ι) : avgPerm (fun σ => f (σ * τ)) = avgPerm f := by
  unfold avgPerm
  congr 1
  exact Fintype.sum_bijective (fun σ => σ * τ) (Group.mulRight_bijective τ) _ _ fun _ => rfl

/-- Values that agree off `A` and have a known sum. -/
theorem value_off (A : Finset ι) (f : ι → ℝ) {s : ℝ} (hs : ∑ l, f l = s) {l : ι} (h : ∀ m ∉ A, f m = f l) :
    ((Fintype.card ι : ℝ) - A.card) * f l = s - ∑ a ∈ A, f a := by
  have h1 : ∑ a ∈ A, f a + ∑ m ∈ Aᶜ, f m = s := by rw [Finset.sum_add_sum_compl, hs]
  have h2 : ∑ m ∈ Aᶜ, f m = ((Fintype.card ι : ℝ) - A.card) * f l := by
    rw [Finset.sum_congr rfl fun m hm => h m (Finset.mem_compl.1 hm), Finset.sum_const, nsmul_eq_mul, Finset.card_compl,
      Nat.cast_sub (Finset.card_le_univ A)]
  linarith

/-- The average of `g (y at the positions of A) * h (y at l)` does not depend on `l` outside `A`. -/
theorem swap_off (A : Finset ι) (G : (ι → ℝ) → ℝ) (hG : ∀ u v : ι → ℝ, (∀ a ∈ A, u a = v a) → G u = G v) (h : ℝ → ℝ) (y : ι → ℝ) {l m : ι} (hl : l ∉ A)
    (hm : m ∉ A) : avgPerm (fun σ => G (fun a => y (σ a)) * h (y (σ m))) = avgPerm fun σ => G (fun a => y (σ a)) * h (y (σ l)) := by
  rw [← avgPerm_right (fun σ => G (fun a => y (σ a)) * h (y (σ m))) (swap l m)]
  congr 1
  funext σ
  congr 1
  · apply hG
    intro a ha
    rw [Perm.mul_apply, swap_apply_of_ne_of_ne]
    · rintro rfl; exact hl ha
    · rintro rfl; exact hm ha
  · rw [Perm.mul_apply, swap_apply_right]

omit [DecidableEq ι] in
theorem sum_comp (f : ι → ℝ) (σ : Perm ι) : ∑ l, f (σ l) = ∑ l, f l := Equiv.sum_comp σ f

theorem avgPerm_add (f h : Perm ι → ℝ) : avgPerm (fun σ => f σ + h σ) = avgPerm f + avgPerm h := by
  unfold avgPerm
  rw [Finset.sum_add_distrib, add_div]

theorem avgPerm_variance (f : Perm ι → ℝ) {m : ℝ} (hm : avgPerm f = m) : avgPerm (fun σ => (f σ - m) ^ 2) = avgPerm (fun σ => f σ ^ 2) - m ^ 2 := by
  have e1 : (fun σ => (f σ - m) ^ 2) = fun σ => (f σ ^ 2 + (-2 * m) * f σ) + m ^ 2 := by funext σ; ring
  rw [e1, avgPerm_add, avgPerm_add, avgPerm_mul, avgPerm_const, hm]; ring

/-- General step. -/
theorem step (A : Finset ι) (G : (ι → ℝ) → ℝ) (hG : ∀ u v : ι → ℝ, (∀ a ∈ A, u a = v a) → G u = G v) (h : ℝ → ℝ) (y : ι → ℝ) {l : ι} (hl : l ∉ A) :
    ((Fintype.card ι : ℝ) - A.card) * avgPerm (fun σ => G (fun a => y (σ a)) * h (y (σ l))) =
      (∑ k, h (y k)) * avgPerm (fun σ => G fun a => y (σ a)) - ∑ a ∈ A, avgPerm fun σ => G (fun a => y (σ a)) * h (y (σ a)) := by
  apply value_off A (fun l => avgPerm fun σ => G (fun a => y (σ a)) * h (y (σ l))) ?_
  · intro m hm
    exact swap_off A G hG h y hl hm
  · rw [← avgPerm_sum, ← avgPerm_mul]
    congr 1
    funext σ
    rw [← Finset.mul_sum, sum_comp (fun k => h (y k)) σ, mul_comm]

variable (y : ι → ℝ)

theorem avg_one (h : ℝ → ℝ) (i : ι) : (Fintype.card ι : ℝ) * avgPerm (fun σ => h (y (σ i))) = ∑ k, h (y k) := by
  have := step ∅ (fun _ => 1) (fun _ _ _ => rfl) h y (l := i) (Finset.notMem_empty _)
  simpa [avgPerm_const] using this

/-- `∑ y²` and `∑ y⁴`. -/
def sumSq : ℝ := ∑ k, y k ^ 2
def quart : ℝ := ∑ k, y k ^ 4

variable (hy : ∑ k, y k = 0)
include hy

theorem avg_two {i j : ι} (hij : i ≠ j) :
    (Fintype.card ι : ℝ) * ((Fintype.card ι : ℝ) - 1) * avgPerm (fun σ => y (σ i) * y (σ j)) = -sumSq y := by
  have h1 := step {i} (fun u => u i) (fun u v h => h i (by simp)) id y (l := j) (by simpa using hij.symm)
  simp only [Finset.card_singleton, Nat.cast_one, id, hy, zero_mul, Finset.sum_singleton, zero_sub] at h1
  have h2 := avg_one y (fun x => x * x) i
  rw [mul_assoc, h1, mul_neg, h2]
  unfold sumSq
  congr 1
  exact Finset.sum_congr rfl fun k _ => by ring

omit hy in
theorem avg_sq_sq {i j : ι} (hij : i ≠ j) :
    (Fintype.card ι : ℝ) * ((Fintype.card ι : ℝ) - 1) * avgPerm (fun σ => y (σ i) ^ 2 * y (σ j) ^ 2) = sumSq y ^ 2 - quart y := by
  have h1 := step {i} (fun u => u i ^ 2) (fun u v h => by simp only [h i (by simp)]) (fun x => x ^ 2) y (l := j) (by simpa using hij.symm)
  simp only [Finset.card_singleton, Nat.cast_one, Finset.sum_singleton] at h1
  have h2 := avg_one y (fun x => x ^ 2) i
  have h3 := avg_one y (fun x => x ^ 2 * x ^ 2) i
  have h4 : ∑ k, y k ^ 2 * y k ^ 2 = quart y := Finset.sum_congr rfl fun k _ => by ring
  rw [mul_assoc, h1, mul_sub, h3, h4]
  have h5 : (∑ k, y k ^ 2) = sumSq y := rfl
  rw [h5] at h2 ⊢
  rw [← h2]; ring

theorem avg_cube {i j : ι} (hij : i ≠ j) :
    (Fintype.card ι : ℝ) * ((Fintype.card ι : ℝ) - 1) * avgPerm (fun σ => y (σ i) ^ 3 * y (σ j)) = - quart y := by
  have h1 := step {i} (fun u => u i ^ 3) (fun u v h => by simp only [h i (by simp)]) id y (l := j) (by simpa using hij.symm)
  simp only [Finset.card_singleton, Nat.cast_one, Finset.sum_singleton, id, hy, zero_mul, zero_sub] at h1
  have h3 := avg_one y (fun x => x ^ 3 * x) i
  have h4 : ∑ k, y k ^ 3 * y k = quart y := Finset.sum_congr rfl fun k _ => by ring
  rw [mul_assoc, h1, mul_neg, h3, h4]

theorem avg_sq_one_one {i j k : ι} (hij : i ≠ j) (hik : i ≠ k) (hjk : j ≠ k) :
    (Fintype.card ι : ℝ) * ((Fintype.card ι : ℝ) - 1) * ((Fintype.card ι : ℝ) - 2) * avgPerm (fun σ => y (σ i) ^ 2 * y (σ j) * y (σ k)) = 2 * quart y - sumSq y ^ 2 := by
  have h1 := step {i, j} (fun u => u i ^ 2 * u j) (fun u v h => by simp only [h i (by simp), h j (by simp)]) id y (l := k)
    (by simp only [Finset.mem_insert, Finset.mem_singleton]; rintro (h | h); exacts [hik h.symm, hjk h.symm])
  rw [Finset.card_pair hij, Finset.sum_pair hij] at h1
  simp only [Nat.cast_ofNat, id, hy, zero_mul, zero_sub] at h1
  have h2 := avg_cube y hy hij
  have h3 := avg_sq_sq y hij
  have e2 : (fun σ : Perm ι => y (σ i) ^ 2 * y (σ j) * y (σ i)) = fun σ => y (σ i) ^ 3 * y (σ j) := by funext σ; ring
  have e3 : (fun σ : Perm ι => y (σ i) ^ 2 * y (σ j) * y (σ j)) = fun σ => y (σ i) ^ 2 * y (σ j) ^ 2 := by funext σ; ring
  rw [e2, e3] at h1
  rw [mul_assoc, h1, mul_neg, mul_add, h2, h3]; ring

theorem avg_four {i j k l : ι} (hij : i ≠ j) (hik : i ≠ k) (hil : i ≠ l) (hjk : j ≠ k) (hjl : j ≠ l) (hkl : k ≠ l) :
    (Fintype.card ι : ℝ) * ((Fintype.card ι : ℝ) - 1) * ((Fintype.card ι : ℝ) - 2) * ((Fintype.card ι : ℝ) - 3) *
      avgPerm (fun σ => y (σ i) * y (σ j) * y (σ k) * y (σ l)) = 3 * sumSq y ^ 2 - 6 * quart y := by
  have h1 := step {i, j, k} (fun u => u i * u j * u k) (fun u v h => by simp only [h i (by simp), h j (by simp), h k (by simp)]) id y (l := l)
    (by simp only [Finset.mem_insert, Finset.mem_singleton]; rintro (h | h | h); exacts [hil h.symm, hjl h.symm, hkl h.symm])
  have hc : ({i, j, k} : Finset ι).card = 3 := by
    rw [Finset.card_eq_three]; exact ⟨i, j, k, hij, hik, hjk, rfl⟩
  rw [hc, Finset.sum_insert (by simp [hij, hik]), Finset.sum_pair hjk] at h1
  simp only [Nat.cast_ofNat, id, hy, zero_mul, zero_sub] at h1
  have e1 : (fun σ : Perm ι => y (σ i) * y (σ j) * y (σ k) * y (σ i)) = fun σ => y (σ i) ^ 2 * y (σ j) * y (σ k) := by funext σ; ring
  have e2 : (fun σ : Perm ι => y (σ i) * y (σ j) * y (σ k) * y (σ j)) = fun σ => y (σ j) ^ 2 * y (σ i) * y (σ k) := by funext σ; ring
  have e3 : (fun σ : Perm ι => y (σ i) * y (σ j) * y (σ k) * y (σ k)) = fun σ => y (σ k) ^ 2 * y (σ i) * y (σ j) := by funext σ; ring
  rw [e1, e2, e3] at h1
  have g1 := avg_sq_one_one y hy hij hik hjk
  have g2 := avg_sq_one_one y hy hij.symm hjk hik
  have g3 := avg_sq_one_one y hy hik.symm hjk.symm hij
  rw [mul_assoc, h1, mul_neg, mul_add, mul_add, g1, g2, g3]; ring

/-! ### sums over pairs -/

/-- Two pairs share a position. -/
def Share (p q : ι × ι) : Prop := p.1 = q.1 ∨ p.1 = q.2 ∨ p.2 = q.1 ∨ p.2 = q.2

omit [Fintype ι] in
instance : DecidableRel (Share (ι := ι)) := fun p q => by unfold Share; infer_instance

/-- The sum of products of neighbours. -/
def pairProd (E : Finset (ι × ι)) (σ : Perm ι) : ℝ := ∑ p ∈ E, y (σ p.1) * y (σ p.2)

theorem avg_pairProd (E : Finset (ι × ι)) (hE : ∀ p ∈ E, p.1 ≠ p.2) :
    (Fintype.card ι : ℝ) * ((Fintype.card ι : ℝ) - 1) * avgPerm (pairProd y E) = -(E.card * sumSq y) := by
  unfold pairProd
  rw [avgPerm_sum, Finset.mul_sum, Finset.sum_congr rfl fun p hp => avg_two y hy (hE p hp), Finset.sum_const, nsmul_eq_mul]
  ring

/-- The number of ordered pairs of different pairs that share a position. -/
def touching (E : Finset (ι × ι)) : ℕ := ((E ×ˢ E).filter fun z => z.1 ≠ z.2 ∧ Share z.1 z.2).card

/-- The number of ordered pairs of pairs without a common position. -/
def apart (E : Finset (ι × ι)) : ℕ := ((E ×ˢ E).filter fun z => ¬ Share z.1 z.2).card

omit hy [Fintype ι] in
theorem card_diag (E : Finset (ι × ι)) : ((E ×ˢ E).filter fun z => Share z.1 z.2 ∧ z.1 = z.2).card = E.card := by
  have : (E ×ˢ E).filter (fun z => Share z.1 z.2 ∧ z.1 = z.2) = E.image fun p => (p, p) := by
    ext ⟨p, q⟩
    simp only [Finset.mem_filter, Finset.mem_product, Finset.mem_image, Prod.mk.injEq]
    constructor
    · rintro ⟨⟨hp, -⟩, -, rfl⟩; exact ⟨p, hp, rfl, rfl⟩
    · rintro ⟨r, hr, rfl, rfl⟩; exact ⟨⟨hr, hr⟩, Or.inl rfl, rfl⟩
  rw [this, Finset.card_image_of_injective]
  intro p q h
  exact (Prod.mk.inj h).1

omit hy [Fintype ι] in
theorem count_pairs (E : Finset (ι × ι)) : E.card * E.card = E.card + touching E + apart E := by
  rw [← Finset.card_product]
  have h1 := Finset.card_filter_add_card_filter_not (s := E ×ˢ E) (fun z => Share z.1 z.2)
  have h2 := Finset.card_filter_add_card_filter_not (s := (E ×ˢ E).filter fun z => Share z.1 z.2) (fun z => z.1 = z.2)
  rw [Finset.filter_filter, Finset.filter_filter] at h2
  have h3 := card_diag E
  have h4 : ((E ×ˢ E).filter fun z => Share z.1 z.2 ∧ ¬ z.1 = z.2).card = touching E := by
    unfold touching; congr 1; ext z; simp only [Finset.mem_filter]; tauto
  rw [h3, h4] at h2
  unfold apart
  omega

theorem avg_pairProd_sq (E : Finset (ι × ι)) (hE : ∀ p ∈ E, p.1 ≠ p.2) (hE2 : ∀ p ∈ E, (p.2, p.1) ∉ E) :
    avgPerm (fun σ => pairProd y E σ ^ 2) =
      E.card * ((sumSq y ^ 2 - quart y) / ((Fintype.card ι : ℝ) * ((Fintype.card ι : ℝ) - 1))) +
      touching E * ((2 * quart y - sumSq y ^ 2) / ((Fintype.card ι : ℝ) * ((Fintype.card ι : ℝ) - 1) * ((Fintype.card ι : ℝ) - 2))) +
      apart E * ((3 * sumSq y ^ 2 - 6 * quart y) / ((Fintype.card ι : ℝ) * ((Fintype.card ι : ℝ) - 1) * ((Fintype.card ι : ℝ) - 2) * ((Fintype.card ι : ℝ) - 3))) := by
  set n : ℝ := (Fintype.card ι : ℝ) with hn
  have hcard : ∀ s : Finset ι, (s.card : ℝ) ≤ n := fun s => by rw [hn]; exact_mod_cast Finset.card_le_univ s
  set a := (sumSq y ^ 2 - quart y) / (n * (n - 1)) with ha
  set b := (2 * quart y - sumSq y ^ 2) / (n * (n - 1) * (n - 2)) with hb
  set c := (3 * sumSq y ^ 2 - 6 * quart y) / (n * (n - 1) * (n - 2) * (n - 3)) with hc
  have two : ∀ {i j : ι}, i ≠ j → avgPerm (fun σ => y (σ i) ^ 2 * y (σ j) ^ 2) = a := by
    intro i j hij
    have h2 : (2 : ℝ) ≤ n := by have := hcard {i, j}; rw [Finset.card_pair hij] at this; exact_mod_cast this
    have := avg_sq_sq y hij
    rw [← hn] at this
    rw [ha, eq_div_iff (by have : (0 : ℝ) < n * (n - 1) := by apply mul_pos <;> linarith
                           exact this.ne'), ← this]; ring
  have three : ∀ {i j k : ι}, i ≠ j → i ≠ k → j ≠ k → avgPerm (fun σ => y (σ i) ^ 2 * y (σ j) * y (σ k)) = b := by
    intro i j k hij hik hjk
    have h2 : (3 : ℝ) ≤ n := by
      have := hcard {i, j, k}
      rw [Finset.card_eq_three.2 ⟨i, j, k, hij, hik, hjk, rfl⟩] at this; exact_mod_cast this
    have := avg_sq_one_one y hy hij hik hjk
    rw [← hn] at this
    rw [hb, eq_div_iff (by have : (0 : ℝ) < n * (n - 1) * (n - 2) := by apply mul_pos; apply mul_pos; all_goals linarith
                           exact this.ne'), ← this]; ring
  have four : ∀ {i j k l : ι}, i ≠ j → i ≠ k → i ≠ l → j ≠ k → j ≠ l → k ≠ l → avgPerm (fun σ => y (σ i) * y (σ j) * y (σ k) * y (σ l)) = c := by
    intro i j k l hij hik hil hjk hjl hkl
    have h2 : (4 : ℝ) ≤ n := by
      have := hcard {i, j, k, l}
      have h4 : ({i, j, k, l} : Finset ι).card = 4 := by
        rw [Finset.card_insert_of_notMem (by simp [hij, hik, hil]), Finset.card_eq_three.2 ⟨j, k, l, hjk, hjl, hkl, rfl⟩]
      rw [h4] at this; exact_mod_cast this
    have := avg_four y hy hij hik hil hjk hjl hkl
    rw [← hn] at this
    rw [hc, eq_div_iff (by have : (0 : ℝ) < n * (n - 1) * (n - 2) * (n - 3) := by apply mul_pos; apply mul_pos; apply mul_pos; all_goals linarith
                           exact this.ne'), ← this]; ring
  have key : ∀ z ∈ E ×ˢ E, avgPerm (fun σ => y (σ z.1.1) * y (σ z.1.2) * (y (σ z.2.1) * y (σ z.2.2))) =
      (if Share z.1 z.2 ∧ z.1 = z.2 then a else 0) + (if z.1 ≠ z.2 ∧ Share z.1 z.2 then b else 0) + (if ¬ Share z.1 z.2 then c else 0) := by
    rintro ⟨⟨i, j⟩, ⟨k, l⟩⟩ hz
    rw [Finset.mem_product] at hz
    obtain ⟨hp, hq⟩ := hz
    have hij : i ≠ j := hE _ hp
    have hkl : k ≠ l := hE _ hq
    dsimp only
    by_cases hs : Share (i, j) (k, l)
    · by_cases he : ((i, j) : ι × ι) = (k, l)
      · rw [if_pos ⟨hs, he⟩, if_neg (fun h => h.1 he), if_neg (not_not.2 hs), add_zero, add_zero]
        obtain ⟨rfl, rfl⟩ := Prod.mk.inj he
        rw [← two hij]; congr 1; funext σ; ring
      · rw [if_neg (fun h => he h.2), if_pos ⟨he, hs⟩, if_neg (not_not.2 hs), add_zero, zero_add]
        have hr : ¬ (i = l ∧ j = k) := by
          rintro ⟨rfl, rfl⟩; exact hE2 _ hp hq
        have hnk : ¬ (i = k ∧ j = l) := fun h => he (by rw [h.1, h.2])
        rcases hs with h | h | h | h <;> dsimp only at h <;> subst h
        · rw [← three hij hkl (fun h => hnk ⟨rfl, h⟩)]; congr 1; funext σ; ring
        · rw [← three (i := i) (j := j) (k := k) hij hkl.symm (fun h => hr ⟨rfl, h⟩)]; congr 1; funext σ; ring
        · rw [← three (i := j) (j := i) (k := l) hij.symm hkl (fun h => hr ⟨h, rfl⟩)]; congr 1; funext σ; ring
        · rw [← three (i := j) (j := i) (k := k) hij.symm hkl.symm (fun h => hnk ⟨h, rfl⟩)]; congr 1; funext σ; ring
    · rw [if_neg (fun h => hs h.1), if_neg (fun h => hs h.2), if_pos hs, add_zero, zero_add]
      unfold Share at hs
      dsimp only at hs
      push Not at hs
      rw [← four hij hs.1 hs.2.1 hs.2.2.1 hs.2.2.2 hkl]; congr 1; funext σ; ring
  have e1 : avgPerm (fun σ => pairProd y E σ ^ 2) = ∑ z ∈ E ×ˢ E, avgPerm (fun σ => y (σ z.1.1) * y (σ z.1.2) * (y (σ z.2.1) * y (σ z.2.2))) := by
    rw [← avgPerm_sum]
    congr 1
    funext σ
    unfold pairProd
    rw [pow_two, Finset.sum_mul_sum, Finset.sum_product]
  rw [e1, Finset.sum_congr rfl key, Finset.sum_add_distrib, Finset.sum_add_distrib, ← Finset.sum_filter, ← Finset.sum_filter, ← Finset.sum_filter,
    Finset.sum_const, Finset.sum_const, Finset.sum_const, nsmul_eq_mul, nsmul_eq_mul, nsmul_eq_mul]
  rw [card_diag]
  rfl

end
end SeismoStats.Permute
