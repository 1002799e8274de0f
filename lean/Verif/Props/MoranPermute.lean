/-
Property C100: Moran's I over all arrangements of the values.
-/
import Verif.Props.Moran
import Verif.Proofs.Permute
import Mathlib.Algebra.Order.Chebyshev

namespace SeismoStats.Props
open SeismoStats SeismoStats.BSignificant SeismoStats.Permute
open scoped BigOperators
open Equiv
open Classical
noncomputable section

/-! ## Specification -/

/-- The places of the numbers in a list of numbers and NaN. -/
abbrev Place (l : List (Option ℝ)) : Type := {i : Fin l.length // (l[i]).isSome}

/-- The number at a place. -/
def atPlace (l : List (Option ℝ)) (v : Place l) : ℝ := (l[v.1]).get v.2

/-- The list with its numbers rearranged; NaN stay where they are. -/
def arrangedBy (l : List (Option ℝ)) (σ : Perm (Place l)) : List (Option ℝ) :=
  List.ofFn fun i : Fin l.length => if h : (l[i]).isSome then some (atPlace l (σ ⟨i, h⟩)) else none

/-- The fourth moment of the deviations relative to the square of the second: `Σ(x-m)⁴ / (Σ(x-m)²)²`. -/
def quartRatio (l : List (Option ℝ)) : ℝ :=
  ((l.filterMap id).map fun v => (v - meanSpec l none) ^ 4).sum / sqDev l (meanSpec l none) ^ 2

/-! ## Sums -/

theorem sum_numbers (l : List (Option ℝ)) (g : ℝ → ℝ) : ((l.filterMap id).map g).sum = ∑ i : Fin l.length, (l[i]).elim 0 g := by
  induction l with
  | nil => simp
  | cons o l ih =>
    rw [show (∑ i : Fin (o :: l).length, ((o :: l)[i]).elim 0 g) = ∑ i : Fin (l.length + 1), ((o :: l)[i]).elim 0 g from rfl, Fin.sum_univ_succ]
    have e : ∑ i : Fin l.length, ((o :: l)[i.succ]).elim 0 g = ((l.filterMap id).map g).sum := by rw [ih]; rfl
    rw [e]
    cases o <;> simp

theorem sum_places (l : List (Option ℝ)) (f : Place l → ℝ) : (∑ i : Fin l.length, if h : (l[i]).isSome then f ⟨i, h⟩ else 0) = ∑ v, f v := by
  set F : Fin l.length → ℝ := fun i => if h : (l[i]).isSome then f ⟨i, h⟩ else 0 with hF
  have e1 : ∑ v, f v = ∑ v : Place l, F v.1 := by
    apply Finset.sum_congr rfl
    rintro ⟨i, h⟩ _
    rw [hF]; simp only [dif_pos h]
  rw [e1, ← Finset.sum_subtype (Finset.univ.filter fun i : Fin l.length => (l[i]).isSome = true) (fun i => by simp) F]
  symm
  apply Finset.sum_filter_of_ne
  intro i _ hi
  by_contra h
  exact hi (by rw [hF]; simp only [dif_neg h])

theorem elim_place (l : List (Option ℝ)) (g : ℝ → ℝ) (i : Fin l.length) : (l[i]).elim 0 g = if h : (l[i]).isSome then g (atPlace l ⟨i, h⟩) else 0 := by
  unfold atPlace
  dsimp only
  by_cases h : (l[i]).isSome
  · rw [dif_pos h]
    obtain ⟨v, hv⟩ := Option.isSome_iff_exists.1 h
    simp only [hv, Option.elim_some, Option.get_some]
  · rw [dif_neg h]
    rw [Bool.not_eq_true, Option.isSome_eq_false_iff, Option.isNone_iff_eq_none] at h
    rw [h]; rfl

theorem sum_numbers_places (l : List (Option ℝ)) (g : ℝ → ℝ) : ((l.filterMap id).map g).sum = ∑ v, g (atPlace l v) := by
  rw [sum_numbers, ← sum_places]
  exact Finset.sum_congr rfl fun i _ => elim_place l g i

theorem arrangedBy_length (l : List (Option ℝ)) (σ : Perm (Place l)) : (arrangedBy l σ).length = l.length := by simp [arrangedBy]

theorem arrangedBy_get (l : List (Option ℝ)) (σ : Perm (Place l)) (i : ℕ) (hi : i < l.length) :
    (arrangedBy l σ)[i]? = some (if h : (l[i]).isSome then some (atPlace l (σ ⟨⟨i, hi⟩, h⟩)) else none) := by
  unfold arrangedBy
  rw [List.getElem?_ofFn, dif_pos hi]
  rfl

theorem sum_rearrange (l : List (Option ℝ)) (σ : Perm (Place l)) (g : ℝ → ℝ) : (((arrangedBy l σ).filterMap id).map g).sum = ((l.filterMap id).map g).sum := by
  have e : ∀ k : List (Option ℝ), ((k.filterMap id).map g).sum = (k.map fun o => o.elim 0 g).sum := by
    intro k
    induction k with
    | nil => rfl
    | cons o k ih =>
      cases o
      · rw [List.filterMap_cons_none rfl, List.map_cons, List.sum_cons, ih]; simp
      · rw [List.filterMap_cons_some (f := id) rfl, List.map_cons, List.sum_cons, List.map_cons, List.sum_cons, ih]; rfl
  rw [e, sum_numbers_places]
  unfold arrangedBy
  rw [List.map_ofFn, List.sum_ofFn, ← Equiv.sum_comp σ fun v => g (atPlace l v), ← sum_places]
  apply Finset.sum_congr rfl
  intro i _
  dsimp only [Function.comp]
  by_cases h : (l[i]).isSome
  · rw [dif_pos h, dif_pos h]; rfl
  · rw [dif_neg h, dif_neg h]; rfl

theorem count_rearrange (l : List (Option ℝ)) (σ : Perm (Place l)) : ((arrangedBy l σ).filterMap id).length = (l.filterMap id).length := by
  have := sum_rearrange l σ fun _ => 1
  simpa using this

theorem sum_rearrange_id (l : List (Option ℝ)) (σ : Perm (Place l)) : ((arrangedBy l σ).filterMap id).sum = (l.filterMap id).sum := by
  have := sum_rearrange l σ id
  rwa [List.map_id, List.map_id] at this

theorem mean_rearrange (l : List (Option ℝ)) (σ : Perm (Place l)) (mean : Option ℝ) : meanSpec (arrangedBy l σ) mean = meanSpec l mean := by
  unfold meanSpec
  rw [sum_rearrange_id, count_rearrange]

theorem sqDev_rearrange (l : List (Option ℝ)) (σ : Perm (Place l)) (mu : ℝ) : sqDev (arrangedBy l σ) mu = sqDev l mu := sum_rearrange l σ _

theorem hasNum_rearrange (l : List (Option ℝ)) (σ : Perm (Place l)) (i : ℕ) : hasNum (arrangedBy l σ) i ↔ hasNum l i := by
  unfold hasNum
  by_cases hi : i < l.length
  · rw [arrangedBy_get l σ i hi, List.getElem?_eq_getElem hi]
    by_cases h : (l[i]).isSome
    · rw [dif_pos h]
      obtain ⟨v, hv⟩ := Option.isSome_iff_exists.1 h
      simp [hv]
    · rw [dif_neg h]
      rw [Bool.not_eq_true, Option.isSome_eq_false_iff, Option.isNone_iff_eq_none] at h
      simp [h]
  · rw [List.getElem?_eq_none (by rw [arrangedBy_length]; omega), List.getElem?_eq_none (by omega)]

theorem pairs_rearrange (l : List (Option ℝ)) (σ : Perm (Place l)) (w : Option Mat) : neighbourPairs (arrangedBy l σ) w = neighbourPairs l w := by
  unfold neighbourPairs
  rw [arrangedBy_length]
  ext p
  simp only [Finset.mem_filter, hasNum_rearrange]

/-! ## The pairs as pairs of places -/

/-- Position in the list. -/
def placeIdx (l : List (Option ℝ)) : Place l ↪ ℕ := ⟨fun v => v.1.1, fun _ _ h => Subtype.ext (Fin.ext h)⟩

def placePairs (l : List (Option ℝ)) (w : Option Mat) : Finset (Place l × Place l) :=
  Finset.univ.filter fun p => p.1.1.1 < p.2.1.1 ∧ Neighbour w p.1.1.1 p.2.1.1

theorem hasNum_place (l : List (Option ℝ)) (v : Place l) : hasNum l v.1.1 := by
  obtain ⟨x, hx⟩ := Option.isSome_iff_exists.1 v.2
  exact ⟨x, by rw [List.getElem?_eq_getElem v.1.2]; exact congrArg some hx⟩

theorem place_of_hasNum {l : List (Option ℝ)} {i : ℕ} (h : hasNum l i) : ∃ v : Place l, v.1.1 = i := by
  obtain ⟨x, hx⟩ := h
  obtain ⟨hi, he⟩ := List.getElem?_eq_some_iff.1 hx
  exact ⟨⟨⟨i, hi⟩, by simp [he]⟩, rfl⟩

theorem map_pairs (l : List (Option ℝ)) (w : Option Mat) : (placePairs l w).map ((placeIdx l).prodMap (placeIdx l)) = neighbourPairs l w := by
  ext ⟨i, j⟩
  rw [Finset.mem_map]
  unfold placePairs neighbourPairs
  constructor
  · rintro ⟨⟨u, v⟩, h, he⟩
    rw [Finset.mem_filter] at h
    obtain ⟨rfl, rfl⟩ := Prod.mk.inj he
    rw [Finset.mem_filter, Finset.mem_product, Finset.mem_range, Finset.mem_range]
    exact ⟨⟨u.1.2, v.1.2⟩, h.2.1, h.2.2, hasNum_place l u, hasNum_place l v⟩
  · intro h
    rw [Finset.mem_filter] at h
    obtain ⟨-, h1, h2, h3, h4⟩ := h
    obtain ⟨u, hu⟩ := place_of_hasNum h3
    obtain ⟨v, hv⟩ := place_of_hasNum h4
    refine ⟨(u, v), ?_, by simp only [Function.Embedding.prodMap]; exact Prod.ext hu hv⟩
    rw [Finset.mem_filter]
    dsimp only at h1 h2
    rw [hu, hv]
    exact ⟨Finset.mem_univ _, h1, h2⟩

theorem card_pairs (l : List (Option ℝ)) (w : Option Mat) : (placePairs l w).card = (neighbourPairs l w).card := by
  rw [← map_pairs, Finset.card_map]

theorem share_map {l : List (Option ℝ)} (p q : Place l × Place l) :
    Share (((placeIdx l).prodMap (placeIdx l)) p) (((placeIdx l).prodMap (placeIdx l)) q) ↔ Share p q := by
  unfold Share
  simp only [Function.Embedding.prodMap, Function.Embedding.coeFn_mk, Prod.map_fst, Prod.map_snd]
  simp only [(placeIdx l).injective.eq_iff]

theorem product_map {α β : Type} (e : α ↪ β) (s : Finset α) : s.map e ×ˢ s.map e = (s ×ˢ s).map (e.prodMap e) := by
  ext ⟨a, b⟩
  simp only [Finset.mem_product, Finset.mem_map, Prod.exists]
  constructor
  · rintro ⟨⟨u, hu, rfl⟩, ⟨v, hv, rfl⟩⟩; exact ⟨u, v, ⟨hu, hv⟩, rfl⟩
  · rintro ⟨u, v, ⟨hu, hv⟩, h⟩
    obtain ⟨rfl, rfl⟩ := Prod.mk.inj h
    exact ⟨⟨u, hu, rfl⟩, ⟨v, hv, rfl⟩⟩

theorem touching_pairs (l : List (Option ℝ)) (w : Option Mat) : touching (placePairs l w) = touching (neighbourPairs l w) := by
  rw [← map_pairs]
  unfold touching
  set e := (placeIdx l).prodMap (placeIdx l) with he
  rw [product_map, Finset.filter_map, Finset.card_map]
  congr 1
  apply Finset.filter_congr
  rintro ⟨p, q⟩ _
  change _ ↔ e p ≠ e q ∧ Share (e p) (e q)
  rw [he, share_map, ← he, e.injective.ne_iff]

theorem apart_pairs (l : List (Option ℝ)) (w : Option Mat) : apart (placePairs l w) = apart (neighbourPairs l w) := by
  rw [← map_pairs]
  unfold apart
  set e := (placeIdx l).prodMap (placeIdx l) with he
  rw [product_map, Finset.filter_map, Finset.card_map]
  congr 1
  apply Finset.filter_congr
  rintro ⟨p, q⟩ _
  change _ ↔ ¬ Share (e p) (e q)
  rw [he, share_map]

theorem numAt_rearrange (l : List (Option ℝ)) (σ : Perm (Place l)) (v : Place l) : numAt (arrangedBy l σ) (placeIdx l v) = atPlace l (σ v) := by
  unfold numAt
  change (List.getD _ v.1.1 none).getD 0 = _
  rw [List.getD_eq_getElem?_getD, arrangedBy_get l σ v.1.1 v.1.2, dif_pos (show (l[v.1.1]).isSome = true from v.2)]
  rfl

theorem card_place (l : List (Option ℝ)) : Fintype.card (Place l) = (l.filterMap id).length := by
  have := sum_numbers_places l fun _ => 1
  simp only [List.map_const', List.sum_replicate, Finset.sum_const, Finset.card_univ, nsmul_eq_mul, mul_one] at this
  exact_mod_cast this.symm

/-! ## C100 -/

/-- The variance of Moran's I over all arrangements of `n` numbers, from the number of pairs, of touching and of separate pairs of pairs, and the relative fourth moment. -/
def moranVariance (n np touch apart q : ℝ) : ℝ :=
  ((n - 1) / np) ^ 2 * (np * (1 - q) / (n * (n - 1)) + touch * (2 * q - 1) / (n * (n - 1) * (n - 2)) + apart * (3 - 6 * q) / (n * (n - 1) * (n - 2) * (n - 3))) - 1 / n ^ 2

/-- C100: over all arrangements of the numbers, with the NaN left in place, Moran's I is finite, it has the same counts, its average is `-1/n` for every accepted neighbour
matrix, and its variance is given by the counts and the fourth moment. -/
theorem C100_permutations {l : List (Option ℝ)} {w : Option Mat} (hw : GoodW l.length w) (hp : neighbourPairs l w ≠ ∅)
    (hne : ∃ u ∈ l.filterMap id, ∃ v ∈ l.filterMap id, u ≠ v) :
    ∃ ac : Perm (Place l) → ℝ,
      (∀ σ, morans (toFl (arrangedBy l σ)) w none = .ok ⟨.fin (ac σ), (l.filterMap id).length, (neighbourPairs l w).card⟩) ∧
      avgPerm ac = -1 / (l.filterMap id).length ∧
      avgPerm (fun σ => (ac σ - -1 / (l.filterMap id).length) ^ 2) =
        moranVariance (l.filterMap id).length (neighbourPairs l w).card (touching (neighbourPairs l w)) (apart (neighbourPairs l w)) (quartRatio l) := by
  set N := (l.filterMap id).length with hN
  set mu := meanSpec l none with hmu
  set y : Place l → ℝ := fun v => atPlace l v - mu with hy
  set E := placePairs l w with hE
  set np : ℝ := ((neighbourPairs l w).card : ℝ) with hnp
  have hcard : (Fintype.card (Place l) : ℝ) = N := by rw [card_place]
  have hsq : sqDev l mu = sumSq y := sum_numbers_places l fun v => (v - mu) ^ 2
  have hqu : ((l.filterMap id).map fun v => (v - mu) ^ 4).sum = quart y := sum_numbers_places l fun v => (v - mu) ^ 4
  have hN2 : 2 ≤ N := by
    obtain ⟨u, hu, v, hv, huv⟩ := hne
    by_contra h
    have : N = 0 ∨ N = 1 := by omega
    rcases this with h | h
    · rw [hN, List.length_eq_zero_iff] at h; rw [h] at hu; cases hu
    · rw [hN, List.length_eq_one_iff] at h
      obtain ⟨a, ha⟩ := h
      rw [ha, List.mem_singleton] at hu hv
      exact huv (hu.trans hv.symm)
  have hNr : (2 : ℝ) ≤ N := by exact_mod_cast hN2
  have hsum : ∑ v, y v = 0 := by
    have h1 := sum_numbers_places l fun v => v - mu
    rw [hy]
    rw [← h1]
    have h2 : ∀ k : List ℝ, (k.map fun v => v - mu).sum = k.sum - k.length * mu := by
      intro k
      induction k with
      | nil => simp
      | cons a k ih => simp [ih]; ring
    rw [h2, hmu]
    unfold meanSpec
    simp only [Option.getD_none]
    rw [← hN]
    field_simp
    ring
  have hpos : 0 < sumSq y := by
    obtain ⟨u, hu, v, hv, huv⟩ := hne
    rw [← hsq]
    unfold sqDev
    by_contra h
    have hge : 0 ≤ ((l.filterMap id).map fun v => (v - mu) ^ 2).sum :=
      List.sum_nonneg (by intro x hx; rw [List.mem_map] at hx; obtain ⟨v, -, rfl⟩ := hx; positivity)
    have h0 : ((l.filterMap id).map fun v => (v - mu) ^ 2).sum = 0 := le_antisymm (not_lt.1 h) hge
    have hz := sum_zero_of_nonneg _ (by intro x hx; rw [List.mem_map] at hx; obtain ⟨v, -, rfl⟩ := hx; positivity) h0
    have hu2 := hz _ (List.mem_map.2 ⟨u, hu, rfl⟩)
    have hv2 := hz _ (List.mem_map.2 ⟨v, hv, rfl⟩)
    have hu3 := pow_eq_zero_iff (two_ne_zero) |>.1 hu2
    have hv3 := pow_eq_zero_iff (two_ne_zero) |>.1 hv2
    exact huv (by linarith)
  have hnp0 : np ≠ 0 := by rw [hnp, Nat.cast_ne_zero]; exact fun h => hp (Finset.card_eq_zero.1 h)
  have hEcard : (E.card : ℝ) = np := by rw [hE, card_pairs]
  have hE1 : ∀ p ∈ E, p.1 ≠ p.2 := by
    intro p hp h
    have := (Finset.mem_filter.1 hp).2.1
    rw [h] at this
    exact lt_irrefl _ this
  have hE2 : ∀ p ∈ E, (p.2, p.1) ∉ E := by
    intro p hp h
    have h1 := (Finset.mem_filter.1 hp).2.1
    have h2 := (Finset.mem_filter.1 h).2.1
    exact lt_asymm h1 h2
  have hlen : 2 ≤ l.length := le_trans hN2 (by rw [hN]; exact List.length_filterMap_le _ _)
  refine ⟨fun σ => ((N : ℝ) - 1) / np / sumSq y * pairProd y E σ, ?_, ?_, ?_⟩
  · intro σ
    obtain ⟨ac, h1, h2⟩ := C39_formula (l := arrangedBy l σ) (w := w) none (by rw [arrangedBy_length]; exact hlen) (by rw [arrangedBy_length]; exact hw)
    rw [h1, count_rearrange, pairs_rearrange, h2, pairs_rearrange, mean_rearrange, sqDev_rearrange, count_rearrange, ← hmu, hsq, ← hN, ← hnp,
      if_neg (fun h => h.elim hp hpos.ne')]
    congr 3
    have e : ∑ p ∈ neighbourPairs l w, (numAt (arrangedBy l σ) p.1 - mu) * (numAt (arrangedBy l σ) p.2 - mu) = pairProd y E σ := by
      rw [← map_pairs, Finset.sum_map]
      unfold pairProd
      apply Finset.sum_congr rfl
      rintro ⟨u, v⟩ _
      change (numAt (arrangedBy l σ) (placeIdx l u) - mu) * (numAt (arrangedBy l σ) (placeIdx l v) - mu) = _
      rw [numAt_rearrange, numAt_rearrange]
    rw [e]; ring
  · rw [avgPerm_mul]
    have h := avg_pairProd y hsum E hE1
    rw [hcard, hEcard] at h
    have h1 : (N : ℝ) * (N - 1) ≠ 0 := by have : (0 : ℝ) < N * (N - 1) := by apply mul_pos <;> linarith
                                          exact this.ne'
    rw [show avgPerm (pairProd y E) = -(np * sumSq y) / (N * (N - 1)) by rw [eq_div_iff h1]; linarith]
    have h2 : (N : ℝ) - 1 ≠ 0 := by intro h; linarith
    field_simp [hpos.ne']
  · have hmean : avgPerm (fun σ => ((N : ℝ) - 1) / np / sumSq y * pairProd y E σ) = -1 / N := by
      rw [avgPerm_mul]
      have h := avg_pairProd y hsum E hE1
      rw [hcard, hEcard] at h
      have h1 : (N : ℝ) * (N - 1) ≠ 0 := by have : (0 : ℝ) < N * (N - 1) := by apply mul_pos <;> linarith
                                            exact this.ne'
      rw [show avgPerm (pairProd y E) = -(np * sumSq y) / (N * (N - 1)) by rw [eq_div_iff h1]; linarith]
      have h2 : (N : ℝ) - 1 ≠ 0 := by intro h; linarith
      field_simp [hpos.ne']
    rw [avgPerm_variance _ hmean]
    have e2 : (fun σ => (((N : ℝ) - 1) / np / sumSq y * pairProd y E σ) ^ 2) = fun σ => (((N : ℝ) - 1) / np / sumSq y) ^ 2 * pairProd y E σ ^ 2 := by
      funext σ; ring
    rw [e2, avgPerm_mul, avg_pairProd_sq y hsum E hE1 hE2, hcard, hEcard, hE, touching_pairs, apart_pairs]
    have hq : quartRatio l = quart y / sumSq y ^ 2 := by unfold quartRatio; rw [← hmu, hqu, hsq]
    unfold moranVariance
    rw [hq]
    have e3 : (((N : ℝ) - 1) / np / sumSq y) ^ 2 = (((N : ℝ) - 1) / np) ^ 2 * (1 / sumSq y ^ 2) := by rw [div_pow]; ring
    rw [e3, mul_assoc]
    have hs2 : sumSq y ^ 2 ≠ 0 := pow_ne_zero _ hpos.ne'
    have k : ∀ (x a b c d : ℝ), 1 / sumSq y ^ 2 * (x * ((a * sumSq y ^ 2 + b * quart y) / c)) = x * (a + b * (quart y / sumSq y ^ 2)) / c := by
      intro x a b c d
      by_cases hc : c = 0
      · simp [hc]
      · field_simp
    rw [mul_add (1 / sumSq y ^ 2), mul_add (1 / sumSq y ^ 2)]
    have k1 := k np 1 (-1) (N * (N - 1)) 0
    have k2 := k (touching (neighbourPairs l w)) (-1) 2 (N * (N - 1) * (N - 2)) 0
    have k3 := k (apart (neighbourPairs l w)) 3 (-6) (N * (N - 1) * (N - 2) * (N - 3)) 0
    rw [show sumSq y ^ 2 - quart y = 1 * sumSq y ^ 2 + -1 * quart y by ring, show 2 * quart y - sumSq y ^ 2 = -1 * sumSq y ^ 2 + 2 * quart y by ring,
      show 3 * sumSq y ^ 2 - 6 * quart y = 3 * sumSq y ^ 2 + -6 * quart y by ring, k1, k2, k3]
    ring

/-! ### The one-dimensional series -/

theorem chain_pairs (x : List ℝ) : neighbourPairs (x.map some) none = (Finset.range (x.length - 1)).image fun i => (i, i + 1) := by
  ext ⟨i, j⟩
  unfold neighbourPairs Neighbour
  simp only [Finset.mem_filter, Finset.mem_product, Finset.mem_range, Finset.mem_image, List.length_map, Prod.mk.injEq]
  constructor
  · rintro ⟨⟨h1, h2⟩, -, rfl, -⟩
    exact ⟨i, by omega, rfl, rfl⟩
  · rintro ⟨k, hk, rfl, rfl⟩
    refine ⟨⟨by omega, by omega⟩, by omega, rfl, ?_, ?_⟩
    · exact ⟨x[k]'(by omega), by simp [List.getElem?_eq_getElem (show k < x.length by omega)]⟩
    · exact ⟨x[k + 1]'(by omega), by simp [List.getElem?_eq_getElem (show k + 1 < x.length by omega)]⟩

theorem chain_inj : Function.Injective fun i : ℕ => ((i, i + 1) : ℕ × ℕ) := fun _ _ h => (Prod.mk.inj h).1

theorem chain_card (x : List ℝ) : (neighbourPairs (x.map some) none).card = x.length - 1 := by
  rw [chain_pairs, Finset.card_image_of_injective _ chain_inj, Finset.card_range]

theorem chain_touching (x : List ℝ) (hx : 2 ≤ x.length) : touching (neighbourPairs (x.map some) none) = 2 * (x.length - 2) := by
  rw [chain_pairs]
  unfold touching
  set m := x.length - 1 with hm
  have e : ((Finset.range m).image fun i => (i, i + 1)) ×ˢ ((Finset.range m).image fun i => (i, i + 1)) =
      (Finset.range m ×ˢ Finset.range m).image fun z : ℕ × ℕ => (((z.1, z.1 + 1), (z.2, z.2 + 1)) : (ℕ × ℕ) × (ℕ × ℕ)) := by
    ext ⟨⟨a, b⟩, ⟨c, d⟩⟩
    simp only [Finset.mem_product, Finset.mem_image, Finset.mem_range, Prod.mk.injEq, Prod.exists]
    constructor
    · rintro ⟨⟨i, hi, rfl, rfl⟩, ⟨j, hj, rfl, rfl⟩⟩; exact ⟨i, j, ⟨hi, hj⟩, ⟨rfl, rfl⟩, rfl, rfl⟩
    · rintro ⟨i, j, ⟨hi, hj⟩, ⟨rfl, rfl⟩, rfl, rfl⟩; exact ⟨⟨i, hi, rfl, rfl⟩, ⟨j, hj, rfl, rfl⟩⟩
  rw [e, Finset.filter_image, Finset.card_image_of_injective]
  swap
  · rintro ⟨a, b⟩ ⟨c, d⟩ h
    simp only [Prod.mk.injEq] at h ⊢
    exact ⟨h.1.1, h.2.1⟩
  have e2 : ((Finset.range m ×ˢ Finset.range m).filter fun z : ℕ × ℕ => ((z.1, z.1 + 1) : ℕ × ℕ) ≠ (z.2, z.2 + 1) ∧ Share ((z.1, z.1 + 1) : ℕ × ℕ) (z.2, z.2 + 1)) =
      (Finset.range (m - 1)).image (fun i => (i, i + 1)) ∪ (Finset.range (m - 1)).image (fun i => (i + 1, i)) := by
    ext ⟨a, b⟩
    unfold Share
    simp only [Finset.mem_filter, Finset.mem_product, Finset.mem_range, Finset.mem_union, Finset.mem_image, Prod.mk.injEq, ne_eq]
    constructor
    · rintro ⟨⟨h1, h2⟩, h3, h4⟩
      rcases Nat.lt_trichotomy a b with h | h | h
      · exact Or.inl ⟨a, by omega, rfl, by omega⟩
      · omega
      · exact Or.inr ⟨b, by omega, by omega, rfl⟩
    · rintro (⟨k, hk, rfl, rfl⟩ | ⟨k, hk, rfl, rfl⟩)
      · exact ⟨⟨by omega, by omega⟩, by omega, by omega⟩
      · exact ⟨⟨by omega, by omega⟩, by omega, by omega⟩
  rw [e2, Finset.card_union_of_disjoint, Finset.card_image_of_injective _ chain_inj, Finset.card_image_of_injective, Finset.card_range]
  · omega
  · intro a b h; exact (Prod.mk.inj h).2
  · rw [Finset.disjoint_left]
    rintro ⟨a, b⟩ h1 h2
    simp only [Finset.mem_image, Prod.mk.injEq, Finset.mem_range] at h1 h2
    obtain ⟨k, -, rfl, rfl⟩ := h1
    obtain ⟨j, -, h3, h4⟩ := h2
    omega

theorem chain_apart (x : List ℝ) (hx : 3 ≤ x.length) : apart (neighbourPairs (x.map some) none) = (x.length - 2) * (x.length - 3) := by
  have h := count_pairs (neighbourPairs (x.map some) none)
  rw [chain_card, chain_touching x (by omega)] at h
  obtain ⟨k, hk⟩ : ∃ k, x.length = k + 3 := ⟨x.length - 3, by omega⟩
  rw [hk] at h ⊢
  have e1 : k + 3 - 1 = k + 2 := by omega
  have e2 : k + 3 - 2 = k + 1 := by omega
  have e3 : k + 3 - 3 = k := by omega
  rw [e1, e2] at h
  rw [e2, e3]
  nlinarith [h]

theorem filterMap_some (x : List ℝ) : (x.map some).filterMap id = x := by
  rw [List.filterMap_map]; exact List.filterMap_some

/-- C100: for a one-dimensional series without NaN, the variance over all arrangements, and its bounds: the standard deviation never exceeds `1/sqrt(n_p)`. -/
theorem C100_series {x : List ℝ} (hx : 3 ≤ x.length) (hne : ∃ u ∈ x, ∃ v ∈ x, u ≠ v) :
    ∃ ac : Perm (Place (x.map some)) → ℝ,
      (∀ σ, morans (toFl (arrangedBy (x.map some) σ)) none none = .ok ⟨.fin (ac σ), x.length, (x.length - 1 : ℕ)⟩) ∧
      avgPerm ac = -1 / x.length ∧
      avgPerm (fun σ => (ac σ - -1 / x.length) ^ 2) =
        (x.length - (x.length + 1) * quartRatio (x.map some)) / (x.length * (x.length - 1)) - 1 / (x.length : ℝ) ^ 2 ∧
      avgPerm (fun σ => (ac σ - -1 / x.length) ^ 2) ≤ ((x.length : ℝ) - 2) / (x.length * (x.length - 1)) ∧
      Real.sqrt (avgPerm fun σ => (ac σ - -1 / x.length) ^ 2) ≤ 1 / Real.sqrt (x.length - 1) := by
  have hf := filterMap_some x
  have hnz : neighbourPairs (x.map some) none ≠ ∅ := by
    intro h
    have := chain_card x
    rw [h, Finset.card_empty] at this
    omega
  obtain ⟨ac, h1, h2, h3⟩ := C100_permutations (l := x.map some) (w := none) (by intro m hm; cases hm) hnz (by rw [hf]; exact hne)
  rw [hf, chain_card, chain_touching x (by omega), chain_apart x hx] at h3
  rw [hf] at h2
  simp only [hf, chain_card] at h1
  have hn : (3 : ℝ) ≤ x.length := by exact_mod_cast hx
  have c1 : ((x.length - 1 : ℕ) : ℝ) = x.length - 1 := by rw [Nat.cast_sub (by omega)]; simp
  have c2 : ((2 * (x.length - 2) : ℕ) : ℝ) = 2 * (x.length - 2) := by rw [Nat.cast_mul, Nat.cast_sub (by omega)]; simp
  have c3 : (((x.length - 2) * (x.length - 3) : ℕ) : ℝ) = (x.length - 2) * (x.length - 3) := by
    rw [Nat.cast_mul, Nat.cast_sub (by omega), Nat.cast_sub hx]; simp
  set n : ℝ := (x.length : ℝ) with hnd
  set q := quartRatio (x.map some) with hq
  have hv : avgPerm (fun σ => (ac σ - -1 / n) ^ 2) = (n - (n + 1) * q) / (n * (n - 1)) - 1 / n ^ 2 := by
    rw [h3, c1, c2, c3]
    unfold moranVariance
    have n0 : n ≠ 0 := by intro h; linarith
    have n1 : n - 1 ≠ 0 := by intro h; linarith
    have n2 : n - 2 ≠ 0 := by intro h; linarith
    by_cases n3 : n - 3 = 0
    · rw [n3]
      have h3n : n = 3 := by linarith
      have hl3 : x.length = 3 := by rw [hnd] at h3n; exact_mod_cast h3n
      have hq2 : q = 1 / 2 := by
        rw [hq]
        unfold quartRatio
        rw [hf]
        unfold sqDev
        rw [hf]
        have hmu : meanSpec (x.map some) none = x.sum / 3 := by
          unfold meanSpec; rw [hf, hl3]; simp
        rw [hmu]
        obtain ⟨a, b, c, rfl⟩ := List.length_eq_three.1 hl3
        simp only [List.map_cons, List.map_nil, List.sum_cons, List.sum_nil, add_zero]
        have hpos : 0 < (a - (a + (b + c)) / 3) ^ 2 + ((b - (a + (b + c)) / 3) ^ 2 + (c - (a + (b + c)) / 3) ^ 2) := by
          by_contra h
          have z1 := sq_nonneg (a - (a + (b + c)) / 3)
          have z2 := sq_nonneg (b - (a + (b + c)) / 3)
          have z3 := sq_nonneg (c - (a + (b + c)) / 3)
          have y1 := pow_eq_zero_iff two_ne_zero |>.1 (le_antisymm (by linarith) z1)
          have y2 := pow_eq_zero_iff two_ne_zero |>.1 (le_antisymm (by linarith) z2)
          have y3 := pow_eq_zero_iff two_ne_zero |>.1 (le_antisymm (by linarith) z3)
          obtain ⟨u, hu, v, hv, huv⟩ := hne
          simp only [List.mem_cons, List.not_mem_nil, or_false] at hu hv
          apply huv
          rcases hu with rfl | rfl | rfl <;> rcases hv with rfl | rfl | rfl <;> linarith
        rw [div_eq_div_iff (pow_ne_zero _ hpos.ne') two_ne_zero]
        ring
      rw [h3n, hq2]; norm_num
    · field_simp
      ring
  have hqn : 1 / n ≤ q := by
    rw [hq]
    unfold quartRatio
    rw [hf]
    set mu := meanSpec (x.map some) none with hmu
    have hS : sqDev (x.map some) mu = ∑ i : Fin x.length, (x[i] - mu) ^ 2 := by
      unfold sqDev; rw [hf, ← List.sum_ofFn]; congr 1; exact (List.ofFn_getElem_eq_map x _).symm
    have hQ : (x.map fun v => (v - mu) ^ 4).sum = ∑ i : Fin x.length, ((x[i] - mu) ^ 2) ^ 2 := by
      rw [← List.sum_ofFn]; congr 1
      rw [show (fun i : Fin x.length => ((x[i] - mu) ^ 2) ^ 2) = fun i : Fin x.length => (fun v => (v - mu) ^ 4) x[i] by funext i; ring]
      exact (List.ofFn_getElem_eq_map x _).symm
    have hcs := sq_sum_le_card_mul_sum_sq (s := (Finset.univ : Finset (Fin x.length))) (f := fun i => (x[i] - mu) ^ 2)
    rw [← hS, ← hQ, Finset.card_univ, Fintype.card_fin, ← hnd] at hcs
    have hpos : 0 < sqDev (x.map some) mu := by
      rw [hS]
      obtain ⟨u, hu, v, hv, huv⟩ := hne
      obtain ⟨i, hi, rfl⟩ := List.getElem_of_mem hu
      obtain ⟨j, hj, rfl⟩ := List.getElem_of_mem hv
      have hor : x[i] ≠ mu ∨ x[j] ≠ mu := by
        by_contra h; push Not at h; exact huv (h.1.trans h.2.symm)
      rcases hor with h | h
      · exact Finset.sum_pos' (fun k _ => sq_nonneg _) ⟨⟨i, hi⟩, Finset.mem_univ _, by have := sub_ne_zero.2 h; positivity⟩
      · exact Finset.sum_pos' (fun k _ => sq_nonneg _) ⟨⟨j, hj⟩, Finset.mem_univ _, by have := sub_ne_zero.2 h; positivity⟩
    rw [div_le_div_iff₀ (by linarith) (by positivity)]
    linarith
  have hb : avgPerm (fun σ => (ac σ - -1 / n) ^ 2) ≤ (n - 2) / (n * (n - 1)) := by
    rw [hv]
    have : (n - 2) / (n * (n - 1)) = (n - (n + 1) * (1 / n)) / (n * (n - 1)) - 1 / n ^ 2 := by
      have n0 : n ≠ 0 := by intro h; linarith
      have n1 : n - 1 ≠ 0 := by intro h; linarith
      field_simp
      ring
    rw [this]
    gcongr
    apply mul_nonneg <;> linarith
  refine ⟨ac, h1, h2, hv, hb, ?_⟩
  rw [show 1 / Real.sqrt (n - 1) = Real.sqrt (1 / (n - 1)) by rw [Real.sqrt_div zero_le_one, Real.sqrt_one]]
  refine Real.sqrt_le_sqrt (hb.trans ?_)
  rw [div_le_div_iff₀ (by apply mul_pos <;> linarith) (by linarith)]
  nlinarith

end
end SeismoStats.Props
