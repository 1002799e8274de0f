/-
Properties C34 and C35: the discrete exponential distribution and the KS test.
-/
import Verif.Model.EstimateMc
import Verif.Props.Fmd
import Verif.Proofs.Py
import Mathlib.Analysis.SpecialFunctions.Integrals.Basic

namespace SeismoStats.Props
open SeismoStats SeismoStats.EstimateMc
set_option linter.unusedSimpArgs false
open Classical
noncomputable section

/-! ## C34 -/

theorem mem_uniqueSorted (l : List ℝ) (v : ℝ) : v ∈ uniqueSorted l ↔ v ∈ l := by simp [uniqueSorted]

theorem uniqueSorted_sorted (l : List ℝ) : (uniqueSorted l).Pairwise (· < ·) := by
  unfold uniqueSorted
  have h1 : (l.insertionSort (· ≤ ·)).Pairwise (· ≤ ·) := List.pairwise_insertionSort _ _
  have h2 := h1.sublist (List.dedup_sublist (l.insertionSort (· ≤ ·)))
  have h3 := List.nodup_dedup (l.insertionSort (· ≤ ·))
  exact (h2.and h3).imp (fun h => lt_of_le_of_ne h.1 h.2)

theorem sorted_ext {l l' : List ℝ} (h : l.Pairwise (· < ·)) (h' : l'.Pairwise (· < ·)) (hm : ∀ v, v ∈ l ↔ v ∈ l') :
    l = l' := by
  apply List.Perm.eq_of_pairwise (le := (· < ·)) (fun a b _ _ h1 h2 => absurd h1 (not_lt.2 h2.le)) h h'
  rw [List.perm_ext_iff_of_nodup (h.imp fun h => h.ne) (h'.imp fun h => h.ne)]
  exact hm

theorem uniqueSorted_of_sorted {l : List ℝ} (h : l.Pairwise (· < ·)) : uniqueSorted l = l :=
  sorted_ext (uniqueSorted_sorted l) h (mem_uniqueSorted l)

/-- C34: the points are the distinct magnitudes in increasing order, and the value at a point `x` is
`1 - exp(-beta (x + delta_m - mc))`. -/
theorem C34_points (mags : List ℝ) (mc δ β : ℝ) :
    ∃ x y, cdfDiscreteExp mags mc δ (.fin β) = (x, y) ∧ x.Pairwise (· < ·) ∧ (∀ v, v ∈ x ↔ v ∈ mags) ∧
      y = x.map fun v => .fin (1 - Real.exp (-β * (v + δ - mc))) := by
  refine ⟨_, _, rfl, uniqueSorted_sorted _, mem_uniqueSorted _, ?_⟩
  apply List.map_congr_left
  intro v _
  simp only [expNeg, Fl.sub, Fl.neg, Fl.add, sub_eq_add_neg]

/-- C34: the values increase strictly with the points. -/
theorem C34_monotone {mags : List ℝ} {mc δ β : ℝ} (hβ : 0 < β) :
    ∃ y : List ℝ, (cdfDiscreteExp mags mc δ (.fin β)).2 = y.map .fin ∧ y.Pairwise (· < ·) := by
  obtain ⟨x, y, h, h1, -, h3⟩ := C34_points mags mc δ β
  rw [h]
  refine ⟨x.map fun v => 1 - Real.exp (-β * (v + δ - mc)), ?_, ?_⟩
  · simp only [h3, List.map_map]; rfl
  · rw [List.pairwise_map]
    refine h1.imp ?_
    intro a b hab
    have : Real.exp (-β * (b + δ - mc)) < Real.exp (-β * (a + δ - mc)) := by
      apply Real.exp_lt_exp.2; nlinarith
    linarith

/-- C34: a value is below 1; it is non-negative exactly if the magnitude is at or above
`mc - delta_m` (below, the function is negative, it is not cut off at 0). -/
theorem C34_range {mags : List ℝ} {mc δ β : ℝ} (hβ : 0 < β) :
    List.Forall₂ (fun x y => ∃ v : ℝ, y = .fin v ∧ v < 1 ∧ (0 ≤ v ↔ mc - δ ≤ x))
      (cdfDiscreteExp mags mc δ (.fin β)).1 (cdfDiscreteExp mags mc δ (.fin β)).2 := by
  obtain ⟨x, y, h, h1, -, h3⟩ := C34_points mags mc δ β
  rw [h]
  simp only [h3]
  rw [List.forall₂_map_right_iff, List.forall₂_same]
  intro v _
  refine ⟨_, rfl, by linarith [Real.exp_pos (-β * (v + δ - mc))], ?_⟩
  rw [sub_nonneg, Real.exp_le_one_iff]
  constructor
  · intro h; by_contra hc; nlinarith
  · intro h; nlinarith

/-- Density of the exponential law of rate `β` starting at `m0`. -/
def expDensity (β m0 t : ℝ) : ℝ := β * Real.exp (-β * (t - m0))

theorem integral_expDensity (β m0 a b : ℝ) :
    ∫ t in a..b, expDensity β m0 t = Real.exp (-β * (a - m0)) - Real.exp (-β * (b - m0)) := by
  have hd : ∀ t ∈ Set.uIcc a b, HasDerivAt (fun t => -Real.exp (-β * (t - m0))) (expDensity β m0 t) t := by
    intro t _
    have h1 : HasDerivAt (fun t => -β * (t - m0)) (-β * 1) t := ((hasDerivAt_id t).sub_const m0).const_mul (-β)
    have h2 := (h1.exp).neg
    have e : expDensity β m0 t = -(Real.exp (-β * (t - m0)) * (-β * 1)) := by unfold expDensity; ring
    rw [e]; exact h2
  rw [intervalIntegral.integral_eq_sub_of_hasDerivAt hd]
  · ring
  · apply Continuous.intervalIntegrable
    unfold expDensity
    fun_prop

/-- C34: at the centre of the `k`-th bin the value is the mass that the exponential law starting at
`mc - delta_m/2` gives to the bins `0, …, k`. -/
theorem C34_mass {mags : List ℝ} {mc δ β : ℝ} {k : ℕ} (hk : mc + k * δ ∈ mags) :
    (mc + k * δ, Fl.fin (((List.range (k + 1)).map fun (j : ℕ) =>
        ∫ t in (mc + j * δ - δ / 2)..(mc + j * δ + δ / 2), expDensity β (mc - δ / 2) t).sum)) ∈
      List.zip (cdfDiscreteExp mags mc δ (.fin β)).1 (cdfDiscreteExp mags mc δ (.fin β)).2 := by
  have hs : ((List.range (k + 1)).map fun (j : ℕ) =>
        ∫ t in (mc + j * δ - δ / 2)..(mc + j * δ + δ / 2), expDensity β (mc - δ / 2) t).sum =
      1 - Real.exp (-β * (mc + k * δ + δ - mc)) := by
    clear hk
    simp only [integral_expDensity]
    induction k with
    | zero => simp
    | succ k ih =>
      rw [List.range_succ, List.map_append, List.sum_append, ih]
      simp only [List.map_cons, List.map_nil, List.sum_cons, List.sum_nil, add_zero]
      push_cast
      have e : mc + (k + 1) * δ - δ / 2 - (mc - δ / 2) = mc + k * δ + δ - mc := by ring
      have e2 : mc + (k + 1) * δ + δ / 2 - (mc - δ / 2) = mc + (k + 1) * δ + δ - mc := by ring
      rw [e, e2]; ring
  rw [hs]
  obtain ⟨x, y, h, h1, h2, h3⟩ := C34_points mags mc δ β
  rw [h]
  simp only [h3]
  rw [← List.map_prod_left_eq_zip]
  exact List.mem_map.2 ⟨mc + k * δ, (h2 _).2 hk, rfl⟩

/-- The hypotheses are met: a sample on the bins, with a repeated value and a gap. -/
example : (1 : ℝ) + (2 : ℕ) * 1 ∈ [3, 1, 3] ∧ (0 : ℝ) < 2 := by norm_num

/-! ## C35 -/

/-- The KS distance of a sample with weights: the largest difference, over the bins
`mc, mc + δ, …, mc + (N-1) δ`, between the fraction of the weight (within the bins) at or below the
bin and the mass of the law. -/
def IsKsDistance (sample w : List ℝ) (mc δ β : ℝ) (N : ℕ) (D : ℝ) : Prop :=
  IsGreatest {e | ∃ k < N, e = |Spec.weightOf sample w (· ≤ mc + k * δ) /
    Spec.weightOf sample w (· ≤ mc + (N - 1 : ℕ) * δ) - (1 - Real.exp (-β * ((k + 1) * δ)))|} D

/-- A sample whose values are on the bins `mc, mc + δ, …`. -/
def OnBins (mc δ : ℝ) (sample : List ℝ) : Prop := ∀ v ∈ sample, ∃ k : ℕ, v = mc + k * δ

theorem npMax_fin {l : List ℝ} (h : l ≠ []) :
    ∃ D, Fl.npMax (l.map .fin) = .ok (.fin D) ∧ IsGreatest {e | e ∈ l} D := by
  cases l with
  | nil => exact absurd rfl h
  | cons a l =>
    have key : ∀ (l : List ℝ) (a : ℝ), ∃ D, (l.map Fl.fin).foldl Fl.max2 (Fl.fin a) = Fl.fin D ∧ IsGreatest {e | e ∈ a :: l} D := by
      intro l
      induction l with
      | nil => intro a; exact ⟨a, rfl, by simp [IsGreatest, upperBounds]⟩
      | cons b l ih =>
        intro a
        rw [List.map_cons, List.foldl_cons]
        by_cases hab : b ≤ a
        · obtain ⟨D, h1, h2, h3⟩ := ih a
          refine ⟨D, ?_, ?_, ?_⟩
          · simp only [Fl.max2, Fl.ge, hab, decide_true, if_true]; exact h1
          · rcases List.mem_cons.1 h2 with h | h
            · exact List.mem_cons.2 (Or.inl h)
            · exact List.mem_cons.2 (Or.inr (List.mem_cons.2 (Or.inr h)))
          · intro e he
            rcases List.mem_cons.1 he with rfl | he
            · exact h3 (List.mem_cons_self)
            · rcases List.mem_cons.1 he with rfl | he
              · exact hab.trans (h3 (List.mem_cons_self))
              · exact h3 (List.mem_cons.2 (Or.inr he))
        · obtain ⟨D, h1, h2, h3⟩ := ih b
          refine ⟨D, ?_, ?_, ?_⟩
          · simp only [Fl.max2, Fl.ge, hab, decide_false, Bool.false_eq_true, if_false]; exact h1
          · exact List.mem_cons.2 (Or.inr h2)
          · intro e he
            rcases List.mem_cons.1 he with rfl | he
            · exact (not_le.1 hab).le.trans (h3 (List.mem_cons_self))
            · exact h3 he
    obtain ⟨D, h1, h2⟩ := key l a
    exact ⟨D, congrArg Except.ok h1, h2⟩

theorem cumsumFrom_getElem (acc : ℝ) (l : List ℝ) (i : ℕ) (hi : i < (cumsumFrom acc l).length) :
    (cumsumFrom acc l)[i] = acc + (l.take (i + 1)).sum := by
  induction l generalizing acc i with
  | nil => simp [cumsumFrom] at hi
  | cons a l ih =>
    cases i with
    | zero => simp [cumsumFrom]
    | succ i =>
      simp only [cumsumFrom, List.getElem_cons_succ, List.take_succ_cons, List.sum_cons]
      rw [ih]; ring

theorem grid_take (a : ℤ) (n k : ℕ) (δ : ℝ) (h : k ≤ n) : (grid a n δ).take k = grid a k δ := by
  unfold grid
  rw [← List.map_take, List.take_range, Nat.min_eq_left h]

theorem weightWhere_grid (a : ℤ) (k : ℕ) {δ : ℝ} (hδ : 0 < δ) {x w : List ℝ}
    (hx : ∀ v ∈ x, ∃ j : ℕ, v = (a : ℝ) * δ + j * δ) :
    ((grid a (k + 1) δ).map fun c => weightWhere (List.zip x w) fun v => decide (v = c)).sum =
      Spec.weightOf x w (· ≤ (a : ℝ) * δ + k * δ) := by
  rw [sum_weightWhere _ ((grid_sorted a _ hδ).imp fun h => h.ne), ← weightWhere_eq_weightOf]
  apply weightWhere_congr
  rintro ⟨v, u⟩ hq
  obtain ⟨j, hj⟩ := hx v (List.of_mem_zip hq).1
  rw [Bool.eq_iff_iff, decide_eq_true_eq, decide_eq_true_eq]
  simp only at hj ⊢
  rw [hj]
  have e : (a : ℝ) * δ + j * δ = ((a + j : ℤ) : ℝ) * δ := by push_cast; ring
  constructor
  · intro hm
    unfold grid at hm
    obtain ⟨i, hi, he⟩ := List.mem_map.1 hm
    rw [e] at he
    have h1 := mul_right_cancel₀ hδ.ne' he
    have h2 : a + (i : ℤ) = a + j := by exact_mod_cast h1
    rw [List.mem_range] at hi
    have h3 : (j : ℝ) ≤ k := by exact_mod_cast (by omega : j ≤ k)
    nlinarith
  · intro hle
    have h1 : (j : ℝ) * δ ≤ k * δ := by linarith
    have h2 := le_of_mul_le_mul_right h1 hδ
    have h3 : j ≤ k := by exact_mod_cast h2
    rw [e]
    exact mem_grid a _ δ _ (by omega) (by push_cast; omega)

theorem ksDistance_grid (a : ℤ) (N : ℕ) (hN : 1 ≤ N) {δ β : ℝ} (hδ : 0 < δ) {x w : List ℝ}
    (hx : OnBins ((a : ℝ) * δ) δ x) (hl : w.length = x.length)
    (hW : Spec.weightOf x w (· ≤ (a : ℝ) * δ + (N - 1 : ℕ) * δ) ≠ 0) :
    ∃ D, ksDistance x w (grid a (N + 1) δ) ((a : ℝ) * δ) δ (.fin β) = .ok (.fin D) ∧
      IsKsDistance x w ((a : ℝ) * δ) δ β N D := by
  obtain ⟨M, rfl⟩ : ∃ M, N = M + 1 := ⟨N - 1, by omega⟩
  rw [Nat.add_sub_cancel] at hW
  unfold ksDistance
  have hhist := histogram_grid a (M + 1) hδ x w (fun v hv => by
    obtain ⟨k, hk⟩ := hx v hv
    exact ⟨a + k, by rw [hk]; push_cast; ring⟩)
  have hne : (grid a (M + 1 + 1) δ).map (fun e => e - δ / 2) ≠ [] := by
    intro h
    have := congrArg List.length h
    simp [grid_length] at this
  simp only [hl, ne_eq, not_true, if_false, hne, hhist]
  rw [grid_dropLast]
  unfold cdfDiscreteExp
  simp only [uniqueSorted_of_sorted (grid_sorted a (M + 1) hδ)]
  set h := (grid a (M + 1) δ).map fun c => weightWhere (List.zip x w) fun v => decide (v = c) with hh
  have hsum : h.sum = Spec.weightOf x w (· ≤ (a : ℝ) * δ + M * δ) := weightWhere_grid a M hδ hx
  rw [hsum]
  have hlist : List.zipWith (fun a b => (Fl.sub a b).abs) ((cumsumFrom 0 h).map fun c => Fl.div c
      (Spec.weightOf x w (· ≤ (a : ℝ) * δ + M * δ))) ((grid a (M + 1) δ).map fun v =>
        (Fl.fin 1).sub (expNeg (.fin β) (v + δ - (a : ℝ) * δ))) =
      ((List.range (M + 1)).map fun (k : ℕ) => |Spec.weightOf x w (· ≤ (a : ℝ) * δ + k * δ) /
        Spec.weightOf x w (· ≤ (a : ℝ) * δ + M * δ) - (1 - Real.exp (-β * ((k + 1) * δ)))|).map Fl.fin := by
    apply List.ext_getElem
    · simp [length_cumsumFrom, hh, grid_length]
    · intro k h1 h2
      have hk : k < M + 1 := by simpa using h2
      have ht : (h.take (k + 1)).sum = Spec.weightOf x w (· ≤ (a : ℝ) * δ + k * δ) := by
        rw [hh, ← List.map_take, grid_take _ _ _ _ (by omega : k + 1 ≤ M + 1), weightWhere_grid a k hδ hx]
      rw [List.getElem_zipWith, List.getElem_map, List.getElem_map, cumsumFrom_getElem, ht, grid_getElem _ _ _ _ hk]
      simp only [List.getElem_map, List.getElem_range]
      have e : ((a + (k : ℕ) : ℤ) : ℝ) * δ + δ - (a : ℝ) * δ = (k + 1) * δ := by push_cast; ring
      rw [e]
      simp only [zero_add, Fl.div, if_neg hW, expNeg, Fl.sub, Fl.neg, Fl.add, Fl.abs, sub_eq_add_neg]
  rw [hlist]
  obtain ⟨D, h1, h2, h3⟩ := npMax_fin (l := (List.range (M + 1)).map fun (k : ℕ) =>
    |Spec.weightOf x w (· ≤ (a : ℝ) * δ + k * δ) / Spec.weightOf x w (· ≤ (a : ℝ) * δ + M * δ) -
      (1 - Real.exp (-β * ((k + 1) * δ)))|) (by simp)
  refine ⟨D, h1, ?_, ?_⟩
  · obtain ⟨k, hk, he⟩ := List.mem_map.1 h2
    exact ⟨k, List.mem_range.1 hk, he.symm⟩
  · rintro e ⟨k, hk, rfl⟩
    exact h3 (List.mem_map.2 ⟨k, List.mem_range.2 hk, rfl⟩)

theorem ksBins_grid (a : ℤ) {δ top : ℝ} (hδ : 1 / 10 ^ 12 ≤ δ) (ht : (a : ℝ) * δ ≤ top) :
    ∃ N : ℕ, 1 ≤ N ∧ ksBins ((a : ℝ) * δ) top δ = .ok (grid a (N + 1) δ) ∧
      ∀ k : ℕ, k < N ↔ (a : ℝ) * δ + k * δ < top + δ / 2 := by
  have hp : 0 < δ := lt_of_lt_of_le (by positivity) hδ
  have h2 : 2 ≤ ⌈(top + 3 / 2 * δ - (a : ℝ) * δ) / δ⌉ := by
    have h1 : (3 : ℝ) / 2 ≤ (top + 3 / 2 * δ - (a : ℝ) * δ) / δ := by
      rw [le_div_iff₀ hp]; linarith
    have : (1 : ℤ) < ⌈(top + 3 / 2 * δ - (a : ℝ) * δ) / δ⌉ := by
      rw [Int.lt_ceil]; push_cast; linarith
    omega
  refine ⟨⌈(top + 3 / 2 * δ - (a : ℝ) * δ) / δ⌉.toNat - 1, by omega, ?_, ?_⟩
  · unfold ksBins binArr
    rw [if_neg hp.ne', if_neg (not_lt.2 (by unfold eps; exact hδ))]
    have : arange ((a : ℝ) * δ) (top + 3 / 2 * δ) δ = grid a (⌈(top + 3 / 2 * δ - (a : ℝ) * δ) / δ⌉.toNat - 1 + 1) δ := by
      unfold arange grid
      rw [show ⌈(top + 3 / 2 * δ - (a : ℝ) * δ) / δ⌉.toNat - 1 + 1 = ⌈(top + 3 / 2 * δ - (a : ℝ) * δ) / δ⌉.toNat by omega]
      apply List.map_congr_left
      intro i _
      push_cast; ring
    rw [this, map_binTo_grid a _ hp.ne']
  · intro k
    have : k < ⌈(top + 3 / 2 * δ - (a : ℝ) * δ) / δ⌉.toNat - 1 ↔
        ((k + 1 : ℤ)) < ⌈(top + 3 / 2 * δ - (a : ℝ) * δ) / δ⌉ := by omega
    rw [this, Int.lt_ceil, lt_div_iff₀ hp]
    push_cast
    constructor <;> intro h <;> linarith

/-- C35: the p-value is the fraction of the distances not smaller than the observed one, hence in
`[0, 1]`, for every simulated sample; given distances are returned unchanged. -/
theorem C35_p_value {warn : Bool} {mags : List ℝ} {mc δ : ℝ} {b : Fl ℝ} {given : Option (List (Fl ℝ))}
    {sims : List (List ℝ)} {w : Option (List ℝ)} {p d : Fl ℝ} {ds : List (Fl ℝ)}
    (h : ksTest warn mags mc δ b given sims w = .ok (p, d, ds)) :
    ∃ q : ℝ, p = .fin q ∧ 0 ≤ q ∧ q ≤ 1 ∧
      ((q = (ds.countP fun x => Fl.ge x d : ℕ) / (ds.length : ℝ) ∧ 0 < ds.length ∧
          (∀ l, given = some l → ds = l) ∧ (given = none → ds.length = sims.length)) ∨
        (warn = true ∧ (uniqueSorted mags).length = 1 ∧ q = 0 ∧ d = .fin 1 ∧ ds = [])) := by
  have hp : ∀ {ds : List (Fl ℝ)} {d p : Fl ℝ}, pValue ds d = .ok p → ∃ q : ℝ, p = .fin q ∧ 0 ≤ q ∧ q ≤ 1 ∧
      q = (ds.countP fun x => Fl.ge x d : ℕ) / (ds.length : ℝ) ∧ 0 < ds.length := by
    intro ds d p hp
    unfold pValue at hp
    split at hp
    · cases hp
    · rename_i hne
      cases hp
      have hl : 0 < ds.length := List.length_pos_iff.2 hne
      have hlr : (0 : ℝ) < ds.length := by exact_mod_cast hl
      refine ⟨_, rfl, by positivity, ?_, rfl, hl⟩
      rw [div_le_one hlr]
      exact_mod_cast List.countP_le_length
  unfold ksTest at h
  cases hg : ksGuard warn mags with
  | error e => rw [hg] at h; cases h
  | ok g =>
    rw [hg] at h
    cases g with
    | true =>
      cases h
      unfold ksGuard at hg
      split at hg
      · rename_i hw
        split at hg
        · cases hg
        · injection hg with hg
          exact ⟨0, rfl, le_refl _, zero_le_one, Or.inr ⟨hw, of_decide_eq_true hg, rfl, rfl, rfl⟩⟩
      · cases hg
    | false =>
      simp only at h
      unfold ksTestCore at h
      simp only [bind, Except.bind, pure, Except.pure] at h
      cases given with
      | none =>
        simp only at h
        cases h1 : maxConsidered b mags.length sims.length mc with
        | error e => rw [h1] at h; cases h
        | ok top =>
          rw [h1] at h; simp only at h
          cases h2 : ksBins mc top δ with
          | error e => rw [h2] at h; cases h
          | ok xb =>
            rw [h2] at h; simp only at h
            cases h3 : (sims.mapM fun s => ksDistance s (onesLike w s) xb mc δ (BValue.bToBeta b) : Py (List (Fl ℝ))) with
            | error e => rw [h3] at h; cases h
            | ok ds' =>
              rw [h3] at h; simp only at h
              cases h4 : ksDistance mags (onesLike w mags) xb mc δ (BValue.bToBeta b) with
              | error e => rw [h4] at h; cases h
              | ok d' =>
                rw [h4] at h; simp only at h
                cases h5 : pValue ds' d' with
                | error e => rw [h5] at h; cases h
                | ok p' =>
                  rw [h5] at h
                  cases h
                  obtain ⟨q, e1, e2, e3, e4, e5⟩ := hp h5
                  refine ⟨q, e1, e2, e3, Or.inl ⟨e4, e5, by simp, fun _ => ?_⟩⟩
                  exact ((mapM_ok_iff _ _ _).1 h3).length_eq.symm
      | some l =>
        simp only at h
        cases h1 : amax? mags with
        | none => rw [h1] at h; cases h
        | some top =>
          rw [h1] at h; simp only at h
          cases h2 : ksBins mc top δ with
          | error e => rw [h2] at h; cases h
          | ok xb =>
            rw [h2] at h; simp only at h
            cases h4 : ksDistance mags (onesLike w mags) xb mc δ (BValue.bToBeta b) with
            | error e => rw [h4] at h; cases h
            | ok d' =>
              rw [h4] at h; simp only at h
              cases h5 : pValue l d' with
              | error e => rw [h5] at h; cases h
              | ok p' =>
                rw [h5] at h
                cases h
                obtain ⟨q, e1, e2, e3, e4, e5⟩ := hp h5
                exact ⟨q, e1, e2, e3, Or.inl ⟨e4, e5, by simp, by simp⟩⟩

theorem weightOf_all (x w : List ℝ) (hl : w.length = x.length) (t : ℝ) (h : ∀ v ∈ x, v ≤ t) :
    Spec.weightOf x w (· ≤ t) = w.sum := by
  unfold Spec.weightOf
  have : (List.zip x w).map (fun q => if q.1 ≤ t then q.2 else 0) = (List.zip x w).map Prod.snd := by
    apply List.map_congr_left
    rintro ⟨v, u⟩ hq
    simp only
    rw [if_pos (h v (List.of_mem_zip hq).1)]
  rw [this, List.map_snd_zip (by omega)]

theorem onesLike_eq (w : Option (List ℝ)) (x : List ℝ) : onesLike w x = effWeights x w := by
  cases w <;> rfl

/-- A sample with at least two different values, or warnings switched off. -/
theorem ksGuard_false {warn : Bool} {mags : List ℝ} (hne : mags ≠ [])
    (h : warn = false ∨ ∃ u ∈ mags, ∃ v ∈ mags, u ≠ v) : ksGuard warn mags = .ok false := by
  unfold ksGuard
  rcases h with h | ⟨u, hu, v, hv, huv⟩
  · simp [h]
  · split
    · congr 1
      rw [decide_eq_false_iff_not]
      intro h1
      obtain ⟨x, hx⟩ := List.length_eq_one_iff.1 h1
      have h2 := (mem_uniqueSorted mags u).2 hu
      have h3 := (mem_uniqueSorted mags v).2 hv
      rw [hx, List.mem_singleton] at h2 h3
      exact huv (h2.trans h3.symm)
    · rfl

/-- C35, distances given: for a binned sample with two different values (or warnings off) and positive
total weight, the observed distance is the KS distance over bins that contain the whole sample. -/
theorem C35_distance {warn : Bool} {mags : List ℝ} {a : ℤ} {δ b : ℝ} {l : List (Fl ℝ)} {sims : List (List ℝ)}
    {w : Option (List ℝ)} (hδ : 1 / 10 ^ 12 ≤ δ) (hne : mags ≠ []) (hl : l ≠ [])
    (hv : warn = false ∨ ∃ u ∈ mags, ∃ v ∈ mags, u ≠ v) (hb : OnBins (a * δ) δ mags)
    (hw : (effWeights mags w).length = mags.length) (hW : 0 < (effWeights mags w).sum) :
    ∃ p D N, ksTest warn mags (a * δ) δ (.fin b) (some l) sims w = .ok (p, .fin D, l) ∧
      (∀ v ∈ mags, v ≤ a * δ + (N - 1 : ℕ) * δ) ∧ IsKsDistance mags (effWeights mags w) (a * δ) δ (b * Real.log 10) N D := by
  have hp : 0 < δ := lt_of_lt_of_le (by positivity) hδ
  obtain ⟨top, htop⟩ := exists_amax hne
  obtain ⟨ht1, ht2⟩ := (amax?_eq_some_iff _ _).1 htop
  have hge : (a : ℝ) * δ ≤ top := by
    obtain ⟨k, hk⟩ := hb top ht1
    rw [hk]
    have : (0 : ℝ) ≤ k * δ := by positivity
    linarith
  obtain ⟨N, hN, hbins, hk⟩ := ksBins_grid a hδ hge
  have hall : ∀ v ∈ mags, v ≤ a * δ + (N - 1 : ℕ) * δ := by
    intro v hv
    obtain ⟨k, rfl⟩ := hb v hv
    have h1 := ht2 hv
    have h2 : k < N := (hk k).2 (by linarith)
    have h3 : (k : ℝ) ≤ (N - 1 : ℕ) := by exact_mod_cast (by omega : k ≤ N - 1)
    nlinarith
  obtain ⟨D, hD, hKS⟩ := ksDistance_grid (β := b * Real.log 10) a N hN hp hb hw (by rw [weightOf_all _ _ hw _ hall]; exact hW.ne')
  refine ⟨.fin ((l.countP fun x => Fl.ge x (.fin D) : ℕ) / (l.length : ℝ)), D, N, ?_, hall, hKS⟩
  unfold ksTest
  rw [ksGuard_false hne hv]
  unfold ksTestCore
  simp only [bind, Except.bind, pure, Except.pure, htop, hbins, onesLike_eq, BValue.bToBeta, Fl.mapFin, hD]
  unfold pValue
  rw [if_neg hl]

theorem weightOf_ones_pos {x : List ℝ} {t : ℝ} (h : ∃ v ∈ x, v ≤ t) :
    Spec.weightOf x (effWeights x none) (· ≤ t) ≠ 0 := by
  obtain ⟨v, hv, ht⟩ := h
  unfold Spec.weightOf effWeights
  have e : List.zip x (x.map fun _ => (1 : ℝ)) = x.map fun v => (v, 1) := by
    rw [List.map_prod_left_eq_zip]
  rw [e, List.map_map]
  have h1 : (1 : ℝ) ≤ (x.map ((fun q : ℝ × ℝ => if q.1 ≤ t then q.2 else 0) ∘ fun v => (v, 1))).sum := by
    apply List.single_le_sum
    · intro y hy
      obtain ⟨u, -, rfl⟩ := List.mem_map.1 hy
      simp only [Function.comp]
      split <;> norm_num
    · exact List.mem_map.2 ⟨v, hv, by simp [ht]⟩
  linarith

/-- C35, distances simulated: the sample and each simulated sample are compared on the same bins,
those up to `mc + log10(1000 n n_sample)/b`, and each distance is the KS distance there. -/
theorem C35_simulated {warn : Bool} {mags : List ℝ} {a : ℤ} {δ b : ℝ} {sims : List (List ℝ)}
    (hδ : 1 / 10 ^ 12 ≤ δ) (hb : 0 < b) (hne : mags ≠ []) (hs : sims ≠ [])
    (hv : warn = false ∨ ∃ u ∈ mags, ∃ v ∈ mags, u ≠ v) (hbin : ∀ s ∈ mags :: sims, OnBins (a * δ) δ s)
    (hlow : ∀ s ∈ mags :: sims, ∃ v ∈ s,
      v ≤ a * δ + Real.log (mags.length * sims.length * 1000) / Real.log 10 / b) :
    ∃ p D ds N, ksTest warn mags (a * δ) δ (.fin b) none sims none = .ok (p, .fin D, ds) ∧
      (∀ k : ℕ, k < N ↔ a * δ + k * δ < a * δ + Real.log (mags.length * sims.length * 1000) / Real.log 10 / b + δ / 2) ∧
      IsKsDistance mags (effWeights mags none) (a * δ) δ (b * Real.log 10) N D ∧
      List.Forall₂ (fun s d => ∃ D, d = .fin D ∧ IsKsDistance s (effWeights s none) (a * δ) δ (b * Real.log 10) N D)
        sims ds := by
  have hp : 0 < δ := lt_of_lt_of_le (by positivity) hδ
  have hn : mags.length * sims.length ≠ 0 :=
    Nat.mul_ne_zero (List.length_pos_iff.2 hne).ne' (List.length_pos_iff.2 hs).ne'
  set top := (a : ℝ) * δ + Real.log (mags.length * sims.length * 1000) / Real.log 10 / b with htop
  have hmax : maxConsidered (.fin b) mags.length sims.length (a * δ) = .ok top := by
    unfold maxConsidered
    dsimp only
    rw [if_neg hb.ne', if_neg hn, htop]
    congr 1; field_simp; ring
  have hge : (a : ℝ) * δ ≤ top := by
    have h1 : (1 : ℝ) ≤ mags.length * sims.length := by exact_mod_cast Nat.one_le_iff_ne_zero.2 hn
    have h2 : 0 ≤ Real.log (mags.length * sims.length * 1000) := Real.log_nonneg (by linarith)
    have h3 : 0 < Real.log 10 := Real.log_pos (by norm_num)
    have : 0 ≤ Real.log (mags.length * sims.length * 1000) / Real.log 10 / b := by positivity
    rw [htop]; linarith
  obtain ⟨N, hN, hbins, hk⟩ := ksBins_grid a hδ hge
  have hdist : ∀ s ∈ mags :: sims, ∃ D, ksDistance s (effWeights s none) (grid a (N + 1) δ) (a * δ) δ
      (.fin (b * Real.log 10)) = .ok (.fin D) ∧ IsKsDistance s (effWeights s none) (a * δ) δ (b * Real.log 10) N D := by
    intro s hs
    refine ksDistance_grid a N hN hp (hbin s hs) (by simp [effWeights]) (weightOf_ones_pos ?_)
    obtain ⟨v, hv, hle⟩ := hlow s hs
    refine ⟨v, hv, ?_⟩
    obtain ⟨k, rfl⟩ := hbin s hs v hv
    have h2 : k < N := (hk k).2 (by linarith)
    have h3 : (k : ℝ) ≤ (N - 1 : ℕ) := by exact_mod_cast (by omega : k ≤ N - 1)
    nlinarith
  obtain ⟨D, hD, hKS⟩ := hdist mags (by simp)
  have hm : ∃ ds, (sims.mapM fun s => ksDistance s (effWeights s none) (grid a (N + 1) δ) (a * δ) δ
      (.fin (b * Real.log 10)) : Py (List (Fl ℝ))) = .ok ds ∧ List.Forall₂ (fun s d => ∃ D, d = .fin D ∧
        IsKsDistance s (effWeights s none) (a * δ) δ (b * Real.log 10) N D) sims ds := by
    have hd' : ∀ s ∈ sims, ∃ D, ksDistance s (effWeights s none) (grid a (N + 1) δ) (a * δ) δ
      (.fin (b * Real.log 10)) = .ok (.fin D) ∧ IsKsDistance s (effWeights s none) (a * δ) δ (b * Real.log 10) N D :=
      fun s hs => hdist s (by simp [hs])
    clear hdist hlow hbin hmax htop hn hs hge
    clear_value top
    clear hbins hk
    induction sims with
    | nil => exact ⟨[], rfl, .nil⟩
    | cons s sims ih =>
      obtain ⟨D', h1, h2⟩ := hd' s (by simp)
      obtain ⟨ds, h3, h4⟩ := ih (fun s hs => hd' s (by simp [hs]))
      exact ⟨.fin D' :: ds, by rw [List.mapM_cons, h1, h3]; rfl, .cons ⟨D', rfl, h2⟩ h4⟩
  obtain ⟨ds, hds, hF⟩ := hm
  refine ⟨.fin ((ds.countP fun x => Fl.ge x (.fin D) : ℕ) / (ds.length : ℝ)), D, ds, N, ?_, hk, hKS, hF⟩
  unfold ksTest
  rw [ksGuard_false hne hv]
  unfold ksTestCore
  simp only [bind, Except.bind, pure, Except.pure, hmax, hbins, onesLike_eq, BValue.bToBeta, Fl.mapFin, hD, hds]
  unfold pValue
  rw [if_neg]
  rintro rfl
  exact hs (List.length_eq_zero_iff.1 hF.length_eq)

theorem weightOf_nonneg {x w : List ℝ} (hw : ∀ u ∈ w, 0 ≤ u) (t : ℝ) : 0 ≤ Spec.weightOf x w (· ≤ t) := by
  apply List.sum_nonneg
  intro y hy
  obtain ⟨⟨v, u⟩, hq, rfl⟩ := List.mem_map.1 hy
  simp only
  split
  · exact hw u (List.of_mem_zip hq).2
  · exact le_refl _

theorem weightOf_le {x w : List ℝ} (hw : ∀ u ∈ w, 0 ≤ u) {s t : ℝ} (h : s ≤ t) :
    Spec.weightOf x w (· ≤ s) ≤ Spec.weightOf x w (· ≤ t) := by
  unfold Spec.weightOf
  apply List.sum_le_sum
  rintro ⟨v, u⟩ hq
  have hu := hw u (List.of_mem_zip hq).2
  simp only
  split <;> split
  · exact le_refl _
  · rename_i h1 h2; exact absurd (h1.trans h) h2
  · exact hu
  · exact le_refl _

/-- C35: with non-negative weights a KS distance lies in `[0, 1]`. -/
theorem C35_distance_bounds {x w : List ℝ} {mc δ β : ℝ} {N : ℕ} {D : ℝ} (hδ : 0 < δ) (hβ : 0 < β)
    (hw : ∀ u ∈ w, 0 ≤ u) (h : IsKsDistance x w mc δ β N D) : 0 ≤ D ∧ D ≤ 1 := by
  obtain ⟨⟨k, hk, rfl⟩, -⟩ := h
  refine ⟨abs_nonneg _, ?_⟩
  have hk' : (k : ℝ) ≤ (N - 1 : ℕ) := by exact_mod_cast (by omega : k ≤ N - 1)
  have h1 := weightOf_nonneg (x := x) hw (mc + k * δ)
  have h2 := weightOf_le (x := x) hw (s := mc + k * δ) (t := mc + (N - 1 : ℕ) * δ) (by nlinarith)
  have h3 : 0 ≤ Spec.weightOf x w (· ≤ mc + k * δ) / Spec.weightOf x w (· ≤ mc + (N - 1 : ℕ) * δ) :=
    div_nonneg h1 (h1.trans h2)
  have h4 : Spec.weightOf x w (· ≤ mc + k * δ) / Spec.weightOf x w (· ≤ mc + (N - 1 : ℕ) * δ) ≤ 1 :=
    div_le_one_of_le₀ h2 (h1.trans h2)
  have h5 := Real.exp_pos (-β * ((k + 1) * δ))
  have h6 : Real.exp (-β * ((k + 1) * δ)) ≤ 1 := by
    rw [Real.exp_le_one_iff]
    have : 0 < β * ((k + 1) * δ) := by positivity
    linarith
  rw [abs_le]
  constructor <;> linarith

/-- C35: for a sample with at least two different values the option 'warnings' makes no difference. -/
theorem C35_option {mags : List ℝ} (mc δ : ℝ) (b : Fl ℝ) (given : Option (List (Fl ℝ))) (sims : List (List ℝ))
    (w : Option (List ℝ)) (hv : ∃ u ∈ mags, ∃ v ∈ mags, u ≠ v) :
    ksTest true mags mc δ b given sims w = ksTest false mags mc δ b given sims w := by
  have hne : mags ≠ [] := by rintro rfl; obtain ⟨u, hu, -⟩ := hv; cases hu
  unfold ksTest
  rw [ksGuard_false hne (Or.inr hv), ksGuard_false hne (Or.inl rfl)]

/-- A finding about C35: for a sample of one value the option decides the result. With warnings on the
p-value is 0; with warnings off, and the largest possible distance given, it is 1. -/
theorem C35_option_changes_result (a : ℤ) {δ b : ℝ} (hδ : 1 / 10 ^ 12 ≤ δ) (hb : 0 < b) (sims : List (List ℝ)) :
    ksTest true [a * δ] (a * δ) δ (.fin b) (some [.fin 1]) sims none = .ok (.fin 0, .fin 1, []) ∧
    ∃ D, ksTest false [a * δ] (a * δ) δ (.fin b) (some [.fin 1]) sims none = .ok (.fin 1, .fin D, [.fin 1]) := by
  have hp : 0 < δ := lt_of_lt_of_le (by positivity) hδ
  constructor
  · unfold ksTest ksGuard
    rw [uniqueSorted_of_sorted (List.pairwise_singleton _ _)]
    simp
  · obtain ⟨p, D, N, h1, h2, h3⟩ := C35_distance (warn := false) (mags := [(a : ℝ) * δ]) (a := a) (b := b) (l := [.fin 1])
      (sims := sims) (w := none) hδ (by simp) (by simp) (Or.inl rfl)
      (by intro v hv; rw [List.mem_singleton] at hv; exact ⟨0, by rw [hv]; simp⟩) (by simp [effWeights])
      (by simp [effWeights])
    obtain ⟨h4, h5⟩ := C35_distance_bounds hp (mul_pos hb (Real.log_pos (by norm_num)))
      (by intro u hu; simp [effWeights] at hu; rw [hu]; norm_num) h3
    refine ⟨D, ?_⟩
    rw [h1]
    obtain ⟨q, rfl, -, -, h⟩ := C35_p_value h1
    rcases h with ⟨h, -⟩ | ⟨h, -⟩
    · rw [h]
      simp [Fl.ge, h5]
    · cases h

/-- C35: an empty sample raises, whatever the option (the early return for it is unreachable). -/
theorem C35_empty_raises (warn : Bool) (mc δ : ℝ) (b : Fl ℝ) (given : Option (List (Fl ℝ))) (sims : List (List ℝ))
    (w : Option (List ℝ)) : ∃ e, ksTest warn [] mc δ b given sims w = .error e := by
  unfold ksTest ksGuard
  cases warn
  · simp only [Bool.false_eq_true, if_false]
    unfold ksTestCore
    cases given with
    | none =>
      have : ∃ e, maxConsidered b ([] : List ℝ).length sims.length mc = .error e := by
        unfold maxConsidered
        cases b <;> simp
        split <;> simp
      obtain ⟨e, he⟩ := this
      simp only [bind, Except.bind, he]
      exact ⟨e, rfl⟩
    | some l => exact ⟨.valueError, rfl⟩
  · exact ⟨.valueError, rfl⟩

theorem weightWhere_ones_perm {x y : List ℝ} (h : x.Perm y) (p : ℝ → Bool) :
    weightWhere (List.zip x (onesLike none x)) p = weightWhere (List.zip y (onesLike none y)) p := by
  have e : ∀ x : List ℝ, List.zip x (onesLike none x) = x.map fun v => (v, 1) := by
    intro x; unfold onesLike; rw [List.map_prod_left_eq_zip]; rfl
  rw [e, e]
  unfold weightWhere
  exact (((h.map _).filter _).map _).sum_eq

/-- C35: without weights the result does not depend on the order of the sample. -/
theorem C35_order {x y : List ℝ} (h : x.Perm y) (warn : Bool) (mc δ : ℝ) (b : Fl ℝ) (given : Option (List (Fl ℝ)))
    (sims : List (List ℝ)) : ksTest warn x mc δ b given sims none = ksTest warn y mc δ b given sims none := by
  have hu : uniqueSorted x = uniqueSorted y := by
    apply sorted_ext (uniqueSorted_sorted _) (uniqueSorted_sorted _)
    intro v; rw [mem_uniqueSorted, mem_uniqueSorted, h.mem_iff]
  have hnil : x = [] ↔ y = [] := by
    constructor
    · rintro rfl; exact h.nil_eq.symm
    · rintro rfl; exact h.eq_nil
  have hg : ksGuard warn x = ksGuard warn y := by
    unfold ksGuard
    rw [hu]
    simp only [hnil]
  have hd : ∀ xb β, ksDistance x (onesLike none x) xb mc δ β = ksDistance y (onesLike none y) xb mc δ β := by
    intro xb β
    unfold ksDistance histogram
    simp only [weightWhere_ones_perm h]
    simp [onesLike]
  unfold ksTest
  rw [hg]
  unfold ksTestCore
  simp only [h.length_eq, amax?_perm h, hd]

/-- The hypotheses of the distance theorems are met by a sample of three events in two bins. -/
example : OnBins ((1 : ℤ) * 1) 1 [(2 : ℝ), 1, 2] ∧ (∃ u ∈ [(2 : ℝ), 1, 2], ∃ v ∈ [(2 : ℝ), 1, 2], u ≠ v) ∧
    0 < (effWeights [(2 : ℝ), 1, 2] none).sum ∧ ∀ s ∈ [[(2 : ℝ), 1, 2], [1, 1, 3]], ∃ v ∈ s,
      v ≤ (1 : ℤ) * 1 + Real.log ((3 : ℕ) * (1 : ℕ) * 1000) / Real.log 10 / 1 := by
  refine ⟨?_, ⟨2, by simp, 1, by simp, by norm_num⟩, by norm_num [effWeights], ?_⟩
  · intro v hv
    simp at hv
    rcases hv with rfl | rfl | rfl
    · exact ⟨1, by norm_num⟩
    · exact ⟨0, by norm_num⟩
    · exact ⟨1, by norm_num⟩
  · have : 0 ≤ Real.log ((3 : ℕ) * (1 : ℕ) * 1000) / Real.log 10 / 1 := by
      apply div_nonneg _ zero_le_one
      exact div_nonneg (Real.log_nonneg (by norm_num)) (Real.log_nonneg (by norm_num))
    intro s hs
    refine ⟨1, ?_, by push_cast at this ⊢; linarith⟩
    simp at hs
    rcases hs with rfl | rfl <;> simp

end
end SeismoStats.Props
