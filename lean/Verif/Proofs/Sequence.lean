/-
The b-value estimators on the first `n` members of a sequence of magnitudes (for C96 and C97).
-/
import Verif.Props.BPositive
import Mathlib.Topology.Algebra.Order.Field
import Mathlib.Analysis.SpecialFunctions.Log.Deriv

namespace SeismoStats.Props
open SeismoStats BValue Filter Topology
open Classical
noncomputable section

/-- The first `n` magnitudes. -/
def firstMags (X : ℕ → ℝ) (n : ℕ) : List ℝ := (List.range n).map X

/-- A call with magnitudes that are all there. -/
def callOf (mags : List ℝ) (mc δ : ℝ) (dmc : Option ℝ) : Args := { mags := mags.map some, mc := mc, δ := δ, dmc := dmc }

theorem selected_all (mags : List ℝ) (thr : ℝ) (h : ∀ m ∈ mags, thr ≤ m) : Spec.selected (mags.map some) ((mags.map some).map fun _ => 1) thr = mags.map fun m => (m, 1) := by
  unfold Spec.selected
  induction mags with
  | nil => rfl
  | cons m r ih =>
    simp only [List.map_cons, List.zip_cons_cons, List.filterMap_cons, h m (by simp), if_true]
    rw [ih fun x hx => h x (by simp [hx])]

theorem used_all (mags : List ℝ) (mc δ : ℝ) (dmc : Option ℝ) (h : ∀ m ∈ mags, mc - δ / 2 ≤ m) : used (callOf mags mc δ dmc) = mags.map fun m => (m, 1) := by
  unfold used effW callOf
  exact selected_all mags _ h

theorem total_all (mags : List ℝ) : Spec.total (mags.map fun m => (m, (1 : ℝ))) = mags.length := by
  unfold Spec.total
  rw [List.map_map]
  induction mags with
  | nil => simp
  | cons m r ih => simp only [List.map_cons, List.sum_cons, List.length_cons, ih, Function.comp_apply]; push_cast; ring

theorem wmean_all (mags : List ℝ) : Spec.wmean (mags.map fun m => (m, (1 : ℝ))) = mags.sum / mags.length := by
  have := total_all mags
  unfold Spec.total at this
  unfold Spec.wmean
  rw [this, List.map_map]
  congr 2
  conv_rhs => rw [← List.map_id mags]
  apply List.map_congr_left
  intro m _
  simp

/-- The binning test accepts multiples of the bin size, and any magnitudes with bin size zero. -/
theorem accepted_all (mags : List ℝ) (mc δ : ℝ) (dmc : Option ℝ) (hδ : δ = 0 ∨ 1 / 10 ^ 12 ≤ δ ∧ ∀ m ∈ mags, ∃ z : ℤ, m = z * δ) : Accepted (callOf mags mc δ dmc) := by
  rw [accepted_iff]
  refine ⟨(checkBinning_ok _ _).2 ?_, rfl⟩
  by_cases hm : mags = []
  · left; simp [callOf, hm]
  right
  rcases hδ with rfl | ⟨h1, h2⟩
  · unfold callOf binningTest
    obtain ⟨m, r, rfl⟩ := List.exists_cons_of_ne_nil hm
    have hs : ∃ y, shiftToMin ((m :: r).map some) = .ok y := by
      unfold shiftToMin
      have hn : ((m :: r).map some).filterMap id = m :: r := by simp [List.filterMap_map]
      rw [hn]
      exact ⟨_, rfl⟩
    obtain ⟨y, hy⟩ := hs
    rw [if_neg (by simp), hy]
    simp only [Bool.and_false, Bool.false_eq_true, if_false]
    change binningTestCore y 0 (1 / 10 ^ 15) false = _
    unfold binningTestCore
    rw [if_pos (by norm_num)]
  · have hz : ∃ zs : List ℤ, mags = zs.map fun z : ℤ => (z : ℝ) * δ := by
      clear hm
      induction mags with
      | nil => exact ⟨[], rfl⟩
      | cons m r ih =>
        obtain ⟨zs, hzs⟩ := ih fun x hx => h2 x (by simp [hx])
        obtain ⟨z, hz⟩ := h2 m (by simp)
        exact ⟨z :: zs, by rw [hz, hzs]; rfl⟩
    obtain ⟨zs, rfl⟩ := hz
    have := C08_grid_accepted (K := ℝ) (zs.map some) 0 δ (1 / 10 ^ 15) h1 (by norm_num) (by
      obtain ⟨z, r, rfl⟩ := List.exists_cons_of_ne_nil (fun h => hm (by rw [h]; rfl) : zs ≠ [])
      exact ⟨z, by simp⟩)
    unfold callOf
    rw [← this]
    congr 1
    rw [List.map_map, List.map_map]
    apply List.map_congr_left
    intro z _
    simp

/-- Result of the classic and the Utsu class. -/
theorem calculate_all {c : Cls} (hc : c = .classic ∨ c = .utsu) (warn : Bool) {s : State} (hs : Reachable c s) (mags : List ℝ) (mc δ : ℝ) (dmc : Option ℝ) (hne : mags ≠ [])
    (hall : ∀ m ∈ mags, mc - δ / 2 ≤ m) (hδ : δ = 0 ∨ 1 / 10 ^ 12 ≤ δ ∧ ∀ m ∈ mags, ∃ z : ℤ, m = z * δ) :
    (calculate c warn s (callOf mags mc δ dmc)).2 = .ok (betaToB (match c with
      | .utsu => Fl.div 1 (mags.sum / mags.length - mc + δ / 2)
      | _ => betaOf (mags.sum / mags.length - mc) δ)) := by
  rw [result_eq hc warn hs (accepted_all mags mc δ dmc hδ), result_of_total]
  · rw [used_all mags mc δ dmc hall, wmean_all]; rfl
  · rw [used_all mags mc δ dmc hall, total_all]
    exact_mod_cast List.length_pos_iff.2 hne

theorem firstMags_sum (X : ℕ → ℝ) (n : ℕ) : (firstMags X n).sum = ∑ i ∈ Finset.range n, X i := by
  unfold firstMags
  rw [Finset.sum_range, ← List.sum_ofFn, List.ofFn_eq_map, ← List.map_coe_finRange_eq_range, List.map_map]
  rfl

theorem firstMags_length (X : ℕ → ℝ) (n : ℕ) : (firstMags X n).length = n := by simp [firstMags]

theorem mem_firstMags {X : ℕ → ℝ} {n : ℕ} {m : ℝ} (h : m ∈ firstMags X n) : ∃ i, m = X i := by
  obtain ⟨i, -, rfl⟩ := List.mem_map.1 h
  exact ⟨i, rfl⟩

/-- The value of beta is continuous in the mean. -/
theorem betaVal_tendsto {δ A : ℝ} (hδ : 0 ≤ δ) (hA : 0 < A) {u : ℕ → ℝ} (h : Tendsto u atTop (𝓝 A)) : Tendsto (fun n => betaVal (u n) δ) atTop (𝓝 (betaVal A δ)) := by
  unfold betaVal
  by_cases hd : 0 < δ
  · simp only [if_pos hd]
    have h1 : Tendsto (fun n => 1 + δ / u n) atTop (𝓝 (1 + δ / A)) := (tendsto_const_nhds.div h hA.ne').const_add 1
    have h2 : 0 < 1 + δ / A := by positivity
    exact (h1.log h2.ne').div_const δ
  · simp only [if_neg hd]
    exact tendsto_const_nhds.div h hA.ne'

/-- If the mean magnitude converges to `mc + A`, the classic estimates become finite and converge. -/
theorem classic_tendsto (X : ℕ → ℝ) (mc δ A : ℝ) (hA : 0 < A) (hlow : ∀ i, mc - δ / 2 ≤ X i) (hδ : δ = 0 ∨ 1 / 10 ^ 12 ≤ δ ∧ ∀ i, ∃ z : ℤ, X i = z * δ)
    (h : Tendsto (fun n : ℕ => (∑ i ∈ Finset.range n, (X i - mc)) / n) atTop (𝓝 A)) :
    ∃ est : ℕ → ℝ, (∀ᶠ n in atTop, ∀ warn s, Reachable .classic s → (calculate .classic warn s (callOf (firstMags X n) mc δ none)).2 = .ok (.fin (est n))) ∧
      Tendsto est atTop (𝓝 (betaVal A δ / Real.log 10)) := by
  have hδ0 : 0 ≤ δ := by
    rcases hδ with rfl | ⟨h, -⟩
    · exact le_rfl
    · exact le_trans (by positivity) h
  refine ⟨fun n => betaVal ((∑ i ∈ Finset.range n, (X i - mc)) / n) δ / Real.log 10, ?_, (betaVal_tendsto hδ0 hA h).div_const _⟩
  filter_upwards [eventually_gt_atTop 0, h.eventually (lt_mem_nhds hA)] with n hn hpos warn s hs
  have hn' : (n : ℝ) ≠ 0 := by exact_mod_cast hn.ne'
  have hmean : (firstMags X n).sum / (firstMags X n).length - mc = (∑ i ∈ Finset.range n, (X i - mc)) / n := by
    rw [firstMags_sum, firstMags_length, Finset.sum_sub_distrib, Finset.sum_const, Finset.card_range, nsmul_eq_mul]
    field_simp
  rw [calculate_all (Or.inl rfl) warn hs _ mc δ none (by rw [ne_eq, ← List.length_eq_zero_iff, firstMags_length]; omega)
    (fun m hm => by obtain ⟨i, rfl⟩ := mem_firstMags hm; exact hlow i)
    (by rcases hδ with h | ⟨h1, h2⟩
        · exact Or.inl h
        · exact Or.inr ⟨h1, fun m hm => by obtain ⟨i, rfl⟩ := mem_firstMags hm; exact h2 i⟩)]
  simp only
  rw [hmean, betaOf_pos hpos]
  rfl

/-- The same for the Utsu estimates. -/
theorem utsu_tendsto (X : ℕ → ℝ) (mc δ A : ℝ) (hA : 0 < A) (hlow : ∀ i, mc - δ / 2 ≤ X i) (hδ : δ = 0 ∨ 1 / 10 ^ 12 ≤ δ ∧ ∀ i, ∃ z : ℤ, X i = z * δ)
    (h : Tendsto (fun n : ℕ => (∑ i ∈ Finset.range n, (X i - mc)) / n) atTop (𝓝 A)) :
    ∃ est : ℕ → ℝ, (∀ᶠ n in atTop, ∀ warn s, Reachable .utsu s → (calculate .utsu warn s (callOf (firstMags X n) mc δ none)).2 = .ok (.fin (est n))) ∧
      Tendsto est atTop (𝓝 (1 / (A + δ / 2) / Real.log 10)) := by
  have hδ0 : 0 ≤ δ := by
    rcases hδ with rfl | ⟨h, -⟩
    · exact le_rfl
    · exact le_trans (by positivity) h
  refine ⟨fun n => 1 / ((∑ i ∈ Finset.range n, (X i - mc)) / n + δ / 2) / Real.log 10, ?_, (tendsto_const_nhds.div (h.add_const (δ / 2)) (by positivity)).div_const _⟩
  filter_upwards [eventually_gt_atTop 0, h.eventually (lt_mem_nhds hA)] with n hn hpos warn s hs
  have hn' : (n : ℝ) ≠ 0 := by exact_mod_cast hn.ne'
  have hmean : (firstMags X n).sum / (firstMags X n).length - mc = (∑ i ∈ Finset.range n, (X i - mc)) / n := by
    rw [firstMags_sum, firstMags_length, Finset.sum_sub_distrib, Finset.sum_const, Finset.card_range, nsmul_eq_mul]
    field_simp
  rw [calculate_all (Or.inr rfl) warn hs _ mc δ none (by rw [ne_eq, ← List.length_eq_zero_iff, firstMags_length]; omega)
    (fun m hm => by obtain ⟨i, rfl⟩ := mem_firstMags hm; exact hlow i)
    (by rcases hδ with h | ⟨h1, h2⟩
        · exact Or.inl h
        · exact Or.inr ⟨h1, fun m hm => by obtain ⟨i, rfl⟩ := mem_firstMags hm; exact h2 i⟩)]
  simp only
  rw [hmean]
  have hne : (∑ i ∈ Finset.range n, (X i - mc)) / n + δ / 2 ≠ 0 := by positivity
  simp only [Fl.div, hne, if_false]
  rfl

/-! ### b-positive -/

theorem usedIdx_all (mags : List ℝ) (mc δ : ℝ) (dmc : Option ℝ) (h : ∀ m ∈ mags, mc - δ / 2 ≤ m) : usedIdx (callOf mags mc δ dmc) = List.range mags.length := by
  unfold usedIdx selIdx callOf
  simp only [List.length_map]
  rw [List.filter_eq_self]
  intro i hi
  rw [List.mem_range] at hi
  have e : (mags.map some).getD i none = some mags[i] := by
    rw [List.getD_eq_getElem _ _ (by simpa using hi), List.getElem_map]
  rw [e]
  simp only [decide_eq_true_eq]
  exact h _ (List.getElem_mem hi)

theorem zip_range_tail (n : ℕ) : List.zip (List.range (n + 1)) (List.range (n + 1)).tail = (List.range n).map fun i => (i, i + 1) := by
  apply List.ext_getElem
  · simp
  · intro i h1 h2
    simp [Nat.add_comm]

/-- The growing pairs of the first `n + 1` magnitudes. -/
theorem growing_all (X : ℕ → ℝ) (n : ℕ) (mc δ d : ℝ) (hlow : ∀ i, mc - δ / 2 ≤ X i) :
    pairsOf .positive (callOf (firstMags X (n + 1)) mc δ (some d)) =
      ((List.range n).filter fun i => decide (d - δ / 2 ≤ X (i + 1) - X i)).map fun i => (i, i + 1) := by
  set a := callOf (firstMags X (n + 1)) mc δ (some d) with ha
  have h1 : timeOrder a = List.range (n + 1) := by
    have e : timeOrder a = usedIdx a := rfl
    rw [e, ha, usedIdx_all _ _ _ _ (fun m hm => by obtain ⟨i, rfl⟩ := mem_firstMags hm; exact hlow i), firstMags_length]
  have h2 : ∀ i ≤ n, magOf a i = X i := by
    intro i hi
    unfold magOf
    rw [ha]
    unfold callOf firstMags
    simp only [List.map_map]
    rw [List.getD_eq_getElem _ _ (by simpa using Nat.lt_succ_of_le hi)]
    simp
  change growing (magOf a) (cutoff a - a.δ / 2) (timeOrder a) = _
  unfold growing
  rw [h1, zip_range_tail, List.filter_map]
  congr 1
  apply List.filter_congr
  intro i hi
  rw [List.mem_range] at hi
  simp only [Function.comp_apply]
  rw [h2 i hi.le, h2 (i + 1) hi]
  rfl

theorem sum_filter_range (n : ℕ) (p : ℕ → Prop) (f : ℕ → ℝ) : (((List.range n).filter fun i => decide (p i)).map f).sum = ∑ i ∈ Finset.range n, if p i then f i else 0 := by
  induction n with
  | zero => simp
  | succ n ih =>
    rw [List.range_succ, List.filter_append, List.map_append, List.sum_append, ih, Finset.sum_range_succ]
    congr 1
    by_cases h : p n <;> simp [h]

/-- If the mean excess of the growing differences converges, the b-positive estimates become finite and converge. -/
theorem positive_tendsto (X : ℕ → ℝ) (mc δ d κ p : ℝ) (hκ : 0 < κ) (hp : 0 < p) (hd : 0 ≤ d) (hlow : ∀ i, mc - δ / 2 ≤ X i)
    (hδ : δ = 0 ∨ 1 / 10 ^ 12 ≤ δ ∧ ∀ i, ∃ z : ℤ, X i = z * δ)
    (hψ : Tendsto (fun n : ℕ => (∑ i ∈ Finset.range n, if d - δ / 2 ≤ X (i + 1) - X i then 1 else 0) / (n : ℝ)) atTop (𝓝 p))
    (hφ : Tendsto (fun n : ℕ => (∑ i ∈ Finset.range n, if d - δ / 2 ≤ X (i + 1) - X i then X (i + 1) - X i - d else 0) / (n : ℝ)) atTop (𝓝 (κ * p))) :
    ∃ est : ℕ → ℝ, (∀ᶠ n in atTop, ∀ warn s, (calculate .positive warn s (callOf (firstMags X n) mc δ (some d))).2 = .ok (.fin (est n))) ∧
      Tendsto est atTop (𝓝 (betaVal κ δ / Real.log 10)) := by
  have hδ0 : 0 ≤ δ := by
    rcases hδ with rfl | ⟨h, -⟩
    · exact le_rfl
    · exact le_trans (by positivity) h
  set ψ : ℕ → ℝ := fun n => ∑ i ∈ Finset.range n, if d - δ / 2 ≤ X (i + 1) - X i then 1 else 0 with hψd
  set φ : ℕ → ℝ := fun n => ∑ i ∈ Finset.range n, if d - δ / 2 ≤ X (i + 1) - X i then X (i + 1) - X i - d else 0 with hφd
  have hr : Tendsto (fun n : ℕ => φ n / ψ n) atTop (𝓝 κ) := by
    have h := hφ.div hψ hp.ne'
    rw [mul_div_assoc, div_self hp.ne', mul_one] at h
    refine h.congr' ?_
    filter_upwards [eventually_gt_atTop 0] with n hn
    have hn' : (n : ℝ) ≠ 0 := by exact_mod_cast hn.ne'
    simp only [Pi.div_apply]
    rw [div_div_div_cancel_right₀ hn']
  have hpred : Tendsto (fun n : ℕ => n - 1) atTop atTop := tendsto_sub_atTop_nat 1
  refine ⟨fun n => betaVal (φ (n - 1) / ψ (n - 1)) δ / Real.log 10, ?_, ((betaVal_tendsto hδ0 hκ hr).comp hpred).div_const _⟩
  filter_upwards [eventually_gt_atTop 0, hpred.eventually (hr.eventually (lt_mem_nhds hκ)), hpred.eventually (hψ.eventually (lt_mem_nhds hp))] with n hn hpos hψpos warn s
  obtain ⟨m, rfl⟩ : ∃ m, n = m + 1 := ⟨n - 1, by omega⟩
  simp only [Nat.add_sub_cancel] at hpos hψpos ⊢
  have hψ0 : 0 < ψ m := by
    by_contra hc
    have : ψ m / (m : ℝ) ≤ 0 := div_nonpos_of_nonpos_of_nonneg (not_lt.1 hc) (Nat.cast_nonneg m)
    exact absurd hψpos (not_lt.2 this)
  set a := callOf (firstMags X (m + 1)) mc δ (some d) with ha
  have hacc : Accepted a := accepted_all _ mc δ _ (by
    rcases hδ with h | ⟨h1, h2⟩
    · exact Or.inl h
    · exact Or.inr ⟨h1, fun m hm => by obtain ⟨i, rfl⟩ := mem_firstMags hm; exact h2 i⟩)
  have huse : usedIdx a = List.range (m + 1) := by
    rw [ha, usedIdx_all _ _ _ _ (fun m hm => by obtain ⟨i, rfl⟩ := mem_firstMags hm; exact hlow i), firstMags_length]
  obtain ⟨s', e, -⟩ := run_nonempty (Or.inl rfl) warn s a ((accepted_iff a).1 hacc) hd (by rw [huse]; simp) (t := none) rfl
    (by rcases hδ with h | ⟨h, -⟩
        · exact Or.inl (le_of_eq h)
        · exact Or.inr h)
  rw [e]
  simp only
  -- the differences
  have hmag : ∀ i ≤ m, magOf a i = X i := by
    intro i hi
    unfold magOf
    rw [ha]
    unfold callOf firstMags
    simp only [List.map_map]
    rw [List.getD_eq_getElem _ _ (by simpa using Nat.lt_succ_of_le hi)]
    simp
  have hgrid : ∀ i, onGrid δ (X (i + 1) - X i) = X (i + 1) - X i := by
    intro i
    unfold onGrid
    rcases hδ with h | ⟨h1, h2⟩
    · rw [if_neg (by rw [h]; exact lt_irrefl 0)]
    · have hδp : 0 < δ := lt_of_lt_of_le (by positivity) h1
      obtain ⟨z, hz⟩ := h2 (i + 1)
      obtain ⟨y, hy⟩ := h2 i
      rw [if_pos hδp, hz, hy, ← sub_mul, ← Int.cast_sub]
      exact binTo_int_mul hδp.ne' _
  have hL : diffsOf a (pairsOf .positive a) = ((List.range m).filter fun i => decide (d - δ / 2 ≤ X (i + 1) - X i)).map fun i => (X (i + 1) - X i, (1 : ℝ)) := by
    rw [ha, growing_all X m mc δ d hlow, ← ha]
    unfold diffsOf
    rw [List.map_map]
    apply List.map_congr_left
    intro i hi
    have hi' := List.mem_range.1 (List.mem_filter.1 hi).1
    simp only [Function.comp_apply]
    rw [hmag i hi'.le, hmag (i + 1) hi']
    exact Prod.ext (hgrid i) rfl
  have htot : Spec.total (diffsOf a (pairsOf .positive a)) = ψ m := by
    unfold Spec.total
    rw [hL, List.map_map]
    exact sum_filter_range m _ _
  have hsum : ((diffsOf a (pairsOf .positive a)).map fun q => q.2 * q.1).sum = φ m + d * ψ m := by
    rw [hL, List.map_map]
    refine (sum_filter_range m _ _).trans ?_
    rw [hφd, hψd]
    simp only
    rw [Finset.mul_sum, ← Finset.sum_add_distrib]
    apply Finset.sum_congr rfl
    intro i _
    by_cases h : d - δ / 2 ≤ X (i + 1) - X i <;> simp [h]
  have hmean : Spec.wmean (diffsOf a (pairsOf .positive a)) - cutoff a = φ m / ψ m := by
    unfold Spec.wmean
    rw [hsum]
    have e2 : ((diffsOf a (pairsOf .positive a)).map Prod.snd).sum = ψ m := htot
    rw [e2, show cutoff a = d from rfl]
    field_simp
    ring
  unfold pairResult
  rw [mle_of_pairs _ _ (fun _ => diffsOf_ones rfl _) _ _ (by rw [htot]; exact hψ0.ne'), hmean]
  rw [show a.δ = δ from rfl, betaOf_pos hpos]
  rfl

end
end SeismoStats.Props
