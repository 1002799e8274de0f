/-
b-value estimates from the events at or above a completeness magnitude, in a long sequence of magnitudes of which events below it may be missing.
-/
import Verif.Proofs.Sequence

namespace SeismoStats.Props
open SeismoStats BValue Filter Topology
open Classical
noncomputable section

/-- The magnitudes with the indices in `seen`. -/
def recorded (mags : List ℝ) (seen : ℕ → Prop) : List ℝ := ((List.range mags.length).filter fun i => decide (seen i)).map fun i => mags.getD i 0

theorem selected_filter (mags : List ℝ) (thr : ℝ) :
    Spec.selected (mags.map some) ((mags.map some).map fun _ => 1) thr = (mags.filter fun m => decide (thr ≤ m)).map fun m => (m, 1) := by
  unfold Spec.selected
  induction mags with
  | nil => rfl
  | cons m r ih =>
    by_cases h : thr ≤ m
    · rw [List.filter_cons_of_pos (by simpa using h)]
      simp only [List.map_cons, List.zip_cons_cons, List.filterMap_cons, if_pos h]
      rw [ih]
    · rw [List.filter_cons_of_neg (by simpa using h)]
      simp only [List.map_cons, List.zip_cons_cons, List.filterMap_cons, if_neg h]
      rw [ih]

theorem used_filter (mags : List ℝ) (mc δ : ℝ) (dmc : Option ℝ) :
    used (callOf mags mc δ dmc) = (mags.filter fun m => decide (mc - δ / 2 ≤ m)).map fun m => (m, 1) := by
  unfold used effW callOf
  exact selected_filter mags _

theorem recorded_filter (X : ℕ → ℝ) (n : ℕ) (seen : ℕ → Prop) (thr : ℝ) (h : ∀ i < n, thr ≤ X i → seen i) :
    (recorded (firstMags X n) seen).filter (fun m => decide (thr ≤ m)) = ((List.range n).filter fun i => decide (thr ≤ X i)).map X := by
  unfold recorded
  rw [firstMags_length]
  have e : ((List.range n).filter fun i => decide (seen i)).map (fun i => (firstMags X n).getD i 0) = ((List.range n).filter fun i => decide (seen i)).map X := by
    apply List.map_congr_left
    intro i hi
    have hi' : i < n := List.mem_range.1 (List.mem_filter.1 hi).1
    unfold firstMags
    simp [List.getD_eq_getElem?_getD, hi']
  rw [e, List.filter_map, List.filter_filter]
  congr 1
  apply List.filter_congr
  intro i hi
  have := h i (List.mem_range.1 hi)
  by_cases h1 : thr ≤ X i
  · simp [h1, this h1]
  · simp [h1]

theorem mem_recorded {X : ℕ → ℝ} {n : ℕ} {seen : ℕ → Prop} {m : ℝ} (h : m ∈ recorded (firstMags X n) seen) : ∃ i, m = X i := by
  unfold recorded at h
  rw [firstMags_length] at h
  obtain ⟨i, hi, rfl⟩ := List.mem_map.1 h
  have hi' : i < n := List.mem_range.1 (List.mem_filter.1 hi).1
  refine ⟨i, ?_⟩
  unfold firstMags
  simp [List.getD_eq_getElem?_getD, hi']

/-- Number and mean excess of the events at or above mc. -/
theorem mean_above (X : ℕ → ℝ) (n : ℕ) (mc thr : ℝ) (hn : 0 < ∑ i ∈ Finset.range n, if thr ≤ X i then (1 : ℝ) else 0) :
    (((List.range n).filter fun i => decide (thr ≤ X i)).map X) ≠ [] ∧
    (((List.range n).filter fun i => decide (thr ≤ X i)).map X).sum / (((List.range n).filter fun i => decide (thr ≤ X i)).map X).length - mc =
      (∑ i ∈ Finset.range n, if thr ≤ X i then X i - mc else 0) / ∑ i ∈ Finset.range n, if thr ≤ X i then (1 : ℝ) else 0 := by
  have hlen : ((((List.range n).filter fun i => decide (thr ≤ X i)).map X).length : ℝ) = ∑ i ∈ Finset.range n, if thr ≤ X i then (1 : ℝ) else 0 := by
    rw [← sum_filter_range n (fun i => thr ≤ X i) fun _ => 1]
    simp
  constructor
  · intro h
    rw [h] at hlen
    rw [← hlen] at hn
    simp at hn
  · rw [hlen, sum_filter_range n (fun i => thr ≤ X i) X]
    have e : (∑ i ∈ Finset.range n, if thr ≤ X i then X i - mc else 0) =
        (∑ i ∈ Finset.range n, if thr ≤ X i then X i else 0) - mc * ∑ i ∈ Finset.range n, if thr ≤ X i then (1 : ℝ) else 0 := by
      rw [Finset.mul_sum, ← Finset.sum_sub_distrib]
      apply Finset.sum_congr rfl
      intro i _
      split <;> ring
    rw [e, sub_div, mul_div_assoc, div_self hn.ne', mul_one]

/-- The estimate from recorded events. -/
theorem calculate_recorded {c : Cls} (hc : c = .classic ∨ c = .utsu) (warn : Bool) {s : State} (hs : Reachable c s) (X : ℕ → ℝ) (n : ℕ) (seen : ℕ → Prop) (mc δ : ℝ)
    (hseen : ∀ i < n, mc - δ / 2 ≤ X i → seen i) (hδ : δ = 0 ∨ 1 / 10 ^ 12 ≤ δ ∧ ∀ i, ∃ z : ℤ, X i = z * δ)
    (hn : 0 < ∑ i ∈ Finset.range n, if mc - δ / 2 ≤ X i then (1 : ℝ) else 0) :
    (calculate c warn s (callOf (recorded (firstMags X n) seen) mc δ none)).2 = .ok (betaToB (match c with
      | .utsu => Fl.div 1 ((∑ i ∈ Finset.range n, if mc - δ / 2 ≤ X i then X i - mc else 0) / (∑ i ∈ Finset.range n, if mc - δ / 2 ≤ X i then (1 : ℝ) else 0) + δ / 2)
      | _ => betaOf ((∑ i ∈ Finset.range n, if mc - δ / 2 ≤ X i then X i - mc else 0) / ∑ i ∈ Finset.range n, if mc - δ / 2 ≤ X i then (1 : ℝ) else 0) δ)) := by
  obtain ⟨h1, h2⟩ := mean_above X n mc (mc - δ / 2) hn
  rw [result_eq hc warn hs (accepted_all _ mc δ none (by
    rcases hδ with h | ⟨h1, h2⟩
    · exact Or.inl h
    · exact Or.inr ⟨h1, fun m hm => by obtain ⟨i, rfl⟩ := mem_recorded hm; exact h2 i⟩)), result_of_total]
  · rw [used_filter, recorded_filter X n seen _ hseen, wmean_all, ← h2]
    rfl
  · rw [used_filter, recorded_filter X n seen _ hseen, total_all]
    exact_mod_cast List.length_pos_iff.2 h1

theorem quotient_tendsto {u v : ℕ → ℝ} {p κ : ℝ} (hp : 0 < p) (hu : Tendsto (fun n : ℕ => u n / (n : ℝ)) atTop (𝓝 p))
    (hv : Tendsto (fun n : ℕ => v n / (n : ℝ)) atTop (𝓝 (κ * p))) : Tendsto (fun n => v n / u n) atTop (𝓝 κ) := by
  have h := hv.div hu hp.ne'
  rw [mul_div_assoc, div_self hp.ne', mul_one] at h
  refine h.congr' ?_
  filter_upwards [eventually_gt_atTop 0] with n hn
  have hn' : (n : ℝ) ≠ 0 := by exact_mod_cast hn.ne'
  simp only [Pi.div_apply]
  field_simp

/-- If the share and the mean excess of the events at or above mc converge, so do the classic estimates. -/
theorem classicAbove_tendsto (X : ℕ → ℝ) (mc δ κ p : ℝ) (hκ : 0 < κ) (hp : 0 < p) (hδ : δ = 0 ∨ 1 / 10 ^ 12 ≤ δ ∧ ∀ i, ∃ z : ℤ, X i = z * δ)
    (hu : Tendsto (fun n : ℕ => (∑ i ∈ Finset.range n, if mc - δ / 2 ≤ X i then (1 : ℝ) else 0) / n) atTop (𝓝 p))
    (hv : Tendsto (fun n : ℕ => (∑ i ∈ Finset.range n, if mc - δ / 2 ≤ X i then X i - mc else 0) / n) atTop (𝓝 (κ * p))) :
    ∃ est : ℕ → ℝ, (∀ᶠ n in atTop, ∀ seen : ℕ → Prop, (∀ i < n, mc - δ / 2 ≤ X i → seen i) → ∀ warn s, Reachable .classic s →
        (calculate .classic warn s (callOf (recorded (firstMags X n) seen) mc δ none)).2 = .ok (.fin (est n))) ∧
      Tendsto est atTop (𝓝 (betaVal κ δ / Real.log 10)) := by
  have hδ0 : 0 ≤ δ := by
    rcases hδ with rfl | ⟨h, -⟩
    · exact le_rfl
    · exact le_trans (by positivity) h
  have hr := quotient_tendsto hp hu hv
  refine ⟨fun n => betaVal ((∑ i ∈ Finset.range n, if mc - δ / 2 ≤ X i then X i - mc else 0) / ∑ i ∈ Finset.range n, if mc - δ / 2 ≤ X i then (1 : ℝ) else 0) δ / Real.log 10,
    ?_, (betaVal_tendsto hδ0 hκ hr).div_const _⟩
  filter_upwards [eventually_gt_atTop 0, hu.eventually (lt_mem_nhds hp), hr.eventually (lt_mem_nhds hκ)] with n hn h1 h2 seen hseen warn s hs
  have hn' : (0 : ℝ) < n := by exact_mod_cast hn
  rw [calculate_recorded (Or.inl rfl) warn hs X n seen mc δ hseen hδ ((div_pos_iff_of_pos_right hn').1 h1)]
  simp only
  rw [betaOf_pos h2]
  rfl

/-- The same for the Utsu estimates. -/
theorem utsuAbove_tendsto (X : ℕ → ℝ) (mc δ κ p : ℝ) (hκ : 0 < κ + δ / 2) (hp : 0 < p) (hδ : δ = 0 ∨ 1 / 10 ^ 12 ≤ δ ∧ ∀ i, ∃ z : ℤ, X i = z * δ)
    (hu : Tendsto (fun n : ℕ => (∑ i ∈ Finset.range n, if mc - δ / 2 ≤ X i then (1 : ℝ) else 0) / n) atTop (𝓝 p))
    (hv : Tendsto (fun n : ℕ => (∑ i ∈ Finset.range n, if mc - δ / 2 ≤ X i then X i - mc else 0) / n) atTop (𝓝 (κ * p))) :
    ∃ est : ℕ → ℝ, (∀ᶠ n in atTop, ∀ seen : ℕ → Prop, (∀ i < n, mc - δ / 2 ≤ X i → seen i) → ∀ warn s, Reachable .utsu s →
        (calculate .utsu warn s (callOf (recorded (firstMags X n) seen) mc δ none)).2 = .ok (.fin (est n))) ∧
      Tendsto est atTop (𝓝 (1 / (κ + δ / 2) / Real.log 10)) := by
  have hr := (quotient_tendsto hp hu hv).add_const (δ / 2)
  refine ⟨fun n => 1 / ((∑ i ∈ Finset.range n, if mc - δ / 2 ≤ X i then X i - mc else 0) / (∑ i ∈ Finset.range n, if mc - δ / 2 ≤ X i then (1 : ℝ) else 0) + δ / 2) / Real.log 10,
    ?_, (tendsto_const_nhds.div hr hκ.ne').div_const _⟩
  filter_upwards [eventually_gt_atTop 0, hu.eventually (lt_mem_nhds hp), hr.eventually (lt_mem_nhds hκ)] with n hn h1 h2 seen hseen warn s hs
  have hn' : (0 : ℝ) < n := by exact_mod_cast hn
  rw [calculate_recorded (Or.inr rfl) warn hs X n seen mc δ hseen hδ ((div_pos_iff_of_pos_right hn').1 h1)]
  simp only [Fl.div, h2.ne', if_false]
  rfl

end
end SeismoStats.Props
