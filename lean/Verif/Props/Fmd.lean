/-
Properties C09, C10: frequency magnitude distributions.
-/
import Verif.Proofs.Fmd
import Verif.Spec.Binning
import Verif.Props.Binning

set_option linter.unusedSectionVars false

namespace SeismoStats.Props
open SeismoStats
variable {K : Type} [Field K] [LinearOrder K] [IsStrictOrderedRing K] [FloorRing K]

/-- The weights a call uses: ones if none are given. -/
def effWeights (mags : List K) : Option (List K) → List K
  | none => mags.map fun _ => 1
  | some w => w

theorem effWeights_eq (mags : List K) (w : Option (List K)) :
    w.getD (mags.map fun _ => 1) = effWeights mags w := by cases w <;> rfl

theorem weightWhere_eq_weightOf (mb w : List K) (p : K → Prop) [DecidablePred p] :
    weightWhere (List.zip mb w) (fun v => decide (p v)) = Spec.weightOf mb w p := by
  unfold Spec.weightOf
  generalize List.zip mb w = l
  induction l with
  | nil => simp [weightWhere]
  | cons q l ih => rw [weightWhere_cons, ih]; simp

theorem forall₂_mem_right {α β : Type*} {R : α → β → Prop} {l : List α} {l' : List β}
    (h : List.Forall₂ R l l') : ∀ v ∈ l', ∃ u, u ∈ l ∧ R u v := by
  induction h with
  | nil => simp
  | cons hab _ ih =>
    intro v hv
    rcases List.mem_cons.1 hv with rfl | hv
    · exact ⟨_, by simp, hab⟩
    · obtain ⟨u, hu, hr⟩ := ih v hv
      exact ⟨u, by simp [hu], hr⟩

theorem sum_map_snd_zip (x w : List K) (h : w.length = x.length) :
    ((List.zip x w).map Prod.snd).sum = w.sum := by
  rw [List.map_snd_zip (by omega)]

/-- C09: `get_fmd` for `fmd_bin ≥ 1e-12`, non-empty magnitudes and matching weights:
the result is the frequency magnitude distribution, and the counts add up to the
total weight; `'left'` only shifts the reported bins by half a bin. -/
theorem C09_get_fmd (mags : List K) (δ : K) (weights : Option (List K)) (pos : BinPos)
    (hδ : 1 / 10 ^ 12 ≤ δ) (hne : mags ≠ []) (hpos : pos ≠ .other)
    (hw : (effWeights mags weights).length = mags.length) :
    ∃ bins counts mb, getFmd mags δ weights pos = .ok (bins, counts, mb) ∧
      List.Forall₂ (Spec.RoundsTo (1 / 10 ^ 12) δ) mags mb ∧
      Spec.IsFmd δ mb (effWeights mags weights)
        (if pos = .left then bins.map (fun b => b + δ / 2) else bins) counts ∧
      counts.sum = (effWeights mags weights).sum := by
  have hp : 0 < δ := lt_of_lt_of_le (by positivity) hδ
  obtain ⟨a, n, hn, hlo, hhi, heq⟩ := getFmd_eq mags δ weights pos hδ hne
    (fun w h => by subst h; simpa [effWeights] using hw)
  rw [effWeights_eq] at heq
  set w := effWeights mags weights with hwdef
  set mb := mags.map (binTo δ) with hmb
  have hround : List.Forall₂ (Spec.RoundsTo (1 / 10 ^ 12) δ) mags mb := by
    rw [hmb, List.forall₂_map_right_iff, List.forall₂_same]
    intro v _
    exact ⟨⟨_, rfl⟩, by have := binTo_le hp v; unfold eps at this; linarith,
      by have := lt_binTo hp v; unfold eps at this; linarith⟩
  set counts := (grid a n δ).map fun c => weightWhere (List.zip mb w) fun v => decide (v = c)
    with hcounts
  have hfmd : Spec.IsFmd δ mb w (grid a n δ) counts := by
    refine ⟨?_, by simp [hcounts], ?_, ?_, ?_, ?_, ?_⟩
    · intro h
      have := grid_length a n δ
      rw [h] at this; simp at this; omega
    · intro c hc
      obtain ⟨i, _, rfl⟩ := List.mem_map.1 hc
      exact ⟨_, rfl⟩
    · intro i h
      rw [grid_length] at h
      rw [grid_getElem _ _ _ i (by omega), grid_getElem _ _ _ (i + 1) h]
      push_cast; ring
    · intro h
      rw [grid_length] at h
      rw [grid_getElem _ _ _ _ h]
      simpa using hlo
    · intro h
      simp only [grid_length] at h ⊢
      rw [grid_getElem _ _ _ _ (by omega)]
      rw [show a + ((n - 1 : ℕ) : ℤ) = a + n - 1 by omega]
      exact hhi
    · intro i h h'
      simp only [hcounts, List.getElem_map]
      exact weightWhere_eq_weightOf mb w _
  have hsum : counts.sum = w.sum := by
    rw [hcounts, sum_weightWhere _ ((grid_sorted a n hp).imp (fun h => h.ne)),
      weightWhere_congr (p' := fun _ => true)]
    · unfold weightWhere
      simp only [List.filter_true]
      exact sum_map_snd_zip mb w (by rw [hw, hmb]; simp)
    · rintro ⟨v, u⟩ hq
      have hv : v ∈ mb := (List.of_mem_zip hq).1
      obtain ⟨k, rfl⟩ := exists_int_of_mem_binned hv
      have h1 : a ≤ k := by
        have := le_of_mul_le_mul_right (hlo.2 hv) hp; exact_mod_cast this
      have h2 : k ≤ a + n - 1 := by
        have := le_of_mul_le_mul_right (hhi.2 hv) hp; exact_mod_cast this
      simpa using mem_grid a n δ k h1 (by omega)
  cases pos with
  | other => exact absurd rfl hpos
  | center => exact ⟨_, _, _, heq, hround, by simpa using hfmd, hsum⟩
  | left =>
    refine ⟨_, _, _, heq, hround, ?_, hsum⟩
    simpa [List.map_map, Function.comp_def] using hfmd

/-- C09: the error cases. -/
theorem C09_nonpositive_bin_raises (mags : List K) (δ : K) (w : Option (List K)) (pos : BinPos)
    (h : δ ≤ 0) : getFmd mags δ w pos = .error .valueError := by
  unfold getFmd; rw [if_pos h]

/-- C09: a bin size between 0 and 1e-12, no magnitudes, or a weight list of another length: ValueError. -/
theorem C09_bad_input_raises (mags : List K) (δ : K) (w : Option (List K)) (pos : BinPos)
    (h : δ < 1 / 10 ^ 12 ∨ mags = [] ∨ (effWeights mags w).length ≠ mags.length) :
    getFmd mags δ w pos = .error .valueError := by
  unfold getFmd
  by_cases h0 : δ ≤ 0
  · rw [if_pos h0]
  rw [if_neg h0]
  unfold binArr eps
  by_cases h1 : δ < 1 / 10 ^ 12
  · rw [if_pos h1]; rfl
  rw [if_neg h1]
  by_cases h2 : mags = []
  · subst h2; rfl
  rcases h with h | h | h
  · exact absurd h h1
  · exact absurd h h2
  · obtain ⟨m, r, rfl⟩ := List.exists_cons_of_ne_nil h2
    simp only [effWeights] at h
    simp only [bind, Except.bind, List.map_cons, amin?, amax?, if_neg h1]
    rw [if_pos]
    rw [List.length_cons, List.length_map]
    cases w with
    | none => simp at h
    | some w => simpa using h

example : ([1, 2] : List ℚ) ≠ [] ∧ (effWeights ([1, 2] : List ℚ) (some [1])).length ≠ ([1, 2] : List ℚ).length := by
  simp [effWeights]

theorem C09_bad_position_raises (mags : List K) (δ : K) (hδ : 1 / 10 ^ 12 ≤ δ) (hne : mags ≠ []) :
    getFmd mags δ none .other = .error .assertionError := by
  obtain ⟨a, n, -, -, -, heq⟩ := getFmd_eq mags δ none .other hδ hne (by simp)
  exact heq

example : (1 : ℚ) / 10 ^ 12 ≤ 1 / 10 ∧ ([1, 12 / 10] : List ℚ) ≠ [] ∧
    (effWeights ([1, 12 / 10] : List ℚ) (some [2, 3])).length = 2 := by
  refine ⟨by norm_num, by simp, rfl⟩

/-- C10: `get_cum_fmd` with `fmd_bin ≥ 1e-12`: same bins and binned magnitudes as
`get_fmd`; the count of a bin is the weight of the events whose binned magnitude is at
or above it. -/
theorem C10_get_cum_fmd (mags : List K) (δ : K) (weights : Option (List K)) (pos : BinPos)
    (hδ : 1 / 10 ^ 12 ≤ δ) (hne : mags ≠ []) (hpos : pos ≠ .other)
    (hw : (effWeights mags weights).length = mags.length) :
    ∃ bins counts mb ccounts, getFmd mags δ weights pos = .ok (bins, counts, mb) ∧
      getCumFmd mags δ weights pos = .ok (bins, ccounts, mb) ∧
      ccounts.length = bins.length ∧
      ∀ i (h : i < bins.length) (h' : i < ccounts.length),
        ccounts[i] = Spec.weightOf mb (effWeights mags weights)
          ((if pos = .left then bins[i] + δ / 2 else bins[i]) ≤ ·) := by
  have hp : 0 < δ := lt_of_lt_of_le (by positivity) hδ
  obtain ⟨bins, counts, mb, heq, hr, hf, hs⟩ := C09_get_fmd mags δ weights pos hδ hne hpos hw
  have hcum : getCumFmd mags δ weights pos = .ok (bins, revCumsum counts, mb) := by
    unfold getCumFmd
    rw [if_neg hp.ne', heq]; rfl
  set centers := (if pos = .left then bins.map (fun b => b + δ / 2) else bins) with hc
  have hlen : centers.length = bins.length := by rw [hc]; split <;> simp
  have hcl : counts.length = bins.length := by rw [hf.length, hlen]
  refine ⟨bins, counts, mb, _, heq, hcum, by rw [length_revCumsum, hcl], fun i h h' => ?_⟩
  have hci : (if pos = .left then bins[i] + δ / 2 else bins[i]) = centers[i]'(by omega) := by
    by_cases hl : pos = .left
    · simp [hc, hl]
    · simp [hc, hl]
  simp only [hci]
  rw [revCumsum_getElem _ _ (by omega)]
  -- counts as weights per centre
  have hcnt : counts = centers.map fun c => weightWhere (List.zip mb (effWeights mags weights))
      fun v => decide (v = c) := by
    apply List.ext_getElem
    · simp [hf.length]
    · intro j h1 h2
      rw [hf.count j (by rw [← hf.length]; exact h1) h1, List.getElem_map]
      exact (weightWhere_eq_weightOf mb _ _).symm
  have hsorted : centers.Pairwise (· < ·) := by
    rw [← List.isChain_iff_pairwise, List.isChain_iff_getElem]
    intro j hj
    rw [hf.step j (by omega)]; linarith
  have hmem : ∀ v ∈ mb, v ∈ centers := by
    intro v hv
    by_contra hcon
    -- every centre count sums to the total, but `v` itself must have a centre
    have hl0 : 0 < centers.length := List.length_pos_iff.2 hf.nonempty
    have hk : ∃ k : ℤ, v = (k : K) * δ := (forall₂_mem_right hr v hv).elim fun _ h => h.2.1
    obtain ⟨k, rfl⟩ := hk
    obtain ⟨a, ha⟩ := hf.multiple _ (List.getElem_mem hl0)
    have hall : ∀ j (hj : j < centers.length), centers[j] = ((a + j : ℤ) : K) * δ := by
      intro j
      induction j with
      | zero => intro hj; rw [ha]; simp
      | succ j ih => intro hj; rw [hf.step j hj, ih (by omega)]; push_cast; ring
    have h1 : a ≤ k := by
      have := (hf.first hl0).2 hv
      rw [ha] at this
      exact_mod_cast le_of_mul_le_mul_right this hp
    have h2 : k ≤ a + (centers.length - 1 : ℕ) := by
      have := (hf.last (by omega)).2 hv
      rw [hall] at this
      exact_mod_cast le_of_mul_le_mul_right this hp
    apply hcon
    rw [List.mem_iff_getElem]
    refine ⟨(k - a).toNat, by omega, ?_⟩
    rw [hall]; congr 2; omega
  rw [congrArg (List.drop i) hcnt, ← List.map_drop, sum_weightWhere _
    ((hsorted.imp (fun h => h.ne)).sublist (List.drop_sublist _ _)),
    ← weightWhere_eq_weightOf]
  apply weightWhere_congr
  rintro ⟨v, u⟩ hq
  rw [Bool.eq_iff_iff, decide_eq_true_eq, decide_eq_true_eq]
  exact mem_drop_iff_of_sorted centers hsorted i (by omega) v (hmem v (List.of_mem_zip hq).1)

/-- Weight at or above a threshold is antitone in the threshold for non-negative weights. -/
theorem weightOf_antitone (mb w : List K) (hw : ∀ x ∈ w, 0 ≤ x) {s t : K} (h : s ≤ t) :
    Spec.weightOf mb w (t ≤ ·) ≤ Spec.weightOf mb w (s ≤ ·) := by
  unfold Spec.weightOf
  apply List.sum_le_sum
  rintro ⟨v, u⟩ hq
  have hu := hw u (List.of_mem_zip hq).2
  simp only
  split_ifs with h1 h2
  · exact le_rfl
  · exact absurd (h.trans h1) h2
  · exact hu
  · exact le_rfl

/-- C10: cumulative counts never increase and the first one is the total weight. -/
theorem C10_monotone_and_total (mags : List K) (δ : K) (weights : Option (List K)) (pos : BinPos)
    (hδ : 1 / 10 ^ 12 ≤ δ) (hne : mags ≠ []) (hpos : pos ≠ .other)
    (hw : (effWeights mags weights).length = mags.length)
    (hnn : ∀ x ∈ effWeights mags weights, 0 ≤ x) :
    ∃ bins ccounts mb, getCumFmd mags δ weights pos = .ok (bins, ccounts, mb) ∧
      (∀ i (h : i + 1 < ccounts.length), ccounts[i + 1] ≤ ccounts[i]) ∧
      ∃ h : 0 < ccounts.length, ccounts[0] = (effWeights mags weights).sum := by
  obtain ⟨bins, counts, mb, cc, heq, hcum, hlen, hcc⟩ :=
    C10_get_cum_fmd mags δ weights pos hδ hne hpos hw
  obtain ⟨bins', counts', mb', heq', hr, hf, hs⟩ := C09_get_fmd mags δ weights pos hδ hne hpos hw
  rw [heq] at heq'
  cases heq'
  have hp : 0 < δ := lt_of_lt_of_le (by positivity) hδ
  refine ⟨bins, cc, mb, hcum, fun i h => ?_, ?_⟩
  · rw [hcc i (by omega) (by omega), hcc (i + 1) (by omega) h]
    apply weightOf_antitone _ _ hnn
    by_cases hl : pos = .left
    · have := hf.step i (by simp [hl]; omega)
      simp only [hl, if_true, List.getElem_map] at this ⊢
      linarith
    · have := hf.step i (by simp [hl]; omega)
      simp only [hl, if_false] at this ⊢
      linarith
  · have hp0 : 0 < cc.length := by
      have := List.length_pos_iff.2 hf.nonempty
      have h2 : (if pos = .left then bins.map (fun b => b + δ / 2) else bins).length = bins.length := by
        split <;> simp
      omega
    refine ⟨hp0, ?_⟩
    have hc2 : getCumFmd mags δ weights pos = .ok (bins, revCumsum counts, mb) := by
      unfold getCumFmd
      rw [if_neg hp.ne', heq]; rfl
    rw [hcum] at hc2
    simp only [Except.ok.injEq, Prod.mk.injEq, true_and, and_true] at hc2
    subst hc2
    rw [revCumsum_getElem _ _ (by rwa [length_revCumsum] at hp0), List.drop_zero, hs]

/-- C10, `fmd_bin = 0`: the bins are the distinct magnitudes in increasing order, the
magnitudes are returned unchanged and the count of a bin is the weight of the magnitudes at
or above it (`bin_position` is ignored). -/
theorem C10_unbinned (mags : List K) (weights : Option (List K)) (pos : BinPos)
    (hw : (effWeights mags weights).length = mags.length) :
    ∃ bins cc, getCumFmd mags 0 weights pos = .ok (bins, cc, mags) ∧
      bins.Pairwise (· < ·) ∧ (∀ v, v ∈ bins ↔ v ∈ mags) ∧ cc.length = bins.length ∧
      ∀ i (h : i < bins.length) (h' : i < cc.length),
        cc[i] = Spec.weightOf mags (effWeights mags weights) (bins[i] ≤ ·) := by
  have hmem : ∀ v, v ∈ uniqueSorted mags ↔ v ∈ mags := by
    intro v; simp [uniqueSorted]
  have hsorted : (uniqueSorted mags).Pairwise (· < ·) := by
    unfold uniqueSorted
    have h1 : (mags.insertionSort (· ≤ ·)).Pairwise (· ≤ ·) := List.pairwise_insertionSort _ _
    have h2 := h1.sublist (List.dedup_sublist (mags.insertionSort (· ≤ ·)))
    have h3 := List.nodup_dedup (mags.insertionSort (· ≤ ·))
    exact (h2.and h3).imp (fun h => lt_of_le_of_ne h.1 h.2)
  refine ⟨uniqueSorted mags, revCumsum ((uniqueSorted mags).map fun b =>
    weightWhere (List.zip mags (effWeights mags weights)) fun m => decide (m = b)), ?_, hsorted,
    hmem, by simp [length_revCumsum], fun i h h' => ?_⟩
  · unfold getCumFmd
    rw [if_pos rfl, effWeights_eq]
    simp [hw]
  · rw [revCumsum_getElem _ _ (by simpa using h), ← List.map_drop, sum_weightWhere _
      ((hsorted.imp (fun h => h.ne)).sublist (List.drop_sublist _ _)),
      ← weightWhere_eq_weightOf]
    apply weightWhere_congr
    rintro ⟨v, u⟩ hq
    rw [Bool.eq_iff_iff, decide_eq_true_eq, decide_eq_true_eq]
    exact mem_drop_iff_of_sorted _ hsorted i h v ((hmem v).2 (List.of_mem_zip hq).1)

example : getCumFmd ([2, 1, 2] : List ℚ) 0 none .center = .ok ([1, 2], [3, 2], [2, 1, 2]) := by
  decide +kernel

end SeismoStats.Props
