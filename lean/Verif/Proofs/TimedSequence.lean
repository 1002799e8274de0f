/-
The a-value estimators on the first `n` members of a sequence of magnitudes with increasing times (for C105 and C106).
-/
import Verif.Props.AValueRate
import Verif.Props.ConsistencyMore
import Verif.Spec.Times

namespace SeismoStats.Props
open SeismoStats Filter Topology
open SeismoStats.AValue (toB tAt posPairs morRanks posRaw morRaw raw calculate_snd)
open SeismoStats.BValue (usedIdx timeOrder)
open Classical
noncomputable section

/-- The first `n` events. -/
def timedCall (X t : ℕ → ℝ) (mc δ d b : ℝ) (n : ℕ) : AValue.Args :=
  { mags := (firstMags X n).map some, mc := mc, δ := δ, times := (List.range n).map t, b := some b, dmc := some d }

theorem usedIdx_timed {X : ℕ → ℝ} {mc δ : ℝ} (hlow : ∀ i, mc - δ / 2 ≤ X i) (t : ℕ → ℝ) (d b : ℝ) (n : ℕ) : usedIdx (toB (timedCall X t mc δ d b n)) = List.range n := by
  have h := usedIdx_all (firstMags X n) mc δ (some d) (fun m hm => by obtain ⟨i, rfl⟩ := mem_firstMags hm; exact hlow i)
  rw [firstMags_length] at h
  exact h

theorem tAt_timed (X t : ℕ → ℝ) (mc δ d b : ℝ) {n i : ℕ} (hi : i < n) : tAt (timedCall X t mc δ d b n) i = t i := by
  unfold tAt timedCall
  simp only
  rw [List.getD_eq_getElem _ _ (by simpa using hi)]
  simp

theorem magOf_timed (X t : ℕ → ℝ) (mc δ d b : ℝ) {n i : ℕ} (hi : i < n) : magOf (toB (timedCall X t mc δ d b n)) i = X i := by
  unfold magOf toB timedCall firstMags
  simp only [List.map_map]
  rw [List.getD_eq_getElem _ _ (by simpa using hi)]
  simp

theorem order_timed {X t : ℕ → ℝ} {mc δ : ℝ} (hlow : ∀ i, mc - δ / 2 ≤ X i) (ht : Monotone t) (d b : ℝ) (n : ℕ) :
    timeOrder (toB (timedCall X t mc δ d b n)) = List.range n := by
  unfold timeOrder
  have e : (toB (timedCall X t mc δ d b n)).times = some ((List.range n).map t) := rfl
  rw [e]
  simp only
  rw [usedIdx_timed hlow]
  have e2 : ((List.range n).map fun i => ((List.range n).map t).getD i 0) = (List.range n).map t := by
    apply List.map_congr_left
    intro i hi
    rw [List.getD_eq_getElem _ _ (by simpa using hi)]
    simp
  rw [e2, argsort_of_sorted]
  · rw [List.length_map, List.length_range]
    unfold BValue.take'
    exact (List.map_congr_left fun i hi => by rw [List.getD_eq_getElem _ _ (by simpa using hi)]; simp).trans (List.map_id _)
  · rw [List.pairwise_map]
    exact (List.pairwise_lt_range (n := n)).imp fun h => ht h.le

/-- The call is accepted, and returns the value of the class. -/
theorem result_timed {c : AValue.Cls} {X t : ℕ → ℝ} {mc δ d b : ℝ} (hlow : ∀ i, mc - δ / 2 ≤ X i) (hδ : δ = 0 ∨ 1 / 10 ^ 12 ≤ δ ∧ ∀ i, ∃ z : ℤ, X i = z * δ)
    (hd : 0 ≤ d) (hb : b ≠ 0) {n : ℕ} (hn : 0 < n) (warn : Bool) (s : AValue.State) :
    (AValue.calculate c warn s (timedCall X t mc δ d b n)).2 = .ok (raw c (timedCall X t mc δ d b n)) := by
  have hacc : Accepted (callOf (firstMags X n) mc δ (some d)) := accepted_all _ mc δ _ (by
    rcases hδ with h | ⟨h1, h2⟩
    · exact Or.inl h
    · exact Or.inr ⟨h1, fun m hm => by obtain ⟨i, rfl⟩ := mem_firstMags hm; exact h2 i⟩)
  rw [calculate_snd, result_nonempty (c := c) (x := timedCall X t mc δ d b n) ((checkBinning_ok _ _).1 ((accepted_iff _).1 hacc).1)
    (Or.inr (by simp [timedCall, firstMags])) ⟨Or.inr hd, fun _ => ⟨b, rfl, hb⟩⟩ (by rw [← used_length_count, usedIdx_timed hlow]; simpa using hn)]
  rfl

theorem duration_timed {X t : ℕ → ℝ} {mc δ : ℝ} (hlow : ∀ i, mc - δ / 2 ≤ X i) (ht : Monotone t) (d b : ℝ) {n : ℕ} (hn : 0 < n) :
    duration (tAt (timedCall X t mc δ d b n)) (timeOrder (toB (timedCall X t mc δ d b n))) = t (n - 1) - t 0 := by
  rw [order_timed hlow ht]
  obtain ⟨m, rfl⟩ : ∃ m, n = m + 1 := ⟨n - 1, by omega⟩
  unfold duration
  have h1 : (List.range (m + 1)).getLastD 0 = m := by rw [List.range_succ]; simp
  have h2 : (List.range (m + 1)).headD 0 = 0 := by rw [List.range_succ_eq_map]; rfl
  rw [h1, h2, tAt_timed _ _ _ _ _ _ (Nat.lt_succ_self m), tAt_timed _ _ _ _ _ _ (Nat.succ_pos m)]
  rfl

theorem isRate_value {k : ℕ} {total waited : ℝ} {r : Fl ℝ} (h : IsRate k total waited r) (hw : 0 < waited) (hk : 0 < k) :
    r = .fin (Real.log (k / (waited / total)) / Real.log 10) := by
  obtain ⟨a, h1, h2⟩ := h.rate hw
  have ht := h.total_pos hw
  have hp : (0 : ℝ) < k / (waited / total) := div_pos (by exact_mod_cast hk) (div_pos hw ht)
  rw [h1, ← h2, Real.log_rpow (by norm_num), mul_div_cancel_right₀ _ log10_pos.ne']

/-! ### a-positive -/

theorem posPairs_timed {X t : ℕ → ℝ} {mc δ : ℝ} (hlow : ∀ i, mc - δ / 2 ≤ X i) (ht : Monotone t) (d b : ℝ) (m : ℕ) :
    posPairs (timedCall X t mc δ d b (m + 1)) = ((List.range m).filter fun i => decide (d - δ / 2 ≤ X (i + 1) - X i)).map fun i => (i, i + 1) := by
  unfold posPairs growing
  rw [order_timed hlow ht, zip_range_tail, List.filter_map]
  congr 1
  apply List.filter_congr
  intro i hi
  rw [List.mem_range] at hi
  simp only [Function.comp_apply]
  rw [magOf_timed _ _ _ _ _ _ (by omega), magOf_timed _ _ _ _ _ _ (by omega)]
  rfl

/-- The a-positive value of the first `m + 1` events. -/
theorem positive_timed {X t : ℕ → ℝ} {mc δ d b : ℝ} (hlow : ∀ i, mc - δ / 2 ≤ X i) (ht : StrictMono t) {m : ℕ} (hK : 0 < growCount X (d - δ / 2) m) :
    raw .positive (timedCall X t mc δ d b (m + 1)) =
      .fin (Real.log (growCount X (d - δ / 2) m / ((∑ i ∈ Finset.range m, if d - δ / 2 ≤ X (i + 1) - X i then t (i + 1) - t i else 0) / (t m - t 0))) / Real.log 10) := by
  have hpp := posPairs_timed hlow ht.monotone d b m
  set x := timedCall X t mc δ d b (m + 1) with hx
  have hlen : ((posPairs x).length : ℝ) = growCount X (d - δ / 2) m := by
    rw [hpp, List.length_map]
    unfold growCount
    rw [← sum_filter_range m (fun i => d - δ / 2 ≤ X (i + 1) - X i) fun _ => 1]
    simp
  have hpos : 0 < (posPairs x).length := by
    have : (0 : ℝ) < (posPairs x).length := by rw [hlen]; exact hK
    exact_mod_cast this
  have hne : posPairs x ≠ [] := List.length_pos_iff.1 hpos
  have hsum : ((posPairs x).map fun p => tAt x p.2 - tAt x p.1).sum = ∑ i ∈ Finset.range m, if d - δ / 2 ≤ X (i + 1) - X i then t (i + 1) - t i else 0 := by
    rw [← sum_filter_range m (fun i => d - δ / 2 ≤ X (i + 1) - X i) fun i => t (i + 1) - t i, hpp, List.map_map]
    congr 1
    apply List.map_congr_left
    intro i hi
    have hi' := List.mem_range.1 (List.mem_filter.1 hi).1
    simp only [Function.comp_apply]
    rw [hx, tAt_timed _ _ _ _ _ _ (by omega), tAt_timed _ _ _ _ _ _ (by omega)]
  have hr := posRaw_rate x hne
  rw [hsum, hx, duration_timed hlow ht.monotone d b (Nat.succ_pos m), ← hx, Nat.succ_sub_one] at hr
  have hw : 0 < ∑ i ∈ Finset.range m, if d - δ / 2 ≤ X (i + 1) - X i then t (i + 1) - t i else 0 := by
    rw [← hsum]
    apply List.sum_pos
    · intro y hy
      obtain ⟨p, hp, rfl⟩ := List.mem_map.1 hy
      rw [hpp] at hp
      obtain ⟨i, hi, rfl⟩ := List.mem_map.1 hp
      have hi' := List.mem_range.1 (List.mem_filter.1 hi).1
      simp only
      rw [hx, tAt_timed _ _ _ _ _ _ (by omega), tAt_timed _ _ _ _ _ _ (by omega)]
      exact sub_pos.2 (ht (Nat.lt_succ_self i))
    · simpa using hne
  have := isRate_value hr hw hpos
  rw [hlen] at this
  exact this

/-! ### a-more-positive -/

/-- No event between `i` and `j` is larger than that of `i` by at least `thr`. -/
def stillWaiting (X : ℕ → ℝ) (thr : ℝ) (i j : ℕ) : Prop := ∀ l, i < l → l < j → X l - X i < thr

/-- Scaled waiting time during all intervals between consecutive events. -/
def waitedMore (X w D : ℕ → ℝ) (thr : ℝ) (n : ℕ) : ℝ := ∑ j ∈ Finset.range n, w j * ∑ i ∈ Finset.range j, (if stillWaiting X thr i j then 1 else 0) * D i

theorem time_diff (w : ℕ → ℝ) {i J : ℕ} (h : i ≤ J) : (∑ k ∈ Finset.range (J + 1), w k) - ∑ k ∈ Finset.range (i + 1), w k = ∑ k ∈ Finset.Ico (i + 1) (J + 1), w k :=
  (Finset.sum_Ico_eq_sub w (by omega)).symm

theorem morRanks_timed {X t : ℕ → ℝ} {mc δ : ℝ} (hlow : ∀ i, mc - δ / 2 ≤ X i) (ht : Monotone t) (d b : ℝ) (n : ℕ) :
    morRanks (timedCall X t mc δ d b n) = ranksOf (firstMags X n) δ d := by
  unfold morRanks
  rw [order_timed hlow ht]
  have : (List.range n).map (magOf (toB (timedCall X t mc δ d b n))) = firstMags X n :=
    List.map_congr_left fun i hi => magOf_timed _ _ _ _ _ _ (List.mem_range.1 hi)
  rw [this]
  rfl

/-- Waiting time of one event as a sum over intervals. -/
theorem waitOf_timed (X w : ℕ → ℝ) (δ d : ℝ) (x : ℕ → ℝ) {n i : ℕ} (hi : i < n) (hx : ∀ k < n, x k = ∑ l ∈ Finset.range (k + 1), w l) :
    waitOf x (List.range n) (ranksOf (firstMags X n) δ d) i = ∑ j ∈ Finset.range n, if i < j ∧ stillWaiting X (d - δ / 2) i j then w j else 0 := by
  have hR := ranksOf_spec (firstMags X n) δ d
  set R := ranksOf (firstMags X n) δ d with hRd
  have hmem : ∀ j, (i, j) ∈ R ↔ j < n ∧ NextIdx X (d - δ / 2) i j := fun j => by rw [hR.mem, firstLarger_iff]
  have hget : ∀ k < n, (List.range n).getD k 0 = k := fun k hk => by rw [List.getD_eq_getElem _ _ (by simpa using hk)]; simp
  -- the last interval of the wait
  have key : ∀ J, J < n → i ≤ J → (∀ j, i < j → j < n → (stillWaiting X (d - δ / 2) i j ↔ j ≤ J)) →
      x J - x i = ∑ j ∈ Finset.range n, if i < j ∧ stillWaiting X (d - δ / 2) i j then w j else 0 := by
    intro J hJ hiJ h
    rw [hx J hJ, hx i hi, time_diff w hiJ, ← Finset.sum_filter]
    apply Finset.sum_congr _ fun _ _ => rfl
    ext j
    rw [Finset.mem_filter, Finset.mem_range, Finset.mem_Ico]
    constructor
    · rintro ⟨h1, h2⟩
      exact ⟨by omega, by omega, (h j (by omega) (by omega)).2 (by omega)⟩
    · rintro ⟨h1, h2, h3⟩
      have := (h j h2 h1).1 h3
      omega
  unfold waitOf
  cases hl : R.lookup i with
  | some J =>
    obtain ⟨hJ, h1, h2, h3⟩ := (hmem J).1 (lookup_mem hl)
    simp only
    rw [hget J hJ, hget i hi]
    apply key J hJ h1.le
    intro j hij hj
    constructor
    · intro hs
      by_contra hc
      exact absurd h2 (not_le.2 (hs J h1 (by omega)))
    · intro hjJ l l1 l2
      exact h3 l l1 (by omega)
  | none =>
    simp only
    have hlast : (List.range n).getLastD 0 = n - 1 := by
      obtain ⟨m, rfl⟩ : ∃ m, n = m + 1 := ⟨n - 1, by omega⟩
      rw [List.range_succ]; simp
    rw [hlast, hget i hi]
    apply key (n - 1) (by omega) (by omega)
    intro j hij hj
    refine ⟨fun _ => by omega, fun _ => ?_⟩
    intro l l1 l2
    by_contra hc
    -- otherwise there is a first one
    have hex : ∃ k, i < k ∧ d - δ / 2 ≤ X k - X i := ⟨l, l1, not_lt.1 hc⟩
    have hf := Nat.find_spec hex
    have hmin : ∀ k, i < k → k < Nat.find hex → X k - X i < d - δ / 2 := by
      intro k k1 k2
      by_contra hk
      exact Nat.find_min hex k2 ⟨k1, not_lt.1 hk⟩
    have hle : Nat.find hex ≤ l := Nat.find_min' hex ⟨l1, not_lt.1 hc⟩
    have hin := (hmem (Nat.find hex)).2 ⟨by omega, hf.1, hf.2, hmin⟩
    rw [lookup_of_mem hR.increasing hin] at hl
    cases hl

/-- The a-more-positive value of the first `n` events. -/
theorem morePositive_timed {X w : ℕ → ℝ} {mc δ d b : ℝ} (hlow : ∀ i, mc - δ / 2 ≤ X i) (hw : ∀ i, 0 < w i) {n : ℕ} (hK : 0 < nextPairSum X (d - δ / 2) (fun _ _ => 1) n) :
    raw .morePositive (timedCall X (fun i => ∑ k ∈ Finset.range (i + 1), w k) mc δ d b n) =
      .fin (Real.log (nextPairSum X (d - δ / 2) (fun _ _ => 1) n /
        (waitedMore X w (fun i => damp b d mc (X i)) (d - δ / 2) n / ((∑ k ∈ Finset.range n, w k) - w 0))) / Real.log 10) := by
  set t : ℕ → ℝ := fun i => ∑ k ∈ Finset.range (i + 1), w k with ht
  have htm : StrictMono t := strictMono_nat_of_lt_succ fun i => by
    rw [ht]; simp only; rw [Finset.sum_range_succ _ (i + 1)]; linarith [hw (i + 1)]
  have hn : 0 < n := by
    rcases Nat.eq_zero_or_pos n with rfl | h
    · simp [nextPairSum] at hK
    · exact h
  have hR := morRanks_timed hlow htm.monotone d b n
  have hS := ranksOf_spec (firstMags X n) δ d
  set x := timedCall X t mc δ d b n with hx
  have hlen : ((morRanks x).length : ℝ) = nextPairSum X (d - δ / 2) (fun _ _ => 1) n := by
    rw [hR, ← sum_ranks X _ n hS fun _ _ => 1]
    simp
  have hpos : 0 < (morRanks x).length := by
    have : (0 : ℝ) < (morRanks x).length := by rw [hlen]; exact hK
    exact_mod_cast this
  have hne : morRanks x ≠ [] := List.length_pos_iff.1 hpos
  have hr := morRaw_rate x hne
  have hsum : ((List.range (timeOrder (toB x)).length).map fun i =>
        waitOf (tAt x) (timeOrder (toB x)) (morRanks x) i *
        damp (x.b.getD 0) (x.dmc.getD x.δ) x.mc (magOf (toB x) ((timeOrder (toB x)).getD i 0))).sum = waitedMore X w (fun i => damp b d mc (X i)) (d - δ / 2) n := by
    rw [hR, order_timed hlow htm.monotone, List.length_range]
    have e1 : ((List.range n).map fun i => waitOf (tAt x) (List.range n) (ranksOf (firstMags X n) δ d) i *
        damp (x.b.getD 0) (x.dmc.getD x.δ) x.mc (magOf (toB x) ((List.range n).getD i 0))) =
        (List.range n).map fun i => ∑ j ∈ Finset.range n, if i < j then w j * ((if stillWaiting X (d - δ / 2) i j then 1 else 0) * damp b d mc (X i)) else 0 := by
      apply List.map_congr_left
      intro i hi
      have hi' := List.mem_range.1 hi
      rw [waitOf_timed X w δ d (tAt x) hi' fun k hk => tAt_timed _ _ _ _ _ _ hk, List.getD_eq_getElem _ _ (by simpa using hi'), List.getElem_range, magOf_timed _ _ _ _ _ _ hi', Finset.sum_mul]
      apply Finset.sum_congr rfl
      intro j _
      change _ * damp b d mc (X i) = _
      by_cases h1 : i < j
      · by_cases h2 : stillWaiting X (d - δ / 2) i j
        · rw [if_pos ⟨h1, h2⟩, if_pos h1, if_pos h2, one_mul]
        · rw [if_neg fun h => h2 h.2, if_pos h1, if_neg h2]; ring
      · rw [if_neg fun h => h1 h.1, if_neg h1, zero_mul]
    rw [e1]
    refine (firstMags_sum _ n).trans ?_
    rw [Finset.sum_comm]
    unfold waitedMore
    apply Finset.sum_congr rfl
    intro j hj
    rw [← Finset.sum_filter, Finset.mul_sum]
    apply Finset.sum_congr _ fun _ _ => rfl
    ext i
    rw [Finset.mem_filter, Finset.mem_range, Finset.mem_range]
    have := Finset.mem_range.1 hj
    omega
  have hdur : t (n - 1) - t 0 = (∑ k ∈ Finset.range n, w k) - w 0 := by
    rw [ht]; simp only
    rw [show n - 1 + 1 = n by omega]; simp
  rw [hsum, hx, duration_timed hlow htm.monotone d b hn, ← hx, hdur] at hr
  have hwp : 0 < waitedMore X w (fun i => damp b d mc (X i)) (d - δ / 2) n := by
    have hn2 : 1 < n := by
      obtain ⟨⟨i, j⟩, hij⟩ := List.exists_mem_of_ne_nil _ hne
      have h := morRanks_lt hij
      rw [order_timed hlow htm.monotone, List.length_range] at h
      omega
    unfold waitedMore
    refine Finset.sum_pos' (fun j _ => mul_nonneg (hw j).le (Finset.sum_nonneg fun i _ => mul_nonneg (by split_ifs <;> norm_num) (damp_pos _ _ _ _).le)) ⟨1, Finset.mem_range.2 hn2, ?_⟩
    apply mul_pos (hw 1)
    rw [Finset.sum_range_one, if_pos (show stillWaiting X (d - δ / 2) 0 1 from fun l h1 h2 => by omega), one_mul]
    exact damp_pos _ _ _ _
  have := isRate_value hr hwp hpos
  rw [hlen] at this
  exact this

/-! ### Limits -/

/-- Limit of an a-value less the logarithm of the number of events. -/
theorem rate_tendsto {K W T : ℕ → ℝ} {k q τ : ℝ} (hk : 0 < k) (hq : 0 < q) (hτ : 0 < τ) (h1 : Tendsto (fun n : ℕ => K n / n) atTop (𝓝 k))
    (h2 : Tendsto (fun n : ℕ => W n / n) atTop (𝓝 q)) (h3 : Tendsto (fun n : ℕ => T n / n) atTop (𝓝 τ)) :
    Tendsto (fun n : ℕ => Real.log (K n / (W n / T n)) / Real.log 10 - Real.log n / Real.log 10) atTop (𝓝 (Real.log (k / (q / τ)) / Real.log 10)) := by
  have h := ((h1.div (h2.div h3 hτ.ne') (div_pos hq hτ).ne').log (div_pos hk (div_pos hq hτ)).ne').div_const (Real.log 10)
  refine h.congr' ?_
  filter_upwards [eventually_gt_atTop 0, h1.eventually (lt_mem_nhds hk), h2.eventually (lt_mem_nhds hq), h3.eventually (lt_mem_nhds hτ)] with n hn p1 p2 p3
  have hn' : (0 : ℝ) < n := by exact_mod_cast hn
  have hK : K n ≠ 0 := fun h => by rw [h, zero_div] at p1; exact lt_irrefl _ p1
  have hW : W n ≠ 0 := fun h => by rw [h, zero_div] at p2; exact lt_irrefl _ p2
  have hT : T n ≠ 0 := fun h => by rw [h, zero_div] at p3; exact lt_irrefl _ p3
  simp only [Pi.div_apply]
  rw [← sub_div, ← Real.log_div (div_ne_zero hK (div_ne_zero hW hT)) hn'.ne']
  congr 2
  field_simp

end
end SeismoStats.Props
