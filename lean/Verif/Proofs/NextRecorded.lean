/-
From the recorded magnitudes to the pairs of b-more-positive, and the share of recorded events that have a partner (for C112).
-/
import Mathlib.Data.Nat.Nth
import Verif.Proofs.NextDetected
import Verif.Props.ConsistencyMore
import Verif.Props.DetectedLaw

namespace SeismoStats.Props
open SeismoStats SeismoStats.Simulate BValue MeasureTheory ProbabilityTheory Filter Topology
open Classical
noncomputable section

/-- b-more-positive from the magnitudes at or above mc. -/
theorem morePositive_list (L : List ℝ) (mc δ d : ℝ) (hd : 0 ≤ d) (hδ : 1 / 10 ^ 12 ≤ δ) (hg : ∀ m ∈ L, ∃ z : ℤ, m = z * δ) (Y : ℕ → ℝ) (n : ℕ)
    (hM : firstMags Y n = L.filter fun m => decide (mc - δ / 2 ≤ m)) (hψ0 : 0 < nextPairSum Y (d - δ / 2) (fun _ _ => 1) n)
    (hpos : 0 < nextPairSum Y (d - δ / 2) (fun i j => Y j - Y i - d) n / nextPairSum Y (d - δ / 2) (fun _ _ => 1) n) (warn : Bool) (s : State) :
    (calculate .morePositive warn s (callOf L mc δ (some d))).2 =
      .ok (.fin (betaVal (nextPairSum Y (d - δ / 2) (fun i j => Y j - Y i - d) n / nextPairSum Y (d - δ / 2) (fun _ _ => 1) n) δ / Real.log 10)) := by
  have hδp : 0 < δ := lt_of_lt_of_le (by positivity) hδ
  set ψ : ℝ := nextPairSum Y (d - δ / 2) (fun _ _ => 1) n with hψd
  set φ : ℝ := nextPairSum Y (d - δ / 2) (fun i j => Y j - Y i - d) n with hφd
  set a := callOf L mc δ (some d) with ha
  have hacc : Accepted a := accepted_all _ mc δ _ (Or.inr ⟨hδ, hg⟩)
  set I := usedIdx a with hI
  have hmagI : ∀ i ∈ I, i < L.length ∧ magOf a i = L.getD i 0 := by
    intro i hi
    have hi' : i < L.length := by
      have := (List.mem_filter.1 hi).1
      rw [List.mem_range] at this
      simpa [ha, callOf] using this
    refine ⟨hi', ?_⟩
    unfold magOf
    rw [ha]
    unfold callOf
    simp only
    rw [List.getD_eq_getElem _ _ (by simpa using hi'), List.getD_eq_getElem _ _ hi']
    simp
  have hIM : I.map (magOf a) = firstMags Y n := by
    have e1 : I.map (magOf a) = I.map fun i => L.getD i 0 := List.map_congr_left fun i hi => (hmagI i hi).2
    rw [e1, hM, hI]
    unfold usedIdx selIdx
    rw [ha]
    unfold callOf
    simp only [List.length_map]
    have e2 : L = (List.range L.length).map fun i => L.getD i 0 := by
      apply List.ext_getElem
      · simp
      · intro i h1 h2
        simp [List.getD_eq_getElem?_getD, h1]
    conv_rhs => rw [e2, List.filter_map]
    congr 1
    apply List.filter_congr
    intro i hi
    rw [List.mem_range] at hi
    simp only [Function.comp_apply]
    rw [List.getD_eq_getElem _ _ (by simpa using hi), List.getD_eq_getElem _ _ hi]
    simp
  have hIlen : I.length = n := by
    have := congrArg List.length hIM
    simpa [firstMags] using this
  have hn : 0 < n := by
    rcases Nat.eq_zero_or_pos n with h | h
    · rw [hψd, h] at hψ0; simp [nextPairSum] at hψ0
    · exact h
  have huse : I ≠ [] := by
    intro h; rw [h] at hIlen; simp at hIlen; omega
  obtain ⟨s', e, -⟩ := run_nonempty (Or.inr rfl) warn s a ((accepted_iff a).1 hacc) hd huse (t := none) rfl hδ
  rw [e]
  simp only
  have hmag : ∀ p < n, magOf a (I.getD p 0) = Y p := by
    intro p hp
    have h1 : (I.map (magOf a))[p]? = some (Y p) := by rw [hIM]; exact firstMags_get.2 ⟨hp, rfl⟩
    rw [List.getElem?_map] at h1
    rw [List.getD_eq_getElem?_getD]
    cases h : I[p]? with
    | none => rw [h] at h1; cases h1
    | some i => rw [h] at h1; exact Option.some.inj h1
  have hgY : ∀ p < n, ∃ z : ℤ, Y p = z * δ := by
    intro p hp
    have : Y p ∈ firstMags Y n := by unfold firstMags; exact List.mem_map_of_mem (List.mem_range.2 hp)
    rw [hM] at this
    exact hg _ (List.mem_filter.1 this).1
  have hR := ranksOf_spec (firstMags Y n) δ d
  set R := ranksOf (firstMags Y n) δ d with hRd
  have hpairs : pairsOf .morePositive a = R.map fun r => (I.getD r.1 0, I.getD r.2 0) := by
    unfold pairsOf
    simp only
    rw [show timeOrder a = I from rfl, hIM, show a.δ = δ from rfl, show cutoff a = d from rfl, ← hRd]
    rfl
  have hL : diffsOf a (pairsOf .morePositive a) = R.map fun r => (Y r.2 - Y r.1, (1 : ℝ)) := by
    rw [hpairs]
    unfold diffsOf
    rw [List.map_map]
    apply List.map_congr_left
    rintro ⟨i, j⟩ hij
    obtain ⟨h1, h2⟩ := (firstLarger_iff Y _ n i j).1 ((hR.mem i j).1 hij)
    have h3 := h2.1
    simp only [Function.comp_apply]
    rw [hmag i (by omega), hmag j h1]
    refine Prod.ext ?_ rfl
    change onGrid δ _ = _
    unfold onGrid
    obtain ⟨z, hz⟩ := hgY j h1
    obtain ⟨y, hy⟩ := hgY i (by omega)
    rw [if_pos hδp, hz, hy, ← sub_mul, ← Int.cast_sub]
    exact binTo_int_mul hδp.ne' _
  have htot : Spec.total (diffsOf a (pairsOf .morePositive a)) = ψ := by
    unfold Spec.total
    rw [hL, List.map_map]
    exact sum_ranks Y _ n hR fun _ _ => 1
  have hsum : ((diffsOf a (pairsOf .morePositive a)).map fun q => q.2 * q.1).sum = φ + d * ψ := by
    rw [hL, List.map_map]
    refine (sum_ranks Y _ n hR fun i j => 1 * (Y j - Y i)).trans ?_
    rw [hφd, hψd]
    unfold nextPairSum
    rw [Finset.mul_sum, ← Finset.sum_add_distrib]
    apply Finset.sum_congr rfl
    intro j _
    rw [Finset.mul_sum, ← Finset.sum_add_distrib]
    apply Finset.sum_congr rfl
    intro i _
    split_ifs <;> ring
  have hmean : Spec.wmean (diffsOf a (pairsOf .morePositive a)) - cutoff a = φ / ψ := by
    unfold Spec.wmean
    rw [hsum]
    have e2 : ((diffsOf a (pairsOf .morePositive a)).map Prod.snd).sum = ψ := htot
    rw [e2, show cutoff a = d from rfl]
    field_simp
    ring
  unfold pairResult
  rw [mle_of_pairs _ _ (fun _ => diffsOf_ones rfl _) _ _ (by rw [htot]; exact hψ0.ne'), hmean]
  rw [show a.δ = δ from rfl, betaOf_pos hpos]
  rfl

/-! ### Selected events -/

theorem filter_nth {p : ℕ → Prop} (n : ℕ) : ((List.range n).filter fun i => decide (p i)) = (List.range (Nat.count p n)).map (Nat.nth p) := by
  induction n with
  | zero => simp
  | succ n ih =>
    rw [List.range_succ, List.filter_append, ih, Nat.count_succ]
    by_cases h : p n
    · rw [if_pos h, List.range_succ, List.map_append]
      simp [h, Nat.nth_count h]
    · rw [if_neg h]
      simp [h]

theorem sum_nth {p : ℕ → Prop} (f : ℕ → ℝ) (n : ℕ) : ∑ q ∈ Finset.range (Nat.count p n), f (Nat.nth p q) = ∑ j ∈ Finset.range n, if p j then f j else 0 := by
  induction n with
  | zero => simp
  | succ n ih =>
    rw [Nat.count_succ, Finset.sum_range_succ _ n]
    by_cases h : p n
    · rw [if_pos h, Finset.sum_range_succ, ih, if_pos h, Nat.nth_count h]
    · rw [if_neg h, if_neg h, add_zero, add_zero, ih]

/-- Every first later event that is larger by the threshold than a selected one is selected. -/
def ClosedNext (X : ℕ → ℝ) (thr : ℝ) (p : ℕ → Prop) : Prop := ∀ i j, p i → NextIdx X thr i j → p j

theorem next_nth {X : ℕ → ℝ} {thr : ℝ} {p : ℕ → Prop} (hp : {i | p i}.Infinite) (hc : ClosedNext X thr p) (i j : ℕ) :
    NextIdx (fun q => X (Nat.nth p q)) thr i j ↔ NextIdx X thr (Nat.nth p i) (Nat.nth p j) := by
  have hmono : StrictMono (Nat.nth p) := Nat.nth_strictMono hp
  constructor
  · rintro ⟨h1, h2, h3⟩
    refine ⟨hmono h1, h2, fun l l1 l2 => ?_⟩
    by_contra hcon
    -- the first index that reaches the threshold
    have hex : ∃ l, Nat.nth p i < l ∧ thr ≤ X l - X (Nat.nth p i) := ⟨l, l1, not_lt.1 hcon⟩
    set m := Nat.find hex with hm
    obtain ⟨m1, m2⟩ := Nat.find_spec hex
    have hml : m ≤ l := Nat.find_min' hex ⟨l1, not_lt.1 hcon⟩
    have hnext : NextIdx X thr (Nat.nth p i) m := by
      refine ⟨m1, m2, fun k k1 k2 => ?_⟩
      by_contra hk
      exact Nat.find_min hex k2 ⟨k1, not_lt.1 hk⟩
    have hpm := hc _ _ (Nat.nth_mem_of_infinite hp i) hnext
    have hq : Nat.nth p (Nat.count p m) = m := Nat.nth_count hpm
    have a1 : i < Nat.count p m := hmono.lt_iff_lt.1 (by rw [hq]; exact m1)
    have a2 : Nat.count p m < j := hmono.lt_iff_lt.1 (by rw [hq]; exact lt_of_le_of_lt hml l2)
    have := h3 _ a1 a2
    dsimp only at this
    rw [hq] at this
    exact absurd m2 (not_le.2 this)
  · rintro ⟨h1, h2, h3⟩
    exact ⟨hmono.lt_iff_lt.1 h1, h2, fun l l1 l2 => h3 _ (hmono l1) (hmono l2)⟩

theorem nextPairSum_nth {X : ℕ → ℝ} {thr : ℝ} {p : ℕ → Prop} (hp : {i | p i}.Infinite) (hc : ClosedNext X thr p) (f : ℕ → ℕ → ℝ) (n : ℕ) :
    nextPairSum (fun q => X (Nat.nth p q)) thr (fun i j => f (Nat.nth p i) (Nat.nth p j)) (Nat.count p n) =
      ∑ j ∈ Finset.range n, ∑ i ∈ Finset.range j, if p i ∧ NextIdx X thr i j then f i j else 0 := by
  have e : ∀ q, ∑ i ∈ Finset.range q, (if NextIdx (fun q => X (Nat.nth p q)) thr i q then f (Nat.nth p i) (Nat.nth p q) else 0) =
      (fun j => ∑ i ∈ Finset.range j, if p i then (if NextIdx X thr i j then f i j else 0) else 0) (Nat.nth p q) := by
    intro q
    simp only
    rw [← sum_nth (fun i => if NextIdx X thr i (Nat.nth p q) then f i (Nat.nth p q) else 0) (Nat.nth p q), Nat.count_nth_of_infinite hp]
    refine Finset.sum_congr rfl fun i _ => if_congr (next_nth hp hc i q) rfl rfl
  unfold nextPairSum
  simp only [e]
  rw [sum_nth (fun j => ∑ i ∈ Finset.range j, if p i then (if NextIdx X thr i j then f i j else 0) else 0)]
  refine Finset.sum_congr rfl fun j _ => ?_
  by_cases hj : p j
  · rw [if_pos hj]
    refine Finset.sum_congr rfl fun i _ => ?_
    rw [ite_and]
  · rw [if_neg hj]
    symm
    refine Finset.sum_eq_zero fun i _ => if_neg ?_
    rintro ⟨h1, h2⟩
    exact hj (hc i j h1 h2)

/-! ### Counting the pairs -/

theorem selSum_one (a : ℝ → ℝ) (n : ℕ) (r v : ℕ → ℝ) : selSum a (fun _ => 1) n r v + ∑ i ∈ Finset.range n, r i * alive a v i n = ∑ i ∈ Finset.range n, r i := by
  induction n with
  | zero => simp [selSum]
  | succ n ih =>
    have e : selStep a (fun _ => 1) n r v + ∑ i ∈ Finset.range (n + 1), r i * alive a v i (n + 1) = ∑ i ∈ Finset.range n, r i * alive a v i n + r n := by
      unfold selStep
      rw [Finset.sum_range_succ, alive_self, mul_one, ← add_assoc, ← Finset.sum_add_distrib]
      congr 1
      apply Finset.sum_congr rfl
      intro i hi
      rw [alive_succ a v (Finset.mem_range.1 hi), ← mul_add, ← mul_add]
      congr 1
      unfold excessOf
      by_cases h : a (v i) ≤ v n
      · rw [if_pos h, if_neg (not_lt.2 h)]; ring
      · rw [if_neg h, if_pos (not_le.1 h)]; ring
    have e2 : selSum a (fun _ => 1) (n + 1) r v = selSum a (fun _ => 1) n r v + selStep a (fun _ => 1) n r v := by
      unfold selSum; rw [Finset.sum_range_succ]
    rw [e2, Finset.sum_range_succ r n]
    linarith

theorem selSum_shift (a F : ℝ → ℝ) (κ : ℝ) (n : ℕ) (r v : ℕ → ℝ) : selSum a F n r v = κ * selSum a (fun _ => 1) n r v + selSum a (fun u => F u - κ) n r v := by
  unfold selSum selStep
  rw [Finset.mul_sum, ← Finset.sum_add_distrib]
  apply Finset.sum_congr rfl
  intro j _
  rw [Finset.mul_sum, ← Finset.sum_add_distrib]
  apply Finset.sum_congr rfl
  intro i _
  unfold excessOf
  split_ifs <;> ring

/-- If a positive share is selected, the mean excess of the selected pairs converges. -/
theorem selSum_ratio {a F : ℝ → ℝ} {κ ρ : ℝ} {r v : ℕ → ℝ} (hr : ∀ i, r i = 0 ∨ r i = 1) (hρ : 0 < ρ) (hdense : ∀ᶠ n : ℕ in atTop, ρ * n ≤ ∑ i ∈ Finset.range n, r i)
    (hw : Tendsto (fun n : ℕ => nextSum a (fun _ => 1) n v / n) atTop (𝓝 1)) (h0 : Tendsto (fun n : ℕ => selSum a (fun u => F u - κ) n r v / n) atTop (𝓝 0)) :
    (∀ᶠ n in atTop, 0 < selSum a (fun _ => 1) n r v) ∧ Tendsto (fun n => selSum a F n r v / selSum a (fun _ => 1) n r v) atTop (𝓝 κ) := by
  -- at least half the share has a partner
  have hhalf : ∀ᶠ n : ℕ in atTop, 0 < n ∧ ρ / 2 * n ≤ selSum a (fun _ => 1) n r v := by
    filter_upwards [hdense, hw.eventually (lt_mem_nhds (show 1 - ρ / 2 < 1 by linarith)), eventually_gt_atTop 0] with n h1 h2 h3
    have hn : (0 : ℝ) < n := by exact_mod_cast h3
    refine ⟨h3, ?_⟩
    have h4 := selSum_one a n r v
    have h5 := nextSum_one a n v
    have h6 : ∑ i ∈ Finset.range n, r i * alive a v i n ≤ waiting a n v := by
      unfold waiting
      refine Finset.sum_le_sum fun i _ => ?_
      have := alive_nonneg a v i n
      rcases hr i with h | h <;> rw [h] <;> linarith
    rw [lt_div_iff₀ hn] at h2
    nlinarith
  refine ⟨?_, ?_⟩
  · filter_upwards [hhalf] with n ⟨h1, h2⟩
    have hn : (0 : ℝ) < n := by exact_mod_cast h1
    have : 0 < ρ / 2 * n := by positivity
    linarith
  · have hz : Tendsto (fun n => selSum a (fun u => F u - κ) n r v / selSum a (fun _ => 1) n r v) atTop (𝓝 0) := by
      have h1 : Tendsto (fun n : ℕ => 2 / ρ * |selSum a (fun u => F u - κ) n r v / n|) atTop (𝓝 0) := by
        have := h0.abs.const_mul (2 / ρ)
        simpa using this
      refine squeeze_zero_norm' ?_ h1
      filter_upwards [hhalf] with n ⟨h2, h3⟩
      have hn : (0 : ℝ) < n := by exact_mod_cast h2
      have hp : 0 < ρ / 2 * n := by positivity
      rw [Real.norm_eq_abs, abs_div, abs_div, abs_of_pos hn, abs_of_pos (lt_of_lt_of_le hp h3)]
      calc _ ≤ |selSum a (fun u => F u - κ) n r v| / (ρ / 2 * n) := div_le_div_of_nonneg_left (abs_nonneg _) hp h3
        _ = _ := by field_simp
    have h4 := hz.const_add κ
    rw [add_zero] at h4
    refine h4.congr' ?_
    filter_upwards [hhalf] with n ⟨h2, h3⟩
    have hn : (0 : ℝ) < n := by exact_mod_cast h2
    have hp : 0 < ρ / 2 * n := by positivity
    rw [selSum_shift a F κ, add_div, mul_div_assoc, div_self (lt_of_lt_of_le hp h3).ne', mul_one]

end
end SeismoStats.Props
