/-
Property C103: the b-more-positive estimates are consistent on simulated magnitudes.
-/
import Verif.Proofs.NextLaw
import Verif.Props.Consistency
import Verif.Props.CoveragePositive

namespace SeismoStats.Props
open SeismoStats SeismoStats.Simulate BValue MeasureTheory ProbabilityTheory Filter Topology
open Classical
noncomputable section

/-- `j` is the first index after `i` at which the sequence is larger than at `i` by at least `thr`. -/
def NextIdx (X : ℕ → ℝ) (thr : ℝ) (i j : ℕ) : Prop := i < j ∧ thr ≤ X j - X i ∧ ∀ l, i < l → l < j → X l - X i < thr

/-- Sum over the pairs of indices below `n`. -/
def nextPairSum (X : ℕ → ℝ) (thr : ℝ) (f : ℕ → ℕ → ℝ) (n : ℕ) : ℝ := ∑ j ∈ Finset.range n, ∑ i ∈ Finset.range j, if NextIdx X thr i j then f i j else 0

theorem firstLarger_iff (X : ℕ → ℝ) (thr : ℝ) (n i j : ℕ) : FirstLarger (firstMags X n) thr i j ↔ j < n ∧ NextIdx X thr i j := by
  have hg : ∀ i, i < n → (firstMags X n)[i]? = some (X i) := by
    intro i hi
    unfold firstMags
    simp [hi]
  unfold FirstLarger NextIdx
  constructor
  · rintro ⟨h1, ⟨x, y, h2, h3, h4⟩, h5⟩
    have hj : j < n := by
      have := (List.getElem?_eq_some_iff.1 h3).1
      rwa [firstMags_length] at this
    rw [hg i (by omega)] at h2
    rw [hg j hj] at h3
    cases h2; cases h3
    exact ⟨hj, h1, h4, fun l l1 l2 => h5 l l1 l2 _ _ (hg i (by omega)) (hg l (by omega))⟩
  · rintro ⟨hj, h1, h2, h3⟩
    refine ⟨h1, ⟨_, _, hg i (by omega), hg j hj, h2⟩, fun l l1 l2 x y hx hy => ?_⟩
    rw [hg i (by omega)] at hx
    rw [hg l (by omega)] at hy
    cases hx; cases hy
    exact h3 l l1 l2

theorem sum_ranks (X : ℕ → ℝ) (thr : ℝ) (n : ℕ) {ranks : List (ℕ × ℕ)} (hr : NextLarger (firstMags X n) thr ranks) (f : ℕ → ℕ → ℝ) :
    (ranks.map fun r => f r.1 r.2).sum = nextPairSum X thr f n := by
  have hnd : ranks.Nodup := by
    have h := hr.increasing
    rw [List.pairwise_map] at h
    exact h.imp fun {a b} hab he => by rw [he] at hab; exact lt_irrefl _ hab
  rw [← List.sum_toFinset _ hnd]
  have e1 : ranks.toFinset = (Finset.range n ×ˢ Finset.range n).filter fun r => NextIdx X thr r.1 r.2 := by
    ext ⟨i, j⟩
    rw [List.mem_toFinset, hr.mem, firstLarger_iff, Finset.mem_filter, Finset.mem_product, Finset.mem_range, Finset.mem_range]
    constructor
    · rintro ⟨h1, h2⟩
      have := h2.1
      exact ⟨⟨by dsimp only; omega, h1⟩, h2⟩
    · rintro ⟨⟨h1, h2⟩, h3⟩
      exact ⟨h2, h3⟩
  rw [e1, Finset.sum_filter, Finset.sum_product_right]
  unfold nextPairSum
  apply Finset.sum_congr rfl
  intro j hj
  have hj' := Finset.mem_range.1 hj
  symm
  apply Finset.sum_subset (Finset.range_mono hj'.le)
  intro i _ hi
  rw [if_neg]
  intro h
  exact hi (Finset.mem_range.2 h.1)

/-- If the mean excess of the pairs converges, the b-more-positive estimates become finite and converge. -/
theorem morePositive_tendsto (X : ℕ → ℝ) (mc δ d κ : ℝ) (hκ : 0 < κ) (hd : 0 ≤ d) (hlow : ∀ i, mc - δ / 2 ≤ X i) (hδ : 1 / 10 ^ 12 ≤ δ) (hg : ∀ i, ∃ z : ℤ, X i = z * δ)
    (hψ : Tendsto (fun n : ℕ => nextPairSum X (d - δ / 2) (fun _ _ => 1) n / n) atTop (𝓝 1))
    (hφ : Tendsto (fun n : ℕ => nextPairSum X (d - δ / 2) (fun i j => X j - X i - d) n / n) atTop (𝓝 κ)) :
    ∃ est : ℕ → ℝ, (∀ᶠ n in atTop, ∀ warn s, (calculate .morePositive warn s (callOf (firstMags X n) mc δ (some d))).2 = .ok (.fin (est n))) ∧
      Tendsto est atTop (𝓝 (betaVal κ δ / Real.log 10)) := by
  have hδp : 0 < δ := lt_of_lt_of_le (by positivity) hδ
  set ψ : ℕ → ℝ := nextPairSum X (d - δ / 2) fun _ _ => 1 with hψd
  set φ : ℕ → ℝ := nextPairSum X (d - δ / 2) fun i j => X j - X i - d with hφd
  have hr : Tendsto (fun n : ℕ => φ n / ψ n) atTop (𝓝 κ) := by
    have h := hφ.div hψ one_ne_zero
    rw [div_one] at h
    refine h.congr' ?_
    filter_upwards [eventually_gt_atTop 0] with n hn
    have hn' : (n : ℝ) ≠ 0 := by exact_mod_cast hn.ne'
    simp only [Pi.div_apply]
    rw [div_div_div_cancel_right₀ hn']
  refine ⟨fun n => betaVal (φ n / ψ n) δ / Real.log 10, ?_, (betaVal_tendsto hδp.le hκ hr).div_const _⟩
  filter_upwards [eventually_gt_atTop 0, hr.eventually (lt_mem_nhds hκ), hψ.eventually (lt_mem_nhds one_pos)] with n hn hpos hψpos warn s
  have hψ0 : 0 < ψ n := by
    by_contra hc
    have : ψ n / (n : ℝ) ≤ 0 := div_nonpos_of_nonpos_of_nonneg (not_lt.1 hc) (Nat.cast_nonneg n)
    exact absurd hψpos (not_lt.2 this)
  set a := callOf (firstMags X n) mc δ (some d) with ha
  have hacc : Accepted a := accepted_all _ mc δ _ (Or.inr ⟨hδ, fun m hm => by obtain ⟨i, rfl⟩ := mem_firstMags hm; exact hg i⟩)
  have huse : usedIdx a = List.range n := by
    rw [ha, usedIdx_all _ _ _ _ (fun m hm => by obtain ⟨i, rfl⟩ := mem_firstMags hm; exact hlow i), firstMags_length]
  obtain ⟨s', e, -⟩ := run_nonempty (Or.inr rfl) warn s a ((accepted_iff a).1 hacc) hd (by rw [huse]; simpa using hn.ne') (t := none) rfl hδ
  rw [e]
  simp only
  have hmag : ∀ i < n, magOf a i = X i := by
    intro i hi
    unfold magOf
    rw [ha]
    unfold callOf firstMags
    simp only [List.map_map]
    rw [List.getD_eq_getElem _ _ (by simpa using hi)]
    simp
  have hto : timeOrder a = List.range n := by
    have : timeOrder a = usedIdx a := by
      unfold timeOrder
      rw [ha]
      rfl
    rw [this, huse]
  have hmm : (List.range n).map (magOf a) = firstMags X n := by
    unfold firstMags
    exact List.map_congr_left fun i hi => hmag i (List.mem_range.1 hi)
  have hR := ranksOf_spec (firstMags X n) δ d
  set R := ranksOf (firstMags X n) δ d with hRd
  have hpairs : pairsOf .morePositive a = R := by
    unfold pairsOf
    simp only
    rw [hto, hmm, show a.δ = δ from rfl, show cutoff a = d from rfl, ← hRd]
    unfold atRanks
    conv_rhs => rw [← List.map_id R]
    apply List.map_congr_left
    rintro ⟨i, j⟩ hij
    obtain ⟨h1, h2⟩ := (firstLarger_iff X _ n i j).1 ((hR.mem i j).1 hij)
    have h3 := h2.1
    simp only [id]
    rw [List.getD_eq_getElem _ _ (by simpa using (by omega : i < n)), List.getD_eq_getElem _ _ (by simpa using h1)]
    simp
  have hgrid : ∀ i j, onGrid δ (X j - X i) = X j - X i := by
    intro i j
    unfold onGrid
    obtain ⟨z, hz⟩ := hg j
    obtain ⟨y, hy⟩ := hg i
    rw [if_pos hδp, hz, hy, ← sub_mul, ← Int.cast_sub]
    exact binTo_int_mul hδp.ne' _
  have hL : diffsOf a (pairsOf .morePositive a) = R.map fun r => (X r.2 - X r.1, (1 : ℝ)) := by
    rw [hpairs]
    unfold diffsOf
    apply List.map_congr_left
    rintro ⟨i, j⟩ hij
    obtain ⟨h1, h2⟩ := (firstLarger_iff X _ n i j).1 ((hR.mem i j).1 hij)
    have h3 := h2.1
    simp only
    rw [hmag i (by omega), hmag j h1]
    exact Prod.ext (hgrid i j) rfl
  have htot : Spec.total (diffsOf a (pairsOf .morePositive a)) = ψ n := by
    unfold Spec.total
    rw [hL, List.map_map]
    exact sum_ranks X _ n hR fun _ _ => 1
  have hsum : ((diffsOf a (pairsOf .morePositive a)).map fun q => q.2 * q.1).sum = φ n + d * ψ n := by
    rw [hL, List.map_map]
    refine (sum_ranks X _ n hR fun i j => 1 * (X j - X i)).trans ?_
    rw [hφd, hψd]
    unfold nextPairSum
    rw [Finset.mul_sum, ← Finset.sum_add_distrib]
    apply Finset.sum_congr rfl
    intro j _
    rw [Finset.mul_sum, ← Finset.sum_add_distrib]
    apply Finset.sum_congr rfl
    intro i _
    split_ifs <;> ring
  have hmean : Spec.wmean (diffsOf a (pairsOf .morePositive a)) - cutoff a = φ n / ψ n := by
    unfold Spec.wmean
    rw [hsum]
    have e2 : ((diffsOf a (pairsOf .morePositive a)).map Prod.snd).sum = ψ n := htot
    rw [e2, show cutoff a = d from rfl]
    field_simp
    ring
  unfold pairResult
  rw [mle_of_pairs _ _ (fun _ => diffsOf_ones rfl _) _ _ (by rw [htot]; exact hψ0.ne'), hmean]
  rw [show a.δ = δ from rfl, betaOf_pos hpos]
  rfl

variable {Ω : Type} [MeasurableSpace Ω] {P : Measure Ω} {g : Ω → Rng}

/-- C103: with binned magnitudes, `mc` on the grid and `dmc` a positive multiple of the bin width, the b-more-positive estimates converge to exactly the b-value of the
simulation, almost surely. -/
theorem C103_more_positive [IsProbabilityMeasure P] (hg : Spec.RandomDraws P g) (b δ : ℝ) (a : ℤ) (k : ℕ) (hb : 0 < b) (hδ : 1 / 10 ^ 12 ≤ δ) (hk : 1 ≤ k) :
    ConvergesTo P g .morePositive b (a * δ) δ (some (k * δ)) b := by
  have hp : 0 < δ := lt_of_lt_of_le (by positivity) hδ
  have hS := scheme_binned (b := b) (δ := δ) a k hb hδ
  have hx : 0 < b * Real.log 10 * δ := mul_pos (mul_pos hb log_ten_pos) hp
  have hsim := fun r n => simulate_grid (n := n) r a hb hδ
  generalize hxd : b * Real.log 10 * δ = x at *
  have hex : 0 < Real.exp x - 1 := by
    have : (1 : ℝ) < Real.exp x := Real.one_lt_exp_iff.2 hx
    linarith
  set th : ℝ → ℝ := fun e => x * (((⌊e / x + 1 / 10 ^ 12⌋ + k : ℤ) : ℝ) - 1 / 10 ^ 12) with hth
  set F : ℝ → ℝ := fun u => δ * max ((⌊u / x⌋ : ℤ) : ℝ) 0 with hF
  obtain ⟨hm1, hm2⟩ := moments_binned hx hp
  have hthK : ∀ e, 0 < e → th e ≤ e + x * k := by
    intro e _
    have h1 : ((⌊e / x + 1 / 10 ^ 12⌋ : ℤ) : ℝ) ≤ e / x + 1 / 10 ^ 12 := Int.floor_le _
    rw [hth]
    simp only
    push_cast
    calc x * (((⌊e / x + 1 / 10 ^ 12⌋ : ℤ) : ℝ) + k - 1 / 10 ^ 12) ≤ x * (e / x + k) := mul_le_mul_of_nonneg_left (by linarith) hx.le
      _ = e + x * k := by rw [mul_add, mul_div_cancel₀ _ hx.ne']
  have hlaw := strong_law_next hg (binned_measurable (x := x) (δ := δ) k).1 (fun e he => binned_nonneg hx hk he) (K := x * k) (by positivity) hthK (binned_measurable (x := x) (δ := δ) k).2
    (fun u => mul_nonneg hp.le (le_max_right _ _)) (κ := δ / (Real.exp x - 1)) (by positivity) hm1 hm2
  filter_upwards [hlaw, all_pos hg] with ω hω hpos
  obtain ⟨h1, h2⟩ := hω
  set v := (g ω).expo with hv
  set X : ℕ → ℝ := fun i => ((a + ⌊v i / x + 1 / 10 ^ 12⌋ : ℤ) : ℝ) * δ with hX
  have hlow : ∀ i, (a : ℝ) * δ - δ / 2 ≤ X i := grid_low (g ω) hpos hx hp (by positivity) a
  -- two draws
  have htwo : ∀ i j, (th (v i) ≤ v j ↔ k * δ - δ / 2 ≤ X j - X i) ∧ (th (v i) ≤ v j → F (v j - th (v i)) = X j - X i - k * δ) := by
    intro i j
    have hw : ∀ l : ℕ, 0 < (fun l : ℕ => if l = 0 then v i else v j) l := by
      intro l
      simp only
      split_ifs
      exacts [hpos i, hpos j]
    have g1 := hS.grows _ hw 0
    have g2 := hS.excess _ hw 0
    simp only [zero_add, if_true, one_ne_zero, if_false] at g1 g2
    exact ⟨g1.symm, fun h => (g2 h).symm⟩
  have hsum : ∀ (G : ℝ → ℝ) (f : ℕ → ℕ → ℝ), (∀ i j, th (v i) ≤ v j → G (v j - th (v i)) = f i j) → ∀ n, nextSum th G n v = nextPairSum X (k * δ - δ / 2) f n := by
    intro G f hGf n
    unfold nextSum nextPairSum
    refine Finset.sum_congr rfl fun j _ => Finset.sum_congr rfl fun i hi => ?_
    have hij := Finset.mem_range.1 hi
    unfold alive excessOf NextIdx
    by_cases c1 : th (v i) ≤ v j
    · by_cases c2 : ∀ l, i < l → l < j → v l < th (v i)
      · rw [if_pos c2, one_mul]
        simp only
        rw [if_pos c1, if_pos, hGf i j c1]
        exact ⟨hij, (htwo i j).1.1 c1, fun l l1 l2 => by
          by_contra hc
          exact absurd ((htwo i l).1.2 (not_lt.1 hc)) (not_le.2 (c2 l l1 l2))⟩
      · rw [if_neg c2, zero_mul, if_neg]
        rintro ⟨-, -, h⟩
        apply c2
        intro l l1 l2
        by_contra hc
        exact absurd ((htwo i l).1.1 (not_lt.1 hc)) (not_le.2 (h l l1 l2))
    · simp only
      rw [if_neg c1, mul_zero, if_neg]
      rintro ⟨-, h, -⟩
      exact c1 ((htwo i j).1.2 h)
  obtain ⟨est, e1, e2⟩ := morePositive_tendsto X (a * δ) δ (k * δ) (δ / (Real.exp x - 1)) (by positivity) (by positivity) hlow hδ (fun i => ⟨_, rfl⟩)
    (h1.congr fun n => by rw [hsum _ (fun _ _ => 1) fun _ _ _ => rfl]) (h2.congr fun n => by rw [hsum F _ fun i j h => (htwo i j).2 h])
  refine ⟨est, ?_, ?_⟩
  · filter_upwards [e1] with n hn
    exact ⟨_, hsim (g ω) n, fun warn s _ => hn warn s⟩
  · have hval : betaVal (δ / (Real.exp x - 1)) δ / Real.log 10 = b := by
      unfold betaVal
      rw [if_pos hp, div_div_cancel₀ hp.ne', show 1 + (Real.exp x - 1) = Real.exp x by ring, Real.log_exp, ← hxd]
      have := hp.ne'; have := log_ten_pos.ne'
      field_simp
    rwa [hval] at e2

/-- C103: the same with the default cutoff, one bin. -/
theorem C103_default [IsProbabilityMeasure P] (hg : Spec.RandomDraws P g) (b δ : ℝ) (a : ℤ) (hb : 0 < b) (hδ : 1 / 10 ^ 12 ≤ δ) :
    ConvergesTo P g .morePositive b (a * δ) δ none b := by
  have h := C103_more_positive hg b δ a 1 hb hδ le_rfl
  rw [Nat.cast_one, one_mul] at h
  exact h

/-- A case: for `b = 1`, bin width 0.1 and `mc = 2.0`. -/
example : ∃ (Ω : Type) (_ : MeasurableSpace Ω) (P : Measure Ω) (g : Ω → Rng), Spec.RandomDraws P g ∧ ConvergesTo P g .morePositive 1 ((20 : ℤ) * (1 / 10)) (1 / 10) none 1 := by
  obtain ⟨Ω, mΩ, P, hP, g, hg⟩ := randomDraws_exist
  exact ⟨Ω, mΩ, P, g, hg, C103_default hg 1 (1 / 10) 20 one_pos (by norm_num)⟩

end
end SeismoStats.Props
