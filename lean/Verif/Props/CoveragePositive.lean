/-
Property C99: the standard deviation reported with a b-positive value.
-/
import Verif.Proofs.PairClt
import Verif.Props.Coverage
import Mathlib.Analysis.SpecialFunctions.Trigonometric.DerivHyp
import Mathlib.Analysis.SpecificLimits.Normed
import Mathlib.MeasureTheory.Integral.Indicator

namespace SeismoStats.Props
open SeismoStats SeismoStats.Simulate BValue MeasureTheory ProbabilityTheory Filter Topology
open Classical
noncomputable section

/-- Number of growing pairs among the first `n + 1` magnitudes. -/
def growCount (X : ℕ → ℝ) (t : ℝ) (n : ℕ) : ℝ := ∑ i ∈ Finset.range n, if t ≤ X (i + 1) - X i then 1 else 0
/-- Sum of a function of their differences. -/
def growSum (f : ℝ → ℝ) (X : ℕ → ℝ) (t : ℝ) (n : ℕ) : ℝ := ∑ i ∈ Finset.range n, if t ≤ X (i + 1) - X i then f (X (i + 1) - X i) else 0

theorem positive_outcome (X : ℕ → ℝ) (mc δ d : ℝ) (hd : 0 ≤ d) (hlow : ∀ i, mc - δ / 2 ≤ X i) (hδ : δ = 0 ∨ 1 / 10 ^ 12 ≤ δ ∧ ∀ i, ∃ z : ℤ, X i = z * δ) (m : ℕ)
    (hK : 1 < growCount X (d - δ / 2) m) (hD : 0 < growSum (fun y => y - d) X (d - δ / 2) m) (warn : Bool) (s : State) :
    let K := growCount X (d - δ / 2) m
    let M := growSum (fun y => y - d) X (d - δ / 2) m / K
    let V := growSum (fun y => (y - d) ^ 2) X (d - δ / 2) m / K - M ^ 2
    let out := calculate .positive warn s (callOf (firstMags X (m + 1)) mc δ (some d))
    out.2 = .ok (.fin (betaVal M δ / Real.log 10)) ∧
      out.1.std = .ok (.fin (Real.log 10 * (betaVal M δ / Real.log 10) ^ 2 * Real.sqrt V / Real.sqrt (K - 1))) ∧ out.1.n = .ok ⌊K⌋₊ ∧ (⌊K⌋₊ : ℝ) = K := by
  intro K M V
  have hδ0 : 0 ≤ δ := by
    rcases hδ with rfl | ⟨h, -⟩
    · exact le_rfl
    · exact le_trans (by positivity) h
  have hK0 : 0 < K := by linarith
  have hM : 0 < M := div_pos hD hK0
  set a := callOf (firstMags X (m + 1)) mc δ (some d) with ha
  have hacc : Accepted a := accepted_all _ mc δ _ (by
    rcases hδ with h | ⟨h1, h2⟩
    · exact Or.inl h
    · exact Or.inr ⟨h1, fun m hm => by obtain ⟨i, rfl⟩ := mem_firstMags hm; exact h2 i⟩)
  have hv := (accepted_iff a).1 hacc
  have huse : usedIdx a = List.range (m + 1) := by
    rw [ha, usedIdx_all _ _ _ _ (fun m hm => by obtain ⟨i, rfl⟩ := mem_firstMags hm; exact hlow i), firstMags_length]
  have hne : usedIdx a ≠ [] := by rw [huse]; simp
  obtain ⟨s', e, hu⟩ := run_nonempty (Or.inl rfl) warn s a hv hd hne (t := none) rfl
    (by rcases hδ with h | ⟨h, -⟩
        · exact Or.inl (le_of_eq h)
        · exact Or.inr h)
  -- the stored value
  have hstored : ∀ r, pairResult a (diffsOf a (pairsOf .positive a)) = .ok r → s'.b = some r := by
    intro r hr
    obtain ⟨w, hw⟩ := calculate_positive_valid (c := .positive) (Or.inl rfl) warn s a hv hd none rfl
    rw [if_neg (fun h => hne ((used_nil_iff hv).1 h)), e, hr] at hw
    generalize estimate Cls.positive (usedState { s with times := a.times, dmc := some (a.dmc.getD a.δ), warned := w } warn a none) = q at hw
    obtain ⟨q1, _ | r'⟩ := q
    · unfold store at hw; cases hw
    · unfold store at hw
      obtain ⟨h1, h2⟩ := Prod.mk.inj hw
      cases h2
      rw [h1]
  have hmag : ∀ i ≤ m, magOf a i = X i := by
    intro i hi
    unfold magOf
    rw [ha]
    unfold callOf firstMags
    simp only [List.map_map]
    rw [List.getD_eq_getElem _ _ (by simpa using Nat.lt_succ_of_le hi)]
    simp
  have hgrid : ∀ i, onGrid δ (X (i + 1) - X i) = X (i + 1) - X i := by
    intro i
    unfold onGrid
    rcases hδ with h | ⟨h1, h2⟩
    · rw [if_neg (by rw [h]; exact lt_irrefl 0)]
    · have hδp : 0 < δ := lt_of_lt_of_le (by positivity) h1
      obtain ⟨z, hz⟩ := h2 (i + 1)
      obtain ⟨y, hy⟩ := h2 i
      rw [if_pos hδp, hz, hy, ← sub_mul, ← Int.cast_sub]
      exact binTo_int_mul hδp.ne' _
  set L := diffsOf a (pairsOf .positive a) with hLd
  have hL : L = ((List.range m).filter fun i => decide (d - δ / 2 ≤ X (i + 1) - X i)).map fun i => (X (i + 1) - X i, (1 : ℝ)) := by
    rw [hLd, ha, growing_all X m mc δ d hlow, ← ha]
    unfold diffsOf
    rw [List.map_map]
    apply List.map_congr_left
    intro i hi
    have hi' := List.mem_range.1 (List.mem_filter.1 hi).1
    simp only [Function.comp_apply]
    rw [hmag i hi'.le, hmag (i + 1) hi']
    exact Prod.ext (hgrid i) rfl
  have hsumf : ∀ f : ℝ → ℝ, (L.map fun q => q.2 * f q.1).sum = growSum f X (d - δ / 2) m := by
    intro f
    rw [hL, List.map_map]
    refine (sum_filter_range m _ _).trans ?_
    unfold growSum
    apply Finset.sum_congr rfl
    intro i _
    simp
  have htot : Spec.total L = K := by
    unfold Spec.total
    rw [hL, List.map_map]
    exact sum_filter_range m _ _
  have hlin : ∀ u v w : ℝ, growSum (fun y => u * (y - d) ^ 2 + v * (y - d) + w) X (d - δ / 2) m =
      u * growSum (fun y => (y - d) ^ 2) X (d - δ / 2) m + v * growSum (fun y => y - d) X (d - δ / 2) m + w * K := by
    intro u v w
    simp only [growSum, K, growCount]
    rw [Finset.mul_sum, Finset.mul_sum, Finset.mul_sum, ← Finset.sum_add_distrib, ← Finset.sum_add_distrib]
    apply Finset.sum_congr rfl
    intro i _
    by_cases h : d - δ / 2 ≤ X (i + 1) - X i <;> simp [h]
  have hwm : Spec.wmean L = M + d := by
    unfold Spec.wmean
    have e2 : (L.map Prod.snd).sum = K := htot
    have e3 := hsumf fun y => 0 * (y - d) ^ 2 + 1 * (y - d) + d
    rw [hlin] at e3
    have e4 : (L.map fun q => q.2 * q.1).sum = (L.map fun q => q.2 * (0 * (q.1 - d) ^ 2 + 1 * (q.1 - d) + d)).sum := by
      congr 1; apply List.map_congr_left; intro q _; ring
    rw [e2, e4, e3]
    simp only [M]
    field_simp
    ring
  have hvar : Spec.variance L = V := by
    unfold Spec.variance
    rw [hwm, htot]
    have e3 := hsumf fun y => 1 * (y - d) ^ 2 + (-2 * M) * (y - d) + M ^ 2
    rw [hlin] at e3
    have e4 : (L.map fun p => p.2 * (p.1 - (M + d)) ^ 2).sum = (L.map fun q => q.2 * (1 * (q.1 - d) ^ 2 + (-2 * M) * (q.1 - d) + M ^ 2)).sum := by
      congr 1; apply List.map_congr_left; intro q _; ring
    have e5 : growSum (fun y => y - d) X (d - δ / 2) m = M * K := by simp only [M]; field_simp
    rw [e4, e3, e5]
    simp only [V]
    field_simp
    ring
  have hres : pairResult a L = .ok (.fin (betaVal M δ / Real.log 10)) := by
    unfold pairResult
    rw [mle_of_pairs _ _ (fun _ => diffsOf_ones rfl _) _ _ (by rw [htot]; exact hK0.ne'), hwm, show cutoff a = d from rfl, add_sub_cancel_right, show a.δ = δ from rfl,
      betaOf_pos hM]
    rfl
  rw [e]
  have hlen : (L.length : ℝ) = K := by
    rw [← htot]
    unfold Spec.total
    rw [hL, List.map_map, List.length_map]
    have e6 : (((List.range m).filter fun i => decide (d - δ / 2 ≤ X (i + 1) - X i)).map (Prod.snd ∘ fun i => (X (i + 1) - X i, (1 : ℝ)))) =
        List.replicate ((List.range m).filter fun i => decide (d - δ / 2 ≤ X (i + 1) - X i)).length 1 := by
      rw [← List.map_const']
      rfl
    rw [e6, List.sum_replicate, nsmul_eq_mul, mul_one]
  have hfl : ⌊K⌋₊ = L.length := by rw [← hlen]; exact Nat.floor_natCast _
  refine ⟨hres, ?_, ?_, by rw [hfl, hlen]⟩
  swap
  · simp only [State.n]
    rw [hstored _ hres, hu.mags]
    simp only [Option.getD_some, List.length_map]
    rw [hfl]
  simp only [State.std]
  rw [hstored _ hres]
  simp only
  have hw0 : s'.weights = none := by rw [hu.weights]; rfl
  have hnums : nums s'.mags = L.map Prod.fst := by
    rw [hu.mags]
    unfold nums
    simp [List.filterMap_map, hLd]
  have hones : weightedMags (L.map Prod.fst) none = L := weightedMags_of_pairs L false fun _ => diffsOf_ones rfl _
  rw [hw0, hnums, C20_formula _ _ none (fun _ h => by cases h) (by rw [hones, htot]; exact hK), hones, htot, hvar]

/-- With `n` magnitudes simulated with b-value `b`, the interval of `z` reported standard deviations around the estimate contains `b` (for every estimator object). -/
def CoversWith (c : Cls) (b mc δ : ℝ) (dmc : Option ℝ) (z : ℝ) (n : ℕ) (r : Rng) : Prop :=
  ∃ mags b' σ, simulateBinned n (fun _ => b) mc δ none .bValue r = .ok mags ∧ |b' - b| ≤ z * σ ∧
    ∀ warn s, Reachable c s → (calculate c warn s { mags := mags.map some, mc := mc, δ := δ, dmc := dmc }).2 = .ok (.fin b') ∧
      (calculate c warn s { mags := mags.map some, mc := mc, δ := δ, dmc := dmc }).1.std = .ok (.fin σ)

/-- How simulated magnitudes depend on the draws: a pair of consecutive magnitudes is used if the second draw is at least `a` of the first one, and then the difference
exceeds the cutoff by `F` of the excess. -/
structure PositiveScheme (b mc δ d : ℝ) (a F : ℝ → ℝ) (X : (ℕ → ℝ) → ℕ → ℝ) : Prop where
  sim : ∀ (r : Rng) (n : ℕ), simulateBinned n (fun _ => b) mc δ none .bValue r = .ok (firstMags (X r.expo) n)
  low : ∀ v : ℕ → ℝ, (∀ i, 0 < v i) → ∀ i, mc - δ / 2 ≤ X v i
  grid : δ = 0 ∨ 1 / 10 ^ 12 ≤ δ ∧ ∀ v i, ∃ z : ℤ, X v i = z * δ
  grows : ∀ v : ℕ → ℝ, (∀ i, 0 < v i) → ∀ i, d - δ / 2 ≤ X v (i + 1) - X v i ↔ a (v i) ≤ v (i + 1)
  excess : ∀ v : ℕ → ℝ, (∀ i, 0 < v i) → ∀ i, a (v i) ≤ v (i + 1) → X v (i + 1) - X v i - d = F (v (i + 1) - a (v i))

section
variable {b mc δ d : ℝ} {a F : ℝ → ℝ} {X : (ℕ → ℝ) → ℕ → ℝ}

theorem scheme_sums (hS : PositiveScheme b mc δ d a F X) {v : ℕ → ℝ} (hpos : ∀ i, 0 < v i) (n : ℕ) :
    growCount (X v) (d - δ / 2) n = pairSum (excessOf a fun _ => 1) n v ∧
    growSum (fun y => y - d) (X v) (d - δ / 2) n = pairSum (excessOf a F) n v ∧
    growSum (fun y => (y - d) ^ 2) (X v) (d - δ / 2) n = pairSum (excessOf a fun u => F u ^ 2) n v := by
  unfold growCount growSum pairSum excessOf
  simp only [hS.grows v hpos]
  refine ⟨trivial, ?_, ?_⟩
  · apply Finset.sum_congr rfl
    intro i _
    by_cases h : a (v i) ≤ v (i + 1)
    · rw [if_pos h, if_pos h, hS.excess v hpos i h]
    · rw [if_neg h, if_neg h]
  · apply Finset.sum_congr rfl
    intro i _
    by_cases h : a (v i) ≤ v (i + 1)
    · rw [if_pos h, if_pos h, hS.excess v hpos i h]
    · rw [if_neg h, if_neg h]

/-- The outcome for `n + 1` simulated magnitudes with two growing pairs. -/
theorem outcome_positive (hS : PositiveScheme b mc δ d a F X) (r : Rng) (hpos : ∀ i, 0 < r.expo i) (hd : 0 ≤ d) (n : ℕ) (hK : 1 < pairSum (excessOf a fun _ => 1) n r.expo)
    (hD : 0 < pairSum (excessOf a F) n r.expo) (warn : Bool) (s : State) :
    let K := pairSum (excessOf a fun _ => 1) n r.expo
    let M := pairSum (excessOf a F) n r.expo / K
    let V := pairSum (excessOf a fun u => F u ^ 2) n r.expo / K - M ^ 2
    let out := calculate .positive warn s (callOf (firstMags (X r.expo) (n + 1)) mc δ (some d))
    out.2 = .ok (.fin (betaVal M δ / Real.log 10)) ∧
      out.1.std = .ok (.fin (Real.log 10 * (betaVal M δ / Real.log 10) ^ 2 * Real.sqrt V / Real.sqrt (K - 1))) ∧ out.1.n = .ok ⌊K⌋₊ ∧ (⌊K⌋₊ : ℝ) = K := by
  obtain ⟨g1, g2, g3⟩ := scheme_sums hS hpos n
  have hgr : δ = 0 ∨ 1 / 10 ^ 12 ≤ δ ∧ ∀ i, ∃ z : ℤ, X r.expo i = z * δ := by
    rcases hS.grid with h | ⟨h1, h2⟩
    · exact Or.inl h
    · exact Or.inr ⟨h1, fun i => h2 _ i⟩
  have h := positive_outcome (X r.expo) mc δ d hd (hS.low _ hpos) hgr n (by rw [g1]; exact hK) (by rw [g2]; exact hD) warn s
  dsimp only at h ⊢
  rw [g1, g2, g3] at h
  exact h

theorem covers_positive_iff (hS : PositiveScheme b mc δ d a F X) (r : Rng) (hpos : ∀ i, 0 < r.expo i) {m z p v : ℝ} (hd : 0 ≤ d) (hp : 0 < p) (hv : 0 < v)
    (hb : b = betaVal m δ / Real.log 10) (n : ℕ) (hn : 0 < n) (hK : 1 < pairSum (excessOf a fun _ => 1) n r.expo) (hD : 0 < pairSum (excessOf a F) n r.expo) :
    let K := pairSum (excessOf a fun _ => 1) n r.expo
    let M := pairSum (excessOf a F) n r.expo / K
    let V := pairSum (excessOf a fun u => F u ^ 2) n r.expo / K - M ^ 2
    CoversWith .positive b mc δ (some d) z (n + 1) r ↔
      |(Real.sqrt (n * p))⁻¹ * pairSum (excessOf a fun u => (F u - m) / Real.sqrt v) n r.expo| *
          (Real.sqrt (n * p * (K - 1) / K ^ 2) * Real.sqrt v * |dslope (fun y => betaVal y δ / Real.log 10) m M|) ≤
        z * (Real.log 10 * (betaVal M δ / Real.log 10) ^ 2 * Real.sqrt V) := by
  have ho := fun warn s => outcome_positive hS r hpos hd n hK hD warn s
  have h3 : pairSum (excessOf a fun u => (F u - m) / Real.sqrt v) n r.expo =
      (pairSum (excessOf a F) n r.expo - m * pairSum (excessOf a fun _ => 1) n r.expo) / Real.sqrt v := by
    unfold pairSum excessOf
    rw [Finset.mul_sum, ← Finset.sum_sub_distrib, Finset.sum_div]
    apply Finset.sum_congr rfl
    intro i _
    by_cases h : a (r.expo i) ≤ r.expo (i + 1) <;> simp [h]
  dsimp only at ho ⊢
  rw [h3]
  clear h3
  generalize pairSum (excessOf a fun _ => 1) n r.expo = K at *
  generalize pairSum (excessOf a fun u => F u ^ 2) n r.expo = D2 at *
  generalize pairSum (excessOf a F) n r.expo = D at *
  generalize hf : (fun y => betaVal y δ / Real.log 10) = f at *
  have hK0 : 0 < K := by linarith
  generalize hMd : D / K = M at *
  have hDM : D = M * K := by rw [← hMd]; field_simp
  have hn0 : (0 : ℝ) < n := by exact_mod_cast hn
  have hs1 : 0 < Real.sqrt (K - 1) := Real.sqrt_pos.2 (by linarith)
  have hsn : 0 < Real.sqrt (n * p) := Real.sqrt_pos.2 (by positivity)
  have hsv : 0 < Real.sqrt v := Real.sqrt_pos.2 hv
  have h2 : Real.sqrt (n * p * (K - 1) / K ^ 2) = Real.sqrt (n * p) * Real.sqrt (K - 1) / K := by
    rw [Real.sqrt_div (mul_nonneg (by positivity) (by linarith)), Real.sqrt_mul (by positivity), Real.sqrt_sq hK0.le]
  have hfM : ∀ y, betaVal y δ / Real.log 10 = f y := fun y => by rw [← hf]
  simp only [hfM] at ho hb ⊢
  have hsl := sub_smul_dslope f m M
  rw [smul_eq_mul, ← hb] at hsl
  generalize dslope f m M = h at *
  generalize Real.sqrt (D2 / K - M ^ 2) = S at *
  have h4 : (|f M - b| ≤ z * (Real.log 10 * f M ^ 2 * S / Real.sqrt (K - 1))) ↔
      |(Real.sqrt (n * p))⁻¹ * ((D - m * K) / Real.sqrt v)| * (Real.sqrt (n * p * (K - 1) / K ^ 2) * Real.sqrt v * |h|) ≤ z * (Real.log 10 * f M ^ 2 * S) := by
    have e1 : (Real.sqrt (n * p))⁻¹ * ((D - m * K) / Real.sqrt v) = (Real.sqrt (n * p))⁻¹ * K / Real.sqrt v * (M - m) := by rw [hDM]; ring
    rw [h2, e1, abs_mul, abs_of_pos (by positivity : 0 < (Real.sqrt (n * p))⁻¹ * K / Real.sqrt v), ← hsl, abs_mul, ← mul_div_assoc, le_div_iff₀ hs1]
    have e3 : (Real.sqrt (n * p))⁻¹ * K / Real.sqrt v * |M - m| * (Real.sqrt (n * p) * Real.sqrt (K - 1) / K * Real.sqrt v * |h|) = |M - m| * |h| * Real.sqrt (K - 1) := by field_simp
    rw [e3]
  rw [← h4]
  constructor
  · rintro ⟨mags, b', σ, h5, h6, h7⟩
    rw [hS.sim r (n + 1)] at h5
    cases h5
    obtain ⟨h8, h9⟩ := h7 false State.init .init
    obtain ⟨o1, o2, -⟩ := ho false State.init
    unfold callOf at o1 o2
    rw [o1] at h8
    rw [o2] at h9
    injection h8 with h8; injection h8 with h8
    injection h9 with h9; injection h9 with h9
    rw [← h8, ← h9] at h6
    exact h6
  · intro h
    exact ⟨_, _, _, hS.sim r (n + 1), h, fun warn s _ => ⟨(ho warn s).1, (ho warn s).2.1⟩⟩

end

variable {Ω : Type} [MeasurableSpace Ω] {P : Measure Ω} {g : Ω → Rng}

/-- Two sequences of events that agree on events whose complements have probability tending to zero have the same limit of probabilities. -/
theorem prob_congr [IsProbabilityMeasure P] {A B G : ℕ → Ω → Prop} (hG : ∀ n, MeasurableSet {ω | G n ω}) (h : ∀ᵐ ω ∂P, ∀ᶠ n in atTop, G n ω)
    (hAB : ∀ᶠ n in atTop, ∀ᵐ ω ∂P, G n ω → (A n ω ↔ B n ω)) {L : ℝ} (hA : Tendsto (fun n => P.real {ω | A n ω}) atTop (𝓝 L)) :
    Tendsto (fun n => P.real {ω | B n ω}) atTop (𝓝 L) := by
  have hbad : Tendsto (fun n => P.real {ω | ¬ G n ω}) atTop (𝓝 0) := by
    have h1 := tendsto_measure_of_ae_tendsto_indicator_of_isFiniteMeasure (μ := P) atTop (A := ∅) (As := fun n => {ω | ¬ G n ω}) MeasurableSet.empty
      (fun n => (hG n).compl) (by
        filter_upwards [h] with ω hω
        filter_upwards [hω] with n hn
        simp [hn])
    rw [measure_empty] at h1
    have h2 := (ENNReal.tendsto_toReal ENNReal.zero_ne_top).comp h1
    rw [ENNReal.toReal_zero] at h2
    exact h2
  have key : ∀ᶠ n in atTop, |P.real {ω | B n ω} - P.real {ω | A n ω}| ≤ P.real {ω | ¬ G n ω} := by
    filter_upwards [hAB] with n hn
    have hle : ∀ C D : Ω → Prop, (∀ᵐ ω ∂P, G n ω → (C ω → D ω)) → P.real {ω | C ω} ≤ P.real {ω | D ω} + P.real {ω | ¬ G n ω} := by
      intro C D hCD
      refine le_trans ?_ (measureReal_union_le _ _)
      apply ENNReal.toReal_mono (measure_ne_top _ _)
      apply measure_mono_ae
      filter_upwards [hCD] with ω hω hC
      by_cases hg : G n ω
      · exact Or.inl (hω hg hC)
      · exact Or.inr hg
    have h1 := hle (A n) (B n) (by filter_upwards [hn] with ω hω hg using (hω hg).1)
    have h2 := hle (B n) (A n) (by filter_upwards [hn] with ω hω hg using (hω hg).2)
    rw [abs_le]
    constructor <;> linarith
  have h3 := squeeze_zero_norm' (f := fun n => P.real {ω | B n ω} - P.real {ω | A n ω}) (by simpa [Real.norm_eq_abs] using key) hbad
  have h4 := h3.add hA
  rw [zero_add] at h4
  exact h4.congr fun n => by ring

theorem ratio_tendsto {p : ℝ} (hp : p ≠ 0) {f k : ℕ → ℝ} {l : ℝ} (h1 : Tendsto (fun n : ℕ => f n / n) atTop (𝓝 l)) (h2 : Tendsto (fun n : ℕ => k n / n) atTop (𝓝 p)) :
    Tendsto (fun n => f n / k n) atTop (𝓝 (l / p)) := by
  refine (h1.div h2 hp).congr' ?_
  filter_upwards [eventually_gt_atTop 0] with n hn
  have hn' : (n : ℝ) ≠ 0 := by exact_mod_cast hn.ne'
  simp only [Pi.div_apply]
  rw [div_div_div_cancel_right₀ hn']

theorem to_infinity {p : ℝ} (hp : 0 < p) {f : ℕ → ℝ} (hf : Tendsto (fun n : ℕ => f n / n) atTop (𝓝 p)) : Tendsto f atTop atTop := by
  refine (hf.pos_mul_atTop hp tendsto_natCast_atTop_atTop).congr' ?_
  filter_upwards [eventually_gt_atTop 0] with n hn
  have hn' : (n : ℝ) ≠ 0 := by exact_mod_cast hn.ne'
  field_simp


/-- Slutsky with other limits. -/
theorem slutsky_scaled [IsProbabilityMeasure P] {A U V : ℕ → Ω → ℝ} (hA : TendstoInDistribution A atTop (id : ℝ → ℝ) (fun _ => P) (gaussianReal 0 1))
    (hU : ∀ n, Measurable (U n)) (hV : ∀ n, Measurable (V n)) {u v : ℝ} (hu : 0 < u) (hv : 0 < v) (tU : ∀ᵐ ω ∂P, Tendsto (fun n => U n ω) atTop (𝓝 u))
    (tV : ∀ᵐ ω ∂P, Tendsto (fun n => V n ω) atTop (𝓝 v)) {z : ℝ} (hz : 0 < z) :
    Tendsto (fun n => P.real {ω | |A n ω| * U n ω ≤ z * V n ω}) atTop (𝓝 ((gaussianReal 0 1).real (Set.Icc (-(z * (v / u))) (z * (v / u))))) := by
  have h := slutsky_interval hA (U := fun n ω => U n ω / u) (V := fun n ω => V n ω / v) (fun n => (hU n).div_const u) (fun n => (hV n).div_const v)
    (by filter_upwards [tU] with ω h
        have := h.div_const u
        rwa [div_self hu.ne'] at this)
    (by filter_upwards [tV] with ω h
        have := h.div_const v
        rwa [div_self hv.ne'] at this) (z := z * (v / u)) (by positivity)
  refine h.congr fun n => ?_
  congr 1
  ext ω
  change |A n ω| * (U n ω / u) ≤ z * (v / u) * (V n ω / v) ↔ |A n ω| * U n ω ≤ z * V n ω
  have e1 : z * (v / u) * (V n ω / v) = z * V n ω / u := by field_simp
  rw [e1, ← mul_div_assoc, div_le_div_iff_of_pos_right hu]

theorem betaVal_measurable (δ : ℝ) : Measurable fun y => betaVal y δ := by
  unfold betaVal
  by_cases h : 0 < δ
  · simp only [if_pos h]; fun_prop
  · simp only [if_neg h]; fun_prop

theorem dslope_measurable {f : ℝ → ℝ} (hf : Measurable f) (m : ℝ) : Measurable (dslope f m) := by
  have e : dslope f m = fun y => if y = m then deriv f m else (y - m)⁻¹ * (f y - f m) := by
    funext y
    by_cases h : y = m
    · rw [if_pos h, h, dslope_same]
    · rw [if_neg h, dslope_of_ne _ h, slope_def_module, smul_eq_mul]
  rw [e]
  exact Measurable.ite (measurableSet_singleton m) measurable_const (by fun_prop)

/-- The laws of large numbers for one scheme. -/
theorem scheme_limits [IsProbabilityMeasure P] (hg : Spec.RandomDraws P g) {a F : ℝ → ℝ} (ha : Measurable a) (ha0 : ∀ e, 0 < e → 0 ≤ a e) (hF : Measurable F)
    (hF0 : ∀ u, 0 ≤ F u) {m m2 : ℝ} (hm : 0 < m) (hm2 : 0 ≤ m2) (i1 : ∫⁻ u, ENNReal.ofReal (F u) ∂(expMeasure 1) = ENNReal.ofReal m)
    (i2 : ∫⁻ u, ENNReal.ofReal (F u ^ 2) ∂(expMeasure 1) = ENNReal.ofReal m2) :
    ∃ p, 0 < p ∧ ∫⁻ e, ENNReal.ofReal (growP a e) ∂(expMeasure 1) = ENNReal.ofReal p ∧ ∀ᵐ ω ∂P,
      Tendsto (fun n : ℕ => pairSum (excessOf a fun _ => 1) n (g ω).expo / n) atTop (𝓝 p) ∧
      Tendsto (fun n => pairSum (excessOf a fun _ => 1) n (g ω).expo) atTop atTop ∧
      Tendsto (fun n => pairSum (excessOf a F) n (g ω).expo) atTop atTop ∧
      Tendsto (fun n => pairSum (excessOf a F) n (g ω).expo / pairSum (excessOf a fun _ => 1) n (g ω).expo) atTop (𝓝 m) ∧
      Tendsto (fun n => pairSum (excessOf a fun u => F u ^ 2) n (g ω).expo / pairSum (excessOf a fun _ => 1) n (g ω).expo) atTop (𝓝 m2) := by
  have hP : IsProbabilityMeasure (expMeasure 1) := isProbabilityMeasure_expMeasure one_pos
  obtain ⟨p, hp, hpq, hlaw⟩ := excess_tendsto hg ha ha0
  refine ⟨p, hp, hpq, ?_⟩
  filter_upwards [hlaw (fun _ => 1) 1 measurable_const (fun _ => zero_le_one) zero_le_one (by simp), hlaw F m hF hF0 hm.le i1,
    hlaw (fun u => F u ^ 2) m2 (hF.pow_const 2) (fun u => sq_nonneg _) hm2 i2] with ω t1 t2 t3
  rw [one_mul] at t1
  refine ⟨t1, to_infinity hp t1, to_infinity (mul_pos hm hp) t2, ?_, ?_⟩
  · have := ratio_tendsto hp.ne' t2 t1
    rwa [mul_div_assoc, div_self hp.ne', mul_one] at this
  · have := ratio_tendsto hp.ne' t3 t1
    rwa [mul_div_assoc, div_self hp.ne', mul_one] at this

/-- Limit of the reported standard deviation for one scheme. -/
theorem std_scheme [IsProbabilityMeasure P] (hg : Spec.RandomDraws P g) {b mc δ d : ℝ} {a F : ℝ → ℝ} {X : (ℕ → ℝ) → ℕ → ℝ} (hS : PositiveScheme b mc δ d a F X) (hd : 0 ≤ d)
    (ha : Measurable a) (ha0 : ∀ e, 0 < e → 0 ≤ a e) (hF : Measurable F) (hF0 : ∀ u, 0 ≤ F u) {m m2 : ℝ} (hm : 0 < m) (hm2 : 0 ≤ m2)
    (i1 : ∫⁻ u, ENNReal.ofReal (F u) ∂(expMeasure 1) = ENNReal.ofReal m) (i2 : ∫⁻ u, ENNReal.ofReal (F u ^ 2) ∂(expMeasure 1) = ENNReal.ofReal m2)
    (hb : b = betaVal m δ / Real.log 10) :
    ∀ᵐ ω ∂P, ∃ (σ : ℕ → ℝ) (k : ℕ → ℕ), (∀ᶠ n in atTop, ∃ mags, simulateBinned n (fun _ => b) mc δ none .bValue (g ω) = .ok mags ∧
      ∀ warn s, Reachable .positive s → ((calculate .positive warn s { mags := mags.map some, mc := mc, δ := δ, dmc := some d }).1.n = .ok (k n) ∧
        (calculate .positive warn s { mags := mags.map some, mc := mc, δ := δ, dmc := some d }).1.std = .ok (.fin (σ n)))) ∧
      Tendsto k atTop atTop ∧ Tendsto (fun n : ℕ => Real.sqrt (k n) * σ n) atTop (𝓝 (Real.log 10 * b ^ 2 * Real.sqrt (m2 - m ^ 2))) := by
  have hδ0 : 0 ≤ δ := by
    rcases hS.grid with rfl | ⟨h, -⟩
    · exact le_rfl
    · exact le_trans (by positivity) h
  obtain ⟨p, hp, -, hlim⟩ := scheme_limits hg ha ha0 hF hF0 hm hm2 i1 i2
  filter_upwards [all_pos hg, hlim] with ω hpos ⟨t1, iK, iD, tM, t3⟩
  have hpred : Tendsto (fun n : ℕ => n - 1) atTop atTop := tendsto_sub_atTop_nat 1
  set K := fun n => pairSum (excessOf a fun _ => 1) n (g ω).expo with hK
  set D := fun n => pairSum (excessOf a F) n (g ω).expo with hD
  set D2 := fun n => pairSum (excessOf a fun u => F u ^ 2) n (g ω).expo with hD2
  have hev : ∀ᶠ n in atTop, 1 < K n ∧ 0 < D n := (iK.eventually_gt_atTop 1).and (iD.eventually_gt_atTop 0)
  have hfl : ∀ᶠ n in atTop, (⌊K n⌋₊ : ℝ) = K n := by
    filter_upwards [hev] with n hn
    exact (outcome_positive hS (g ω) hpos hd n hn.1 hn.2 false State.init).2.2.2
  refine ⟨fun n => Real.log 10 * (betaVal (D (n - 1) / K (n - 1)) δ / Real.log 10) ^ 2 * Real.sqrt (D2 (n - 1) / K (n - 1) - (D (n - 1) / K (n - 1)) ^ 2) / Real.sqrt (K (n - 1) - 1),
    fun n => ⌊K (n - 1)⌋₊, ?_, (tendsto_nat_floor_atTop.comp iK).comp hpred, ?_⟩
  · filter_upwards [eventually_gt_atTop 0, hpred.eventually hev] with n hn h
    obtain ⟨l, rfl⟩ : ∃ l, n = l + 1 := ⟨n - 1, by omega⟩
    simp only [Nat.add_sub_cancel] at h ⊢
    refine ⟨_, hS.sim (g ω) (l + 1), fun warn s _ => ?_⟩
    have ho := outcome_positive hS (g ω) hpos hd l h.1 h.2 warn s
    exact ⟨ho.2.2.1, ho.2.1⟩
  · have tV : Tendsto (fun n => Real.sqrt (D2 n / K n - (D n / K n) ^ 2)) atTop (𝓝 (Real.sqrt (m2 - m ^ 2))) :=
      (Real.continuous_sqrt.tendsto _).comp (t3.sub (tM.pow 2))
    have tS : Tendsto (fun n => Real.sqrt (1 - 1 / K n)) atTop (𝓝 1) := by
      have h1 : Tendsto (fun n => 1 / K n) atTop (𝓝 0) := tendsto_const_nhds.div_atTop iK
      have := (Real.continuous_sqrt.tendsto _).comp (h1.const_sub 1)
      rw [sub_zero, Real.sqrt_one] at this
      exact this
    have tb := (betaVal_tendsto hδ0 hm tM).div_const (Real.log 10)
    rw [← hb] at tb
    have h2 := (((tb.pow 2).const_mul (Real.log 10)).mul tV).div tS one_ne_zero
    rw [div_one] at h2
    have h3 : Tendsto (fun n => Real.sqrt ⌊K n⌋₊ * (Real.log 10 * (betaVal (D n / K n) δ / Real.log 10) ^ 2 * Real.sqrt (D2 n / K n - (D n / K n) ^ 2) / Real.sqrt (K n - 1))) atTop
        (𝓝 (Real.log 10 * b ^ 2 * Real.sqrt (m2 - m ^ 2))) := ?_
    · exact h3.comp hpred
    refine h2.congr' ?_
    filter_upwards [hev, hfl] with n hn hf
    have hK0 : 0 < K n := by linarith [hn.1]
    have hsn : 0 < Real.sqrt (K n) := Real.sqrt_pos.2 hK0
    have hs1 : 0 < Real.sqrt (K n - 1) := Real.sqrt_pos.2 (by linarith [hn.1])
    have h1 : Real.sqrt (1 - 1 / K n) = Real.sqrt (K n - 1) / Real.sqrt (K n) := by
      rw [← Real.sqrt_div (by linarith [hn.1])]
      congr 1
      field_simp
    simp only [Pi.div_apply]
    rw [h1, hf]
    generalize Real.sqrt (D2 n / K n - (D n / K n) ^ 2) = S
    generalize betaVal (D n / K n) δ = B
    field_simp

/-- Limit of the coverage for one scheme. -/
theorem coverage_scheme [IsProbabilityMeasure P] (hg : Spec.RandomDraws P g) {b mc δ d : ℝ} {a F : ℝ → ℝ} {X : (ℕ → ℝ) → ℕ → ℝ} (hS : PositiveScheme b mc δ d a F X)
    (hb0 : 0 < b) (hd : 0 ≤ d) (ha : Measurable a) (ha0 : ∀ e, 0 < e → 0 ≤ a e) (hF : Measurable F) (hF0 : ∀ u, 0 ≤ F u) {m m2 κ : ℝ} (hm : 0 < m) (hm2 : m ^ 2 < m2)
    (i1 : ∫⁻ u, ENNReal.ofReal (F u) ∂(expMeasure 1) = ENNReal.ofReal m) (i2 : ∫⁻ u, ENNReal.ofReal (F u ^ 2) ∂(expMeasure 1) = ENNReal.ofReal m2)
    (hb : b = betaVal m δ / Real.log 10) (hκ : 0 < κ) (hf : HasDerivAt (fun y => betaVal y δ / Real.log 10) (-κ) m) {z : ℝ} (hz : 0 < z) :
    Tendsto (fun n => P.real {ω | CoversWith .positive b mc δ (some d) z n (g ω)}) atTop
      (𝓝 ((gaussianReal 0 1).real (Set.Icc (-(z * (Real.log 10 * b ^ 2 / κ))) (z * (Real.log 10 * b ^ 2 / κ))))) := by
  have hP : IsProbabilityMeasure (expMeasure 1) := isProbabilityMeasure_expMeasure one_pos
  have hl := log_ten_pos
  have hδ0 : 0 ≤ δ := by
    rcases hS.grid with rfl | ⟨h, -⟩
    · exact le_rfl
    · exact le_trans (by positivity) h
  have hm20 : 0 ≤ m2 := le_trans (sq_nonneg m) hm2.le
  set v := m2 - m ^ 2 with hv
  have hv0 : 0 < v := by rw [hv]; linarith
  have hsv : 0 < Real.sqrt v := Real.sqrt_pos.2 hv0
  obtain ⟨p, hp, hpq, hlim⟩ := scheme_limits hg ha ha0 hF hF0 hm hm20 i1 i2
  obtain ⟨I1, v1⟩ := exp_integral hF (fun x _ => hF0 x) hm.le i1
  obtain ⟨I2, v2⟩ := exp_integral (f := fun u => F u ^ 2) (hF.pow_const 2) (fun x _ => sq_nonneg _) hm20 i2
  -- the normalized excess
  have n0 : ∫ u, (F u - m) / Real.sqrt v ∂(expMeasure 1) = 0 := by
    rw [integral_div, integral_sub I1 (integrable_const m), v1]
    simp
  have n1 : ∫ u, ((F u - m) / Real.sqrt v) ^ 2 ∂(expMeasure 1) = 1 := by
    have e2 : ∀ u, ((F u - m) / Real.sqrt v) ^ 2 = (F u ^ 2 - 2 * m * F u + m ^ 2) / v := fun u => by
      rw [div_pow, Real.sq_sqrt hv0.le]; ring
    simp only [e2]
    have I3 : Integrable (fun u => F u ^ 2 - 2 * m * F u) (expMeasure 1) := I2.sub (I1.const_mul (2 * m))
    rw [integral_div, integral_add I3 (integrable_const _), integral_sub I2 (I1.const_mul (2 * m)), integral_const_mul, v1, v2]
    simp only [integral_const, probReal_univ, one_smul]
    rw [div_eq_one_iff_eq hv0.ne', hv]; ring
  have hclt := clt_excess hg ha ha0 (F := fun u => (F u - m) / Real.sqrt v) ((hF.sub_const m).div_const _) n0 n1 hp hpq
  have hseq : Measurable fun ω => (g ω).expo := measurable_pi_iff.2 hg.expo_measurable
  have mK : ∀ n, Measurable fun ω => pairSum (excessOf a fun _ => 1) n (g ω).expo := fun n => (pairSum_measurable (excessOf_measurable ha measurable_const) n).comp hseq
  have mD : ∀ n, Measurable fun ω => pairSum (excessOf a F) n (g ω).expo := fun n => (pairSum_measurable (excessOf_measurable ha hF) n).comp hseq
  have mD2 : ∀ n, Measurable fun ω => pairSum (excessOf a fun u => F u ^ 2) n (g ω).expo := fun n =>
    (pairSum_measurable (excessOf_measurable ha (hF.pow_const 2)) n).comp hseq
  have hfm : Measurable fun y => betaVal y δ / Real.log 10 := (betaVal_measurable δ).div_const _
  have hU : ∀ n : ℕ, Measurable fun ω => Real.sqrt (n * p * (pairSum (excessOf a fun _ => 1) n (g ω).expo - 1) / pairSum (excessOf a fun _ => 1) n (g ω).expo ^ 2) * Real.sqrt v *
      |dslope (fun y => betaVal y δ / Real.log 10) m (pairSum (excessOf a F) n (g ω).expo / pairSum (excessOf a fun _ => 1) n (g ω).expo)| := fun n =>
    ((Real.continuous_sqrt.measurable.comp ((((mK n).sub_const 1).const_mul _).div ((mK n).pow_const 2))).mul_const _).mul
      (continuous_abs.measurable.comp ((dslope_measurable hfm m).comp ((mD n).div (mK n))))
  have hV : ∀ n : ℕ, Measurable fun ω => Real.log 10 * (betaVal (pairSum (excessOf a F) n (g ω).expo / pairSum (excessOf a fun _ => 1) n (g ω).expo) δ / Real.log 10) ^ 2 *
      Real.sqrt (pairSum (excessOf a fun u => F u ^ 2) n (g ω).expo / pairSum (excessOf a fun _ => 1) n (g ω).expo -
        (pairSum (excessOf a F) n (g ω).expo / pairSum (excessOf a fun _ => 1) n (g ω).expo) ^ 2) := fun n =>
    (((hfm.comp ((mD n).div (mK n))).pow_const 2).const_mul _).mul
      (Real.continuous_sqrt.measurable.comp (((mD2 n).div (mK n)).sub (((mD n).div (mK n)).pow_const 2)))
  have hcont : ContinuousAt (dslope (fun y => betaVal y δ / Real.log 10) m) m := continuousAt_dslope_same.2 hf.differentiableAt
  have key := slutsky_scaled hclt hU hV (u := Real.sqrt v * κ) (v := Real.log 10 * b ^ 2 * Real.sqrt v) (by positivity) (by positivity)
    (by
      filter_upwards [hlim] with ω ⟨t1, iK, iD, tM, t3⟩
      have h0 : Tendsto (fun n : ℕ => p * (pairSum (excessOf a fun _ => 1) n (g ω).expo / n - 1 / n) / (pairSum (excessOf a fun _ => 1) n (g ω).expo / n) ^ 2) atTop (𝓝 1) := by
        have := ((t1.sub (tendsto_const_div_atTop_nhds_zero_nat (1 : ℝ))).const_mul p).div (t1.pow 2) (by positivity)
        rwa [sub_zero, show p * p / p ^ 2 = 1 by field_simp] at this
      have h1 := (Real.continuous_sqrt.tendsto _).comp h0
      rw [Real.sqrt_one] at h1
      have h3 := (hcont.tendsto.comp tM).abs
      rw [dslope_same, hf.deriv, abs_neg, abs_of_pos hκ] at h3
      have h2 := (h1.mul_const (Real.sqrt v)).mul h3
      rw [one_mul] at h2
      refine h2.congr' ?_
      filter_upwards [eventually_gt_atTop 0] with n hn
      have hn' : (n : ℝ) ≠ 0 := by exact_mod_cast hn.ne'
      simp only [Function.comp_apply]
      congr 3
      generalize pairSum (excessOf a fun _ => 1) n (g ω).expo = K
      by_cases hk : K = 0
      · rw [hk]; simp
      · field_simp)
    (by
      filter_upwards [hlim] with ω ⟨t1, iK, iD, tM, t3⟩
      have tb := (betaVal_tendsto hδ0 hm tM).div_const (Real.log 10)
      rw [← hb] at tb
      exact ((tb.pow 2).const_mul (Real.log 10)).mul ((Real.continuous_sqrt.tendsto _).comp (t3.sub (tM.pow 2)))) hz
  have er : Real.log 10 * b ^ 2 * Real.sqrt v / (Real.sqrt v * κ) = Real.log 10 * b ^ 2 / κ := by field_simp
  rw [er] at key
  have hpred : Tendsto (fun n : ℕ => n - 1) atTop atTop := tendsto_sub_atTop_nat 1
  have shifted : Tendsto (fun n => P.real {ω | CoversWith .positive b mc δ (some d) z (n + 1) (g ω)}) atTop
      (𝓝 ((gaussianReal 0 1).real (Set.Icc (-(z * (Real.log 10 * b ^ 2 / κ))) (z * (Real.log 10 * b ^ 2 / κ))))) := by
    refine prob_congr (G := fun n ω => 1 < pairSum (excessOf a fun _ => 1) n (g ω).expo ∧ 0 < pairSum (excessOf a F) n (g ω).expo) (fun n => ?_) ?_ ?_ key
    · exact (measurableSet_lt measurable_const (mK n)).inter (measurableSet_lt measurable_const (mD n))
    · filter_upwards [hlim] with ω ⟨t1, iK, iD, tM, t3⟩
      exact (iK.eventually_gt_atTop 1).and (iD.eventually_gt_atTop 0)
    · filter_upwards [eventually_gt_atTop 0] with n hn
      filter_upwards [all_pos hg] with ω hpos hG
      exact (covers_positive_iff hS (g ω) hpos hd hp hv0 hb n hn hG.1 hG.2).symm
  refine (shifted.comp hpred).congr' ?_
  filter_upwards [eventually_gt_atTop 0] with n hn
  simp only [Function.comp_apply]
  rw [Nat.sub_add_cancel hn]

/-! ### Magnitudes that are not binned -/

theorem scheme_continuous {b d : ℝ} (mc : ℝ) (hb : 0 < b) :
    PositiveScheme b mc 0 d (fun e => e + b * Real.log 10 * d) (fun u => max u 0 / (b * Real.log 10)) fun v i => mc + v i / (b * Real.log 10) := by
  have hβ : 0 < b * Real.log 10 := mul_pos hb log_ten_pos
  refine ⟨fun r n => simulate_continuous r n hb, ?_, Or.inl rfl, ?_, ?_⟩
  · intro v hv i
    have := div_pos (hv i) hβ
    linarith
  · intro v hv i
    rw [show mc + v (i + 1) / (b * Real.log 10) - (mc + v i / (b * Real.log 10)) = (v (i + 1) - v i) / (b * Real.log 10) by ring, zero_div, sub_zero, le_div_iff₀ hβ]
    constructor <;> intro h <;> linarith
  · intro v hv i h
    rw [max_eq_left (by linarith)]
    have := log_ten_pos.ne'
    field_simp
    ring

theorem moments_continuous {β : ℝ} (hβ : 0 < β) :
    ∫⁻ u, ENNReal.ofReal (max u 0 / β) ∂(expMeasure 1) = ENNReal.ofReal (1 / β) ∧
    ∫⁻ u, ENNReal.ofReal ((max u 0 / β) ^ 2) ∂(expMeasure 1) = ENNReal.ofReal (2 / β ^ 2) := by
  constructor
  · have e : ∀ u : ℝ, ENNReal.ofReal (max u 0 / β) = ENNReal.ofReal (1 / β) * ENNReal.ofReal (max (u - 0) 0) := fun u => by
      rw [← ENNReal.ofReal_mul (by positivity), sub_zero]; congr 1; ring
    simp only [e]
    rw [lintegral_const_mul _ (by fun_prop), exp_excess le_rfl]
    simp
  · have e : ∫⁻ u, ENNReal.ofReal ((max u 0 / β) ^ 2) ∂(expMeasure 1) = ∫⁻ u, ENNReal.ofReal (1 / β ^ 2) * ENNReal.ofReal (u ^ 2) ∂(expMeasure 1) := by
      apply lintegral_congr_ae
      filter_upwards [exp_ae_pos] with u hu
      rw [← ENNReal.ofReal_mul (by positivity), max_eq_left hu.le]; congr 1; ring
    rw [e, lintegral_const_mul _ (by fun_prop), exp_second, ← ENNReal.ofReal_mul (by positivity)]
    congr 1; ring

theorem deriv_continuous {m : ℝ} (hm : 0 < m) : HasDerivAt (fun y => betaVal y 0 / Real.log 10) (-(1 / (m ^ 2 * Real.log 10))) m := by
  have h := (hasDerivAt_inv hm.ne').div_const (Real.log 10)
  have e : (fun y => betaVal y 0 / Real.log 10) = fun y => y⁻¹ / Real.log 10 := by
    funext y
    unfold betaVal
    rw [if_neg (lt_irrefl 0), one_div]
  rw [e]
  refine h.congr_deriv ?_
  have := log_ten_pos.ne'
  field_simp

/-- C99: the reported standard deviation of a b-positive value, times the root of the number of differences used, converges to the b-value of the simulation. -/
theorem C99_std [IsProbabilityMeasure P] (hg : Spec.RandomDraws P g) (b mc d : ℝ) (hb : 0 < b) (hd : 0 ≤ d) :
    ∀ᵐ ω ∂P, ∃ (σ : ℕ → ℝ) (k : ℕ → ℕ), (∀ᶠ n in atTop, ∃ mags, simulateBinned n (fun _ => b) mc 0 none .bValue (g ω) = .ok mags ∧
      ∀ warn s, Reachable .positive s → ((calculate .positive warn s { mags := mags.map some, mc := mc, δ := 0, dmc := some d }).1.n = .ok (k n) ∧
        (calculate .positive warn s { mags := mags.map some, mc := mc, δ := 0, dmc := some d }).1.std = .ok (.fin (σ n)))) ∧
      Tendsto k atTop atTop ∧ Tendsto (fun n : ℕ => Real.sqrt (k n) * σ n) atTop (𝓝 b) := by
  have hβ : 0 < b * Real.log 10 := mul_pos hb log_ten_pos
  have hl := log_ten_pos
  have key := std_scheme hg (scheme_continuous (d := d) mc hb) hd (by fun_prop) (fun e he => by positivity) (by fun_prop) (fun u => div_nonneg (le_max_right _ _) hβ.le)
    (m := 1 / (b * Real.log 10)) (by positivity) (by positivity) (moments_continuous hβ).1 (moments_continuous hβ).2
    (by unfold betaVal; rw [if_neg (lt_irrefl 0)]; field_simp)
  have e : Real.log 10 * b ^ 2 * Real.sqrt (2 / (b * Real.log 10) ^ 2 - (1 / (b * Real.log 10)) ^ 2) = b := by
    rw [show 2 / (b * Real.log 10) ^ 2 - (1 / (b * Real.log 10)) ^ 2 = (1 / (b * Real.log 10)) ^ 2 by ring, Real.sqrt_sq (by positivity)]
    field_simp
  rwa [e] at key

/-- C99: the probability that the interval of `z` standard deviations around the b-positive estimate contains the b-value of the simulation converges to the probability
that a standard normal variable is at most `z` in absolute value. -/
theorem C99_coverage [IsProbabilityMeasure P] (hg : Spec.RandomDraws P g) (b mc d z : ℝ) (hb : 0 < b) (hd : 0 ≤ d) (hz : 0 < z) :
    Tendsto (fun n => P.real {ω | CoversWith .positive b mc 0 (some d) z n (g ω)}) atTop (𝓝 ((gaussianReal 0 1).real (Set.Icc (-z) z))) := by
  have hβ : 0 < b * Real.log 10 := mul_pos hb log_ten_pos
  have hl := log_ten_pos
  have key := coverage_scheme hg (scheme_continuous (d := d) mc hb) hb hd (by fun_prop) (fun e he => by positivity) (by fun_prop) (fun u => div_nonneg (le_max_right _ _) hβ.le)
    (m := 1 / (b * Real.log 10)) (by positivity) (by rw [div_pow, one_pow]; gcongr; norm_num) (moments_continuous hβ).1 (moments_continuous hβ).2
    (by unfold betaVal; rw [if_neg (lt_irrefl 0)]; field_simp) (by positivity) (deriv_continuous (by positivity)) hz
  have e : z * (Real.log 10 * b ^ 2 / (1 / ((1 / (b * Real.log 10)) ^ 2 * Real.log 10))) = z := by field_simp
  rwa [e] at key

/-! ### Binned magnitudes -/

theorem scheme_binned {b δ : ℝ} (z : ℤ) (k : ℕ) (hb : 0 < b) (hδ : 1 / 10 ^ 12 ≤ δ) :
    PositiveScheme b (z * δ) δ (k * δ) (fun e => b * Real.log 10 * δ * (((⌊e / (b * Real.log 10 * δ) + 1 / 10 ^ 12⌋ + k : ℤ) : ℝ) - 1 / 10 ^ 12))
      (fun u => δ * max ((⌊u / (b * Real.log 10 * δ)⌋ : ℤ) : ℝ) 0) fun v i => ((z + ⌊v i / (b * Real.log 10 * δ) + 1 / 10 ^ 12⌋ : ℤ) : ℝ) * δ := by
  have hp : 0 < δ := lt_of_lt_of_le (by positivity) hδ
  have hx : 0 < b * Real.log 10 * δ := mul_pos (mul_pos hb log_ten_pos) hp
  generalize hxd : b * Real.log 10 * δ = x at *
  refine ⟨fun r n => ?_, ?_, Or.inr ⟨hδ, fun v i => ⟨_, rfl⟩⟩, ?_, ?_⟩
  · rw [simulate_grid r n z hb hδ, hxd]
  · intro v hv i
    have : 0 ≤ ⌊v i / x + 1 / 10 ^ 12⌋ := Int.floor_nonneg.2 (by have := div_pos (hv i) hx; positivity)
    have h0 : (0 : ℝ) ≤ ((⌊v i / x + 1 / 10 ^ 12⌋ : ℤ) : ℝ) := by exact_mod_cast this
    push_cast
    nlinarith [mul_nonneg h0 hp.le]
  · intro v hv i
    have e1 : x * (((⌊v i / x + 1 / 10 ^ 12⌋ + k : ℤ) : ℝ) - 1 / 10 ^ 12) ≤ v (i + 1) ↔ ⌊v i / x + 1 / 10 ^ 12⌋ + k ≤ ⌊v (i + 1) / x + 1 / 10 ^ 12⌋ := by
      rw [Int.le_floor, ← sub_le_iff_le_add, le_div_iff₀ hx, mul_comm]
    rw [e1]
    generalize ⌊v i / x + 1 / 10 ^ 12⌋ = A
    generalize ⌊v (i + 1) / x + 1 / 10 ^ 12⌋ = B
    constructor
    · intro h
      by_contra hc
      have h1 : B + 1 ≤ A + k := by omega
      have h2 : (B : ℝ) + 1 ≤ A + k := by exact_mod_cast h1
      push_cast at h
      nlinarith
    · intro h
      have h2 : (A : ℝ) + k ≤ B := by exact_mod_cast h
      push_cast
      nlinarith
  · intro v hv i h
    have e1 : ⌊v i / x + 1 / 10 ^ 12⌋ + k ≤ ⌊v (i + 1) / x + 1 / 10 ^ 12⌋ := by
      rw [Int.le_floor, ← sub_le_iff_le_add, le_div_iff₀ hx, mul_comm]; exact h
    have e2 : (v (i + 1) - x * (((⌊v i / x + 1 / 10 ^ 12⌋ + k : ℤ) : ℝ) - 1 / 10 ^ 12)) / x = v (i + 1) / x + 1 / 10 ^ 12 - ((⌊v i / x + 1 / 10 ^ 12⌋ + k : ℤ) : ℝ) := by
      have := hx.ne'
      field_simp
      ring
    rw [e2, Int.floor_sub_intCast]
    generalize ⌊v i / x + 1 / 10 ^ 12⌋ = A at *
    generalize ⌊v (i + 1) / x + 1 / 10 ^ 12⌋ = B at *
    have h2 : (A : ℝ) + k ≤ B := by exact_mod_cast e1
    rw [max_eq_left (by push_cast; linarith)]
    push_cast
    ring

theorem sum_odd (n : ℕ) : ∑ j ∈ Finset.range n, (2 * (j : ℝ) + 1) = (n : ℝ) ^ 2 := by
  induction n with
  | zero => simp
  | succ n ih => rw [Finset.sum_range_succ, ih]; push_cast; ring

/-- The square of an integer as a sum over levels. -/
theorem sum_levels_sq (y : ℝ) : ENNReal.ofReal (max ((⌊y⌋ : ℤ) : ℝ) 0 ^ 2) = ∑' j : ℕ, if (j : ℝ) + 1 ≤ y then ENNReal.ofReal (2 * (j : ℝ) + 1) else 0 := by
  set n := ⌊y⌋.toNat with hn
  have h1 : ∀ j : ℕ, ((j : ℝ) + 1 ≤ y) ↔ j ∈ Finset.range n := by
    intro j
    rw [Finset.mem_range, hn, Int.lt_toNat, ← Int.add_one_le_iff, Int.le_floor]
    push_cast
    rfl
  rw [tsum_eq_sum (s := Finset.range n)]
  · rw [Finset.sum_congr rfl (g := fun j : ℕ => ENNReal.ofReal (2 * (j : ℝ) + 1))]
    · rw [← ENNReal.ofReal_sum_of_nonneg (fun j _ => by positivity), sum_odd]
      congr 2
      rcases le_total ⌊y⌋ 0 with h | h
      · have h0 : n = 0 := by rw [hn]; omega
        have : ((⌊y⌋ : ℤ) : ℝ) ≤ 0 := by exact_mod_cast h
        rw [h0, max_eq_right this]; simp
      · have h0 : ((n : ℤ) : ℝ) = ((⌊y⌋ : ℤ) : ℝ) := by rw [hn, Int.toNat_of_nonneg h]
        have : (0 : ℝ) ≤ ⌊y⌋ := by exact_mod_cast h
        rw [max_eq_left this, ← h0, Int.cast_natCast]
    · intro j hj
      rw [if_pos ((h1 j).2 hj)]
  · intro j hj
    rw [if_neg (fun h => hj ((h1 j).1 h))]

/-- Second moment of the geometric law. -/
theorem floor_second {x : ℝ} (hx : 0 < x) : ∫⁻ u, ENNReal.ofReal (max ((⌊u / x⌋ : ℤ) : ℝ) 0 ^ 2) ∂(expMeasure 1) = ENNReal.ofReal ((Real.exp x + 1) / (Real.exp x - 1) ^ 2) := by
  simp only [sum_levels_sq]
  have hset : ∀ j : ℕ, MeasurableSet {u : ℝ | (j : ℝ) + 1 ≤ u / x} := fun j => measurableSet_le (by fun_prop) (by fun_prop)
  rw [lintegral_tsum]
  · have h1 : ∀ j : ℕ, ∫⁻ u, (if (j : ℝ) + 1 ≤ u / x then ENNReal.ofReal (2 * (j : ℝ) + 1) else 0) ∂(expMeasure 1) =
        ENNReal.ofReal (2 * Real.exp (-x) * ((j : ℝ) * Real.exp (-x) ^ j) + Real.exp (-x) * Real.exp (-x) ^ j) := by
      intro j
      have e1 : (fun u : ℝ => if (j : ℝ) + 1 ≤ u / x then ENNReal.ofReal (2 * (j : ℝ) + 1) else 0) = fun u => ENNReal.ofReal (2 * (j : ℝ) + 1) * Set.indicator (Set.Ici (x * (j + 1))) 1 u := by
        funext u
        have : (j : ℝ) + 1 ≤ u / x ↔ u ∈ Set.Ici (x * (j + 1)) := by rw [Set.mem_Ici, le_div_iff₀ hx, mul_comm]
        by_cases h : (j : ℝ) + 1 ≤ u / x
        · rw [if_pos h, Set.indicator_of_mem (this.1 h)]; simp
        · rw [if_neg h, Set.indicator_of_notMem (fun h' => h (this.2 h'))]; simp
      have hm : Measurable (Set.indicator (Set.Ici (x * ((j : ℝ) + 1))) (1 : ℝ → ENNReal)) := measurable_one.indicator measurableSet_Ici
      rw [e1, lintegral_const_mul _ hm, lintegral_indicator_one measurableSet_Ici, exp_tail (by positivity), ← ENNReal.ofReal_mul (by positivity)]
      congr 1
      have e2 : Real.exp (-(x * ((j : ℝ) + 1))) = Real.exp (-x) * Real.exp (-x) ^ j := by
        rw [← Real.exp_nat_mul, ← Real.exp_add]; congr 1; ring
      rw [e2]; ring
    simp only [h1]
    have hq0 : 0 ≤ Real.exp (-x) := (Real.exp_pos _).le
    have hq1 : Real.exp (-x) < 1 := Real.exp_lt_one_iff.2 (by linarith)
    have hs := ((hasSum_coe_mul_geometric_of_norm_lt_one (r := Real.exp (-x)) (by rw [Real.norm_of_nonneg hq0]; exact hq1)).mul_left (2 * Real.exp (-x))).add
      ((hasSum_geometric_of_lt_one hq0 hq1).mul_left (Real.exp (-x)))
    rw [← ENNReal.ofReal_tsum_of_nonneg (fun j => by positivity) hs.summable, hs.tsum_eq]
    congr 1
    have hxp : Real.exp x - 1 ≠ 0 := by
      have : (1 : ℝ) < Real.exp x := Real.one_lt_exp_iff.2 hx
      linarith
    rw [Real.exp_neg]
    have h2 := (Real.exp_pos x).ne'
    have h3 : 1 - (Real.exp x)⁻¹ = (Real.exp x - 1) / Real.exp x := by field_simp
    rw [h3]
    field_simp
    ring
  · intro j
    exact (Measurable.ite (hset j) measurable_const measurable_const).aemeasurable

theorem moments_binned {x δ : ℝ} (hx : 0 < x) (hδ : 0 < δ) :
    ∫⁻ u, ENNReal.ofReal (δ * max ((⌊u / x⌋ : ℤ) : ℝ) 0) ∂(expMeasure 1) = ENNReal.ofReal (δ / (Real.exp x - 1)) ∧
    ∫⁻ u, ENNReal.ofReal ((δ * max ((⌊u / x⌋ : ℤ) : ℝ) 0) ^ 2) ∂(expMeasure 1) = ENNReal.ofReal (δ ^ 2 * ((Real.exp x + 1) / (Real.exp x - 1) ^ 2)) := by
  have hcast : Measurable fun u : ℝ => max ((⌊u / x⌋ : ℤ) : ℝ) 0 := by
    have h1 : Measurable fun z : ℤ => (z : ℝ) := measurable_from_top
    have h2 : Measurable fun u : ℝ => ⌊u / x⌋ := Int.measurable_floor.comp (by fun_prop)
    exact (h1.comp h2).max measurable_const
  constructor
  · have h := floor_excess (x := x) (ε := 0) hx zero_le_one (z := 0) le_rfl
    simp only [add_zero, Int.cast_zero, sub_zero, mul_zero, Real.exp_zero] at h
    simp only [ENNReal.ofReal_mul hδ.le]
    rw [lintegral_const_mul _ hcast.ennreal_ofReal, h, ← ENNReal.ofReal_mul hδ.le, mul_one_div]
  · simp only [mul_pow, ENNReal.ofReal_mul (sq_nonneg δ)]
    rw [lintegral_const_mul _ (hcast.pow_const 2).ennreal_ofReal, floor_second hx]

theorem deriv_binned {m δ : ℝ} (hm : 0 < m) (hδ : 0 < δ) : HasDerivAt (fun y => betaVal y δ / Real.log 10) (-(1 / (m * (m + δ) * Real.log 10))) m := by
  have e : (fun y => betaVal y δ / Real.log 10) = fun y => Real.log (1 + δ * y⁻¹) / δ / Real.log 10 := by
    funext y
    unfold betaVal
    rw [if_pos hδ, div_eq_mul_inv δ y]
  rw [e]
  have h1 : 0 < 1 + δ * m⁻¹ := by positivity
  have h := (((((hasDerivAt_inv hm.ne').const_mul δ).const_add 1).log h1.ne').div_const δ).div_const (Real.log 10)
  refine h.congr_deriv ?_
  have := log_ten_pos.ne'
  field_simp

/-- The factor by which the reported standard deviation is too small for magnitudes with bin width `δ`. -/
def shrink (x : ℝ) : ℝ := (x / 2 / Real.sinh (x / 2)) ^ 2

theorem shrink_eq {x : ℝ} (hx : 0 < x) : shrink x = x ^ 2 * Real.exp x / (Real.exp x - 1) ^ 2 := by
  unfold shrink
  have h1 : Real.sinh (x / 2) = (Real.exp x - 1) / (2 * Real.exp (x / 2)) := by
    rw [Real.sinh_eq, Real.exp_neg]
    have h2 : Real.exp x = Real.exp (x / 2) ^ 2 := by rw [← Real.exp_nat_mul]; congr 1; push_cast; ring
    rw [h2]
    have := (Real.exp_pos (x / 2)).ne'
    field_simp
  have hxp : Real.exp x - 1 ≠ 0 := by
    have : (1 : ℝ) < Real.exp x := Real.one_lt_exp_iff.2 hx
    linarith
  have h2 : Real.exp x = Real.exp (x / 2) ^ 2 := by rw [← Real.exp_nat_mul]; congr 1; push_cast; ring
  rw [h1]
  have := (Real.exp_pos (x / 2)).ne'
  rw [div_div_eq_mul_div, div_pow]
  congr 1
  rw [h2]; ring

theorem shrink_lt_one {x : ℝ} (hx : 0 < x) : 0 < shrink x ∧ shrink x < 1 := by
  have h1 : x / 2 < Real.sinh (x / 2) := Real.self_lt_sinh_iff.2 (by linarith)
  have h2 : 0 < Real.sinh (x / 2) := Real.sinh_pos_iff.2 (by linarith)
  unfold shrink
  refine ⟨by positivity, ?_⟩
  have h3 : x / 2 / Real.sinh (x / 2) < 1 := (div_lt_one h2).2 h1
  have h4 : 0 ≤ x / 2 / Real.sinh (x / 2) := by positivity
  nlinarith

/-- What the binned theorems need about the numbers. -/
theorem binned_numbers {b δ : ℝ} (hb : 0 < b) (hδ : 0 < δ) :
    let x := b * Real.log 10 * δ
    let m := δ / (Real.exp x - 1)
    0 < m ∧ b = betaVal m δ / Real.log 10 ∧ m ^ 2 < δ ^ 2 * ((Real.exp x + 1) / (Real.exp x - 1) ^ 2) ∧
      Real.log 10 * b ^ 2 / (1 / (m * (m + δ) * Real.log 10)) = shrink x ∧
      δ ^ 2 * ((Real.exp x + 1) / (Real.exp x - 1) ^ 2) - m ^ 2 = (δ / (2 * Real.sinh (x / 2))) ^ 2 := by
  intro x m
  have hl := log_ten_pos
  have hx : 0 < x := mul_pos (mul_pos hb hl) hδ
  have hex : 0 < Real.exp x - 1 := by
    have : (1 : ℝ) < Real.exp x := Real.one_lt_exp_iff.2 hx
    linarith
  have he := Real.exp_pos x
  have hm : 0 < m := div_pos hδ hex
  have hdiff : δ ^ 2 * ((Real.exp x + 1) / (Real.exp x - 1) ^ 2) - m ^ 2 = δ ^ 2 * Real.exp x / (Real.exp x - 1) ^ 2 := by
    simp only [m]
    field_simp
    ring
  have hmm : m * (m + δ) = δ ^ 2 * Real.exp x / (Real.exp x - 1) ^ 2 := by
    simp only [m]
    field_simp
    ring
  refine ⟨hm, ?_, ?_, ?_, ?_⟩
  · unfold betaVal
    rw [if_pos hδ]
    have e1 : 1 + δ / m = Real.exp x := by simp only [m]; field_simp; ring
    rw [e1, Real.log_exp]
    simp only [x]
    field_simp
  · have : 0 < δ ^ 2 * Real.exp x / (Real.exp x - 1) ^ 2 := by positivity
    linarith
  · rw [shrink_eq hx, hmm, one_div, div_inv_eq_mul]
    have e2 : x ^ 2 = b ^ 2 * Real.log 10 ^ 2 * δ ^ 2 := by simp only [x]; ring
    rw [e2]
    ring
  · rw [hdiff]
    have h1 := shrink_eq hx
    unfold shrink at h1
    have h2 : 0 < Real.sinh (x / 2) := Real.sinh_pos_iff.2 (by linarith)
    have h3 : (1 / (2 * Real.sinh (x / 2))) ^ 2 = Real.exp x / (Real.exp x - 1) ^ 2 := by
      have hx2 : x ^ 2 ≠ 0 := by positivity
      apply mul_left_cancel₀ hx2
      rw [← mul_div_assoc, ← h1]
      field_simp
    rw [mul_div_assoc, ← h3]
    ring

theorem binned_measurable {x δ : ℝ} (k : ℕ) :
    Measurable (fun e : ℝ => x * (((⌊e / x + 1 / 10 ^ 12⌋ + k : ℤ) : ℝ) - 1 / 10 ^ 12)) ∧ Measurable (fun u : ℝ => δ * max ((⌊u / x⌋ : ℤ) : ℝ) 0) := by
  have h1 : Measurable fun z : ℤ => (z : ℝ) := measurable_from_top
  constructor
  · have h2 : Measurable fun e : ℝ => ⌊e / x + 1 / 10 ^ 12⌋ := Int.measurable_floor.comp (by fun_prop)
    exact ((h1.comp (h2.add_const _)).sub_const _).const_mul _
  · have h2 : Measurable fun u : ℝ => ⌊u / x⌋ := Int.measurable_floor.comp (by fun_prop)
    exact ((h1.comp h2).max measurable_const).const_mul _

theorem binned_nonneg {x : ℝ} (hx : 0 < x) {k : ℕ} (hk : 1 ≤ k) {e : ℝ} (he : 0 < e) : 0 ≤ x * (((⌊e / x + 1 / 10 ^ 12⌋ + k : ℤ) : ℝ) - 1 / 10 ^ 12) := by
  have : 0 ≤ ⌊e / x + 1 / 10 ^ 12⌋ := Int.floor_nonneg.2 (by positivity)
  have h0 : (0 : ℝ) ≤ ((⌊e / x + 1 / 10 ^ 12⌋ : ℤ) : ℝ) := by exact_mod_cast this
  have hk' : (1 : ℝ) ≤ k := by exact_mod_cast hk
  apply mul_nonneg hx.le
  push_cast
  norm_num
  linarith

/-- C99: with binned magnitudes, the probability that the interval of `z` standard deviations around the b-positive estimate contains the b-value of the simulation
converges to the probability that a standard normal variable is at most `z * shrink (b ln 10 δ)` in absolute value. -/
theorem C99_coverage_binned [IsProbabilityMeasure P] (hg : Spec.RandomDraws P g) (b δ z : ℝ) (a : ℤ) (k : ℕ) (hb : 0 < b) (hδ : 1 / 10 ^ 12 ≤ δ) (hk : 1 ≤ k) (hz : 0 < z) :
    Tendsto (fun n => P.real {ω | CoversWith .positive b (a * δ) δ (some (k * δ)) z n (g ω)}) atTop
      (𝓝 ((gaussianReal 0 1).real (Set.Icc (-(z * shrink (b * Real.log 10 * δ))) (z * shrink (b * Real.log 10 * δ))))) := by
  have hp : 0 < δ := lt_of_lt_of_le (by positivity) hδ
  have hl := log_ten_pos
  have hx : 0 < b * Real.log 10 * δ := mul_pos (mul_pos hb hl) hp
  obtain ⟨hm, hbm, hm2, hr, -⟩ := binned_numbers hb hp
  have key := coverage_scheme hg (scheme_binned a k hb hδ) hb (by positivity) (binned_measurable (δ := δ) k).1 (fun e he => binned_nonneg hx hk he) (binned_measurable (δ := δ) k).2
    (fun u => mul_nonneg hp.le (le_max_right _ _)) hm hm2 (moments_binned hx hp).1 (moments_binned hx hp).2 hbm (by positivity) (deriv_binned hm hp) hz
  rwa [hr] at key

/-- C99: the same with the default cutoff, one bin. -/
theorem C99_coverage_default [IsProbabilityMeasure P] (hg : Spec.RandomDraws P g) (b δ z : ℝ) (a : ℤ) (hb : 0 < b) (hδ : 1 / 10 ^ 12 ≤ δ) (hz : 0 < z) :
    Tendsto (fun n => P.real {ω | CoversWith .positive b (a * δ) δ none z n (g ω)}) atTop
      (𝓝 ((gaussianReal 0 1).real (Set.Icc (-(z * shrink (b * Real.log 10 * δ))) (z * shrink (b * Real.log 10 * δ))))) := by
  have h := C99_coverage_binned hg b δ z a 1 hb hδ le_rfl hz
  rw [Nat.cast_one, one_mul] at h
  exact h

/-- C99: with binned magnitudes the limit of the coverage is smaller than the nominal one. -/
theorem C99_undercoverage {b δ z : ℝ} (hb : 0 < b) (hδ : 0 < δ) (hz : 0 < z) :
    (gaussianReal 0 1).real (Set.Icc (-(z * shrink (b * Real.log 10 * δ))) (z * shrink (b * Real.log 10 * δ))) < (gaussianReal 0 1).real (Set.Icc (-z) z) := by
  obtain ⟨h0, h1⟩ := shrink_lt_one (mul_pos (mul_pos hb log_ten_pos) hδ)
  set r := shrink (b * Real.log 10 * δ) with hr
  have hzr : z * r < z := mul_lt_of_lt_one_right hz h1
  have hpos : 0 < (gaussianReal 0 1).real (Set.Ioo (z * r) z) := by
    rw [measureReal_def, ENNReal.toReal_pos_iff]
    refine ⟨?_, measure_lt_top _ _⟩
    rw [pos_iff_ne_zero]
    intro h
    have h2 := gaussianReal_absolutelyContinuous' 0 one_ne_zero h
    rw [Real.volume_Ioo] at h2
    simp at h2
    linarith
  have hd : Disjoint (Set.Icc (-(z * r)) (z * r)) (Set.Ioo (z * r) z) := by
    rw [Set.disjoint_left]
    intro u h3 h4
    exact absurd h3.2 (not_le.2 h4.1)
  have hle : (gaussianReal 0 1).real (Set.Icc (-(z * r)) (z * r) ∪ Set.Ioo (z * r) z) ≤ (gaussianReal 0 1).real (Set.Icc (-z) z) := by
    apply measureReal_mono
    · have : 0 < z * r := mul_pos hz h0
      rintro u (h3 | h3)
      · exact ⟨by linarith [h3.1], by linarith [h3.2]⟩
      · exact ⟨by linarith [h3.1], h3.2.le⟩
    · exact measure_ne_top _ _
  rw [measureReal_union hd measurableSet_Ioo] at hle
  linarith

/-- C99: with binned magnitudes, the reported standard deviation times the root of the number of differences converges to `b` times the root of the same factor. -/
theorem C99_std_binned [IsProbabilityMeasure P] (hg : Spec.RandomDraws P g) (b δ : ℝ) (a : ℤ) (k : ℕ) (hb : 0 < b) (hδ : 1 / 10 ^ 12 ≤ δ) (hk : 1 ≤ k) :
    ∀ᵐ ω ∂P, ∃ (σ : ℕ → ℝ) (l : ℕ → ℕ), (∀ᶠ n in atTop, ∃ mags, simulateBinned n (fun _ => b) (a * δ) δ none .bValue (g ω) = .ok mags ∧
      ∀ warn s, Reachable .positive s → ((calculate .positive warn s { mags := mags.map some, mc := a * δ, δ := δ, dmc := some (k * δ) }).1.n = .ok (l n) ∧
        (calculate .positive warn s { mags := mags.map some, mc := a * δ, δ := δ, dmc := some (k * δ) }).1.std = .ok (.fin (σ n)))) ∧
      Tendsto l atTop atTop ∧ Tendsto (fun n : ℕ => Real.sqrt (l n) * σ n) atTop (𝓝 (b * Real.sqrt (shrink (b * Real.log 10 * δ)))) := by
  have hp : 0 < δ := lt_of_lt_of_le (by positivity) hδ
  have hl := log_ten_pos
  have hx : 0 < b * Real.log 10 * δ := mul_pos (mul_pos hb hl) hp
  obtain ⟨hm, hbm, hm2, -, hv⟩ := binned_numbers hb hp
  have key := std_scheme hg (scheme_binned a k hb hδ) (by positivity) (binned_measurable (δ := δ) k).1 (fun e he => binned_nonneg hx hk he) (binned_measurable (δ := δ) k).2
    (fun u => mul_nonneg hp.le (le_max_right _ _)) hm (le_trans (sq_nonneg _) hm2.le) (moments_binned hx hp).1 (moments_binned hx hp).2 hbm
  have h2 : 0 < Real.sinh (b * Real.log 10 * δ / 2) := Real.sinh_pos_iff.2 (by linarith)
  have e : Real.log 10 * b ^ 2 * Real.sqrt (δ ^ 2 * ((Real.exp (b * Real.log 10 * δ) + 1) / (Real.exp (b * Real.log 10 * δ) - 1) ^ 2) - (δ / (Real.exp (b * Real.log 10 * δ) - 1)) ^ 2) =
      b * Real.sqrt (shrink (b * Real.log 10 * δ)) := by
    rw [hv, Real.sqrt_sq (by positivity)]
    unfold shrink
    rw [Real.sqrt_sq (by positivity)]
    field_simp
  rwa [e] at key

/-- A case: two standard deviations around the b-positive estimate with cutoff 0.1. -/
example : ∃ (Ω : Type) (_ : MeasurableSpace Ω) (P : Measure Ω) (g : Ω → Rng), Spec.RandomDraws P g ∧
    Tendsto (fun n => P.real {ω | CoversWith .positive 1 2 0 (some (1 / 10)) 2 n (g ω)}) atTop (𝓝 ((gaussianReal 0 1).real (Set.Icc (-2) 2))) := by
  obtain ⟨Ω, mΩ, P, hP, g, hg⟩ := randomDraws_exist
  exact ⟨Ω, mΩ, P, g, hg, C99_coverage hg 1 2 (1 / 10) 2 one_pos (by norm_num) two_pos⟩

end
end SeismoStats.Props
