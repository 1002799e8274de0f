/-
Property C115: the Kijko-Smit estimator is consistent on simulated catalogues with several completeness periods, and biased when the magnitudes are binned.
-/
import Verif.Proofs.Periods
import Verif.Props.KijkoSmit
import Verif.Props.Coda

namespace SeismoStats.Props
open SeismoStats SeismoStats.Simulate SeismoStats.Completeness BValue MeasureTheory ProbabilityTheory Filter Topology
open Classical
noncomputable section

variable {Ω : Type} [m0 : MeasurableSpace Ω] {P : Measure Ω} {g : Ω → Rng} {ℱ : Filtration ℕ m0}

/-! ### Specification -/

/-- The years of the events: the completeness period of an event is known before its magnitude is drawn, and every period keeps receiving events. -/
structure PeriodsKnown (P : Measure Ω) (ℱ : Filtration ℕ m0) (table : List (ℝ × ℝ)) (year : ℕ → Ω → ℝ) : Prop where
  known : ∀ i j, MeasurableSet[ℱ i] {ω | rowOf table (year (i + 1) ω) = some j}
  often : ∀ᵐ ω ∂P, ∀ j < table.length, ∃ᶠ i in atTop, rowOf table (year i ω) = some j

/-- For almost every sequence of random draws: from some size on, the Kijko-Smit estimate for `n` magnitudes simulated with b-value `b` (bin width `w`, 0 for none) and the
years `year` is a number with a standard deviation; these numbers converge to `limit`, and the standard deviations to 0. -/
def KijkoConverges (P : Measure Ω) (g : Ω → Rng) (b mc w : ℝ) (table : List (ℝ × ℝ)) (year : ℕ → Ω → ℝ) (limit : ℝ) : Prop :=
  ∀ᵐ ω ∂P, ∃ est sd : ℕ → ℝ,
    (∀ᶠ n in atTop, ∃ mags, simulateBinned n (fun _ => b) mc w none .bValue (g ω) = .ok mags ∧
      ∀ last δ, 0 < δ → ∃ rate a, kijkoSmit mags ((List.range n).map fun i => year i ω) table last δ "b_value" = .ok (.fin (est n), .fin (sd n), rate, a)) ∧
    Tendsto est atTop (𝓝 limit) ∧ Tendsto sd atTop (𝓝 0)

/-! ### Proof -/

theorem rowOf_lt {table : List (ℝ × ℝ)} {y : ℝ} {j : ℕ} (h : rowOf table y = some j) : j < table.length := by
  unfold rowOf at h
  rw [List.findIdx?_eq_some_iff_getElem] at h
  exact h.1

/-- The period of a year; the number of periods if there is none. -/
def periodOf (table : List (ℝ × ℝ)) (y : ℝ) : ℕ := (rowOf table y).getD table.length

theorem periodOf_eq {table : List (ℝ × ℝ)} {y : ℝ} {j : ℕ} (hj : j < table.length) : periodOf table y = j ↔ rowOf table y = some j := by
  unfold periodOf
  cases h : rowOf table y with
  | none => simp only [Option.getD_none, reduceCtorEq, iff_false]; omega
  | some i => simp

/-- An event with magnitude `m` in the year `y` is complete. -/
def completeAt (table : List (ℝ × ℝ)) (m y : ℝ) : Prop := periodOf table y < table.length ∧ mcOf table (periodOf table y) < m

theorem excess_eq (table : List (ℝ × ℝ)) (m y : ℝ) : excess table (m, y) = if completeAt table m y then some (m - mcOf table (periodOf table y)) else none := by
  unfold excess completeAt periodOf
  cases h : rowOf table y with
  | none => simp
  | some i =>
    have := rowOf_lt h
    simp only [Option.getD_some, this, true_and]

theorem excesses_first (table : List (ℝ × ℝ)) (X Y : ℕ → ℝ) (n : ℕ) :
    ((excesses (firstMags X n) ((List.range n).map Y) table).length : ℝ) = ∑ i ∈ Finset.range n, (if completeAt table (X i) (Y i) then (1 : ℝ) else 0) ∧
    (excesses (firstMags X n) ((List.range n).map Y) table).sum = ∑ i ∈ Finset.range n, if completeAt table (X i) (Y i) then X i - mcOf table (periodOf table (Y i)) else 0 := by
  have e : excesses (firstMags X n) ((List.range n).map Y) table = (List.range n).filterMap fun i => excess table (X i, Y i) := by
    unfold excesses firstMags
    rw [List.zip_map', List.filterMap_map]
    rfl
  rw [e]
  clear e
  induction n with
  | zero => simp
  | succ n ih =>
    rw [List.range_succ, List.filterMap_append, List.length_append, List.sum_append, Finset.sum_range_succ, Finset.sum_range_succ, Nat.cast_add, ih.1, ih.2]
    by_cases h : completeAt table (X n) (Y n)
    · simp [excess_eq, h]
    · simp [excess_eq, h]

theorem period_measurable {table : List (ℝ × ℝ)} {year : ℕ → Ω → ℝ} (hy : PeriodsKnown P ℱ table year) (k : ℕ) : Measurable[ℱ k] fun ω => periodOf table (year (k + 1) ω) := by
  refine @measurable_to_countable' _ _ _ _ (ℱ k) _ fun x => ?_
  have e : (fun ω => periodOf table (year (k + 1) ω)) ⁻¹' {x} =
      {ω | rowOf table (year (k + 1) ω) = some x} ∪ (if x = table.length then (⋃ j, {ω | rowOf table (year (k + 1) ω) = some j})ᶜ else ∅) := by
    ext ω
    simp only [Set.mem_preimage, Set.mem_singleton_iff, Set.mem_union]
    unfold periodOf
    cases h : rowOf table (year (k + 1) ω) with
    | none =>
      by_cases hx : x = table.length
      · simp [hx, h]
      · simp only [Option.getD_none, hx, if_false, Set.mem_empty_iff_false, or_false]
        simp [h, Ne.symm hx]
    | some i =>
      by_cases hx : x = table.length
      · simp only [hx, if_true, Option.getD_some]
        simp [h]
      · simp only [hx, if_false]
        simp [h]
  rw [e]
  refine @MeasurableSet.union Ω (ℱ k) _ _ (hy.known k x) ?_
  split_ifs
  · exact @MeasurableSet.compl Ω _ (ℱ k) (@MeasurableSet.iUnion Ω ℕ (ℱ k) _ _ fun j => hy.known k j)
  · exact @MeasurableSet.empty Ω (ℱ k)

/-- A quotient of sums with a first term added. -/
theorem shifted_quotient {A B D N : ℕ → ℝ} {a0 b0 κ : ℝ} (hN : Tendsto N atTop atTop) (hD : Tendsto (fun n => D n / N n) atTop (𝓝 0))
    (hA : ∀ n, A (n + 1) = a0 + D n + κ * N n) (hB : ∀ n, B (n + 1) = b0 + N n) : Tendsto (fun n => A n / B n) atTop (𝓝 κ) := by
  rw [← tendsto_add_atTop_iff_nat 1]
  have h1 : Tendsto (fun n => (a0 / N n + D n / N n + κ) / (b0 / N n + 1)) atTop (𝓝 ((0 + 0 + κ) / (0 + 1))) :=
    (((Tendsto.div_atTop tendsto_const_nhds hN).add hD).add_const κ).div ((Tendsto.div_atTop tendsto_const_nhds hN).add_const 1) (by norm_num)
  rw [zero_add, zero_add, zero_add, div_one] at h1
  refine h1.congr' ?_
  filter_upwards [hN.eventually (eventually_gt_atTop 0)] with n hn
  rw [hA, hB]
  have e1 : a0 / N n + D n / N n + κ = (a0 + D n + κ * N n) / N n := by field_simp
  have e2 : b0 / N n + 1 = (b0 + N n) / N n := by field_simp
  rw [e1, e2, div_div_div_cancel_right₀ hn.ne']

theorem kijko_scheme [IsProbabilityMeasure P] (hg : Spec.RandomDraws P g) (hk : KnownSoFar P g ℱ) {b mc w : ℝ} {table : List (ℝ × ℝ)} {year : ℕ → Ω → ℝ}
    (hrows : table ≠ []) (hasc : table.Pairwise fun r s => r.1 ≤ s.1) (hback : table.Pairwise fun r s => s.2 ≤ r.2) (hy : PeriodsKnown P ℱ table year)
    {Q F : ℝ → ℝ} {thr : ℕ → ℝ} (hsim : ∀ r : Rng, ∀ n, simulateBinned n (fun _ => b) mc w none .bValue r = .ok (firstMags (fun i => Q (r.expo i)) n))
    (ht : ∀ j < table.length, 0 ≤ thr j) {c κ L : ℝ} (hc : 0 ≤ c)
    (hQ : ∀ᵐ e ∂(expMeasure 1), ∀ j < table.length, (mcOf table j < Q e ↔ thr j ≤ e) ∧ (thr j ≤ e → Q e - mcOf table j = F (e - thr j) + c))
    (hF : Measurable F) (hFn : ∀ u, 0 ≤ F u) (hκ0 : 0 < κ)
    (hκ : ∫⁻ u, ENNReal.ofReal (F u) ∂(expMeasure 1) = ENNReal.ofReal κ) (hL : ∫⁻ u, ENNReal.ofReal (F u ^ 2) ∂(expMeasure 1) = ENNReal.ofReal L) :
    KijkoConverges P g b mc w table year (1 / (κ + c) / Real.log 10) := by
  have hP : IsProbabilityMeasure (expMeasure 1) := isProbabilityMeasure_expMeasure one_pos
  have hFi : Integrable F (expMeasure 1) := by
    refine ⟨hF.aestronglyMeasurable, ?_⟩
    rw [hasFiniteIntegral_iff_ofReal (Eventually.of_forall hFn), hκ]
    exact ENNReal.ofReal_lt_top
  have hF2 : Integrable (fun u => F u ^ 2) (expMeasure 1) := by
    refine ⟨(hF.pow_const 2).aestronglyMeasurable, ?_⟩
    rw [hasFiniteIntegral_iff_ofReal (Eventually.of_forall fun u => sq_nonneg _), hL]
    exact ENNReal.ofReal_lt_top
  have hmean : ∫ u, F u ∂(expMeasure 1) = κ := by
    rw [integral_eq_lintegral_of_nonneg_ae (Eventually.of_forall hFn) hF.aestronglyMeasurable, hκ, ENNReal.toReal_ofReal hκ0.le]
  have h0 : ∫ u, (F u - κ) ∂(expMeasure 1) = 0 := by
    rw [integral_sub hFi (integrable_const κ), hmean]; simp
  have hD2 : MemLp (fun u => F u - κ) 2 (expMeasure 1) := ((memLp_two_iff_integrable_sq hF.aestronglyMeasurable).2 hF2).sub (memLp_const κ)
  have hML : ∫⁻ u, ENNReal.ofReal ((F u - κ) ^ 2) ∂(expMeasure 1) = ENNReal.ofReal (∫ u, (F u - κ) ^ 2 ∂(expMeasure 1)) :=
    (ofReal_integral_eq_lintegral_ofReal hD2.integrable_sq (Eventually.of_forall fun u => sq_nonneg _)).symm
  set E : ℕ → Ω → ℝ := fun i ω => (g ω).expo i with hEd
  have hE0 : ∀ i, Measurable (E i) := hg.expo_measurable
  set S : ℕ → Ω → ℕ := fun k ω => periodOf table (year (k + 1) ω) with hSd
  have hS := period_measurable hy
  have hlen : 0 < table.length := List.length_pos_of_ne_nil hrows
  have hfreq : ∀ᵐ ω ∂P, ∀ j < table.length, ∃ᶠ k in atTop, S k ω = j := by
    filter_upwards [hy.often] with ω h j hj
    have := h j hj
    rw [frequently_atTop] at this ⊢
    intro a
    obtain ⟨i, hi, hr⟩ := this (a + 1)
    refine ⟨i - 1, by omega, ?_⟩
    simp only [hSd, show i - 1 + 1 = i by omega]
    exact (periodOf_eq hj).2 hr
  have key := period_mean (E := E) (S := S) (J := fun j => j < table.length) (thr := thr) hk.draw hk.next hg.expo_law hS ht
    (by filter_upwards [hfreq] with ω h; exact ⟨0, hlen, h 0 hlen⟩) (hF.sub_const κ) (integral_nonneg fun u => sq_nonneg _) h0 hML
  have keyj : ∀ᵐ ω ∂P, ∀ j : ℕ, j < table.length → Tendsto (fun n => ∑ k ∈ Finset.range n, if countedIn (fun i => i = j) thr (S k ω) (E (k + 1) ω) then (1 : ℝ) else 0) atTop atTop := by
    refine ae_all_iff.2 fun j => ?_
    by_cases hj : j < table.length
    · have := period_mean (E := E) (S := S) (J := fun i => i = j) (thr := thr) hk.draw hk.next hg.expo_law hS (by rintro i rfl; exact ht i hj)
        (by filter_upwards [hfreq] with ω h; exact ⟨j, rfl, h j hj⟩) (hF.sub_const κ) (integral_nonneg fun u => sq_nonneg _) h0 hML
      filter_upwards [this] with ω h _
      exact h.1
    · exact Eventually.of_forall fun ω h => absurd h hj
  have hQall : ∀ᵐ ω ∂P, ∀ i, ∀ j < table.length, (mcOf table j < Q (E i ω) ↔ thr j ≤ E i ω) ∧ (thr j ≤ E i ω → Q (E i ω) - mcOf table j = F (E i ω - thr j) + c) := by
    refine ae_all_iff.2 fun i => ?_
    have h := hQ
    rw [← hg.expo_law i] at h
    exact ae_of_ae_map (hE0 i).aemeasurable h
  filter_upwards [key, keyj, hQall] with ω ⟨k1, k2⟩ kj hq
  set X : ℕ → ℝ := fun i => Q ((g ω).expo i) with hX
  set Y : ℕ → ℝ := fun i => year i ω with hY
  set B : ℕ → ℝ := fun n => ∑ i ∈ Finset.range n, (if completeAt table (X i) (Y i) then (1 : ℝ) else 0) with hB
  set A : ℕ → ℝ := fun n => ∑ i ∈ Finset.range n, if completeAt table (X i) (Y i) then X i - mcOf table (periodOf table (Y i)) else 0 with hA
  set N : ℕ → ℝ := fun n => ∑ k ∈ Finset.range n, if countedIn (fun j => j < table.length) thr (S k ω) (E (k + 1) ω) then (1 : ℝ) else 0 with hN
  set D : ℕ → ℝ := fun n => ∑ k ∈ Finset.range n, if countedIn (fun j => j < table.length) thr (S k ω) (E (k + 1) ω) then F (E (k + 1) ω - thr (S k ω)) - κ else 0 with hD
  have hcomp : ∀ k, completeAt table (X (k + 1)) (Y (k + 1)) ↔ countedIn (fun j => j < table.length) thr (S k ω) (E (k + 1) ω) := by
    intro k
    unfold completeAt
    constructor
    · rintro ⟨h1, h2⟩
      exact ⟨h1, (hq (k + 1) _ h1).1.1 h2⟩
    · rintro ⟨h1, h2⟩
      exact ⟨h1, (hq (k + 1) _ h1).1.2 h2⟩
  have hBs : ∀ n, B (n + 1) = B 1 + N n := by
    intro n
    simp only [hB, hN]
    rw [Finset.sum_range_succ', Finset.sum_range_one, add_comm]
    congr 1
    exact Finset.sum_congr rfl fun k _ => by simp only [hcomp]
  have hAs : ∀ n, A (n + 1) = A 1 + D n + (κ + c) * N n := by
    intro n
    simp only [hA, hN, hD]
    rw [Finset.sum_range_succ', Finset.sum_range_one, add_comm, add_assoc, Finset.mul_sum, ← Finset.sum_add_distrib]
    congr 1
    refine Finset.sum_congr rfl fun k _ => ?_
    simp only [hcomp]
    by_cases h : countedIn (fun j => j < table.length) thr (S k ω) (E (k + 1) ω)
    · rw [if_pos h, if_pos h, if_pos h]
      have := (hq (k + 1) _ h.1).2 h.2
      change Q (E (k + 1) ω) - mcOf table (S k ω) = _
      rw [this]; ring
    · rw [if_neg h, if_neg h, if_neg h]; ring
  have hBinf : Tendsto B atTop atTop := by
    rw [← tendsto_add_atTop_iff_nat 1]
    exact (tendsto_atTop_add_const_left _ (B 1) k1).congr fun n => (hBs n).symm
  have hq1 : Tendsto (fun n => A n / B n) atTop (𝓝 (κ + c)) := shifted_quotient (D := D) (N := N) (a0 := A 1) (b0 := B 1) k1 k2 hAs hBs
  have hlim : Tendsto (fun n => B n / A n / Real.log 10) atTop (𝓝 (1 / (κ + c) / Real.log 10)) := by
    have := (tendsto_const_nhds (x := (1 : ℝ))).div hq1 (by positivity)
    refine (this.div_const _).congr fun n => ?_
    simp only [Pi.div_apply, one_div_div]
  refine ⟨fun n => B n / A n / Real.log 10, fun n => B n / A n / Real.sqrt (B n) / Real.log 10, ?_, hlim, ?_⟩
  · have hev : ∀ᶠ n in atTop, ∀ j < table.length, ∃ i < n, periodOf table (Y i) = j ∧ mcOf table j < X i := by
      have : ∀ᶠ n in atTop, ∀ j ∈ Finset.range table.length, ∃ i < n, periodOf table (Y i) = j ∧ mcOf table j < X i := by
        rw [eventually_all_finset]
        intro j hj
        have hj := Finset.mem_range.1 hj
        obtain ⟨n0, h⟩ := ((kj j hj).eventually (eventually_gt_atTop 0)).exists
        obtain ⟨k, hk, hne⟩ := Finset.exists_ne_zero_of_sum_ne_zero h.ne'
        have hk' := Finset.mem_range.1 hk
        filter_upwards [eventually_ge_atTop (n0 + 1)] with n hn
        have h2 : countedIn (fun i => i = j) thr (S k ω) (E (k + 1) ω) := by
          by_contra h2
          rw [if_neg h2] at hne
          exact hne rfl
        refine ⟨k + 1, by omega, h2.1, ?_⟩
        refine (hq (k + 1) j hj).1.2 ?_
        rw [← h2.1]; exact h2.2
      filter_upwards [this] with n hn j hj
      exact hn j (Finset.mem_range.2 hj)
    filter_upwards [hev, eventually_gt_atTop 0] with n hn hn0
    refine ⟨_, hsim (g ω) n, fun last δ hδ => ?_⟩
    have hin : KijkoInput (firstMags X n) ((List.range n).map Y) table δ :=
      ⟨by simp [firstMags], by unfold firstMags; simp [hn0.ne'], hasc, hback, hrows, hδ⟩
    have hep : EveryPeriod (firstMags X n) ((List.range n).map Y) table := by
      intro j hj
      obtain ⟨i, hi, h1, h2⟩ := hn j hj
      refine ⟨(X i, Y i), ?_, (periodOf_eq hj).1 h1, h2⟩
      unfold firstMags
      rw [List.zip_map', List.mem_map]
      exact ⟨i, List.mem_range.2 hi, rfl⟩
    obtain ⟨m, β, T, ly, hm, -, hβ, -, -, hr⟩ := C32_result last hin hep
    obtain ⟨e1, e2⟩ := excesses_first table X Y n
    have hmB : (m : ℝ) = B n := by rw [hm]; exact e1
    rw [hβ, hmB, e2] at hr
    exact ⟨_, _, hr⟩
  · have h1 : Tendsto (fun n => B n / A n / Real.log 10 / Real.sqrt (B n)) atTop (𝓝 0) :=
      Tendsto.div_atTop hlim (Real.tendsto_sqrt_atTop.comp hBinf)
    refine h1.congr fun n => ?_
    rw [div_right_comm]

theorem mcOf_mem {table : List (ℝ × ℝ)} {j : ℕ} (hj : j < table.length) : ∃ r ∈ table, mcOf table j = r.1 := by
  refine ⟨table[j], List.getElem_mem hj, ?_⟩
  unfold mcOf
  simp [List.getD_eq_getElem?_getD, hj]

/-! ## C115 -/

variable {b mc δ c : ℝ} {table : List (ℝ × ℝ)} {year : ℕ → Ω → ℝ}

/-- C115: without binning, the Kijko-Smit estimates converge to the b-value of the simulation almost surely, and their standard deviations to 0, whatever the completeness
magnitudes of the periods are (at or above the lowest simulated magnitude) and however the events are distributed over the periods, as long as every period keeps receiving
events. -/
theorem C115_kijko [IsProbabilityMeasure P] (hg : Spec.RandomDraws P g) (hk : KnownSoFar P g ℱ) (hb : 0 < b) (hrows : table ≠ [])
    (hasc : table.Pairwise fun r s => r.1 ≤ s.1) (hback : table.Pairwise fun r s => s.2 ≤ r.2) (habove : ∀ r ∈ table, mc ≤ r.1) (hy : PeriodsKnown P ℱ table year) :
    KijkoConverges P g b mc 0 table year b := by
  have hP : IsProbabilityMeasure (expMeasure 1) := isProbabilityMeasure_expMeasure one_pos
  have hβ : 0 < b * Real.log 10 := mul_pos hb log_ten_pos
  obtain ⟨m1, m2⟩ := moments_continuous hβ
  have hne : ∀ᵐ e ∂(expMeasure 1), ∀ j : ℕ, e ≠ b * Real.log 10 * (mcOf table j - mc) := by
    refine ae_all_iff.2 fun j => ?_
    rw [ae_iff]
    have : {a : ℝ | ¬ a ≠ b * Real.log 10 * (mcOf table j - mc)} = {b * Real.log 10 * (mcOf table j - mc)} := by ext x; simp
    rw [this]
    unfold expMeasure gammaMeasure
    exact withDensity_absolutelyContinuous _ _ (measure_singleton _)
  have h := kijko_scheme (w := 0) (c := 0) (Q := fun e => mc + e / (b * Real.log 10)) (F := fun u => max u 0 / (b * Real.log 10)) (thr := fun j => b * Real.log 10 * (mcOf table j - mc))
    hg hk hrows hasc hback hy (fun r n => simulate_continuous r n hb)
    (fun j hj => by
      obtain ⟨r, hr, e⟩ := mcOf_mem hj
      simp only [e]
      exact mul_nonneg hβ.le (sub_nonneg.2 (habove r hr)))
    le_rfl
    (by
      filter_upwards [hne] with e he j hj
      constructor
      · rw [← sub_lt_iff_lt_add', lt_div_iff₀ hβ, mul_comm]
        exact ⟨le_of_lt, fun h => lt_of_le_of_ne h (he j).symm⟩
      · intro h
        rw [max_eq_left (sub_nonneg.2 h)]
        field_simp
        ring)
    (by fun_prop) (fun u => div_nonneg (le_max_right _ _) hβ.le) (by positivity) m1 m2
  rwa [add_zero, one_div_mul_log hb] at h

/-- C115: with binned magnitudes (the lowest bin at `a δ`), completeness magnitudes `c` bins below the centre of the first complete bin: the limit. -/
theorem C115_kijko_binned [IsProbabilityMeasure P] (hg : Spec.RandomDraws P g) (hk : KnownSoFar P g ℱ) (hb : 0 < b) (hδ : 1 / 10 ^ 12 ≤ δ) (hrows : table ≠ [])
    (hasc : table.Pairwise fun r s => r.1 ≤ s.1) (hback : table.Pairwise fun r s => s.2 ≤ r.2) (a : ℤ) (hc0 : 0 < c) (hc1 : c ≤ 1)
    (hgrid : ∀ r ∈ table, ∃ z : ℤ, a < z ∧ r.1 = (z - c) * δ) (hy : PeriodsKnown P ℱ table year) :
    KijkoConverges P g b (a * δ) δ table year (1 / ((1 / ((10 : ℝ) ^ (b * δ) - 1) + c) * δ) / Real.log 10) := by
  have hp : 0 < δ := lt_of_lt_of_le (by positivity) hδ
  have hx : 0 < b * Real.log 10 * δ := mul_pos (mul_pos hb log_ten_pos) hp
  have e10 : (10 : ℝ) ^ (b * δ) = Real.exp (b * Real.log 10 * δ) := by
    rw [Real.rpow_def_of_pos (by norm_num)]; congr 1; ring
  have hsim := fun (r : Rng) n => simulate_grid r n (b := b) (δ := δ) a hb hδ
  rw [e10]
  generalize b * Real.log 10 * δ = x at *
  have hex : 0 < Real.exp x - 1 := by
    have : (1 : ℝ) < Real.exp x := Real.one_lt_exp_iff.2 hx
    linarith
  obtain ⟨m1, m2⟩ := moments_binned hx hp
  have hz : ∀ j, ∃ z : ℤ, j < table.length → a < z ∧ mcOf table j = (z - c) * δ := by
    intro j
    by_cases hj : j < table.length
    · obtain ⟨r, hr, e⟩ := mcOf_mem hj
      obtain ⟨z, h1, h2⟩ := hgrid r hr
      exact ⟨z, fun _ => ⟨h1, by rw [e, h2]⟩⟩
    · exact ⟨0, fun h => absurd h hj⟩
  choose z hz using hz
  have h := kijko_scheme (w := δ) (c := c * δ) (Q := fun e => ((a + ⌊e / x + 1 / 10 ^ 12⌋ : ℤ) : ℝ) * δ) (F := fun u => δ * max ((⌊u / x⌋ : ℤ) : ℝ) 0)
    (thr := fun j => x * (((z j - a : ℤ) : ℝ) - 1 / 10 ^ 12))
    hg hk hrows hasc hback hy hsim
    (fun j hj => by
      have h1 : (1 : ℤ) ≤ z j - a := by have := (hz j hj).1; omega
      have h2 : (1 : ℝ) ≤ ((z j - a : ℤ) : ℝ) := by exact_mod_cast h1
      refine mul_nonneg hx.le ?_
      norm_num at h2 ⊢
      linarith)
    (by positivity)
    (Eventually.of_forall fun e j hj => by
      have hthr : x * (((z j - a : ℤ) : ℝ) - 1 / 10 ^ 12) ≤ e ↔ z j - a ≤ ⌊e / x + 1 / 10 ^ 12⌋ := by
        rw [Int.le_floor, ← sub_le_iff_le_add, le_div_iff₀ hx, mul_comm]
      have hmc := (hz j hj).2
      constructor
      · rw [hthr, hmc, mul_lt_mul_iff_left₀ hp]
        constructor
        · intro h
          have : ((z j - 1 : ℤ) : ℝ) < ((a + ⌊e / x + 1 / 10 ^ 12⌋ : ℤ) : ℝ) := by
            push_cast at h ⊢; linarith
          have := Int.cast_lt.1 this
          omega
        · intro h
          have : ((z j : ℤ) : ℝ) ≤ ((a + ⌊e / x + 1 / 10 ^ 12⌋ : ℤ) : ℝ) := by
            exact_mod_cast (by omega : z j ≤ a + ⌊e / x + 1 / 10 ^ 12⌋)
          linarith
      · intro h
        have hfl : ⌊(e - x * (((z j - a : ℤ) : ℝ) - 1 / 10 ^ 12)) / x⌋ = ⌊e / x + 1 / 10 ^ 12⌋ - (z j - a) := by
          have : (e - x * (((z j - a : ℤ) : ℝ) - 1 / 10 ^ 12)) / x = e / x + 1 / 10 ^ 12 - ((z j - a : ℤ) : ℝ) := by
            field_simp
            ring
          rw [this, Int.floor_sub_intCast]
        have hnn : (0 : ℝ) ≤ ((⌊e / x + 1 / 10 ^ 12⌋ - (z j - a) : ℤ) : ℝ) := by
          have := hthr.1 h
          exact_mod_cast (by omega : 0 ≤ ⌊e / x + 1 / 10 ^ 12⌋ - (z j - a))
        rw [hfl, max_eq_left hnn, hmc]
        push_cast
        ring)
    (binned_measurable (x := x) (δ := δ) 0).2 (fun u => mul_nonneg hp.le (le_max_right _ _)) (by positivity) m1 m2
  rwa [show δ / (Real.exp x - 1) + c * δ = (1 / (Real.exp x - 1) + c) * δ by ring] at h

theorem kijko_limit_low (hb : 0 < b) (hδ : 0 < δ) (hc : 1 / 2 ≤ c) : 1 / ((1 / ((10 : ℝ) ^ (b * δ) - 1) + c) * δ) / Real.log 10 < b := by
  have e10 : (10 : ℝ) ^ (b * δ) = Real.exp (b * Real.log 10 * δ) := by
    rw [Real.rpow_def_of_pos (by norm_num)]; congr 1; ring
  have hx : 0 < b * Real.log 10 * δ := mul_pos (mul_pos hb log_ten_pos) hδ
  have hlog10 := log_ten_pos
  rw [e10]
  set x := b * Real.log 10 * δ with hxd
  have hex : 0 < Real.exp x - 1 := by
    have : (1 : ℝ) < Real.exp x := Real.one_lt_exp_iff.2 hx
    linarith
  rw [div_lt_iff₀ hlog10, div_lt_iff₀ (by positivity)]
  have key : 1 < x * (1 / (Real.exp x - 1) + 1 / 2) := by
    have h := Real.lt_log_one_add_of_pos hex
    rw [show 1 + (Real.exp x - 1) = Real.exp x by ring, Real.log_exp, div_lt_iff₀ (by linarith)] at h
    rw [div_add_div _ _ hex.ne' two_ne_zero, ← mul_div_assoc, lt_div_iff₀ (by positivity)]
    linarith
  calc (1 : ℝ) < x * (1 / (Real.exp x - 1) + 1 / 2) := key
    _ ≤ x * (1 / (Real.exp x - 1) + c) := mul_le_mul_of_nonneg_left (by linarith) hx.le
    _ = b * Real.log 10 * ((1 / (Real.exp x - 1) + c) * δ) := by rw [hxd]; ring

/-- A limit of C115: `delta_m` is not used for the b-value. With binned magnitudes and completeness magnitudes at the left edges of bins (as documented), the estimates
converge to a number below the b-value of the simulation. -/
theorem C115_edges_biased [IsProbabilityMeasure P] (hg : Spec.RandomDraws P g) (hk : KnownSoFar P g ℱ) (hb : 0 < b) (hδ : 1 / 10 ^ 12 ≤ δ) (hrows : table ≠ [])
    (hasc : table.Pairwise fun r s => r.1 ≤ s.1) (hback : table.Pairwise fun r s => s.2 ≤ r.2) (a : ℤ)
    (hgrid : ∀ r ∈ table, ∃ z : ℤ, a < z ∧ r.1 = z * δ - δ / 2) (hy : PeriodsKnown P ℱ table year) :
    ∃ b' < b, KijkoConverges P g b (a * δ) δ table year b' :=
  ⟨_, kijko_limit_low hb (lt_of_lt_of_le (by positivity) hδ) le_rfl, C115_kijko_binned hg hk hb hδ hrows hasc hback a (by norm_num) (by norm_num)
    (fun r hr => by
      obtain ⟨z, h1, h2⟩ := hgrid r hr
      exact ⟨z, h1, by rw [h2]; ring⟩) hy⟩

/-- A limit of C115: with completeness magnitudes at the centres of bins the first bin is not counted, and the limit is `(1 - 10^(-b δ)) / (δ ln 10)`, still lower. -/
theorem C115_centres_biased [IsProbabilityMeasure P] (hg : Spec.RandomDraws P g) (hk : KnownSoFar P g ℱ) (hb : 0 < b) (hδ : 1 / 10 ^ 12 ≤ δ) (hrows : table ≠ [])
    (hasc : table.Pairwise fun r s => r.1 ≤ s.1) (hback : table.Pairwise fun r s => s.2 ≤ r.2) (a : ℤ)
    (hgrid : ∀ r ∈ table, ∃ z : ℤ, a ≤ z ∧ r.1 = z * δ) (hy : PeriodsKnown P ℱ table year) :
    KijkoConverges P g b (a * δ) δ table year ((1 - (10 : ℝ) ^ (-(b * δ))) / (δ * Real.log 10)) ∧
      (1 - (10 : ℝ) ^ (-(b * δ))) / (δ * Real.log 10) < 1 / ((1 / ((10 : ℝ) ^ (b * δ) - 1) + 1 / 2) * δ) / Real.log 10 := by
  have hp : 0 < δ := lt_of_lt_of_le (by positivity) hδ
  have h := C115_kijko_binned (c := 1) hg hk hb hδ hrows hasc hback a (by norm_num) le_rfl
    (fun r hr => by
      obtain ⟨z, h1, h2⟩ := hgrid r hr
      exact ⟨z + 1, by omega, by rw [h2]; push_cast; ring⟩) hy
  have h10 : 1 < (10 : ℝ) ^ (b * δ) := Real.one_lt_rpow (by norm_num) (by positivity)
  have hlog := log_ten_pos
  have e : (1 - (10 : ℝ) ^ (-(b * δ))) / (δ * Real.log 10) = 1 / ((1 / ((10 : ℝ) ^ (b * δ) - 1) + 1) * δ) / Real.log 10 := by
    rw [Real.rpow_neg (by norm_num)]
    generalize (10 : ℝ) ^ (b * δ) = y at *
    have h1 : y - 1 ≠ 0 := by linarith
    have h2 : y ≠ 0 := by linarith
    rw [show (1 / (y - 1) + 1) = y / (y - 1) by field_simp; ring]
    field_simp
  rw [e]
  refine ⟨h, ?_⟩
  have h3 : 0 < 1 / ((10 : ℝ) ^ (b * δ) - 1) := one_div_pos.2 (by linarith)
  refine div_lt_div_of_pos_right ?_ hlog
  refine one_div_lt_one_div_of_lt (by positivity) ?_
  exact mul_lt_mul_of_pos_right (by linarith) hp

/-- A case: two periods in turn (the table of the years 1980 and 1920, complete above 4 and 5), whose years are fixed in advance. -/
example [IsProbabilityMeasure P] (hg : Spec.RandomDraws P g) : KijkoConverges P g 1 3 0 [(4, 1980), (5, 1920)] (fun i _ => if i % 2 = 0 then 1990 else 1950) 1 := by
  obtain ⟨ℱ, hk⟩ := known_exists hg
  have r0 : rowOf [(4, 1980), (5, 1920)] (1990 : ℝ) = some 0 := by unfold rowOf; simp [List.findIdx?_cons]; norm_num
  have r1 : rowOf [(4, 1980), (5, 1920)] (1950 : ℝ) = some 1 := by unfold rowOf; simp [List.findIdx?_cons]; norm_num
  refine C115_kijko (ℱ := ℱ) hg hk one_pos (by simp) (by simp; norm_num) (by simp; norm_num) (by simp; norm_num) ⟨fun i j => by simp, ?_⟩
  refine Eventually.of_forall fun ω j hj => ?_
  rw [frequently_atTop]
  intro n
  simp only [List.length_cons, List.length_nil] at hj
  rcases (by omega : j = 0 ∨ j = 1) with rfl | rfl
  · exact ⟨2 * n, by omega, by simp only [Nat.mul_mod_right, if_true]; exact r0⟩
  · exact ⟨2 * n + 1, by omega, by rw [if_neg (by omega)]; exact r1⟩

end
end SeismoStats.Props
