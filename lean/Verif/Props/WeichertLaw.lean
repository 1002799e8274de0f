/-
Property C119: the Weichert estimator is consistent on simulated catalogues with several completeness periods; with the default `last_year` it is not.
-/
import Verif.Proofs.WeichertLimit
import Verif.Props.KijkoLaw
import Mathlib.Analysis.SpecialFunctions.Log.Base

namespace SeismoStats.Props
open SeismoStats SeismoStats.Simulate SeismoStats.Completeness BValue MeasureTheory ProbabilityTheory Filter Topology
open Classical
noncomputable section

variable {Ω : Type} [m0 : MeasurableSpace Ω] {P : Measure Ω} {g : Ω → Rng} {ℱ : Filtration ℕ m0}

/-! ### Specification -/

/-- The years of the events: the year of an event is known before its magnitude is drawn, and the share of the events since a completeness year of the table is `ρ` times the
time from that year to `stop`. -/
structure YearsShare (P : Measure Ω) (ℱ : Filtration ℕ m0) (table : List (ℝ × ℝ)) (year : ℕ → Ω → ℝ) (ρ stop : ℝ) : Prop where
  known : ∀ i, Measurable[ℱ i] (year (i + 1))
  share : ∀ᵐ ω ∂P, ∀ r ∈ table, Tendsto (fun n : ℕ => ((List.range n).countP (fun i => decide (r.2 ≤ year i ω)) : ℝ) / n) atTop (𝓝 (ρ * (stop - r.2)))

/-- For almost every sequence of random draws, whatever the optimiser is, provided it finds the zeros of strictly decreasing continuous functions with an error that vanishes: from
some size on, the Weichert estimate for `n` magnitudes simulated with b-value `b` (bins of width `δ`, the lowest at `a δ`) and the years `year` is a number with a standard
deviation (for every `mag_max` at least one bin above the largest magnitude); these numbers converge to `limit`, and the standard deviations to 0. -/
def WeichertConverges (P : Measure Ω) (g : Ω → Rng) (b : ℝ) (a : ℤ) (δ : ℝ) (table : List (ℝ × ℝ)) (year : ℕ → Ω → ℝ) (last : Option ℝ) (limit : ℝ) : Prop :=
  ∀ᵐ ω ∂P, ∀ (opt : ℕ → (ℝ → Fl ℝ) → ℝ) (ε : ℕ → ℝ), Tendsto ε atTop (𝓝 0) → (∀ n, FindsRoot (opt n) (ε n)) → ∀ magMax : ℕ → ℝ, ∃ est sd : ℕ → ℝ,
    (∀ᶠ n in atTop, ∃ mags, simulateBinned n (fun _ => b) (a * δ) δ none .bValue (g ω) = .ok mags ∧
      ((∀ m ∈ mags, m + δ ≤ magMax n) → ∃ rate sdRate av,
        weichert (opt n) mags ((List.range n).map fun i => year i ω) table (magMax n) last δ "b_value" = .ok (.fin (est n), .fin (sd n), rate, sdRate, av))) ∧
    Tendsto est atTop (𝓝 limit) ∧ Tendsto sd atTop (𝓝 0)

/-- As before, for the rate and the a-value: the number of all simulated events above the lowest completeness magnitude, per unit of time (`ρ` times their number), is what the rate
estimates, with a relative error that vanishes; and the a-value is the decadic logarithm of it plus `b` times the lowest completeness magnitude, with a vanishing error. -/
def WeichertRates (P : Measure Ω) (g : Ω → Rng) (b : ℝ) (a : ℤ) (δ : ℝ) (table : List (ℝ × ℝ)) (year : ℕ → Ω → ℝ) (last : Option ℝ) (ρ : ℝ) (edges : Prop) : Prop :=
  ∀ᵐ ω ∂P, ∀ (opt : ℕ → (ℝ → Fl ℝ) → ℝ) (ε : ℕ → ℝ), Tendsto ε atTop (𝓝 0) → (∀ n, FindsRoot (opt n) (ε n)) → ∀ magMax : ℕ → ℝ, ∃ rate av above : ℕ → ℝ,
    (∀ᶠ n in atTop, ∃ mags, simulateBinned n (fun _ => b) (a * δ) δ none .bValue (g ω) = .ok mags ∧
      above n = mags.countP (fun m => decide (mcOf table 0 < m)) ∧
      ((∀ m ∈ mags, m + δ ≤ magMax n) → ∃ est sd sdRate,
        weichert (opt n) mags ((List.range n).map fun i => year i ω) table (magMax n) last δ "b_value" = .ok (est, sd, .fin (rate n), sdRate, .fin (av n)))) ∧
    Tendsto (fun n => rate n / (ρ * above n)) atTop (𝓝 1) ∧
    (edges → Tendsto (fun n => av n - (Real.logb 10 (ρ * above n) + b * mcOf table 0)) atTop (𝓝 0))

/-! ### Proof -/

theorem used_map_sum (table : List (ℝ × ℝ)) (X0 δ : ℝ) (K : ℕ → ℕ) (Y : ℕ → ℝ) (φ : ℕ → ℝ) (n : ℕ) :
    ((usedBins table X0 δ K Y n).map φ).sum = ∑ i ∈ Finset.range n, if usedAt table X0 δ K Y i then φ (K i) else 0 := by
  unfold usedBins
  induction n with
  | zero => simp
  | succ n ih =>
    rw [List.range_succ, List.filter_append, List.map_append, List.map_append, List.sum_append, ih, Finset.sum_range_succ]
    by_cases h : usedAt table X0 δ K Y n <;> simp [h]

theorem share_sum (p : ℕ → Prop) (n : ℕ) : (((List.range n).countP fun i => decide (p i) : ℕ) : ℝ) = ∑ i ∈ Finset.range n, if p i then (1 : ℝ) else 0 := by
  induction n with
  | zero => simp
  | succ n ih =>
    rw [List.range_succ, List.countP_append, Finset.sum_range_succ, Nat.cast_add, ih]
    by_cases h : p n <;> simp [h]

variable {b δ ρ stop : ℝ} {table : List (ℝ × ℝ)} {year : ℕ → Ω → ℝ}

theorem used_sum [IsProbabilityMeasure P] (hg : Spec.RandomDraws P g) (hk : KnownSoFar P g ℱ) (hy : YearsShare P ℱ table year ρ stop) {x X0 : ℝ} (hx : 0 < x)
    (hpos : ∀ r ∈ table, 0 < r.2) (hstop : ∀ r ∈ table, r.2 < stop) (hρ : 0 < ρ) (habove : ∀ r ∈ table, X0 ≤ r.1) {φ : ℕ → ℝ} {A : ℝ} (hφ : ∀ j, |φ j| ≤ A * (1 + j)) :
    ∀ᵐ ω ∂P, Tendsto (fun n : ℕ => ((usedBins table X0 δ (fun i => binOf x ((g ω).expo i)) (fun i => year i ω) n).map φ).sum / n) atTop
      (𝓝 (ρ * (binConst x * ∑' j : ℕ, exposureAt table X0 δ (fun t => stop - t) j * φ j * Real.exp (-(x * j))))) := by
  have hP : IsProbabilityMeasure (expMeasure 1) := isProbabilityMeasure_expMeasure one_pos
  set T : Finset ℝ := (table.map Prod.snd).toFinset with hT
  have hTm : ∀ t, t ∈ T ↔ ∃ r ∈ table, r.2 = t := fun t => by rw [hT, List.mem_toFinset, List.mem_map]
  set s := startAt table X0 δ with hs
  set h : ℝ → ℕ → ℝ := fun t j => if s j = t then φ j else 0 with hh
  have hA : 0 ≤ A := by have := (abs_nonneg _).trans (hφ 0); simpa using this
  have hhb : ∀ t j, |h t j| ≤ A * (1 + j) := fun t j => by
    simp only [hh]; split_ifs
    · exact hφ j
    · rw [abs_zero]; positivity
  have hs0 : ¬ 0 < s 0 := fun hc => by
    obtain ⟨r, hr, h1, -⟩ := start_mem hc
    have := habove r hr
    unfold spaced at h1
    simp at h1
    linarith
  have hh0 : ∀ t ∈ T, h t 0 = 0 := fun t ht => by
    obtain ⟨r, hr, e⟩ := (hTm t).1 ht
    refine if_neg fun hc => hs0 ?_
    rw [hc, ← e]; exact hpos r hr
  have key : ∀ᵐ ω ∂P, ∀ t ∈ T, Tendsto (fun n : ℕ => (∑ i ∈ Finset.range n, if t ≤ year i ω then h t (binOf x ((g ω).expo i)) else 0) / n) atTop
      (𝓝 (ρ * (stop - t) * (binConst x * ∑' j : ℕ, h t j * Real.exp (-(x * j))))) := by
    have h1 : ∀ t ∈ T, ∀ᵐ ω ∂P, Tendsto (fun n : ℕ => (∑ i ∈ Finset.range n, if t ≤ year i ω then h t (binOf x ((g ω).expo i)) else 0) / n) atTop
        (𝓝 (ρ * (stop - t) * (binConst x * ∑' j : ℕ, h t j * Real.exp (-(x * j))))) := by
      intro t ht
      filter_upwards [since_mean (E := fun i ω => (g ω).expo i) hk.draw hk.next hg.expo_law hy.known t
        ((measurable_from_top : Measurable (h t)).comp (binOf_measurable x)) (bin_memLp hx (hhb t)), hy.share] with ω k1 k2
      obtain ⟨r, hr, e⟩ := (hTm t).1 ht
      have k3 := k2 r hr
      simp only [share_sum, e] at k3
      have k4 := k1 _ (mul_pos hρ (by rw [← e]; exact sub_pos.2 (hstop r hr))) k3
      simp only [Function.comp] at k4
      rw [bin_mean hx (hhb t) (hh0 t ht)] at k4
      exact k4
    exact (Finset.eventually_all T).2 h1
  filter_upwards [key] with ω hω
  have hsum := tendsto_finsetSum T hω
  have e1 : ∀ n : ℕ, ∑ t ∈ T, (∑ i ∈ Finset.range n, if t ≤ year i ω then h t (binOf x ((g ω).expo i)) else 0) / n =
      ((usedBins table X0 δ (fun i => binOf x ((g ω).expo i)) (fun i => year i ω) n).map φ).sum / n := by
    intro n
    rw [used_map_sum, ← Finset.sum_div, Finset.sum_comm]
    congr 1
    refine Finset.sum_congr rfl fun i _ => ?_
    unfold usedAt
    by_cases h1 : 0 < s (binOf x ((g ω).expo i)) ∧ s (binOf x ((g ω).expo i)) ≤ year i ω
    · rw [if_pos h1, Finset.sum_eq_single (s (binOf x ((g ω).expo i)))]
      · rw [if_pos h1.2]; simp only [hh, if_true]
      · intro t _ ht
        simp only [hh]
        rw [if_neg (Ne.symm ht)]; simp
      · intro hc
        obtain ⟨r, hr, -, e⟩ := start_mem h1.1
        exact absurd ((hTm _).2 ⟨r, hr, e.symm⟩) hc
    · rw [if_neg h1]
      refine Finset.sum_eq_zero fun t ht => ?_
      simp only [hh]
      split_ifs with h2 h3
      · obtain ⟨r, hr, e⟩ := (hTm t).1 ht
        exact absurd ⟨by rw [h3, ← e]; exact hpos r hr, by rw [h3]; exact h2⟩ h1
      · rfl
      · rfl
  have hsm : ∀ t, Summable fun j : ℕ => (stop - t) * (h t j * Real.exp (-(x * j))) := by
    intro t
    have := (spaced_summable 1 one_pos hx 1).mul_left (A * Real.exp x)
    refine Summable.mul_left _ (Summable.of_norm_bounded this fun j => ?_)
    have e2 : spaced 1 1 j = 1 + j := by unfold spaced; ring
    rw [Real.norm_eq_abs, abs_mul, abs_of_pos (Real.exp_pos _), e2, abs_of_nonneg (by positivity : (0 : ℝ) ≤ 1 + j), pow_one]
    have e3 : A * Real.exp x * ((1 + (j : ℝ)) * Real.exp (-x * (1 + j))) = A * (1 + j) * Real.exp (-(x * j)) := by
      have : Real.exp (-(x * j)) = Real.exp x * Real.exp (-x * (1 + j)) := by rw [← Real.exp_add]; congr 1; ring
      rw [this]; ring
    rw [e3]
    exact mul_le_mul_of_nonneg_right (hhb t j) (Real.exp_pos _).le
  have e4 : ∑ t ∈ T, ρ * (stop - t) * (binConst x * ∑' j : ℕ, h t j * Real.exp (-(x * j))) =
      ρ * (binConst x * ∑' j : ℕ, exposureAt table X0 δ (fun t => stop - t) j * φ j * Real.exp (-(x * j))) := by
    have e5 : ∀ t, ρ * (stop - t) * (binConst x * ∑' j : ℕ, h t j * Real.exp (-(x * j))) = ρ * binConst x * ∑' j : ℕ, (stop - t) * (h t j * Real.exp (-(x * j))) := by
      intro t
      rw [tsum_mul_left]; ring
    simp only [e5]
    rw [← Finset.mul_sum, ← Summable.tsum_finsetSum fun t _ => hsm t, mul_assoc]
    congr 2
    refine tsum_congr fun j => ?_
    unfold exposureAt
    by_cases h1 : 0 < s j
    · rw [if_pos h1, Finset.sum_eq_single (s j)]
      · simp only [hh, if_true]; ring
      · intro t _ ht
        simp only [hh]
        rw [if_neg (Ne.symm ht)]; ring
      · intro hc
        obtain ⟨r, hr, -, e⟩ := start_mem h1
        exact absurd ((hTm _).2 ⟨r, hr, e.symm⟩) hc
    · rw [if_neg h1, zero_mul, zero_mul]
      refine Finset.sum_eq_zero fun t ht => ?_
      simp only [hh]
      obtain ⟨r, hr, e⟩ := (hTm t).1 ht
      rw [if_neg fun hc => h1 (by rw [hc, ← e]; exact hpos r hr)]; ring
  rw [e4] at hsum
  refine hsum.congr fun n => ?_
  rw [← e1 n]

theorem grid_tilt (U : ℕ → ℝ) (c0 X0 : ℝ) {δ β x : ℝ} (hx : x = β * δ) (k : ℕ) : ∑' j : ℕ, U j * gridMid c0 X0 δ j ^ k * Real.exp (-(x * j)) =
    Real.exp (β * (edge0 c0 X0 δ + δ / 2)) * tilt U (gridMid c0 X0 δ) k β := by
  unfold tilt
  rw [← tsum_mul_left]
  refine tsum_congr fun j => ?_
  have : Real.exp (-(x * j)) = Real.exp (β * (edge0 c0 X0 δ + δ / 2)) * Real.exp (-β * gridMid c0 X0 δ j) := by
    rw [← Real.exp_add]; congr 1; unfold gridMid spaced; rw [hx]; ring
  rw [this]; ring

theorem occupied_exists (hδ : 0 < δ) (hrows : table ≠ []) (hpos : ∀ r ∈ table, 0 < r.2) (X0 : ℝ) : ∃ i, 0 < startAt table X0 δ i ∧ 0 < startAt table X0 δ (i + 1) := by
  obtain ⟨r, hr⟩ := List.exists_mem_of_ne_nil _ hrows
  obtain ⟨i, hi⟩ := exists_nat_gt ((r.1 - X0) / δ)
  rw [div_lt_iff₀ hδ] at hi
  refine ⟨i, start_of_above hpos hr ?_, start_of_above hpos hr ?_⟩
  · unfold spaced; linarith
  · unfold spaced; push_cast; linarith

theorem weichert_law [IsProbabilityMeasure P] (hg : Spec.RandomDraws P g) (hk : KnownSoFar P g ℱ) (hb : 0 < b) (hδ : 1 / 10 ^ 12 ≤ δ) (a : ℤ) (hrows : table ≠ [])
    (hasc : table.Pairwise fun r s => r.1 ≤ s.1) (hpos : ∀ r ∈ table, 0 < r.2) (habove : ∀ r ∈ table, a * δ ≤ r.1) (hρ : 0 < ρ) (hy : YearsShare P ℱ table year ρ stop)
    (hstop : ∀ r ∈ table, r.2 < stop) {L : ℝ} (hL : ∀ r ∈ table, r.2 < L) {last : Option ℝ}
    (hlast : ∀ᵐ ω ∂P, ∀ᶠ n in atTop, lastYear last ((List.range n).map fun i => year i ω) = L)
    {mid : ℕ → ℝ} (hmid : mid = gridMid (mcOf table 0) (a * δ) δ) {U W : ℕ → ℝ} (hU : U = exposureAt table (a * δ) δ fun t => stop - t)
    (hW : W = exposureAt table (a * δ) δ fun t => L - t) {β' : ℝ} (hβ' : 0 < β') (hsol : tiltMean W mid β' = tiltMean U mid (b * Real.log 10)) :
    ∀ᵐ ω ∂P, (∀ n, simulateBinned n (fun _ => b) (a * δ) δ none .bValue (g ω) = .ok (firstMags (fun i => spaced (a * δ) δ (binOf (b * Real.log 10 * δ) ((g ω).expo i))) n)) ∧
      ∀ (opt : ℕ → (ℝ → Fl ℝ) → ℝ) (ε : ℕ → ℝ), Tendsto ε atTop (𝓝 0) → (∀ n, FindsRoot (opt n) (ε n)) → ∀ magMax : ℕ → ℝ,
      ∃ est sd rate av : ℕ → ℝ,
      (∀ᶠ n in atTop, (∀ m ∈ firstMags (fun i => spaced (a * δ) δ (binOf (b * Real.log 10 * δ) ((g ω).expo i))) n, m + δ ≤ magMax n) → ∃ sdRate,
        weichert (opt n) (firstMags (fun i => spaced (a * δ) δ (binOf (b * Real.log 10 * δ) ((g ω).expo i))) n) ((List.range n).map fun i => year i ω) table (magMax n) last δ "b_value" =
          .ok (.fin (est n), .fin (sd n), .fin (rate n), sdRate, .fin (av n))) ∧
      Tendsto est atTop (𝓝 (β' / Real.log 10)) ∧ Tendsto sd atTop (𝓝 0) ∧
      Tendsto (fun n => rate n / n) atTop (𝓝 (ρ * (binConst (b * Real.log 10 * δ) * (Real.exp (b * Real.log 10 * (edge0 (mcOf table 0) (a * δ) δ + δ / 2)) *
        tilt U mid 0 (b * Real.log 10))) * (tilt (fun j => if 0 < startAt table (a * δ) δ j then 1 else 0) mid 0 β' / tilt W mid 0 β'))) ∧
      ∀ jm, 0 < startAt table (a * δ) δ jm → (∀ j < jm, ¬ 0 < startAt table (a * δ) δ j) →
        Tendsto (fun n => av n - Real.log (rate n) / Real.log 10) atTop (𝓝 (β' / Real.log 10 * spaced (edge0 (mcOf table 0) (a * δ) δ) δ jm)) := by
  have hp : 0 < δ := lt_of_lt_of_le (by positivity) hδ
  have hlog := log_ten_pos
  set β := b * Real.log 10 with hβd
  have hβ : 0 < β := mul_pos hb hlog
  set x := β * δ with hxd
  have hx : 0 < x := mul_pos hβ hp
  set X0 : ℝ := a * δ with hX0
  set c0 := mcOf table 0 with hc0
  set s := startAt table X0 δ with hs
  have hu : ∀ r ∈ table, 0 < (fun t => stop - t) r.2 := fun r hr => sub_pos.2 (hstop r hr)
  have hU0 : ∀ j, 0 ≤ U j := by rw [hU]; exact exposure_nonneg hu
  have hUp : ∀ j, 0 < U j ↔ 0 < s j := by rw [hU]; exact exposure_pos hu
  obtain ⟨Um, hUm⟩ := exposure_bounded table X0 δ fun t => stop - t
  rw [← hU] at hUm
  have hT := spaced_tiltable (x0 := edge0 c0 X0 δ + δ / 2) (v := U) (W := Um) hp hβ fun j => by rw [abs_of_nonneg (hU0 j)]; exact hUm j
  change Tiltable U (gridMid c0 X0 δ) β at hT
  rw [← hmid] at hT
  obtain ⟨i, hi, hi'⟩ := occupied_exists (X0 := X0) hp hrows hpos
  have hp0 : 0 < tilt U mid 0 β := tilt_pos hU0 hT ((hUp i).2 hi)
  have hCp := binConst_pos hx
  have hE := Real.exp_pos (β * (edge0 c0 X0 δ + δ / 2))
  -- the limits of the sums
  have s0 := used_sum hg hk hy (δ := δ) hx hpos hstop hρ habove (φ := fun _ => 1) (A := 1) (fun j => by simp)
  have s1 := used_sum hg hk hy (δ := δ) hx hpos hstop hρ habove (φ := mid) (A := |edge0 c0 X0 δ + δ / 2| + δ) (fun j => by
    rw [hmid]; unfold gridMid spaced
    refine (abs_add_le _ _).trans ?_
    rw [abs_of_nonneg (by positivity : 0 ≤ (j : ℝ) * δ)]
    nlinarith [abs_nonneg (edge0 c0 X0 δ + δ / 2), (Nat.cast_nonneg j : (0 : ℝ) ≤ j)])
  have sj : ∀ᵐ ω ∂P, ∀ l : ℕ, Tendsto (fun n : ℕ => ((usedBins table X0 δ (fun i => binOf x ((g ω).expo i)) (fun i => year i ω) n).map fun j => if j = l then (1 : ℝ) else 0).sum / n) atTop
      (𝓝 (ρ * (binConst x * (U l * Real.exp (-(x * l)))))) := by
    refine ae_all_iff.2 fun l => ?_
    have := used_sum hg hk hy (δ := δ) hx hpos hstop hρ habove (φ := fun j => if j = l then 1 else 0) (A := 1) (fun j => by
      rw [one_mul]; split_ifs
      · rw [abs_one]; have : (0 : ℝ) ≤ j := Nat.cast_nonneg j; linarith
      · rw [abs_zero]; positivity)
    filter_upwards [this] with ω h
    rw [← hU, tsum_eq_single l (fun j hj => by rw [if_neg hj]; ring), if_pos rfl, mul_one] at h
    exact h
  filter_upwards [s0, s1, sj, hlast, all_pos hg] with ω k0 k1 kj hla hdraw
  rw [← hU] at k0 k1
  have g0 := grid_tilt U c0 X0 hxd 0
  have g1 := grid_tilt U c0 X0 hxd 1
  rw [← hmid] at g0 g1
  simp only [pow_zero, pow_one] at g0 g1
  rw [g0] at k0
  rw [g1] at k1
  set K : ℕ → ℕ := fun i => binOf x ((g ω).expo i) with hK
  set Y : ℕ → ℝ := fun i => year i ω with hY
  refine ⟨fun n => ?_, ?_⟩
  · rw [simulate_grid (g ω) n a hb hδ]
    congr 2
    funext i
    have h1 : 0 ≤ ⌊(g ω).expo i / x + 1 / 10 ^ 12⌋ := Int.floor_nonneg.2 (by have := (hdraw i).le; positivity)
    have h2 : ((binOf x ((g ω).expo i) : ℕ) : ℝ) = ((⌊(g ω).expo i / x + 1 / 10 ^ 12⌋ : ℤ) : ℝ) := by
      unfold binOf
      rw [← Int.cast_natCast, Int.toNat_of_nonneg h1]
    change _ = spaced X0 δ (binOf x ((g ω).expo i))
    unfold spaced
    rw [h2]
    push_cast
    ring
  intro opt ε hε hopt magMax
  have hocc : ∀ j, 0 < s j → ∀ᶠ n in atTop, j ∈ usedBins table X0 δ K Y n := by
    intro j hj
    have hl : 0 < ρ * (binConst x * (U j * Real.exp (-(x * j)))) := mul_pos hρ (mul_pos hCp (mul_pos ((hUp j).2 hj) (Real.exp_pos _)))
    filter_upwards [(kj j).eventually (lt_mem_nhds hl)] with n hn
    by_contra hc
    have : ((usedBins table X0 δ K Y n).map fun i => if i = j then (1 : ℝ) else 0).sum = 0 := by
      refine List.sum_eq_zero fun y hy => ?_
      obtain ⟨i, hi, rfl⟩ := List.mem_map.1 hy
      exact if_neg fun e : i = j => hc (by rw [← e]; exact hi)
    rw [this, zero_div] at hn
    exact lt_irrefl _ hn
  have hlen : ∀ n, ((usedBins table X0 δ K Y n).map fun _ => (1 : ℝ)).sum = (usedBins table X0 δ K Y n).length := fun n => by simp
  simp only [hlen] at k0
  have hl0 : 0 < ρ * (binConst x * (Real.exp (β * (edge0 c0 X0 δ + δ / 2)) * tilt U mid 0 β)) := by positivity
  have hR : Tendsto (fun n => gridMean c0 X0 δ (usedBins table X0 δ K Y n)) atTop (𝓝 (tiltMean W mid β')) := by
    have h := k1.div k0 hl0.ne'
    have e : ρ * (binConst x * (Real.exp (β * (edge0 c0 X0 δ + δ / 2)) * tilt U mid 1 β)) / (ρ * (binConst x * (Real.exp (β * (edge0 c0 X0 δ + δ / 2)) * tilt U mid 0 β))) = tiltMean W mid β' := by
      rw [hsol]; unfold tiltMean; field_simp
    rw [e] at h
    refine h.congr' ?_
    filter_upwards [eventually_gt_atTop 0] with n hn
    have hn' : (n : ℝ) ≠ 0 := by exact_mod_cast hn.ne'
    unfold gridMean
    rw [← hmid]
    simp only [Pi.div_apply]
    rw [div_div_div_cancel_right₀ hn']
  exact weichert_limit hp hrows hasc hL hla hβ' hocc hi hi' (by omega) hl0 k0 hW hmid hR hε hopt magMax

/-! ## C119 -/

/-- C119: the Weichert estimates converge to the b-value of the simulation almost surely, and their standard deviations to 0, if the events since every completeness year are as
frequent as the time from it to `last_year` says, whatever the completeness magnitudes are (at or above the lowest simulated bin). -/
theorem C119_consistent [IsProbabilityMeasure P] (hg : Spec.RandomDraws P g) (hk : KnownSoFar P g ℱ) (hb : 0 < b) (hδ : 1 / 10 ^ 12 ≤ δ) (a : ℤ) (hrows : table ≠ [])
    (hasc : table.Pairwise fun r s => r.1 ≤ s.1) (hpos : ∀ r ∈ table, 0 < r.2) (habove : ∀ r ∈ table, a * δ ≤ r.1) (hρ : 0 < ρ) (hy : YearsShare P ℱ table year ρ stop)
    (hstop : ∀ r ∈ table, r.2 < stop) : WeichertConverges P g b a δ table year (some stop) b := by
  have hne : stop ≠ 0 := by
    obtain ⟨r, hr⟩ := List.exists_mem_of_ne_nil _ hrows
    linarith [hpos r hr, hstop r hr]
  filter_upwards [weichert_law hg hk hb hδ a hrows hasc hpos habove hρ hy hstop hstop (last := some stop)
    (Eventually.of_forall fun ω => Eventually.of_forall fun n => by unfold lastYear; exact if_neg hne) rfl rfl rfl (mul_pos hb log_ten_pos) rfl] with ω ⟨hsim, h⟩ opt ε hε hopt magMax
  obtain ⟨est, sd, rate, av, h1, h2, h3, -⟩ := h opt ε hε hopt magMax
  rw [mul_div_cancel_right₀ _ log_ten_pos.ne'] at h2
  refine ⟨est, sd, ?_, h2, h3⟩
  filter_upwards [h1] with n hn
  refine ⟨_, hsim n, fun hm => ?_⟩
  obtain ⟨sdRate, e⟩ := hn hm
  exact ⟨_, _, _, e⟩

/-- C119: the rate and the a-value estimate the rate of all simulated events above the lowest completeness magnitude (for the a-value: a left bin edge, as documented). -/
theorem C119_rate [IsProbabilityMeasure P] (hg : Spec.RandomDraws P g) (hk : KnownSoFar P g ℱ) (hb : 0 < b) (hδ : 1 / 10 ^ 12 ≤ δ) (a : ℤ) (hrows : table ≠ [])
    (hasc : table.Pairwise fun r s => r.1 ≤ s.1) (hpos : ∀ r ∈ table, 0 < r.2) (habove : ∀ r ∈ table, a * δ ≤ r.1) (hρ : 0 < ρ) (hy : YearsShare P ℱ table year ρ stop)
    (hstop : ∀ r ∈ table, r.2 < stop) : WeichertRates P g b a δ table year (some stop) ρ (∃ z : ℤ, a < z ∧ mcOf table 0 = z * δ - δ / 2) := by
  have hne : stop ≠ 0 := by
    obtain ⟨r, hr⟩ := List.exists_mem_of_ne_nil _ hrows
    linarith [hpos r hr, hstop r hr]
  have hp : 0 < δ := lt_of_lt_of_le (by positivity) hδ
  have hlog := log_ten_pos
  have hβ : 0 < b * Real.log 10 := mul_pos hb hlog
  have hx : 0 < b * Real.log 10 * δ := mul_pos hβ hp
  have habs : ∀ j, 0 < startAt table (a * δ) δ j ↔ mcOf table 0 < spaced (a * δ) δ j := by
    intro j
    constructor
    · intro h
      obtain ⟨r, hr, h1, -⟩ := start_mem h
      exact (mcOf_le hasc hr).trans_lt h1
    · intro h
      obtain ⟨r, hr, e⟩ := mcOf_mem (List.length_pos_of_ne_nil hrows)
      rw [e] at h
      exact start_of_above hpos hr h
  set v1 : ℕ → ℝ := fun j => if 0 < startAt table (a * δ) δ j then 1 else 0 with hv1
  have hv0 : ∀ j, 0 ≤ v1 j := fun j => by simp only [hv1]; split_ifs <;> norm_num
  have hv00 : v1 0 = 0 := by
    refine if_neg fun h => ?_
    obtain ⟨r, hr, h1, -⟩ := start_mem h
    have := habove r hr
    unfold spaced at h1
    simp at h1
    linarith
  have hvb : ∀ j, |v1 j| ≤ 1 * (1 + j) := fun j => by
    rw [abs_of_nonneg (hv0 j), one_mul]
    have h0 : (0 : ℝ) ≤ j := Nat.cast_nonneg j
    simp only [hv1]; split_ifs <;> linarith
  have hcount := since_mean (E := fun i ω => (g ω).expo i) (y := fun _ _ => (0 : ℝ)) hk.draw hk.next hg.expo_law (fun k => measurable_const) 0
    ((measurable_from_top : Measurable v1).comp (binOf_measurable (b * Real.log 10 * δ))) (bin_memLp hx hvb)
  set mid := gridMid (mcOf table 0) (a * δ) δ with hmid
  set W := exposureAt table (a * δ) δ fun t => stop - t with hW
  have hu : ∀ r ∈ table, 0 < (fun t => stop - t) r.2 := fun r hr => sub_pos.2 (hstop r hr)
  have hWn : ∀ j, 0 ≤ W j := exposure_nonneg hu
  obtain ⟨Wm, hWm⟩ := exposure_bounded table (a * δ) δ fun t => stop - t
  obtain ⟨i, hi, -⟩ := occupied_exists (X0 := a * δ) hp hrows hpos
  have hpW : 0 < tilt W mid 0 (b * Real.log 10) := tilt_pos hWn
    (spaced_tiltable (W := Wm) hp hβ fun j => by rw [abs_of_nonneg (hWn j)]; exact hWm j) ((exposure_pos hu i).2 hi)
  have hpv : 0 < tilt v1 mid 0 (b * Real.log 10) := tilt_pos hv0
    (spaced_tiltable (W := 1) hp hβ fun j => by rw [abs_of_nonneg (hv0 j)]; simp only [hv1]; split_ifs <;> norm_num) (i := i) (by simp only [hv1, if_pos hi]; norm_num)
  filter_upwards [weichert_law hg hk hb hδ a hrows hasc hpos habove hρ hy hstop hstop (last := some stop)
    (Eventually.of_forall fun ω => Eventually.of_forall fun n => by unfold lastYear; exact if_neg hne) rfl rfl rfl hβ rfl, hcount] with ω ⟨hsim, h⟩ hc opt ε hε hopt magMax
  obtain ⟨est, sd, rate, av, h1, -, -, h4, h5⟩ := h opt ε hε hopt magMax
  set X : ℕ → ℝ := fun i => spaced (a * δ) δ (binOf (b * Real.log 10 * δ) ((g ω).expo i)) with hX
  set above : ℕ → ℝ := fun n => ∑ i ∈ Finset.range n, v1 (binOf (b * Real.log 10 * δ) ((g ω).expo i)) with habv
  have hal : Tendsto (fun n : ℕ => above n / n) atTop (𝓝 (binConst (b * Real.log 10 * δ) * (Real.exp (b * Real.log 10 * (edge0 (mcOf table 0) (a * δ) δ + δ / 2)) * tilt v1 mid 0 (b * Real.log 10)))) := by
    have h6 := hc 1 one_pos (by
      refine tendsto_const_nhds.congr' ?_
      filter_upwards [eventually_gt_atTop 0] with n hn
      have : (n : ℝ) ≠ 0 := by exact_mod_cast hn.ne'
      simp [this])
    simp only [le_refl, if_true, one_mul, Function.comp] at h6
    rw [bin_mean hx hvb hv00] at h6
    have g0 := grid_tilt v1 (mcOf table 0) (a * δ) (δ := δ) (β := b * Real.log 10) rfl 0
    simp only [pow_zero, mul_one] at g0
    rw [g0] at h6
    exact h6
  have hE := Real.exp_pos (b * Real.log 10 * (edge0 (mcOf table 0) (a * δ) δ + δ / 2))
  have hC := binConst_pos hx
  have hratio : Tendsto (fun n => rate n / (ρ * above n)) atTop (𝓝 1) := by
    have h7 := h4.div (hal.const_mul ρ) (by positivity)
    have e : ρ * (binConst (b * Real.log 10 * δ) * (Real.exp (b * Real.log 10 * (edge0 (mcOf table 0) (a * δ) δ + δ / 2)) * tilt W mid 0 (b * Real.log 10))) *
        (tilt v1 mid 0 (b * Real.log 10) / tilt W mid 0 (b * Real.log 10)) /
        (ρ * (binConst (b * Real.log 10 * δ) * (Real.exp (b * Real.log 10 * (edge0 (mcOf table 0) (a * δ) δ + δ / 2)) * tilt v1 mid 0 (b * Real.log 10)))) = 1 := by
      field_simp
    rw [e] at h7
    refine h7.congr' ?_
    filter_upwards [eventually_gt_atTop 0] with n hn
    have hn' : (n : ℝ) ≠ 0 := by exact_mod_cast hn.ne'
    simp only [Pi.div_apply]
    rw [← mul_div_assoc, div_div_div_cancel_right₀ hn']
  refine ⟨rate, av, above, ?_, hratio, ?_⟩
  · filter_upwards [h1] with n hn
    refine ⟨_, hsim n, ?_, fun hm => ?_⟩
    · simp only [habv]
      unfold firstMags
      rw [List.countP_map]
      have := share_sum (fun i => mcOf table 0 < X i) n
      simp only [Function.comp_def]
      rw [this]
      refine Finset.sum_congr rfl fun i _ => ?_
      simp only [hv1, habs, hX]
    · obtain ⟨sdRate, e⟩ := hn hm
      exact ⟨_, _, _, e⟩
  · rintro ⟨z, hz, hc0⟩
    obtain ⟨jm, hjm⟩ := Int.eq_ofNat_of_zero_le (by omega : 0 ≤ z - a)
    have hjr : (jm : ℝ) = z - a := by exact_mod_cast hjm.symm
    have hXj : ∀ j : ℕ, spaced (a * δ) δ j - mcOf table 0 = ((j : ℝ) - jm + 1 / 2) * δ := fun j => by
      unfold spaced; rw [hc0, hjr]; ring
    have hedge : spaced (edge0 (mcOf table 0) (a * δ) δ) δ jm = mcOf table 0 := by
      unfold spaced edge0
      have e : (a * δ - mcOf table 0) / δ = ((-jm : ℤ) : ℝ) + 1 / 2 := by
        rw [hc0]; push_cast; rw [hjr]; field_simp; ring
      rw [e, Int.floor_intCast_add, show ⌊(1 / 2 : ℝ)⌋ = 0 by norm_num]
      push_cast; ring
    have h8 := h5 jm ((habs jm).2 (by have := hXj jm; rw [sub_self, zero_add] at this; linarith [half_pos hp]))
      (fun j hj hc => by
        have h9 := (habs j).1 hc
        have h10 := hXj j
        have h11 : (j : ℝ) + 1 ≤ jm := by exact_mod_cast hj
        nlinarith)
    rw [hedge, mul_div_cancel_right₀ _ hlog.ne'] at h8
    have h9 : Tendsto (fun n => Real.log (rate n / (ρ * above n)) / Real.log 10) atTop (𝓝 0) := by
      have := ((Real.continuousAt_log one_ne_zero).tendsto.comp hratio).div_const (Real.log 10)
      rwa [Real.log_one, zero_div] at this
    have h10 := (h8.sub_const (b * mcOf table 0)).add h9
    rw [sub_self, zero_add] at h10
    refine h10.congr' ?_
    filter_upwards [hratio.eventually (lt_mem_nhds one_pos)] with n hn
    have hr0 : rate n ≠ 0 := fun e => by rw [e, zero_div] at hn; exact lt_irrefl _ hn
    have ha0 : ρ * above n ≠ 0 := fun e => by rw [e, div_zero] at hn; exact lt_irrefl _ hn
    rw [Real.log_div hr0 ha0, Real.logb, sub_div]
    ring

/-! ### The default `last_year` -/

theorem lastYear_default {Y : ℕ → ℝ} {y : ℝ} (hle : ∀ i, Y i ≤ y) (hex : ∃ i, Y i = y) : ∀ᶠ n in atTop, lastYear none ((List.range n).map Y) = y := by
  obtain ⟨i, hi⟩ := hex
  filter_upwards [eventually_gt_atTop i] with n hn
  have hne : (List.range n).map Y ≠ [] := by simp; omega
  have h := (lastYear_spec none hne).2 (Or.inl rfl)
  refine le_antisymm ?_ (h.2 (List.mem_map.2 ⟨i, List.mem_range.2 hn, hi⟩))
  obtain ⟨j, -, e⟩ := List.mem_map.1 h.1
  rw [← e]; exact hle j

theorem spaced_le (x0 : ℝ) {δ : ℝ} (hδ : 0 < δ) {i j : ℕ} : spaced x0 δ i ≤ spaced x0 δ j ↔ i ≤ j := by
  unfold spaced
  rw [add_le_add_iff_left, mul_le_mul_iff_left₀ hδ, Nat.cast_le]

theorem start_antitone {X0 : ℝ} (hδ : 0 < δ) (hasc : table.Pairwise fun r s => r.1 ≤ s.1) (hback : table.Pairwise fun r s => s.2 ≤ r.2) {i j : ℕ} (hi : 0 < startAt table X0 δ i)
    (hij : i ≤ j) : startAt table X0 δ j ≤ startAt table X0 δ i := by
  have hm : spaced X0 δ i ≤ spaced X0 δ j := (spaced_le X0 hδ).2 hij
  unfold startAt since at *
  generalize spaced X0 δ i = m at *
  generalize spaced X0 δ j = m' at *
  have hsub : ∀ r ∈ table.filter (fun r => decide (r.1 < m)), r ∈ table.filter fun r => decide (r.1 < m') := by
    intro r hr
    obtain ⟨h1, h2⟩ := List.mem_filter.1 hr
    exact List.mem_filter.2 ⟨h1, decide_eq_true ((of_decide_eq_true h2).trans_le hm)⟩
  cases hc : (table.filter fun r => decide (r.1 < m)).getLast? with
  | none => rw [hc] at hi; simp at hi; linarith
  | some r =>
    have hr := hsub r (List.mem_of_getLast? hc)
    cases hc' : (table.filter fun r => decide (r.1 < m')).getLast? with
    | none => rw [List.getLast?_eq_none_iff] at hc'; rw [hc'] at hr; cases hr
    | some r' =>
      simp only [Option.map_some, Option.getD_some]
      have hpw := hback.filter fun r => decide (r.1 < m')
      rw [List.getLast?_eq_some_iff] at hc'
      obtain ⟨l, hl⟩ := hc'
      rw [hl] at hr hpw
      rcases List.mem_append.1 hr with h | h
      · exact (List.pairwise_append.1 hpw).2.2 r h r' (by simp)
      · rw [List.mem_singleton.1 h]

/-- With weights that grow with the points, adding the same number to all positive weights lowers the mean. -/
theorem tilt_added {x0 δ β Wm : ℝ} (hδ : 0 < δ) (hβ : 0 < β) {W v : ℕ → ℝ} (hW : ∀ j, 0 ≤ W j) (hWm : ∀ j, W j ≤ Wm) (hv : v = fun j => if 0 < W j then 1 else 0)
    (hmono : ∀ i j, 0 < W i → i ≤ j → W i ≤ W j) {i i' : ℕ} (hi : 0 < W i) (hii : i ≤ i') (hlt : W i < W i') :
    tiltMean (fun j => W j + v j) (spaced x0 δ) β < tiltMean W (spaced x0 δ) β := by
  set x := spaced x0 δ with hx
  have hv0 : ∀ j, 0 ≤ v j := fun j => by simp only [hv]; split_ifs <;> norm_num
  have hv1 : ∀ j, |v j| ≤ 1 := fun j => by simp only [hv]; split_ifs <;> norm_num
  have hTW : Tiltable W x β := spaced_tiltable (W := Wm) hδ hβ fun j => by rw [abs_of_nonneg (hW j)]; exact hWm j
  have hTv : Tiltable v x β := spaced_tiltable (W := 1) hδ hβ hv1
  have hvi : 0 < v i := by simp only [hv, if_pos hi]; norm_num
  have pW := tilt_pos hW hTW hi
  have pv := tilt_pos hv0 hTv hvi
  have hadd : ∀ k, tilt (fun j => W j + v j) x k β = tilt W x k β + tilt v x k β := fun k => by
    unfold tilt
    rw [← (hTW k).tsum_add (hTv k)]
    exact tsum_congr fun j => by ring
  set μ := tilt v x 1 β / tilt v x 0 β with hμ
  have hp' : ∀ {j j' : ℕ}, 0 < W j → j ≤ j' → 0 < W j' := fun h1 h2 => h1.trans_le (hmono _ _ h1 h2)
  have key : μ < tilt W x 1 β / tilt W x 0 β := by
    rw [lt_div_iff₀ pW, ← sub_pos]
    -- the largest point not above the mean
    obtain ⟨jm, hjm, hmin⟩ : ∃ j, 0 < W j ∧ ∀ l, 0 < W l → j ≤ l := ⟨Nat.find ⟨i, hi⟩, Nat.find_spec (⟨i, hi⟩ : ∃ j, 0 < W j), fun l hl => Nat.find_min' _ hl⟩
    have hjmμ : x jm ≤ μ := by
      rw [hμ, le_div_iff₀ pv, ← sub_nonneg]
      have := tilt_centred hTv (x jm)
      refine this.nonneg fun j => ?_
      refine mul_nonneg ?_ (Real.exp_pos _).le
      by_cases h : 0 < W j
      · exact mul_nonneg (hv0 j) (sub_nonneg.2 ((spaced_le x0 hδ).2 (hmin j h)))
      · simp only [hv, if_neg h, zero_mul]; exact le_rfl
    set N := ⌊(μ - x0) / δ⌋.toNat with hN
    have hchar : ∀ j : ℕ, x j ≤ μ ↔ j ≤ N := by
      intro j
      have h0 : 0 ≤ ⌊(μ - x0) / δ⌋ := by
        refine Int.floor_nonneg.2 (div_nonneg ?_ hδ.le)
        have : x0 ≤ x jm := by simp only [hx, spaced]; have : 0 ≤ (jm : ℝ) * δ := by positivity
                               linarith
        linarith
      have e1 : x j ≤ μ ↔ (j : ℝ) ≤ (μ - x0) / δ := by
        rw [le_div_iff₀ hδ]; simp only [hx, spaced]; constructor <;> intro h <;> linarith
      rw [e1, ← Int.cast_natCast, ← Int.le_floor, hN]
      omega
    have hNp : 0 < W N := hp' hjm ((hchar jm).1 hjmμ)
    set c := W N with hc
    have h1 := (tilt_centred hTW μ).sub ((tilt_centred hTv μ).mul_left c)
    have e0 : tilt v x 1 β - μ * tilt v x 0 β = 0 := by rw [hμ]; field_simp; ring
    rw [e0, mul_zero, sub_zero] at h1
    have hterm : ∀ j, W j * (x j - μ) * Real.exp (-β * x j) - c * (v j * (x j - μ) * Real.exp (-β * x j)) = (W j - c * v j) * (x j - μ) * Real.exp (-β * x j) := fun j => by ring
    have hnn : ∀ j, 0 ≤ (W j - c * v j) * (x j - μ) := by
      intro j
      by_cases h : 0 < W j
      · have hvj : v j = 1 := by simp only [hv, if_pos h]
        rw [hvj, mul_one]
        by_cases hj : j ≤ N
        · exact mul_nonneg_of_nonpos_of_nonpos (sub_nonpos.2 (hmono j N h hj)) (sub_nonpos.2 ((hchar j).2 hj))
        · refine mul_nonneg (sub_nonneg.2 (hmono N j hNp (by omega))) (sub_nonneg.2 ?_)
          exact (not_le.1 fun hh => hj ((hchar j).1 hh)).le
      · have hvj : v j = 0 := by simp only [hv, if_neg h]
        have : W j = 0 := le_antisymm (not_lt.1 h) (hW j)
        rw [hvj, this]; simp
    have hex : ∃ l, 0 < (W l - c * v l) * (x l - μ) := by
      have hvi' : v i' = 1 := by simp only [hv, if_pos (hi.trans hlt)]
      have hvi1 : v i = 1 := by simp only [hv, if_pos hi]
      by_cases h : W i < c
      · refine ⟨i, ?_⟩
        rw [hvi1, mul_one]
        have hiN : i < N := by
          by_contra hcon
          exact absurd (hmono N i hNp (not_lt.1 hcon)) (not_le.2 h)
        refine mul_pos_of_neg_of_neg (sub_neg.2 h) (sub_neg.2 ?_)
        have h2 : x i < x N := by
          refine lt_of_le_of_ne ((spaced_le x0 hδ).2 hiN.le) fun e => ?_
          have := (spaced_le x0 hδ).1 e.ge
          omega
        exact h2.trans_le ((hchar N).2 le_rfl)
      · refine ⟨i', ?_⟩
        rw [hvi', mul_one]
        have h3 : c < W i' := lt_of_le_of_lt (not_lt.1 h) hlt
        have hiN : N < i' := by
          by_contra hcon
          exact absurd (hmono i' N (hi.trans hlt) (not_lt.1 hcon)) (not_le.2 h3)
        refine mul_pos (sub_pos.2 h3) (sub_pos.2 (not_le.1 fun hh => ?_))
        have := (hchar i').1 hh
        omega
    obtain ⟨l, hl⟩ := hex
    rw [← h1.tsum_eq]
    refine h1.summable.tsum_pos (fun j => ?_) l ?_
    · simp only [hterm]
      exact mul_nonneg (hnn j) (Real.exp_pos _).le
    · simp only [hterm]
      exact mul_pos hl (Real.exp_pos _)
  unfold tiltMean
  rw [hadd, hadd]
  rw [hμ, div_lt_div_iff₀ pv pW] at key
  rw [div_lt_div_iff₀ (by positivity) pW]
  nlinarith

/-- The mean is above the lowest point. -/
theorem tilt_above_lowest {x0 δ β Wm : ℝ} (hδ : 0 < δ) (hβ : 0 < β) {W : ℕ → ℝ} (hW : ∀ j, 0 ≤ W j) (hWm : ∀ j, W j ≤ Wm) {i i' : ℕ} (hi : 0 < W i) (hi' : 0 < W i') (hne : i ≠ i') :
    ∃ a, 0 < W a ∧ spaced x0 δ a < tiltMean W (spaced x0 δ) β := by
  have hT : Tiltable W (spaced x0 δ) β := spaced_tiltable (W := Wm) hδ hβ fun j => by rw [abs_of_nonneg (hW j)]; exact hWm j
  have p := tilt_pos hW hT hi
  obtain ⟨jm, hjm, hmin⟩ : ∃ j, 0 < W j ∧ ∀ l, 0 < W l → j ≤ l := ⟨Nat.find ⟨i, hi⟩, Nat.find_spec (⟨i, hi⟩ : ∃ j, 0 < W j), fun l hl => Nat.find_min' _ hl⟩
  refine ⟨jm, hjm, ?_⟩
  unfold tiltMean
  rw [lt_div_iff₀ p, ← sub_pos]
  have h := tilt_centred hT (spaced x0 δ jm)
  obtain ⟨l, hl, hlm⟩ : ∃ l, 0 < W l ∧ l ≠ jm := by
    by_cases h1 : i = jm
    · exact ⟨i', hi', fun h2 => hne (h1.trans h2.symm)⟩
    · exact ⟨i, hi, h1⟩
  have hge : ∀ j, 0 < W j → spaced x0 δ jm ≤ spaced x0 δ j := fun j hj => (spaced_le x0 hδ).2 (hmin j hj)
  rw [← h.tsum_eq]
  refine h.summable.tsum_pos (fun j => ?_) l ?_
  · refine mul_nonneg ?_ (Real.exp_pos _).le
    rcases (hW j).lt_or_eq with h1 | h1
    · exact mul_nonneg h1.le (sub_nonneg.2 (hge j h1))
    · rw [← h1, zero_mul]
  · refine mul_pos (mul_pos hl (sub_pos.2 (lt_of_le_of_ne (hge l hl) fun e => hlm ?_))) (Real.exp_pos _)
    exact le_antisymm ((spaced_le x0 hδ).1 e.ge) (hmin l hl)

/-- A defect, proved: events of the year `y` are used, but with the default `last_year` (the last year with an event, `y`) the time up to the end of that year is not: if the events
are spread evenly over the whole years up to and including `y`, the estimates converge to a number above the b-value of the simulation. -/
theorem C119_default_last_year [IsProbabilityMeasure P] (hg : Spec.RandomDraws P g) (hk : KnownSoFar P g ℱ) (hb : 0 < b) (hδ : 1 / 10 ^ 12 ≤ δ) (a : ℤ) (hrows : table ≠ [])
    (hasc : table.Pairwise fun r s => r.1 ≤ s.1) (hback : table.Pairwise fun r s => s.2 ≤ r.2) (hpos : ∀ r ∈ table, 0 < r.2) (habove : ∀ r ∈ table, a * δ ≤ r.1) (hρ : 0 < ρ)
    {y : ℝ} (hy : YearsShare P ℱ table year ρ (y + 1)) (hlt : ∀ r ∈ table, r.2 < y) (hle : ∀ᵐ ω ∂P, (∀ i, year i ω ≤ y) ∧ ∃ i, year i ω = y)
    {z z' : ℤ} {t t' : ℝ} (hz : a ≤ z) (hzz : z ≤ z') (ht : since table (z * δ) = some t) (ht' : since table (z' * δ) = some t') (hne : t ≠ t') :
    ∃ b', b < b' ∧ WeichertConverges P g b a δ table year none b' := by
  have hp : 0 < δ := lt_of_lt_of_le (by positivity) hδ
  have hlog := log_ten_pos
  have hβ : 0 < b * Real.log 10 := mul_pos hb hlog
  have hstop : ∀ r ∈ table, r.2 < y + 1 := fun r hr => by linarith [hlt r hr]
  set W := exposureAt table (a * δ) δ fun t => y - t with hW
  set U := exposureAt table (a * δ) δ fun t => y + 1 - t with hU
  set mid := gridMid (mcOf table 0) (a * δ) δ with hmid
  have hu : ∀ r ∈ table, 0 < (fun t => y - t) r.2 := fun r hr => sub_pos.2 (hlt r hr)
  have hWn : ∀ j, 0 ≤ W j := exposure_nonneg hu
  have hWp : ∀ j, 0 < W j ↔ 0 < startAt table (a * δ) δ j := exposure_pos hu
  obtain ⟨Wm, hWm⟩ := exposure_bounded table (a * δ) δ fun t => y - t
  have hUW : U = fun j => W j + if 0 < W j then 1 else 0 := by
    funext j
    by_cases h : 0 < startAt table (a * δ) δ j
    · rw [if_pos ((hWp j).2 h), hU, hW]
      unfold exposureAt
      rw [if_pos h, if_pos h]; ring
    · rw [if_neg fun hc => h ((hWp j).1 hc), hU, hW]
      unfold exposureAt
      rw [if_neg h, if_neg h]; ring
  -- completeness years do not increase with magnitude
  have hsmono : ∀ {i j : ℕ}, 0 < startAt table (a * δ) δ i → i ≤ j → startAt table (a * δ) δ j ≤ startAt table (a * δ) δ i := by
    intro i j hi hij
    exact start_antitone hp hasc hback hi hij
  have hmono : ∀ i j, 0 < W i → i ≤ j → W i ≤ W j := by
    intro i j hi hij
    have h1 := (hWp i).1 hi
    have h2 : 0 < startAt table (a * δ) δ j := by
      obtain ⟨r, hr, h3, -⟩ := start_mem h1
      exact start_of_above hpos hr (h3.trans_le ((spaced_le _ hp).2 hij))
    rw [hW]
    unfold exposureAt
    rw [if_pos h1, if_pos h2]
    linarith [hsmono h1 hij]
  obtain ⟨i, hi⟩ := Int.eq_ofNat_of_zero_le (by omega : 0 ≤ z - a)
  obtain ⟨i', hi'⟩ := Int.eq_ofNat_of_zero_le (by omega : 0 ≤ z' - a)
  have hsp : ∀ {i : ℕ} {z : ℤ}, z - a = i → spaced (a * δ) δ i = z * δ := by
    intro i z h
    have : (i : ℝ) = z - a := by exact_mod_cast h.symm
    unfold spaced; rw [this]; ring
  have hst : startAt table (a * δ) δ i = t := by unfold startAt; rw [hsp hi, ht]; rfl
  have hst' : startAt table (a * δ) δ i' = t' := by unfold startAt; rw [hsp hi', ht']; rfl
  have hmem : ∀ {m u : ℝ}, since table m = some u → 0 < u := by
    intro m u h
    unfold since at h
    rw [Option.map_eq_some_iff] at h
    obtain ⟨r, h1, rfl⟩ := h
    exact hpos r (List.mem_filter.1 (List.mem_of_getLast? h1)).1
  have hi0 : 0 < startAt table (a * δ) δ i := by rw [hst]; exact hmem ht
  have hi0' : 0 < startAt table (a * δ) δ i' := by rw [hst']; exact hmem ht'
  have hii : i ≤ i' := by omega
  have hWlt : W i < W i' := by
    refine lt_of_le_of_ne (hmono i i' ((hWp i).2 hi0) hii) fun e => hne ?_
    rw [hW] at e
    unfold exposureAt at e
    rw [if_pos hi0, if_pos hi0', hst, hst'] at e
    linarith
  have hneii : i ≠ i' := fun e => hWlt.ne (by rw [e])
  have hlow : tiltMean U mid (b * Real.log 10) < tiltMean W mid (b * Real.log 10) := by
    rw [hUW]
    exact tilt_added hp hβ hWn hWm rfl hmono ((hWp i).2 hi0) hii hWlt
  have hU0 : ∀ j, 0 ≤ U j := fun j => by rw [hUW]; have := hWn j; dsimp only; split_ifs <;> linarith
  have hUm : ∀ j, U j ≤ Wm + 1 := fun j => by rw [hUW]; have := hWm j; dsimp only; split_ifs <;> linarith
  have hUi : ∀ j, 0 < W j → 0 < U j := fun j h => by rw [hUW]; dsimp only; rw [if_pos h]; linarith
  obtain ⟨l, hl, hl2⟩ := tilt_above_lowest (x0 := edge0 (mcOf table 0) (a * δ) δ + δ / 2) hp hβ hU0 hUm (hUi i ((hWp i).2 hi0)) (hUi i' ((hWp i').2 hi0')) hneii
  have hWl : 0 < W l := by
    rcases (hWn l).lt_or_eq with h | h
    · exact h
    · rw [hUW] at hl; dsimp only at hl; rw [← h] at hl; simp at hl
  obtain ⟨β', h1, h2⟩ := tilt_exists_above hp hβ hWn hWm hWl hl2 hlow
  refine ⟨β' / Real.log 10, by rw [lt_div_iff₀ hlog]; exact h1, ?_⟩
  filter_upwards [weichert_law hg hk hb hδ a hrows hasc hpos habove hρ hy hstop hlt (last := none)
    (by filter_upwards [hle] with ω hω; exact lastYear_default hω.1 hω.2) hmid hU hW (hβ.trans h1) h2] with ω ⟨hsim, h⟩ opt ε hε hopt magMax
  obtain ⟨est, sd, rate, av, h1, h2, h3, -⟩ := h opt ε hε hopt magMax
  refine ⟨est, sd, ?_, h2, h3⟩
  filter_upwards [h1] with n hn
  refine ⟨_, hsim n, fun hm => ?_⟩
  obtain ⟨sdRate, e⟩ := hn hm
  exact ⟨_, _, _, e⟩

/-! ### Cases -/

/-- The years of the case: 2000 and 1940 in turn. -/
def caseYear (i : ℕ) : ℝ := if i % 2 = 0 then 2000 else 1940

theorem case_count (n : ℕ) : (List.range n).countP (fun i => decide ((1951 : ℝ) ≤ caseYear i)) = (n + 1) / 2 := by
  induction n with
  | zero => rfl
  | succ n ih =>
    rw [List.range_succ, List.countP_append, ih]
    unfold caseYear
    by_cases h : n % 2 = 0
    · rw [List.countP_singleton]
      simp only [if_pos h]; norm_num; omega
    · rw [List.countP_singleton]
      simp only [if_neg h]; norm_num; omega

/-- Two periods: complete above 3.95 from 1951, and above 4.95 from 1901. -/
def caseTable : List (ℝ × ℝ) := [(395 / 100, 1951), (495 / 100, 1901)]

theorem case_share {ℱ : Filtration ℕ m0} : YearsShare P ℱ caseTable (fun i _ => caseYear i) (1 / 100) 2001 := by
  refine ⟨fun i => measurable_const, Eventually.of_forall fun ω r hr => ?_⟩
  simp only [caseTable, List.mem_cons, List.not_mem_nil, or_false] at hr
  rcases hr with rfl | rfl
  · dsimp only
    simp only [case_count]
    have h1 : Tendsto (fun n : ℕ => 1 / 2 * (1 : ℝ) + 1 / (n : ℝ)) atTop (𝓝 (1 / 2 * 1 + 0)) := tendsto_const_nhds.add tendsto_one_div_atTop_nhds_zero_nat
    have h0 : Tendsto (fun n : ℕ => (1 / 2 : ℝ)) atTop (𝓝 (1 / 2)) := tendsto_const_nhds
    rw [show (1 / 100 * (2001 - 1951) : ℝ) = 1 / 2 by norm_num]
    rw [show (1 / 2 * 1 + 0 : ℝ) = 1 / 2 by norm_num] at h1
    refine tendsto_of_tendsto_of_tendsto_of_le_of_le' h0 h1 ?_ ?_
    · filter_upwards [eventually_gt_atTop 0] with n hn
      have hn' : (0 : ℝ) < n := by exact_mod_cast hn
      rw [le_div_iff₀ hn']
      have : (n : ℝ) ≤ 2 * ((n + 1) / 2 : ℕ) := by exact_mod_cast (by omega : n ≤ 2 * ((n + 1) / 2))
      linarith
    · filter_upwards [eventually_gt_atTop 0] with n hn
      have hn' : (0 : ℝ) < n := by exact_mod_cast hn
      rw [div_le_iff₀ hn', add_mul, one_div_mul_cancel hn'.ne']
      have : (2 : ℝ) * ((n + 1) / 2 : ℕ) ≤ n + 1 := by exact_mod_cast (by omega : 2 * ((n + 1) / 2) ≤ n + 1)
      linarith
  · dsimp only
    rw [show (1 / 100 * (2001 - 1901) : ℝ) = 1 by norm_num]
    refine tendsto_const_nhds.congr' ?_
    filter_upwards [eventually_gt_atTop 0] with n hn
    have hn' : (n : ℝ) ≠ 0 := by exact_mod_cast hn.ne'
    have : (List.range n).countP (fun i => decide ((1901 : ℝ) ≤ caseYear i)) = n := by
      conv_rhs => rw [← List.length_range (n := n)]
      rw [List.countP_eq_length]
      intro i _
      refine decide_eq_true ?_
      unfold caseYear
      split_ifs <;> norm_num
    rw [this, div_self hn']

/-- An optimiser that finds the zeros exactly. -/
example : ∃ opt : (ℝ → Fl ℝ) → ℝ, FindsRoot opt 0 := by
  refine ⟨fun f => if h : ∃ β, f β = .fin 0 then h.choose else 0, fun h _ _ h3 => ?_⟩
  have e : ∃ β, (fun β => (Fl.fin |h β| : Fl ℝ)) β = .fin 0 := by
    obtain ⟨β, hβ⟩ := h3
    exact ⟨β, by simp only [hβ, abs_zero]⟩
  dsimp only
  rw [dif_pos e]
  have h4 := e.choose_spec
  injection h4 with h5
  exact h5.le

example [IsProbabilityMeasure P] (hg : Spec.RandomDraws P g) :
    WeichertConverges P g 1 30 (1 / 10) caseTable (fun i _ => caseYear i) (some 2001) 1 ∧
    WeichertRates P g 1 30 (1 / 10) caseTable (fun i _ => caseYear i) (some 2001) (1 / 100) (∃ z : ℤ, 30 < z ∧ mcOf caseTable 0 = z * (1 / 10) - (1 / 10) / 2) ∧
    (∃ z : ℤ, 30 < z ∧ mcOf caseTable 0 = z * (1 / 10 : ℝ) - (1 / 10) / 2) ∧
    ∃ b', 1 < b' ∧ WeichertConverges P g 1 30 (1 / 10) caseTable (fun i _ => caseYear i) none b' := by
  obtain ⟨ℱ, hk⟩ := known_exists hg
  have h1 : ∀ r ∈ caseTable, 0 < r.2 := by simp [caseTable]
  have h2 : ∀ r ∈ caseTable, ((30 : ℤ) : ℝ) * (1 / 10) ≤ r.1 := by simp [caseTable]; norm_num
  have h3 : ∀ r ∈ caseTable, r.2 < 2001 := by simp [caseTable]; norm_num
  have h3' : ∀ r ∈ caseTable, r.2 < 2000 := by simp [caseTable]; norm_num
  have h4 : caseTable.Pairwise fun r s => r.1 ≤ s.1 := by simp [caseTable]; norm_num
  have h5 : caseTable.Pairwise fun r s => s.2 ≤ r.2 := by simp [caseTable]; norm_num
  have hs : YearsShare P ℱ caseTable (fun i _ => caseYear i) (1 / 100) (2000 + 1) := by
    rw [show (2000 + 1 : ℝ) = 2001 by norm_num]; exact case_share
  refine ⟨C119_consistent hg hk one_pos (by norm_num) 30 (by simp [caseTable]) h4 h1 h2 (by norm_num) case_share h3,
    C119_rate hg hk one_pos (by norm_num) 30 (by simp [caseTable]) h4 h1 h2 (by norm_num) case_share h3,
    ⟨40, by norm_num, by simp [mcOf, caseTable]; norm_num⟩,
    C119_default_last_year hg hk one_pos (by norm_num) 30 (by simp [caseTable]) h4 h5 h1 h2 (by norm_num) hs h3' ?_ (z := 40) (z' := 50) (t := 1951) (t' := 1901)
      (by norm_num) (by norm_num) ?_ ?_ (by norm_num)⟩
  · refine Eventually.of_forall fun ω => ⟨fun i => ?_, 0, by simp [caseYear]⟩
    unfold caseYear
    split_ifs <;> norm_num
  · simp [since, caseTable, List.filter]; norm_num
  · simp [since, caseTable, List.filter]; norm_num

end
end SeismoStats.Props
