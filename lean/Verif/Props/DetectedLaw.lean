/-
Property C111: b-positive is consistent although events are missing, as long as every event larger than the last recorded one is recorded.
-/
import Verif.Proofs.Detected
import Verif.Props.CoveragePositive
import Verif.Props.SimulateLaw
import Mathlib.Probability.BorelCantelli

namespace SeismoStats.Props
open SeismoStats SeismoStats.Simulate BValue MeasureTheory ProbabilityTheory Filter Topology
open Classical
noncomputable section

variable {Ω : Type} [m0 : MeasurableSpace Ω] {P : Measure Ω} {g : Ω → Rng}

/-! ### Specification -/

/-- What is known after each event: the draws up to that event are known, and the next draw is independent of everything that is known. -/
structure KnownSoFar (P : Measure Ω) (g : Ω → Rng) (ℱ : Filtration ℕ m0) : Prop where
  draw : ∀ i, Measurable[ℱ i] fun ω => (g ω).expo i
  next : ∀ i, Indep (MeasurableSpace.comap (fun ω => (g ω).expo (i + 1)) inferInstance) (ℱ i) P

/-- Every event that is at least `d` larger than the last one recorded before it is recorded too; only events at or above `thr` count. -/
def RecordsLarger (mags : List ℝ) (thr d : ℝ) (seen : ℕ → Prop) : Prop :=
  ∀ (j i : ℕ) (m m' : ℝ), j < i → mags[j]? = some m → mags[i]? = some m' → seen j → thr ≤ m →
    (∀ (l : ℕ) (m'' : ℝ), j < l → l < i → mags[l]? = some m'' → seen l → m'' < thr) → m + d ≤ m' → seen i

/-- A way of missing events: whether an event is recorded is decided by what is known at that time, some event is recorded, and every event that is at least `d` larger
than the last recorded one is recorded. -/
structure Detection (P : Measure Ω) (g : Ω → Rng) (ℱ : Filtration ℕ m0) (b mc δ mc' d : ℝ) (seen : ℕ → Ω → Prop) : Prop where
  known : ∀ i, MeasurableSet[ℱ i] {ω | seen i ω}
  some : ∀ᵐ ω ∂P, ∃ n mags, simulateBinned n (fun _ => b) mc δ none .bValue (g ω) = .ok mags ∧ ∃ i m, mags[i]? = some m ∧ mc' - δ / 2 ≤ m ∧ seen i ω
  larger : ∀ᵐ ω ∂P, ∀ n mags, simulateBinned n (fun _ => b) mc δ none .bValue (g ω) = .ok mags → RecordsLarger mags (mc' - δ / 2) d fun i => seen i ω

/-- For almost every sequence of random draws: from some size on, the estimate from the recorded ones of `n` simulated magnitudes is a number (for every estimator object),
and these numbers converge to `limit`. -/
def ConvergesRecorded (P : Measure Ω) (g : Ω → Rng) (c : Cls) (b mc δ mc' : ℝ) (dmc : Option ℝ) (seen : ℕ → Ω → Prop) (limit : ℝ) : Prop :=
  ∀ᵐ ω ∂P, ∃ est : ℕ → ℝ,
    (∀ᶠ n in atTop, ∃ mags, simulateBinned n (fun _ => b) mc δ none .bValue (g ω) = .ok mags ∧
      ∀ warn s, Reachable c s → (calculate c warn s { mags := (recorded mags fun i => seen i ω).map some, mc := mc', δ := δ, dmc := dmc }).2 = .ok (.fin (est n))) ∧
    Tendsto est atTop (𝓝 limit)

/-! ### Proof -/

theorem lastSeen_map (seen : ℕ → Prop) (v : ℕ → ℝ) (Q : ℝ → ℝ) (k : ℕ) :
    (lastSeen seen (fun i => Q (v i)) k).1 = (lastSeen seen v k).1 ∧ ((lastSeen seen v k).1 = 1 → (lastSeen seen (fun i => Q (v i)) k).2 = Q (lastSeen seen v k).2) := by
  induction k with
  | zero => exact ⟨rfl, fun h => absurd h zero_ne_one⟩
  | succ k ih =>
    by_cases h : seen k
    · simp only [lastSeen, if_pos h]; exact ⟨trivial, fun _ => trivial⟩
    · simp only [lastSeen, if_neg h]; exact ih

/-- Seen and at or above a magnitude. -/
def seenAbove (seen : ℕ → Prop) (X : ℕ → ℝ) (thr : ℝ) (i : ℕ) : Prop := seen i ∧ thr ≤ X i

theorem recorded_filter' (X : ℕ → ℝ) (n : ℕ) (seen : ℕ → Prop) (thr : ℝ) :
    (recorded (firstMags X n) seen).filter (fun m => decide (thr ≤ m)) = ((List.range n).filter fun i => decide (seenAbove seen X thr i)).map X := by
  unfold recorded
  rw [firstMags_length]
  have e : ((List.range n).filter fun i => decide (seen i)).map (fun i => (firstMags X n).getD i 0) = ((List.range n).filter fun i => decide (seen i)).map X := by
    apply List.map_congr_left
    intro i hi
    have hi' : i < n := List.mem_range.1 (List.mem_filter.1 hi).1
    unfold firstMags
    simp [List.getD_eq_getElem?_getD, hi']
  rw [e, List.filter_map, List.filter_filter]
  congr 1
  apply List.filter_congr
  intro i _
  by_cases h1 : thr ≤ X i <;> by_cases h2 : seen i <;> simp [seenAbove, h1, h2]

theorem firstMags_get {X : ℕ → ℝ} {n i : ℕ} {m : ℝ} : (firstMags X n)[i]? = some m ↔ i < n ∧ X i = m := by
  unfold firstMags
  by_cases h : i < n <;> simp [h]

variable {b mc δ d mc' : ℝ} {a F Q : ℝ → ℝ} {ℱ : Filtration ℕ m0} {seen : ℕ → Ω → Prop}

theorem detected_scheme [IsProbabilityMeasure P] (hg : Spec.RandomDraws P g) (hk : KnownSoFar P g ℱ) (hS : PositiveScheme b mc δ d a F fun v i => Q (v i)) (hQ : Measurable Q)
    (ha : Measurable a) (ha0 : ∀ e, 0 < e → 0 ≤ a e) {K : ℝ} (haK : ∀ e, 0 < e → a e ≤ e + K) (hF : Measurable F) (hFn : ∀ u, 0 ≤ F u) (hd : 0 ≤ d) {κ L : ℝ} (hκ0 : 0 < κ)
    (hκ : ∫⁻ u, ENNReal.ofReal (F u) ∂(expMeasure 1) = ENNReal.ofReal κ) (hL : ∫⁻ u, ENNReal.ofReal (F u ^ 2) ∂(expMeasure 1) = ENNReal.ofReal L)
    (hdet : Detection P g ℱ b mc δ mc' d seen) : ConvergesRecorded P g .positive b mc δ mc' (some d) seen (betaVal κ δ / Real.log 10) := by
  have hP : IsProbabilityMeasure (expMeasure 1) := isProbabilityMeasure_expMeasure one_pos
  have hδ0 : 0 ≤ δ := by
    rcases hS.grid with rfl | ⟨h, -⟩
    · exact le_rfl
    · exact le_trans (by positivity) h
  -- moments of the centred excess
  have hFi : Integrable F (expMeasure 1) := by
    refine ⟨hF.aestronglyMeasurable, ?_⟩
    rw [hasFiniteIntegral_iff_ofReal (Eventually.of_forall hFn), hκ]
    exact ENNReal.ofReal_lt_top
  have hF2 : Integrable (fun u => F u ^ 2) (expMeasure 1) := by
    refine ⟨(hF.pow_const 2).aestronglyMeasurable, ?_⟩
    rw [hasFiniteIntegral_iff_ofReal (Eventually.of_forall fun u => sq_nonneg _), hL]
    exact ENNReal.ofReal_lt_top
  have hmean : ∫ u, F u ∂(expMeasure 1) = κ := by
    rw [integral_eq_lintegral_of_nonneg_ae (Eventually.of_forall hFn) hF.aestronglyMeasurable, hκ, ENNReal.toReal_ofReal hκ0.le]
  have h0 : ∫ u, (F u - κ) ∂(expMeasure 1) = 0 := by
    rw [integral_sub hFi (integrable_const κ), hmean]; simp
  have hD2 : MemLp (fun u => F u - κ) 2 (expMeasure 1) := ((memLp_two_iff_integrable_sq hF.aestronglyMeasurable).2 hF2).sub (memLp_const κ)
  have hML : ∫⁻ u, ENNReal.ofReal ((F u - κ) ^ 2) ∂(expMeasure 1) = ENNReal.ofReal (∫ u, (F u - κ) ^ 2 ∂(expMeasure 1)) :=
    (ofReal_integral_eq_lintegral_ofReal hD2.integrable_sq (Eventually.of_forall fun u => sq_nonneg _)).symm
  set thr := mc' - δ / 2 with hthr
  set E : ℕ → Ω → ℝ := fun i ω => (g ω).expo i with hEd
  have hE0 : ∀ i, Measurable (E i) := hg.expo_measurable
  have hsm : ∀ i, MeasurableSet[ℱ i] {ω | seen i ω ∧ thr ≤ Q (E i ω)} := fun i =>
    (hdet.known i).inter (measurableSet_le measurable_const (hQ.comp (hk.draw i)))
  have hsome : ∀ᵐ ω ∂P, ∃ i, seen i ω ∧ thr ≤ Q (E i ω) := by
    filter_upwards [hdet.some] with ω ⟨n, mags, e, i, m, hi, hm, hs⟩
    rw [hS.sim] at e
    injection e with e
    rw [← e] at hi
    obtain ⟨-, rfl⟩ := firstMags_get.1 hi
    exact ⟨i, hs, hm⟩
  have key := detected_mean (E := E) (seen := fun i ω => seen i ω ∧ thr ≤ Q (E i ω)) hk.draw hk.next hg.expo_law hsm hsome ha ha0 haK (hF.sub_const κ)
    (integral_nonneg fun u => sq_nonneg _) h0 hML
  filter_upwards [key, all_pos hg, hdet.larger] with ω hω hpos hlarger
  obtain ⟨k1, k2⟩ := hω
  set v : ℕ → ℝ := (g ω).expo with hv
  have hEv : ∀ i, E i ω = v i := fun i => rfl
  set X : ℕ → ℝ := fun i => Q (v i) with hX
  have htwo : ∀ i j, (a (v i) ≤ v j ↔ d - δ / 2 ≤ X j - X i) ∧ (a (v i) ≤ v j → X j - X i - d = F (v j - a (v i))) := by
    intro i j
    have hw : ∀ l : ℕ, 0 < (fun l : ℕ => if l = 0 then v i else v j) l := by
      intro l
      simp only
      split_ifs
      exacts [hpos i, hpos j]
    have g1 := hS.grows _ hw 0
    have g2 := hS.excess _ hw 0
    simp only [zero_add, if_true, one_ne_zero, if_false] at g1 g2
    exact ⟨g1.symm, g2⟩
  set sn : ℕ → Prop := seenAbove (fun i => seen i ω) X thr with hsn
  -- an event used is recorded
  have hused : ∀ i, ((lastSeen sn v i).1 = 1 ∧ a (lastSeen sn v i).2 ≤ v i) ↔ (sn i ∧ (lastSeen sn X i).1 = 1 ∧ d - δ / 2 ≤ X i - (lastSeen sn X i).2) := by
    intro i
    obtain ⟨m1, m2⟩ := lastSeen_map sn v Q i
    rw [show lastSeen sn X i = lastSeen sn (fun i => Q (v i)) i from rfl, m1]
    rcases lastSeen_cases sn v i with ⟨e, -⟩ | ⟨j, hj, hs, hl, e⟩
    · rw [e]; simp
    · rw [e] at m2 ⊢
      rw [m2 rfl]
      simp only [true_and]
      constructor
      · intro h
        have hf := (htwo j i).2 h
        have hge : X j + d ≤ X i := by linarith [hFn (v i - a (v j))]
        refine ⟨⟨?_, ?_⟩, (htwo j i).1.1 h⟩
        · refine hlarger (i + 1) _ (hS.sim (g ω) (i + 1)) j i (X j) (X i) hj (firstMags_get.2 ⟨by omega, rfl⟩) (firstMags_get.2 ⟨by omega, rfl⟩) hs.1 hs.2 ?_ hge
          intro l m'' h1 h2 h3 h4
          obtain ⟨-, rfl⟩ := firstMags_get.1 h3
          by_contra hc
          exact hl l h1 h2 ⟨h4, not_lt.1 hc⟩
        · have := hs.2
          change thr ≤ X j at this
          change thr ≤ X i
          linarith
      · rintro ⟨-, h⟩
        exact (htwo j i).1.2 h
  -- the sums
  set N : ℕ → ℝ := fun n => ∑ k ∈ Finset.range n, if (lastSeen sn v (k + 1)).1 = 1 ∧ a (lastSeen sn v (k + 1)).2 ≤ v (k + 1) then (1 : ℝ) else 0 with hN
  set T : ℕ → ℝ := fun n => ∑ k ∈ Finset.range n, if (lastSeen sn v (k + 1)).1 = 1 ∧ a (lastSeen sn v (k + 1)).2 ≤ v (k + 1)
    then F (v (k + 1) - a (lastSeen sn v (k + 1)).2) - κ else 0 with hT
  have k1' : Tendsto N atTop atTop := k1
  have k2' : Tendsto (fun n => T n / N n) atTop (𝓝 0) := k2
  set D : ℕ → List (ℝ × ℝ) := fun n => (List.zip (((List.range n).filter fun i => decide (sn i)).map X) (((List.range n).filter fun i => decide (sn i)).map X).tail).filter
      fun p => decide (d - δ / 2 ≤ p.2 - p.1) with hD
  have hsum : ∀ (f : ℝ → ℝ) n, ((D (n + 1)).map fun p => f (p.2 - p.1)).sum =
      ∑ k ∈ Finset.range n, if (lastSeen sn v (k + 1)).1 = 1 ∧ a (lastSeen sn v (k + 1)).2 ≤ v (k + 1) then f (X (k + 1) - (lastSeen sn X (k + 1)).2) else 0 := by
    intro f n
    rw [hD]
    simp only
    rw [pairs_sum sn X (d - δ / 2) f (n + 1), Finset.sum_range_succ']
    rw [if_neg (show ¬ (sn 0 ∧ (lastSeen sn X 0).1 = 1 ∧ d - δ / 2 ≤ X 0 - (lastSeen sn X 0).2) from fun h => zero_ne_one h.2.1), add_zero]
    refine Finset.sum_congr rfl fun k _ => ?_
    exact if_congr (hused (k + 1)).symm rfl rfl
  have hlen : ∀ n, ((D (n + 1)).length : ℝ) = N n := by
    intro n
    rw [hN]
    simp only
    rw [← hsum (fun _ => 1) n]
    simp
  have hexc : ∀ n, ((D (n + 1)).map fun p => p.2 - p.1 - d).sum = T n + κ * N n := by
    intro n
    rw [hsum (fun y => y - d) n, hT, hN]
    simp only
    rw [Finset.mul_sum, ← Finset.sum_add_distrib]
    refine Finset.sum_congr rfl fun k _ => ?_
    by_cases h : (lastSeen sn v (k + 1)).1 = 1 ∧ a (lastSeen sn v (k + 1)).2 ≤ v (k + 1)
    · rw [if_pos h, if_pos h, if_pos h]
      obtain ⟨m1, m2⟩ := lastSeen_map sn v Q (k + 1)
      rcases lastSeen_cases sn v (k + 1) with ⟨e, -⟩ | ⟨j, hj, hs, hl, e⟩
      · rw [e] at h; exact absurd h.1 zero_ne_one
      · have m3 := m2 h.1
        rw [show lastSeen sn X (k + 1) = lastSeen sn (fun i => Q (v i)) (k + 1) from rfl, m3, e]
        rw [e] at h
        have := (htwo j (k + 1)).2 h.2
        simp only
        linarith
    · rw [if_neg h, if_neg h, if_neg h]; simp
  have hratio : Tendsto (fun n => (T n + κ * N n) / N n) atTop (𝓝 κ) := by
    have h := k2'.add_const κ
    rw [zero_add] at h
    refine h.congr' ?_
    filter_upwards [k1'.eventually (eventually_gt_atTop 0)] with n hn
    field_simp
  have hpred : Tendsto (fun n : ℕ => n - 1) atTop atTop := tendsto_sub_atTop_nat 1
  refine ⟨fun n => betaVal ((T (n - 1) + κ * N (n - 1)) / N (n - 1)) δ / Real.log 10, ?_, ((betaVal_tendsto hδ0 hκ0 hratio).comp hpred).div_const _⟩
  filter_upwards [eventually_gt_atTop 0, hpred.eventually (hratio.eventually (lt_mem_nhds hκ0)), hpred.eventually (k1'.eventually (eventually_gt_atTop 0))] with n hn h1 h2
  obtain ⟨m, rfl⟩ : ∃ m, n = m + 1 := ⟨n - 1, by omega⟩
  simp only [Nat.add_sub_cancel] at h1 h2 ⊢
  refine ⟨_, hS.sim (g ω) (m + 1), fun warn s _ => ?_⟩
  have hres := positive_list (recorded (firstMags X (m + 1)) fun i => seen i ω) mc' δ d hd
    (by
      rcases hS.grid with h | ⟨g1, g2⟩
      · exact Or.inl h
      · exact Or.inr ⟨g1, fun y hy => by obtain ⟨i, rfl⟩ := mem_recorded hy; exact g2 v i⟩)
    (((List.range (m + 1)).filter fun i => decide (sn i)).map X) (recorded_filter' X (m + 1) (fun i => seen i ω) thr).symm (D (m + 1)) rfl
    (by
      intro h
      have := hlen m
      rw [h] at this
      simp only [List.length_nil, Nat.cast_zero] at this
      exact h2.ne this)
    (by rw [hexc, hlen]; exact h1) warn s
  rw [hexc, hlen] at hres
  exact hres

/-! ## C111 -/

/-- C111: without binning, the b-positive estimates from the recorded events converge to the b-value of the simulation, however the events are missed, as long as every
event that is at least `dmc` larger than the last recorded one is recorded. -/
theorem C111_positive [IsProbabilityMeasure P] (hg : Spec.RandomDraws P g) (hk : KnownSoFar P g ℱ) (hb : 0 < b) (hd : 0 ≤ d) (hdet : Detection P g ℱ b mc 0 mc' d seen) :
    ConvergesRecorded P g .positive b mc 0 mc' (some d) seen b := by
  have hβ : 0 < b * Real.log 10 := mul_pos hb log_ten_pos
  have hbd := mul_nonneg hβ.le hd
  obtain ⟨m1, m2⟩ := moments_continuous hβ
  have h := detected_scheme (Q := fun e => mc + e / (b * Real.log 10)) (K := b * Real.log 10 * d) hg hk (scheme_continuous mc hb) (by fun_prop) (by fun_prop) (fun e he => by linarith) (fun e _ => le_rfl)
    (by fun_prop) (fun u => div_nonneg (le_max_right _ _) hβ.le) hd (by positivity) m1 m2 hdet
  rwa [show betaVal (1 / (b * Real.log 10)) 0 / Real.log 10 = b by
    unfold betaVal; rw [if_neg (lt_irrefl _)]; exact one_div_mul_log hb] at h

/-- C111: the same with binned magnitudes, `mc` on the grid and `dmc` a positive multiple of the bin width. -/
theorem C111_positive_binned [IsProbabilityMeasure P] (hg : Spec.RandomDraws P g) (hk : KnownSoFar P g ℱ) (z : ℤ) (k : ℕ) (hb : 0 < b) (hδ : 1 / 10 ^ 12 ≤ δ) (hk1 : 1 ≤ k)
    (hdet : Detection P g ℱ b (z * δ) δ mc' (k * δ) seen) : ConvergesRecorded P g .positive b (z * δ) δ mc' (some (k * δ)) seen b := by
  have hp : 0 < δ := lt_of_lt_of_le (by positivity) hδ
  have hS := scheme_binned (b := b) (δ := δ) z k hb hδ
  have hx : 0 < b * Real.log 10 * δ := mul_pos (mul_pos hb log_ten_pos) hp
  have hv : betaVal (δ / (Real.exp (b * Real.log 10 * δ) - 1)) δ / Real.log 10 = b := by
    unfold betaVal
    rw [if_pos hp, div_div_cancel₀ hp.ne', show 1 + (Real.exp (b * Real.log 10 * δ) - 1) = Real.exp (b * Real.log 10 * δ) by ring, Real.log_exp]
    have := hp.ne'; have := log_ten_pos.ne'
    field_simp
  generalize b * Real.log 10 * δ = x at *
  have hex : 0 < Real.exp x - 1 := by
    have : (1 : ℝ) < Real.exp x := Real.one_lt_exp_iff.2 hx
    linarith
  obtain ⟨hm1, hm2⟩ := moments_binned hx hp
  have hQ : Measurable fun e : ℝ => ((z + ⌊e / x + 1 / 10 ^ 12⌋ : ℤ) : ℝ) * δ := by
    have h1 : Measurable fun z : ℤ => (z : ℝ) := measurable_from_top
    have h2 : Measurable fun e : ℝ => ⌊e / x + 1 / 10 ^ 12⌋ := Int.measurable_floor.comp (by fun_prop)
    exact (h1.comp (h2.const_add z)).mul_const δ
  have h := detected_scheme (Q := fun e => ((z + ⌊e / x + 1 / 10 ^ 12⌋ : ℤ) : ℝ) * δ) (K := x * k) hg hk hS hQ (binned_measurable (x := x) (δ := δ) k).1 (fun e he => binned_nonneg hx hk1 he)
    (fun e _ => by
      have h1 : ((⌊e / x + 1 / 10 ^ 12⌋ : ℤ) : ℝ) ≤ e / x + 1 / 10 ^ 12 := Int.floor_le _
      push_cast
      calc x * (((⌊e / x + 1 / 10 ^ 12⌋ : ℤ) : ℝ) + k - 1 / 10 ^ 12) ≤ x * (e / x + k) := mul_le_mul_of_nonneg_left (by linarith) hx.le
        _ = e + x * k := by rw [mul_add, mul_div_cancel₀ _ hx.ne'])
    (binned_measurable (x := x) (δ := δ) k).2 (fun u => mul_nonneg hp.le (le_max_right _ _)) (by positivity) (by positivity) hm1 hm2 hdet
  rwa [hv] at h

/-- C111: the same with the default cutoff, one bin. -/
theorem C111_positive_default [IsProbabilityMeasure P] (hg : Spec.RandomDraws P g) (hk : KnownSoFar P g ℱ) (z : ℤ) (hb : 0 < b) (hδ : 1 / 10 ^ 12 ≤ δ)
    (hdet : Detection P g ℱ b (z * δ) δ mc' δ seen) : ConvergesRecorded P g .positive b (z * δ) δ mc' none seen b := by
  have h := C111_positive_binned (mc' := mc') (seen := seen) hg hk z 1 hb hδ le_rfl (by rwa [Nat.cast_one, one_mul])
  rw [Nat.cast_one, one_mul] at h
  exact h

end
end SeismoStats.Props
