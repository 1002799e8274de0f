/-
Property C112: b-more-positive is consistent although events are missing, as long as the first event that is larger by the cutoff than a recorded one is recorded.
-/
import Verif.Proofs.NextRecorded
import Verif.Props.Coda

namespace SeismoStats.Props
open SeismoStats SeismoStats.Simulate BValue MeasureTheory ProbabilityTheory Filter Topology
open Classical
noncomputable section

variable {Ω : Type} [m0 : MeasurableSpace Ω] {P : Measure Ω} {g : Ω → Rng}

/-! ### Specification -/

/-- For every recorded event at or above `thr`, the first later event that is at least `d` larger is recorded too. -/
def RecordsNext (mags : List ℝ) (thr d : ℝ) (seen : ℕ → Prop) : Prop :=
  ∀ (i j : ℕ) (m m' : ℝ), i < j → mags[i]? = some m → mags[j]? = some m' → seen i → thr ≤ m → m + d ≤ m' →
    (∀ (l : ℕ) (m'' : ℝ), i < l → l < j → mags[l]? = some m'' → m'' < m + d) → seen j

/-- A way of missing events: whether an event is recorded is decided by what is known at that time, a positive share of the events is recorded, and for every recorded event
the first later one that is at least `d` larger is recorded. -/
structure DetectionNext (P : Measure Ω) (g : Ω → Rng) (ℱ : Filtration ℕ m0) (b mc δ mc' d : ℝ) (seen : ℕ → Ω → Prop) : Prop where
  known : ∀ i, MeasurableSet[ℱ i] {ω | seen i ω}
  share : ∀ᵐ ω ∂P, ∃ ρ > (0 : ℝ), ∀ᶠ n in atTop, ∀ mags, simulateBinned n (fun _ => b) mc δ none .bValue (g ω) = .ok mags →
    ρ * n ≤ ((recorded mags fun i => seen i ω).filter fun m => decide (mc' - δ / 2 ≤ m)).length
  next : ∀ᵐ ω ∂P, ∀ n mags, simulateBinned n (fun _ => b) mc δ none .bValue (g ω) = .ok mags → RecordsNext mags (mc' - δ / 2) d fun i => seen i ω

/-! ## C112 -/

variable {b mc δ d mc' : ℝ} {ℱ : Filtration ℕ m0} {seen : ℕ → Ω → Prop}

/-- C112: with binned magnitudes, `mc` on the grid and `dmc` a positive multiple of the bin width, the b-more-positive estimates from the recorded events converge to exactly
the b-value of the simulation, however the events are missed, as long as the first event that is at least `dmc` larger than a recorded one is recorded. -/
theorem C112_more_positive [IsProbabilityMeasure P] (hg : Spec.RandomDraws P g) (hkn : KnownSoFar P g ℱ) (z : ℤ) (k : ℕ) (hb : 0 < b) (hδ : 1 / 10 ^ 12 ≤ δ) (hk : 1 ≤ k)
    (hdet : DetectionNext P g ℱ b (z * δ) δ mc' (k * δ) seen) : ConvergesRecorded P g .morePositive b (z * δ) δ mc' (some (k * δ)) seen b := by
  have hP : IsProbabilityMeasure (expMeasure 1) := isProbabilityMeasure_expMeasure one_pos
  have hp : 0 < δ := lt_of_lt_of_le (by positivity) hδ
  have hS := scheme_binned (b := b) (δ := δ) z k hb hδ
  have hx : 0 < b * Real.log 10 * δ := mul_pos (mul_pos hb log_ten_pos) hp
  have hval : betaVal (δ / (Real.exp (b * Real.log 10 * δ) - 1)) δ / Real.log 10 = b := by
    unfold betaVal
    rw [if_pos hp, div_div_cancel₀ hp.ne', show 1 + (Real.exp (b * Real.log 10 * δ) - 1) = Real.exp (b * Real.log 10 * δ) by ring, Real.log_exp]
    have := hp.ne'; have := log_ten_pos.ne'
    field_simp
  generalize b * Real.log 10 * δ = x at *
  have hex : 0 < Real.exp x - 1 := by
    have : (1 : ℝ) < Real.exp x := Real.one_lt_exp_iff.2 hx
    linarith
  set th : ℝ → ℝ := fun e => x * (((⌊e / x + 1 / 10 ^ 12⌋ + k : ℤ) : ℝ) - 1 / 10 ^ 12) with hth
  set F : ℝ → ℝ := fun u => δ * max ((⌊u / x⌋ : ℤ) : ℝ) 0 with hF
  set Q : ℝ → ℝ := fun e => ((z + ⌊e / x + 1 / 10 ^ 12⌋ : ℤ) : ℝ) * δ with hQ
  set κ : ℝ := δ / (Real.exp x - 1) with hκ
  have hκ0 : 0 < κ := by positivity
  obtain ⟨hm1, hm2⟩ := moments_binned hx hp
  obtain ⟨hthm, hFm⟩ := binned_measurable (x := x) (δ := δ) k
  have hFn : ∀ u, 0 ≤ F u := fun u => mul_nonneg hp.le (le_max_right _ _)
  have hth0 : ∀ e, 0 < e → 0 ≤ th e := fun e he => binned_nonneg hx hk he
  have hQm : Measurable Q := by
    have h1 : Measurable fun z : ℤ => (z : ℝ) := measurable_from_top
    have h2 : Measurable fun e : ℝ => ⌊e / x + 1 / 10 ^ 12⌋ := Int.measurable_floor.comp (by fun_prop)
    exact (h1.comp (h2.const_add z)).mul_const δ
  have hthK : ∀ e, 0 < e → th e ≤ e + x * k := by
    intro e _
    have h1 : ((⌊e / x + 1 / 10 ^ 12⌋ : ℤ) : ℝ) ≤ e / x + 1 / 10 ^ 12 := Int.floor_le _
    rw [hth]
    simp only
    push_cast
    calc x * (((⌊e / x + 1 / 10 ^ 12⌋ : ℤ) : ℝ) + k - 1 / 10 ^ 12) ≤ x * (e / x + k) := mul_le_mul_of_nonneg_left (by linarith) hx.le
      _ = e + x * k := by rw [mul_add, mul_div_cancel₀ _ hx.ne']
  -- moments of the centred excess
  have hFi : Integrable F (expMeasure 1) := by
    refine ⟨hFm.aestronglyMeasurable, ?_⟩
    rw [hasFiniteIntegral_iff_ofReal (Eventually.of_forall hFn), hm1]
    exact ENNReal.ofReal_lt_top
  have hF2 : Integrable (fun u => F u ^ 2) (expMeasure 1) := by
    refine ⟨(hFm.pow_const 2).aestronglyMeasurable, ?_⟩
    rw [hasFiniteIntegral_iff_ofReal (Eventually.of_forall fun u => sq_nonneg _), hm2]
    exact ENNReal.ofReal_lt_top
  have hmean : ∫ u, F u ∂(expMeasure 1) = κ := by
    rw [integral_eq_lintegral_of_nonneg_ae (Eventually.of_forall hFn) hFm.aestronglyMeasurable, hm1, ENNReal.toReal_ofReal hκ0.le]
  have h0 : ∫ u, (F u - κ) ∂(expMeasure 1) = 0 := by
    rw [integral_sub hFi (integrable_const κ), hmean]; simp
  have hD2 : MemLp (fun u => F u - κ) 2 (expMeasure 1) := ((memLp_two_iff_integrable_sq hFm.aestronglyMeasurable).2 hF2).sub (memLp_const κ)
  have hML : ∫⁻ u, ENNReal.ofReal ((F u - κ) ^ 2) ∂(expMeasure 1) = ENNReal.ofReal (∫ u, (F u - κ) ^ 2 ∂(expMeasure 1)) :=
    (ofReal_integral_eq_lintegral_ofReal hD2.integrable_sq (Eventually.of_forall fun u => sq_nonneg _)).symm
  set thr := mc' - δ / 2 with hthr
  -- the selection
  set r : ℕ → Ω → ℝ := fun i ω => if seen i ω ∧ thr ≤ Q ((g ω).expo i) then 1 else 0 with hr
  have hsm : ∀ i, MeasurableSet[ℱ i] {ω | seen i ω ∧ thr ≤ Q ((g ω).expo i)} := fun i =>
    (hdet.known i).inter (measurableSet_le measurable_const (hQm.comp (hkn.draw i)))
  have hrm : ∀ i, Measurable[ℱ i] (r i) := fun i => Measurable.ite (hsm i) measurable_const measurable_const
  have hr01 : ∀ i ω, r i ω = 0 ∨ r i ω = 1 := by
    intro i ω
    rw [hr]
    simp only
    split_ifs
    exacts [Or.inr rfl, Or.inl rfl]
  have hlaw := selSum_mean hg hkn.draw hkn.next hrm hr01 hthm hth0 (K := x * k) (by positivity) hthK (hFm.sub_const κ) (integral_nonneg fun u => sq_nonneg _) hML h0
  have hall := strong_law_next hg hthm hth0 (K := x * k) (by positivity) hthK hFm hFn hκ0.le hm1 hm2
  filter_upwards [hlaw, hall, all_pos hg, hdet.share, hdet.next] with ω hlaw hall hpos hshare hnext
  set v := (g ω).expo with hv
  set X : ℕ → ℝ := fun i => Q (v i) with hX
  have hsim : ∀ n, simulateBinned n (fun _ => b) (z * δ) δ none .bValue (g ω) = .ok (firstMags X n) := hS.sim (g ω)
  set p : ℕ → Prop := seenAbove (fun i => seen i ω) X thr with hpd
  have htwo : ∀ i j, (th (v i) ≤ v j ↔ k * δ - δ / 2 ≤ X j - X i) ∧ (th (v i) ≤ v j → F (v j - th (v i)) = X j - X i - k * δ) := by
    intro i j
    have hw : ∀ l : ℕ, 0 < (fun l : ℕ => if l = 0 then v i else v j) l := by
      intro l
      simp only
      split_ifs
      exacts [hpos i, hpos j]
    have g1 := hS.grows _ hw 0
    have g2 := hS.excess _ hw 0
    simp only [zero_add, if_true, one_ne_zero, if_false] at g1 g2
    exact ⟨g1.symm, fun h => (g2 h).symm⟩
  have hge : ∀ i j, k * δ - δ / 2 ≤ X j - X i ↔ X i + k * δ ≤ X j := by
    intro i j
    constructor
    · intro h
      have h1 := (htwo i j).2 ((htwo i j).1.2 h)
      linarith [hFn (v j - th (v i))]
    · intro h; linarith
  have hkd : 0 ≤ (k : ℝ) * δ := by positivity
  have hclosed : ClosedNext X (k * δ - δ / 2) p := by
    rintro i j ⟨s1, s2⟩ ⟨n1, n2, n3⟩
    have n2' := (hge i j).1 n2
    have s2' : thr ≤ X i := s2
    refine ⟨?_, by change thr ≤ X j; linarith⟩
    refine hnext (j + 1) _ (hsim _) i j (X i) (X j) n1 (firstMags_get.2 ⟨by omega, rfl⟩) (firstMags_get.2 ⟨by omega, rfl⟩) s1 s2 n2' ?_
    intro l m'' l1 l2 e
    obtain ⟨-, rfl⟩ := firstMags_get.1 e
    by_contra hc
    exact absurd ((hge i l).2 (not_lt.1 hc)) (not_le.2 (n3 l l1 l2))
  have hrp : ∀ i, r i ω = if p i then 1 else 0 := fun i => if_congr Iff.rfl rfl rfl
  have hcount : ∀ n, ((Nat.count p n : ℕ) : ℝ) = ∑ i ∈ Finset.range n, r i ω := by
    intro n
    have := sum_nth (p := p) (fun _ => (1 : ℝ)) n
    simp only [Finset.sum_const, Finset.card_range, nsmul_eq_mul, mul_one] at this
    rw [this]
    exact Finset.sum_congr rfl fun i _ => (hrp i).symm
  -- the recorded magnitudes
  have hlist : ∀ n, firstMags (fun q => X (Nat.nth p q)) (Nat.count p n) = (recorded (firstMags X n) fun i => seen i ω).filter fun m => decide (thr ≤ m) := by
    intro n
    rw [recorded_filter', filter_nth, List.map_map]
    rfl
  obtain ⟨ρ, hρ, hsh⟩ := hshare
  have hdense : ∀ᶠ n : ℕ in atTop, ρ * n ≤ ∑ i ∈ Finset.range n, r i ω := by
    filter_upwards [hsh] with n hn
    have h := hn _ (hsim n)
    rw [← hlist, firstMags_length] at h
    rwa [hcount] at h
  have hinf : {i | p i}.Infinite := by
    intro hfin
    -- only finitely many events would be counted
    have hb : ∀ n, Nat.count p n ≤ hfin.toFinset.card := by
      intro n
      rw [Nat.count_eq_card_filter_range]
      refine Finset.card_le_card fun i hi => ?_
      rw [Set.Finite.mem_toFinset]
      exact (Finset.mem_filter.1 hi).2
    have h1 : Tendsto (fun n : ℕ => ρ * (n : ℝ)) atTop atTop := tendsto_natCast_atTop_atTop.const_mul_atTop hρ
    obtain ⟨n, a1, a2⟩ := (hdense.and (h1.eventually (eventually_gt_atTop (hfin.toFinset.card : ℝ)))).exists
    rw [← hcount] at a1
    have : (Nat.count p n : ℝ) ≤ hfin.toFinset.card := by exact_mod_cast hb n
    linarith
  have hsum : ∀ (G : ℝ → ℝ) (f : ℕ → ℕ → ℝ), (∀ i j, th (v i) ≤ v j → G (v j - th (v i)) = f i j) → ∀ n, selSum th G n (fun i => r i ω) v =
      nextPairSum (fun q => X (Nat.nth p q)) (k * δ - δ / 2) (fun i j => f (Nat.nth p i) (Nat.nth p j)) (Nat.count p n) := by
    intro G f hGf n
    rw [nextPairSum_nth hinf hclosed]
    unfold selSum selStep
    refine Finset.sum_congr rfl fun j _ => Finset.sum_congr rfl fun i hi => ?_
    have hij := Finset.mem_range.1 hi
    simp only [hrp]
    by_cases hpi : p i
    swap
    · rw [if_neg hpi, zero_mul, if_neg (fun h => hpi h.1)]
    rw [if_pos hpi, one_mul]
    unfold alive excessOf
    by_cases c1 : th (v i) ≤ v j
    · by_cases c2 : ∀ l, i < l → l < j → v l < th (v i)
      · rw [if_pos c2, one_mul]
        simp only
        rw [if_pos c1, if_pos, hGf i j c1]
        exact ⟨hpi, hij, (htwo i j).1.1 c1, fun l l1 l2 => by
          by_contra hc
          exact absurd ((htwo i l).1.2 (not_lt.1 hc)) (not_le.2 (c2 l l1 l2))⟩
      · rw [if_neg c2, zero_mul, if_neg]
        rintro ⟨-, -, -, h⟩
        apply c2
        intro l l1 l2
        by_contra hc
        exact absurd ((htwo i l).1.1 (not_lt.1 hc)) (not_le.2 (h l l1 l2))
    · simp only
      rw [if_neg c1, mul_zero, if_neg]
      rintro ⟨-, -, h, -⟩
      exact c1 ((htwo i j).1.2 h)
  obtain ⟨q1, q2⟩ := selSum_ratio (a := th) (F := F) (κ := κ) (r := fun i => r i ω) (v := v) (fun i => hr01 i ω) hρ hdense hall.1 hlaw
  refine ⟨fun n => betaVal (selSum th F n (fun i => r i ω) v / selSum th (fun _ => 1) n (fun i => r i ω) v) δ / Real.log 10, ?_, ?_⟩
  · filter_upwards [q1, q2.eventually (lt_mem_nhds hκ0)] with n h1 h2
    refine ⟨_, hsim n, fun warn s _ => ?_⟩
    have e1 := hsum (fun _ => 1) (fun _ _ => 1) (fun _ _ _ => rfl) n
    have e2 := hsum F (fun i j => X j - X i - k * δ) (fun i j h => (htwo i j).2 h) n
    rw [e1] at h1
    rw [e1, e2] at h2 ⊢
    exact morePositive_list (recorded (firstMags X n) fun i => seen i ω) mc' δ (k * δ) hkd hδ
      (fun y hy => by
        obtain ⟨i, rfl⟩ := mem_recorded hy
        exact ⟨_, rfl⟩) (fun q => X (Nat.nth p q)) (Nat.count p n) (hlist n) h1 h2 warn s
  · have h := (betaVal_tendsto hp.le hκ0 q2).div_const (Real.log 10)
    rwa [hval] at h

/-- C112: the same with the default cutoff, one bin. -/
theorem C112_default [IsProbabilityMeasure P] (hg : Spec.RandomDraws P g) (hk : KnownSoFar P g ℱ) (z : ℤ) (hb : 0 < b) (hδ : 1 / 10 ^ 12 ≤ δ)
    (hdet : DetectionNext P g ℱ b (z * δ) δ mc' δ seen) : ConvergesRecorded P g .morePositive b (z * δ) δ mc' none seen b := by
  have h := C112_more_positive (mc' := mc') (seen := seen) hg hk z 1 hb hδ le_rfl (by rwa [Nat.cast_one, one_mul])
  rw [Nat.cast_one, one_mul] at h
  exact h

/-- If every event larger than the last recorded one is recorded, so is the first event that is larger by any number of bins than a recorded one. -/
theorem records_next {X : ℕ → ℝ} {thr : ℝ} (hp : 0 < δ) (k : ℕ) (hk : 1 ≤ k) (hgrid : ∀ i, ∃ y : ℤ, X i = y * δ) (n : ℕ) {sn : ℕ → Prop}
    (h : RecordsLarger (firstMags X n) thr δ sn) : RecordsNext (firstMags X n) thr (k * δ) sn := by
  intro i j m m' hij h1 h2 hs hm hle hbet
  obtain ⟨hi, rfl⟩ := firstMags_get.1 h1
  obtain ⟨hj, rfl⟩ := firstMags_get.1 h2
  -- the last recorded event before `j`
  have hex : ∃ q, ∃ l, j = l + 1 + q ∧ i ≤ l ∧ sn l ∧ thr ≤ X l := ⟨j - 1 - i, i, by omega, le_rfl, hs, hm⟩
  obtain ⟨l, e1, e2, e3, e4⟩ := Nat.find_spec hex
  have hmin := fun q hq => Nat.find_min hex (m := q) hq
  refine h l j (X l) (X j) (by omega) (firstMags_get.2 ⟨by omega, rfl⟩) h2 e3 e4 ?_ ?_
  · intro t m'' t1 t2 t3 t4
    obtain ⟨-, rfl⟩ := firstMags_get.1 t3
    by_contra hc
    exact hmin (j - 1 - t) (by omega) ⟨t, by omega, by omega, t4, not_lt.1 hc⟩
  · have hkd : δ ≤ k * δ := by
      have : (1 : ℝ) ≤ k := by exact_mod_cast hk
      nlinarith
    rcases Nat.eq_or_lt_of_le e2 with rfl | hlt
    · linarith
    · have h3 := hbet l (X l) hlt (by omega) (firstMags_get.2 ⟨by omega, rfl⟩)
      obtain ⟨y, hy⟩ := hgrid l
      obtain ⟨w, hw⟩ := hgrid j
      have h4 : X l < X j := by linarith
      rw [hy, hw] at h4 ⊢
      have h5 : y < w := by
        have := lt_of_mul_lt_mul_right h4 hp.le
        exact_mod_cast this
      have h6 : (y : ℝ) + 1 ≤ w := by exact_mod_cast h5
      nlinarith

/-- C112: the condition of C111 with a cutoff of one bin suffices, with any number of bins as the cutoff of the estimate, if a positive share of the events is recorded. -/
theorem C112_records_larger (z : ℤ) (k : ℕ) (hb : 0 < b) (hδ : 1 / 10 ^ 12 ≤ δ) (hk : 1 ≤ k) (hdet : Detection P g ℱ b (z * δ) δ mc' δ seen)
    (hshare : ∀ᵐ ω ∂P, ∃ ρ > (0 : ℝ), ∀ᶠ n in atTop, ∀ mags, simulateBinned n (fun _ => b) (z * δ) δ none .bValue (g ω) = .ok mags →
      ρ * n ≤ ((recorded mags fun i => seen i ω).filter fun m => decide (mc' - δ / 2 ≤ m)).length) :
    DetectionNext P g ℱ b (z * δ) δ mc' (k * δ) seen := by
  have hp : 0 < δ := lt_of_lt_of_le (by positivity) hδ
  refine ⟨hdet.known, hshare, ?_⟩
  filter_upwards [hdet.larger] with ω h n mags e
  have h1 := h n mags e
  have hsim := simulate_grid (g ω) n z hb hδ
  rw [hsim] at e
  injection e with e
  rw [← e] at h1 ⊢
  exact records_next hp k hk (fun i => ⟨_, rfl⟩) n h1

/-- C112: if every binned event that is not smaller than the one before is recorded (and any others, decided by what is known at their time), the condition holds. -/
theorem C112_not_smaller [IsProbabilityMeasure P] (hg : Spec.RandomDraws P g) (hkn : KnownSoFar P g ℱ) (z : ℤ) (k : ℕ) (hb : 0 < b) (hδ : 1 / 10 ^ 12 ≤ δ) (hk : 1 ≤ k)
    (hknown : ∀ i, MeasurableSet[ℱ i] {ω | seen i ω}) (hsup : ∀ᵐ ω ∂P, ∀ i, NotHidden b (z * δ) δ g i ω → seen i ω) :
    DetectionNext P g ℱ b (z * δ) δ (z * δ) (k * δ) seen := by
  have hp : 0 < δ := lt_of_lt_of_le (by positivity) hδ
  have hx : 0 < b * Real.log 10 * δ := mul_pos (mul_pos hb log_ten_pos) hp
  have hsim : ∀ ω n, simulateBinned n (fun _ => b) (z * δ) δ none .bValue (g ω) = .ok (firstMags (fun i =>
      ((z + ⌊(g ω).expo i / (b * Real.log 10 * δ) + 1 / 10 ^ 12⌋ : ℤ) : ℝ) * δ) n) := fun ω n => simulate_grid (g ω) n z hb hδ
  generalize b * Real.log 10 * δ = x at *
  set Q : ℝ → ℝ := fun e => ((z + ⌊e / x + 1 / 10 ^ 12⌋ : ℤ) : ℝ) * δ with hQ
  have hmono : Monotone Q := by
    intro y w hyw
    rw [hQ]
    simp only
    refine mul_le_mul_of_nonneg_right ?_ hp.le
    have : ⌊y / x + 1 / 10 ^ 12⌋ ≤ ⌊w / x + 1 / 10 ^ 12⌋ := Int.floor_mono (by have := div_le_div_of_nonneg_right hyw hx.le; linarith)
    exact_mod_cast (add_le_add_iff_left z).2 this
  have hlow : ∀ᵐ ω ∂P, ∀ i, z * δ - δ / 2 ≤ Q ((g ω).expo i) := by
    filter_upwards [all_pos hg] with ω hpos
    exact grid_low (g ω) hpos hx hp (by positivity) z
  refine ⟨hknown, ?_, ?_⟩
  · -- half of the draws are not smaller than the one before
    have hset : MeasurableSet {e : ℝ × ℝ | e.1 ≤ e.2} := measurableSet_le measurable_fst measurable_snd
    have hf1 : Measurable fun e : ℝ × ℝ => if e.1 ≤ e.2 then (1 : ℝ) else 0 := Measurable.ite hset measurable_const measurable_const
    have i1 : ∫⁻ e, ENNReal.ofReal (if e.1 ≤ e.2 then (1 : ℝ) else 0) ∂((expMeasure 1).prod (expMeasure 1)) = ENNReal.ofReal (1 / 2) := by
      have hP : IsProbabilityMeasure (expMeasure 1) := isProbabilityMeasure_expMeasure one_pos
      rw [lintegral_prod _ hf1.ennreal_ofReal.aemeasurable, ← half_mean]
      refine lintegral_congr_ae ?_
      filter_upwards [exp_ae_pos] with e he using tail_lintegral he.le
    have s1 := strong_law_pairs hg _ hf1 (fun e => by split_ifs <;> norm_num) _ (by norm_num) i1
    filter_upwards [s1, hlow, hsup] with ω s1 hlow hsup
    refine ⟨1 / 4, by norm_num, ?_⟩
    have hpred : Tendsto (fun n : ℕ => n - 1) atTop atTop := tendsto_sub_atTop_nat 1
    filter_upwards [hpred.eventually (s1.eventually (lt_mem_nhds (show (1 : ℝ) / 3 < 1 / 2 by norm_num))), eventually_ge_atTop 4] with n h1 hn mags e
    obtain ⟨m, rfl⟩ : ∃ m, n = m + 1 := ⟨n - 1, by omega⟩
    simp only [Nat.add_sub_cancel] at h1
    have hm : (3 : ℝ) ≤ m := by exact_mod_cast (by omega : 3 ≤ m)
    rw [lt_div_iff₀ (by linarith)] at h1
    rw [hsim] at e
    injection e with e
    rw [← e, recorded_filter', List.length_map]
    set sn := seenAbove (fun i => seen i ω) (fun i => Q ((g ω).expo i)) (z * δ - δ / 2) with hsn
    have hl : ((((List.range (m + 1)).filter fun i => decide (sn i)).length : ℕ) : ℝ) = ∑ i ∈ Finset.range (m + 1), if sn i then (1 : ℝ) else 0 := by
      rw [← sum_filter_range (m + 1) sn fun _ => 1]
      simp
    rw [hl, Finset.sum_range_succ']
    have h2 : (∑ i ∈ Finset.range m, if (g ω).expo i ≤ (g ω).expo (i + 1) then (1 : ℝ) else 0) ≤ ∑ i ∈ Finset.range m, if sn (i + 1) then (1 : ℝ) else 0 := by
      refine Finset.sum_le_sum fun i _ => ?_
      by_cases hc : (g ω).expo i ≤ (g ω).expo (i + 1)
      · rw [if_pos hc, if_pos]
        refine ⟨hsup _ ((notHidden_iff (hsim ω) (i + 1)).2 fun j hj => ?_), hlow _⟩
        obtain rfl : i = j := by omega
        exact hmono hc
      · rw [if_neg hc]; split_ifs <;> norm_num
    have h3 : (0 : ℝ) ≤ if sn 0 then 1 else 0 := by split_ifs <;> norm_num
    push_cast
    linarith
  · filter_upwards [hsup] with ω hsup n mags e i j m m' hij h1 h2 _ _ hle hbet
    rw [hsim] at e
    injection e with e
    rw [← e] at h1 h2 hbet
    refine hsup j ((notHidden_iff (hsim ω) j).2 fun l hl => ?_)
    subst hl
    obtain ⟨hj, rfl⟩ := firstMags_get.1 h2
    obtain ⟨-, rfl⟩ := firstMags_get.1 h1
    have hkd : 0 ≤ (k : ℝ) * δ := by positivity
    rcases Nat.eq_or_lt_of_le (Nat.lt_succ_iff.1 hij) with rfl | hlt
    · linarith
    · have := hbet l _ hlt (Nat.lt_succ_self l) (firstMags_get.2 ⟨by omega, rfl⟩)
      linarith

/-- Whether an event is smaller than the one before is known at its time. -/
theorem notHidden_known (hkn : KnownSoFar P g ℱ) (z : ℤ) (hb : 0 < b) (hδ : 1 / 10 ^ 12 ≤ δ) (i : ℕ) : MeasurableSet[ℱ i] {ω | NotHidden b (z * δ) δ g i ω} := by
  have hsim : ∀ ω n, simulateBinned n (fun _ => b) (z * δ) δ none .bValue (g ω) = .ok (firstMags (fun i =>
      ((z + ⌊(g ω).expo i / (b * Real.log 10 * δ) + 1 / 10 ^ 12⌋ : ℤ) : ℝ) * δ) n) := fun ω n => simulate_grid (g ω) n z hb hδ
  generalize b * Real.log 10 * δ = x at *
  set Q : ℝ → ℝ := fun e => ((z + ⌊e / x + 1 / 10 ^ 12⌋ : ℤ) : ℝ) * δ with hQ
  have hQm : Measurable Q := by
    have h1 : Measurable fun z : ℤ => (z : ℝ) := measurable_from_top
    have h2 : Measurable fun e : ℝ => ⌊e / x + 1 / 10 ^ 12⌋ := Int.measurable_floor.comp (by fun_prop)
    exact (h1.comp (h2.const_add z)).mul_const δ
  simp only [notHidden_iff (hsim _)]
  rcases i with - | i
  · have : {ω | ∀ j, 0 = j + 1 → Q ((g ω).expo j) ≤ Q ((g ω).expo 0)} = Set.univ := by ext ω; simp
    rw [this]
    exact @MeasurableSet.univ _ (ℱ 0)
  · have : {ω | ∀ j, i + 1 = j + 1 → Q ((g ω).expo j) ≤ Q ((g ω).expo (i + 1))} = {ω | Q ((g ω).expo i) ≤ Q ((g ω).expo (i + 1))} := by
      ext ω
      change (∀ j, i + 1 = j + 1 → Q ((g ω).expo j) ≤ Q ((g ω).expo (i + 1))) ↔ Q ((g ω).expo i) ≤ Q ((g ω).expo (i + 1))
      constructor
      · intro h; exact h i rfl
      · intro h j hj
        obtain rfl : i = j := by omega
        exact h
    rw [this]
    exact measurableSet_le (hQm.comp ((hkn.draw i).mono (ℱ.mono (Nat.le_succ i)) le_rfl)) (hQm.comp (hkn.draw (i + 1)))

/-- C112: if all binned events smaller than the one before are missing, the b-more-positive estimates converge to the b-value of the simulation. -/
theorem C112_hidden [IsProbabilityMeasure P] (hg : Spec.RandomDraws P g) (z : ℤ) (k : ℕ) (hb : 0 < b) (hδ : 1 / 10 ^ 12 ≤ δ) (hk : 1 ≤ k) :
    ConvergesRecorded P g .morePositive b (z * δ) δ (z * δ) (some (k * δ)) (NotHidden b (z * δ) δ g) b := by
  obtain ⟨ℱ, hkn⟩ := known_exists hg
  exact C112_more_positive hg hkn z k hb hδ hk (C112_not_smaller hg hkn z k hb hδ hk (notHidden_known hkn z hb hδ) (Eventually.of_forall fun _ _ h => h))

/-- A case: bins of 0.1 above 2.0 with `b = 1`, all events smaller than the one before are missing. -/
example : ∃ (Ω : Type) (_ : MeasurableSpace Ω) (P : Measure Ω) (g : Ω → Rng), Spec.RandomDraws P g ∧
    ConvergesRecorded P g .morePositive 1 ((20 : ℤ) * (1 / 10)) (1 / 10) ((20 : ℤ) * (1 / 10)) (some ((1 : ℕ) * (1 / 10))) (NotHidden 1 ((20 : ℤ) * (1 / 10)) (1 / 10) g) 1 := by
  obtain ⟨Ω, mΩ, P, hP, g, hg⟩ := randomDraws_exist
  exact ⟨Ω, mΩ, P, g, hg, C112_hidden hg 20 1 one_pos (by norm_num) le_rfl⟩

end
end SeismoStats.Props
