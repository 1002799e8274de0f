/-
Property C120: the limit law and the level of the b-value significance test on simulated magnitudes with one b-value.
-/
import Verif.Proofs.MacLimit
import Mathlib.Probability.CDF

namespace SeismoStats.Props
open SeismoStats SeismoStats.Simulate BValue MeasureTheory ProbabilityTheory Filter Topology SeismoStats.Blocks
open SeismoStats.BSignificant (Kw bSignificant)
open scoped BigOperators NNReal
open Classical
noncomputable section

variable {Ω : Type} [MeasurableSpace Ω] {P : Measure Ω} {g : Ω → Rng}

/-- The deviation that the function uses. -/
def devUsed (n N : ℕ) (conservative : Bool) : ℝ := devN n N * if conservative then 1 else 81 / 100

theorem significant_sim [IsProbabilityMeasure P] (hg : Spec.RandomDraws P g) {c : Cls} (hc : c = .classic ∨ c = .utsu) (warn conservative : Bool) {kw : Kw} (hkw : Accepts (.b c) kw) (hkww : kw.weights = none)
    {b : ℝ} (hb : 0 < b) (mc : ℝ) (times : ℕ → List ℝ) (ht : ∀ N, (times N).length = N) {nm minNum : ℕ} (hn : 3 ≤ nm) (hmin : minNum ≤ nm) :
    ∀ᵐ ω ∂P, ∀ Φ : ℝ → ℝ, ∀ N, 4 * nm ≤ N → ∃ mags mac, simulateBinned N (fun _ => b) mc 0 none .bValue (g ω) = .ok mags ∧
      bSignificant Φ warn (sigArgs c mags (times N) mc nm minNum conservative kw) =
        .ok ⟨.fin (1 - Φ ((mac - -1 / meanN nm N) / devUsed nm N conservative)), .fin mac, .fin (-1 / meanN nm N), .fin (devUsed nm N conservative)⟩ ∧
      (mac - -1 / meanN nm N) / devN nm N = macZ (winC P g b : (Fin nm → ℝ) → ℝ) (fun i ω => (g ω).expo i) N ω := by
  have hn0 : 0 < nm := by omega
  have hne : ∀ᵐ ω ∂P, ∀ off, windowB (simMag g b mc ω) mc nm off 0 ≠ windowB (simMag g b mc ω) mc nm off 1 := ae_all_iff.2 fun off => offset_ne hg hb mc hn0 off
  filter_upwards [hne, all_pos hg] with ω h hpos
  intro Φ N hN
  have hβ : 0 < b * Real.log 10 := mul_pos hb log_ten_pos
  have hK3 : ∀ off < nm, 3 ≤ (N - off) / nm := by
    intro off ho
    rw [Nat.le_div_iff_mul_le hn0]; omega
  have hp := significant_full hc Φ warn conservative ((fits_iff _ _).2 hkw) hkww (simMag g b mc ω) (times N) mc (minNum := minNum)
    (fun i => by have := div_pos (hpos i) hβ; unfold simMag; linarith) (by omega : 2 ≤ nm) hmin hN (ht N)
    (fun off ho => ⟨0, by have := hK3 off ho; omega, 1, by have := hK3 off ho; omega, h off⟩)
  refine ⟨_, _, simulate_continuous (g ω) N hb, hp, ?_⟩
  unfold macZ
  congr 3
  refine Finset.sum_congr rfl fun off _ => ?_
  have e : windowB (simMag g b mc ω) mc nm off = fun k => offY (winC P g b : (Fin nm → ℝ) → ℝ) (fun i ω => (g ω).expo i) off ω k + winMean P g b nm := by
    funext k
    exact windowB_win hb ω hn0 off k
  rw [e, seriesI_shift]

/-- C120: on magnitudes simulated with one b-value (not binned, any reference times), with windows of at least three magnitudes, the significance test of the classic or the Utsu estimator
almost surely returns numbers for every catalogue of at least four windows, and its standardised mean autocorrelation, whose normal tail the p-value is, converges in law
to a centred normal law; the variance of that law is at most one, or at most `(100/81)²` if the deviation is not the conservative one. -/
theorem C120_normal [IsProbabilityMeasure P] (hg : Spec.RandomDraws P g) {c : Cls} (hc : c = .classic ∨ c = .utsu) (warn conservative : Bool) {kw : Kw} (hkw : Accepts (.b c) kw) (hkww : kw.weights = none)
    {b : ℝ} (hb : 0 < b) (mc : ℝ) (times : ℕ → List ℝ) (ht : ∀ N, (times N).length = N) {nm minNum : ℕ} (hn : 3 ≤ nm) (hmin : minNum ≤ nm) :
    ∃ (Z : ℕ → Ω → ℝ) (γ : ℝ≥0), (∀ᵐ ω ∂P, ∀ Φ : ℝ → ℝ, ∀ N, 4 * nm ≤ N → ∃ mags mac mu std, simulateBinned N (fun _ => b) mc 0 none .bValue (g ω) = .ok mags ∧
        bSignificant Φ warn (sigArgs c mags (times N) mc nm minNum conservative kw) = .ok ⟨.fin (1 - Φ (Z N ω)), .fin mac, .fin mu, .fin std⟩ ∧ Z N ω = (mac - mu) / std) ∧
      TendstoInDistribution Z atTop (id : ℝ → ℝ) (fun _ => P) (gaussianReal 0 γ) ∧ (γ : ℝ) ≤ if conservative then 1 else (100 / 81) ^ 2 := by
  have hn0 : 0 < nm := by omega
  set d : ℝ := if conservative then 1 else 81 / 100 with hd
  have hd0 : 0 < d := by rw [hd]; split_ifs <;> norm_num
  obtain ⟨γ, hγ, hclt⟩ := macZ_clt (E := fun i ω => (g ω).expo i) hg.expo_measurable hg.expo_indep hg.expo_law (winC_measurable (P := P) (g := g) b nm) (winC_mean hg hn b)
    (winC_memLp hg hn b) hn0 (winVar_pos hg hn hb)
  have h3 := hclt.continuous_comp (g := fun x : ℝ => x / d) (by fun_prop)
  refine ⟨fun N => (fun x : ℝ => x / d) ∘ macZ (winC P g b : (Fin nm → ℝ) → ℝ) (fun i ω => (g ω).expo i) N, γ / .mk (d ^ 2) (sq_nonneg _), ?_, ?_, ?_⟩
  · filter_upwards [significant_sim hg hc warn conservative hkw hkww hb mc times ht hn hmin] with ω h
    intro Φ N hN
    obtain ⟨mags, mac, h1, h2, h4⟩ := h Φ N hN
    have e : (mac - -1 / meanN nm N) / devUsed nm N conservative = ((fun x : ℝ => x / d) ∘ macZ (winC P g b : (Fin nm → ℝ) → ℝ) (fun i ω => (g ω).expo i) N) ω := by
      simp only [Function.comp]
      rw [← h4, div_div]
      rfl
    rw [e] at h2
    exact ⟨mags, mac, _, _, h1, h2, e.symm⟩
  · refine ⟨h3.forall_aemeasurable, aemeasurable_id, ?_⟩
    have h5 := h3.tendsto
    have e : (gaussianReal 0 γ).map ((fun x : ℝ => x / d) ∘ id) = (gaussianReal 0 (γ / .mk (d ^ 2) (sq_nonneg _))).map id := by
      rw [Function.comp_id, gaussianReal_map_div_const, zero_div, Measure.map_id]
    simp only [e] at h5
    exact h5
  · rw [NNReal.coe_div, NNReal.coe_mk]
    have hγ' : (γ : ℝ) ≤ 1 := by exact_mod_cast hγ
    rw [div_le_iff₀ (by positivity)]
    have : (if conservative then (1 : ℝ) else (100 / 81) ^ 2) * d ^ 2 = 1 := by
      rw [hd]; split_ifs <;> norm_num
    rw [this]
    exact hγ'

/-! ### the level -/

/-- The standard normal distribution function. -/
def stdNormal (z : ℝ) : ℝ := cdf (gaussianReal 0 1) z

theorem stdNormal_eq (z : ℝ) : stdNormal z = (gaussianReal 0 1).real (Set.Iic z) := cdf_eq_real _ _

theorem stdNormal_zero : stdNormal 0 ≤ 1 / 2 := by
  rw [stdNormal_eq]
  have h1 : (gaussianReal 0 1).real (Set.Iic 0) = (gaussianReal 0 1).real (Set.Ici 0) := by
    have h := gaussianReal_map_neg (μ := 0) (v := 1)
    rw [neg_zero] at h
    nth_rewrite 1 [← h]
    rw [map_measureReal_apply measurable_neg measurableSet_Iic]
    congr 1
    ext x
    simp
  have := noAtoms_gaussianReal (μ := 0) (v := 1) one_ne_zero
  have h2 : (gaussianReal 0 1).real (Set.Iio 0) + (gaussianReal 0 1).real (Set.Ici 0) = 1 := by
    rw [← Set.compl_Iio, probReal_compl_eq_one_sub measurableSet_Iio]
    ring
  have h3 : (gaussianReal 0 1).real (Set.Iio 0) = (gaussianReal 0 1).real (Set.Iic 0) := by
    rw [measureReal_def, measureReal_def, Iio_ae_eq_Iic.measure_eq]
  linarith

/-- The standardised values that are significant at the level `α`. -/
def critical (α : ℝ) : Set ℝ := {z | 1 - stdNormal z ≤ α}

theorem critical_eq {α : ℝ} (hα : α < 1 / 2) : critical α = ∅ ∨ ∃ z₀, 0 < z₀ ∧ critical α = Set.Ici z₀ ∧ (gaussianReal 0 1).real (Set.Ici z₀) ≤ α := by
  have mono : Monotone stdNormal := monotone_cdf _
  have hup : ∀ z ∈ critical α, 0 < z := by
    intro z hz
    by_contra hc
    have h1 := mono (not_lt.1 hc)
    have h2 : 1 - stdNormal z ≤ α := hz
    have := stdNormal_zero
    linarith
  rcases Set.eq_empty_or_nonempty (critical α) with h | hne
  · exact Or.inl h
  have hbdd : BddBelow (critical α) := ⟨0, fun z hz => (hup z hz).le⟩
  have hmem : sInf (critical α) ∈ critical α := by
    have hr := (cdf (gaussianReal 0 1)).right_continuous (sInf (critical α))
    have hseq : ∀ z > sInf (critical α), 1 - α ≤ stdNormal z := by
      intro z hz
      obtain ⟨y, hy, hyz⟩ := exists_lt_of_csInf_lt hne hz
      have h1 : 1 - stdNormal y ≤ α := hy
      have := mono hyz.le
      linarith
    have hc : ContinuousWithinAt stdNormal (Set.Ioi (sInf (critical α))) (sInf (critical α)) := hr.mono Set.Ioi_subset_Ici_self
    have := ge_of_tendsto hc (eventually_mem_nhdsWithin.mono fun z hz => hseq z hz)
    change 1 - stdNormal _ ≤ α
    linarith
  refine Or.inr ⟨sInf (critical α), hup _ hmem, ?_, ?_⟩
  · ext z
    constructor
    · exact fun hz => csInf_le hbdd hz
    · intro hz
      have h1 : 1 - stdNormal (sInf (critical α)) ≤ α := hmem
      have := mono (show sInf (critical α) ≤ z from hz)
      change 1 - stdNormal z ≤ α
      linarith
  · have h1 : 1 - stdNormal (sInf (critical α)) ≤ α := hmem
    have := noAtoms_gaussianReal (μ := 0) (v := 1) one_ne_zero
    rw [← Set.compl_Iio, probReal_compl_eq_one_sub measurableSet_Iio]
    rw [stdNormal_eq] at h1
    have h3 : (gaussianReal 0 1).real (Set.Iio (sInf (critical α))) = (gaussianReal 0 1).real (Set.Iic (sInf (critical α))) := by
      rw [measureReal_def, measureReal_def, Iio_ae_eq_Iic.measure_eq]
    rw [h3]
    exact h1

theorem critical_small {α : ℝ} (h0 : 0 ≤ α) (hα : α < 1 / 2) {γ : ℝ≥0} (hγ : γ ≤ 1) : IsClosed (critical α) ∧ (gaussianReal 0 γ).real (critical α) ≤ α := by
  rcases critical_eq hα with h | ⟨z₀, hz, h, hle⟩
  · rw [h]; exact ⟨isClosed_empty, by simpa using h0⟩
  rw [h]
  refine ⟨isClosed_Ici, ?_⟩
  have hγ1 : Real.sqrt γ ≤ 1 := Real.sqrt_le_iff.2 ⟨zero_le_one, by rw [one_pow]; exact_mod_cast hγ⟩
  have e : gaussianReal 0 γ = (gaussianReal 0 1).map (Real.sqrt γ * ·) := by
    rw [gaussianReal_map_const_mul, mul_zero, mul_one]
    congr 1
    ext
    exact (Real.sq_sqrt γ.2).symm
  rw [e, map_measureReal_apply (measurable_const_mul _) measurableSet_Ici]
  refine (measureReal_mono ?_).trans hle
  intro x hx
  have hx' : z₀ ≤ Real.sqrt γ * x := hx
  have hx0 : 0 < x := by
    by_contra hc
    have := mul_nonpos_of_nonneg_of_nonpos (Real.sqrt_nonneg γ) (not_lt.1 hc)
    linarith
  have : Real.sqrt γ * x ≤ 1 * x := mul_le_mul_of_nonneg_right hγ1 hx0.le
  rw [Set.mem_Ici]
  linarith

/-- The catalogue of `N` simulated magnitudes is found to vary significantly at the level `α`. -/
def FoundSignificant (g : Ω → Rng) (c : Cls) (warn : Bool) (kw : Kw) (b mc : ℝ) (times : List ℝ) (nm minNum : ℕ) (α : ℝ) (N : ℕ) (ω : Ω) : Prop :=
  ∃ mags p mac mu std, simulateBinned N (fun _ => b) mc 0 none .bValue (g ω) = .ok mags ∧
    bSignificant stdNormal warn (sigArgs c mags times mc nm minNum true kw) = .ok ⟨.fin p, mac, mu, std⟩ ∧ p ≤ α

/-- C120: the test with the conservative deviation keeps its level in the limit: for every `α < 1/2`, the probability that magnitudes with one b-value are found to vary
significantly is eventually below `α + ε`, for every `ε > 0`. -/
theorem C120_level [IsProbabilityMeasure P] (hg : Spec.RandomDraws P g) {c : Cls} (hc : c = .classic ∨ c = .utsu) (warn : Bool) {kw : Kw} (hkw : Accepts (.b c) kw) (hkww : kw.weights = none)
    {b : ℝ} (hb : 0 < b) (mc : ℝ) (times : ℕ → List ℝ) (ht : ∀ N, (times N).length = N) {nm minNum : ℕ} (hn : 3 ≤ nm) (hmin : minNum ≤ nm)
    {α : ℝ} (h0 : 0 ≤ α) (hα : α < 1 / 2) {ε : ℝ} (hε : 0 < ε) :
    ∀ᶠ N in atTop, P.real {ω | FoundSignificant g c warn kw b mc (times N) nm minNum α N ω} < α + ε := by
  obtain ⟨Z, γ, hZ, hclt, hγ⟩ := C120_normal hg hc warn true hkw hkww hb mc times ht hn hmin
  simp only [if_true] at hγ
  obtain ⟨hcl, hle⟩ := critical_small h0 hα (γ := γ) (by exact_mod_cast hγ)
  have hlim := ProbabilityMeasure.limsup_measure_closed_le_of_tendsto hclt.tendsto hcl
  simp only [ProbabilityMeasure.coe_mk, Measure.map_id] at hlim
  have hlt : (gaussianReal 0 γ) (critical α) < ENNReal.ofReal (α + ε) := by
    rw [← ofReal_measureReal, ENNReal.ofReal_lt_ofReal_iff (by linarith)]
    linarith
  have hev := eventually_lt_of_limsup_lt (hlim.trans_lt hlt)
  filter_upwards [hev, eventually_ge_atTop (4 * nm)] with N h1 h2
  have hsub : P.real {ω | FoundSignificant g c warn kw b mc (times N) nm minNum α N ω} ≤ P.real (Z N ⁻¹' critical α) := by
    refine ENNReal.toReal_mono (measure_ne_top _ _) (measure_mono_ae ?_)
    filter_upwards [hZ] with ω hω
    rintro ⟨mags, p, mac, mu, std, e1, e2, hp⟩
    obtain ⟨mags', mac', mu', std', f1, f2, -⟩ := hω stdNormal N h2
    rw [e1] at f1
    injection f1 with f1
    subst f1
    rw [e2] at f2
    injection f2 with f2
    injection f2 with f2
    injection f2 with f2
    change 1 - stdNormal (Z N ω) ≤ α
    rw [← f2]
    exact hp
  refine hsub.trans_lt ?_
  rw [Measure.map_apply_of_aemeasurable (hclt.forall_aemeasurable N) hcl.measurableSet] at h1
  rw [measureReal_def]
  exact (ENNReal.lt_ofReal_iff_toReal_lt (measure_ne_top _ _)).1 h1

example [IsProbabilityMeasure P] (hg : Spec.RandomDraws P g) : ∀ᶠ N in atTop, P.real {ω | FoundSignificant g .utsu true {} 1 2 (List.replicate N 0) 20 10 (1 / 20) N ω} < 1 / 20 + 1 / 1000 :=
  C120_level hg (Or.inr rfl) true (kw := {}) ⟨rfl, rfl, rfl⟩ rfl one_pos 2 (fun N => List.replicate N 0) (fun N => List.length_replicate) (by norm_num) (by norm_num) (by norm_num) (by norm_num)
    (by norm_num)

/-- The level is not kept for an empty reason: the standardised values that are significant at five percent exist. -/
example : (critical (1 / 20)).Nonempty := by
  have h : Tendsto stdNormal atTop (𝓝 1) := tendsto_cdf_atTop _
  obtain ⟨z, hz⟩ := (h.eventually_const_lt (show (19 / 20 : ℝ) < 1 by norm_num)).exists
  refine ⟨z, ?_⟩
  change 1 - stdNormal z ≤ 1 / 20
  linarith

end
end SeismoStats.Props
