/-
Property C121: the b-value significance test finds a change of the b-value.
-/
import Verif.Proofs.StepLaw
import Verif.Props.MacLevel

namespace SeismoStats.Props
open SeismoStats SeismoStats.Simulate BValue MeasureTheory ProbabilityTheory Filter Topology SeismoStats.Blocks
open SeismoStats.BSignificant (Kw bSignificant)
open scoped BigOperators NNReal
open Classical
noncomputable section

variable {Ω : Type} [MeasurableSpace Ω] {P : Measure Ω} {g : Ω → Rng}

/-- The limit of the mean autocorrelation for windows of `n` magnitudes when a share `lam` of the events has the b-value `b1` and the rest the b-value `b2`: the variance of the
b-value along the catalogue, over that variance plus the variance of the estimates of the windows. -/
def varianceShare (lam b1 b2 : ℝ) (n : ℕ) : ℝ := lam * (1 - lam) * (b1 - b2) ^ 2 / (lam * (1 - lam) * (b1 - b2) ^ 2 + (lam * b1 ^ 2 + (1 - lam) * b2 ^ 2) / (n - 2))

theorem varianceShare_pos {lam b1 b2 : ℝ} (h0 : 0 < lam) (h1 : lam < 1) (hb : b1 ≠ b2) {n : ℕ} (hn : 3 ≤ n) : 0 < varianceShare lam b1 b2 n := by
  have hn3 : (3 : ℝ) ≤ n := by exact_mod_cast hn
  have h1' : 0 < 1 - lam := by linarith
  have h3 : 0 < (n : ℝ) - 2 := by linarith
  have hA : 0 < lam * (1 - lam) * (b1 - b2) ^ 2 := by
    have := sub_ne_zero.2 hb
    positivity
  unfold varianceShare
  positivity

theorem share_eq {lam b1 b2 : ℝ} {n : ℕ} (hn : 3 ≤ n) : stepLimit lam b1 b2 (1 * n / (n - 1)) ((1 * n / (n - 1)) ^ 2 / (n - 2)) = varianceShare lam b1 b2 n := by
  have hn3 : (3 : ℝ) ≤ n := by exact_mod_cast hn
  have hm : ((1 * n / (n - 1) : ℝ)) ^ 2 ≠ 0 := by
    have : (0 : ℝ) < n - 1 := by linarith
    have : (0 : ℝ) < n := by linarith
    positivity
  unfold stepLimit varianceShare
  generalize (1 * n / (n - 1) : ℝ) ^ 2 = q at *
  rw [← mul_div_mul_right (lam * (1 - lam) * (b1 - b2) ^ 2) _ hm]
  congr 1
  ring

/-- The autocorrelation of every offset converges. -/
theorem offset_step [IsProbabilityMeasure P] (hg : Spec.RandomDraws P g) {b1 b2 lam : ℝ} (h1 : 0 < b1) (h2 : 0 < b2) (hl0 : 0 < lam) (hl1 : lam < 1) (mc : ℝ) {κ : ℕ → ℕ}
    (hκ : Tendsto (fun N : ℕ => (κ N : ℝ) / N) atTop (𝓝 lam)) {n : ℕ} (hn : 3 ≤ n) (off : ℕ) :
    ∀ᵐ ω ∂P, Tendsto (fun N : ℕ => seriesI (windowB (stepMag g (κ N) b1 b2 mc ω) mc n off) ((N - off) / n)) atTop (𝓝 (varianceShare lam b1 b2 n)) := by
  have hn0 : 0 < n := by omega
  have hnR : (0 : ℝ) < n := by exact_mod_cast hn0
  have hn3 : (3 : ℝ) ≤ n := by exact_mod_cast hn
  have hw1 := winB_mean hg one_pos (show 2 ≤ n by omega) 0
  have hw2 := winB_second hg (b := 1) hn 0
  have hm2 := invSum_memLp hg hn 1
  have a1 := avg_win (E := fun i ω => (g ω).expo i) hg.expo_measurable hg.expo_indep hg.expo_law (winB_measurable 1 n) hw1.1 off
  have a2 := avg_win (E := fun i ω => (g ω).expo i) hg.expo_measurable hg.expo_indep hg.expo_law ((winB_measurable 1 n).pow_const 2) hm2.integrable_sq off
  have a3 := avg_prod (E := fun i ω => (g ω).expo i) hg.expo_measurable hg.expo_indep hg.expo_law (winB_measurable 1 n) hw1.1 off
  have e2 : ∫ ω, win (fun z : Fin n → ℝ => winB 1 z ^ 2) (fun i => (g ω).expo i) 0 ∂P = (1 * n / (n - 1) : ℝ) ^ 2 / (n - 2) + (1 * n / (n - 1)) ^ 2 := by
    refine hw2.trans ?_
    have : (n : ℝ) - 1 ≠ 0 := by intro h; linarith
    have : (n : ℝ) - 2 ≠ 0 := by intro h; linarith
    field_simp
    ring
  rw [hw1.2] at a1 a3
  rw [e2] at a2
  have κtop : Tendsto κ atTop atTop := by
    have h := hκ.pos_mul_atTop hl0 tendsto_natCast_atTop_atTop
    rw [← tendsto_natCast_atTop_iff (R := ℝ)]
    refine h.congr' ?_
    filter_upwards [eventually_gt_atTop 0] with N hN
    have : (N : ℝ) ≠ 0 := by exact_mod_cast hN.ne'
    rw [div_mul_cancel₀ _ this]
  have hratio : Tendsto (fun N => (((κ N - off) / n : ℕ) : ℝ) / ((N - off) / n : ℕ)) atTop (𝓝 lam) := by
    have h := (((count_ratio hn0 off).comp κtop).mul hκ).div (count_ratio hn0 off) (by positivity)
    have e : 1 / (n : ℝ) * lam / (1 / n) = lam := by field_simp
    rw [e] at h
    refine h.congr' ?_
    filter_upwards [eventually_gt_atTop 0, κtop.eventually_gt_atTop 0] with N hN hκN
    have p1 : (N : ℝ) ≠ 0 := by exact_mod_cast hN.ne'
    have p2 : (κ N : ℝ) ≠ 0 := by exact_mod_cast hκN.ne'
    simp only [Function.comp, Pi.div_apply]
    rw [div_mul_div_cancel₀ p2, div_div_div_cancel_right₀ p1]
  have hle : ∀ᶠ N in atTop, (κ N - off) / n ≤ (N - off) / n := by
    filter_upwards [hκ.eventually_lt_const hl1, eventually_gt_atTop 0] with N h3 h4
    have p1 : (0 : ℝ) < N := by exact_mod_cast h4
    rw [div_lt_one p1] at h3
    have : κ N < N := by exact_mod_cast h3
    exact Nat.div_le_div_right (by omega)
  filter_upwards [a1, a2, a3, all_pos hg] with ω s1 s2 s3 hpos
  rw [← share_eq hn]
  exact seriesI_step (w := unitW g n off ω) (fun k => by
      have := draws_sum_pos (g := g) hpos hn0 (off + k * n)
      unfold unitW win winB
      positivity) s1 s2 s3 (by
      have : (0 : ℝ) < n - 1 := by linarith
      positivity) (by
      have : (0 : ℝ) < n - 1 := by linarith
      have : (0 : ℝ) < n - 2 := by linarith
      positivity) hl0 hl1 h1 h2 (count_atTop hn0 off) ((count_atTop hn0 off).comp κtop) hratio hle (fun N k => step_bound h1 h2 hpos hn0 off k)
    (fun N k hk => step_before h1 ω hn0 hk) (fun N k hk => step_after h2 ω hn0 hk)

theorem devN_limit {n : ℕ} (hn : 0 < n) : Tendsto (devN n) atTop (𝓝[>] 0) := by
  rw [tendsto_nhdsWithin_iff]
  constructor
  · have h1 := (Real.tendsto_sqrt_atTop.comp (tendsto_atTop_add_const_right _ (-1) (meanN_atTop hn))).const_div_atTop 1
    have h := (mean_over hn 3 1).mul h1
    rw [mul_zero] at h
    refine h.congr fun N => ?_
    simp only [Function.comp]
    unfold devN
    rw [div_mul_div_comm, mul_one, ← sub_eq_add_neg, show meanN n N - 1 - 2 = meanN n N - 3 by ring]
  · filter_upwards [(meanN_atTop hn).eventually_gt_atTop 3] with N hN
    have a1 : 0 < Real.sqrt (meanN n N - 1) := Real.sqrt_pos.2 (by linarith)
    have a2 : 0 < meanN n N - 1 := by linarith
    have a3 : 0 < meanN n N - 1 - 2 := by linarith
    rw [Set.mem_Ioi]
    unfold devN
    positivity

/-- C121: on magnitudes whose b-value is `b1` for the first `κ N` of `N` events and `b2` for the others, where `κ N / N` converges to a number strictly between zero and one, the
significance test almost surely returns numbers for all long catalogues, the mean autocorrelation converges to the share of the variance of the b-value, which is positive if the
b-values differ, and the standardised value, whose upper normal tail the p-value is, then grows without bound. -/
theorem C121_limit [IsProbabilityMeasure P] (hg : Spec.RandomDraws P g) {c : Cls} (hc : c = .classic ∨ c = .utsu) (warn conservative : Bool) {kw : Kw} (hkw : Accepts (.b c) kw) (hkww : kw.weights = none)
    {b1 b2 lam : ℝ} (h1 : 0 < b1) (h2 : 0 < b2) (hl0 : 0 < lam) (hl1 : lam < 1) (mc : ℝ) {κ : ℕ → ℕ} (hκ : Tendsto (fun N : ℕ => (κ N : ℝ) / N) atTop (𝓝 lam))
    (times : ℕ → List ℝ) (ht : ∀ N, (times N).length = N) {nm minNum : ℕ} (hn : 3 ≤ nm) (hmin : minNum ≤ nm) :
    ∀ᵐ ω ∂P, ∃ mac Z : ℕ → ℝ, (∀ᶠ N in atTop, ∃ mags mu std, simulateBinned N (fun i => if i < κ N then b1 else b2) mc 0 none .bValue (g ω) = .ok mags ∧
        (∀ Φ, bSignificant Φ warn (sigArgs c mags (times N) mc nm minNum conservative kw) = .ok ⟨.fin (1 - Φ (Z N)), .fin (mac N), .fin mu, .fin std⟩) ∧ Z N = (mac N - mu) / std) ∧
      Tendsto mac atTop (𝓝 (varianceShare lam b1 b2 nm)) ∧ (b1 ≠ b2 → Tendsto Z atTop atTop) := by
  have hn0 : 0 < nm := by omega
  have hnR : (0 : ℝ) < nm := by exact_mod_cast hn0
  have hne : ∀ᵐ ω ∂P, ∀ off, windowB (simMag g b1 mc ω) mc nm off 0 ≠ windowB (simMag g b1 mc ω) mc nm off 1 := ae_all_iff.2 fun off => offset_ne hg h1 mc hn0 off
  have hoff : ∀ᵐ ω ∂P, ∀ off, Tendsto (fun N : ℕ => seriesI (windowB (stepMag g (κ N) b1 b2 mc ω) mc nm off) ((N - off) / nm)) atTop (𝓝 (varianceShare lam b1 b2 nm)) :=
    ae_all_iff.2 fun off => offset_step hg h1 h2 hl0 hl1 mc hκ hn off
  have κtop : Tendsto κ atTop atTop := by
    have h := hκ.pos_mul_atTop hl0 tendsto_natCast_atTop_atTop
    rw [← tendsto_natCast_atTop_iff (R := ℝ)]
    refine h.congr' ?_
    filter_upwards [eventually_gt_atTop 0] with N hN
    have : (N : ℝ) ≠ 0 := by exact_mod_cast hN.ne'
    rw [div_mul_cancel₀ _ this]
  filter_upwards [hne, hoff, all_pos hg] with ω h ho hpos
  set mac : ℕ → ℝ := fun N => (∑ off ∈ Finset.range nm, seriesI (windowB (stepMag g (κ N) b1 b2 mc ω) mc nm off) ((N - off) / nm)) / nm with hmac
  have hlim : Tendsto mac atTop (𝓝 (varianceShare lam b1 b2 nm)) := by
    have h3 := (tendsto_finsetSum (Finset.range nm) fun off _ => ho off).div_const (nm : ℝ)
    rw [Finset.sum_const, Finset.card_range, nsmul_eq_mul, mul_div_cancel_left₀ _ hnR.ne'] at h3
    exact h3
  refine ⟨mac, fun N => (mac N - -1 / meanN nm N) / devUsed nm N conservative, ?_, hlim, ?_⟩
  · filter_upwards [eventually_ge_atTop (4 * nm), κtop.eventually_ge_atTop (4 * nm)] with N hN hκN
    have hK3 : ∀ off < nm, 3 ≤ (N - off) / nm := by
      intro off hof
      rw [Nat.le_div_iff_mul_le hn0]; omega
    have hk : ∀ off < nm, 3 ≤ (κ N - off) / nm := by
      intro off hof
      rw [Nat.le_div_iff_mul_le hn0]; omega
    refine ⟨_, -1 / meanN nm N, devUsed nm N conservative, simulate_step (g ω) N h1 h2, fun Φ => ?_, rfl⟩
    exact significant_full hc Φ warn conservative ((fits_iff _ _).2 hkw) hkww (stepMag g (κ N) b1 b2 mc ω) (times N) mc (minNum := minNum)
      (fun i => by have := div_pos (hpos i) (mul_pos (stepB_pos (c := κ N) h1 h2 i) log_ten_pos); unfold stepMag; linarith) (by omega : 2 ≤ nm) hmin hN (ht N)
      (fun off hof => ⟨0, by have := hK3 off hof; omega, 1, by have := hK3 off hof; omega, by
        have hk3 := hk off hof
        rw [step_before h1 ω hn0 (by omega), step_before h1 ω hn0 (by omega), ← windowB_unit (mc := mc) h1 ω hn0, ← windowB_unit (mc := mc) h1 ω hn0]
        exact h off⟩)
  · intro hb
    set d : ℝ := if conservative then 1 else 81 / 100 with hd
    have hd0 : 0 < d := by rw [hd]; split_ifs <;> norm_num
    have hmu : Tendsto (fun N => -1 / meanN nm N) atTop (𝓝 0) := (meanN_atTop hn0).const_div_atTop (-1)
    have h3 := hlim.sub hmu
    rw [sub_zero] at h3
    have h4 := (h3.div_const d).pos_mul_atTop (div_pos (varianceShare_pos hl0 hl1 hb hn) hd0) (devN_limit hn0).inv_tendsto_nhdsGT_zero
    refine h4.congr fun N => ?_
    simp only [Pi.inv_apply]
    unfold devUsed
    rw [← div_eq_mul_inv, div_div, mul_comm d]

/-- The catalogue of `N` events, `k` of them with the b-value `b1` before those with the b-value `b2`, is found to vary significantly at the level `α`. -/
def FoundChange (g : Ω → Rng) (c : Cls) (warn conservative : Bool) (kw : Kw) (k : ℕ) (b1 b2 mc : ℝ) (times : List ℝ) (nm minNum : ℕ) (α : ℝ) (N : ℕ) (ω : Ω) : Prop :=
  ∃ mags p mac mu std, simulateBinned N (fun i => if i < k then b1 else b2) mc 0 none .bValue (g ω) = .ok mags ∧
    bSignificant stdNormal warn (sigArgs c mags times mc nm minNum conservative kw) = .ok ⟨.fin p, mac, mu, std⟩ ∧ p ≤ α

/-- C121: a change of the b-value is found: at every level `α > 0`, almost surely all long enough catalogues are found to vary significantly. -/
theorem C121_power [IsProbabilityMeasure P] (hg : Spec.RandomDraws P g) {c : Cls} (hc : c = .classic ∨ c = .utsu) (warn conservative : Bool) {kw : Kw} (hkw : Accepts (.b c) kw) (hkww : kw.weights = none)
    {b1 b2 lam : ℝ} (h1 : 0 < b1) (h2 : 0 < b2) (hb : b1 ≠ b2) (hl0 : 0 < lam) (hl1 : lam < 1) (mc : ℝ) {κ : ℕ → ℕ} (hκ : Tendsto (fun N : ℕ => (κ N : ℝ) / N) atTop (𝓝 lam))
    (times : ℕ → List ℝ) (ht : ∀ N, (times N).length = N) {nm minNum : ℕ} (hn : 3 ≤ nm) (hmin : minNum ≤ nm) {α : ℝ} (hα : 0 < α) :
    ∀ᵐ ω ∂P, ∀ᶠ N in atTop, FoundChange g c warn conservative kw (κ N) b1 b2 mc (times N) nm minNum α N ω := by
  filter_upwards [C121_limit hg hc warn conservative hkw hkww h1 h2 hl0 hl1 mc hκ times ht hn hmin] with ω h
  obtain ⟨mac, Z, hev, -, hZ⟩ := h
  have h3 : Tendsto stdNormal atTop (𝓝 1) := tendsto_cdf_atTop _
  have h4 := ((h3.comp (hZ hb)).const_sub 1)
  rw [sub_self] at h4
  filter_upwards [hev, h4.eventually_lt_const hα] with N h5 h6
  obtain ⟨mags, mu, std, e1, e2, -⟩ := h5
  exact ⟨mags, _, _, _, _, e1, e2 stdNormal, h6.le⟩

/-- A case: a b-value of 0.8 in the first half of the catalogue and 1.2 in the second, windows of 20 magnitudes. -/
example [IsProbabilityMeasure P] (hg : Spec.RandomDraws P g) :
    ∀ᵐ ω ∂P, ∀ᶠ N in atTop, FoundChange g .utsu true true {} (N / 2) (8 / 10) (12 / 10) 2 (List.replicate N 0) 20 10 (1 / 100) N ω := by
  refine C121_power (lam := 1 / 2) hg (Or.inr rfl) true true (kw := {}) ⟨rfl, rfl, rfl⟩ rfl (by norm_num) (by norm_num) (by norm_num) (by norm_num) (by norm_num) 2 (κ := fun N => N / 2) ?_
    (fun N => List.replicate N 0) (fun N => List.length_replicate) (by norm_num) (by norm_num) (by norm_num)
  have := count_ratio (n := 2) two_pos 0
  simpa using this

end
end SeismoStats.Props
