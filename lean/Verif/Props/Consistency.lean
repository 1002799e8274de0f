/-
Property C96: the b-value estimators are consistent on simulated magnitudes.
-/
import Verif.Proofs.Law
import Verif.Proofs.Sequence

namespace SeismoStats.Props
open SeismoStats SeismoStats.Simulate BValue MeasureTheory ProbabilityTheory Filter Topology
open Classical
noncomputable section

variable {Ω : Type} [MeasurableSpace Ω] {P : Measure Ω} {g : Ω → Rng}

/-- For almost every sequence of random draws: from some size on, the estimate for `n` magnitudes simulated with b-value `b` (by `simulate_magnitudes_binned`) is a
number (for every estimator object), and these numbers converge to `limit`. -/
def ConvergesTo (P : Measure Ω) (g : Ω → Rng) (c : Cls) (b mc δ : ℝ) (dmc : Option ℝ) (limit : ℝ) : Prop :=
  ∀ᵐ ω ∂P, ∃ est : ℕ → ℝ,
    (∀ᶠ n in atTop, ∃ mags, simulateBinned n (fun _ => b) mc δ none .bValue (g ω) = .ok mags ∧
      ∀ warn s, Reachable c s → (calculate c warn s { mags := mags.map some, mc := mc, δ := δ, dmc := dmc }).2 = .ok (.fin (est n))) ∧
    Tendsto est atTop (𝓝 limit)

/-- Simulated magnitudes that are not binned. -/
theorem simulate_continuous (r : Rng) (n : ℕ) {b mc : ℝ} (hb : 0 < b) :
    simulateBinned n (fun _ => b) mc 0 none .bValue r = .ok (firstMags (fun i => mc + r.expo i / (b * Real.log 10)) n) := by
  unfold simulateBinned toBeta
  simp only [Bind.bind, Except.bind, zero_div, sub_zero]
  rw [simulate_untruncated n _ mc none (Or.inl rfl) r fun i _ => mul_pos hb log_ten_pos]
  simp only [binIf, lt_irrefl, if_false]
  unfold firstMags untruncated
  congr 2
  funext i
  ring

/-- Simulated magnitudes with `mc` on the grid. -/
theorem simulate_grid (r : Rng) (n : ℕ) {b δ : ℝ} (a : ℤ) (hb : 0 < b) (hδ : 1 / 10 ^ 12 ≤ δ) :
    simulateBinned n (fun _ => b) (a * δ) δ none .bValue r =
      .ok (firstMags (fun i => ((a + ⌊r.expo i / (b * Real.log 10 * δ) + 1 / 10 ^ 12⌋ : ℤ) : ℝ) * δ) n) := by
  have hp : 0 < δ := lt_of_lt_of_le (by positivity) hδ
  have hβ : 0 < b * Real.log 10 := mul_pos hb log_ten_pos
  rw [simulateBinned_ok n _ _ δ none r _ hδ (simulate_untruncated n _ _ none (Or.inl rfl) r fun i _ => hβ), List.map_map]
  unfold firstMags
  congr 2
  funext i
  simp only [Function.comp_apply]
  unfold binTo roundToInt untruncated eps
  congr 2
  have e : (1 / (b * Real.log 10) * r.expo i + (a * δ - δ / 2)) / δ + 1 / 2 + 1 / 10 ^ 12 = (a : ℝ) + (r.expo i / (b * Real.log 10 * δ) + 1 / 10 ^ 12) := by
    have := hβ.ne'; have := hp.ne'
    field_simp
    ring
  rw [e, Int.floor_intCast_add]

theorem one_div_mul_log {b : ℝ} (hb : 0 < b) : 1 / (1 / (b * Real.log 10)) / Real.log 10 = b := by
  have := log_ten_pos.ne'; have := hb.ne'
  field_simp

/-- All draws are positive. -/
theorem all_pos (hg : Spec.RandomDraws P g) : ∀ᵐ ω ∂P, ∀ i, 0 < (g ω).expo i := ae_all_iff.2 fun i => expo_pos hg i

/-- The mean of magnitudes that are not binned. -/
theorem mean_continuous (hg : Spec.RandomDraws P g) {β : ℝ} (hβ : 0 < β) (mc : ℝ) :
    ∀ᵐ ω ∂P, Tendsto (fun n : ℕ => (∑ i ∈ Finset.range n, (mc + (g ω).expo i / β - mc)) / (n : ℝ)) atTop (𝓝 (1 / β)) := by
  have h := strong_law_expo hg (fun e => max (e - 0) 0) (by fun_prop) (fun e => le_max_right _ _) 1 zero_le_one (by
    rw [exp_excess le_rfl]; simp)
  filter_upwards [h, all_pos hg] with ω h hpos
  have := h.div_const β
  refine this.congr fun n => ?_
  rw [div_right_comm, Finset.sum_div]
  congr 1
  apply Finset.sum_congr rfl
  intro i _
  rw [sub_zero, max_eq_left (hpos i).le]; ring

/-- C96: without binning, the classic estimates converge to the b-value of the simulation, almost surely. -/
theorem C96_classic (hg : Spec.RandomDraws P g) (b mc : ℝ) (hb : 0 < b) : ConvergesTo P g .classic b mc 0 none b := by
  have hβ : 0 < b * Real.log 10 := mul_pos hb log_ten_pos
  filter_upwards [mean_continuous hg hβ mc, all_pos hg] with ω h hpos
  obtain ⟨est, h1, h2⟩ := classic_tendsto (fun i => mc + (g ω).expo i / (b * Real.log 10)) mc 0 (1 / (b * Real.log 10)) (by positivity)
    (fun i => by have := div_pos (hpos i) hβ; linarith) (Or.inl rfl) h
  refine ⟨est, ?_, ?_⟩
  · filter_upwards [h1] with n hn
    exact ⟨_, simulate_continuous (g ω) n hb, hn⟩
  · unfold betaVal at h2
    rwa [if_neg (lt_irrefl 0), one_div_mul_log hb] at h2

/-- C96: the same for the Utsu estimates. -/
theorem C96_utsu (hg : Spec.RandomDraws P g) (b mc : ℝ) (hb : 0 < b) : ConvergesTo P g .utsu b mc 0 none b := by
  have hβ : 0 < b * Real.log 10 := mul_pos hb log_ten_pos
  filter_upwards [mean_continuous hg hβ mc, all_pos hg] with ω h hpos
  obtain ⟨est, h1, h2⟩ := utsu_tendsto (fun i => mc + (g ω).expo i / (b * Real.log 10)) mc 0 (1 / (b * Real.log 10)) (by positivity)
    (fun i => by have := div_pos (hpos i) hβ; linarith) (Or.inl rfl) h
  refine ⟨est, ?_, ?_⟩
  · filter_upwards [h1] with n hn
    exact ⟨_, simulate_continuous (g ω) n hb, hn⟩
  · rwa [zero_div, add_zero, one_div_mul_log hb] at h2

/-- The mean of binned magnitudes. -/
theorem mean_grid (hg : Spec.RandomDraws P g) {x δ ε : ℝ} (hx : 0 < x) (hε0 : 0 ≤ ε) (hε : ε ≤ 1) (a : ℤ) :
    ∀ᵐ ω ∂P, Tendsto (fun n : ℕ => (∑ i ∈ Finset.range n, (((a + ⌊(g ω).expo i / x + ε⌋ : ℤ) : ℝ) * δ - a * δ)) / (n : ℝ)) atTop
      (𝓝 (Real.exp (x * ε) / (Real.exp x - 1) * δ)) := by
  have hm : Measurable fun e : ℝ => max (((⌊e / x + ε⌋ : ℤ) : ℝ) - ((0 : ℤ) : ℝ)) 0 := by
    have h1 : Measurable fun x : ℝ => ⌊x⌋ := Int.measurable_floor
    have h2 : Measurable fun z : ℤ => (z : ℝ) := measurable_from_top
    have h3 : Measurable fun e : ℝ => e / x + ε := by fun_prop
    exact ((h2.comp (h1.comp h3)).sub_const _).max measurable_const
  have hex : 0 < Real.exp x - 1 := by
    have : (1 : ℝ) < Real.exp x := Real.one_lt_exp_iff.2 hx
    linarith
  have h := strong_law_expo hg _ hm (fun e => le_max_right _ _) (Real.exp (x * ε) / (Real.exp x - 1)) (by positivity) (by
    rw [floor_excess hx hε le_rfl]
    congr 3; simp)
  filter_upwards [h, all_pos hg] with ω h hpos
  have := h.mul_const δ
  refine this.congr fun n => ?_
  rw [div_mul_eq_mul_div, Finset.sum_mul]
  congr 1
  apply Finset.sum_congr rfl
  intro i _
  have h0 : (0 : ℝ) ≤ ((⌊(g ω).expo i / x + ε⌋ : ℤ) : ℝ) := by
    have : 0 ≤ ⌊(g ω).expo i / x + ε⌋ := Int.floor_nonneg.2 (by have := div_pos (hpos i) hx; linarith)
    exact_mod_cast this
  rw [Int.cast_zero, sub_zero, max_eq_left h0]
  push_cast; ring

theorem grid_low (r : Rng) (hpos : ∀ i, 0 < r.expo i) {x δ ε : ℝ} (hx : 0 < x) (hδ : 0 < δ) (hε0 : 0 ≤ ε) (a : ℤ) (i : ℕ) :
    (a : ℝ) * δ - δ / 2 ≤ ((a + ⌊r.expo i / x + ε⌋ : ℤ) : ℝ) * δ := by
  have : 0 ≤ ⌊r.expo i / x + ε⌋ := Int.floor_nonneg.2 (by have := div_pos (hpos i) hx; linarith)
  have h0 : (0 : ℝ) ≤ ((⌊r.expo i / x + ε⌋ : ℤ) : ℝ) := by exact_mod_cast this
  push_cast
  nlinarith [mul_nonneg h0 hδ.le]

/-- C96: with binned magnitudes and `mc` on the grid, the classic estimates converge to a number that differs from the b-value of the simulation by less than one part
in `10^12`. -/
theorem C96_classic_binned (hg : Spec.RandomDraws P g) (b δ : ℝ) (a : ℤ) (hb : 0 < b) (hδ : 1 / 10 ^ 12 ≤ δ) :
    ∃ b', (1 - 1 / 10 ^ 12) * b ≤ b' ∧ b' ≤ b ∧ ConvergesTo P g .classic b (a * δ) δ none b' := by
  have hp : 0 < δ := lt_of_lt_of_le (by positivity) hδ
  have hβ : 0 < b * Real.log 10 := mul_pos hb log_ten_pos
  have hx : 0 < b * Real.log 10 * δ := mul_pos hβ hp
  set x := b * Real.log 10 * δ with hxd
  set ε : ℝ := 1 / 10 ^ 12 with hε
  have hε0 : 0 ≤ ε := by positivity
  have hε1 : ε ≤ 1 := by rw [hε]; norm_num
  have hex : 0 < Real.exp x - 1 := by
    have : (1 : ℝ) < Real.exp x := Real.one_lt_exp_iff.2 hx
    linarith
  have hA : 0 < Real.exp (x * ε) / (Real.exp x - 1) * δ := by positivity
  have hval : betaVal (Real.exp (x * ε) / (Real.exp x - 1) * δ) δ = Real.log (1 + Real.exp (-(x * ε)) * (Real.exp x - 1)) / δ := by
    unfold betaVal
    rw [if_pos hp, Real.exp_neg]
    congr 3
    have := hp.ne'; have := hex.ne'; have := (Real.exp_pos (x * ε)).ne'
    field_simp
  have hle : Real.exp (-(x * ε)) ≤ 1 := Real.exp_le_one_iff.2 (by have := mul_nonneg hx.le hε0; linarith)
  have hlog10 := log_ten_pos
  have hbx : b = x / δ / Real.log 10 := by
    rw [hxd]; have := hp.ne'; have := hlog10.ne'; field_simp
  refine ⟨betaVal (Real.exp (x * ε) / (Real.exp x - 1) * δ) δ / Real.log 10, ?_, ?_, ?_⟩
  · rw [hval]
    conv_lhs => rw [hbx, ← mul_div_assoc, ← mul_div_assoc]
    apply div_le_div_of_nonneg_right _ hlog10.le
    apply div_le_div_of_nonneg_right _ hp.le
    rw [Real.le_log_iff_exp_le (by positivity)]
    have e : Real.exp ((1 - ε) * x) = Real.exp (-(x * ε)) * Real.exp x := by rw [← Real.exp_add]; congr 1; ring
    rw [e]
    linarith
  · rw [hval]
    conv_rhs => rw [hbx]
    apply div_le_div_of_nonneg_right _ hlog10.le
    apply div_le_div_of_nonneg_right _ hp.le
    rw [Real.log_le_iff_le_exp (by positivity)]
    nlinarith
  · filter_upwards [mean_grid (δ := δ) hg hx hε0 hε1 a, all_pos hg] with ω h hpos
    obtain ⟨est, h1, h2⟩ := classic_tendsto _ (a * δ) δ _ hA (grid_low (g ω) hpos hx hp hε0 a) (Or.inr ⟨hδ, fun i => ⟨_, rfl⟩⟩) h
    refine ⟨est, ?_, h2⟩
    filter_upwards [h1] with n hn
    exact ⟨_, simulate_grid (g ω) n a hb hδ, hn⟩

/-- C96 (limit): with binned magnitudes the Utsu estimates do not converge to the b-value of the simulation. -/
theorem C96_utsu_binned_biased (hg : Spec.RandomDraws P g) (b δ : ℝ) (a : ℤ) (hb : 0 < b) (hδ : 1 / 10 ^ 12 ≤ δ) :
    ∃ b', b' < b ∧ ConvergesTo P g .utsu b (a * δ) δ none b' := by
  have hp : 0 < δ := lt_of_lt_of_le (by positivity) hδ
  have hβ : 0 < b * Real.log 10 := mul_pos hb log_ten_pos
  have hx : 0 < b * Real.log 10 * δ := mul_pos hβ hp
  set x := b * Real.log 10 * δ with hxd
  set ε : ℝ := 1 / 10 ^ 12 with hε
  have hε0 : 0 ≤ ε := by positivity
  have hε1 : ε ≤ 1 := by rw [hε]; norm_num
  have hex : 0 < Real.exp x - 1 := by
    have : (1 : ℝ) < Real.exp x := Real.one_lt_exp_iff.2 hx
    linarith
  have hA : 0 < Real.exp (x * ε) / (Real.exp x - 1) * δ := by positivity
  refine ⟨1 / (Real.exp (x * ε) / (Real.exp x - 1) * δ + δ / 2) / Real.log 10, ?_, ?_⟩
  · have hlog10 := log_ten_pos
    rw [div_lt_iff₀ hlog10, div_lt_iff₀ (by positivity)]
    have h1 : 1 ≤ Real.exp (x * ε) := Real.one_le_exp (mul_nonneg hx.le hε0)
    -- x / (e^x - 1) + x / 2 > 1
    have key : 1 < x * (1 / (Real.exp x - 1) + 1 / 2) := by
      have h := Real.lt_log_one_add_of_pos hex
      rw [show 1 + (Real.exp x - 1) = Real.exp x by ring, Real.log_exp, div_lt_iff₀ (by linarith)] at h
      rw [div_add_div _ _ hex.ne' two_ne_zero, ← mul_div_assoc, lt_div_iff₀ (by positivity)]
      linarith
    have h2 : 1 / (Real.exp x - 1) ≤ Real.exp (x * ε) / (Real.exp x - 1) := div_le_div_of_nonneg_right h1 hex.le
    calc (1 : ℝ) < x * (1 / (Real.exp x - 1) + 1 / 2) := key
      _ ≤ x * (Real.exp (x * ε) / (Real.exp x - 1) + 1 / 2) := mul_le_mul_of_nonneg_left (by linarith) hx.le
      _ = b * Real.log 10 * (Real.exp (x * ε) / (Real.exp x - 1) * δ + δ / 2) := by rw [hxd]; ring
  · filter_upwards [mean_grid (δ := δ) hg hx hε0 hε1 a, all_pos hg] with ω h hpos
    obtain ⟨est, h1, h2⟩ := utsu_tendsto _ (a * δ) δ _ hA (grid_low (g ω) hpos hx hp hε0 a) (Or.inr ⟨hδ, fun i => ⟨_, rfl⟩⟩) h
    refine ⟨est, ?_, h2⟩
    filter_upwards [h1] with n hn
    exact ⟨_, simulate_grid (g ω) n a hb hδ, hn⟩

theorem meas_ite {p : ℝ × ℝ → Prop} [DecidablePred p] (hp : MeasurableSet {e | p e}) {f : ℝ × ℝ → ℝ} (hf : Measurable f) : Measurable fun e => if p e then f e else 0 :=
  Measurable.ite hp hf measurable_const

/-- C96: without binning, the b-positive estimates converge to the b-value of the simulation, for every `dmc`. -/
theorem C96_positive [IsProbabilityMeasure P] (hg : Spec.RandomDraws P g) (b mc d : ℝ) (hb : 0 < b) (hd : 0 ≤ d) : ConvergesTo P g .positive b mc 0 (some d) b := by
  have hβ : 0 < b * Real.log 10 := mul_pos hb log_ten_pos
  set β := b * Real.log 10 with hβd
  have hset : MeasurableSet {e : ℝ × ℝ | e.1 + β * d ≤ e.2} := measurableSet_le (by fun_prop) (by fun_prop)
  obtain ⟨p, hp, iψ, iφ⟩ := pair_ratio (fun e => 1 / β * max (e.2 - (e.1 + β * d)) 0) (fun e => if e.1 + β * d ≤ e.2 then 1 else 0) (by fun_prop)
    (meas_ite hset measurable_const) (1 / β) (by positivity) (fun e => Real.exp (-(e + β * d))) (fun e => Real.exp_pos _) (by fun_prop)
    (fun e he => Real.exp_le_one_iff.2 (by have := mul_nonneg hβ.le hd; linarith))
    (fun e he => tail_lintegral (c := e + β * d) (by have := mul_nonneg hβ.le hd; linarith))
    (fun e he => by
      simp only [ENNReal.ofReal_mul (show 0 ≤ 1 / β by positivity)]
      rw [lintegral_const_mul _ (by fun_prop), exp_excess (by have := mul_nonneg hβ.le hd; linarith)])
  have hiff : ∀ u v : ℝ, (d - 0 / 2 ≤ mc + v / β - (mc + u / β)) ↔ u + β * d ≤ v := by
    intro u v
    rw [show mc + v / β - (mc + u / β) = (v - u) / β by ring, zero_div, sub_zero, le_div_iff₀ hβ]
    constructor <;> intro h <;> linarith
  have hψ := strong_law_pairs hg _ (meas_ite hset measurable_const) (fun e => by split_ifs <;> norm_num) p hp.le iψ
  have hφ := strong_law_pairs hg (fun e => 1 / β * max (e.2 - (e.1 + β * d)) 0) (by fun_prop) (fun e => mul_nonneg (by positivity) (le_max_right _ _)) (1 / β * p)
    (by positivity) iφ
  filter_upwards [hψ, hφ, all_pos hg] with ω hψ hφ hpos
  obtain ⟨est, h1, h2⟩ := positive_tendsto (fun i => mc + (g ω).expo i / β) mc 0 d (1 / β) p (by positivity) hp hd
    (fun i => by have := div_pos (hpos i) hβ; linarith) (Or.inl rfl)
    (hψ.congr fun n => by simp only [hiff])
    (hφ.congr fun n => by
      congr 1
      apply Finset.sum_congr rfl
      intro i _
      simp only [hiff]
      by_cases h : (g ω).expo i + β * d ≤ (g ω).expo (i + 1)
      · rw [if_pos h, max_eq_left (by linarith)]
        have := hβ.ne'
        field_simp
        ring
      · rw [if_neg h, max_eq_right (by linarith), mul_zero])
  refine ⟨est, ?_, ?_⟩
  · filter_upwards [h1] with n hn
    exact ⟨_, simulate_continuous (g ω) n hb, fun warn s _ => hn warn s⟩
  · unfold betaVal at h2
    rwa [if_neg (lt_irrefl 0), hβd, one_div_mul_log hb] at h2

/-- C96: with binned magnitudes, `mc` on the grid and `dmc` a positive multiple of the bin width (by default one bin), the b-positive estimates converge to exactly the
b-value of the simulation. -/
theorem C96_positive_binned [IsProbabilityMeasure P] (hg : Spec.RandomDraws P g) (b δ : ℝ) (a : ℤ) (k : ℕ) (hb : 0 < b) (hδ : 1 / 10 ^ 12 ≤ δ) (hk : 1 ≤ k) :
    ConvergesTo P g .positive b (a * δ) δ (some (k * δ)) b := by
  have hp : 0 < δ := lt_of_lt_of_le (by positivity) hδ
  have hβ : 0 < b * Real.log 10 := mul_pos hb log_ten_pos
  have hx : 0 < b * Real.log 10 * δ := mul_pos hβ hp
  set x := b * Real.log 10 * δ with hxd
  set ε : ℝ := 1 / 10 ^ 12 with hε
  have hε0 : 0 ≤ ε := by positivity
  have hε1 : ε ≤ 1 := by rw [hε]; norm_num
  have hk' : (1 : ℝ) ≤ k := by exact_mod_cast hk
  have hex : 0 < Real.exp x - 1 := by
    have : (1 : ℝ) < Real.exp x := Real.one_lt_exp_iff.2 hx
    linarith
  set N : ℝ → ℤ := fun e => ⌊e / x + ε⌋ with hN
  have hNm : Measurable N := Int.measurable_floor.comp (by fun_prop)
  have hcast : Measurable fun z : ℤ => (z : ℝ) := measurable_from_top
  have hN0 : ∀ e, 0 < e → 0 ≤ N e := fun e he => Int.floor_nonneg.2 (by have := div_pos he hx; linarith)
  have hset : MeasurableSet {e : ℝ × ℝ | N e.1 + k ≤ N e.2} := measurableSet_le ((hNm.comp measurable_fst).add_const _) (hNm.comp measurable_snd)
  have hφm : Measurable fun e : ℝ × ℝ => δ * max ((N e.2 : ℝ) - ((N e.1 + k : ℤ) : ℝ)) 0 := by
    have h1 : Measurable fun e : ℝ × ℝ => (N e.2 : ℝ) := hcast.comp (hNm.comp measurable_snd)
    have h2 : Measurable fun e : ℝ × ℝ => ((N e.1 + k : ℤ) : ℝ) := hcast.comp ((hNm.comp measurable_fst).add_const _)
    exact ((h1.sub h2).max measurable_const).const_mul δ
  obtain ⟨p, hpp, iψ, iφ⟩ := pair_ratio (fun e => δ * max ((N e.2 : ℝ) - ((N e.1 + k : ℤ) : ℝ)) 0) (fun e => if N e.1 + k ≤ N e.2 then 1 else 0) hφm
    (meas_ite hset measurable_const) (δ / (Real.exp x - 1)) (by positivity) (fun e => Real.exp (-x * (((N e + k : ℤ) : ℝ) - ε))) (fun e => Real.exp_pos _)
    (by
      have h2 : Measurable fun e : ℝ => ((N e + k : ℤ) : ℝ) := hcast.comp (hNm.add_const _)
      exact Real.measurable_exp.comp ((h2.sub_const ε).const_mul (-x)))
    (fun e he => by
      have h0 : (0 : ℝ) ≤ N e := by exact_mod_cast hN0 e he
      apply Real.exp_le_one_iff.2
      push_cast
      nlinarith)
    (fun e he => floor_tail (z := N e + k) hx hε1 (by have := hN0 e he; omega))
    (fun e he => by
      simp only [ENNReal.ofReal_mul hp.le]
      rw [lintegral_const_mul, floor_excess (z := N e + k) hx hε1 (by have := hN0 e he; omega), ← ENNReal.ofReal_mul hp.le]
      · congr 1; ring
      · have h1 : Measurable fun y : ℝ => (N y : ℝ) := hcast.comp hNm
        exact ((h1.sub_const _).max measurable_const).ennreal_ofReal)
  have hiff : ∀ u v : ℝ, ((k : ℝ) * δ - δ / 2 ≤ ((a + N v : ℤ) : ℝ) * δ - ((a + N u : ℤ) : ℝ) * δ) ↔ N u + k ≤ N v := by
    intro u v
    rw [show (k : ℝ) * δ - δ / 2 = (k - 1 / 2) * δ by ring, ← sub_mul, mul_le_mul_iff_of_pos_right hp, ← Int.cast_sub]
    constructor
    · intro h
      by_contra hc
      have h2 : a + N v - (a + N u) ≤ (k : ℤ) - 1 := by omega
      have h3 : ((a + N v - (a + N u) : ℤ) : ℝ) ≤ ((k - 1 : ℤ) : ℝ) := by exact_mod_cast h2
      have h4 : ((k - 1 : ℤ) : ℝ) = (k : ℝ) - 1 := by push_cast; ring
      rw [h4] at h3
      linarith
    · intro h
      have h2 : (k : ℤ) ≤ a + N v - (a + N u) := by omega
      have h3 : ((k : ℤ) : ℝ) ≤ ((a + N v - (a + N u) : ℤ) : ℝ) := by exact_mod_cast h2
      rw [Int.cast_natCast] at h3
      linarith
  have hψ := strong_law_pairs hg _ (meas_ite hset measurable_const) (fun e => by split_ifs <;> norm_num) p hpp.le iψ
  have hφ := strong_law_pairs hg _ hφm (fun e => mul_nonneg hp.le (le_max_right _ _)) (δ / (Real.exp x - 1) * p) (by positivity) iφ
  filter_upwards [hψ, hφ, all_pos hg] with ω hψ hφ hpos
  obtain ⟨est, h1, h2⟩ := positive_tendsto (fun i => ((a + N ((g ω).expo i) : ℤ) : ℝ) * δ) (a * δ) δ (k * δ) (δ / (Real.exp x - 1)) p (by positivity) hpp (by positivity)
    (grid_low (g ω) hpos hx hp hε0 a) (Or.inr ⟨hδ, fun i => ⟨_, rfl⟩⟩)
    (hψ.congr fun n => by simp only [hiff])
    (hφ.congr fun n => by
      congr 1
      apply Finset.sum_congr rfl
      intro i _
      simp only [hiff]
      by_cases h : N ((g ω).expo i) + k ≤ N ((g ω).expo (i + 1))
      · have h' : ((N ((g ω).expo i) + k : ℤ) : ℝ) ≤ N ((g ω).expo (i + 1)) := by exact_mod_cast h
        rw [if_pos h, max_eq_left (by linarith)]
        push_cast
        ring
      · have h' : (N ((g ω).expo (i + 1)) : ℝ) ≤ ((N ((g ω).expo i) + k : ℤ) : ℝ) := by exact_mod_cast (not_le.1 h).le
        rw [if_neg h, max_eq_right (by linarith), mul_zero])
  refine ⟨est, ?_, ?_⟩
  · filter_upwards [h1] with n hn
    exact ⟨_, simulate_grid (g ω) n a hb hδ, fun warn s _ => hn warn s⟩
  · have hv : betaVal (δ / (Real.exp x - 1)) δ / Real.log 10 = b := by
      unfold betaVal
      rw [if_pos hp, div_div_cancel₀ hp.ne', show 1 + (Real.exp x - 1) = Real.exp x by ring, Real.log_exp, hxd]
      have := hp.ne'; have := log_ten_pos.ne'
      field_simp
    rwa [hv] at h2

/-- C96: the same with the default cutoff, one bin. -/
theorem C96_positive_default [IsProbabilityMeasure P] (hg : Spec.RandomDraws P g) (b δ : ℝ) (a : ℤ) (hb : 0 < b) (hδ : 1 / 10 ^ 12 ≤ δ) :
    ConvergesTo P g .positive b (a * δ) δ none b := by
  have h := C96_positive_binned hg b δ a 1 hb hδ le_rfl
  rw [Nat.cast_one, one_mul] at h
  exact h

/-- A case: for `b = 1`, bin width 0.1 and `mc = 2.0` the b-positive estimates converge to 1. -/
example : ∃ (Ω : Type) (_ : MeasurableSpace Ω) (P : Measure Ω) (g : Ω → Rng), Spec.RandomDraws P g ∧ ConvergesTo P g .positive 1 ((20 : ℤ) * (1 / 10)) (1 / 10) none 1 := by
  obtain ⟨Ω, mΩ, P, hP, g, hg⟩ := randomDraws_exist
  exact ⟨Ω, mΩ, P, g, hg, C96_positive_default hg 1 (1 / 10) 20 one_pos (by norm_num)⟩

/-- The limit of the definition is unique: on a probability space estimates do not converge to two numbers. -/
theorem convergesTo_unique [IsProbabilityMeasure P] {c : Cls} {b mc δ : ℝ} {dmc : Option ℝ} {u v : ℝ} (h1 : ConvergesTo P g c b mc δ dmc u) (h2 : ConvergesTo P g c b mc δ dmc v) :
    u = v := by
  have h : ∀ᵐ ω ∂P, u = v := by
    filter_upwards [h1, h2] with ω h1 h2
    obtain ⟨e, a1, a2⟩ := h1
    obtain ⟨f, b1, b2⟩ := h2
    refine tendsto_nhds_unique a2 (b2.congr' ?_)
    filter_upwards [a1, b1] with n a1 b1
    obtain ⟨m, m1, m2⟩ := a1
    obtain ⟨k, k1, k2⟩ := b1
    rw [m1] at k1
    cases k1
    have := m2 false State.init Reachable.init
    rw [k2 false State.init Reachable.init] at this
    injection this with this
    injection this
  exact h.exists.choose_spec

end
end SeismoStats.Props
