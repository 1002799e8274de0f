/-
Property C109: b-value estimates above a completeness magnitude are consistent, also if events below it are missing.
-/
import Verif.Proofs.Above
import Verif.Props.Consistency

namespace SeismoStats.Props
open SeismoStats SeismoStats.Simulate BValue MeasureTheory ProbabilityTheory Filter Topology
open Classical
noncomputable section

variable {Ω : Type} [MeasurableSpace Ω] {P : Measure Ω} {g : Ω → Rng}

/-! ### Specification -/

/-- The events with the indices in `seen` include all that are at or above `mc - delta_m / 2`. -/
def CompleteAbove (mags : List ℝ) (thr : ℝ) (seen : ℕ → Prop) : Prop := ∀ (i : ℕ) (m : ℝ), mags[i]? = some m → thr ≤ m → seen i

/-- For almost every sequence of random draws: from some size on, the estimate with completeness magnitude `mc'` is a number, the same one for every way of missing
events below `mc'`, if `n` magnitudes are simulated with b-value `b` above `mc`, and these numbers converge to `limit`. -/
def ConvergesAbove (P : Measure Ω) (g : Ω → Rng) (c : Cls) (b mc δ mc' : ℝ) (limit : ℝ) : Prop :=
  ∀ᵐ ω ∂P, ∃ est : ℕ → ℝ,
    (∀ᶠ n in atTop, ∃ mags, simulateBinned n (fun _ => b) mc δ none .bValue (g ω) = .ok mags ∧
      ∀ seen, CompleteAbove mags (mc' - δ / 2) seen → ∀ warn s, Reachable c s →
        (calculate c warn s { mags := (recorded mags seen).map some, mc := mc', δ := δ }).2 = .ok (.fin (est n))) ∧
    Tendsto est atTop (𝓝 limit)

theorem completeAbove_first {X : ℕ → ℝ} {n : ℕ} {thr : ℝ} {seen : ℕ → Prop} (h : CompleteAbove (firstMags X n) thr seen) : ∀ i < n, thr ≤ X i → seen i := by
  intro i hi ht
  refine h i (X i) ?_ ht
  unfold firstMags
  simp [hi]

/-- If the first estimates are those of a sequence. -/
theorem convergesAbove_of {c : Cls} {b mc δ mc' limit : ℝ} (X : Ω → ℕ → ℝ)
    (hsim : ∀ ω n, simulateBinned n (fun _ => b) mc δ none .bValue (g ω) = .ok (firstMags (X ω) n))
    (h : ∀ᵐ ω ∂P, ∃ est : ℕ → ℝ, (∀ᶠ n in atTop, ∀ seen : ℕ → Prop, (∀ i < n, mc' - δ / 2 ≤ X ω i → seen i) → ∀ warn s, Reachable c s →
        (calculate c warn s (callOf (recorded (firstMags (X ω) n) seen) mc' δ none)).2 = .ok (.fin (est n))) ∧ Tendsto est atTop (𝓝 limit)) :
    ConvergesAbove P g c b mc δ mc' limit := by
  filter_upwards [h] with ω ⟨est, h1, h2⟩
  refine ⟨est, ?_, h2⟩
  filter_upwards [h1] with n hn
  exact ⟨_, hsim ω n, fun seen hs warn s hr => hn seen (completeAbove_first hs) warn s hr⟩

/-! ## C109 without binning -/

/-- Share and excess of the events at or above `mc'`. -/
theorem above_means_continuous (hg : Spec.RandomDraws P g) {β mc mc' : ℝ} (hβ : 0 < β) (hmc : mc ≤ mc') :
    ∀ᵐ ω ∂P, Tendsto (fun n : ℕ => (∑ i ∈ Finset.range n, if mc' - 0 / 2 ≤ mc + (g ω).expo i / β then (1 : ℝ) else 0) / n) atTop (𝓝 (Real.exp (-(β * (mc' - mc))))) ∧
      Tendsto (fun n : ℕ => (∑ i ∈ Finset.range n, if mc' - 0 / 2 ≤ mc + (g ω).expo i / β then mc + (g ω).expo i / β - mc' else 0) / n) atTop
        (𝓝 (1 / β * Real.exp (-(β * (mc' - mc))))) := by
  have hc : 0 ≤ β * (mc' - mc) := mul_nonneg hβ.le (by linarith)
  have h1 := strong_law_expo hg (fun e => if β * (mc' - mc) ≤ e then 1 else 0) (Measurable.ite measurableSet_Ici measurable_const measurable_const)
    (fun e => by split <;> norm_num) _ (Real.exp_pos _).le (tail_lintegral hc)
  have h2 := strong_law_expo hg (fun e => max (e - β * (mc' - mc)) 0) (by fun_prop) (fun e => le_max_right _ _) _ (Real.exp_pos _).le (exp_excess hc)
  have key : ∀ e : ℝ, mc' - 0 / 2 ≤ mc + e / β ↔ β * (mc' - mc) ≤ e := by
    intro e
    rw [zero_div, sub_zero, ← sub_le_iff_le_add', le_div_iff₀ hβ, mul_comm]
  filter_upwards [h1, h2] with ω h1 h2
  constructor
  · refine h1.congr fun n => ?_
    congr 1
    apply Finset.sum_congr rfl
    intro i _
    exact if_congr (key _).symm rfl rfl
  · have := h2.const_mul (1 / β)
    refine this.congr fun n => ?_
    rw [← mul_div_assoc, Finset.mul_sum]
    congr 1
    apply Finset.sum_congr rfl
    intro i _
    by_cases h : β * (mc' - mc) ≤ (g ω).expo i
    · rw [if_pos ((key _).2 h), max_eq_left (by linarith)]
      field_simp
      ring
    · rw [if_neg (fun h' => h ((key _).1 h')), max_eq_right (by linarith), mul_zero]

/-- C109: without binning, the classic estimates above any completeness magnitude at or above that of the simulation converge to the b-value of the simulation, whatever
events below it are missing. -/
theorem C109_classic (hg : Spec.RandomDraws P g) (b mc mc' : ℝ) (hb : 0 < b) (hmc : mc ≤ mc') : ConvergesAbove P g .classic b mc 0 mc' b := by
  have hβ : 0 < b * Real.log 10 := mul_pos hb log_ten_pos
  refine convergesAbove_of (fun ω i => mc + (g ω).expo i / (b * Real.log 10)) (fun ω n => simulate_continuous (g ω) n hb) ?_
  filter_upwards [above_means_continuous hg hβ hmc] with ω ⟨h1, h2⟩
  obtain ⟨est, k1, k2⟩ := classicAbove_tendsto _ mc' 0 (1 / (b * Real.log 10)) _ (by positivity) (Real.exp_pos _) (Or.inl rfl) h1 h2
  refine ⟨est, k1, ?_⟩
  rw [show betaVal (1 / (b * Real.log 10)) 0 / Real.log 10 = b by
    unfold betaVal; rw [if_neg (lt_irrefl _)]; exact one_div_mul_log hb] at k2
  exact k2

/-- C109: the same for the Utsu estimates. -/
theorem C109_utsu (hg : Spec.RandomDraws P g) (b mc mc' : ℝ) (hb : 0 < b) (hmc : mc ≤ mc') : ConvergesAbove P g .utsu b mc 0 mc' b := by
  have hβ : 0 < b * Real.log 10 := mul_pos hb log_ten_pos
  refine convergesAbove_of (fun ω i => mc + (g ω).expo i / (b * Real.log 10)) (fun ω n => simulate_continuous (g ω) n hb) ?_
  filter_upwards [above_means_continuous hg hβ hmc] with ω ⟨h1, h2⟩
  obtain ⟨est, k1, k2⟩ := utsuAbove_tendsto _ mc' 0 (1 / (b * Real.log 10)) _ (by positivity) (Real.exp_pos _) (Or.inl rfl) h1 h2
  refine ⟨est, k1, ?_⟩
  rw [zero_div, add_zero, one_div_mul_log hb] at k2
  exact k2

/-! ## C109 with binning -/

/-- Share and excess of the events at or above a bin. -/
theorem above_means_grid (hg : Spec.RandomDraws P g) {x δ ε t : ℝ} (hx : 0 < x) (hδ : 0 < δ) (hε1 : ε ≤ 1) (a : ℤ) (k : ℕ) (hk : 1 ≤ k)
    (ht0 : -(1 / 2) < t) (ht1 : t ≤ 1 / 2) :
    ∀ᵐ ω ∂P, Tendsto (fun n : ℕ => (∑ i ∈ Finset.range n, if (a + k + t) * δ - δ / 2 ≤ ((a + ⌊(g ω).expo i / x + ε⌋ : ℤ) : ℝ) * δ then (1 : ℝ) else 0) / n) atTop
        (𝓝 (Real.exp (-x * (k - ε)))) ∧
      Tendsto (fun n : ℕ => (∑ i ∈ Finset.range n, if (a + k + t) * δ - δ / 2 ≤ ((a + ⌊(g ω).expo i / x + ε⌋ : ℤ) : ℝ) * δ then
        ((a + ⌊(g ω).expo i / x + ε⌋ : ℤ) : ℝ) * δ - (a + k + t) * δ else 0) / n) atTop (𝓝 ((1 / (Real.exp x - 1) - t) * δ * Real.exp (-x * (k - ε)))) := by
  have hfl : Measurable fun e : ℝ => ⌊e / x + ε⌋ := Int.measurable_floor.comp (by fun_prop)
  have hm : Measurable fun e : ℝ => max (((⌊e / x + ε⌋ : ℤ) : ℝ) - (((k : ℤ) : ℤ) : ℝ)) 0 := by
    have h2 : Measurable fun z : ℤ => (z : ℝ) := measurable_from_top
    exact ((h2.comp hfl).sub_const _).max measurable_const
  have hm2 : Measurable fun e : ℝ => if (k : ℤ) ≤ ⌊e / x + ε⌋ then (1 : ℝ) else 0 :=
    Measurable.ite (hfl measurableSet_Ici) measurable_const measurable_const
  have hex : 0 < Real.exp x - 1 := by
    have : (1 : ℝ) < Real.exp x := Real.one_lt_exp_iff.2 hx
    linarith
  have h1 := strong_law_expo hg _ hm2 (fun e => by split <;> norm_num) _ (Real.exp_pos _).le (floor_tail hx hε1 (z := k) (by exact_mod_cast hk))
  have h2 := strong_law_expo hg _ hm (fun e => le_max_right _ _) _ (by positivity) (floor_excess hx hε1 (z := k) (by positivity))
  have key : ∀ z : ℤ, (a + k + t) * δ - δ / 2 ≤ ((a + z : ℤ) : ℝ) * δ ↔ (k : ℤ) ≤ z := by
    intro z
    have e : (a + k + t) * δ - δ / 2 ≤ ((a + z : ℤ) : ℝ) * δ ↔ (k : ℝ) + t - 1 / 2 ≤ z := by
      push_cast
      constructor
      · intro h
        by_contra hn
        push Not at hn
        nlinarith
      · intro h
        nlinarith
    rw [e]
    constructor
    · intro h
      by_contra hn
      push Not at hn
      have h' : z + 1 ≤ (k : ℤ) := hn
      have h'' : (z : ℝ) + 1 ≤ k := by exact_mod_cast h'
      linarith
    · intro h
      have h' : (k : ℝ) ≤ z := by exact_mod_cast h
      linarith
  filter_upwards [h1, h2] with ω h1 h2
  constructor
  · refine h1.congr fun n => ?_
    congr 1
    apply Finset.sum_congr rfl
    intro i _
    exact if_congr (key _).symm rfl rfl
  · have := (h2.mul_const δ).sub (h1.mul_const (t * δ))
    have e : Real.exp (-x * (((k : ℤ) : ℝ) - ε)) / (Real.exp x - 1) * δ - Real.exp (-x * (((k : ℤ) : ℝ) - ε)) * (t * δ) =
        (1 / (Real.exp x - 1) - t) * δ * Real.exp (-x * (k - ε)) := by
      rw [Int.cast_natCast]; ring
    rw [e] at this
    refine this.congr fun n => ?_
    rw [div_mul_eq_mul_div, div_mul_eq_mul_div, ← sub_div, Finset.sum_mul, Finset.sum_mul, ← Finset.sum_sub_distrib]
    congr 1
    apply Finset.sum_congr rfl
    intro i _
    by_cases h : (k : ℤ) ≤ ⌊(g ω).expo i / x + ε⌋
    · have h' : (((k : ℤ) : ℤ) : ℝ) ≤ ((⌊(g ω).expo i / x + ε⌋ : ℤ) : ℝ) := by exact_mod_cast h
      rw [if_pos ((key _).2 h), if_pos h, max_eq_left (by linarith)]
      push_cast
      ring
    · have h' : ((⌊(g ω).expo i / x + ε⌋ : ℤ) : ℝ) ≤ (((k : ℤ) : ℤ) : ℝ) := by
        have := (not_le.1 h).le
        exact_mod_cast this
      rw [if_neg (fun h' => h ((key _).1 h')), if_neg h, max_eq_right (by linarith), zero_mul, zero_mul, sub_zero]

/-- The classic estimates above a number near a bin. -/
theorem classic_near_bin (hg : Spec.RandomDraws P g) (b δ t : ℝ) (a : ℤ) (k : ℕ) (hb : 0 < b) (hδ : 1 / 10 ^ 12 ≤ δ) (hk : 1 ≤ k)
    (ht0 : -(1 / 2) < t) (ht1 : t ≤ 1 / 2) (hκ : t < 1 / (Real.exp (b * Real.log 10 * δ) - 1)) :
    ConvergesAbove P g .classic b (a * δ) δ ((a + k + t) * δ) (betaVal ((1 / (Real.exp (b * Real.log 10 * δ) - 1) - t) * δ) δ / Real.log 10) := by
  have hp : 0 < δ := lt_of_lt_of_le (by positivity) hδ
  have hx : 0 < b * Real.log 10 * δ := mul_pos (mul_pos hb log_ten_pos) hp
  refine convergesAbove_of (fun ω i => ((a + ⌊(g ω).expo i / (b * Real.log 10 * δ) + 1 / 10 ^ 12⌋ : ℤ) : ℝ) * δ) (fun ω n => simulate_grid (g ω) n a hb hδ) ?_
  filter_upwards [above_means_grid (ε := 1 / 10 ^ 12) hg hx hp (by norm_num) a k hk ht0 ht1] with ω ⟨h1, h2⟩
  exact classicAbove_tendsto _ _ δ _ _ (mul_pos (by linarith) hp) (Real.exp_pos _) (Or.inr ⟨hδ, fun i => ⟨_, rfl⟩⟩) h1 h2

/-- Excess and value of beta. -/
theorem betaVal_bin {b δ t : ℝ} (hb : 0 < b) (hδ : 0 < δ) (hκ : t < 1 / (Real.exp (b * Real.log 10 * δ) - 1)) :
    (t = 0 → betaVal ((1 / (Real.exp (b * Real.log 10 * δ) - 1) - t) * δ) δ / Real.log 10 = b) ∧
    (0 < t → b < betaVal ((1 / (Real.exp (b * Real.log 10 * δ) - 1) - t) * δ) δ / Real.log 10) ∧
    (t < 0 → betaVal ((1 / (Real.exp (b * Real.log 10 * δ) - 1) - t) * δ) δ / Real.log 10 < b) := by
  have hlog := log_ten_pos
  have hx : 0 < b * Real.log 10 * δ := mul_pos (mul_pos hb hlog) hδ
  set x := b * Real.log 10 * δ with hxd
  have hex : 0 < Real.exp x - 1 := by
    have : (1 : ℝ) < Real.exp x := Real.one_lt_exp_iff.2 hx
    linarith
  have hbx : b = x / δ / Real.log 10 := by
    rw [hxd]; have := hδ.ne'; have := hlog.ne'; field_simp
  have hκ' : 0 < 1 / (Real.exp x - 1) - t := by linarith
  have e : betaVal ((1 / (Real.exp x - 1) - t) * δ) δ = Real.log (1 + 1 / (1 / (Real.exp x - 1) - t)) / δ := by
    unfold betaVal
    rw [if_pos hδ]
    congr 3
    have := hκ'.ne'
    have := hδ.ne'
    rw [div_mul_eq_div_div_swap, div_self hδ.ne']
  rw [e]
  refine ⟨?_, ?_, ?_⟩
  · rintro rfl
    rw [sub_zero, one_div_one_div, add_sub_cancel, Real.log_exp, ← hbx]
  · intro ht
    conv_lhs => rw [hbx]
    apply div_lt_div_of_pos_right _ hlog
    apply div_lt_div_of_pos_right _ hδ
    rw [Real.lt_log_iff_exp_lt (by positivity)]
    have : 1 / (1 / (Real.exp x - 1)) < 1 / (1 / (Real.exp x - 1) - t) := one_div_lt_one_div_of_lt hκ' (by linarith)
    rw [one_div_one_div] at this
    linarith
  · intro ht
    conv_rhs => rw [hbx]
    apply div_lt_div_of_pos_right _ hlog
    apply div_lt_div_of_pos_right _ hδ
    rw [Real.log_lt_iff_lt_exp (by positivity)]
    have : 1 / (1 / (Real.exp x - 1) - t) < 1 / (1 / (Real.exp x - 1)) := one_div_lt_one_div_of_lt (by positivity) (by linarith)
    rw [one_div_one_div] at this
    linarith

/-- C109: with binned magnitudes, the classic estimates above any bin above the lowest one converge to exactly the b-value of the simulation, whatever
events below are missing. -/
theorem C109_classic_binned (hg : Spec.RandomDraws P g) (b δ : ℝ) (a : ℤ) (k : ℕ) (hb : 0 < b) (hδ : 1 / 10 ^ 12 ≤ δ) (hk : 1 ≤ k) :
    ConvergesAbove P g .classic b (a * δ) δ ((a + k) * δ) b := by
  have hp : 0 < δ := lt_of_lt_of_le (by positivity) hδ
  have hex : 0 < Real.exp (b * Real.log 10 * δ) - 1 := by
    have : (1 : ℝ) < Real.exp (b * Real.log 10 * δ) := Real.one_lt_exp_iff.2 (mul_pos (mul_pos hb log_ten_pos) hp)
    linarith
  have hκ : (0 : ℝ) < 1 / (Real.exp (b * Real.log 10 * δ) - 1) := by positivity
  have h := classic_near_bin hg b δ 0 a k hb hδ hk (by norm_num) (by norm_num) hκ
  rw [(betaVal_bin hb hp hκ).1 rfl, add_zero] at h
  exact h

/-- C109 (limit): a completeness magnitude that is not a bin gives biased estimates: above the true b-value if it is up to half a bin above a bin, below it if it is less than
half a bin below. -/
theorem C109_off_bins_biased (hg : Spec.RandomDraws P g) (b δ t : ℝ) (a : ℤ) (k : ℕ) (hb : 0 < b) (hδ : 1 / 10 ^ 12 ≤ δ) (hk : 1 ≤ k)
    (ht0 : -(1 / 2) < t) (ht1 : t ≤ 1 / 2) (hκ : t < 1 / (Real.exp (b * Real.log 10 * δ) - 1)) :
    ∃ b', ConvergesAbove P g .classic b (a * δ) δ ((a + k + t) * δ) b' ∧ (0 < t → b < b') ∧ (t < 0 → b' < b) := by
  have hp : 0 < δ := lt_of_lt_of_le (by positivity) hδ
  exact ⟨_, classic_near_bin hg b δ t a k hb hδ hk ht0 ht1 hκ, (betaVal_bin hb hp hκ).2⟩

/-- C109 (limit): with binned magnitudes the Utsu estimates converge to a smaller number than the b-value of the simulation. -/
theorem C109_utsu_binned_biased (hg : Spec.RandomDraws P g) (b δ : ℝ) (a : ℤ) (k : ℕ) (hb : 0 < b) (hδ : 1 / 10 ^ 12 ≤ δ) (hk : 1 ≤ k) :
    ∃ b', b' < b ∧ ConvergesAbove P g .utsu b (a * δ) δ ((a + k) * δ) b' := by
  have hp : 0 < δ := lt_of_lt_of_le (by positivity) hδ
  have hx : 0 < b * Real.log 10 * δ := mul_pos (mul_pos hb log_ten_pos) hp
  have hex : 0 < Real.exp (b * Real.log 10 * δ) - 1 := by
    have : (1 : ℝ) < Real.exp (b * Real.log 10 * δ) := Real.one_lt_exp_iff.2 hx
    linarith
  refine ⟨1 / ((1 / (Real.exp (b * Real.log 10 * δ) - 1) - 0) * δ + δ / 2) / Real.log 10, ?_, ?_⟩
  · have hlog10 := log_ten_pos
    rw [sub_zero, div_lt_iff₀ hlog10, div_lt_iff₀ (by positivity)]
    have key : 1 < b * Real.log 10 * δ * (1 / (Real.exp (b * Real.log 10 * δ) - 1) + 1 / 2) := by
      have h := Real.lt_log_one_add_of_pos hex
      rw [show 1 + (Real.exp (b * Real.log 10 * δ) - 1) = Real.exp (b * Real.log 10 * δ) by ring, Real.log_exp, div_lt_iff₀ (by linarith)] at h
      rw [div_add_div _ _ hex.ne' two_ne_zero, ← mul_div_assoc, lt_div_iff₀ (by positivity)]
      linarith
    calc (1 : ℝ) < b * Real.log 10 * δ * (1 / (Real.exp (b * Real.log 10 * δ) - 1) + 1 / 2) := key
      _ = b * Real.log 10 * (1 / (Real.exp (b * Real.log 10 * δ) - 1) * δ + δ / 2) := by ring
  · refine convergesAbove_of (fun ω i => ((a + ⌊(g ω).expo i / (b * Real.log 10 * δ) + 1 / 10 ^ 12⌋ : ℤ) : ℝ) * δ) (fun ω n => simulate_grid (g ω) n a hb hδ) ?_
    filter_upwards [above_means_grid (ε := 1 / 10 ^ 12) (t := 0) hg hx hp (by norm_num) a k hk (by norm_num) (by norm_num)] with ω ⟨h1, h2⟩
    rw [add_zero] at h1 h2
    exact utsuAbove_tendsto _ _ δ _ _ (by rw [sub_zero]; positivity) (Real.exp_pos _) (Or.inr ⟨hδ, fun i => ⟨_, rfl⟩⟩) h1 h2

/-- The limit of the definition is unique. -/
theorem convergesAbove_unique [IsProbabilityMeasure P] {c : Cls} {b mc δ mc' : ℝ} {u v : ℝ} (h1 : ConvergesAbove P g c b mc δ mc' u)
    (h2 : ConvergesAbove P g c b mc δ mc' v) : u = v := by
  have h : ∀ᵐ ω ∂P, u = v := by
    filter_upwards [h1, h2] with ω h1 h2
    obtain ⟨e, a1, a2⟩ := h1
    obtain ⟨f, b1, b2⟩ := h2
    refine tendsto_nhds_unique a2 (b2.congr' ?_)
    filter_upwards [a1, b1] with n a1 b1
    obtain ⟨m1, s1, k1⟩ := a1
    obtain ⟨m2, s2, k2⟩ := b1
    rw [s1] at s2
    injection s2 with s2
    subst s2
    have r1 := k1 (fun _ => True) (fun _ _ _ _ => trivial) false State.init .init
    have r2 := k2 (fun _ => True) (fun _ _ _ _ => trivial) false State.init .init
    rw [r1] at r2
    injection r2 with r2
    injection r2 with r2
    exact r2.symm
  exact h.exists.choose_spec

/-- A case: b-value 1, bins of 0.1 from 2.0, estimates above 2.2: they converge to 1, and above 2.25 to a larger number. -/
example : ∃ (Ω : Type) (_ : MeasurableSpace Ω) (P : Measure Ω) (g : Ω → Rng), Spec.RandomDraws P g ∧
    ConvergesAbove P g .classic 1 ((20 : ℤ) * (1 / 10)) (1 / 10) ((((20 : ℤ) : ℝ) + (2 : ℕ)) * (1 / 10)) 1 ∧
    ∃ b', 1 < b' ∧ ConvergesAbove P g .classic 1 ((20 : ℤ) * (1 / 10)) (1 / 10) ((((20 : ℤ) : ℝ) + (2 : ℕ) + 1 / 2) * (1 / 10)) b' := by
  obtain ⟨Ω, mΩ, P, hP, g, hg⟩ := randomDraws_exist
  refine ⟨Ω, mΩ, P, g, hg, C109_classic_binned hg 1 (1 / 10) 20 2 one_pos (by norm_num) (by norm_num), ?_⟩
  obtain ⟨b', h1, h2, -⟩ := C109_off_bins_biased hg 1 (1 / 10) (1 / 2) 20 2 one_pos (by norm_num) (by norm_num) (by norm_num) le_rfl (by
    have h1 : Real.exp (1 * Real.log 10 * (1 / 10)) ≤ 2 := by
      rw [← Real.le_log_iff_exp_le (by norm_num)]
      have : Real.log 10 ≤ Real.log (2 ^ 10) := Real.log_le_log (by norm_num) (by norm_num)
      rw [Real.log_pow] at this
      push_cast at this
      linarith
    have h2 : 1 < Real.exp (1 * Real.log 10 * (1 / 10)) := Real.one_lt_exp_iff.2 (by have := log_ten_pos; positivity)
    rw [lt_div_iff₀ (by linarith)]
    linarith)
  exact ⟨b', h2 (by norm_num), h1⟩

end
end SeismoStats.Props
