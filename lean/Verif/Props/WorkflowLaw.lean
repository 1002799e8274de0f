/-
Property C110: the whole workflow on a catalogue of simulated magnitudes, `estimate_mc_maxc`, `estimate_b`, `estimate_a`, finds mc, b-value and number of events of the simulation.
-/
import Verif.Props.AboveLaw
import Verif.Props.MaxcLaw
import Verif.Props.CatalogMc
import Mathlib.Analysis.SpecialFunctions.Log.Base

namespace SeismoStats.Props
open SeismoStats SeismoStats.Catalog SeismoStats.CatalogEstimates SeismoStats.CatalogMc SeismoStats.EstimateMc
open SeismoStats.Simulate SeismoStats.BValue MeasureTheory ProbabilityTheory Filter Topology
open Classical
noncomputable section

variable {Ω : Type} [MeasurableSpace Ω] {P : Measure Ω} {g : Ω → Rng}

/-! ### Specification -/

/-- A catalogue with these magnitudes in its rows, without weights, and with this bin width; whatever else is in it. -/
structure HoldsMagnitudes (c : Ct) (mags : List ℝ) (δ : ℝ) : Prop where
  ordinary : Ordinary c.frame
  weights : "weight" ∉ c.frame.cols
  rows : c.frame.rows.map magIn = mags.map some
  binWidth : c.deltaM = some δ

/-- The three calls one after the other: `cat.estimate_mc_maxc(fmd_bin, correction)`, `cat.estimate_b()`, `cat.estimate_a(scaling_factor, m_ref, cat.b_value)`. -/
def workflow (warn : Bool) (c : Ct) (fmdBin corr scaling mRef : ℝ) : Ct :=
  let c1 := (estimateMaxc c fmdBin corr).1
  let c2 := (estimateB c1 none none none (bMethod .classic warn) []).1
  (estimateA c2 none none (some (.fin scaling)) (some (.fin mRef)) c2.bValue (aMethod .classic warn) []).1

/-! ### Proof -/

theorem recorded_all (mags : List ℝ) : recorded mags (fun _ => True) = mags := by
  unfold recorded
  rw [List.filter_eq_self.2 (by simp)]
  apply List.ext_getElem
  · simp
  · intro i h1 h2
    simp [List.getD_eq_getElem?_getD, h2]

theorem countAbove_some (mags : List ℝ) (thr : ℝ) : countAbove (mags.map some) thr = (mags.filter fun m => decide (thr ≤ m)).length := by
  unfold countAbove
  rw [List.countP_map, List.countP_eq_length_filter]
  rfl

theorem countAbove_first (X : ℕ → ℝ) (n : ℕ) (thr : ℝ) :
    (countAbove ((firstMags X n).map some) thr : ℝ) = ∑ i ∈ Finset.range n, if thr ≤ X i then (1 : ℝ) else 0 := by
  have h := recorded_filter X n (fun _ => True) thr (fun _ _ _ => trivial)
  rw [recorded_all] at h
  rw [countAbove_some, h, ← sum_filter_range n (fun i => thr ≤ X i) fun _ => 1]
  simp

/-- What the three calls do if the first one stores `mc'` and the second one `b'`. -/
theorem workflow_eq (warn : Bool) (c : Ct) {mags : List ℝ} {δ corr mc' b' f r : ℝ} (hc : HoldsMagnitudes c mags δ) (hδ : 1 / 10 ^ 12 ≤ δ) (hf : 0 < f)
    (hgrid : ∀ m ∈ mags, ∃ z : ℤ, m = z * δ) (h1 : mcMaxc (mags.map some) δ corr = .ok (mc', corr))
    (h2 : (calculate .classic warn State.init { mags := mags.map some, mc := mc', δ := δ }).2 = .ok (.fin b'))
    (hn : 0 < countAbove (mags.map some) (mc' - δ / 2)) :
    ∃ a : ℝ, workflow warn c δ corr f r = { c with mc := some (.fin mc'), bValue := some (.fin b'), aValue := some (.fin a) } ∧
      (10 : ℝ) ^ a = countAbove (mags.map some) (mc' - δ / 2) / f * (10 : ℝ) ^ (-b' * (r - mc')) := by
  have e1 : (estimateMaxc c δ corr).1 = { c with mc := some (.fin mc') } := by
    rw [estimateMaxc_eq c hc.ordinary.magnitude, hc.rows, h1]
  have e2 : (estimateB { c with mc := some (.fin mc') } none none none (bMethod .classic warn) []).1 = { c with mc := some (.fin mc'), bValue := some (.fin b') } := by
    have key := C89_estimate_b .classic warn { c with mc := some (.fin mc') } hc.ordinary none none mc' δ (Or.inr ⟨rfl, rfl⟩) (Or.inr ⟨rfl, hc.binWidth⟩) none none (Or.inr rfl)
    have hargs : bArgsOf .classic c.frame mc' δ none none = { mags := mags.map some, mc := mc', δ := δ } := by
      unfold bArgsOf weightsFrom
      rw [if_neg hc.weights, if_neg (by rintro (h | h) <;> cases h), hc.rows]
    change estimateB { c with mc := some (.fin mc') } none none none (bMethod .classic warn) [] = _ at key
    rw [key]
    change (match calculate .classic warn State.init (bArgsOf .classic c.frame mc' δ none none) with | (_, .error e) => _ | (s, .ok r) => _ : Ct × Py BValue.State).1 = _
    rw [hargs]
    cases hk : calculate .classic warn State.init { mags := mags.map some, mc := mc', δ := δ } with
    | mk s x =>
      rw [hk] at h2
      change x = _ at h2
      rw [h2]
  have e3 := C89_estimate_a .classic warn { c with mc := some (.fin mc'), bValue := some (.fin b') } hc.ordinary none none mc' δ (Or.inr ⟨rfl, rfl⟩) (Or.inr ⟨rfl, hc.binWidth⟩)
    (some f) (some r) (some b') none (Or.inr ⟨rfl, rfl⟩)
  have hargs : aArgsOf .classic c.frame mc' δ (some f) (some r) (some b') none = { mags := mags.map some, mc := mc', δ := δ, scaling := some f, mref := some r, b := some b' } := by
    unfold aArgsOf
    rw [if_pos rfl, hc.rows]
  have hbin : Binned { mags := mags.map some, mc := mc', δ := δ, scaling := some f, mref := some r, b := some b' } :=
    (accepted_all mags mc' δ none (Or.inr ⟨hδ, hgrid⟩)).binned
  obtain ⟨a, k1, k2⟩ := C29_rate warn AValue.State.init { mags := mags.map some, mc := mc', δ := δ, scaling := some f, mref := some r, b := some b' } b' r f rfl hf rfl rfl hbin hn
  refine ⟨a, ?_, k2⟩
  unfold workflow
  simp only [e1, e2]
  change (estimateA { c with mc := some (.fin mc'), bValue := some (.fin b') } none none (asFloat (some f)) (asFloat (some r)) (asFloat (some b')) (aMethod .classic warn) (givenDmc none)).1 = _
  rw [e3]
  change (match AValue.calculate .classic warn AValue.State.init (aArgsOf .classic c.frame mc' δ (some f) (some r) (some b') none) with | (_, .error e) => _ | (s, .ok r) => _ : Ct × Py AValue.State).1 = _
  rw [hargs]
  cases hk : AValue.calculate .classic warn AValue.State.init { mags := mags.map some, mc := mc', δ := δ, scaling := some f, mref := some r, b := some b' } with
  | mk s x =>
    rw [hk] at k1
    change x = _ at k1
    rw [k1]

/-- The workflow with a correction of about `k` bins. -/
theorem workflow_near_bin (hg : Spec.RandomDraws P g) (b δ t : ℝ) (a : ℤ) (k : ℕ) (hb : 0 < b) (hδ : 1 / 10 ^ 12 ≤ δ) (hx : 1 / 10 ^ 11 ≤ b * Real.log 10 * δ) (hk : 1 ≤ k)
    (ht0 : -(1 / 2) < t) (ht1 : t ≤ 1 / 2) (hκ : t < 1 / (Real.exp (b * Real.log 10 * δ) - 1)) (limit : ℝ)
    (hl : limit = betaVal ((1 / (Real.exp (b * Real.log 10 * δ) - 1) - t) * δ) δ / Real.log 10) :
    ∀ᵐ ω ∂P, ∃ bs N : ℕ → ℝ,
      (∀ᶠ n in atTop, ∃ mags, simulateBinned n (fun _ => b) (a * δ) δ none .bValue (g ω) = .ok mags ∧
        ∀ warn c, HoldsMagnitudes c mags δ → ∀ f r : ℝ, 0 < f → ∃ av : ℝ,
          workflow warn c δ ((k + t) * δ) f r = { c with mc := some (.fin ((a + k + t) * δ)), bValue := some (.fin (bs n)), aValue := some (.fin av) } ∧
          (10 : ℝ) ^ av = N n / f * (10 : ℝ) ^ (-bs n * (r - (a + k + t) * δ))) ∧
      Tendsto bs atTop (𝓝 limit) ∧
      Tendsto (fun n : ℕ => N n / n) atTop (𝓝 (Real.exp (-(b * Real.log 10 * δ) * (k - 1 / 10 ^ 12)))) := by
  have hp : 0 < δ := lt_of_lt_of_le (by positivity) hδ
  have hx0 : 0 < b * Real.log 10 * δ := mul_pos (mul_pos hb log_ten_pos) hp
  subst hl
  filter_upwards [C98_binned hg b δ ((k + t) * δ) a hb hδ hx, classic_near_bin hg b δ t a k hb hδ hk ht0 ht1 hκ,
    above_means_grid (ε := 1 / 10 ^ 12) hg hx0 hp (by norm_num) a k hk ht0 ht1] with ω h1 ⟨est, h2, h3⟩ ⟨h4, _⟩
  refine ⟨est, fun n => ∑ i ∈ Finset.range n, if (a + k + t) * δ - δ / 2 ≤ ((a + ⌊(g ω).expo i / (b * Real.log 10 * δ) + 1 / 10 ^ 12⌋ : ℤ) : ℝ) * δ then (1 : ℝ) else 0, ?_, h3, h4⟩
  filter_upwards [h1, h2, h4.eventually (lt_mem_nhds (Real.exp_pos _)), eventually_gt_atTop 0] with n ⟨mags, s1, k1⟩ ⟨mags', s2, k2⟩ k3 hn
  have hn' : (0 : ℝ) < n := by exact_mod_cast hn
  have s3 := simulate_grid (g ω) n a hb hδ
  rw [s3] at s1 s2
  injection s1 with s1
  injection s2 with s2
  subst s1
  subst s2
  refine ⟨_, s3, fun warn c hc f r hf => ?_⟩
  have hcount := countAbove_first (fun i => ((a + ⌊(g ω).expo i / (b * Real.log 10 * δ) + 1 / 10 ^ 12⌋ : ℤ) : ℝ) * δ) n ((a + k + t) * δ - δ / 2)
  have hpos := (div_pos_iff_of_pos_right hn').1 k3
  have hb' := k2 (fun _ => True) (fun _ _ _ _ => trivial) warn State.init .init
  rw [recorded_all] at hb'
  rw [show (a : ℝ) * δ + (k + t) * δ = (a + k + t) * δ by ring] at k1
  obtain ⟨av, e1, e2⟩ := workflow_eq warn c (r := r) hc hδ hf (fun m hm => by obtain ⟨i, rfl⟩ := mem_firstMags hm; exact ⟨_, rfl⟩) k1 hb'
    (by rw [← Nat.cast_pos (α := ℝ), hcount]; exact hpos)
  refine ⟨av, e1, ?_⟩
  rw [e2, hcount]

/-- C110: on a catalogue of magnitudes simulated in bins of `delta_m` with b-value `b` above `mc = a * delta_m`, with a correction of `k ≥ 1` bins: almost surely, from some number of events on,
`estimate_mc_maxc` stores exactly `mc` plus the correction, `estimate_b` stores a number and these converge to `b`, and `estimate_a` with the reference magnitude `mc`
and the stored b-value stores an a-value, where `10 ** a` times the scaling factor over the number of events converges to a number less than one part in 10^12 (relative to
the b-value times the bin width) above 1. Nothing else in the catalogue changes. -/
theorem C110_workflow (hg : Spec.RandomDraws P g) (b δ : ℝ) (a : ℤ) (k : ℕ) (hb : 0 < b) (hδ : 1 / 10 ^ 12 ≤ δ) (hx : 1 / 10 ^ 11 ≤ b * Real.log 10 * δ) (hk : 1 ≤ k) :
    ∀ᵐ ω ∂P, ∃ bs avs : ℕ → ℝ,
      (∀ᶠ n in atTop, ∃ mags, simulateBinned n (fun _ => b) (a * δ) δ none .bValue (g ω) = .ok mags ∧
        ∀ warn c, HoldsMagnitudes c mags δ → ∀ f : ℝ, 0 < f →
          workflow warn c δ (k * δ) f (a * δ) =
            { c with mc := some (.fin (a * δ + k * δ)), bValue := some (.fin (bs n)), aValue := some (.fin (avs n - Real.logb 10 f)) }) ∧
      Tendsto bs atTop (𝓝 b) ∧ Tendsto (fun n : ℕ => (10 : ℝ) ^ avs n / n) atTop (𝓝 (Real.exp (b * Real.log 10 * δ / 10 ^ 12))) := by
  have hp : 0 < δ := lt_of_lt_of_le (by positivity) hδ
  have hx0 : 0 < b * Real.log 10 * δ := mul_pos (mul_pos hb log_ten_pos) hp
  have hex : 0 < Real.exp (b * Real.log 10 * δ) - 1 := by
    have : (1 : ℝ) < Real.exp (b * Real.log 10 * δ) := Real.one_lt_exp_iff.2 hx0
    linarith
  have hκ : (0 : ℝ) < 1 / (Real.exp (b * Real.log 10 * δ) - 1) := by positivity
  filter_upwards [workflow_near_bin hg b δ 0 a k hb hδ hx hk (by norm_num) (by norm_num) hκ b ((betaVal_bin hb hp hκ).1 rfl).symm] with ω ⟨bs, N, h1, h2, h3⟩
  have hNpos : ∀ᶠ n : ℕ in atTop, 0 < N n := by
    filter_upwards [h3.eventually (lt_mem_nhds (Real.exp_pos _)), eventually_gt_atTop 0] with n h hn
    exact (div_pos_iff_of_pos_right (by exact_mod_cast hn)).1 h
  refine ⟨bs, fun n => Real.logb 10 (N n) + bs n * (k * δ), ?_, h2, ?_⟩
  · filter_upwards [h1, hNpos] with n ⟨mags, s1, k1⟩ hN
    refine ⟨mags, s1, fun warn c hc f hf => ?_⟩
    obtain ⟨av, e1, e2⟩ := k1 warn c hc f (a * δ) hf
    rw [add_zero, add_zero] at e1
    rw [e1]
    have hav : av = Real.logb 10 (N n) + bs n * (k * δ) - Real.logb 10 f := by
      have h10 : Real.logb 10 ((10 : ℝ) ^ av) = av := Real.logb_rpow (by norm_num) (by norm_num)
      rw [← h10, e2, Real.logb_mul (by positivity) (by positivity), Real.logb_div hN.ne' hf.ne', Real.logb_rpow (by norm_num) (by norm_num)]
      ring
    rw [hav, add_mul]
  · have hlim : Tendsto (fun n : ℕ => N n / n * (10 : ℝ) ^ (bs n * (k * δ))) atTop
        (𝓝 (Real.exp (-(b * Real.log 10 * δ) * (k - 1 / 10 ^ 12)) * (10 : ℝ) ^ (b * (k * δ)))) :=
      h3.mul (tendsto_const_nhds.rpow (h2.mul_const _) (Or.inl (by norm_num)))
    have e : Real.exp (-(b * Real.log 10 * δ) * (k - 1 / 10 ^ 12)) * (10 : ℝ) ^ (b * (k * δ)) = Real.exp (b * Real.log 10 * δ / 10 ^ 12) := by
      rw [Real.rpow_def_of_pos (by norm_num), ← Real.exp_add]
      congr 1
      ring
    rw [e] at hlim
    refine hlim.congr' ?_
    filter_upwards [hNpos] with n hN
    rw [Real.rpow_add (by norm_num), Real.rpow_logb (by norm_num) (by norm_num) hN]
    ring

/-- C110 (limit): with a correction that is not a number of bins (0.2 by default, so with every bin width that does not divide it) the mc that is stored is not a bin and the stored
b-values converge to another number than that of the simulation. -/
theorem C110_correction_biased (hg : Spec.RandomDraws P g) (b δ t : ℝ) (a : ℤ) (k : ℕ) (hb : 0 < b) (hδ : 1 / 10 ^ 12 ≤ δ) (hx : 1 / 10 ^ 11 ≤ b * Real.log 10 * δ) (hk : 1 ≤ k)
    (ht0 : -(1 / 2) < t) (ht1 : t ≤ 1 / 2) (hκ : t < 1 / (Real.exp (b * Real.log 10 * δ) - 1)) :
    ∃ b', (0 < t → b < b') ∧ (t < 0 → b' < b) ∧ ∀ᵐ ω ∂P, ∃ bs : ℕ → ℝ,
      (∀ᶠ n in atTop, ∃ mags, simulateBinned n (fun _ => b) (a * δ) δ none .bValue (g ω) = .ok mags ∧
        ∀ warn c, HoldsMagnitudes c mags δ → ∀ f r : ℝ, 0 < f → (workflow warn c δ ((k + t) * δ) f r).bValue = some (.fin (bs n))) ∧
      Tendsto bs atTop (𝓝 b') := by
  have hp : 0 < δ := lt_of_lt_of_le (by positivity) hδ
  refine ⟨_, (betaVal_bin hb hp hκ).2.1, (betaVal_bin hb hp hκ).2.2, ?_⟩
  filter_upwards [workflow_near_bin hg b δ t a k hb hδ hx hk ht0 ht1 hκ _ rfl] with ω ⟨bs, N, h1, h2, _⟩
  refine ⟨bs, ?_, h2⟩
  filter_upwards [h1] with n ⟨mags, s1, k1⟩
  refine ⟨mags, s1, fun warn c hc f r hf => ?_⟩
  obtain ⟨av, e1, -⟩ := k1 warn c hc f r hf
  rw [e1]

/-! ### A case -/

/-- The catalogue with these magnitudes and nothing else. -/
def catalogueOf (mags : List ℝ) (δ : ℝ) : Ct :=
  { frame := { cols := ["magnitude"], rows := mags.map fun m => quakeRow (.num m) 0 1 }, deltaM := some δ }

theorem catalogueOf_holds (mags : List ℝ) (δ : ℝ) : HoldsMagnitudes (catalogueOf mags δ) mags δ := by
  have hcols : (catalogueOf mags δ).frame.cols = ["magnitude"] := rfl
  refine ⟨⟨by rw [hcols]; decide, fun h => absurd h (by rw [hcols]; decide), fun h => absurd h (by rw [hcols]; decide), by rw [hcols]; decide, by rw [hcols]; decide⟩,
    by rw [hcols]; decide, ?_, rfl⟩
  unfold catalogueOf
  rw [List.map_map]
  apply List.map_congr_left
  intro m _
  rfl

/-- b-value 1, bins of 0.1 from 2.0, and the default correction of 0.2: mc 2.2 is stored and the b-values converge to 1. -/
example : ∃ (Ω : Type) (_ : MeasurableSpace Ω) (P : Measure Ω) (g : Ω → Rng), Spec.RandomDraws P g ∧ ∀ᵐ ω ∂P, ∃ bs : ℕ → ℝ, Tendsto bs atTop (𝓝 1) ∧
    ∀ᶠ n in atTop, ∃ mags, simulateBinned n (fun _ => 1) 2 (1 / 10) none .bValue (g ω) = .ok mags ∧
      (workflow true (catalogueOf mags (1 / 10)) (1 / 10) (1 / 5) 1 2).bValue = some (.fin (bs n)) ∧
      (workflow true (catalogueOf mags (1 / 10)) (1 / 10) (1 / 5) 1 2).mc = some (.fin (11 / 5)) := by
  obtain ⟨Ω, mΩ, P, hP, g, hg⟩ := randomDraws_exist
  refine ⟨Ω, mΩ, P, g, hg, ?_⟩
  have hl : (1 : ℝ) ≤ Real.log 10 := by
    rw [Real.le_log_iff_exp_le (by norm_num)]
    have := Real.exp_one_lt_d9
    linarith
  filter_upwards [C110_workflow hg 1 (1 / 10) 20 2 one_pos (by norm_num) (by linarith) (by norm_num)] with ω ⟨bs, avs, h1, h2, _⟩
  refine ⟨bs, h2, ?_⟩
  filter_upwards [h1] with n ⟨mags, s1, k1⟩
  have h := k1 true (catalogueOf mags (1 / 10)) (catalogueOf_holds mags _) 1 one_pos
  norm_num at h s1 ⊢
  refine ⟨mags, s1, ?_⟩
  rw [h]
  exact ⟨rfl, rfl⟩

end
end SeismoStats.Props
