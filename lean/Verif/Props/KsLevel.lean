/-
Property C101: level of the Kolmogorov-Smirnov test of `ks_test_gr` and `estimate_mc_ks` for a known b-value.
-/
import Verif.Props.McKsLoop
import Verif.Props.Dither
import Verif.Props.Consistency
import Verif.Proofs.Exchange

namespace SeismoStats.Props
open SeismoStats SeismoStats.Simulate EstimateMc MeasureTheory ProbabilityTheory Filter Topology
open scoped BigOperators
open Classical
noncomputable section

variable {Ω : Type} [MeasurableSpace Ω] {P : Measure Ω} {g : Ω → Rng}

/-! ### ranks of exchangeable values -/

/-- The number of the others whose value is at least that of `j`. -/
def notSmaller {n : ℕ} (t : Fin (n + 1) → Option ℝ) (j : Fin (n + 1)) : ℕ :=
  ((Finset.univ.erase j).filter fun i => ∃ D D', t j = some D ∧ t i = some D' ∧ D ≤ D').card

/-- At most `k + 1` of the values have at most `k` others that are not smaller. -/
theorem few_small_ranks {n : ℕ} (t : Fin (n + 1) → Option ℝ) (k : ℕ) :
    (Finset.univ.filter fun j => (∃ D, t j = some D) ∧ notSmaller t j ≤ k).card ≤ k + 1 := by
  set S := Finset.univ.filter fun j => (∃ D, t j = some D) ∧ notSmaller t j ≤ k with hS
  by_cases hne : S.Nonempty
  · obtain ⟨j, hj, hmin⟩ := S.exists_min_image (fun j => (t j).getD 0) hne
    have hj' := hj
    rw [hS, Finset.mem_filter] at hj'
    obtain ⟨-, ⟨D, hD⟩, hk⟩ := hj'
    have hsub : S.erase j ⊆ (Finset.univ.erase j).filter fun i => ∃ D D', t j = some D ∧ t i = some D' ∧ D ≤ D' := by
      intro i hi
      rw [Finset.mem_erase] at hi
      have hi2 := hi.2
      rw [hS, Finset.mem_filter] at hi2
      obtain ⟨-, ⟨D', hD'⟩, -⟩ := hi2
      rw [Finset.mem_filter, Finset.mem_erase]
      refine ⟨⟨hi.1, Finset.mem_univ _⟩, D, D', hD, hD', ?_⟩
      have := hmin i hi.2
      rw [hD, hD'] at this
      simpa using this
    have h1 := (Finset.card_le_card hsub).trans hk
    rw [Finset.card_erase_of_mem hj] at h1
    omega
  · rw [Finset.not_nonempty_iff_eq_empty.1 hne]; simp

theorem notSmaller_comp {n : ℕ} (t : Fin (n + 1) → Option ℝ) (σ : Equiv.Perm (Fin (n + 1))) (j : Fin (n + 1)) : notSmaller (t ∘ σ) j = notSmaller t (σ j) := by
  unfold notSmaller
  refine Finset.card_bij (fun i _ => σ i) ?_ (fun a _ b _ h => σ.injective h) ?_
  · intro i hi
    simp only [Finset.mem_filter, Finset.mem_erase, Finset.mem_univ, and_true, Function.comp] at hi ⊢
    exact ⟨fun h => hi.1 (σ.injective h), hi.2⟩
  · intro i hi
    refine ⟨σ.symm i, ?_, by simp⟩
    simp only [Finset.mem_filter, Finset.mem_erase, Finset.mem_univ, and_true, Function.comp, Equiv.apply_symm_apply] at hi ⊢
    refine ⟨fun h => hi.1 ?_, hi.2⟩
    rw [← h]; simp

/-- Exchangeable values in a countable space: the probability that at most `k` of the `n` others have a value of at least that of the first is at most `(k + 1) / (n + 1)`. -/
theorem rank_bound [IsProbabilityMeasure P] {E : Type} [MeasurableSpace E] [Countable E] [MeasurableSingletonClass E] {n : ℕ} {Z : Ω → Fin (n + 1) → E} (hZ : Measurable Z)
    (hinv : ∀ σ : Equiv.Perm (Fin (n + 1)), P.map (fun ω => Z ω ∘ σ) = P.map Z) (T : E → Option ℝ) (k : ℕ) :
    P.real {ω | (∃ D, T (Z ω 0) = some D) ∧ notSmaller (T ∘ Z ω) 0 ≤ k} ≤ ((k : ℝ) + 1) / (n + 1) := by
  set A : Fin (n + 1) → Set (Fin (n + 1) → E) := fun j => {z | (∃ D, T (z j) = some D) ∧ notSmaller (T ∘ z) j ≤ k} with hA
  have hms : ∀ S : Set (Fin (n + 1) → E), MeasurableSet S := fun S => S.to_countable.measurableSet
  have hsame : ∀ j, P.real (Z ⁻¹' A j) = P.real (Z ⁻¹' A 0) := by
    intro j
    have hmσ : Measurable fun ω => Z ω ∘ Equiv.swap 0 j := measurable_pi_iff.2 fun i => (measurable_pi_apply _).comp hZ
    have e1 : Z ⁻¹' A j = (fun ω => Z ω ∘ Equiv.swap 0 j) ⁻¹' A 0 := by
      ext ω
      simp only [hA, Set.mem_preimage, Set.mem_ofPred_eq]
      rw [show T ∘ (Z ω ∘ Equiv.swap 0 j) = (T ∘ Z ω) ∘ Equiv.swap 0 j from rfl, notSmaller_comp]
      simp
    have e2 : P (Z ⁻¹' A j) = P (Z ⁻¹' A 0) := by
      rw [e1, ← Measure.map_apply hmσ (hms _), hinv, Measure.map_apply hZ (hms _)]
    unfold Measure.real
    rw [e2]
  have hsum : ∑ j, P.real (Z ⁻¹' A j) ≤ (k : ℝ) + 1 := by
    have h1 : ∀ j, P.real (Z ⁻¹' A j) = ∫ ω, (Z ⁻¹' A j).indicator (fun _ => (1 : ℝ)) ω ∂P := by
      intro j
      rw [integral_indicator (hZ (hms _)), setIntegral_const]
      simp
    have hi : ∀ j ∈ Finset.univ, Integrable ((Z ⁻¹' A j).indicator fun _ => (1 : ℝ)) P := fun j _ => (integrable_const 1).indicator (hZ (hms _))
    rw [Finset.sum_congr rfl fun j _ => h1 j, ← integral_finsetSum _ hi]
    have h2 : ∀ ω, ∑ j, (Z ⁻¹' A j).indicator (fun _ => (1 : ℝ)) ω ≤ (k : ℝ) + 1 := by
      intro ω
      have : ∑ j, (Z ⁻¹' A j).indicator (fun _ => (1 : ℝ)) ω = ((Finset.univ.filter fun j => (∃ D, (T ∘ Z ω) j = some D) ∧ notSmaller (T ∘ Z ω) j ≤ k).card : ℝ) := by
        rw [Finset.card_filter, Nat.cast_sum]
        refine Finset.sum_congr rfl fun j _ => ?_
        rw [Set.indicator_apply]
        by_cases h : (∃ D, (T ∘ Z ω) j = some D) ∧ notSmaller (T ∘ Z ω) j ≤ k
        · rw [if_pos h, if_pos (show ω ∈ Z ⁻¹' A j from h)]; simp
        · rw [if_neg h, if_neg (show ¬ ω ∈ Z ⁻¹' A j from h)]; simp
      rw [this]
      exact_mod_cast few_small_ranks (T ∘ Z ω) k
    calc _ ≤ ∫ ω, ((k : ℝ) + 1) ∂P := integral_mono (integrable_finsetSum _ hi) (integrable_const _) h2
      _ = _ := by simp
  rw [Finset.sum_congr rfl fun j _ => hsame j, Finset.sum_const, Finset.card_univ, Fintype.card_fin, nsmul_eq_mul] at hsum
  rw [le_div_iff₀ (by positivity), mul_comm]
  push_cast at hsum
  exact hsum

/-! ### the samples -/

/-- The generator after `k` draws. -/
def later (r : Rng) (k : ℕ) : Rng := ⟨fun i => r.uniform (k + i), fun i => r.expo (k + i)⟩

/-- The bins hit by sample number `i` of `m` magnitudes. -/
def hitBins (g : Ω → Rng) (x ε : ℝ) (n m : ℕ) (ω : Ω) (i : Fin (n + 1)) (j : Fin m) : ℤ := ⌊(g ω).expo (i * m + j) / x + ε⌋

/-- The magnitudes of the bins. -/
def binMags (a : ℤ) (δ : ℝ) {m : ℕ} (z : Fin m → ℤ) : List ℝ := (List.ofFn z).map fun q => ((a + q : ℤ) : ℝ) * δ

omit [MeasurableSpace Ω] in
theorem simulate_block (ω : Ω) {b δ : ℝ} (a : ℤ) (hb : 0 < b) (hδ : 1 / 10 ^ 12 ≤ δ) {n m : ℕ} (i : Fin (n + 1)) :
    simulateBinned m (fun _ => b) (a * δ) δ none .bValue (later (g ω) (i * m)) = .ok (binMags a δ (hitBins g (b * Real.log 10 * δ) (1 / 10 ^ 12) n m ω i)) := by
  rw [simulate_grid _ m a hb hδ]
  congr 1
  unfold firstMags binMags hitBins later
  rw [List.map_ofFn]
  apply List.ext_getElem
  · simp
  · intro j h1 h2
    simp

theorem hitBins_measurable (hg : Spec.RandomDraws P g) (x ε : ℝ) (n m : ℕ) : Measurable (hitBins g x ε n m) := by
  refine measurable_pi_iff.2 fun i => measurable_pi_iff.2 fun j => ?_
  exact Int.measurable_floor.comp (((hg.expo_measurable _).div_const _).add_const _)

theorem hitBins_exchangeable [IsProbabilityMeasure P] (hg : Spec.RandomDraws P g) (x ε : ℝ) (n m : ℕ) (σ : Equiv.Perm (Fin (n + 1))) :
    P.map (fun ω => hitBins g x ε n m ω ∘ σ) = P.map (hitBins g x ε n m) := by
  set H : (Fin (n + 1) × Fin m → ℝ) → Fin (n + 1) → Fin m → ℤ := fun e i j => ⌊e (i, j) / x + ε⌋ with hH
  have hHm : Measurable H := by
    refine measurable_pi_iff.2 fun i => measurable_pi_iff.2 fun j => ?_
    exact Int.measurable_floor.comp (((measurable_pi_apply _).div_const _).add_const _)
  have rep : ∀ τ : Equiv.Perm (Fin (n + 1)), (fun ω => hitBins g x ε n m ω ∘ τ) = H ∘ fun ω p => (g ω).expo ((τ p.1 : Fin (n + 1)) * m + (p.2 : Fin m)) := fun τ => rfl
  have inj : ∀ τ : Equiv.Perm (Fin (n + 1)), Function.Injective fun p : Fin (n + 1) × Fin m => ((τ p.1 : Fin (n + 1)) : ℕ) * m + (p.2 : Fin m) := by
    rintro τ ⟨k, r⟩ ⟨k', r'⟩ h
    simp only at h
    have hr := r.2
    have hr' := r'.2
    have hn : 0 < m := by omega
    have h1 : ((τ k : ℕ) * m + r) / m = τ k := by rw [Nat.add_comm, Nat.add_mul_div_right _ _ hn, Nat.div_eq_of_lt hr, Nat.zero_add]
    have h2 : ((τ k' : ℕ) * m + r') / m = τ k' := by rw [Nat.add_comm, Nat.add_mul_div_right _ _ hn, Nat.div_eq_of_lt hr', Nat.zero_add]
    have e1 : (τ k : ℕ) = τ k' := by rw [← h1, ← h2, h]
    have e2 : k = k' := τ.injective (Fin.ext e1)
    subst e2
    have e3 : r = r' := Fin.ext (by omega)
    rw [e3]
  have hmv : ∀ τ : Equiv.Perm (Fin (n + 1)), Measurable fun ω (p : Fin (n + 1) × Fin m) => (g ω).expo ((τ p.1 : Fin (n + 1)) * m + (p.2 : Fin m)) :=
    fun τ => measurable_pi_iff.2 fun p => hg.expo_measurable _
  have law : ∀ τ : Equiv.Perm (Fin (n + 1)), P.map (fun ω => hitBins g x ε n m ω ∘ τ) = (Measure.pi fun _ : Fin (n + 1) × Fin m => expMeasure 1).map H := by
    intro τ
    rw [rep τ, ← Measure.map_map hHm (hmv τ)]
    congr 1
    exact Exchange.law_pick (fun i => hg.expo_measurable i) hg.expo_indep hg.expo_law (inj τ)
  rw [law σ, ← law 1]
  rfl

/-- The distance of a sample, if it is a number. -/
def distOf (xb : List ℝ) (mc δ : ℝ) (β : Fl ℝ) (s : List ℝ) : Option ℝ :=
  match ksDistance s (onesLike none s) xb mc δ β with
  | .ok (.fin D) => some D
  | _ => none

theorem ksTest_parts {mags : List ℝ} {mc δ : ℝ} {b : Fl ℝ} {sims : List (List ℝ)} {p d : Fl ℝ} {ds : List (Fl ℝ)}
    (h : ksTestCore mags mc δ b none sims none = .ok (p, d, ds)) :
    ∃ top xb, maxConsidered b mags.length sims.length mc = .ok top ∧ ksBins mc top δ = .ok xb ∧
      List.Forall₂ (fun s x => ksDistance s (onesLike none s) xb mc δ (BValue.bToBeta b) = .ok x) sims ds ∧
      ksDistance mags (onesLike none mags) xb mc δ (BValue.bToBeta b) = .ok d ∧ pValue ds d = .ok p := by
  unfold ksTestCore at h
  simp only [Bind.bind, Except.bind, pure, Except.pure] at h
  cases h1 : maxConsidered b mags.length sims.length mc with
  | error e => rw [h1] at h; cases h
  | ok top =>
    rw [h1] at h
    simp only at h
    cases h2 : ksBins mc top δ with
    | error e => rw [h2] at h; cases h
    | ok xb =>
      rw [h2] at h
      simp only at h
      split at h
      · cases h
      · rename_i ds' h3
        split at h
        · cases h
        · rename_i d' h4
          split at h
          · cases h
          · rename_i p' h5
            cases h
            exact ⟨top, xb, rfl, h2, (mapM_ok_iff _ _ _).1 h3, h4, h5⟩

/-- `ks_test_gr` on simulated data: the sample consists of the first `m` magnitudes simulated with the b-value that is tested, the `n` samples drawn by the function follow. -/
def ksOnSimulated (warn : Bool) (b mc δ : ℝ) (m n : ℕ) (r : Rng) : Py (Fl ℝ × Fl ℝ × List (Fl ℝ)) := do
  let mags ← simulateBinned m (fun _ => b) mc δ none .bValue r
  let sims ← (List.range n).mapM fun i => simulateBinned m (fun _ => b) mc δ none .bValue (later r ((i + 1) * m))
  ksTest warn mags mc δ (.fin b) none sims none

omit [MeasurableSpace Ω] in
theorem ksOnSimulated_eq (warn : Bool) (ω : Ω) {b δ : ℝ} (a : ℤ) (hb : 0 < b) (hδ : 1 / 10 ^ 12 ≤ δ) {n m : ℕ} :
    ksOnSimulated warn b (a * δ) δ m n (g ω) = ksTest warn (binMags a δ (hitBins g (b * Real.log 10 * δ) (1 / 10 ^ 12) n m ω 0)) (a * δ) δ (.fin b) none
      ((List.finRange n).map fun i => binMags a δ (hitBins g (b * Real.log 10 * δ) (1 / 10 ^ 12) n m ω i.succ)) none := by
  unfold ksOnSimulated
  have h0 : simulateBinned m (fun _ => b) (a * δ) δ none .bValue (g ω) = .ok (binMags a δ (hitBins g (b * Real.log 10 * δ) (1 / 10 ^ 12) n m ω 0)) := by
    rw [← simulate_block ω a hb hδ]
    congr 1
    unfold later
    simp
  have h1 : (List.range n).mapM (fun i => simulateBinned m (fun _ => b) (a * δ) δ none .bValue (later (g ω) ((i + 1) * m))) =
      .ok ((List.finRange n).map fun i => binMags a δ (hitBins g (b * Real.log 10 * δ) (1 / 10 ^ 12) n m ω i.succ)) := by
    rw [mapM_ok_iff, List.forall₂_iff_get]
    refine ⟨by simp, ?_⟩
    intro i h1 h2
    have hi : i < n := by simpa using h1
    have := simulate_block (g := g) ω a hb hδ (n := n) (m := m) (Fin.succ ⟨i, hi⟩)
    simpa using this
  rw [h0, h1]
  rfl

theorem card_countP {n : ℕ} (q : Fin n → Prop) [DecidablePred q] : (Finset.univ.filter q).card = (List.finRange n).countP fun i => decide (q i) := by
  rw [List.countP_eq_length_filter]
  rfl

omit [MeasurableSpace Ω] in
theorem hitBins_nonneg {ω : Ω} (hpos : ∀ i, 0 < (g ω).expo i) {x ε : ℝ} (hx : 0 < x) (hε : 0 ≤ ε) {n m : ℕ} (i : Fin (n + 1)) (j : Fin m) : 0 ≤ hitBins g x ε n m ω i j :=
  Int.floor_nonneg.2 (by have := div_pos (hpos (i * m + j)) hx; linarith)

theorem onBins_of_nonneg {a : ℤ} {δ : ℝ} {m : ℕ} {z : Fin m → ℤ} (h : ∀ j, 0 ≤ z j) : OnBins (a * δ) δ (binMags a δ z) := by
  intro v hv
  obtain ⟨q, hq, rfl⟩ := List.mem_map.1 hv
  obtain ⟨j, rfl⟩ := List.mem_ofFn.1 hq
  refine ⟨(z j).toNat, ?_⟩
  have : (((z j).toNat : ℕ) : ℝ) = ((z j : ℤ) : ℝ) := by exact_mod_cast Int.toNat_of_nonneg (h j)
  rw [this]; push_cast; ring

/-- C101: level of `ks_test_gr` for a known b-value (warnings off). -/
theorem C101_level [IsProbabilityMeasure P] (hg : Spec.RandomDraws P g) {b δ : ℝ} (a : ℤ) (hb : 0 < b) (hδ : 1 / 10 ^ 12 ≤ δ) {m n : ℕ} (hm : 0 < m) (hn : 0 < n) (k : ℕ) :
    P.real {ω | ∃ p d ds, ksOnSimulated false b (a * δ) δ m n (g ω) = .ok (.fin p, d, ds) ∧ p ≤ (k : ℝ) / n} ≤ ((k : ℝ) + 1) / (n + 1) + 1 / (1000 * m * n) := by
  have hp : 0 < δ := lt_of_lt_of_le (by positivity) hδ
  have hβ : 0 < b * Real.log 10 := mul_pos hb log_ten_pos
  set x := b * Real.log 10 * δ with hxd
  have hx : 0 < x := mul_pos hβ hp
  set ε : ℝ := 1 / 10 ^ 12 with hε
  have hm1 : (1 : ℝ) ≤ m := by exact_mod_cast hm
  have hn1 : (1 : ℝ) ≤ n := by exact_mod_cast hn
  have hmn : (1 : ℝ) ≤ m * n := by nlinarith
  set L := Real.log (m * n * 1000) with hL
  have hL0 : 0 ≤ L := Real.log_nonneg (by linarith)
  set top := (a : ℝ) * δ + L / Real.log 10 / b with htop
  have hmax : ∀ s : List ℝ, s.length = m → maxConsidered (.fin b) s.length n (a * δ) = .ok top := by
    intro s hs
    unfold maxConsidered
    dsimp only
    rw [if_neg hb.ne', if_neg (by rw [hs]; exact (Nat.mul_pos hm hn).ne'), htop, hs, hL]
    congr 1; field_simp; ring
  have hge : (a : ℝ) * δ ≤ top := by
    have : 0 ≤ L / Real.log 10 / b := div_nonneg (div_nonneg hL0 log_ten_pos.le) hb.le
    rw [htop]; linarith
  obtain ⟨N, hN, hbins, hk⟩ := ksBins_grid a hδ hge
  set Z := hitBins g x ε n m with hZd
  have hZ : Measurable Z := hitBins_measurable hg x ε n m
  set T : (Fin m → ℤ) → Option ℝ := fun z => distOf (grid a (N + 1) δ) (a * δ) δ (.fin (b * Real.log 10)) (binMags a δ z) with hT
  have hrank := rank_bound (P := P) hZ (hitBins_exchangeable hg x ε n m) T k
  -- samples without a distance
  have hnone : ∀ ω, (∀ i, 0 < (g ω).expo i) → T (Z ω 0) = none → L ≤ (g ω).expo 0 := by
    intro ω hpos h
    by_contra hlt
    have hbin := onBins_of_nonneg (a := a) (δ := δ) (z := Z ω 0) (fun j => hitBins_nonneg hpos hx (by rw [hε]; positivity) 0 j)
    have hz0 : Z ω 0 ⟨0, hm⟩ = ⌊(g ω).expo 0 / x + ε⌋ := by rw [hZd]; unfold hitBins; simp
    have hz := hitBins_nonneg hpos hx (show 0 ≤ ε by rw [hε]; positivity) (0 : Fin (n + 1)) (⟨0, hm⟩ : Fin m)
    rw [← hZd] at hz
    have hlow : ((Z ω 0 ⟨0, hm⟩ : ℤ) : ℝ) * δ < L / Real.log 10 / b + δ / 2 := by
      have h1 : ((Z ω 0 ⟨0, hm⟩ : ℤ) : ℝ) ≤ (g ω).expo 0 / x + ε := by rw [hz0]; exact Int.floor_le _
      have h2 : (g ω).expo 0 / x < L / x := div_lt_div_of_pos_right (not_le.1 hlt) hx
      have h3 : L / x * δ = L / Real.log 10 / b := by rw [hxd]; field_simp
      have h4 : ((Z ω 0 ⟨0, hm⟩ : ℤ) : ℝ) * δ < (L / x + ε) * δ := mul_lt_mul_of_pos_right (by linarith) hp
      have h5 : ε ≤ 1 / 2 := by rw [hε]; norm_num
      nlinarith
    have hkN : (Z ω 0 ⟨0, hm⟩).toNat < N := by
      rw [hk]
      have : (((Z ω 0 ⟨0, hm⟩).toNat : ℕ) : ℝ) = ((Z ω 0 ⟨0, hm⟩ : ℤ) : ℝ) := by exact_mod_cast Int.toNat_of_nonneg hz
      rw [this, htop]; linarith
    obtain ⟨D, hD, -⟩ := ksDistance_grid a N hN hp (β := b * Real.log 10) hbin (w := effWeights (binMags a δ (Z ω 0)) none) (by simp [effWeights]) (weightOf_ones_pos (by
      refine ⟨((a + Z ω 0 ⟨0, hm⟩ : ℤ) : ℝ) * δ, List.mem_map.2 ⟨_, List.mem_ofFn.2 ⟨⟨0, hm⟩, rfl⟩, rfl⟩, ?_⟩
      have h1 : Z ω 0 ⟨0, hm⟩ ≤ ((N - 1 : ℕ) : ℤ) := by omega
      have h2 : ((Z ω 0 ⟨0, hm⟩ : ℤ) : ℝ) ≤ ((N - 1 : ℕ) : ℝ) := by exact_mod_cast h1
      push_cast
      nlinarith))
    rw [hT] at h
    simp only [distOf, onesLike_eq, hD] at h
    cases h
  -- the event
  have hsub : ∀ᵐ ω ∂P, (∃ p d ds, ksOnSimulated false b (a * δ) δ m n (g ω) = .ok (.fin p, d, ds) ∧ p ≤ (k : ℝ) / n) →
      ((∃ D, T (Z ω 0) = some D) ∧ notSmaller (T ∘ Z ω) 0 ≤ k) ∨ L ≤ (g ω).expo 0 := by
    filter_upwards [all_pos hg] with ω hpos
    rintro ⟨p, d, ds, h, hle⟩
    cases hT0 : T (Z ω 0) with
    | none => exact Or.inr (hnone ω hpos hT0)
    | some D =>
      refine Or.inl ⟨⟨D, rfl⟩, ?_⟩
      rw [ksOnSimulated_eq false ω a hb hδ] at h
      have h' : ksTestCore (binMags a δ (Z ω 0)) (a * δ) δ (.fin b) none ((List.finRange n).map fun i => binMags a δ (Z ω i.succ)) none = .ok (.fin p, d, ds) := h
      obtain ⟨top', xb, e1, e2, e3, e4, e5⟩ := ksTest_parts h'
      rw [List.length_map, List.length_finRange, hmax _ (by simp [binMags])] at e1
      cases e1
      rw [hbins] at e2
      cases e2
      have hd : d = .fin D := by
        rw [hT] at hT0
        simp only [distOf] at hT0
        rw [show ((.fin (b * Real.log 10)) : Fl ℝ) = BValue.bToBeta (.fin b) from rfl, e4] at hT0
        cases d <;> simp_all
      have hlen : ds.length = n := by rw [← e3.length_eq]; simp
      have hcount : ds.countP (fun y => Fl.ge y d) ≤ k := by
        unfold pValue at e5
        rw [if_neg (by intro h0; rw [h0] at hlen; simp at hlen; omega)] at e5
        injection e5 with e5
        injection e5 with e5
        rw [← e5, hlen, div_le_div_iff_of_pos_right (by linarith)] at hle
        exact_mod_cast hle
      refine le_trans ?_ hcount
      -- the others
      have hds : ds = (List.finRange n).map fun i : Fin n => ds.getD (i : ℕ) .nan := by
        apply List.ext_getElem
        · simp [hlen]
        · intro i h1 h2
          simp [h1]
      have hcard : notSmaller (T ∘ Z ω) 0 = (Finset.univ.filter fun i : Fin n => ∃ D', T (Z ω i.succ) = some D' ∧ D ≤ D').card := by
        unfold notSmaller
        symm
        refine Finset.card_bij (fun i _ => i.succ) ?_ (fun a _ b _ h => Fin.succ_injective _ h) ?_
        · intro i hi
          simp only [Finset.mem_filter, Finset.mem_univ, true_and, Finset.mem_erase, and_true, Function.comp] at hi ⊢
          obtain ⟨D', h1, h2⟩ := hi
          exact ⟨Fin.succ_ne_zero i, D, D', hT0, h1, h2⟩
        · intro i hi
          simp only [Finset.mem_filter, Finset.mem_univ, true_and, Finset.mem_erase, and_true, Function.comp] at hi ⊢
          obtain ⟨h0, D1, D', h1, h2, h3⟩ := hi
          obtain ⟨j, rfl⟩ := Fin.exists_succ_eq.2 h0
          rw [hT0] at h1
          cases h1
          exact ⟨j, ⟨D', h2, h3⟩, rfl⟩
      rw [hcard, card_countP, hds, List.countP_map]
      apply List.countP_mono_left
      intro i _ hi
      rw [decide_eq_true_iff] at hi
      obtain ⟨D', h1, h2⟩ := hi
      have hi' := (List.forall₂_iff_get.1 e3).2 i (by simp) (by rw [hlen]; exact i.2)
      have hg' : ds.getD i .nan = .fin D' := by
        rw [hT] at h1
        simp only [distOf] at h1
        simp only [List.get_eq_getElem, List.getElem_map, List.getElem_finRange, Fin.cast_mk] at hi'
        rw [show ((.fin (b * Real.log 10)) : Fl ℝ) = BValue.bToBeta (.fin b) from rfl] at h1
        rw [show binMags a δ (Z ω (Fin.succ ⟨(i : ℕ), i.2⟩)) = binMags a δ (Z ω i.succ) from rfl] at hi'
        rw [hi'] at h1
        have e : ds.getD i .nan = ds[(i : ℕ)]'(by rw [hlen]; exact i.2) := by simp [hlen]
        rw [e]
        clear e
        revert h1
        generalize ds[(i : ℕ)]'(by rw [hlen]; exact i.2) = y
        intro h1
        cases y with
        | fin v => injection h1 with h1; rw [h1]
        | nan => cases h1
        | pinf => cases h1
        | ninf => cases h1
      simp only [Function.comp, hg', hd, Fl.ge]
      exact decide_eq_true h2
  have hbad : P.real {ω | L ≤ (g ω).expo 0} ≤ 1 / (1000 * m * n) := by
    have h1 : P {ω | L ≤ (g ω).expo 0} = ENNReal.ofReal (Real.exp (-L)) := by
      rw [← exp_tail hL0, ← hg.expo_law 0, Measure.map_apply (hg.expo_measurable 0) measurableSet_Ici]
      rfl
    unfold Measure.real
    rw [h1, ENNReal.toReal_ofReal (Real.exp_pos _).le, Real.exp_neg, hL, Real.exp_log (by linarith)]
    rw [← one_div]
    apply le_of_eq
    congr 1; ring
  have hmono : P.real {ω | ∃ p d ds, ksOnSimulated false b (a * δ) δ m n (g ω) = .ok (.fin p, d, ds) ∧ p ≤ (k : ℝ) / n} ≤
      P.real ({ω | (∃ D, T (Z ω 0) = some D) ∧ notSmaller (T ∘ Z ω) 0 ≤ k} ∪ {ω | L ≤ (g ω).expo 0}) := by
    unfold Measure.real
    exact ENNReal.toReal_mono (measure_ne_top P _) (measure_mono_ae hsub)
  refine hmono.trans ((measureReal_union_le _ _).trans ?_)
  linarith

/-! ### estimate_mc_ks -/

theorem cumsumFrom_length (acc : ℝ) (l : List ℝ) : (cumsumFrom acc l).length = l.length := by
  induction l generalizing acc with
  | nil => rfl
  | cons a l ih => simp [cumsumFrom, ih]

theorem ksDistance_ok (a : ℤ) {N : ℕ} (hN : 1 ≤ N) {δ : ℝ} (hδ : 0 < δ) (s : List ℝ) (β : Fl ℝ) :
    ∃ d, ksDistance s (onesLike none s) (grid a (N + 1) δ) (a * δ) δ β = .ok d := by
  unfold ksDistance
  rw [if_neg (by simp [onesLike]), if_neg (by rw [List.map_eq_nil_iff, ← List.length_eq_zero_iff, grid_length]; omega)]
  have hd : (grid a (N + 1) δ).dropLast = grid a N δ := by
    rw [List.dropLast_eq_take, grid_length, Nat.add_sub_cancel, grid_take a _ N δ (by omega)]
  have hl2 : (cdfDiscreteExp (grid a (N + 1) δ).dropLast (a * δ) δ β).2.length = N := by
    unfold cdfDiscreteExp
    rw [hd, uniqueSorted_of_sorted (grid_sorted a N hδ)]
    simp [grid_length]
  have hl1 : (histogram s (onesLike none s) ((grid a (N + 1) δ).map fun e => e - δ / 2)).length = N := by
    unfold histogram
    simp [grid_length]
  dsimp only
  cases h : List.zipWith (fun a b => (Fl.sub a b).abs)
      ((cumsumFrom 0 (histogram s (onesLike none s) ((grid a (N + 1) δ).map fun e => e - δ / 2))).map fun c =>
        Fl.div c (histogram s (onesLike none s) ((grid a (N + 1) δ).map fun e => e - δ / 2)).sum)
      (cdfDiscreteExp (grid a (N + 1) δ).dropLast (a * δ) δ β).2 with
  | nil =>
    have := congrArg List.length h
    rw [List.length_zipWith, List.length_map, cumsumFrom_length, hl1, hl2] at this
    simp at this
    omega
  | cons x r => exact ⟨_, rfl⟩

/-- The test never raises for a positive bin width, a positive b-value and samples that are not empty. -/
theorem ksTest_ok {a : ℤ} {δ b : ℝ} (hδ : 1 / 10 ^ 12 ≤ δ) (hb : 0 < b) {mags : List ℝ} {sims : List (List ℝ)} (hne : mags ≠ []) (hs : sims ≠ []) :
    ∃ q d ds, ksTest false mags (a * δ) δ (.fin b) none sims none = .ok (.fin q, d, ds) := by
  have hp : 0 < δ := lt_of_lt_of_le (by positivity) hδ
  have hn : mags.length * sims.length ≠ 0 :=
    Nat.mul_ne_zero (List.length_pos_iff.2 hne).ne' (List.length_pos_iff.2 hs).ne'
  set top := 1 / b * (Real.log (mags.length * sims.length * 1000) / Real.log 10) + (a : ℝ) * δ with htop
  have hmax : maxConsidered (.fin b) mags.length sims.length (a * δ) = .ok top := by
    unfold maxConsidered
    dsimp only
    rw [if_neg hb.ne', if_neg hn]
  have hge : (a : ℝ) * δ ≤ top := by
    have h1 : (1 : ℝ) ≤ mags.length * sims.length := by exact_mod_cast Nat.one_le_iff_ne_zero.2 hn
    have h2 : 0 ≤ Real.log (mags.length * sims.length * 1000) := Real.log_nonneg (by linarith)
    have h3 := log_ten_pos
    have : 0 ≤ 1 / b * (Real.log (mags.length * sims.length * 1000) / Real.log 10) := by positivity
    rw [htop]; linarith
  obtain ⟨N, hN, hbins, -⟩ := ksBins_grid a hδ hge
  obtain ⟨d, hd⟩ := ksDistance_ok a hN hp mags (BValue.bToBeta (.fin b))
  obtain ⟨ds, hds, hF⟩ := mapM_rel (R := fun _ _ => True) sims (fun s => ksDistance s (onesLike none s) (grid a (N + 1) δ) (a * δ) δ (BValue.bToBeta (.fin b)))
    (fun s _ => (ksDistance_ok a hN hp s (BValue.bToBeta (.fin b))).imp fun d h => ⟨h, trivial⟩)
  refine ⟨(ds.countP fun x => Fl.ge x d : ℕ) / (ds.length : ℝ), d, ds, ?_⟩
  unfold ksTest ksGuard
  simp only [Bool.false_eq_true, if_false]
  unfold ksTestCore
  simp only [Bind.bind, Except.bind, pure, Except.pure, hmax, hbins, hds, hd]
  unfold pValue
  rw [if_neg]
  rintro rfl
  exact hs (List.length_eq_zero_iff.1 hF.length_eq)

theorem freshLoop_reach {test : ℕ → ℝ → Py Tested} {pPass : ℝ} (l : List ℝ) : ∀ (i j : ℕ) (hj : j < l.length),
    (∀ j' (h : j' ≤ j), ∃ t, test (i + j') (l[j']'(by omega)) = .ok t) → (∀ t, test (i + j) l[j] = .ok t → passes pPass t = true) →
    ∃ r, freshLoop test pPass true i l = .ok r ∧ ∃ t, ∃ j', ∃ h : j' ≤ j, test (i + j') (l[j']'(by omega)) = .ok t ∧ r.find? (passes pPass) = some t := by
  induction l with
  | nil => intro i j hj; simp at hj
  | cons mc l ih =>
    intro i j hj hok hpass
    obtain ⟨t, ht⟩ := hok 0 (Nat.zero_le _)
    simp only [Nat.add_zero, List.getElem_cons_zero] at ht
    unfold freshLoop
    rw [ht]
    dsimp only
    by_cases hp : passes pPass t = true
    · rw [hp]
      simp only [Bool.and_self, if_true]
      exact ⟨[t], rfl, t, 0, Nat.zero_le _, by simpa using ht, by simp [hp]⟩
    · have hj0 : j ≠ 0 := by
        rintro rfl
        exact hp (hpass t (by simpa using ht))
      obtain ⟨j, rfl⟩ := Nat.exists_eq_succ_of_ne_zero hj0
      obtain ⟨r, hr, t', j', hj', h1, h2⟩ := ih (i + 1) j (by simpa using hj)
        (fun j' hj' => by
          obtain ⟨t, h⟩ := hok (j' + 1) (by omega)
          refine ⟨t, ?_⟩
          rw [show i + 1 + j' = i + (j' + 1) by omega]
          simpa using h)
        (fun t h => hpass t (by rw [show i + 1 + j = i + (j + 1) by omega] at h; simpa using h))
      rw [if_neg (by simp [hp]), hr]
      refine ⟨t :: r, rfl, t', j' + 1, by omega, ?_, ?_⟩
      · rw [show i + 1 + j' = i + (j' + 1) by omega] at h1
        simpa using h1
      · rw [List.find?_cons_of_neg (by simpa using hp)]
        exact h2

/-- `estimate_mc_ks` with a known b-value on simulated data, stopping at the first mc that passes. The sample consists of the first `m` magnitudes simulated above `mc`; the
`n` samples drawn for the test of `mc` follow, those drawn for the other candidates are `other`. -/
def mcKsOnSimulated (b mc δ pPass : ℝ) (mcs : List ℝ) (m n : ℕ) (other : ℕ → List (List ℝ)) (r : Rng) : Py KsResult := do
  let mags ← simulateBinned m (fun _ => b) mc δ none .bValue r
  let sims ← (List.range n).mapM fun i => simulateBinned m (fun _ => b) mc δ none .bValue (later r ((i + 1) * m))
  mcKs false true { mags := mags, δ := δ, mcs := some mcs, pPass := pPass, bValue := some (.fin b), sims := fun i => if i = (uniqueSorted mcs).idxOf mc then sims else other i }

/-- C101: if the magnitudes are simulated above `mc` with the b-value that is given, and `mc` is among the candidates, then `estimate_mc_ks` returns `mc` or a smaller
candidate, except for a probability of about `p_value_pass`. -/
theorem C101_mc [IsProbabilityMeasure P] (hg : Spec.RandomDraws P g) {b δ : ℝ} (a : ℤ) (hb : 0 < b) (hδ : 1 / 10 ^ 12 ≤ δ) {m n : ℕ} (hm : 0 < m) (hn : 0 < n)
    (pPass : ℝ) (mcs : List ℝ) (hmc : (a : ℝ) * δ ∈ mcs) (hgrid : ∀ v ∈ mcs, ∃ z : ℤ, v = z * δ) (other : Ω → ℕ → List (List ℝ)) (ho : ∀ ω i, other ω i ≠ []) :
    P.real {ω | ¬ ∃ r v, mcKsOnSimulated b (a * δ) δ pPass mcs m n (other ω) (g ω) = .ok r ∧ r.best = some v ∧ v ∈ mcs ∧ v ≤ a * δ} ≤
      (⌈pPass * n⌉₊ : ℝ) / (n + 1) + 1 / (1000 * m * n) := by
  have hp : 0 < δ := lt_of_lt_of_le (by positivity) hδ
  have hβ : 0 < b * Real.log 10 := mul_pos hb log_ten_pos
  have hx : 0 < b * Real.log 10 * δ := mul_pos hβ hp
  have hnR : (0 : ℝ) < n := by exact_mod_cast hn
  have hmR : (0 : ℝ) < m := by exact_mod_cast hm
  -- a passed test suffices
  have key : ∀ ω, (∀ i, 0 < (g ω).expo i) → (¬ ∃ r v, mcKsOnSimulated b (a * δ) δ pPass mcs m n (other ω) (g ω) = .ok r ∧ r.best = some v ∧ v ∈ mcs ∧ v ≤ a * δ) →
      ∃ p d ds, ksOnSimulated false b (a * δ) δ m n (g ω) = .ok (.fin p, d, ds) ∧ p < pPass := by
    intro ω hpos hbad
    set Z := hitBins g (b * Real.log 10 * δ) (1 / 10 ^ 12) n m ω with hZ
    set mags := binMags a δ (Z 0) with hmags
    set sims := (List.finRange n).map fun i => binMags a δ (Z i.succ) with hsims
    have hmne : mags ≠ [] := by
      rw [hmags, ← List.length_pos_iff]; simp [binMags, hm]
    have hsne : sims ≠ [] := by
      rw [hsims, ← List.length_pos_iff]; simp [hn]
    obtain ⟨q, d, ds, hq⟩ := ksTest_ok (a := a) hδ hb hmne hsne
    refine ⟨q, d, ds, by rw [ksOnSimulated_eq false ω a hb hδ]; exact hq, ?_⟩
    by_contra hlt
    rw [not_lt] at hlt
    apply hbad
    set A : KsArgs := { mags := mags, δ := δ, mcs := some mcs, pPass := pPass, bValue := some (.fin b), sims := fun i => if i = (uniqueSorted mcs).idxOf ((a : ℝ) * δ) then sims else other ω i } with hA
    have hrun : mcKsOnSimulated b (a * δ) δ pPass mcs m n (other ω) (g ω) = mcKs false true A := by
      unfold mcKsOnSimulated
      have h0 : simulateBinned m (fun _ => b) (a * δ) δ none .bValue (g ω) = .ok mags := by
        rw [hmags, hZ, ← simulate_block ω a hb hδ]
        congr 1
        unfold later
        simp
      have h1 : (List.range n).mapM (fun i => simulateBinned m (fun _ => b) (a * δ) δ none .bValue (later (g ω) ((i + 1) * m))) = .ok sims := by
        rw [hsims, mapM_ok_iff, List.forall₂_iff_get]
        refine ⟨by simp, ?_⟩
        intro i h1 h2
        have hi : i < n := by simpa using h1
        have := simulate_block (g := g) ω a hb hδ (n := n) (m := m) (Fin.succ ⟨i, hi⟩)
        simpa [hZ] using this
      rw [h0, h1]
      rfl
    have hmem : (a : ℝ) * δ ∈ uniqueSorted mcs := (mem_uniqueSorted _ _).2 hmc
    have hidx : (uniqueSorted mcs).idxOf ((a : ℝ) * δ) < (uniqueSorted mcs).length := List.idxOf_lt_length_of_mem hmem
    have hget : (uniqueSorted mcs)[(uniqueSorted mcs).idxOf ((a : ℝ) * δ)] = (a : ℝ) * δ := List.getElem_idxOf hidx
    have hsort := uniqueSorted_sorted mcs
    have hle : ∀ j' (h : j' ≤ (uniqueSorted mcs).idxOf ((a : ℝ) * δ)), (uniqueSorted mcs)[j']'(by omega) ≤ (a : ℝ) * δ := by
      intro j' h
      rcases Nat.lt_or_ge j' ((uniqueSorted mcs).idxOf ((a : ℝ) * δ)) with hlt | hge
      · exact (le_of_lt ((List.pairwise_iff_getElem.1 hsort) _ _ (by omega) hidx hlt)).trans_eq hget
      · have : j' = (uniqueSorted mcs).idxOf ((a : ℝ) * δ) := by omega
        subst this
        exact hget.le
    have hbin := onBins_of_nonneg (a := a) (δ := δ) (z := Z 0) (fun j => hitBins_nonneg hpos hx (by positivity) 0 j)
    have habove : ∀ v, v ≤ (a : ℝ) * δ → above mags v δ = mags := by
      intro v hv
      unfold above
      rw [List.filter_eq_self]
      intro u hu
      obtain ⟨k, rfl⟩ := hbin u hu
      rw [decide_eq_true_iff]
      have : (0 : ℝ) ≤ k * δ := by positivity
      linarith
    have htest : ∀ i v, v ≤ (a : ℝ) * δ → v ∈ mcs → ∃ q d ds, ksTest false mags v δ (.fin b) none (A.sims i) none = .ok (.fin q, d, ds) ∧ testAt false A i v = .ok ⟨v, .fin b, d, .fin q⟩ := by
      intro i v hv hvm
      obtain ⟨z, rfl⟩ := hgrid v hvm
      have hsi : A.sims i ≠ [] := by
        rw [hA]
        dsimp only
        split
        · exact hsne
        · exact ho ω i
      obtain ⟨q, d, ds, h⟩ := ksTest_ok (a := z) hδ hb hmne hsi
      refine ⟨q, d, ds, h, ?_⟩
      unfold testAt ksOne
      have e1 : bAt false A BValue.State.init (z * δ) = (BValue.State.init, .ok (.fin b)) := rfl
      have e2 : givenAt A i = .ok none := rfl
      have e3 : above A.mags (z * δ) A.δ = mags := habove _ hv
      have e4 : A.δ = δ := rfl
      have e5 : A.series = false := rfl
      rw [e1, e2, e3, e4, e5]
      simp only [Bind.bind, Except.bind, pure, Except.pure, ksTestOf_array, h]
    obtain ⟨r, hr, t, j', hj', h1, h2⟩ := freshLoop_reach (test := testAt false A) (pPass := pPass) (uniqueSorted mcs) 0 _ hidx
      (fun j' h => by
        obtain ⟨q, d, ds, -, h'⟩ := htest (0 + j') _ (hle j' h) ((mem_uniqueSorted mcs _).1 (List.getElem_mem _))
        exact ⟨_, h'⟩)
      (fun t ht => by
        rw [hget, Nat.zero_add] at ht
        obtain ⟨q', d', ds', h3, h4⟩ := htest ((uniqueSorted mcs).idxOf ((a : ℝ) * δ)) _ le_rfl hmc
        rw [h4] at ht
        cases ht
        have : A.sims ((uniqueSorted mcs).idxOf ((a : ℝ) * δ)) = sims := by rw [hA]; simp
        rw [this, hq] at h3
        cases h3
        unfold passes
        simp only [Fl.ge]
        exact decide_eq_true hlt)
    refine ⟨⟨(r.find? (passes A.pPass)).map Tested.mc, (r.find? (passes A.pPass)).map Tested.b, r⟩, t.mc, ?_, ?_, ?_⟩
    · rw [hrun]
      unfold mcKs
      have e1 : ksMcs A = .ok (uniqueSorted mcs) := rfl
      have e2 : ksChecks false A (uniqueSorted mcs) = .ok () := by
        unfold ksChecks
        rw [if_neg (by rw [hA]; simp)]
        rfl
      rw [e1]
      simp only [Bind.bind, Except.bind, e2]
      rw [ksLoop_fresh false A true _ _ .init 0]
      rw [show freshLoop (testAt false A) A.pPass true 0 (uniqueSorted mcs) = .ok r from hr]
      rfl
    · rw [show A.pPass = pPass from rfl, h2]; rfl
    · obtain ⟨q', d', ds', -, h4⟩ := htest (0 + j') _ (hle j' hj') ((mem_uniqueSorted mcs _).1 (List.getElem_mem _))
      rw [h4] at h1
      cases h1
      exact ⟨(mem_uniqueSorted mcs _).1 (List.getElem_mem _), hle j' hj'⟩
  -- probability
  by_cases hc0 : ⌈pPass * n⌉₊ = 0
  · have hpn : pPass ≤ 0 := by
      have := Nat.ceil_eq_zero.1 hc0
      by_contra h
      have := mul_pos (not_le.1 h) hnR
      linarith
    have hnull : P {ω | ¬ ∃ r v, mcKsOnSimulated b (a * δ) δ pPass mcs m n (other ω) (g ω) = .ok r ∧ r.best = some v ∧ v ∈ mcs ∧ v ≤ a * δ} = 0 := by
      refine measure_mono_null_ae (t := ∅) ?_ measure_empty
      filter_upwards [all_pos hg] with ω hpos hbad
      obtain ⟨p, d, ds, h1, h2⟩ := key ω hpos hbad
      rw [ksOnSimulated_eq false ω a hb hδ] at h1
      obtain ⟨q, hq, h0, -⟩ := C35_p_value h1
      cases hq
      linarith
    unfold Measure.real
    rw [hnull, ENNReal.toReal_zero]
    positivity
  · obtain ⟨k, hk⟩ := Nat.exists_eq_succ_of_ne_zero hc0
    have hlev := C101_level hg a hb hδ hm hn k
    rw [hk]
    push_cast
    refine le_trans ?_ hlev
    unfold Measure.real
    refine ENNReal.toReal_mono (measure_ne_top P _) (measure_mono_ae ?_)
    filter_upwards [all_pos hg] with ω hpos hbad
    obtain ⟨p, d, ds, h1, h2⟩ := key ω hpos hbad
    refine ⟨p, d, ds, h1, ?_⟩
    have h1' := h1
    rw [ksOnSimulated_eq false ω a hb hδ] at h1'
    obtain ⟨q, hq, -, -, hcase⟩ := C35_p_value h1'
    cases hq
    rcases hcase with ⟨hcnt, -, -, hlen⟩ | ⟨h, -⟩
    · rw [hlen rfl, List.length_map, List.length_finRange] at hcnt
      rw [hcnt, div_le_div_iff_of_pos_right hnR]
      have h3 : ((ds.countP fun x => Fl.ge x d : ℕ) : ℝ) < pPass * n := by
        rw [hcnt, div_lt_iff₀ hnR] at h2
        exact h2
      have h4 := Nat.lt_ceil.2 h3
      rw [hk] at h4
      exact_mod_cast Nat.lt_succ_iff.1 h4
    · cases h

/-! ### warnings on -/

/-- C101: with warnings on, the probability that all magnitudes of the sample are equal comes on top. -/
theorem C101_level_warnings [IsProbabilityMeasure P] (hg : Spec.RandomDraws P g) {b δ : ℝ} (a : ℤ) (hb : 0 < b) (hδ : 1 / 10 ^ 12 ≤ δ) {m n : ℕ} (hm : 0 < m) (hn : 0 < n)
    (k : ℕ) : P.real {ω | ∃ p d ds, ksOnSimulated true b (a * δ) δ m n (g ω) = .ok (.fin p, d, ds) ∧ p ≤ (k : ℝ) / n} ≤
      ((k : ℝ) + 1) / (n + 1) + 1 / (1000 * m * n) +
        P.real {ω | ∃ mags, simulateBinned m (fun _ => b) (a * δ) δ none .bValue (g ω) = .ok mags ∧ ∀ u ∈ mags, ∀ v ∈ mags, u = v} := by
  have hsub : {ω | ∃ p d ds, ksOnSimulated true b (a * δ) δ m n (g ω) = .ok (.fin p, d, ds) ∧ p ≤ (k : ℝ) / n} ⊆
      {ω | ∃ p d ds, ksOnSimulated false b (a * δ) δ m n (g ω) = .ok (.fin p, d, ds) ∧ p ≤ (k : ℝ) / n} ∪
        {ω | ∃ mags, simulateBinned m (fun _ => b) (a * δ) δ none .bValue (g ω) = .ok mags ∧ ∀ u ∈ mags, ∀ v ∈ mags, u = v} := by
    rintro ω ⟨p, d, ds, h, hle⟩
    by_cases hall : ∀ u ∈ binMags a δ (hitBins g (b * Real.log 10 * δ) (1 / 10 ^ 12) n m ω 0), ∀ v ∈ binMags a δ (hitBins g (b * Real.log 10 * δ) (1 / 10 ^ 12) n m ω 0), u = v
    · refine Or.inr ⟨_, ?_, hall⟩
      rw [← simulate_block ω a hb hδ]
      congr 1
      unfold later
      simp
    · refine Or.inl ⟨p, d, ds, ?_, hle⟩
      push Not at hall
      rw [ksOnSimulated_eq true ω a hb hδ, C35_option _ _ _ _ _ _ hall] at h
      rw [ksOnSimulated_eq false ω a hb hδ]
      exact h
  have h1 := (measureReal_mono hsub (measure_ne_top P _)).trans (measureReal_union_le _ _)
  have h2 := C101_level hg a hb hδ hm hn k
  linarith

/-- A finding about C101: with warnings on, a sample of one magnitude is rejected whatever it is. -/
theorem C101_single (r : Rng) {b δ : ℝ} (a : ℤ) (hb : 0 < b) (hδ : 1 / 10 ^ 12 ≤ δ) (n : ℕ) : ksOnSimulated true b (a * δ) δ 1 n r = .ok (.fin 0, .fin 1, []) := by
  rw [ksOnSimulated_eq (g := fun _ : Unit => r) true () a hb hδ]
  have : binMags a δ (hitBins (fun _ : Unit => r) (b * Real.log 10 * δ) (1 / 10 ^ 12) n 1 () 0) =
      [((a + hitBins (fun _ : Unit => r) (b * Real.log 10 * δ) (1 / 10 ^ 12) n 1 () 0 0 : ℤ) : ℝ) * δ] := by
    unfold binMags
    rw [List.ofFn_succ]
    simp
  rw [this]
  unfold ksTest ksGuard
  rw [uniqueSorted_of_sorted (List.pairwise_singleton _ _)]
  simp

/-- A case: 200 magnitudes with `mc = 2.0` in bins of 0.1 and 999 simulated samples: the p-value is at most 0.09 with a probability of at most 0.0901. -/
example [IsProbabilityMeasure P] (hg : Spec.RandomDraws P g) :
    P.real {ω | ∃ p d ds, ksOnSimulated false 1 ((20 : ℤ) * (1 / 10)) (1 / 10) 200 999 (g ω) = .ok (.fin p, d, ds) ∧ p ≤ ((89 : ℕ) : ℝ) / (999 : ℕ)} ≤ 901 / 10000 := by
  refine (C101_level hg 20 one_pos (by norm_num) (by norm_num) (by norm_num) 89).trans ?_
  norm_num

end
end SeismoStats.Props
